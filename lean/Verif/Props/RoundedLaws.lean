import Verif.Spec.Apart
import Verif.Props.Range

/-!
# Property C168: laws of matrix algebra up to rounding
-/

namespace MatrixLibs

set_option linter.unusedSectionVars false

open Standard (val u h d)

section chain
variable {ι : Type} [Fintype ι]

/-- Inner product with a vector that is known up to errors. -/
theorem chain_err {x x' s c : ι → ℝ} {α β γ δ P : ℝ} (hγ : 0 ≤ γ) (hx : ∀ l, |x' l - x l| ≤ α * s l + β) (hs : ∀ l, |x l| ≤ s l)
    (hP : |P - ∑ l, x' l * c l| ≤ γ * (∑ l, |x' l| * |c l|) + δ) :
    |P - ∑ l, x l * c l| ≤ ((1 + γ) * (1 + α) - 1) * (∑ l, s l * |c l|) + (1 + γ) * β * (∑ l, |c l|) + δ := by
  have h1 : |∑ l, x' l * c l - ∑ l, x l * c l| ≤ α * (∑ l, s l * |c l|) + β * ∑ l, |c l| := by
    rw [← Finset.sum_sub_distrib, Finset.mul_sum, Finset.mul_sum, ← Finset.sum_add_distrib]
    refine (Finset.abs_sum_le_sum_abs _ _).trans (Finset.sum_le_sum fun l _ => ?_)
    rw [← sub_mul, abs_mul]
    refine (mul_le_mul_of_nonneg_right (hx l) (abs_nonneg _)).trans (le_of_eq ?_)
    ring
  have h2 : ∑ l, |x' l| * |c l| ≤ (1 + α) * (∑ l, s l * |c l|) + β * ∑ l, |c l| := by
    rw [Finset.mul_sum, Finset.mul_sum, ← Finset.sum_add_distrib]
    refine Finset.sum_le_sum fun l _ => ?_
    have h3 : |x' l| ≤ (1 + α) * s l + β := by
      have := abs_add_le (x' l - x l) (x l)
      rw [sub_add_cancel] at this
      linarith [hx l, hs l]
    refine (mul_le_mul_of_nonneg_right h3 (abs_nonneg _)).trans (le_of_eq ?_)
    ring
  have h4 := mul_le_mul_of_nonneg_left h2 hγ
  have h5 := abs_sub_le P (∑ l, x' l * c l) (∑ l, x l * c l)
  nlinarith [h1, h4, h5, hP]

end chain

section
variable {T : Type} [Inhabited T] [CScalar T] [Standard T] {n m q p r c : Nat}

theorem growth_nonneg (k : Nat) : 0 ≤ (1 + u T) ^ k - 1 := by
  have := Standard.u_nonneg (T := T)
  have := one_le_pow₀ (a := 1 + u T) (by linarith) (n := k)
  linarith

/-- `(A B) C` is near the exact product of the three matrices. -/
theorem left_err {A : Mat T n m} {B : Mat T m q} {C : Mat T q p} {X : Mat T n q} {P : Mat T n p} (hX : mult A B = .ok X)
    (hP : mult X C = .ok P) (i : Fin n) (j : Fin p) :
    |val (P i j) - ∑ l, (∑ k, val (A i k) * val (B k l)) * val (C l j)| ≤
      ((1 + u T) ^ (m + q) - 1) * (∑ l, (∑ k, |val (A i k)| * |val (B k l)|) * |val (C l j)|) +
        (m * (1 + u T) ^ (m - 1) * (1 + u T) ^ q * (∑ l, |val (C l j)|) + q * (1 + u T) ^ (q - 1)) * h T := by
  have h1 := chain_err (x := fun l => ∑ k, val (A i k) * val (B k l)) (x' := fun l => val (X i l))
    (s := fun l => ∑ k, |val (A i k)| * |val (B k l)|) (c := fun l => val (C l j)) (growth_nonneg (T := T) q)
    (fun l => C150_mult A B X hX i l)
    (fun l => (Finset.abs_sum_le_sum_abs _ _).trans (le_of_eq (Finset.sum_congr rfl fun k _ => abs_mul _ _)))
    (C150_mult X C P hP i j)
  refine h1.trans (le_of_eq ?_)
  rw [pow_add]
  ring

/-- `A (B C)` is near the exact product of the three matrices. -/
theorem right_err {A : Mat T n m} {B : Mat T m q} {C : Mat T q p} {Y : Mat T m p} {Q : Mat T n p} (hY : mult B C = .ok Y)
    (hQ : mult A Y = .ok Q) (i : Fin n) (j : Fin p) :
    |val (Q i j) - ∑ k, (∑ l, val (B k l) * val (C l j)) * val (A i k)| ≤
      ((1 + u T) ^ (q + m) - 1) * (∑ k, (∑ l, |val (B k l)| * |val (C l j)|) * |val (A i k)|) +
        (q * (1 + u T) ^ (q - 1) * (1 + u T) ^ m * (∑ k, |val (A i k)|) + m * (1 + u T) ^ (m - 1)) * h T := by
  have h2 := C150_mult A Y Q hQ i j
  have h1 := chain_err (x := fun k => ∑ l, val (B k l) * val (C l j)) (x' := fun k => val (Y k j))
    (s := fun k => ∑ l, |val (B k l)| * |val (C l j)|) (c := fun k => val (A i k)) (P := val (Q i j))
    (δ := m * (1 + u T) ^ (m - 1) * h T) (growth_nonneg (T := T) m)
    (fun k => C150_mult B C Y hY k j)
    (fun l => (Finset.abs_sum_le_sum_abs _ _).trans (le_of_eq (Finset.sum_congr rfl fun k _ => abs_mul _ _)))
    (by
      rw [Finset.sum_congr rfl fun k _ => mul_comm (val (Y k j)) (val (A i k)),
        Finset.sum_congr rfl fun k _ => mul_comm |val (Y k j)| |val (A i k)|]
      exact h2)
  refine h1.trans (le_of_eq ?_)
  rw [pow_add]
  ring

/-- C168: the product of three matrices does not depend on the brackets, up to rounding. -/
theorem C168_assoc (A : Mat T n m) (B : Mat T m q) (C : Mat T q p) (X : Mat T n q) (Y : Mat T m p) (P Q : Mat T n p)
    (hX : mult A B = .ok X) (hP : mult X C = .ok P) (hY : mult B C = .ok Y) (hQ : mult A Y = .ok Q) (i : Fin n) (j : Fin p) :
    |val (P i j) - val (Q i j)| ≤
      2 * ((1 + u T) ^ (m + q) - 1) * (∑ k, ∑ l, |val (A i k)| * |val (B k l)| * |val (C l j)|) +
        (m * (1 + u T) ^ (m - 1) * ((1 + u T) ^ q * (∑ l, |val (C l j)|) + 1) +
          q * (1 + u T) ^ (q - 1) * ((1 + u T) ^ m * (∑ k, |val (A i k)|) + 1)) * h T := by
  have h1 := left_err hX hP i j
  have h2 := right_err hY hQ i j
  have e1 : ∑ l, (∑ k, val (A i k) * val (B k l)) * val (C l j) = ∑ k, (∑ l, val (B k l) * val (C l j)) * val (A i k) := by
    simp only [Finset.sum_mul]
    rw [Finset.sum_comm]
    exact Finset.sum_congr rfl fun k _ => Finset.sum_congr rfl fun l _ => by ring
  have e2 : ∑ l, (∑ k, |val (A i k)| * |val (B k l)|) * |val (C l j)| = ∑ k, ∑ l, |val (A i k)| * |val (B k l)| * |val (C l j)| := by
    simp only [Finset.sum_mul]
    rw [Finset.sum_comm]
  have e3 : ∑ k, (∑ l, |val (B k l)| * |val (C l j)|) * |val (A i k)| = ∑ k, ∑ l, |val (A i k)| * |val (B k l)| * |val (C l j)| := by
    simp only [Finset.sum_mul]
    exact Finset.sum_congr rfl fun k _ => Finset.sum_congr rfl fun l _ => by ring
  rw [e1, e2] at h1
  rw [e3, add_comm q m] at h2
  have h3 := abs_sub_le (val (P i j)) (∑ k, (∑ l, val (B k l) * val (C l j)) * val (A i k)) (val (Q i j))
  rw [abs_sub_comm] at h2
  refine h3.trans ((add_le_add h1 h2).trans (le_of_eq ?_))
  ring

/-- C168: products distribute over sums, up to rounding. -/
theorem C168_distrib (A : Mat T n m) (B C S : Mat T m p) (P X Y Q : Mat T n p) (hS : sum B C = .ok S) (hP : mult A S = .ok P)
    (hX : mult A B = .ok X) (hY : mult A C = .ok Y) (hQ : sum X Y = .ok Q) (i : Fin n) (j : Fin p) :
    |val (P i j) - val (Q i j)| ≤
      2 * ((1 + u T) ^ (m + 1) - 1) * (∑ k, |val (A i k)| * (|val (B k j)| + |val (C k j)|)) +
        (m * (1 + u T) ^ (m - 1) * (3 + 2 * u T)) * h T + ((1 + u T) ^ m * (∑ k, |val (A i k)|) + 1) * d T := by
  have hu := Standard.u_nonneg (T := T)
  have h1 := C150_mult A S P hP i j
  have h2 := chain_err (x := fun k => val (B k j) + val (C k j)) (x' := fun k => val (S k j))
    (s := fun k => |val (B k j)| + |val (C k j)|) (c := fun k => val (A i k)) (P := val (P i j)) (α := u T) (β := d T)
    (δ := m * (1 + u T) ^ (m - 1) * h T) (growth_nonneg (T := T) m)
    (fun k => (Standard.add (ew_ok (sum_elementwise B C) hS k j)).err.trans (by
      have := mul_le_mul_of_nonneg_left (abs_add_le (val (B k j)) (val (C k j))) hu
      linarith))
    (fun k => abs_add_le _ _)
    (by
      rw [Finset.sum_congr rfl fun k _ => mul_comm (val (S k j)) (val (A i k)),
        Finset.sum_congr rfl fun k _ => mul_comm |val (S k j)| |val (A i k)|]
      exact h1)
  have h3 := (Standard.add (ew_ok (sum_elementwise X Y) hQ i j)).err
  have h4 := C150_mult A B X hX i j
  have h5 := C150_mult A C Y hY i j
  have b1 : |∑ k, val (A i k) * val (B k j)| ≤ ∑ k, |val (A i k)| * |val (B k j)| :=
    (Finset.abs_sum_le_sum_abs _ _).trans (le_of_eq (Finset.sum_congr rfl fun k _ => abs_mul _ _))
  have b2 : |∑ k, val (A i k) * val (C k j)| ≤ ∑ k, |val (A i k)| * |val (C k j)| :=
    (Finset.abs_sum_le_sum_abs _ _).trans (le_of_eq (Finset.sum_congr rfl fun k _ => abs_mul _ _))
  have e1 : ∑ k, (val (B k j) + val (C k j)) * val (A i k) = ∑ k, val (A i k) * val (B k j) + ∑ k, val (A i k) * val (C k j) := by
    rw [← Finset.sum_add_distrib]
    exact Finset.sum_congr rfl fun k _ => by ring
  have e2 : ∑ k, (|val (B k j)| + |val (C k j)|) * |val (A i k)| =
      ∑ k, |val (A i k)| * |val (B k j)| + ∑ k, |val (A i k)| * |val (C k j)| := by
    rw [← Finset.sum_add_distrib]
    exact Finset.sum_congr rfl fun k _ => by ring
  have e3 : ∑ k, |val (A i k)| * (|val (B k j)| + |val (C k j)|) =
      ∑ k, |val (A i k)| * |val (B k j)| + ∑ k, |val (A i k)| * |val (C k j)| := by
    rw [← Finset.sum_add_distrib]
    exact Finset.sum_congr rfl fun k _ => by ring
  rw [e1, e2] at h2
  rw [e3]
  rw [pow_succ]
  generalize ∑ k, |val (A i k)| * |val (B k j)| = s1 at *
  generalize ∑ k, |val (A i k)| * |val (C k j)| = s2 at *
  generalize ∑ k, val (A i k) * val (B k j) = x1 at *
  generalize ∑ k, val (A i k) * val (C k j) = x2 at *
  generalize ∑ k, |val (A i k)| = a at *
  generalize (1 + u T) ^ m = g at *
  have e4 : (m : ℝ) * (1 + u T) ^ (m - 1) * (3 + 2 * u T) * h T = (3 + 2 * u T) * (m * (1 + u T) ^ (m - 1) * h T) := by ring
  rw [e4]
  generalize (m : ℝ) * (1 + u T) ^ (m - 1) * h T = η at *
  have c1 : |val (X i j) + val (Y i j) - (x1 + x2)| ≤ (g - 1) * (s1 + s2) + 2 * η := by
    have := abs_add_le (val (X i j) - x1) (val (Y i j) - x2)
    rw [show val (X i j) - x1 + (val (Y i j) - x2) = val (X i j) + val (Y i j) - (x1 + x2) by ring] at this
    linarith
  have c2 : |val (X i j) + val (Y i j)| ≤ g * (s1 + s2) + 2 * η := by
    have h6 := abs_add_le (val (X i j) + val (Y i j) - (x1 + x2)) (x1 + x2)
    rw [sub_add_cancel] at h6
    have h7 := abs_add_le x1 x2
    linarith
  have c3 := mul_le_mul_of_nonneg_left c2 hu
  have c4 := abs_sub_le (val (Q i j)) (val (X i j) + val (Y i j)) (x1 + x2)
  have c5 := abs_sub_le (val (P i j)) (x1 + x2) (val (Q i j))
  rw [abs_sub_comm (x1 + x2)] at c5
  nlinarith [h2, h3, c1, c3, c4, c5]

/-- C168: products distribute over sums on the left, up to rounding. -/
theorem C168_distrib_left (A B S : Mat T n m) (C : Mat T m p) (P X Y Q : Mat T n p) (hS : sum A B = .ok S) (hP : mult S C = .ok P)
    (hX : mult A C = .ok X) (hY : mult B C = .ok Y) (hQ : sum X Y = .ok Q) (i : Fin n) (j : Fin p) :
    |val (P i j) - val (Q i j)| ≤
      2 * ((1 + u T) ^ (m + 1) - 1) * (∑ k, (|val (A i k)| + |val (B i k)|) * |val (C k j)|) +
        (m * (1 + u T) ^ (m - 1) * (3 + 2 * u T)) * h T + ((1 + u T) ^ m * (∑ k, |val (C k j)|) + 1) * d T := by
  have hu := Standard.u_nonneg (T := T)
  have h2 := chain_err (x := fun k => val (A i k) + val (B i k)) (x' := fun k => val (S i k))
    (s := fun k => |val (A i k)| + |val (B i k)|) (c := fun k => val (C k j)) (P := val (P i j)) (α := u T) (β := d T)
    (δ := m * (1 + u T) ^ (m - 1) * h T) (growth_nonneg (T := T) m)
    (fun k => (Standard.add (ew_ok (sum_elementwise A B) hS i k)).err.trans (by
      have := mul_le_mul_of_nonneg_left (abs_add_le (val (A i k)) (val (B i k))) hu
      linarith))
    (fun k => abs_add_le _ _) (C150_mult S C P hP i j)
  have h3 := (Standard.add (ew_ok (sum_elementwise X Y) hQ i j)).err
  have h4 := C150_mult A C X hX i j
  have h5 := C150_mult B C Y hY i j
  have b1 : |∑ k, val (A i k) * val (C k j)| ≤ ∑ k, |val (A i k)| * |val (C k j)| :=
    (Finset.abs_sum_le_sum_abs _ _).trans (le_of_eq (Finset.sum_congr rfl fun k _ => abs_mul _ _))
  have b2 : |∑ k, val (B i k) * val (C k j)| ≤ ∑ k, |val (B i k)| * |val (C k j)| :=
    (Finset.abs_sum_le_sum_abs _ _).trans (le_of_eq (Finset.sum_congr rfl fun k _ => abs_mul _ _))
  simp only [add_mul, Finset.sum_add_distrib] at h2
  simp only [add_mul |val (A i _)|, Finset.sum_add_distrib]
  rw [pow_succ]
  generalize ∑ k, |val (A i k)| * |val (C k j)| = s1 at *
  generalize ∑ k, |val (B i k)| * |val (C k j)| = s2 at *
  generalize ∑ k, val (A i k) * val (C k j) = x1 at *
  generalize ∑ k, val (B i k) * val (C k j) = x2 at *
  generalize ∑ k, |val (C k j)| = a at *
  generalize (1 + u T) ^ m = g at *
  have e4 : (m : ℝ) * (1 + u T) ^ (m - 1) * (3 + 2 * u T) * h T = (3 + 2 * u T) * (m * (1 + u T) ^ (m - 1) * h T) := by ring
  rw [e4]
  generalize (m : ℝ) * (1 + u T) ^ (m - 1) * h T = η at *
  have c1 : |val (X i j) + val (Y i j) - (x1 + x2)| ≤ (g - 1) * (s1 + s2) + 2 * η := by
    have := abs_add_le (val (X i j) - x1) (val (Y i j) - x2)
    rw [show val (X i j) - x1 + (val (Y i j) - x2) = val (X i j) + val (Y i j) - (x1 + x2) by ring] at this
    linarith
  have c2 : |val (X i j) + val (Y i j)| ≤ g * (s1 + s2) + 2 * η := by
    have h6 := abs_add_le (val (X i j) + val (Y i j) - (x1 + x2)) (x1 + x2)
    rw [sub_add_cancel] at h6
    have h7 := abs_add_le x1 x2
    linarith
  have c3 := mul_le_mul_of_nonneg_left c2 hu
  have c4 := abs_sub_le (val (Q i j)) (val (X i j) + val (Y i j)) (x1 + x2)
  have c5 := abs_sub_le (val (P i j)) (x1 + x2) (val (Q i j))
  rw [abs_sub_comm (x1 + x2)] at c5
  nlinarith [h2, h3, c1, c3, c4, c5]

/-- C168: a scalar can be moved out of a product, up to rounding. -/
theorem C168_scale (A X : Mat T n m) (C : Mat T m p) (P Y Q : Mat T n p) (s : T) (hX : multScalar A s = .ok X)
    (hP : mult X C = .ok P) (hY : mult A C = .ok Y) (hQ : multScalar Y s = .ok Q) (i : Fin n) (j : Fin p) :
    |val (P i j) - val (Q i j)| ≤
      2 * ((1 + u T) ^ (m + 1) - 1) * (|val s| * ∑ k, |val (A i k)| * |val (C k j)|) +
        (m * (1 + u T) ^ (m - 1) * (1 + (1 + u T) * |val s|)) * h T +
        ((1 + u T) ^ m * (∑ k, |val (C k j)|) + 1) * Standard.e T := by
  have hu := Standard.u_nonneg (T := T)
  have h2 := chain_err (x := fun k => val (A i k) * val s) (x' := fun k => val (X i k))
    (s := fun k => |val (A i k) * val s|) (c := fun k => val (C k j)) (P := val (P i j)) (α := u T) (β := Standard.e T)
    (δ := m * (1 + u T) ^ (m - 1) * h T) (growth_nonneg (T := T) m)
    (fun k => (Standard.mul (ew_ok (multScalar_elementwise A s) hX i k)).err)
    (fun k => le_refl _) (C150_mult X C P hP i j)
  have h3 := (Standard.mul (ew_ok (multScalar_elementwise Y s) hQ i j)).err
  have h4 := C150_mult A C Y hY i j
  have b1 : |∑ k, val (A i k) * val (C k j)| ≤ ∑ k, |val (A i k)| * |val (C k j)| :=
    (Finset.abs_sum_le_sum_abs _ _).trans (le_of_eq (Finset.sum_congr rfl fun k _ => abs_mul _ _))
  have e1 : ∑ k, val (A i k) * val s * val (C k j) = (∑ k, val (A i k) * val (C k j)) * val s := by
    rw [Finset.sum_mul]
    exact Finset.sum_congr rfl fun k _ => by ring
  have e2 : ∑ k, |val (A i k) * val s| * |val (C k j)| = |val s| * ∑ k, |val (A i k)| * |val (C k j)| := by
    rw [Finset.mul_sum]
    exact Finset.sum_congr rfl fun k _ => by rw [abs_mul]; ring
  rw [e1, e2] at h2
  rw [pow_succ]
  generalize ∑ k, |val (A i k)| * |val (C k j)| = s1 at *
  generalize ∑ k, val (A i k) * val (C k j) = x1 at *
  generalize ∑ k, |val (C k j)| = a at *
  generalize (1 + u T) ^ m = g at *
  have e4 : (m : ℝ) * (1 + u T) ^ (m - 1) * (1 + (1 + u T) * |val s|) * h T =
      (1 + (1 + u T) * |val s|) * (m * (1 + u T) ^ (m - 1) * h T) := by ring
  rw [e4]
  generalize (m : ℝ) * (1 + u T) ^ (m - 1) * h T = η at *
  have hs := abs_nonneg (val s)
  have c1 : |val (Y i j) * val s - x1 * val s| ≤ ((g - 1) * s1 + η) * |val s| := by
    rw [← sub_mul, abs_mul]
    exact mul_le_mul_of_nonneg_right h4 hs
  have c2 : |val (Y i j) * val s| ≤ (g * s1 + η) * |val s| := by
    rw [abs_mul]
    refine mul_le_mul_of_nonneg_right ?_ hs
    have h6 := abs_add_le (val (Y i j) - x1) x1
    rw [sub_add_cancel] at h6
    linarith
  have c3 := mul_le_mul_of_nonneg_left c2 hu
  have c4 := abs_sub_le (val (Q i j)) (val (Y i j) * val s) (x1 * val s)
  have c5 := abs_sub_le (val (P i j)) (x1 * val s) (val (Q i j))
  rw [abs_sub_comm (x1 * val s)] at c5
  have c6 : |val (Q i j) - x1 * val s| ≤ u T * ((g * s1 + η) * |val s|) + Standard.e T + ((g - 1) * s1 + η) * |val s| := by linarith
  refine c5.trans ((add_le_add h2 c6).trans (le_of_eq ?_))
  ring

/-- C168: sums of three matrices do not depend on the brackets, up to rounding. -/
theorem C168_sum_assoc (A B C X Y P Q : Mat T r c) (hX : sum A B = .ok X) (hP : sum X C = .ok P) (hY : sum B C = .ok Y)
    (hQ : sum A Y = .ok Q) (i : Fin r) (j : Fin c) :
    |val (P i j) - val (Q i j)| ≤
      2 * ((1 + u T) ^ 2 - 1) * (|val (A i j)| + |val (B i j)| + |val (C i j)|) + 2 * (2 + u T) * d T := by
  have hu := Standard.u_nonneg (T := T)
  have hd := Standard.d_nonneg (T := T)
  have h1 := (Standard.add (ew_ok (sum_elementwise A B) hX i j)).err
  have h2 := (Standard.add (ew_ok (sum_elementwise X C) hP i j)).err
  have h3 := (Standard.add (ew_ok (sum_elementwise B C) hY i j)).err
  have h4 := (Standard.add (ew_ok (sum_elementwise A Y) hQ i j)).err
  generalize val (A i j) = a at *
  generalize val (B i j) = b at *
  generalize val (C i j) = g at *
  generalize val (X i j) = x at *
  generalize val (Y i j) = y at *
  have one : ∀ a b g x p : ℝ, |x - (a + b)| ≤ u T * |a + b| + d T → |p - (x + g)| ≤ u T * |x + g| + d T →
      |p - (a + b + g)| ≤ ((1 + u T) ^ 2 - 1) * (|a| + |b| + |g|) + (2 + u T) * d T := by
    intro a b g x p h1 h2
    have k1 := abs_add_le a b
    have k2 := mul_le_mul_of_nonneg_left k1 hu
    have k3 : |x + g| ≤ (1 + u T) * (|a| + |b|) + d T + |g| := by
      have k4 := abs_add_le (x - (a + b)) (a + b)
      rw [sub_add_cancel] at k4
      have k5 := abs_add_le x g
      linarith
    have k6 := mul_le_mul_of_nonneg_left k3 hu
    have k7 := abs_sub_le p (x + g) (a + b + g)
    rw [show x + g - (a + b + g) = x - (a + b) by ring] at k7
    have k8 : 0 ≤ u T * |g| := mul_nonneg hu (abs_nonneg g)
    have k9 : 0 ≤ u T * (u T * |g|) := mul_nonneg hu k8
    nlinarith [h1, h2, k2, k6, k7, k8, k9]
  have l1 := one a b g x _ h1 h2
  have l2 := one b g a y _ h3 (by rwa [add_comm y a])
  rw [show b + g + a = a + b + g by ring, show |b| + |g| + |a| = |a| + |b| + |g| by ring, abs_sub_comm] at l2
  have l3 := abs_sub_le (val (P i j)) (a + b + g) (val (Q i j))
  linarith

/-- C168: `strassen` and `*` give the same product, up to rounding. -/
theorem C168_strassen (A B P Q : Mat T 2 2) (α β : ℝ) (hα : ∀ i j, |val (A i j)| ≤ α) (hβ : ∀ i j, |val (B i j)| ≤ β)
    (hP : strassen A B = .ok P) (hQ : mult A B = .ok Q) (i j : Fin 2) :
    |val (P i j) - val (Q i j)| ≤ (((1 + u T) ^ 6 - 1) * 12 + ((1 + u T) ^ 2 - 1) * 2) * (α * β) +
      (1 + u T) ^ 5 * (5 * (α + β) * d T + 2 * d T ^ 2 + 4 * h T) + 2 * (1 + u T) * h T := by
  have h1 := C160_strassen A B P α β hα hβ hP i j
  have h2 := C150_mult A B Q hQ i j
  have h3 : ∑ k, |val (A i k)| * |val (B k j)| ≤ 2 * (α * β) := by
    rw [Fin.sum_univ_two]
    have h4 : ∀ k, |val (A i k)| * |val (B k j)| ≤ α * β := fun k =>
      mul_le_mul (hα i k) (hβ k j) (abs_nonneg _) ((abs_nonneg _).trans (hα i k))
    linarith [h4 0, h4 1]
  have h5 := mul_le_mul_of_nonneg_left h3 (growth_nonneg (T := T) 2)
  have e1 : (A.map val * B.map val) i j = ∑ k, val (A i k) * val (B k j) := rfl
  rw [e1] at h1
  rw [abs_sub_comm] at h2
  have h6 := abs_sub_le (val (P i j)) (∑ k, val (A i k) * val (B k j)) (val (Q i j))
  rw [show ((2 : Nat) : ℝ) * (1 + u T) ^ (2 - 1) = 2 * (1 + u T) by norm_num] at h2
  linarith

end

/-! ## In the floating point environments -/

section
open Fl Range FpEnv
variable {F : Fmt} {n m q p : Nat} {x y z : ℝ} (e : FpEnv)

/-- C168: bounded elements: both products of three matrices are returned, without overflow, and they are near each other. -/
theorem C168_env_assoc (A : Mat (Fl F) n m) (B : Mat (Fl F) m q) (C : Mat (Fl F) q p) (t t' s s' : ℤ) (hA : ElementsAtMost x A)
    (hB : ElementsAtMost y B) (hC : ElementsAtMost z C) (hxy : x * y ≤ 2 ^ t) (h1 : F.Room m t) (hxyz : m * 2 ^ t * z ≤ 2 ^ t')
    (h2 : F.Room q t') (hyz : y * z ≤ 2 ^ s) (h3 : F.Room q s) (hxyz' : x * (q * 2 ^ s) ≤ 2 ^ s') (h4 : F.Room m s') :
    ∃ (X : Mat (Fl F) n q) (Y : Mat (Fl F) m p) (P Q : Mat (Fl F) n p), mult (T := InEnv e F) A B = .ok X ∧
      mult (T := InEnv e F) X C = .ok P ∧ mult (T := InEnv e F) B C = .ok Y ∧ mult (T := InEnv e F) A Y = .ok Q ∧
      ∀ i j, |e.val (P i j) - e.val (Q i j)| ≤
        2 * ((1 + e.u F) ^ (m + q) - 1) * (∑ k, ∑ l, |e.val (A i k)| * |e.val (B k l)| * |e.val (C l j)|) +
          (m * (1 + e.u F) ^ (m - 1) * ((1 + e.u F) ^ q * (∑ l, |e.val (C l j)|) + 1) +
            q * (1 + e.u F) ^ (q - 1) * ((1 + e.u F) ^ m * (∑ k, |e.val (A i k)|) + 1)) * e.eta F := by
  obtain ⟨X, a1, a2, a3⟩ := C164_mult e A B hA hB hxy h1
  obtain ⟨P, b1, b2, _⟩ := C164_mult e X C a3 hC hxyz h2
  obtain ⟨Y, c1, c2, c3⟩ := C164_mult e B C hB hC hyz h3
  obtain ⟨Q, d1, d2, _⟩ := C164_mult e A Y hA c3 hxyz' h4
  refine ⟨X, Y, P, Q, a2, b2, c2, d2, fun i j => ?_⟩
  rw [← trapped_h]
  exact C168_assoc (T := Trapped e F) A B C X Y P Q a1 b1 c1 d1 i j

/-- C168: `pow(A, q) * A` and `pow(A, q + 1)` are returned, without overflow, and are near each other. -/
theorem C168_pow_succ (handled : Option Exc) (w : Nat) (A : Mat (Fl F) n n) (s t q : Nat) (hn : n ≤ 2 ^ s) (hs : s ≤ F.p)
    (hA : ElementsAtMost (2 ^ t) A) (hq : 1 ≤ q) (hr : (2 : ℝ) ^ (s * q + t * (q + 1)) ≤ F.largest) :
    ∃ X P Q : Mat (Fl F) n n, pow (T := InEnv e F) handled w A q = .ok X ∧ mult (T := InEnv e F) X A = .ok P ∧
      pow (T := InEnv e F) handled w A ((q + 1 : Nat) : Int) = .ok Q ∧
      ∀ i j, |e.val (P i j) - e.val (Q i j)| ≤
        ((1 + e.u F) ^ (n * q) - 1) * ((A.map fun x => |e.val x|) ^ (q + 1)) i j +
          (1 + e.u F) ^ n * powError e F n s t q 0 * (∑ l, |e.val (A l j)|) + n * (1 + e.u F) ^ (n - 1) * e.eta F +
        powError e F n s t (q + 1) (((A.map fun x => |e.val x|) ^ (q + 1)) i j) := by
  have hle : s * (q - 1) + t * q ≤ s * q + t * (q + 1) := by
    have h1 : s * (q - 1) ≤ s * q := Nat.mul_le_mul_left s (Nat.sub_le q 1)
    have h2 : t * q ≤ t * (q + 1) := Nat.mul_le_mul_left t (Nat.le_succ q)
    omega
  have hr1 : (2 : ℝ) ^ (s * (q - 1) + t * q) ≤ F.largest := (pow_le_pow_right₀ (by norm_num) hle).trans hr
  obtain ⟨X, -, a2, a3⟩ := C164_pow e handled w A s t q hn hs hA hq hr1
  obtain ⟨X', a4, a5⟩ := C164_pow_accurate e handled w A s t q hn hs hA hq hr1
  obtain ⟨Q, b1, b2⟩ := C164_pow_accurate e handled w A s t (q + 1) hn hs hA (by omega) (by simpa using hr)
  rw [a2] at a4
  cases a4
  have hroom : F.Room n ((s * (q - 1) + t * (q + 1) : Nat) : ℤ) := by
    have hp := F.hp
    have he := F.he
    refine ⟨hn.trans (Nat.pow_le_pow_right (by norm_num) hs), by omega, ?_⟩
    have hn' : (n : ℝ) ≤ 2 ^ s := by exact_mod_cast hn
    rw [zpow_natCast]
    refine (mul_le_mul_of_nonneg_right hn' (by positivity)).trans ?_
    rw [← pow_add]
    refine le_trans (le_of_eq ?_) hr
    congr 1
    obtain ⟨k, rfl⟩ : ∃ k, q = k + 1 := ⟨q - 1, by omega⟩
    simp only [Nat.add_sub_cancel]
    ring
  obtain ⟨P, c1, c2, -⟩ := C164_mult e X A a3 hA (t := ((s * (q - 1) + t * (q + 1) : Nat) : ℤ)) (le_of_eq (by
    rw [zpow_natCast, ← pow_add]
    congr 1
    ring)) hroom
  refine ⟨X, P, Q, a2, c2, b1, fun i j => ?_⟩
  have d1 := (C151_mult e X A P c1).2 i j
  have hu : 0 ≤ e.u F := e.u_nonneg
  have hg : 0 ≤ (1 + e.u F) ^ n - 1 := by
    have := one_le_pow₀ (a := 1 + e.u F) (by linarith) (n := n)
    linarith
  have babs : ∀ l, |(A.map e.val ^ q) i l| ≤ ((A.map fun x => |e.val x|) ^ q) i l := fun l => RealPow.abs_pow_le (A.map e.val) q i l
  have d2 := chain_err (x := fun l => (A.map e.val ^ q) i l) (x' := fun l => e.val (X i l))
    (s := fun l => ((A.map fun x => |e.val x|) ^ q) i l) (c := fun l => e.val (A l j)) (α := (1 + e.u F) ^ (n * (q - 1)) - 1)
    (β := powError e F n s t q 0) hg
    (fun l => (a5 i l).trans (le_of_eq (by unfold powError; ring))) babs d1
  have e1 : ∑ l, (A.map e.val ^ q) i l * e.val (A l j) = (A.map e.val ^ (q + 1)) i j := by
    rw [pow_succ, Matrix.mul_apply]
    rfl
  have e2 : ∑ l, ((A.map fun x => |e.val x|) ^ q) i l * |e.val (A l j)| = ((A.map fun x => |e.val x|) ^ (q + 1)) i j := by
    rw [pow_succ, Matrix.mul_apply]
    rfl
  rw [e1, e2] at d2
  have d3 := b2 i j
  rw [abs_sub_comm] at d3
  have d4 := abs_sub_le (e.val (P i j)) ((A.map e.val ^ (q + 1)) i j) (e.val (Q i j))
  have e3 : (1 + ((1 + e.u F) ^ n - 1)) * (1 + ((1 + e.u F) ^ (n * (q - 1)) - 1)) = (1 + e.u F) ^ (n * q) := by
    rw [add_sub_cancel, add_sub_cancel, ← pow_add]
    congr 1
    obtain ⟨k, rfl⟩ : ∃ k, q = k + 1 := ⟨q - 1, by omega⟩
    simp only [Nat.add_sub_cancel]
    ring
  rw [e3] at d2
  refine d4.trans ((add_le_add d2 d3).trans (le_of_eq ?_))
  unfold powError
  ring

/-- C168: for example, `float` matrices with elements of at most `2^20` and up to `2^10` rows and columns. -/
theorem C168_float (A : Mat (Fl binary32) n m) (B : Mat (Fl binary32) m q) (C : Mat (Fl binary32) q p)
    (hA : ElementsAtMost (2 ^ 20) A) (hB : ElementsAtMost (2 ^ 20) B) (hC : ElementsAtMost (2 ^ 20) C) (hm : m ≤ 2 ^ 10) (hq : q ≤ 2 ^ 10) :
    ∃ (X : Mat (Fl binary32) n q) (Y : Mat (Fl binary32) m p) (P Q : Mat (Fl binary32) n p),
      mult (T := InEnv e binary32) A B = .ok X ∧ mult (T := InEnv e binary32) X C = .ok P ∧
      mult (T := InEnv e binary32) B C = .ok Y ∧ mult (T := InEnv e binary32) A Y = .ok Q ∧
      ∀ i j, |e.val (P i j) - e.val (Q i j)| ≤
        2 * ((1 + e.u binary32) ^ (m + q) - 1) * (∑ k, ∑ l, |e.val (A i k)| * |e.val (B k l)| * |e.val (C l j)|) +
          (m * (1 + e.u binary32) ^ (m - 1) * ((1 + e.u binary32) ^ q * (∑ l, |e.val (C l j)|) + 1) +
            q * (1 + e.u binary32) ^ (q - 1) * ((1 + e.u binary32) ^ m * (∑ k, |e.val (A i k)|) + 1)) * e.eta binary32 := by
  have hm' : (m : ℝ) ≤ 2 ^ 10 := by exact_mod_cast hm
  have hq' : (q : ℝ) ≤ 2 ^ 10 := by exact_mod_cast hq
  have room : ∀ (k : Nat) (t : ℤ), k ≤ 2 ^ 10 → 0 ≤ t → t ≤ 70 → binary32.Room k t := by
    intro k t hk h0 h1
    refine ⟨hk.trans (by decide), by simp only [binary32]; omega, ?_⟩
    have h2 : (2 : ℝ) ^ t ≤ 2 ^ (70 : ℤ) := zpow_le_zpow_right₀ (by norm_num) h1
    have h3 : (k : ℝ) ≤ 2 ^ 10 := by exact_mod_cast hk
    have h4 : (k : ℝ) * 2 ^ t ≤ 2 ^ 10 * 2 ^ (70 : ℤ) := by gcongr
    refine h4.trans ?_
    unfold Fmt.largest
    norm_num [binary32]
  refine C168_env_assoc e A B C 40 70 40 70 hA hB hC (by norm_num) (room m 40 hm (by norm_num) (by norm_num)) ?_
    (room q 70 hq (by norm_num) (by norm_num)) (by norm_num) (room q 40 hq (by norm_num) (by norm_num)) ?_
    (room m 70 hm (by norm_num) (by norm_num))
  · norm_num
    linarith
  · norm_num
    linarith

/-- C168: for example, powers up to the tenth of `float` matrices with elements of at most 2 and up to `2^10` rows. -/
theorem C168_pow_float (handled : Option Exc) (w : Nat) (A : Mat (Fl binary32) n n) (q : Nat) (hn : n ≤ 2 ^ 10)
    (hA : ElementsAtMost 2 A) (hq : 1 ≤ q) (hq' : q ≤ 10) :
    ∃ X P Q : Mat (Fl binary32) n n, pow (T := InEnv e binary32) handled w A q = .ok X ∧
      mult (T := InEnv e binary32) X A = .ok P ∧ pow (T := InEnv e binary32) handled w A ((q + 1 : Nat) : Int) = .ok Q ∧
      ∀ i j, |e.val (P i j) - e.val (Q i j)| ≤
        ((1 + e.u binary32) ^ (n * q) - 1) * ((A.map fun x => |e.val x|) ^ (q + 1)) i j +
          (1 + e.u binary32) ^ n * powError e binary32 n 10 1 q 0 * (∑ l, |e.val (A l j)|) +
          n * (1 + e.u binary32) ^ (n - 1) * e.eta binary32 +
        powError e binary32 n 10 1 (q + 1) (((A.map fun x => |e.val x|) ^ (q + 1)) i j) := by
  refine C168_pow_succ e handled w A 10 1 q hn (by decide) (by simpa using hA) hq ?_
  have h1 : (2 : ℝ) ^ (10 * q + 1 * (q + 1)) ≤ 2 ^ 111 := pow_le_pow_right₀ (by norm_num) (by omega)
  refine h1.trans ?_
  unfold Fmt.largest
  norm_num [binary32]

/-- C168: the laws do not hold exactly: for `float` numbers `(ab)c` and `a(bc)`, and `(a+b)+c` and `a+(b+c)`, can differ. -/
theorem C168_inexact :
    (∃ (A B C X Y P Q : Mat (Fl binary32) 1 1), mult A B = .ok X ∧ mult X C = .ok P ∧ mult B C = .ok Y ∧ mult A Y = .ok Q ∧
      arrayEq P Q = .ok false) ∧
    ∃ (A B C X Y P Q : Mat (Fl binary32) 1 1), sum A B = .ok X ∧ sum X C = .ok P ∧ sum B C = .ok Y ∧ sum A Y = .ok Q ∧
      arrayEq P Q = .ok false := by
  refine ⟨⟨!![Fl.ofInt 4097], !![Fl.ofInt 4097], !![Fl.ofInt 3], !![Fl.ofInt 16785408], !![Fl.ofInt 12291], !![Fl.ofInt 50356224], !![Fl.ofInt 50356228],
    ?_, ?_, ?_, ?_, ?_⟩, ⟨!![Fl.ofInt 16777216], !![Fl.ofInt 1], !![Fl.ofInt 1], !![Fl.ofInt 16777216], !![Fl.ofInt 2],
    !![Fl.ofInt 16777216], !![Fl.ofInt 16777218], ?_, ?_, ?_, ?_, ?_⟩⟩ <;> decide +kernel

/-- C168: for `float` numbers `a(b+c)` and `ab+ac`, `(b+c)a` and `ba+ca`, and `(as)c` and `(ac)s` can differ; these calls also
meet the hypotheses of `C168_distrib`, `C168_distrib_left` and `C168_scale`. -/
theorem C168_inexact_products :
    (∃ (A B C S P X Y Q : Mat (Fl binary32) 1 1), sum B C = .ok S ∧ mult A S = .ok P ∧ mult A B = .ok X ∧ mult A C = .ok Y ∧
      sum X Y = .ok Q ∧ arrayEq P Q = .ok false) ∧
    (∃ (A B C S P X Y Q : Mat (Fl binary32) 1 1), sum A B = .ok S ∧ mult S C = .ok P ∧ mult A C = .ok X ∧ mult B C = .ok Y ∧
      sum X Y = .ok Q ∧ arrayEq P Q = .ok false) ∧
    ∃ (A X C P Y Q : Mat (Fl binary32) 1 1) (s : Fl binary32), multScalar A s = .ok X ∧ mult X C = .ok P ∧ mult A C = .ok Y ∧
      multScalar Y s = .ok Q ∧ arrayEq P Q = .ok false := by
  refine ⟨⟨!![Fl.ofInt 4097], !![Fl.ofInt 4097], !![Fl.ofInt 5], !![Fl.ofInt 4102], !![Fl.ofInt 16805894], !![Fl.ofInt 16785408],
    !![Fl.ofInt 20485], !![Fl.ofInt 16805892], ?_, ?_, ?_, ?_, ?_, ?_⟩,
    ⟨!![Fl.ofInt 4097], !![Fl.ofInt 5], !![Fl.ofInt 4097], !![Fl.ofInt 4102], !![Fl.ofInt 16805894], !![Fl.ofInt 16785408],
    !![Fl.ofInt 20485], !![Fl.ofInt 16805892], ?_, ?_, ?_, ?_, ?_, ?_⟩,
    ⟨!![Fl.ofInt 4097], !![Fl.ofInt 12291], !![Fl.ofInt 4097], !![Fl.ofInt 50356228], !![Fl.ofInt 16785408], !![Fl.ofInt 50356224],
    Fl.ofInt 3, ?_, ?_, ?_, ?_, ?_⟩⟩ <;> decide +kernel

end

end MatrixLibs
