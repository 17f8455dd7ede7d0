import Verif.Proof.FloatPow
import Verif.Proof.StandardStats
import Verif.Proof.Nested

/-!
# Powers and Strassen products in the standard model
-/

namespace MatrixLibs

set_option linter.unusedSectionVars false

/-! ## Powers of real matrices -/

namespace RealPow
variable {n : Nat}

/-- The absolute values of the elements. -/
def absM (A : Matrix (Fin n) (Fin n) ℝ) : Matrix (Fin n) (Fin n) ℝ := A.map fun x => |x|

theorem nonneg_pow {X : Matrix (Fin n) (Fin n) ℝ} (hX : ∀ a b, 0 ≤ X a b) (q : Nat) (a b : Fin n) : 0 ≤ (X ^ q) a b := by
  induction q generalizing a b with
  | zero => rw [pow_zero, Matrix.one_apply]; split <;> norm_num
  | succ q ih =>
    rw [pow_succ, Matrix.mul_apply]
    exact Finset.sum_nonneg fun k _ => mul_nonneg (ih a k) (hX k b)

theorem mono_pow {X Y : Matrix (Fin n) (Fin n) ℝ} (hX : ∀ a b, 0 ≤ X a b) (h : ∀ a b, X a b ≤ Y a b) (q : Nat) (a b : Fin n) :
    (X ^ q) a b ≤ (Y ^ q) a b := by
  induction q generalizing a b with
  | zero => rw [pow_zero, pow_zero]
  | succ q ih =>
    rw [pow_succ, pow_succ, Matrix.mul_apply, Matrix.mul_apply]
    exact Finset.sum_le_sum fun k _ => mul_le_mul (ih a k) (h k b) (hX k b) ((nonneg_pow hX q a k).trans (ih a k))

theorem absM_pow_nonneg (A : Matrix (Fin n) (Fin n) ℝ) (q : Nat) (a b : Fin n) : 0 ≤ (absM A ^ q) a b :=
  nonneg_pow (fun _ _ => abs_nonneg _) q a b

theorem abs_pow_le (A : Matrix (Fin n) (Fin n) ℝ) (q : Nat) (a b : Fin n) : |(A ^ q) a b| ≤ (absM A ^ q) a b := by
  induction q generalizing a b with
  | zero => rw [pow_zero, pow_zero, Matrix.one_apply]; split <;> simp
  | succ q ih =>
    rw [pow_succ, pow_succ, Matrix.mul_apply, Matrix.mul_apply]
    refine (Finset.abs_sum_le_sum_abs _ _).trans (Finset.sum_le_sum fun k _ => ?_)
    rw [abs_mul]
    exact mul_le_mul_of_nonneg_right (ih a k) (abs_nonneg _)

theorem row_pow_le (A : Matrix (Fin n) (Fin n) ℝ) {g : ℝ} (hg : 0 ≤ g) (hrow : ∀ i, ∑ j, |A i j| ≤ g) (q : Nat)
    (a : Fin n) : ∑ b, (absM A ^ q) a b ≤ g ^ q := by
  induction q generalizing a with
  | zero => simp [Matrix.one_apply]
  | succ q ih =>
    simp only [pow_succ, Matrix.mul_apply]
    rw [Finset.sum_comm]
    calc ∑ k, ∑ b, (absM A ^ q) a k * absM A k b
        = ∑ k, (absM A ^ q) a k * ∑ b, absM A k b := by simp only [Finset.mul_sum]
      _ ≤ ∑ k, (absM A ^ q) a k * g :=
          Finset.sum_le_sum fun k _ => mul_le_mul_of_nonneg_left (hrow k) (absM_pow_nonneg A q a k)
      _ = (∑ k, (absM A ^ q) a k) * g := by rw [Finset.sum_mul]
      _ ≤ _ := mul_le_mul_of_nonneg_right (ih a) hg

theorem col_pow_le (A : Matrix (Fin n) (Fin n) ℝ) {g : ℝ} (hg : 0 ≤ g) (hcol : ∀ j, ∑ i, |A i j| ≤ g) (q : Nat)
    (b : Fin n) : ∑ a, (absM A ^ q) a b ≤ g ^ q := by
  induction q generalizing b with
  | zero => simp [Matrix.one_apply]
  | succ q ih =>
    simp only [pow_succ, Matrix.mul_apply]
    rw [Finset.sum_comm]
    calc ∑ k, ∑ a, (absM A ^ q) a k * absM A k b
        = ∑ k, (∑ a, (absM A ^ q) a k) * absM A k b := by simp only [Finset.sum_mul]
      _ ≤ ∑ k, g ^ q * absM A k b :=
          Finset.sum_le_sum fun k _ => mul_le_mul_of_nonneg_right (ih k) (abs_nonneg _)
      _ = g ^ q * ∑ k, absM A k b := by rw [Finset.mul_sum]
      _ ≤ _ := mul_le_mul_of_nonneg_left (hcol b) (pow_nonneg hg q)

/-- The power of a matrix near another. -/
theorem pow_near {B X β : Matrix (Fin n) (Fin n) ℝ} (h : ∀ i j, |B i j - X i j| ≤ β i j) (q : Nat) (a b : Fin n) :
    |(B ^ q) a b - (X ^ q) a b| ≤ ((absM X + β) ^ q) a b - (absM X ^ q) a b := by
  have hβ : ∀ i j, 0 ≤ β i j := fun i j => (abs_nonneg _).trans (h i j)
  have hB : ∀ i j, |B i j| ≤ (absM X + β) i j := fun i j => by
    have := abs_sub_abs_le_abs_sub (B i j) (X i j)
    have := h i j
    rw [Matrix.add_apply]
    show _ ≤ |X i j| + _
    linarith
  induction q generalizing a b with
  | zero => simp
  | succ q ih =>
    rw [pow_succ, pow_succ, pow_succ, pow_succ, Matrix.mul_apply, Matrix.mul_apply, Matrix.mul_apply, Matrix.mul_apply,
      ← Finset.sum_sub_distrib, ← Finset.sum_sub_distrib]
    refine (Finset.abs_sum_le_sum_abs _ _).trans (Finset.sum_le_sum fun k _ => ?_)
    have e1 : (B ^ q) a k * B k b - (X ^ q) a k * X k b =
        ((B ^ q) a k - (X ^ q) a k) * B k b + (X ^ q) a k * (B k b - X k b) := by ring
    rw [e1]
    refine (abs_add_le _ _).trans ?_
    rw [abs_mul, abs_mul]
    have m1 := mul_le_mul (ih a k) (hB k b) (abs_nonneg _) ((abs_nonneg _).trans (ih a k))
    have m2 := mul_le_mul (abs_pow_le X q a k) (h k b) (abs_nonneg _) (absM_pow_nonneg X q a k)
    refine (add_le_add m1 m2).trans (le_of_eq ?_)
    rw [Matrix.add_apply]
    ring

end RealPow

namespace Standard
open RealPow

variable {T : Type} [Inhabited T] [CScalar T] [Standard T] {n : Nat}

/-- The part of the error of a `q`-th power that is due to underflow; `g` bounds the row and column sums. -/
noncomputable def powUnder (T : Type) [Inhabited T] [CScalar T] [Standard T] (n q : Nat) (g : ℝ) : ℝ :=
  (1 + u T) ^ (n * (q - 1)) * ((1 + (n : ℝ) ^ 2 * h T) ^ (q - 1) - 1) * g ^ q / n

/-- `P` is the `q`-th power of `A` up to the error of repeated squaring. -/
def PowTr (A : Mat T n n) (g : ℝ) (q : Nat) (P : Mat T n n) : Prop :=
  ∀ a b, |val (P a b) - (A.map val ^ q) a b| ≤
    ((1 + u T) ^ (n * (q - 1)) - 1) * (absM (A.map val) ^ q) a b + powUnder T n q g

variable {A P Q R : Mat T n n} {g : ℝ} {q r : Nat}

theorem PowTr.abs_le (hP : PowTr A g q P) (a b : Fin n) :
    |val (P a b)| ≤ (1 + u T) ^ (n * (q - 1)) * (absM (A.map val) ^ q) a b + powUnder T n q g := by
  have h1 := abs_sub_abs_le_abs_sub (val (P a b)) ((A.map val ^ q) a b)
  have h2 := hP a b
  have h3 := RealPow.abs_pow_le (A.map val) q a b
  linarith

theorem pow_terms_le (hn : 0 < n) (hg : 1 ≤ g) (hrow : ∀ i, ∑ j, |val (A i j)| ≤ g)
    (hcol : ∀ j, ∑ i, |val (A i j)| ≤ g) (hq : 1 ≤ q) (hr : 1 ≤ r) (a b : Fin n) :
    (1 + u T) ^ n * (∑ k, ((1 + u T) ^ (n * (q - 1)) * (absM (A.map val) ^ q) a k + powUnder T n q g) *
      ((1 + u T) ^ (n * (r - 1)) * (absM (A.map val) ^ r) k b + powUnder T n r g)) + n * (1 + u T) ^ (n - 1) * h T ≤
      (1 + u T) ^ (n * (q + r - 1)) * (absM (A.map val) ^ (q + r)) a b + powUnder T n (q + r) g := by
  have hg0 : 0 ≤ g := by linarith
  have hu := u_nonneg (T := T)
  have he := h_nonneg (T := T)
  have hN : (0 : ℝ) < n := by exact_mod_cast hn
  have hD : (1 : ℝ) ≤ 1 + (n : ℝ) ^ 2 * h T := by
    have : 0 ≤ (n : ℝ) ^ 2 * h T := by positivity
    linarith
  have key := Fl.powBound_mul (N := n) (S := (absM (A.map val) ^ (q + r)) a b) (l := (1 + u T) ^ n) (l' := (1 + u T) ^ (n - 1))
    hN (one_le_pow (T := T) (n * (q - 1))) (one_le_pow (T := T) (n * (r - 1)))
    (one_le_pow₀ (n := q - 1) hD) (one_le_pow₀ (n := r - 1) hD) (one_le_pow₀ (n := q) hg) (one_le_pow₀ (n := r) hg)
    he (by positivity) (pow_le_pow_right₀ (by linarith) (Nat.sub_le n 1)) (rfl : powUnder T n q g = _)
    (rfl : powUnder T n r g = _) (row_pow_le (A.map val) hg0 hrow q a) (col_pow_le (A.map val) hg0 hcol r b)
  have e1 : (1 + u T) ^ n * (1 + u T) ^ (n * (q - 1)) * (1 + u T) ^ (n * (r - 1)) = (1 + u T) ^ (n * (q + r - 1)) := by
    rw [← pow_add, ← pow_add]
    congr 1
    obtain ⟨q, rfl⟩ := Nat.exists_eq_add_of_le hq
    obtain ⟨r, rfl⟩ := Nat.exists_eq_add_of_le hr
    rw [show 1 + q - 1 = q by omega, show 1 + r - 1 = r by omega, show 1 + q + (1 + r) - 1 = 1 + q + r by omega]
    ring
  have e2 : (1 + (n : ℝ) ^ 2 * h T) ^ (q - 1) * (1 + (n : ℝ) ^ 2 * h T) ^ (r - 1) * (1 + (n : ℝ) ^ 2 * h T) =
      (1 + (n : ℝ) ^ 2 * h T) ^ (q + r - 1) := by
    rw [← pow_add, ← pow_succ]
    congr 1
    omega
  rw [e1, e2, ← pow_add g] at key
  refine le_trans (le_of_eq ?_) key
  congr 2
  rw [pow_add (absM (A.map val)) q r, Matrix.mul_apply, Finset.mul_sum, Finset.mul_sum, Finset.mul_sum,
    ← Finset.sum_add_distrib, ← Finset.sum_add_distrib]
  have : (n : ℝ) * powUnder T n q g * powUnder T n r g = ∑ _k : Fin n, powUnder T n q g * powUnder T n r g := by
    rw [Finset.sum_const, Finset.card_univ, Fintype.card_fin, nsmul_eq_mul, mul_assoc]
  rw [this, ← Finset.sum_add_distrib]
  refine Finset.sum_congr rfl fun k _ => ?_
  ring

theorem PowTr.prod (hn : 0 < n) (hg : 1 ≤ g) (hrow : ∀ i, ∑ j, |val (A i j)| ≤ g)
    (hcol : ∀ j, ∑ i, |val (A i j)| ≤ g) (hq : 1 ≤ q) (hr : 1 ≤ r) (hP : PowTr A g q P)
    (hQ : PowTr A g r Q) (hR : mult P Q = .ok R) : PowTr A g (q + r) R := by
  intro a b
  have h1 := mult_err hR a b
  have h2 := pow_terms_le hn hg hrow hcol hq hr a b
  set X := fun k => (1 + u T) ^ (n * (q - 1)) * (absM (A.map val) ^ q) a k + powUnder T n q g with hX
  set Y := fun k => (1 + u T) ^ (n * (r - 1)) * (absM (A.map val) ^ r) k b + powUnder T n r g with hY
  have h3 : |∑ k, val (P a k) * val (Q k b) - (A.map val ^ (q + r)) a b| ≤
      ∑ k, X k * Y k - (absM (A.map val) ^ (q + r)) a b := by
    rw [pow_add, Matrix.mul_apply, pow_add, Matrix.mul_apply, ← Finset.sum_sub_distrib, ← Finset.sum_sub_distrib]
    refine (Finset.abs_sum_le_sum_abs _ _).trans (Finset.sum_le_sum fun k _ => ?_)
    have e1 : val (P a k) * val (Q k b) - (A.map val ^ q) a k * (A.map val ^ r) k b =
        (val (P a k) - (A.map val ^ q) a k) * val (Q k b) +
          (A.map val ^ q) a k * (val (Q k b) - (A.map val ^ r) k b) := by ring
    rw [e1]
    refine (abs_add_le _ _).trans ?_
    rw [abs_mul, abs_mul]
    have p1 : |val (P a k) - (A.map val ^ q) a k| ≤ X k - (absM (A.map val) ^ q) a k := by
      have := hP a k
      rw [hX]; linarith
    have p2 : |val (Q k b) - (A.map val ^ r) k b| ≤ Y k - (absM (A.map val) ^ r) k b := by
      have := hQ k b
      rw [hY]; linarith
    have m1 := mul_le_mul p1 (hQ.abs_le k b) (abs_nonneg _) ((abs_nonneg _).trans p1)
    have m2 := mul_le_mul (RealPow.abs_pow_le (A.map val) q a k) p2 (abs_nonneg _) (absM_pow_nonneg (A.map val) q a k)
    have m3 : (X k - (absM (A.map val) ^ q) a k) * Y k + (absM (A.map val) ^ q) a k * (Y k - (absM (A.map val) ^ r) k b) =
        X k * Y k - (absM (A.map val) ^ q) a k * (absM (A.map val) ^ r) k b := by ring
    rw [← m3]
    exact add_le_add m1 m2
  have h4 : ∑ k, |val (P a k)| * |val (Q k b)| ≤ ∑ k, X k * Y k :=
    Finset.sum_le_sum fun k _ => mul_le_mul (hP.abs_le a k) (hQ.abs_le k b) (abs_nonneg _)
      ((abs_nonneg _).trans (hP.abs_le a k))
  have hl : 0 ≤ (1 + u T) ^ n - 1 := by have := one_le_pow (T := T) n; linarith
  have h5 := mul_le_mul_of_nonneg_left h4 hl
  have h6 := abs_sub_le (val (R a b)) (∑ k, val (P a k) * val (Q k b)) ((A.map val ^ (q + r)) a b)
  linarith

theorem PowTr.self : PowTr A g 1 A := by
  intro a b
  rw [pow_one, pow_one]
  simp [powUnder]

/-- Repeated squaring. -/
theorem powFuel_tr (hn : 0 < n) (hg : 1 ≤ g) (hrow : ∀ i, ∑ j, |val (A i j)| ≤ g)
    (hcol : ∀ j, ∑ i, |val (A i j)| ≤ g) (handled : Option Exc) (w : Nat) :
    ∀ (p d : Nat) (P : Mat T n n), 1 ≤ p → powFuel handled w d A (p : Int) = .ok P → PowTr A g p P := by
  intro p
  induction p using Nat.strong_induction_on with
  | _ p ih =>
    intro d P h1 hP
    cases d with
    | zero => rw [powFuel] at hP; cases hP
    | succ d =>
      rcases (show p = 1 ∨ 2 ≤ p by omega) with rfl | hp
      · rw [Nat.cast_one, powFuel_one] at hP
        injection hP with hP
        subst hP
        exact PowTr.self
      · rw [powFuel_step _ _ _ _ _ hp] at hP
        unfold powStep at hP
        obtain ⟨Q, hQ, hP⟩ := bind_ok hP
        have tQ := ih (p / 2) (by omega) d Q (by omega) hQ
        split at hP
        · have := tQ.prod hn hg hrow hcol (by omega) (by omega) tQ hP
          rwa [show p / 2 + p / 2 = p by omega] at this
        · obtain ⟨S, hS, hP⟩ := bind_ok hP
          have := (tQ.prod hn hg hrow hcol (by omega) (by omega) tQ hS).prod hn hg hrow hcol (by omega) le_rfl PowTr.self hP
          rwa [show p / 2 + p / 2 + 1 = p by omega] at this

/-! ## Strassen products -/

variable {x y s : T} {z w Z W η θ : ℝ} {k l : Nat}

theorem Tr.prod (hx : Tr x z Z k η) (hy : Tr y w W l θ) (hs : CScalar.mul x y = .ok s) :
    Tr s (z * w) (Z * W) (k + l + 1) ((1 + u T) * ((1 + u T) ^ k * Z * θ + (1 + u T) ^ l * W * η + η * θ) + e T) := by
  have hZ : 0 ≤ Z := (abs_nonneg _).trans hx.le
  have hle : |z * w| ≤ Z * W := by
    rw [abs_mul]
    exact mul_le_mul hx.le hy.le (abs_nonneg _) hZ
  refine ⟨round_err hle (Standard.mul hs).err ?_, hle⟩
  have hyv : |val y| ≤ (1 + u T) ^ l * W + θ := by
    have := abs_sub_abs_le_abs_sub (val y) w
    linarith [hy.err, hy.le]
  rw [show val x * val y - z * w = (val x - z) * val y + z * (val y - w) by ring]
  refine (abs_add_le _ _).trans ?_
  rw [abs_mul, abs_mul]
  have m1 := mul_le_mul hx.err hyv (abs_nonneg _) ((abs_nonneg _).trans hx.err)
  have m2 := mul_le_mul hx.le hy.err (abs_nonneg _) hZ
  rw [pow_add]
  refine (add_le_add m1 m2).trans (le_of_eq ?_)
  ring

theorem Tr.weaken (hx : Tr x z Z k η) {Z' η' : ℝ} (hZ : Z ≤ Z') (hη : η ≤ η') : Tr x z Z' k η' := by
  have := mul_le_mul_of_nonneg_left hZ (by have := one_le_pow (T := T) k; linarith : 0 ≤ (1 + u T) ^ k - 1)
  exact ⟨hx.err.trans (by linarith), hx.le.trans hZ⟩

theorem Tr.of_le {α : ℝ} (hα : |val x| ≤ α) : Tr x (val x) α 0 0 := ⟨by simp, hα⟩

theorem strassen_err {A B P : Mat T 2 2} {α β : ℝ} (hα : ∀ i j, |val (A i j)| ≤ α) (hβ : ∀ i j, |val (B i j)| ≤ β)
    (hP : strassen A B = .ok P) (i j : Fin 2) :
    |val (P i j) - (A.map val * B.map val) i j| ≤
      ((1 + u T) ^ 6 - 1) * (12 * (α * β)) + (1 + u T) ^ 5 * (5 * (α + β) * d T + 2 * d T ^ 2 + 4 * h T) := by
  have hu := u_nonneg (T := T)
  have hd := d_nonneg (T := T)
  have he := e_nonneg (T := T)
  have hα0 : 0 ≤ α := (abs_nonneg _).trans (hα 0 0)
  have hβ0 : 0 ≤ β := (abs_nonneg _).trans (hβ 0 0)
  unfold strassen at hP
  rw [rd_eq (show 0 < 2 by omega) (show 0 < 2 by omega), ok_bind, rd_eq (show 0 < 2 by omega) (show 1 < 2 by omega), ok_bind, rd_eq (show 1 < 2 by omega) (show 0 < 2 by omega), ok_bind, rd_eq (show 1 < 2 by omega) (show 1 < 2 by omega), ok_bind] at hP
  rw [rd_eq (show 0 < 2 by omega) (show 0 < 2 by omega), ok_bind, rd_eq (show 0 < 2 by omega) (show 1 < 2 by omega), ok_bind, rd_eq (show 1 < 2 by omega) (show 0 < 2 by omega), ok_bind, rd_eq (show 1 < 2 by omega) (show 1 < 2 by omega), ok_bind] at hP
  obtain ⟨s1, h1, hP⟩ := bind_ok hP
  obtain ⟨M1, k1, hP⟩ := bind_ok hP
  obtain ⟨s2, h2, hP⟩ := bind_ok hP
  obtain ⟨M2, k2, hP⟩ := bind_ok hP
  obtain ⟨s3, h3, hP⟩ := bind_ok hP
  obtain ⟨M3, k3, hP⟩ := bind_ok hP
  obtain ⟨s4, h4, hP⟩ := bind_ok hP
  obtain ⟨M4, k4, hP⟩ := bind_ok hP
  obtain ⟨s5, h5, hP⟩ := bind_ok hP
  obtain ⟨t5, g5, hP⟩ := bind_ok hP
  obtain ⟨M5, k5, hP⟩ := bind_ok hP
  obtain ⟨s6, h6, hP⟩ := bind_ok hP
  obtain ⟨t6, g6, hP⟩ := bind_ok hP
  obtain ⟨M6, k6, hP⟩ := bind_ok hP
  obtain ⟨s7, h7, hP⟩ := bind_ok hP
  obtain ⟨t7, g7, hP⟩ := bind_ok hP
  obtain ⟨M7, k7, hP⟩ := bind_ok hP
  obtain ⟨a1, b1, hP⟩ := bind_ok hP
  obtain ⟨a2, b2, hP⟩ := bind_ok hP
  obtain ⟨p00, b3, hP⟩ := bind_ok hP
  obtain ⟨P1, w1, hP⟩ := bind_ok hP
  obtain ⟨p01, b4, hP⟩ := bind_ok hP
  obtain ⟨P2, w2, hP⟩ := bind_ok hP
  obtain ⟨p10, b5, hP⟩ := bind_ok hP
  obtain ⟨P3, w3, hP⟩ := bind_ok hP
  obtain ⟨a6, b6, hP⟩ := bind_ok hP
  obtain ⟨a7, b7, hP⟩ := bind_ok hP
  obtain ⟨p11, b8, w4⟩ := bind_ok hP
  have tA : ∀ i j, Tr (A i j) (val (A i j)) α 0 0 := fun i j => .of_le (hα i j)
  have tB : ∀ i j, Tr (B i j) (val (B i j)) β 0 0 := fun i j => .of_le (hβ i j)
  set v := 1 + u T with hv
  have hv1 : 1 ≤ v := by rw [hv]; linarith
  have m1 := ((tA 0 0).prod ((tB 0 1).sub (tB 1 1) h1) k1)
  have m2 := (((tA 0 0).add (tA 0 1) h2).prod (tB 1 1) k2)
  have m3 := (((tA 1 0).add (tA 1 1) h3).prod (tB 0 0) k3)
  have m4 := ((tA 1 1).prod ((tB 1 0).sub (tB 0 0) h4) k4)
  have m5 := (((tA 0 0).add (tA 1 1) h5).prod ((tB 0 0).add (tB 1 1) g5) k5)
  have m6 := (((tA 0 1).sub (tA 1 1) h6).prod ((tB 1 0).add (tB 1 1) g6) k6)
  have m7 := (((tA 0 0).sub (tA 1 0) h7).prod ((tB 0 0).add (tB 0 1) g7) k7)
  simp only [← hv, add_zero, mul_zero, pow_zero, one_mul, pow_one, _root_.zero_add, zero_mul] at m1 m2 m3 m4 m5 m6 m7
  have hP' : P 0 0 = p00 ∧ P 0 1 = p01 ∧ P 1 0 = p10 ∧ P 1 1 = p11 := by
    rw [wr_eq (by omega) (by omega)] at w1 w2 w3 w4
    injection w1 with w1
    injection w2 with w2
    injection w3 with w3
    injection w4 with w4
    subst w1 w2 w3 w4
    refine ⟨?_, ?_, ?_, ?_⟩ <;> rfl
  have hmul : (A.map val * B.map val) i j = val (A i 0) * val (B 0 j) + val (A i 1) * val (B 1 j) := by
    rw [Matrix.mul_apply, Fin.sum_univ_two]
    rfl
  rw [hmul]
  have fin : ∀ {p : T} {z w Z η : ℝ} {k : Nat}, Tr p z Z k η → k ≤ 6 → z = w → Z ≤ 12 * (α * β) →
      η ≤ v ^ 5 * (5 * (α + β) * d T + 2 * d T ^ 2 + 4 * h T) →
      |val p - w| ≤ (v ^ 6 - 1) * (12 * (α * β)) + v ^ 5 * (5 * (α + β) * d T + 2 * d T ^ 2 + 4 * h T) := by
    intro p z w Z h k t hk hz hZ hh
    rw [← hz]
    exact ((t.mono hk).weaken hZ hh).err
  obtain ⟨e1, e2, e3, e4⟩ := hP'
  have hvk : ∀ k, 1 ≤ v ^ k := fun k => one_le_pow₀ hv1
  have step : ∀ {x z y t : ℝ} {k : Nat}, x ≤ v ^ k * y → z ≤ v ^ k * t → v * (x + z) + d T ≤ v ^ (k + 1) * (y + t + d T) := by
    intro x z y t k hx hz
    have q1 := mul_le_mul_of_nonneg_left (add_le_add hx hz) (by linarith : 0 ≤ v)
    have q2 := mul_le_mul_of_nonneg_right (hvk (k + 1)) hd
    rw [pow_succ] at q2 ⊢
    linarith
  have up : ∀ {x y : ℝ} {k : Nat}, 0 ≤ y → x ≤ v ^ k * y → x ≤ v ^ (k + 1) * y := by
    intro x y k hy hx
    refine hx.trans (mul_le_mul_of_nonneg_right (pow_le_pow_right₀ hv1 (Nat.le_succ k)) hy)
  have b2' : ∀ {γ : ℝ}, 0 ≤ γ → v * (γ * d T) + e T ≤ v ^ 2 * (γ * d T + e T) := by
    intro γ hγ
    have q0 : 0 ≤ γ * d T := mul_nonneg hγ hd
    have q1 := mul_le_mul_of_nonneg_right (pow_le_pow_right₀ hv1 (show 1 ≤ 2 by omega)) q0
    have q2 := mul_le_mul_of_nonneg_right (hvk 2) he
    rw [pow_one] at q1
    linarith
  have b5' : v * (v * (α + α) * d T + v * (β + β) * d T + d T * d T) + e T ≤ v ^ 2 * (2 * (α + β) * d T + d T ^ 2 + e T) := by
    have q1 := mul_le_mul_of_nonneg_right (pow_le_pow_right₀ hv1 (show 1 ≤ 2 by omega)) (mul_nonneg hd hd)
    have q2 := mul_le_mul_of_nonneg_right (hvk 2) he
    rw [pow_one] at q1
    linarith
  have y1 : 0 ≤ α * d T + e T := by positivity
  have y2 : 0 ≤ β * d T + e T := by positivity
  have y5 : 0 ≤ 2 * (α + β) * d T + d T ^ 2 + e T := by positivity
  have hsum : 0 ≤ (α + β) * d T := by positivity
  have hh : h T = e T + d T := rfl
  have last : ∀ {x y : ℝ} {k : Nat}, k ≤ 5 → x ≤ v ^ k * y → y ≤ 5 * (α + β) * d T + 2 * d T ^ 2 + 4 * h T →
      x ≤ v ^ 5 * (5 * (α + β) * d T + 2 * d T ^ 2 + 4 * h T) := by
    intro x y k hk hx hy
    have h0 : 0 ≤ 5 * (α + β) * d T + 2 * d T ^ 2 + 4 * h T := by rw [hh]; positivity
    refine hx.trans ((mul_le_mul_of_nonneg_left hy (by positivity)).trans ?_)
    exact mul_le_mul_of_nonneg_right (pow_le_pow_right₀ hv1 hk) h0
  fin_cases i <;> fin_cases j
  · show |val (P 0 0) - _| ≤ _
    rw [e1]
    refine fin (((m5.add (m4.mono (by omega)) b1).sub (m2.mono (by omega)) b2).add (m6.mono (by omega)) b3) (by omega)
      (by dsimp; ring) (by nlinarith) (last le_rfl (step (step (step b5' (b2' hα0)) (up y2 ?_)) (up y5 (up y5 b5'))) ?_)
    · exact b2' hβ0
    · rw [hh]
      nlinarith
  · show |val (P 0 1) - _| ≤ _
    rw [e2]
    exact fin (m1.add m2 b4) (by omega) (by dsimp; ring) (by nlinarith) (last (by omega) (step (b2' hα0) (b2' hβ0)) (by rw [hh]; nlinarith))
  · show |val (P 1 0) - _| ≤ _
    rw [e3]
    exact fin (m3.add m4 b5) (by omega) (by dsimp; ring) (by nlinarith) (last (by omega) (step (b2' hβ0) (b2' hα0)) (by rw [hh]; nlinarith))
  · show |val (P 1 1) - _| ≤ _
    rw [e4]
    exact fin (((m1.mono (by omega)).add m5 b6).sub ((m3.mono (by omega)).add m7 b7) b8) (by omega)
      (by dsimp; ring) (by nlinarith) (last (by omega) (step (step (b2' hα0) b5') (step (b2' hβ0) b5')) (by rw [hh]; nlinarith))

end Standard
end MatrixLibs
