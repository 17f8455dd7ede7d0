import Verif.Proof.StandardPow
import Verif.Props.StandardStats
import Verif.Props.Pow

/-!
# Property C160: powers and Strassen products in every arithmetic of the standard model
-/

namespace MatrixLibs

set_option linter.unusedSectionVars false
set_option exponentiation.threshold 300

open Standard (val u h)

section
variable {T : Type} [Inhabited T] [CScalar T] [Standard T] {n : Nat} (handled : Option Exc) (w : Nat)

/-- C160: `pow(A, p)`, `p ≥ 1`: each element is that of the exact power up to `(1+u)^(n(p-1)) - 1` times the element of the power
of the absolute values, and an amount due to underflow. `g` is any bound, not below 1, of the sums of absolute values of the rows
and columns. -/
theorem C160_pow (A P : Mat T n n) (g : ℝ) (hg : 1 ≤ g) (hrow : ∀ i, ∑ j, |val (A i j)| ≤ g)
    (hcol : ∀ j, ∑ i, |val (A i j)| ≤ g) (p : Nat) (hp : 1 ≤ p) (hP : pow handled w A (p : Int) = .ok P) (i j : Fin n) :
    |val (P i j) - (A.map val ^ p) i j| ≤
      ((1 + u T) ^ (n * (p - 1)) - 1) * ((A.map fun x => |val x|) ^ p) i j +
        (1 + u T) ^ (n * (p - 1)) * ((1 + (n : ℝ) ^ 2 * h T) ^ (p - 1) - 1) * g ^ p / n :=
  Standard.powFuel_tr i.pos hg hrow hcol handled w p _ P hp hP i j

/-- C160: `pow(A, 0)` is exactly the identity. -/
theorem C160_pow_zero (A P : Mat T n n) (hP : pow handled w A 0 = .ok P) : P.map val = 1 := by
  unfold pow at hP
  rw [powFuel_zero] at hP
  unfold eye1 at hP
  rw [eye_ok] at hP
  injection hP with hP
  subst hP
  ext i j
  rw [Matrix.map_apply, Matrix.of_apply, Matrix.one_apply]
  split
  · exact Standard.one
  · exact Standard.zero

/-- C160: from -2 down (to the smallest exponent, exclusively) the same bound holds relative to the powers of the computed
inverse; and relative to those of the exact inverse, if the errors of the computed one are at most `β`. -/
theorem C160_pow_negative (A B P : Mat T n n) (hB : inv handled A = .ok B) (g : ℝ) (hg : 1 ≤ g)
    (hrow : ∀ i, ∑ j, |val (B i j)| ≤ g) (hcol : ∀ j, ∑ i, |val (B i j)| ≤ g) (p : Nat) (hp : 2 ≤ p) (hw : p < 2 ^ (w - 1))
    (hP : pow handled w A (-(p : Int)) = .ok P) (i j : Fin n) :
    |val (P i j) - (B.map val ^ p) i j| ≤
      ((1 + u T) ^ (n * (p - 1)) - 1) * ((B.map fun x => |val x|) ^ p) i j +
        (1 + u T) ^ (n * (p - 1)) * ((1 + (n : ℝ) ^ 2 * h T) ^ (p - 1) - 1) * g ^ p / n ∧
    ∀ β : Matrix (Fin n) (Fin n) ℝ, (∀ i j, |val (B i j) - (A.map val)⁻¹ i j| ≤ β i j) →
      |val (P i j) - ((A.map val)⁻¹ ^ p) i j| ≤
        (1 + u T) ^ (n * (p - 1)) * (((A.map val)⁻¹.map (fun x => |x|) + β) ^ p) i j - ((A.map val)⁻¹.map (fun x => |x|) ^ p) i j +
          (1 + u T) ^ (n * (p - 1)) * ((1 + (n : ℝ) ^ 2 * h T) ^ (p - 1) - 1) * g ^ p / n := by
  rw [C45_pow_of_inv handled w A B p hp hw hB] at hP
  have h1 := C160_pow handled w B P g hg hrow hcol p (by omega) hP i j
  refine ⟨h1, fun β hβ => ?_⟩
  have h2 := RealPow.pow_near (B := B.map val) (X := (A.map val)⁻¹) hβ p i j
  have h3 : ((B.map fun x => |val x|) ^ p) i j ≤ (((A.map val)⁻¹.map (fun x => |x|) + β) ^ p) i j := by
    refine RealPow.mono_pow (fun _ _ => abs_nonneg _) (fun a b => ?_) p i j
    have := abs_sub_abs_le_abs_sub (val (B a b)) ((A.map val)⁻¹ a b)
    have := hβ a b
    rw [Matrix.add_apply]
    show |val (B a b)| ≤ |(A.map val)⁻¹ a b| + _
    linarith
  have h4 := mul_le_mul_of_nonneg_left h3
    (by have := Standard.one_le_pow (T := T) (n * (p - 1)); linarith : 0 ≤ (1 + u T) ^ (n * (p - 1)) - 1)
  have h5 := abs_sub_le (val (P i j)) ((B.map val ^ p) i j) (((A.map val)⁻¹ ^ p) i j)
  change _ ≤ ((((A.map val)⁻¹.map (fun x => |x|) + β) ^ p) i j - ((A.map val)⁻¹.map (fun x => |x|) ^ p) i j) at h2
  linarith

/-- C160: `pow(A, -1)` multiplies the identity twice, so it is the computed inverse up to `(1+u)^(2n) - 1` and an amount due to
underflow; and it is near the exact inverse if the computed one is. -/
theorem C160_pow_minus_one (A B P : Mat T n n) (hB : inv handled A = .ok B) (hw : 2 ≤ w)
    (hP : pow handled w A (-1) = .ok P) (i j : Fin n) :
    |val (P i j) - val (B i j)| ≤ ((1 + u T) ^ (2 * n) - 1) * |val (B i j)| +
      n * (1 + u T) ^ (n - 1) * h T * (1 + (1 + u T) ^ n * ∑ k, |val (B k j)|) ∧
    ∀ β : Matrix (Fin n) (Fin n) ℝ, (∀ i j, |val (B i j) - (A.map val)⁻¹ i j| ≤ β i j) →
      |val (P i j) - (A.map val)⁻¹ i j| ≤ ((1 + u T) ^ (2 * n) - 1) * |val (B i j)| + β i j +
        n * (1 + u T) ^ (n - 1) * h T * (1 + (1 + u T) ^ n * ∑ k, |val (B k j)|) := by
  have hmin : (-1 : Int) ≠ expMin w := by
    unfold expMin
    have : (2 : Int) ^ 1 ≤ 2 ^ (w - 1) := pow_le_pow_right₀ (by norm_num) (by omega)
    omega
  have hP' : ∃ Q, mult (Matrix.of fun i j : Fin n => if i = j then CScalar.ofInt (T := T) 1 else CScalar.ofInt 0)
      (Matrix.of fun i j : Fin n => if i = j then CScalar.ofInt (T := T) 1 else CScalar.ofInt 0) = .ok Q ∧
      mult Q B = .ok P := by
    unfold pow at hP
    rw [powFuel_neg _ _ _ _ _ (by omega) hmin, hB, ok_bind] at hP
    unfold powStep at hP
    rw [show (((-1 : Int).natAbs / 2 : Nat) : Int) = 0 from rfl, powFuel_zero, eye1, eye_ok, ok_bind,
      if_neg (by decide)] at hP
    cases hQ : opMul (Matrix.of fun a b : Fin n => if a = b then CScalar.ofInt (T := T) 1 else CScalar.ofInt 0)
        (Matrix.of fun a b : Fin n => if a = b then CScalar.ofInt (T := T) 1 else CScalar.ofInt 0) with
    | error x => rw [hQ, error_bind] at hP; cases hP
    | ok Q =>
      rw [hQ, ok_bind] at hP
      exact ⟨Q, hQ, hP⟩
  obtain ⟨Q, hQ, hP'⟩ := hP'
  have e1 : ∀ a b : Fin n, val ((Matrix.of fun i j : Fin n => if i = j then CScalar.ofInt (T := T) 1 else CScalar.ofInt 0) a b) =
      (1 : Matrix (Fin n) (Fin n) ℝ) a b := fun a b => by
    rw [Matrix.of_apply, Matrix.one_apply]
    split
    · exact Standard.one
    · exact Standard.zero
  have q (a b : Fin n) := Standard.mult_err hQ a b
  simp only [e1] at q
  have hsum : ∀ a b : Fin n, ∑ k, (1 : Matrix (Fin n) (Fin n) ℝ) a k * (1 : Matrix (Fin n) (Fin n) ℝ) k b =
      (1 : Matrix (Fin n) (Fin n) ℝ) a b := fun a b => by rw [← Matrix.mul_apply, one_mul]
  have hab : ∀ a b : Fin n, |(1 : Matrix (Fin n) (Fin n) ℝ) a b| = (1 : Matrix (Fin n) (Fin n) ℝ) a b := fun a b => by
    rw [Matrix.one_apply]; split <;> simp
  simp only [hab, hsum] at q
  set c : ℝ := n * (1 + u T) ^ (n - 1) * h T with hc
  set g : ℝ := (1 + u T) ^ n with hgdef
  have hg1 : 1 ≤ g := Standard.one_le_pow (T := T) n
  have hp := Standard.mult_err hP' i j
  -- the product with the computed identity
  have hQa : ∀ k, |val (Q i k)| ≤ g * (1 : Matrix (Fin n) (Fin n) ℝ) i k + c := fun k => by
    have h1 := q i k
    have h2 := abs_sub_abs_le_abs_sub (val (Q i k)) ((1 : Matrix (Fin n) (Fin n) ℝ) i k)
    rw [hab] at h2
    linarith
  have hone : ∀ f : Fin n → ℝ, ∑ k, (1 : Matrix (Fin n) (Fin n) ℝ) i k * f k = f i := fun f => by
    simp [Matrix.one_apply]
  have s1 : ∑ k, |val (Q i k)| * |val (B k j)| ≤ g * |val (B i j)| + c * ∑ k, |val (B k j)| := by
    calc ∑ k, |val (Q i k)| * |val (B k j)|
        ≤ ∑ k, (g * ((1 : Matrix (Fin n) (Fin n) ℝ) i k * |val (B k j)|) + c * |val (B k j)|) :=
          Finset.sum_le_sum fun k _ => by
            have := mul_le_mul_of_nonneg_right (hQa k) (abs_nonneg (val (B k j)))
            linarith
      _ = _ := by rw [Finset.sum_add_distrib, ← Finset.mul_sum, ← Finset.mul_sum, hone]
  have s2 : |∑ k, val (Q i k) * val (B k j) - val (B i j)| ≤ (g - 1) * |val (B i j)| + c * ∑ k, |val (B k j)| := by
    have e : ∑ k, val (Q i k) * val (B k j) - val (B i j) =
        ∑ k, (val (Q i k) - (1 : Matrix (Fin n) (Fin n) ℝ) i k) * val (B k j) := by
      simp only [sub_mul]
      rw [Finset.sum_sub_distrib, hone fun k => val (B k j)]
    rw [e]
    calc |∑ k, (val (Q i k) - (1 : Matrix (Fin n) (Fin n) ℝ) i k) * val (B k j)|
        ≤ ∑ k, |(val (Q i k) - (1 : Matrix (Fin n) (Fin n) ℝ) i k) * val (B k j)| := Finset.abs_sum_le_sum_abs _ _
      _ ≤ ∑ k, ((g - 1) * ((1 : Matrix (Fin n) (Fin n) ℝ) i k * |val (B k j)|) + c * |val (B k j)|) :=
          Finset.sum_le_sum fun k _ => by
            rw [abs_mul]
            have := mul_le_mul_of_nonneg_right (q i k) (abs_nonneg (val (B k j)))
            linarith
      _ = _ := by rw [Finset.sum_add_distrib, ← Finset.mul_sum, ← Finset.mul_sum, hone]
  have h1 := mul_le_mul_of_nonneg_left s1 (by linarith : 0 ≤ g - 1)
  have h2 := abs_sub_le (val (P i j)) (∑ k, val (Q i k) * val (B k j)) (val (B i j))
  have hmain : |val (P i j) - val (B i j)| ≤ (g ^ 2 - 1) * |val (B i j)| + c * (1 + g * ∑ k, |val (B k j)|) := by
    nlinarith
  rw [show (1 + u T) ^ (2 * n) = g ^ 2 by rw [hgdef, ← pow_mul]; congr 1; omega]
  refine ⟨hmain, fun β hβ => ?_⟩
  have h3 := abs_sub_le (val (P i j)) (val (B i j)) ((A.map val)⁻¹ i j)
  have := hβ i j
  linarith

/-- C160: Strassen products of 2x2 matrices with elements of size at most `α` and `β`; `d` is the absolute error of a sum. -/
theorem C160_strassen (A B P : Mat T 2 2) (α β : ℝ) (hα : ∀ i j, |val (A i j)| ≤ α) (hβ : ∀ i j, |val (B i j)| ≤ β)
    (hP : strassen A B = .ok P) (i j : Fin 2) :
    |val (P i j) - (A.map val * B.map val) i j| ≤ ((1 + u T) ^ 6 - 1) * (12 * (α * β)) +
      (1 + u T) ^ 5 * (5 * (α + β) * Standard.d T + 2 * Standard.d T ^ 2 + 4 * h T) :=
  Standard.strassen_err hα hβ hP i j

end

/-! ## In the floating point environments -/

section
variable {F : Fmt} {n : Nat} (e : FpEnv)

/-- C160: a call in a floating point environment that raises no exception returns what it returns with exceptions trapped, so
the bounds above hold in every environment. -/
theorem C160_env (handled : Option Exc) (w : Nat) (A P : Mat (Fl F) n n) (p : Int) (B C Q : Mat (Fl F) 2 2) :
    (pow (T := Trapped e F) handled w A p = .ok P → pow (T := InEnv e F) handled w A p = .ok P) ∧
    (strassen (T := Trapped e F) B C = .ok Q → strassen (T := InEnv e F) B C = .ok Q) :=
  ⟨fun h => env_res (sim_pow (T := Trapped e F) (U := InEnv e F) handled w (env_mat e A) p) h, fun h => env_res (sim_strassen (T := Trapped e F) (U := InEnv e F) (env_mat e B) (env_mat e C)) h⟩

end

/-! ## The hypotheses are met -/

/-- Numbers that are rounded, upward and downward: 4097^2 is not a number of binary32. -/
def c160A : Mat (Fl binary32) 2 2 := .of ![![Fl.ofInt 4097, Fl.ofInt 0], ![Fl.ofInt 1, Fl.ofInt 3]]

example : (pow (T := Trapped envFast binary32) none 32 c160A 3).isOk = true ∧
    (pow (T := Trapped envArm binary32) none 32 c160A 3).isOk = true ∧
    (pow (T := Trapped c158Env binary32) none 32 c160A (-3)).isOk = true ∧
    (pow (T := Trapped c158Env binary32) none 32 c160A (-1)).isOk = true ∧
    (inv (T := Trapped c158Env binary32) none c160A).isOk = true ∧
    (strassen (T := Trapped envFast binary32) c160A c160A).isOk = true ∧
    (strassen (T := Trapped envArm binary32) c160A c160A).isOk = true := by decide +kernel

/-- The sums of its rows and columns are at most 5000. -/
example : (∀ i, ∑ j, |val (T := Trapped c158Env binary32) (c160A i j)| ≤ 5000) ∧
    ∀ j, ∑ i, |val (T := Trapped c158Env binary32) (c160A i j)| ≤ 5000 := by
  have v : ∀ k : Int, k.natAbs ≤ 2 ^ 24 → c158Env.val (Fl.ofInt k : Fl binary32) = k := fun k hk =>
    (Fl.val_ofInt_exact (F := binary32) k hk).2
  have v0 : val (T := Trapped c158Env binary32) (c160A 0 0) = 4097 := (v 4097 (by decide)).trans (by norm_num)
  have v1 : val (T := Trapped c158Env binary32) (c160A 0 1) = 0 := (v 0 (by decide)).trans (by norm_num)
  have v2 : val (T := Trapped c158Env binary32) (c160A 1 0) = 1 := (v 1 (by decide)).trans (by norm_num)
  have v3 : val (T := Trapped c158Env binary32) (c160A 1 1) = 3 := (v 3 (by decide)).trans (by norm_num)
  refine ⟨fun i => ?_, fun i => ?_⟩ <;> rw [Fin.sum_univ_two] <;> fin_cases i
  · show |val (T := Trapped c158Env binary32) (c160A 0 0)| + |val (T := Trapped c158Env binary32) (c160A 0 1)| ≤ _
    rw [v0, v1]; norm_num
  · show |val (T := Trapped c158Env binary32) (c160A 1 0)| + |val (T := Trapped c158Env binary32) (c160A 1 1)| ≤ _
    rw [v2, v3]; norm_num
  · show |val (T := Trapped c158Env binary32) (c160A 0 0)| + |val (T := Trapped c158Env binary32) (c160A 1 0)| ≤ _
    rw [v0, v2]; norm_num
  · show |val (T := Trapped c158Env binary32) (c160A 0 1)| + |val (T := Trapped c158Env binary32) (c160A 1 1)| ≤ _
    rw [v1, v3]; norm_num

end MatrixLibs
