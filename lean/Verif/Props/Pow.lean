import Verif.Proof.Pow
import Mathlib.LinearAlgebra.Matrix.Notation

/-!
# Properties C43–C45: matrix powers

`w` is the width of the exponent type `P`, whose smallest value is `-2^(w-1)`.
-/

namespace MatrixLibs

set_option linter.unusedSectionVars false

/-! ## C43 -/

/-- C43: `pow(A, p)` is the `p`-fold product, for every ring and every `p ≥ 0`. -/
theorem C43_pow {K : Type} [Ring K] [Inhabited K] [CScalar K] [ExactRing K] {n : Nat}
    (handled : Option Exc) (w : Nat) (A : Mat K n n) (p : Nat) :
    pow handled w A (p : Int) = .ok (A ^ p) :=
  pow_nonneg_ok handled w A p

/-- C43: for a negative exponent, other than the smallest, and a non-singular `A` it is the power
of the inverse. -/
theorem C43_pow_negative {K : Type} [Field K] [Inhabited K] [CScalar K] [ExactField K] {n : Nat}
    (handled : Option Exc) (w : Nat) (hn : 1 ≤ n) (A : Mat K n n) (hA : A.det ≠ 0) (p : Nat)
    (hp : 1 ≤ p) (hw : p < 2 ^ (w - 1)) :
    pow handled w A (-(p : Int)) = .ok (A⁻¹ ^ p) := by
  have hmin : -(p : Int) ≠ expMin w := by
    unfold expMin
    intro h
    have : (p : Int) = 2 ^ (w - 1) := by omega
    have h' : p = 2 ^ (w - 1) := by exact_mod_cast this
    omega
  rw [pow_neg_ok handled w hn A hA _ (by omega) hmin, Int.natAbs_neg, Int.natAbs_natCast]

/-- C43, signed elements: the exact power over the integers, or signed overflow. -/
theorem C43_pow_signed (v : Nat) (hv : 2 ≤ v) {n : Nat} [Inhabited (SInt v)]
    (handled : Option Exc) (w : Nat) (A : Mat (SInt v) n n) (p : Nat) :
    (∃ P, pow handled w A (p : Int) = .ok P ∧ P.map SInt.val = A.map SInt.val ^ p) ∨
      pow handled w A (p : Int) = .error (.ub .signedOverflow) := by
  have h := wp_powFuel (RingSem.signed v hv) handled w A p (((p : Int).natAbs).log2 + 2)
    (by rw [Int.natAbs_natCast]; omega)
  change wp (pow handled w A (p : Int)) _ _ at h
  cases hr : pow handled w A (p : Int) with
  | ok P => exact Or.inl ⟨P, rfl, by have := wp_ok_elim h hr; exact this⟩
  | error e =>
    have he := wp_error_elim h hr
    exact Or.inr (by rw [show e = _ from he])

example : pow none 32 (!![1, 1; 1, 0] : Mat ℚ 2 2) 10 = .ok !![89, 55; 55, 34] := by
  decide +kernel
example : pow none 32 (!![1, 1; 0, 1] : Mat (BitVec 32) 2 2) 77 = .ok !![1, 77; 0, 1] := by
  decide +kernel
example : pow none 32 (!![2, 1; 1, 1] : Mat ℚ 2 2) (-3) = .ok !![5, -8; -8, 13] := by
  decide +kernel
example : pow none 32 (!![2, 1; 1, 1] : Mat ℚ 2 2) (-1) = .ok !![1, -1; -1, 2] := by
  decide +kernel

/-! ## C44 -/

section
variable {K : Type} [Field K] [Inhabited K] [CScalar K] [ExactField K] {n : Nat}

/-- Exponents of `P` other than the smallest one. -/
def ExpOk (w : Nat) (p : Int) : Prop := InRange w p ∧ p ≠ expMin w

theorem ExpOk.gt {w : Nat} {p : Int} (h : ExpOk w p) : expMin w < p :=
  lt_of_le_of_ne h.1.1 (Ne.symm h.2)

/-- C44: every power exists. -/
theorem C44_pow_returns (handled : Option Exc) (w : Nat) (hn : 1 ≤ n) (A : Mat K n n)
    (hA : A.det ≠ 0) (p : Int) (hp : ExpOk w p) :
    ∃ X, pow handled w A p = .ok X ∧ X.det ≠ 0 := by
  refine ⟨A ^ p, pow_zpow handled w hn A hA p hp.gt, ?_⟩
  exact (Matrix.isUnit_det_zpow_iff.mpr (Or.inl hA.isUnit)).ne_zero

/-- C44: `pow(A, p+q) == pow(A, p) * pow(A, q)`. -/
theorem C44_pow_add (handled : Option Exc) (w : Nat) (hn : 1 ≤ n) (A : Mat K n n)
    (hA : A.det ≠ 0) (p q : Int) (hp : ExpOk w p) (hq : ExpOk w q) (hpq : ExpOk w (p + q))
    (X Y : Mat K n n) (hX : pow handled w A p = .ok X) (hY : pow handled w A q = .ok Y) :
    pow handled w A (p + q) = opMul X Y := by
  rw [pow_zpow handled w hn A hA _ hp.gt] at hX
  rw [pow_zpow handled w hn A hA _ hq.gt] at hY
  cases hX
  cases hY
  rw [pow_zpow handled w hn A hA _ hpq.gt, Matrix.zpow_add hA.isUnit]
  exact (mult_ok _ _).symm

/-- C44: `pow(pow(A, p), q) == pow(A, p*q)`. -/
theorem C44_pow_mul (handled : Option Exc) (w : Nat) (hn : 1 ≤ n) (A : Mat K n n)
    (hA : A.det ≠ 0) (p q : Int) (hp : ExpOk w p) (hq : ExpOk w q) (hpq : ExpOk w (p * q))
    (X : Mat K n n) (hX : pow handled w A p = .ok X) :
    pow handled w X q = pow handled w A (p * q) := by
  rw [pow_zpow handled w hn A hA _ hp.gt] at hX
  cases hX
  rw [pow_zpow handled w hn A hA _ hpq.gt, Matrix.zpow_mul A hA.isUnit]
  exact pow_zpow handled w hn (A ^ p)
    (Matrix.isUnit_det_zpow_iff.mpr (Or.inl hA.isUnit)).ne_zero q hq.gt

/-- C44: `pow(A, -p) == inv(pow(A, p))`. -/
theorem C44_pow_neg (handled : Option Exc) (w : Nat) (hn : 1 ≤ n) (A : Mat K n n)
    (hA : A.det ≠ 0) (p : Int) (hp : ExpOk w p) (hq : ExpOk w (-p))
    (X : Mat K n n) (hX : pow handled w A p = .ok X) :
    pow handled w A (-p) = inv handled X := by
  rw [pow_zpow handled w hn A hA _ hp.gt] at hX
  cases hX
  rw [pow_zpow handled w hn A hA _ hq.gt, Matrix.zpow_neg hA.isUnit]
  exact (inv_ok handled hn (A ^ p)
    (Matrix.isUnit_det_zpow_iff.mpr (Or.inl hA.isUnit)).ne_zero).symm

/-- C44: `pow(A, -1) == inv(A)`. -/
theorem C44_pow_minus_one (handled : Option Exc) (w : Nat) (hw : 2 ≤ w) (hn : 1 ≤ n)
    (A : Mat K n n) (hA : A.det ≠ 0) : pow handled w A (-1) = inv handled A := by
  have hmin : expMin w < -1 := by
    unfold expMin
    have h1 : (2 : Int) ^ 1 ≤ 2 ^ (w - 1) := by
      exact pow_le_pow_right₀ (by omega) (by omega)
    omega
  rw [pow_zpow handled w hn A hA _ hmin, Matrix.zpow_neg_one, inv_ok handled hn A hA]

/-- C44: `det(pow(A, p)) == det(A)^p`. -/
theorem C44_pow_det (handled : Option Exc) (w : Nat) (hn : 1 ≤ n) (A : Mat K n n)
    (hA : A.det ≠ 0) (p : Int) (hp : ExpOk w p)
    (X : Mat K n n) (hX : pow handled w A p = .ok X) :
    ∃ d, det A = .ok d ∧ det X = .ok (d ^ p) := by
  rw [pow_zpow handled w hn A hA _ hp.gt] at hX
  cases hX
  refine ⟨A.det, det_ok A, (det_ok _).trans ?_⟩
  congr 1
  obtain ⟨k, rfl | rfl⟩ : ∃ k : Nat, p = k ∨ p = -(k : Int) := ⟨p.natAbs, by omega⟩
  · rw [zpow_natCast, zpow_natCast, Matrix.det_pow]
  · rw [Matrix.zpow_neg_natCast, Matrix.det_nonsing_inv, Matrix.det_pow, Ring.inverse_eq_inv',
      zpow_neg, zpow_natCast]

end

/-- C44 without inverses: for exponents `≥ 0` the laws hold in every ring, also for singular `A`. -/
theorem C44_pow_add_nonneg {K : Type} [Ring K] [Inhabited K] [CScalar K] [ExactRing K] {n : Nat}
    (handled : Option Exc) (w : Nat) (A : Mat K n n) (p q : Nat) (X Y : Mat K n n)
    (hX : pow handled w A (p : Int) = .ok X) (hY : pow handled w A (q : Int) = .ok Y) :
    pow handled w A ((p : Int) + q) = opMul X Y ∧
      pow handled w X (q : Int) = pow handled w A ((p : Int) * q) := by
  rw [C43_pow] at hX hY
  cases hX
  cases hY
  rw [← Nat.cast_add, ← Nat.cast_mul, C43_pow, C43_pow, C43_pow, pow_add, pow_mul]
  exact ⟨(mult_ok _ _).symm, rfl⟩

example : ExpOk 32 (-5) := ⟨by decide, by decide⟩
example : (!![2, 1; 1, 1] : Mat ℚ 2 2).det ≠ 0 := by
  rw [Matrix.det_fin_two_of]; norm_num
example : pow none 32 (!![2, 1; 1, 1] : Mat ℚ 2 2) 3 = .ok !![13, 8; 8, 5] ∧
    inv none (!![13, 8; 8, 5] : Mat ℚ 2 2) = .ok !![5, -8; -8, 13] := by
  constructor <;> decide +kernel

/-! ## C45 -/

section
variable {T : Type} [Inhabited T] [CScalar T] {n : Nat}

/-- C45: `log2|p| + 2` levels of recursion are enough for every exponent: more of them change
nothing, for every element type and every outcome. -/
theorem C45_pow_depth (handled : Option Exc) (w : Nat) (A : Mat T n n) (p : Int) (d : Nat)
    (hd : p.natAbs.log2 + 2 ≤ d) :
    powFuel handled w d A p = powFuel handled w (p.natAbs.log2 + 2) A p := by
  rw [powFuel_enough handled w A p d hd]
  rfl

/-- C45: hence the recursion terminates: running out of levels is never the reason to stop, unless
it is in `inv`. -/
theorem C45_pow_terminates [ScalarStops T] (handled : Option Exc) (w : Nat) (A : Mat T n n)
    (p : Int) (hinv : inv handled A ≠ .error .diverges) :
    pow handled w A p ≠ .error .diverges := by
  have hbad : ∀ X : Res (Mat T n n), ∀ Q : Mat T n n → Prop,
      wp X Q (RingSem.stops T).Bad → X ≠ .error .diverges := by
    intro X Q h hX
    have hs : ScalarStop .diverges := wp_error_elim h hX
    rcases hs with h | h | h | h <;> cases h
  unfold pow
  rcases lt_or_ge p 0 with hp | hp
  · by_cases hmin : p = expMin w
    · rw [hmin, powFuel_min]
      cases hr : inv handled A with
      | ok B => rw [ok_bind]; intro h; cases h
      | error e =>
        rw [error_bind]
        rw [hr] at hinv
        exact hinv
    · rw [powFuel_neg _ _ _ _ _ hp hmin]
      cases hr : inv handled A with
      | ok B =>
        rw [ok_bind]
        exact hbad _ _ (wp_powStep (RingSem.stops T) handled w B p.natAbs _ (by omega) (by omega))
      | error e =>
        rw [error_bind]
        rw [hr] at hinv
        exact hinv
  · obtain ⟨k, rfl⟩ : ∃ k : Nat, p = k := ⟨p.toNat, by omega⟩
    exact hbad _ _ (wp_powFuel (RingSem.stops T) handled w A k _
      (by rw [Int.natAbs_natCast]; omega))

/-- C45: with a negative exponent a failure of `inv(A)` is the failure of the call. -/
theorem C45_pow_inv_fails (handled : Option Exc) (w : Nat) (A : Mat T n n) (p : Int) (hp : p < 0)
    (e : Stop) (h : inv handled A = .error e) : pow handled w A p = .error e := by
  unfold pow
  by_cases hmin : p = expMin w
  · rw [hmin, powFuel_min, h, error_bind]
  · rw [powFuel_neg _ _ _ _ _ hp hmin, h, error_bind]

/-- C45: the smallest exponent overflows in `std::abs`. -/
theorem C45_pow_min (handled : Option Exc) (w : Nat) (A B : Mat T n n)
    (h : inv handled A = .ok B) :
    pow handled w A (-(2 ^ (w - 1))) = .error (.ub .signedOverflow) := by
  show pow handled w A (expMin w) = _
  unfold pow
  rw [powFuel_min, h, ok_bind]

/-- C45: otherwise, from `p = -2` down, it is the positive power of `inv(A)`. -/
theorem C45_pow_of_inv (handled : Option Exc) (w : Nat) (A B : Mat T n n) (p : Nat) (hp : 2 ≤ p)
    (hw : p < 2 ^ (w - 1)) (h : inv handled A = .ok B) :
    pow handled w A (-(p : Int)) = pow handled w B (p : Int) := by
  have hmin : -(p : Int) ≠ expMin w := by
    unfold expMin
    intro h
    have : (p : Int) = 2 ^ (w - 1) := by omega
    have h' : p = 2 ^ (w - 1) := by exact_mod_cast this
    omega
  unfold pow
  rw [powFuel_neg _ _ _ _ _ (by omega) hmin, h, ok_bind, powFuel_step _ _ _ _ _ hp,
    Int.natAbs_neg, Int.natAbs_natCast]

end

example : pow none 32 (!![1, 1; 1, 1] : Mat ℚ 2 2) (-2) = inv none (!![1, 1; 1, 1] : Mat ℚ 2 2) := by
  decide +kernel
example : pow none 32 (!![1, 1; 0, 1] : Mat ℚ 2 2) (-2147483648) =
    .error (.ub .signedOverflow) := by decide +kernel

end MatrixLibs
