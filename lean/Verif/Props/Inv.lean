import Verif.Proof.Inv
import Mathlib.LinearAlgebra.Matrix.Notation
import Verif.Proof.Overload
import Verif.Props.Det

/-!
# Properties C30–C32: inverses
-/

namespace MatrixLibs

set_option linter.unusedSectionVars false

section field
variable {K : Type} [Field K] [Inhabited K] [CScalar K] [ExactField K] {n : Nat}

/-! ## C30 -/

/-- C30: if `det(A)` returns something other than `0`, then `inv(A)` returns a two-sided inverse
(products computed by the library, compared with the library's `eye`). -/
theorem C30_inv (handled : Option Exc) (hn : 1 ≤ n) (A : Mat K n n) (d : K)
    (hd : det A = .ok d) (h0 : d ≠ 0) :
    ∃ B I, inv handled A = .ok B ∧ eye1 n = .ok I ∧ opMul A B = .ok I ∧ opMul B A = .ok I := by
  rw [det_ok] at hd
  cases hd
  have hu : IsUnit A.det := isUnit_iff_ne_zero.mpr h0
  refine ⟨A⁻¹, 1, inv_ok handled hn A h0, eye1_exact n, ?_, ?_⟩
  · exact (mult_ok A A⁻¹).trans (by rw [Matrix.mul_nonsing_inv A hu])
  · exact (mult_ok A⁻¹ A).trans (by rw [Matrix.nonsing_inv_mul A hu])

/-- C30: `inv(A)` returns only inverses: whatever it returns, for any `A`, multiplies with `A` to
the identity. -/
theorem C30_inv_sound (handled : Option Exc) (A B : Mat K n n) (h : inv handled A = .ok B) :
    A * B = 1 ∧ B * A = 1 := by
  have hn : 1 ≤ n := by
    rcases n with _ | n
    · cases h
    · omega
  have hdet : A.det ≠ 0 := by
    intro hz
    match n, A, B, h, hz with
    | 1, A, _, h, hz =>
      have : inv1 A = _ := h
      rw [inv1_singular A hz] at this; cases this
    | 2, A, _, h, hz =>
      have : inv2 handled A = _ := h
      rw [inv2_singular handled A hz] at this; cases this
    | 3, A, _, h, hz =>
      have : inv3 handled A = _ := h
      rw [inv3_singular handled A hz] at this; cases this
    | m + 4, A, _, h, hz =>
      have h' : invN handled A = _ := h
      rw [invN_eq, hz, C22_div_zero_field] at h'
      cases handled <;> cases h'
  rw [inv_ok handled hn A hdet] at h
  cases h
  have hu : IsUnit A.det := isUnit_iff_ne_zero.mpr hdet
  exact ⟨Matrix.mul_nonsing_inv A hu, Matrix.nonsing_inv_mul A hu⟩

example : inv none (!![2, 1; 1, 1] : Mat ℚ 2 2) = .ok !![1, -1; -1, 2] := by decide +kernel
example : inv none (!![0, 1, 0, 0; 1, 0, 0, 0; 0, 0, 2, 0; 1, 0, 0, 1] : Mat ℚ 4 4) =
    .ok !![0, 1, 0, 0; 1, 0, 0, 0; 0, 0, 1/2, 0; 0, -1, 0, 1] := by decide +kernel

/-! ## C31 -/

end field

/-- C31 as one would expect it: `inv` of a singular matrix throws `std::overflow_error`. -/
def C31_claim : Prop :=
  ∀ (n : Nat), 1 ≤ n → ∀ (handled : Option Exc) (A : Mat ℚ n n), A.det = 0 →
    ∃ msg, inv handled A = .error (.throws (.overflow_error msg))

/-- C31 is false (`n = 1`). -/
theorem C31_false : ¬ C31_claim := by
  intro h
  obtain ⟨msg, hm⟩ := h 1 le_rfl none (Mat.const 0) (by rw [Matrix.det_unique]; rfl)
  have h1 : inv none (Mat.const 0 : Mat ℚ 1 1) = .error (.ub .divisionByZero) := by
    decide +kernel
  rw [h1] at hm
  cases hm

/-- C31 is also false for every `n ≥ 4`: the program is terminated. -/
theorem C31_false_large (n : Nat) (hn : 4 ≤ n) :
    ∃ A : Mat ℚ n n, A.det = 0 ∧ inv none A = .error .terminates := by
  obtain ⟨m, rfl⟩ : ∃ m, n = m + 4 := ⟨n - 4, by omega⟩
  refine ⟨0, Matrix.det_zero, ?_⟩
  show invN none _ = _
  rw [invN_eq, Matrix.det_zero, C22_div_zero_field]

section field
variable {K : Type} [Field K] [Inhabited K] [CScalar K] [ExactField K] {n : Nat}

/-- C31, what holds: exactly what `inv` of a singular matrix does, for every `n ≥ 1`. -/
theorem C31_inv_singular_partial (handled : Option Exc) (hn : 1 ≤ n) (A : Mat K n n)
    (h : A.det = 0) :
    inv handled A =
      if n = 1 then .error (.ub .divisionByZero)
      else if n ≤ 3 then .error (.throws (.overflow_error "Divide by zero exception"))
      else match handled with
        | none => .error .terminates
        | some e => .error (.throws e) := by
  match n, A, h with
  | 0, _, _ => omega
  | 1, A, h => exact inv1_singular A h
  | 2, A, h => exact inv2_singular handled A h
  | 3, A, h => exact inv3_singular handled A h
  | m + 4, A, h =>
    rw [if_neg (by omega), if_neg (by omega)]
    show invN handled A = _
    rw [invN_eq, h, C22_div_zero_field]
    cases handled <;> rfl

example : inv none (!![2, 4; 1, 2] : Mat ℚ 2 2) =
    .error (.throws (.overflow_error "Divide by zero exception")) := by decide +kernel
example : inv none (!![1, 1, 0, 0; 1, 1, 0, 0; 0, 0, 2, 0; 1, 0, 0, 1] : Mat ℚ 4 4) =
    .error .terminates := by decide +kernel

/-! ## C32 -/

/-- C32: `inv(inv(A)) == A`. -/
theorem C32_inv_inv (handled : Option Exc) (hn : 1 ≤ n) (A : Mat K n n) (h : A.det ≠ 0) :
    ∃ B, inv handled A = .ok B ∧ inv handled B = .ok A := by
  have hu : IsUnit A.det := isUnit_iff_ne_zero.mpr h
  refine ⟨A⁻¹, inv_ok handled hn A h, ?_⟩
  rw [inv_ok handled hn _ (isUnit_iff_ne_zero.mp (Matrix.isUnit_nonsing_inv_det A hu)),
    Matrix.nonsing_inv_nonsing_inv A hu]

/-- C32: `inv(A*B) == inv(B)*inv(A)`. -/
theorem C32_inv_mul (handled : Option Exc) (hn : 1 ≤ n) (A B : Mat K n n) (hA : A.det ≠ 0)
    (hB : B.det ≠ 0) :
    ∃ P A' B' R, opMul A B = .ok P ∧ inv handled A = .ok A' ∧ inv handled B = .ok B' ∧
      inv handled P = .ok R ∧ opMul B' A' = .ok R := by
  refine ⟨A * B, A⁻¹, B⁻¹, B⁻¹ * A⁻¹, mult_ok A B, inv_ok handled hn A hA, inv_ok handled hn B hB,
    ?_, mult_ok _ _⟩
  rw [inv_ok handled hn _ (by rw [Matrix.det_mul]; exact mul_ne_zero hA hB), Matrix.mul_inv_rev]

/-- C32: `inv(trans(A)) == trans(inv(A))`. -/
theorem C32_inv_trans (handled : Option Exc) (hn : 1 ≤ n) (A : Mat K n n) (hA : A.det ≠ 0) :
    ∃ P A' R, trans A = .ok P ∧ inv handled A = .ok A' ∧ inv handled P = .ok R ∧
      trans A' = .ok R := by
  refine ⟨A.transpose, A⁻¹, A⁻¹.transpose, trans_ok A, inv_ok handled hn A hA, ?_, trans_ok _⟩
  rw [inv_ok handled hn _ (by rw [Matrix.det_transpose]; exact hA), Matrix.transpose_nonsing_inv]

/-- C32: `inv(eye) == eye`. -/
theorem C32_inv_eye (handled : Option Exc) (hn : 1 ≤ n) :
    ∃ I : Mat K n n, eye1 n = .ok I ∧ inv handled I = .ok I := by
  refine ⟨1, eye1_exact n, ?_⟩
  rw [inv_ok handled hn _ (by rw [Matrix.det_one]; exact one_ne_zero), inv_one]

/-- C32: `det(inv(A)) == 1 / det(A)`. -/
theorem C32_det_inv (handled : Option Exc) (hn : 1 ≤ n) (A : Mat K n n) (hA : A.det ≠ 0) :
    ∃ A' d d', inv handled A = .ok A' ∧ det A = .ok d ∧ det A' = .ok d' ∧ d * d' = 1 := by
  refine ⟨A⁻¹, A.det, _, inv_ok handled hn A hA, det_ok A, det_ok _, ?_⟩
  rw [← Matrix.det_mul, Matrix.mul_nonsing_inv A (isUnit_iff_ne_zero.mpr hA), Matrix.det_one]

/-- A regular `2 × 2` matrix and its inverse, each the inverse of the other. -/
example : (!![2, 1; 1, 1] : Mat ℚ 2 2).det ≠ 0 ∧
    inv none (!![2, 1; 1, 1] : Mat ℚ 2 2) = .ok !![1, -1; -1, 2] ∧
    inv none (!![1, -1; -1, 2] : Mat ℚ 2 2) = .ok !![2, 1; 1, 1] := by
  refine ⟨by rw [Matrix.det_fin_two]; decide +kernel, ?_, ?_⟩ <;> decide +kernel

/-- C62: `inv` uses the general algorithm whenever overload resolution selects it. -/
theorem C62_inv_dispatch {T : Type} [Inhabited T] [CScalar T] {n : Nat} (handled : Option Exc)
    (hn : 1 ≤ n) (A : Mat T n n)
    (h : Overload.resolve Overload.squareCands [n, n] = .selected .general) :
    inv handled A = invN handled A := by
  rw [Overload.resolve_square] at h
  match n, A, h with
  | 0, A, _ => omega
  | 1, A, h => cases h
  | 2, A, h => cases h
  | 3, A, h => cases h
  | _ + 4, A, _ => rfl

end field

example : (!![2, 1; 1, 1] : Mat ℚ 2 2).det ≠ 0 := by
  rw [Matrix.det_fin_two]; decide +kernel

end MatrixLibs
