import Verif.Proof.Det
import Verif.Props.Arith
import Mathlib.LinearAlgebra.Matrix.NonsingularInverse
import Mathlib.LinearAlgebra.Matrix.Adjugate

/-!
# Inverses over a field
-/

namespace MatrixLibs

set_option linter.unusedSectionVars false

open CScalar (ofInt)

section
variable {K : Type} [Field K] [Inhabited K] [CScalar K] [ExactField K] {n : Nat}

/-- What `A / det(A)` does to the adjugate. -/
theorem opDiv_adjugate (handled : Option Exc) (A : Mat K n n) (h : A.det ≠ 0) :
    opDiv handled A.adjugate A.det = .ok A⁻¹ := by
  unfold opDiv
  rw [div_ok handled _ h]
  congr 1
  ext a b
  rw [Matrix.of_apply, Matrix.inv_def, Ring.inverse_eq_inv', Matrix.smul_apply, smul_eq_mul,
    div_eq_inv_mul]

theorem inv1_ok (A : Mat K 1 1) (h : A.det ≠ 0) : inv1 A = .ok A⁻¹ := by
  have h1 : det1 A = .ok A.det := det_ok A
  unfold inv1
  rw [h1, ok_bind, ExactField.div_eq _ _ h, ok_bind, ExactRing.ofInt_eq, Int.cast_one]
  congr 1
  ext a b
  rw [Matrix.inv_def, Ring.inverse_eq_inv', Matrix.adjugate_subsingleton, Matrix.smul_apply,
    Subsingleton.elim a b, Matrix.one_apply_eq, smul_eq_mul, mul_one, one_div]
  rfl

theorem inv1_singular (A : Mat K 1 1) (h : A.det = 0) :
    inv1 A = .error (.ub .divisionByZero) := by
  have h1 : det1 A = .ok A.det := det_ok A
  unfold inv1
  rw [h1, ok_bind, h, ExactField.div_zero, error_bind]

theorem inv2_ok (handled : Option Exc) (A : Mat K 2 2) (h : A.det ≠ 0) :
    inv2 handled A = .ok A⁻¹ := by
  have h1 : det2 A = .ok A.det := det_ok A
  have l0 : (0 : Nat) < 2 := by norm_num
  have l1 : (1 : Nat) < 2 := by norm_num
  unfold inv2
  rw [h1, ok_bind, if_neg (fun h' => h ((eq_zero_iff _).mp h'))]
  rw [rd_eq l1 l1, ok_bind, rd_eq l0 l1, ok_bind, ExactRing.neg_eq, ok_bind, rd_eq l1 l0, ok_bind,
    ExactRing.neg_eq, ok_bind, rd_eq l0 l0, ok_bind]
  rw [← opDiv_adjugate handled A h]
  congr 1
  rw [Matrix.adjugate_fin_two]
  ext a b
  fin_cases a <;> fin_cases b <;> rfl

theorem inv2_singular (handled : Option Exc) (A : Mat K 2 2) (h : A.det = 0) :
    inv2 handled A = .error (.throws divideByZeroException) := by
  have h1 : det2 A = .ok A.det := det_ok A
  unfold inv2
  rw [h1, ok_bind, if_pos ((eq_zero_iff _).mpr h)]

theorem cross_ok (p q r s : K) : cross p q r s = .ok (p * q - r * s) := by
  unfold cross
  rw [ExactRing.mul_eq, ok_bind, ExactRing.mul_eq, ok_bind, ExactRing.sub_eq]

theorem inv3_ok (handled : Option Exc) (A : Mat K 3 3) (h : A.det ≠ 0) :
    inv3 handled A = .ok A⁻¹ := by
  have h1 : det3 A = .ok A.det := det_ok A
  have l0 : (0 : Nat) < 3 := by norm_num
  have l1 : (1 : Nat) < 3 := by norm_num
  have l2 : (2 : Nat) < 3 := by norm_num
  unfold inv3
  rw [h1, ok_bind, if_neg (fun h' => h ((eq_zero_iff _).mp h'))]
  rw [rd_eq l0 l0, ok_bind, rd_eq l0 l1, ok_bind, rd_eq l0 l2, ok_bind,
    rd_eq l1 l0, ok_bind, rd_eq l1 l1, ok_bind, rd_eq l1 l2, ok_bind,
    rd_eq l2 l0, ok_bind, rd_eq l2 l1, ok_bind, rd_eq l2 l2, ok_bind]
  iterate 9 rw [cross_ok, ok_bind]
  rw [← opDiv_adjugate handled A h]
  congr 1
  have z0 : (⟨0, l0⟩ : Fin 3) = 0 := rfl
  have z1 : (⟨1, l1⟩ : Fin 3) = 1 := rfl
  have z2 : (⟨2, l2⟩ : Fin 3) = 2 := rfl
  rw [z0, z1, z2, Matrix.adjugate_fin_three]
  ext a b
  fin_cases a <;> fin_cases b <;> simp [brace3] <;> ring

theorem inv3_singular (handled : Option Exc) (A : Mat K 3 3) (h : A.det = 0) :
    inv3 handled A = .error (.throws divideByZeroException) := by
  have h1 : det3 A = .ok A.det := det_ok A
  unfold inv3
  rw [h1, ok_bind, if_pos ((eq_zero_iff _).mpr h)]

/-- The loops of the general `inv` compute the transposed adjugate. -/
theorem invN_eq (handled : Option Exc) {m : Nat} (A : Mat K (m + 1) (m + 1)) :
    invN handled A = opDiv handled A.adjugate A.det := by
  unfold invN
  rw [det_ok A, ok_bind]
  have hloop : (forUp 0 (m + 1) (valueInit (m + 1) (m + 1)) fun i invA =>
      forUp 0 (m + 1) invA fun j invA => do
        let d ← det (← getminor A i j)
        wr invA i j (← CScalar.mul (ofInt (if (i + j) % 2 ≠ 0 then -1 else 1)) d)) =
      .ok (A.adjugate.transpose) := by
    have hassoc : (fun (i : Nat) (invA : Mat K (m + 1) (m + 1)) =>
      forUp 0 (m + 1) invA fun j invA => do
        let d ← det (← getminor A i j)
        wr invA i j (← CScalar.mul (ofInt (if (i + j) % 2 ≠ 0 then -1 else 1)) d)) =
      (fun (i : Nat) (invA : Mat K (m + 1) (m + 1)) =>
      forUp 0 (m + 1) invA fun j invA => do
        wr invA i j (← (do
          let d ← det (← getminor A i j)
          CScalar.mul (ofInt (if (i + j) % 2 ≠ 0 then -1 else 1)) d))) := by
      funext i invA
      congr 1
      funext j invA
      simp only [bind_assoc]
    rw [hassoc]
    refine fill_eq (g := fun i j => (do
          let d ← det (← getminor A i j)
          CScalar.mul (ofInt (if (i + j) % 2 ≠ 0 then -1 else 1)) d)) _ ?_
    intro a b
    rw [getminor_ok, ok_bind, det_ok, ok_bind, ExactRing.mul_eq, ExactRing.ofInt_eq,
      Matrix.transpose_apply, Matrix.adjugate_fin_succ_eq_det_submatrix]
    congr 2
    rcases Nat.mod_two_eq_zero_or_one (a.val + b.val) with h | h
    · rw [if_neg (by omega), (Nat.even_iff.mpr h).neg_one_pow, Int.cast_one]
    · rw [if_pos (by omega), (Nat.odd_iff.mpr h).neg_one_pow, Int.cast_neg, Int.cast_one]
  rw [hloop, ok_bind, trans_ok, ok_bind, Matrix.transpose_transpose]

theorem invN_ok (handled : Option Exc) {m : Nat} (A : Mat K (m + 1) (m + 1)) (h : A.det ≠ 0) :
    invN handled A = .ok A⁻¹ := by
  rw [invN_eq, opDiv_adjugate handled A h]

/-- `inv` of a non-singular matrix over a field. -/
theorem inv_ok (handled : Option Exc) (hn : 1 ≤ n) (A : Mat K n n) (h : A.det ≠ 0) :
    inv handled A = .ok A⁻¹ := by
  match n, A, h with
  | 0, _, _ => omega
  | 1, A, h => exact inv1_ok A h
  | 2, A, h => exact inv2_ok handled A h
  | 3, A, h => exact inv3_ok handled A h
  | _ + 4, A, h => exact invN_ok handled A h

end

end MatrixLibs
