import Verif.Proof.Dominant
import Verif.Props.Agree

/-!
# Property C132: diagonally dominant matrices in exact arithmetic
-/

namespace MatrixLibs

set_option linter.unusedSectionVars false

section
variable {K : Type} [Field K] [LinearOrder K] [IsStrictOrderedRing K] [Inhabited K] [CScalar K]
  [ExactOrdered K] {n : Nat}

/-- C132: `lu` never throws for a matrix with dominant rows or dominant columns. -/
theorem C132_lu (A : Mat K n n) (h : RowsDominate A ∨ ColsDominate A) :
    ∃ L U, lu A = .ok (L, U) := by
  refine (C34_lu_returns_iff A).mpr fun k hk _ => ?_
  rcases h with h | h
  · exact h.minor_ne_zero k hk
  · exact h.minor_ne_zero k hk

/-- C132: nor does `inv`. -/
theorem C132_inv (handled : Option Exc) (hn : 1 ≤ n) (A : Mat K n n)
    (h : RowsDominate A ∨ ColsDominate A) : ∃ B, inv handled A = .ok B := by
  refine ⟨_, inv_ok handled hn A ?_⟩
  rcases h with h | h
  · exact h.det_ne_zero
  · exact h.det_ne_zero

/-- C132: `det` lies between the product of the amounts by which the diagonal elements dominate
their rows and the product of the absolute row sums; the upper bound needs no dominance. -/
theorem C132_det_rows (A : Mat K n n) (h : RowsDominate A) :
    ∃ d, det A = .ok d ∧ ∏ i, (|A i i| - ∑ j ∈ Finset.univ.erase i, |A i j|) ≤ |d| ∧
      |d| ≤ ∏ i, ∑ j, |A i j| :=
  ⟨_, det_ok A, ostrowski A h, det_le_rows A⟩

/-- C132: the same for columns. -/
theorem C132_det_cols (A : Mat K n n) (h : ColsDominate A) :
    ∃ d, det A = .ok d ∧ ∏ j, (|A j j| - ∑ i ∈ Finset.univ.erase j, |A i j|) ≤ |d| ∧
      |d| ≤ ∏ j, ∑ i, |A i j| := by
  refine ⟨_, det_ok A, ?_, ?_⟩
  · rw [← Matrix.det_transpose]; exact ostrowski A.transpose h
  · rw [← Matrix.det_transpose]; exact det_le_rows A.transpose

/-- C132: if the rows dominate by `μ` or more, the solution `inv(A) * Y` of a linear system is at
most `1 / μ` times as large as the right-hand side. -/
theorem C132_solve (handled : Option Exc) {p : Nat} (A B : Mat K n n) (h : inv handled A = .ok B)
    (μ η : K) (hμ : 0 < μ)
    (hgap : ∀ i, μ ≤ |A i i| - ∑ j ∈ Finset.univ.erase i, |A i j|) (Y : Mat K n p)
    (hY : ∀ a b, |Y a b| ≤ η) :
    ∃ X, opMul B Y = .ok X ∧ ∀ a b, |X a b| ≤ η / μ := by
  obtain ⟨h1, -⟩ := C30_inv_sound handled A B h
  refine ⟨_, mult_ok B Y, fun a b => ?_⟩
  refine dominant_solve (A := A) μ η hμ hgap (fun k => (B * Y) k b) (fun i => ?_) a
  have : ∑ j, A i j * (B * Y) j b = Y i b := by
    rw [← Matrix.mul_apply, ← Matrix.mul_assoc, h1, Matrix.one_mul]
  rw [this]
  exact hY i b

/-- C132: and the absolute row sums of `inv(A)` are at most `1 / μ`. -/
theorem C132_inv_rows (handled : Option Exc) (A B : Mat K n n) (h : inv handled A = .ok B)
    (μ : K) (hμ : 0 < μ)
    (hgap : ∀ i, μ ≤ |A i i| - ∑ j ∈ Finset.univ.erase i, |A i j|) (a : Fin n) :
    ∑ b, |B a b| ≤ 1 / μ := by
  obtain ⟨X, hX, hb⟩ := C132_solve handled A B h μ 1 hμ hgap
    (Matrix.of fun k (_ : Fin 1) => if 0 ≤ B a k then 1 else -1) (fun k _ => by
      rw [Matrix.of_apply]; split <;> simp)
  have e : opMul B (Matrix.of fun k (_ : Fin 1) => if 0 ≤ B a k then (1 : K) else -1) = .ok _ :=
    mult_ok _ _
  rw [e] at hX
  cases hX
  refine le_trans ?_ ((le_abs_self _).trans (hb a 0))
  rw [Matrix.mul_apply]
  refine Finset.sum_le_sum fun k _ => ?_
  rw [Matrix.of_apply]
  split
  · next h0 => rw [abs_of_nonneg h0, mul_one]
  · next h0 => rw [abs_of_neg (not_le.mp h0), mul_neg, mul_one]

end

/-- A matrix with dominant rows. -/
theorem rowsDominate_example : RowsDominate (!![4, 1, -1; 0, 3, 2; 1, 1, -5] : Mat ℚ 3 3) := by
  intro i
  fin_cases i <;> decide +kernel

/-- The bounds of `C132_det_rows` on that matrix are `6 ≤ 63 ≤ 210`. -/
example : det (!![4, 1, -1; 0, 3, 2; 1, 1, -5] : Mat ℚ 3 3) = .ok (-63) := by decide +kernel

section
variable {n : Nat}

/-- C132: a symmetric real matrix with positive diagonal and dominant rows is positive definite, so
`chol` returns a factor with positive diagonal. -/
theorem C132_chol (A : Mat ℝ n n) (h : RowsDominate A) (hsym : ∀ i j, A i j = A j i)
    (hpos : ∀ i, 0 < A i i) : IsPosDef A ∧ ∃ L, chol A = .ok L ∧ ∀ i, 0 < L i i :=
  ⟨h.posDef hsym hpos, (C38_chol_posDef_iff A hsym).mp (h.posDef hsym hpos)⟩

end

example : RowsDominate (!![4, 1; 1, 3] : Mat ℝ 2 2) := by
  intro i
  fin_cases i
  · have : (Finset.univ : Finset (Fin 2)).erase 0 = {1} := by decide
    show ∑ j ∈ (Finset.univ : Finset (Fin 2)).erase 0, _ < _
    rw [this]; norm_num
  · have : (Finset.univ : Finset (Fin 2)).erase 1 = {0} := by decide
    show ∑ j ∈ (Finset.univ : Finset (Fin 2)).erase 1, _ < _
    rw [this]; norm_num

end MatrixLibs
