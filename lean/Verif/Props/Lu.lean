import Verif.Proof.Lu
import Mathlib.LinearAlgebra.Matrix.Notation

/-!
# Properties C33–C35: LU factorisation
-/

namespace MatrixLibs

set_option linter.unusedSectionVars false

section
variable {K : Type} [Field K] [Inhabited K] [CScalar K] [ExactField K] {n : Nat}

/-- C33: whatever `lu(A)` returns is a factorisation of `A` into a unit lower triangular and an
upper triangular matrix with non-zero diagonal. -/
theorem C33_lu (A L U : Mat K n n) (h : lu A = .ok (L, U)) :
    IsUnitLower L ∧ IsRegularUpper U ∧ L * U = A := by
  have hI := wp_ok_elim (wp_lu A) h
  dsimp only at hI
  refine ⟨⟨hI.Lupper, hI.Ldiag⟩, ⟨hI.Ulower, fun q => hI.Udiag q q.2⟩, ?_⟩
  ext i q
  rw [Matrix.mul_apply]
  exact hI.prod i q q.2

/-- C33: multiplying the two factors with the library gives back `A`. -/
theorem C33_lu_product (A L U : Mat K n n) (h : lu A = .ok (L, U)) : opMul L U = .ok A :=
  (mult_ok L U).trans (by rw [(C33_lu A L U h).2.2])

/-- C33: the determinant is the product of the diagonal of `U`. -/
theorem C33_lu_det (A L U : Mat K n n) (h : lu A = .ok (L, U)) :
    det A = .ok (∏ q, U q q) := by
  obtain ⟨⟨hL0, hL1⟩, ⟨hU0, -⟩, rfl⟩ := C33_lu A L U h
  rw [det_ok, Matrix.det_mul, Matrix.det_of_isLowerTriangular L (fun i p hip => hL0 i p hip),
    Matrix.det_of_isUpperTriangular (M := U) (fun p q hpq => hU0 p q hpq),
    Finset.prod_eq_one (fun i _ => hL1 i), one_mul]

/-- The call returns on a `3 × 3` matrix. -/
example : lu (!![2, 1, 1; 4, 5, 3; 6, 9, 9] : Mat ℚ 3 3) =
    .ok (!![1, 0, 0; 2, 1, 0; 3, 2, 1], !![2, 1, 1; 0, 3, 1; 0, 0, 4]) := by
  decide +kernel

/-- A factorisation determines the leading minors. -/
theorem minor_of_factors (A L U : Mat K n n) (hL : IsUnitLower L) (hU : IsRegularUpper U)
    (h : L * U = A) (k : Nat) (hk : k ≤ n) : leadingMinor A k hk ≠ 0 := by
  rw [leadingMinor_eq_prod A L U k hk (fun i p _ => hL.1 i p) (fun i _ => hL.2 i)
    (fun p q _ => hU.1 p q) (fun i q _ _ => by rw [← h, Matrix.mul_apply])]
  exact Finset.prod_ne_zero_iff.mpr (fun q _ => hU.2 _)

/-- C34: `lu(A)` returns iff all leading principal minors of orders `1..n` are non-zero. -/
theorem C34_lu_returns_iff (A : Mat K n n) :
    (∃ L U, lu A = .ok (L, U)) ↔ ∀ k (hk : k ≤ n), 1 ≤ k → leadingMinor A k hk ≠ 0 := by
  constructor
  · rintro ⟨L, U, h⟩ k hk _
    obtain ⟨hL, hU, hA⟩ := C33_lu A L U h
    exact minor_of_factors A L U hL hU hA k hk
  · intro hm
    cases h : lu A with
    | ok s => exact ⟨s.1, s.2, rfl⟩
    | error e =>
      obtain ⟨-, k, hk, h1, h0⟩ := wp_error_elim (wp_lu A) h
      exact absurd h0 (hm k hk h1)

/-- C34: otherwise it throws `std::overflow_error`, and it does nothing else. -/
theorem C34_lu_throws_iff (A : Mat K n n) :
    lu A = .error (.throws (.overflow_error "Divide by zero exception")) ↔
      ∃ k, ∃ hk : k ≤ n, 1 ≤ k ∧ leadingMinor A k hk = 0 := by
  constructor
  · intro h
    exact (wp_error_elim (wp_lu A) h).2
  · rintro ⟨k, hk, h1, h0⟩
    cases h : lu A with
    | ok s => exact absurd h0 ((C34_lu_returns_iff A).mp ⟨s.1, s.2, h⟩ k hk h1)
    | error e =>
      have he : e = _ := (wp_error_elim (wp_lu A) h).1
      rw [he]; rfl

/-- C34: every outcome is one of the two. -/
theorem C34_lu_outcomes (A : Mat K n n) :
    (∃ L U, lu A = .ok (L, U)) ∨
      lu A = .error (.throws (.overflow_error "Divide by zero exception")) := by
  cases h : lu A with
  | ok s => exact Or.inl ⟨s.1, s.2, rfl⟩
  | error e =>
    right
    have he : e = _ := (wp_error_elim (wp_lu A) h).1
    rw [he]; rfl

/-- A regular matrix whose second leading minor is zero: the call throws. -/
example : lu (!![1, 2, 3; 2, 4, 5; 1, 0, 1] : Mat ℚ 3 3) =
    .error (.throws (.overflow_error "Divide by zero exception")) := by
  decide +kernel

/-- C35: if `A` has a factorisation, `lu(A)` returns exactly that one. -/
theorem C35_lu_unique (A L U : Mat K n n) (hL : IsUnitLower L) (hU : IsRegularUpper U)
    (h : L * U = A) : lu A = .ok (L, U) := by
  obtain ⟨L', U', hret⟩ := (C34_lu_returns_iff A).mpr
    (fun k hk _ => minor_of_factors A L U hL hU h k hk)
  obtain ⟨hL', hU', hA'⟩ := C33_lu A L' U' hret
  obtain ⟨rfl, rfl⟩ := lu_unique L U L' U' hL.2 hL'.2 hL.1 hL'.1 hU.1 hU'.1 hU.2
    (h.trans hA'.symm)
  exact hret

end

example : lu (!![2, 1; 4, 5] : Mat ℚ 2 2) = .ok (!![1, 0; 2, 1], !![2, 1; 0, 3]) := by
  decide +kernel
example : lu (!![4, 2, 1; 2, 5, 3; 1, 3, 6] : Mat ℚ 3 3) =
    .ok (!![1, 0, 0; 1/2, 1, 0; 1/4, 5/8, 1], !![4, 2, 1; 0, 4, 5/2; 0, 0, 67/16]) := by
  decide +kernel
/-- Non-singular, but the first leading minor is zero. -/
example : lu (!![0, 1; 1, 0] : Mat ℚ 2 2) =
    .error (.throws (.overflow_error "Divide by zero exception")) := by decide +kernel
example : IsUnitLower (!![1, 0; 2, 1] : Mat ℚ 2 2) ∧ IsRegularUpper (!![2, 1; 0, 3] : Mat ℚ 2 2) := by
  constructor <;> constructor <;> simp [Fin.forall_fin_two]

end MatrixLibs
