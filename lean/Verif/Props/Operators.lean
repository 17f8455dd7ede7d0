import Verif.Model.Operators

/-!
# Which operator overload a call selects (C102)
-/

namespace MatrixLibs

open Overload

theorem Ty.ne_mat (T : Ty) (r c : Nat) : T ≠ .mat T r c := by
  intro h
  have := congrArg sizeOf h
  simp only [Ty.mat, Ty.arr.sizeOf_spec] at this
  omega

theorem Ty.ne_mat_mat (T : Ty) (r c r' c' : Nat) : T ≠ .mat (.mat T r c) r' c' := by
  intro h
  have := congrArg sizeOf h
  simp only [Ty.mat, Ty.arr.sizeOf_spec] at this
  omega

theorem viable_same (a b : Ty) :
    viableTy [.mat (.var 0) (.var 0) (.var 1), .mat (.var 0) (.var 0) (.var 1)] [a, b] = true ↔
      ∃ T r c, a = .mat T r c ∧ b = .mat T r c := by
  rcases a with t | ⟨t | ⟨T, c⟩, r⟩
  · simp [viableTy, deduceAll, deduceTy]
  · simp [viableTy, deduceAll, deduceTy, deduceDim]
  rcases b with t' | ⟨t' | ⟨T', c'⟩, r'⟩
  · simp [viableTy, deduceAll, deduceTy, deduceDim]
  · by_cases h1 : r = r' <;> simp [viableTy, deduceAll, deduceTy, deduceDim, h1]
  by_cases h1 : r = r' <;> by_cases h2 : c = c' <;> by_cases h3 : T = T' <;>
    simp [viableTy, deduceAll, deduceTy, deduceDim, List.lookup, h1, h2, h3, Ne.symm, eq_comm (a := T'), eq_comm (a := c')]

theorem viable_prod (a b : Ty) :
    viableTy [.mat (.var 0) (.var 0) (.var 1), .mat (.var 0) (.var 1) (.var 2)] [a, b] = true ↔
      ∃ T n m p, a = .mat T n m ∧ b = .mat T m p := by
  rcases a with t | ⟨t | ⟨T, c⟩, r⟩
  · simp [viableTy, deduceAll, deduceTy]
  · simp [viableTy, deduceAll, deduceTy, deduceDim]
  rcases b with t' | ⟨t' | ⟨T', c'⟩, r'⟩
  · simp [viableTy, deduceAll, deduceTy, deduceDim]
  · by_cases h1 : c = r' <;> simp [viableTy, deduceAll, deduceTy, deduceDim, h1]
  by_cases h1 : c = r' <;> by_cases h3 : T = T' <;>
    simp [viableTy, deduceAll, deduceTy, deduceDim, List.lookup, h1, h3, eq_comm (a := T')]

theorem viable_matScalar (a b : Ty) :
    viableTy [.mat (.var 0) (.var 0) (.var 1), .var 0] [a, b] = true ↔ ∃ r c, a = .mat b r c := by
  rcases a with t | ⟨t | ⟨T, c⟩, r⟩ <;>
    simp [viableTy, deduceAll, deduceTy, deduceDim, Option.bind, List.lookup]
  by_cases h : T = b <;> simp [h]

theorem viable_scalarMat (a b : Ty) :
    viableTy [.var 0, .mat (.var 0) (.var 0) (.var 1)] [a, b] = true ↔ ∃ r c, b = .mat a r c := by
  rcases b with t | ⟨t | ⟨T, c⟩, r⟩ <;>
    simp [viableTy, deduceAll, deduceTy, deduceDim, Option.bind, List.lookup]
  by_cases h : a = T <;> simp [h, eq_comm]

theorem same_not_matScalar (a b : Ty) (h : ∃ T n m r c, a = .mat T n m ∧ b = .mat T r c) :
    ¬ ∃ r c, a = .mat b r c := by
  obtain ⟨T, n, m, r, c, rfl, rfl⟩ := h
  rintro ⟨r', c', h⟩
  simp only [Ty.arr.injEq] at h
  exact Ty.ne_mat _ _ _ h.1.1

theorem same_not_scalarMat (a b : Ty) (h : ∃ T n m r c, a = .mat T n m ∧ b = .mat T r c) :
    ¬ ∃ r c, b = .mat a r c := by
  obtain ⟨T, n, m, r, c, rfl, rfl⟩ := h
  rintro ⟨r', c', h⟩
  simp only [Ty.arr.injEq] at h
  exact Ty.ne_mat _ _ _ h.1.1

theorem matScalar_not_scalarMat (a b : Ty) (h : ∃ r c, a = .mat b r c) : ¬ ∃ r c, b = .mat a r c := by
  obtain ⟨r, c, rfl⟩ := h
  rintro ⟨r', c', h⟩
  exact Ty.ne_mat_mat _ _ _ _ _ h

/-- C102: `A + B`, for operands of any types. The scalar operand must have exactly the element type. -/
theorem C102_add (a b : Ty) :
    (resolveTy addCands [a, b] = .selected .matMat ↔ ∃ T r c, a = .mat T r c ∧ b = .mat T r c) ∧
    (resolveTy addCands [a, b] = .selected .matScalar ↔ ∃ r c, a = .mat b r c) ∧
    (resolveTy addCands [a, b] = .selected .scalarMat ↔ ∃ r c, b = .mat a r c) ∧
    resolveTy addCands [a, b] ≠ .ambiguous := by
  have h1 := viable_same a b
  have h2 := viable_matScalar a b
  have h3 := viable_scalarMat a b
  have h12 : (∃ T r c, a = .mat T r c ∧ b = .mat T r c) → ¬ ∃ r c, a = .mat b r c :=
    fun ⟨T, r, c, h⟩ => same_not_matScalar a b ⟨T, r, c, r, c, h⟩
  have h13 : (∃ T r c, a = .mat T r c ∧ b = .mat T r c) → ¬ ∃ r c, b = .mat a r c :=
    fun ⟨T, r, c, h⟩ => same_not_scalarMat a b ⟨T, r, c, r, c, h⟩
  have h23 := matScalar_not_scalarMat a b
  rw [← h1, ← h2] at h12
  rw [← h1, ← h3] at h13
  rw [← h2, ← h3] at h23
  rw [← h1, ← h2, ← h3]
  simp only [resolveTy, addCands, List.filter]
  generalize viableTy [.mat (.var 0) (.var 0) (.var 1), .mat (.var 0) (.var 0) (.var 1)] [a, b] = x at *
  generalize viableTy [.mat (.var 0) (.var 0) (.var 1), .var 0] [a, b] = y at *
  generalize viableTy [.var 0, .mat (.var 0) (.var 0) (.var 1)] [a, b] = z at *
  cases x <;> cases y <;> cases z <;> simp_all

/-- C102: `A - B`, `sum(A, B)` and `sub(A, B)`: there is no form with the scalar on the left. -/
theorem C102_sub (a b : Ty) :
    (resolveTy subCands [a, b] = .selected .matMat ↔ ∃ T r c, a = .mat T r c ∧ b = .mat T r c) ∧
    (resolveTy subCands [a, b] = .selected .matScalar ↔ ∃ r c, a = .mat b r c) ∧
    resolveTy subCands [a, b] ≠ .selected .scalarMat ∧
    resolveTy subCands [a, b] ≠ .ambiguous := by
  have h1 := viable_same a b
  have h2 := viable_matScalar a b
  have h12 : (∃ T r c, a = .mat T r c ∧ b = .mat T r c) → ¬ ∃ r c, a = .mat b r c :=
    fun ⟨T, r, c, h⟩ => same_not_matScalar a b ⟨T, r, c, r, c, h⟩
  rw [← h1, ← h2] at h12
  rw [← h1, ← h2]
  simp only [resolveTy, subCands, List.filter]
  generalize viableTy [.mat (.var 0) (.var 0) (.var 1), .mat (.var 0) (.var 0) (.var 1)] [a, b] = x at *
  generalize viableTy [.mat (.var 0) (.var 0) (.var 1), .var 0] [a, b] = y at *
  cases x <;> cases y <;> simp_all

/-- C102: `A * B`: a product of matrices when the inner dimensions agree. -/
theorem C102_mul (a b : Ty) :
    (resolveTy mulCands [a, b] = .selected .matMat ↔ ∃ T n m p, a = .mat T n m ∧ b = .mat T m p) ∧
    (resolveTy mulCands [a, b] = .selected .matScalar ↔ ∃ r c, a = .mat b r c) ∧
    (resolveTy mulCands [a, b] = .selected .scalarMat ↔ ∃ r c, b = .mat a r c) ∧
    resolveTy mulCands [a, b] ≠ .ambiguous := by
  have h1 := viable_prod a b
  have h2 := viable_matScalar a b
  have h3 := viable_scalarMat a b
  have h12 : (∃ T n m p, a = .mat T n m ∧ b = .mat T m p) → ¬ ∃ r c, a = .mat b r c :=
    fun ⟨T, n, m, p, h⟩ => same_not_matScalar a b ⟨T, n, m, m, p, h⟩
  have h13 : (∃ T n m p, a = .mat T n m ∧ b = .mat T m p) → ¬ ∃ r c, b = .mat a r c :=
    fun ⟨T, n, m, p, h⟩ => same_not_scalarMat a b ⟨T, n, m, m, p, h⟩
  have h23 := matScalar_not_scalarMat a b
  rw [← h1, ← h2] at h12
  rw [← h1, ← h3] at h13
  rw [← h2, ← h3] at h23
  rw [← h1, ← h2, ← h3]
  simp only [resolveTy, mulCands, List.filter]
  generalize viableTy [.mat (.var 0) (.var 0) (.var 1), .mat (.var 0) (.var 1) (.var 2)] [a, b] = x at *
  generalize viableTy [.mat (.var 0) (.var 0) (.var 1), .var 0] [a, b] = y at *
  generalize viableTy [.var 0, .mat (.var 0) (.var 0) (.var 1)] [a, b] = z at *
  cases x <;> cases y <;> cases z <;> simp_all

/-- C102: `mult(A, B)`: the same without the scalar on the left. -/
theorem C102_mult (a b : Ty) :
    (resolveTy multCands [a, b] = .selected .matMat ↔ ∃ T n m p, a = .mat T n m ∧ b = .mat T m p) ∧
    (resolveTy multCands [a, b] = .selected .matScalar ↔ ∃ r c, a = .mat b r c) ∧
    resolveTy multCands [a, b] ≠ .selected .scalarMat ∧
    resolveTy multCands [a, b] ≠ .ambiguous := by
  have h1 := viable_prod a b
  have h2 := viable_matScalar a b
  have h12 : (∃ T n m p, a = .mat T n m ∧ b = .mat T m p) → ¬ ∃ r c, a = .mat b r c :=
    fun ⟨T, n, m, p, h⟩ => same_not_matScalar a b ⟨T, n, m, m, p, h⟩
  rw [← h1, ← h2] at h12
  rw [← h1, ← h2]
  simp only [resolveTy, multCands, List.filter]
  generalize viableTy [.mat (.var 0) (.var 0) (.var 1), .mat (.var 0) (.var 1) (.var 2)] [a, b] = x at *
  generalize viableTy [.mat (.var 0) (.var 0) (.var 1), .var 0] [a, b] = y at *
  cases x <;> cases y <;> simp_all

/-- C102: `A / s` and `div(A, s)`. -/
theorem C102_div (a b : Ty) :
    (resolveTy divCands [a, b] = .selected .matScalar ↔ ∃ r c, a = .mat b r c) ∧
    (resolveTy divCands [a, b] = .noMatch ↔ ¬ ∃ r c, a = .mat b r c) := by
  have h2 := viable_matScalar a b
  rw [← h2]
  simp only [resolveTy, divCands, List.filter]
  generalize viableTy [.mat (.var 0) (.var 0) (.var 1), .var 0] [a, b] = y at *
  cases y <;> simp_all

/-- A call with no viable form is rejected; the forms are those of the theorems above. -/
theorem resolveTy_noMatch {ι : Type} (cands : List (ι × List Pat)) (args : List Ty)
    (h1 : ∀ f, resolveTy cands args ≠ .selected f) (h2 : resolveTy cands args ≠ .ambiguous) :
    resolveTy cands args = .noMatch := by
  cases h : resolveTy cands args with
  | selected f => exact absurd h (h1 f)
  | ambiguous => exact absurd h h2
  | noMatch => rfl

/-- C102: a scalar whose type is not the element type is not converted to it: no operator accepts it, on
either side. -/
theorem C102_no_conversion (T s : Ty) (r c : Nat) (hs : s ≠ T) (hm : ∀ r c, s ≠ .mat T r c)
    (ho : ∀ r' c', s ≠ .mat (.mat T r c) r' c') :
    resolveTy addCands [.mat T r c, s] = .noMatch ∧ resolveTy addCands [s, .mat T r c] = .noMatch ∧
    resolveTy subCands [.mat T r c, s] = .noMatch ∧
    resolveTy mulCands [.mat T r c, s] = .noMatch ∧ resolveTy mulCands [s, .mat T r c] = .noMatch ∧
    resolveTy divCands [.mat T r c, s] = .noMatch := by
  refine ⟨?_, ?_, ?_, ?_, ?_, ?_⟩
  · obtain ⟨h1, h2, h3, h4⟩ := C102_add (.mat T r c) s
    refine resolveTy_noMatch _ _ (fun f => ?_) h4
    cases f
    · rw [Ne, h1]; rintro ⟨T', r', c', e, e'⟩; simp only [Ty.arr.injEq] at e; exact hm r' c' (by rw [e', e.1.1])
    · rw [Ne, h2]; rintro ⟨r', c', e⟩; simp only [Ty.arr.injEq] at e; exact hs e.1.1.symm
    · rw [Ne, h3]; rintro ⟨r', c', e⟩; exact ho _ _ e
  · obtain ⟨h1, h2, h3, h4⟩ := C102_add s (.mat T r c)
    refine resolveTy_noMatch _ _ (fun f => ?_) h4
    cases f
    · rw [Ne, h1]; rintro ⟨T', r', c', e, e'⟩; simp only [Ty.arr.injEq] at e'; exact hm r' c' (by rw [e, e'.1.1])
    · rw [Ne, h2]; rintro ⟨r', c', e⟩; exact ho _ _ e
    · rw [Ne, h3]; rintro ⟨r', c', e⟩; simp only [Ty.arr.injEq] at e; exact hs e.1.1.symm
  · obtain ⟨h1, h2, h3, h4⟩ := C102_sub (.mat T r c) s
    refine resolveTy_noMatch _ _ (fun f => ?_) h4
    cases f
    · rw [Ne, h1]; rintro ⟨T', r', c', e, e'⟩; simp only [Ty.arr.injEq] at e; exact hm r' c' (by rw [e', e.1.1])
    · rw [Ne, h2]; rintro ⟨r', c', e⟩; simp only [Ty.arr.injEq] at e; exact hs e.1.1.symm
    · exact h3
  · obtain ⟨h1, h2, h3, h4⟩ := C102_mul (.mat T r c) s
    refine resolveTy_noMatch _ _ (fun f => ?_) h4
    cases f
    · rw [Ne, h1]; rintro ⟨T', n, m, p, e, e'⟩; simp only [Ty.arr.injEq] at e; exact hm m p (by rw [e', e.1.1])
    · rw [Ne, h2]; rintro ⟨r', c', e⟩; simp only [Ty.arr.injEq] at e; exact hs e.1.1.symm
    · rw [Ne, h3]; rintro ⟨r', c', e⟩; exact ho _ _ e
  · obtain ⟨h1, h2, h3, h4⟩ := C102_mul s (.mat T r c)
    refine resolveTy_noMatch _ _ (fun f => ?_) h4
    cases f
    · rw [Ne, h1]; rintro ⟨T', n, m, p, e, e'⟩; simp only [Ty.arr.injEq] at e'; exact hm n m (by rw [e, e'.1.1])
    · rw [Ne, h2]; rintro ⟨r', c', e⟩; exact ho _ _ e
    · rw [Ne, h3]; rintro ⟨r', c', e⟩; simp only [Ty.arr.injEq] at e; exact hs e.1.1.symm
  · rw [(C102_div (.mat T r c) s).2]
    rintro ⟨r', c', e⟩
    simp only [Ty.arr.injEq] at e
    exact hs e.1.1.symm

/-- With `float` as type 0 and `int` as type 1: `A + 1.0f` and `2.0f * A` select, `A + 1` does not match, nor
does `1.0f - A`; a `2 × 3` by `3 × 1` product does. -/
example : resolveTy addCands [.mat (.base 0) 2 3, .base 0] = .selected .matScalar ∧
    resolveTy mulCands [.base 0, .mat (.base 0) 2 3] = .selected .scalarMat ∧
    resolveTy addCands [.mat (.base 0) 2 3, .base 1] = .noMatch ∧
    resolveTy subCands [.base 0, .mat (.base 0) 2 3] = .noMatch ∧
    resolveTy mulCands [.mat (.base 0) 2 3, .mat (.base 0) 3 1] = .selected .matMat ∧
    resolveTy mulCands [.mat (.base 0) 2 3, .mat (.base 0) 2 3] = .noMatch := by decide

/-- The elements may be matrices: a block matrix times a block scales it. -/
example : resolveTy mulCands [.mat (.mat (.base 0) 2 2) 3 3, .mat (.base 0) 2 2] = .selected .matScalar := by
  decide

end MatrixLibs
