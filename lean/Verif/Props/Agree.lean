import Verif.Props.Lu
import Verif.Props.Inv
import Verif.Props.Det
import Verif.Props.Chol
import Verif.Props.Movement
import Verif.Spec.Dominant
import Mathlib.LinearAlgebra.Matrix.Adjugate
import Mathlib.Algebra.Order.BigOperators.Ring.Finset
import Mathlib.Data.Fintype.Lattice

/-!
# Properties C131, C132: determinant, minors, inverse, `lu` and `chol` agree with each other, and
diagonal dominance makes all of them work
-/

namespace MatrixLibs

set_option linter.unusedSectionVars false

section
variable {K : Type} [Field K] [Inhabited K] [CScalar K] [ExactField K] {n : Nat}

/-! ## C131: minors -/

/-- C131: expanding along any row with `getminor` and `det` gives `det(A)`. -/
theorem C131_det_row {m : Nat} (A : Mat K (m + 1) (m + 1)) (i : Fin (m + 1)) :
    ∃ (M : Fin (m + 1) → Mat K m m) (d : Fin (m + 1) → K),
      (∀ j : Fin (m + 1), getminor A i j = .ok (M j) ∧ det (M j) = .ok (d j)) ∧
      det A = .ok (∑ j, (-1) ^ (i.val + j.val) * A i j * d j) := by
  refine ⟨fun j => A.submatrix i.succAbove j.succAbove,
    fun j => (A.submatrix i.succAbove j.succAbove).det,
    fun j => ⟨getminor_ok A i j, det_ok _⟩, ?_⟩
  rw [det_ok, Matrix.det_succ_row A i]

/-- C131: expanding along any column does, too. -/
theorem C131_det_col {m : Nat} (A : Mat K (m + 1) (m + 1)) (j : Fin (m + 1)) :
    ∃ (M : Fin (m + 1) → Mat K m m) (d : Fin (m + 1) → K),
      (∀ i : Fin (m + 1), getminor A i j = .ok (M i) ∧ det (M i) = .ok (d i)) ∧
      det A = .ok (∑ i : Fin (m + 1), (-1) ^ (i.val + j.val) * A i j * d i) := by
  refine ⟨fun i => A.submatrix i.succAbove j.succAbove,
    fun i => (A.submatrix i.succAbove j.succAbove).det,
    fun i => ⟨getminor_ok A i j, det_ok _⟩, ?_⟩
  rw [det_ok, Matrix.det_succ_column A j]

/-- C131: the elements of `inv(A)` are the signed minors of `A` over `det(A)`, for every order. -/
theorem C131_inv_minors (handled : Option Exc) {m : Nat} (A B : Mat K (m + 1) (m + 1))
    (h : inv handled A = .ok B) (i j : Fin (m + 1)) :
    ∃ (M : Mat K m m) (dm d : K), getminor A i j = .ok M ∧ det M = .ok dm ∧ det A = .ok d ∧
      d ≠ 0 ∧ B j i = (-1) ^ (i.val + j.val) * dm / d := by
  obtain ⟨h1, h2⟩ := C30_inv_sound handled A B h
  have hd : A.det ≠ 0 := by
    intro hz
    have := congrArg Matrix.det h1
    rw [Matrix.det_mul, hz, zero_mul, Matrix.det_one] at this
    exact zero_ne_one this
  refine ⟨_, _, _, getminor_ok A i j, det_ok _, det_ok A, hd, ?_⟩
  have hadj : A.adjugate = A.det • B := by
    calc A.adjugate = B * A * A.adjugate := by rw [h2, one_mul]
      _ = A.det • B := by rw [mul_assoc, Matrix.mul_adjugate, Matrix.mul_smul, mul_one]
  have := congrFun (congrFun hadj j) i
  rw [Matrix.adjugate_fin_succ_eq_det_submatrix, Matrix.smul_apply, smul_eq_mul] at this
  rw [eq_div_iff hd, mul_comm, ← this]

/-- C131: solving with `inv`: `A * X == Y` exactly if `X == inv(A) * Y`, for any number of columns. -/
theorem C131_solve (handled : Option Exc) {p : Nat} (A B : Mat K n n) (h : inv handled A = .ok B)
    (X Y : Mat K n p) : opMul A X = .ok Y ↔ opMul B Y = .ok X := by
  obtain ⟨h1, h2⟩ := C30_inv_sound handled A B h
  have e1 : opMul A X = .ok (A * X) := mult_ok A X
  have e2 : opMul B Y = .ok (B * Y) := mult_ok B Y
  rw [e1, e2, Except.ok.injEq, Except.ok.injEq]
  constructor
  · rintro rfl; rw [← Matrix.mul_assoc, h2, Matrix.one_mul]
  · rintro rfl; rw [← Matrix.mul_assoc, h1, Matrix.one_mul]

/-- C131: and from the other side. -/
theorem C131_solve_left (handled : Option Exc) {p : Nat} (A B : Mat K n n)
    (h : inv handled A = .ok B) (X Y : Mat K p n) :
    opMul X A = .ok Y ↔ opMul Y B = .ok X := by
  obtain ⟨h1, h2⟩ := C30_inv_sound handled A B h
  have e1 : opMul X A = .ok (X * A) := mult_ok X A
  have e2 : opMul Y B = .ok (Y * B) := mult_ok Y B
  rw [e1, e2, Except.ok.injEq, Except.ok.injEq]
  constructor
  · rintro rfl; rw [Matrix.mul_assoc, h1, Matrix.mul_one]
  · rintro rfl; rw [Matrix.mul_assoc, h2, Matrix.mul_one]

/-- C131: a matrix `lu` accepts is one `inv` accepts, and the inverse is the product of the inverses
of the factors in the other order. -/
theorem C131_lu_inv (handled : Option Exc) (hn : 1 ≤ n) (A L U : Mat K n n)
    (h : lu A = .ok (L, U)) :
    ∃ L' U' R, inv handled L = .ok L' ∧ inv handled U = .ok U' ∧ opMul U' L' = .ok R ∧
      inv handled A = .ok R := by
  obtain ⟨⟨hL0, hL1⟩, ⟨hU0, hU1⟩, rfl⟩ := C33_lu A L U h
  have hL : L.det ≠ 0 := by
    rw [Matrix.det_of_isLowerTriangular L (fun i p hip => hL0 i p hip)]
    exact Finset.prod_ne_zero_iff.mpr (fun i _ => by rw [hL1]; exact one_ne_zero)
  have hU : U.det ≠ 0 := by
    rw [Matrix.det_of_isUpperTriangular (M := U) (fun p q hpq => hU0 p q hpq)]
    exact Finset.prod_ne_zero_iff.mpr (fun i _ => hU1 i)
  refine ⟨_, _, _, inv_ok handled hn L hL, inv_ok handled hn U hU, mult_ok _ _, ?_⟩
  rw [inv_ok handled hn _ (by rw [Matrix.det_mul]; exact mul_ne_zero hL hU), Matrix.mul_inv_rev]

end

/-- The hypotheses hold for a `3 × 3` matrix; the minor and the element of the inverse. -/
example : inv none (!![2, 1, 1; 4, 5, 3; 6, 9, 9] : Mat ℚ 3 3) =
      .ok !![3/4, 0, -1/12; -3/4, 1/2, -1/12; 1/4, -1/2, 1/4] ∧
    getminor (!![2, 1, 1; 4, 5, 3; 6, 9, 9] : Mat ℚ 3 3) 2 1 = .ok (!![2, 1; 4, 3] : Mat ℚ 2 2) ∧
    det (!![2, 1; 4, 3] : Mat ℚ 2 2) = .ok 2 ∧
    det (!![2, 1, 1; 4, 5, 3; 6, 9, 9] : Mat ℚ 3 3) = .ok 24 := by
  refine ⟨?_, ?_, ?_, ?_⟩ <;> decide +kernel

/-! ## C131: `chol` against `det`, `lu` and `inv` -/

section
variable {K : Type} [Field K] [LinearOrder K] [IsStrictOrderedRing K] [Inhabited K] [CScalar K]
  [ExactSqrt K] {n : Nat}

theorem chol_sym_product (A L : Mat K n n) (hsym : ∀ i j, A i j = A j i) (h : chol A = .ok L) :
    IsLower L ∧ L * L.transpose = A := by
  refine ⟨(C37_chol A L h).1, (C37_chol_symmetric A L ?_ h).2⟩
  obtain ⟨b, hb, hs⟩ := C36_isSymetric A (fun a b => ExactRing.eq_iff a b)
  rw [hb, hs.mpr]
  ext i j
  exact hsym i j

/-- C131: `det(A)` is the square of the product of the diagonal of `chol(A)`. -/
theorem C131_chol_det (A L : Mat K n n) (hsym : ∀ i j, A i j = A j i) (h : chol A = .ok L) :
    det A = .ok ((∏ i, L i i) ^ 2) := by
  obtain ⟨hl, hp⟩ := chol_sym_product A L hsym h
  rw [det_ok, ← hp, Matrix.det_mul, Matrix.det_transpose,
    Matrix.det_of_isLowerTriangular L (fun i p hip => hl i p hip), sq]

/-- A lower triangular matrix with non-zero diagonal and its transpose, rescaled to `lu` factors. -/
theorem lu_of_chol (A L : Mat K n n) (hl : IsLower L) (hp : L * L.transpose = A)
    (hd : ∀ i, L i i ≠ 0) :
    lu A = .ok (Matrix.of fun i j => L i j / L j j, Matrix.of fun i j => L i i * L j i) := by
  refine C35_lu_unique A _ _ ⟨fun i p hip => ?_, fun i => ?_⟩ ⟨fun p q hpq => ?_, fun q => ?_⟩ ?_
  · rw [Matrix.of_apply, hl i p hip, zero_div]
  · rw [Matrix.of_apply, div_self (hd i)]
  · rw [Matrix.of_apply, hl q p hpq, mul_zero]
  · exact mul_ne_zero (hd q) (hd q)
  · rw [← hp]
    ext i j
    rw [Matrix.mul_apply, Matrix.mul_apply]
    refine Finset.sum_congr rfl fun k _ => ?_
    rw [Matrix.of_apply, Matrix.of_apply, Matrix.transpose_apply, ← mul_assoc,
      div_mul_cancel₀ _ (hd k)]

/-- C131: for symmetric `A` and a factor without zeros on the diagonal, `lu(A)` returns the same
factorisation, with the diagonal moved from the left to the right factor. -/
theorem C131_chol_lu (A L : Mat K n n) (hsym : ∀ i j, A i j = A j i) (h : chol A = .ok L)
    (hd : ∀ i, L i i ≠ 0) :
    ∃ L' U', lu A = .ok (L', U') ∧ (∀ i j, L' i j = L i j / L j j) ∧
      ∀ i j, U' i j = L i i * L j i := by
  obtain ⟨hl, hp⟩ := chol_sym_product A L hsym h
  exact ⟨_, _, lu_of_chol A L hl hp hd, fun _ _ => rfl, fun _ _ => rfl⟩

/-- C131: for symmetric `A` the right factor of `lu(A)` is the transposed left one with its rows
scaled by the pivots. -/
theorem C131_lu_symmetric (A L U : Mat K n n) (hsym : ∀ i j, A i j = A j i)
    (h : lu A = .ok (L, U)) (i j : Fin n) : U i j = U i i * L j i := by
  obtain ⟨hL, hU, hp⟩ := C33_lu A L U h
  have h2 : lu A = .ok (Matrix.of fun i j => U j i / U j j, Matrix.of fun i j => U i i * L j i) := by
    refine C35_lu_unique A _ _ ⟨fun i p hip => ?_, fun i => ?_⟩ ⟨fun p q hpq => ?_, fun q => ?_⟩ ?_
    · rw [Matrix.of_apply, hU.1 p i hip, zero_div]
    · rw [Matrix.of_apply, div_self (hU.2 i)]
    · rw [Matrix.of_apply, hL.1 q p hpq, mul_zero]
    · rw [Matrix.of_apply, hL.2, mul_one]; exact hU.2 q
    · ext i j
      rw [hsym i j, ← hp, Matrix.mul_apply, Matrix.mul_apply]
      refine Finset.sum_congr rfl fun k _ => ?_
      rw [Matrix.of_apply, Matrix.of_apply, ← mul_assoc, div_mul_cancel₀ _ (hU.2 k), mul_comm]
  rw [h] at h2
  have := (Prod.mk.inj (Except.ok.inj h2)).2
  exact congrFun (congrFun this i) j

end

/-- A symmetric matrix with both factorisations. -/
example : chol (!![4, 12, -16; 12, 37, -43; -16, -43, 98] : Mat ℚ 3 3) =
      .ok !![2, 0, 0; 6, 1, 0; -8, 5, 3] ∧
    lu (!![4, 12, -16; 12, 37, -43; -16, -43, 98] : Mat ℚ 3 3) =
      .ok (!![1, 0, 0; 3, 1, 0; -4, 5, 1], !![4, 12, -16; 0, 1, 5; 0, 0, 9]) ∧
    det (!![4, 12, -16; 12, 37, -43; -16, -43, 98] : Mat ℚ 3 3) = .ok 36 := by
  refine ⟨?_, ?_, ?_⟩ <;> decide +kernel

section
variable {n : Nat}

/-- C131: a symmetric real matrix is accepted by `chol`, with a positive diagonal, exactly if it is
accepted by `lu` with positive pivots. -/
theorem C131_chol_iff_lu (A : Mat ℝ n n) (hsym : ∀ i j, A i j = A j i) :
    (∃ L, chol A = .ok L ∧ ∀ i, 0 < L i i) ↔ ∃ L U, lu A = .ok (L, U) ∧ ∀ i, 0 < U i i := by
  constructor
  · rintro ⟨L, h, hd⟩
    obtain ⟨L', U', hlu, -, hU⟩ := C131_chol_lu A L hsym h (fun i => (hd i).ne')
    exact ⟨L', U', hlu, fun i => by rw [hU]; exact mul_pos (hd i) (hd i)⟩
  · rintro ⟨L, U, h, hd⟩
    obtain ⟨hL, hU, hp⟩ := C33_lu A L U h
    have hUL := C131_lu_symmetric A L U hsym h
    have := (C38_chol_unique A (Matrix.of fun i j => L i j * Real.sqrt (U j j))).mpr
      ⟨fun i p hip => by rw [Matrix.of_apply, hL.1 i p hip, zero_mul],
       fun i => by rw [Matrix.of_apply, hL.2, one_mul]; exact Real.sqrt_pos.mpr (hd i), ?_⟩
    · exact ⟨_, this.1, this.2.1⟩
    · ext i j
      rw [← hp, Matrix.mul_apply, Matrix.mul_apply]
      refine Finset.sum_congr rfl fun k _ => ?_
      rw [Matrix.transpose_apply, Matrix.of_apply, Matrix.of_apply, hUL k j]
      have := Real.mul_self_sqrt (hd k).le
      linear_combination L i k * L j k * this

/-- C131: ... and exactly if all leading principal minors are positive. -/
theorem C131_chol_iff_minors (A : Mat ℝ n n) (hsym : ∀ i j, A i j = A j i) :
    (∃ L, chol A = .ok L ∧ ∀ i, 0 < L i i) ↔
      ∀ k (hk : k ≤ n), 1 ≤ k → 0 < leadingMinor A k hk := by
  rw [C131_chol_iff_lu A hsym]
  have key : ∀ L U : Mat ℝ n n, lu A = .ok (L, U) → ∀ k (hk : k ≤ n),
      leadingMinor A k hk = ∏ q : Fin k, U (Fin.castLE hk q) (Fin.castLE hk q) := by
    intro L U h k hk
    obtain ⟨hL, hU, hp⟩ := C33_lu A L U h
    exact leadingMinor_eq_prod A L U k hk (fun i p _ => hL.1 i p) (fun i _ => hL.2 i)
      (fun p q _ => hU.1 p q) (fun i q _ _ => by rw [← hp, Matrix.mul_apply])
  constructor
  · rintro ⟨L, U, h, hd⟩ k hk _
    rw [key L U h k hk]
    exact Finset.prod_pos fun q _ => hd _
  · intro hm
    obtain ⟨L, U, h⟩ := (C34_lu_returns_iff A).mpr (fun k hk h1 => (hm k hk h1).ne')
    refine ⟨L, U, h, fun i => ?_⟩
    have h0 : ∀ k (hk : k ≤ n), 0 < ∏ q : Fin k, U (Fin.castLE hk q) (Fin.castLE hk q) := by
      intro k hk
      rcases Nat.eq_zero_or_pos k with rfl | hk1
      · simp
      · rw [← key L U h k hk]; exact hm k hk hk1
    have h1 := h0 (i.val + 1) i.2
    rw [Fin.prod_univ_castSucc] at h1
    exact pos_of_mul_pos_right h1 (h0 i.val i.2.le).le

/-- C131: for a positive definite matrix `inv` returns, the result is again positive definite, and
`det` is positive. -/
theorem C131_posDef (handled : Option Exc) (hn : 1 ≤ n) (A : Mat ℝ n n) (hA : IsPosDef A) :
    ∃ B d, inv handled A = .ok B ∧ IsPosDef B ∧ det A = .ok d ∧ 0 < d := by
  have hP := (isPosDef_iff A).mp hA
  have hd : 0 < A.det := hP.det_pos
  exact ⟨_, _, inv_ok handled hn A hd.ne', (isPosDef_iff _).mpr hP.inv, det_ok A, hd⟩

end

/-- The `2 × 2` matrix of `posDef_example` has positive leading minors. -/
example : ∀ k (hk : k ≤ 2), 1 ≤ k → 0 < leadingMinor (!![2, 1; 1, 2] : Mat ℝ 2 2) k hk :=
  (C131_chol_iff_minors _ posDef_example.1).mp
    ((C38_chol_posDef_iff _ posDef_example.1).mp posDef_example)

end MatrixLibs
