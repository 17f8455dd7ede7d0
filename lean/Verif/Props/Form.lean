import Verif.Spec.Form
import Verif.Props.Inv
import Verif.Props.Lu
import Verif.Props.Pow
import Mathlib.LinearAlgebra.Matrix.Block
import Mathlib.LinearAlgebra.Matrix.Notation
import Mathlib.LinearAlgebra.Matrix.Determinant.Basic
import Mathlib.Algebra.Order.BigOperators.Ring.Finset

/-!
# Property C152: matrices of special form
-/

namespace MatrixLibs

set_option linter.unusedSectionVars false

open Matrix

/-! ## Rings -/

section ring
variable {K : Type} [Ring K] [Inhabited K] [CScalar K] [ExactRing K] {n : Nat}

theorem upper_mul {A B : Mat K n n} (hA : IsUpper A) (hB : IsUpper B) : IsUpper (A * B) ∧ ∀ i, (A * B) i i = A i i * B i i := by
  refine ⟨fun i j h => ?_, fun i => ?_⟩
  · rw [Matrix.mul_apply]
    refine Finset.sum_eq_zero fun k _ => ?_
    rcases lt_or_ge k i with hk | hk
    · rw [hA i k hk, zero_mul]
    · rw [hB k j (lt_of_lt_of_le h hk), mul_zero]
  · rw [Matrix.mul_apply, Finset.sum_eq_single i]
    · intro k _ hk
      rcases lt_or_gt_of_ne hk with hk | hk
      · rw [hA i k hk, zero_mul]
      · rw [hB k i hk, mul_zero]
    · intro h; exact absurd (Finset.mem_univ i) h

/-- C152: products of upper triangular matrices. -/
theorem C152_mult (A B : Mat K n n) (hA : IsUpper A) (hB : IsUpper B) :
    ∃ R, mult A B = .ok R ∧ IsUpper R ∧ ∀ i, R i i = A i i * B i i := ⟨A * B, mult_ok A B, upper_mul hA hB⟩

theorem upper_pow {A : Mat K n n} (hA : IsUpper A) (p : Nat) : IsUpper (A ^ p) ∧ ∀ i, (A ^ p) i i = A i i ^ p := by
  induction p with
  | zero =>
    rw [_root_.pow_zero]
    exact ⟨fun i j h => Matrix.one_apply_ne (ne_of_gt h), fun i => by rw [Matrix.one_apply_eq, _root_.pow_zero]⟩
  | succ p ih =>
    rw [pow_succ]
    have := upper_mul ih.1 hA
    exact ⟨this.1, fun i => by rw [this.2 i, ih.2 i, ← pow_succ]⟩

/-- C152: powers of upper triangular matrices. -/
theorem C152_pow (handled : Option Exc) (w : Nat) (A : Mat K n n) (hA : IsUpper A) (p : Nat) :
    ∃ R, pow handled w A (p : Int) = .ok R ∧ IsUpper R ∧ ∀ i, R i i = A i i ^ p :=
  ⟨A ^ p, C43_pow handled w A p, upper_pow hA p⟩

theorem strict_pow {A : Mat K n n} (hA : IsStrictUpper A) (p : Nat) (i j : Fin n) (h : j.val < i.val + p) : (A ^ p) i j = 0 := by
  induction p generalizing i j with
  | zero =>
    rw [_root_.pow_zero]
    exact Matrix.one_apply_ne fun h' => by subst h'; omega
  | succ p ih =>
    rw [pow_succ, Matrix.mul_apply]
    refine Finset.sum_eq_zero fun k _ => ?_
    rcases Nat.lt_or_ge k.val (i.val + p) with hk | hk
    · rw [ih i k hk, zero_mul]
    · rw [hA k j (by show j.val ≤ k.val; omega), mul_zero]

/-- C152: powers of a strictly triangular matrix: `p` diagonals from the main one on are zero, the `n`-th power is zero. -/
theorem C152_nilpotent (handled : Option Exc) (w : Nat) (A : Mat K n n) (hA : IsStrictUpper A) (p : Nat) :
    (∃ R, pow handled w A (p : Int) = .ok R ∧ ∀ i j : Fin n, j.val < i.val + p → R i j = 0) ∧
    (n ≤ p → pow handled w A (p : Int) = zeros n n) := by
  refine ⟨⟨_, C43_pow handled w A p, strict_pow hA p⟩, fun h => ?_⟩
  rw [C43_pow handled w A p, zeros_exact]
  congr 1
  ext i j
  exact strict_pow hA p i j (by omega)

/-- C152: powers of an idempotent matrix. -/
theorem C152_idempotent (handled : Option Exc) (w : Nat) (A : Mat K n n) (hA : mult A A = .ok A) (p : Nat) (hp : 1 ≤ p) :
    pow handled w A (p : Int) = .ok A := by
  rw [mult_ok] at hA
  injection hA with hA
  rw [C43_pow]
  congr 1
  exact (show IsIdempotentElem A from hA).pow_eq (by omega)

/-- C152: the product with a permutation matrix moves rows or columns. -/
theorem C152_permutation {m : Nat} (σ : Equiv.Perm (Fin n)) (A : Mat K n m) (B : Mat K m n) :
    mult (permMatrix σ) A = .ok (fun i j => A (σ i) j) ∧ mult B (permMatrix σ) = .ok (fun i j => B i (σ.symm j)) := by
  constructor
  · rw [mult_ok]
    congr 1
    ext i j
    rw [Matrix.mul_apply, Finset.sum_eq_single (σ i)]
    · show (if σ i = σ i then (1 : K) else 0) * _ = _
      rw [if_pos rfl, one_mul]
    · intro k _ hk
      show (if σ i = k then (1 : K) else 0) * _ = _
      rw [if_neg (Ne.symm hk), zero_mul]
    · intro h; exact absurd (Finset.mem_univ _) h
  · rw [mult_ok]
    congr 1
    ext i j
    rw [Matrix.mul_apply, Finset.sum_eq_single (σ.symm j)]
    · show _ * (if σ (σ.symm j) = j then (1 : K) else 0) = _
      rw [if_pos (σ.apply_symm_apply j), mul_one]
    · intro k _ hk
      show _ * (if σ k = j then (1 : K) else 0) = _
      rw [if_neg, mul_zero]
      intro h
      exact hk (by rw [← h, Equiv.symm_apply_apply])
    · intro h; exact absurd (Finset.mem_univ _) h

theorem perm_pow (σ : Equiv.Perm (Fin n)) (p : Nat) : (permMatrix σ : Mat K n n) ^ p = permMatrix (σ ^ p) := by
  induction p with
  | zero =>
    ext i j
    rw [_root_.pow_zero, _root_.pow_zero, Matrix.one_apply]
    rfl
  | succ p ih =>
    have h := (C152_permutation σ (permMatrix (K := K) (σ ^ p)) (permMatrix (σ ^ p))).1
    rw [mult_ok] at h
    injection h with h
    rw [pow_succ', ih, h, pow_succ]
    rfl

/-- C152: the powers of a permutation matrix are those of the permutation. -/
theorem C152_permutation_pow (handled : Option Exc) (w : Nat) (σ : Equiv.Perm (Fin n)) (p : Nat) :
    pow handled w (permMatrix σ : Mat K n n) (p : Int) = .ok (permMatrix (σ ^ p)) := by
  rw [C43_pow, perm_pow]

end ring

/-! ## Stochastic matrices -/

section ordered
variable {K : Type} [Ring K] [PartialOrder K] [IsOrderedRing K] [Inhabited K] [CScalar K] [ExactRing K] {n : Nat}

theorem stochastic_mul {A B : Mat K n n} (hA : IsStochastic A) (hB : IsStochastic B) : IsStochastic (A * B) := by
  refine ⟨fun i j => ?_, fun i => ?_⟩
  · rw [Matrix.mul_apply]
    exact Finset.sum_nonneg fun k _ => mul_nonneg (hA.1 i k) (hB.1 k j)
  · have : ∀ j, (A * B) i j = ∑ k, A i k * B k j := fun j => Matrix.mul_apply
    rw [Finset.sum_congr rfl fun j _ => this j, Finset.sum_comm]
    have : ∀ k, ∑ j, A i k * B k j = A i k := fun k => by rw [← Finset.mul_sum, hB.2 k, mul_one]
    rw [Finset.sum_congr rfl fun k _ => this k]
    exact hA.2 i

/-- C152: products and powers of stochastic matrices are stochastic. -/
theorem C152_stochastic (handled : Option Exc) (w : Nat) (A B : Mat K n n) (hA : IsStochastic A) (hB : IsStochastic B) (p : Nat) :
    (∃ R, mult A B = .ok R ∧ IsStochastic R) ∧ ∃ R, pow handled w A (p : Int) = .ok R ∧ IsStochastic R := by
  refine ⟨⟨_, mult_ok A B, stochastic_mul hA hB⟩, _, C43_pow handled w A p, ?_⟩
  induction p with
  | zero =>
    rw [_root_.pow_zero]
    refine ⟨fun i j => ?_, fun i => ?_⟩
    · rw [Matrix.one_apply]; split
      · exact zero_le_one
      · exact le_rfl
    · simp [Matrix.one_apply]
  | succ p ih => rw [pow_succ]; exact stochastic_mul ih hA

end ordered

/-! ## Fields -/

section field
variable {K : Type} [Field K] [Inhabited K] [CScalar K] [ExactField K] {n : Nat}

/-- C152: determinants of triangular matrices. -/
theorem C152_det (A : Mat K n n) (hA : IsUpper A ∨ IsLowerTri A) : det A = .ok (∏ i, A i i) := by
  rw [det_ok]
  congr 1
  rcases hA with hA | hA
  · exact Matrix.det_of_isUpperTriangular (fun i j h => hA i j h)
  · exact Matrix.det_of_isLowerTriangular A (fun i j h => hA i j h)

theorem upper_inv {A : Mat K n n} (hA : IsUpper A) (hd : A.det ≠ 0) : IsUpper A⁻¹ := by
  have : Invertible A := Matrix.invertibleOfIsUnitDet A (isUnit_iff_ne_zero.mpr hd)
  have h := Matrix.blockTriangular_inv_of_blockTriangular (M := A) (b := id) (fun i j h => hA i j h)
  exact fun i j hij => h hij

/-- C152: inverses of upper triangular matrices. -/
theorem C152_inv (handled : Option Exc) (hn : 1 ≤ n) (A : Mat K n n) (hA : IsUpper A) (hd : ∀ i, A i i ≠ 0) :
    ∃ B, inv handled A = .ok B ∧ IsUpper B ∧ ∀ i, B i i = (A i i)⁻¹ := by
  have h0 : A.det ≠ 0 := by
    rw [Matrix.det_of_isUpperTriangular (fun i j h => hA i j h)]
    exact Finset.prod_ne_zero_iff.mpr fun i _ => hd i
  have hu := upper_inv hA h0
  refine ⟨_, inv_ok handled hn A h0, hu, fun i => ?_⟩
  have h1 := (upper_mul hA hu).2 i
  rw [Matrix.mul_nonsing_inv A (isUnit_iff_ne_zero.mpr h0), Matrix.one_apply_eq] at h1
  exact eq_inv_of_mul_eq_one_right h1.symm

/-- C152: inverses of lower triangular matrices. -/
theorem C152_inv_lower (handled : Option Exc) (hn : 1 ≤ n) (A : Mat K n n) (hA : IsLowerTri A) (hd : ∀ i, A i i ≠ 0) :
    ∃ B, inv handled A = .ok B ∧ IsLowerTri B ∧ ∀ i, B i i = (A i i)⁻¹ := by
  have hA' : IsUpper Aᵀ := fun i j h => hA j i h
  obtain ⟨B, hB, hu, hb⟩ := C152_inv handled hn Aᵀ hA' hd
  have h0 : A.det ≠ 0 := by
    rw [Matrix.det_of_isLowerTriangular A (fun i j h => hA i j h)]
    exact Finset.prod_ne_zero_iff.mpr fun i _ => hd i
  have h0' : Aᵀ.det ≠ 0 := by rwa [Matrix.det_transpose]
  rw [inv_ok handled hn Aᵀ h0'] at hB
  injection hB with hB
  refine ⟨Bᵀ, ?_, fun i j h => hu j i h, hb⟩
  rw [inv_ok handled hn A h0, ← hB, ← Matrix.transpose_nonsing_inv, Matrix.transpose_transpose]

/-- C152: `lu` of triangular matrices. -/
theorem C152_lu (A : Mat K n n) : ((IsUpper A ∧ ∀ i, A i i ≠ 0) → lu A = .ok (1, A)) ∧ (IsUnitLower A → lu A = .ok (A, 1)) := by
  refine ⟨fun h => C35_lu_unique A 1 A ⟨fun i p h => Matrix.one_apply_ne (ne_of_lt h), fun i => Matrix.one_apply_eq i⟩
    ⟨fun p q h' => h.1 p q h', h.2⟩ (Matrix.one_mul A), fun h => C35_lu_unique A A 1 h
    ⟨fun p q h => Matrix.one_apply_ne (ne_of_gt h), fun i => by rw [Matrix.one_apply_eq]; exact one_ne_zero⟩ (Matrix.mul_one A)⟩

/-- C152: inverses of diagonal matrices. -/
theorem C152_diagonal (handled : Option Exc) (hn : 1 ≤ n) (d : Fin n → K) (hd : ∀ i, d i ≠ 0) :
    inv handled (Matrix.diagonal d) = .ok (Matrix.diagonal fun i => (d i)⁻¹) := by
  have h0 : (Matrix.diagonal d).det ≠ 0 := by
    rw [Matrix.det_diagonal]
    exact Finset.prod_ne_zero_iff.mpr fun i _ => hd i
  rw [inv_ok handled hn _ h0]
  congr 1
  refine Matrix.inv_eq_right_inv ?_
  rw [Matrix.diagonal_mul_diagonal]
  ext i j
  rw [Matrix.diagonal_apply, Matrix.one_apply, mul_inv_cancel₀ (hd i)]

theorem orthogonal_iff {A : Mat K n n} : IsOrthogonal A ↔ A * Aᵀ = 1 := by
  constructor
  · intro h
    ext i j
    rw [Matrix.mul_apply, Matrix.one_apply]
    exact h i j
  · intro h i j
    have := congrFun (congrFun h i) j
    rw [Matrix.mul_apply, Matrix.one_apply] at this
    exact this

/-- C152: the inverse of an orthogonal matrix is its transpose, its determinant 1 or -1, products are orthogonal. -/
theorem C152_orthogonal (handled : Option Exc) (hn : 1 ≤ n) (A B : Mat K n n) (hA : IsOrthogonal A) (hB : IsOrthogonal B) :
    inv handled A = trans A ∧ (det A = .ok 1 ∨ det A = .ok (-1)) ∧ ∃ R, mult A B = .ok R ∧ IsOrthogonal R := by
  have h1 := orthogonal_iff.mp hA
  have h2 := orthogonal_iff.mp hB
  have hd : A.det * A.det = 1 := by
    have := congrArg Matrix.det h1
    rwa [Matrix.det_mul, Matrix.det_transpose, Matrix.det_one] at this
  have h0 : A.det ≠ 0 := fun h => by rw [h, zero_mul] at hd; exact zero_ne_one hd
  refine ⟨?_, ?_, A * B, mult_ok A B, orthogonal_iff.mpr ?_⟩
  · rw [inv_ok handled hn A h0, trans_ok, Matrix.inv_eq_right_inv h1]
  · rw [det_ok]
    rcases mul_self_eq_one_iff.mp hd with h | h <;> simp [h]
  · rw [Matrix.transpose_mul, Matrix.mul_assoc, ← Matrix.mul_assoc B, h2, Matrix.one_mul, h1]

/-- C152: a matrix that is its own inverse. -/
theorem C152_involution (handled : Option Exc) (hn : 1 ≤ n) (A : Mat K n n) (hA : mult A A = eye1 n) : inv handled A = .ok A := by
  rw [mult_ok, eye1_exact] at hA
  injection hA with hA
  have hd : A.det ≠ 0 := fun h => by
    have := congrArg Matrix.det hA
    rw [Matrix.det_mul, h, zero_mul, Matrix.det_one] at this
    exact zero_ne_one this
  rw [inv_ok handled hn A hd, Matrix.inv_eq_right_inv hA]

/-- C152: inverses and powers of symmetric matrices are symmetric. -/
theorem C152_symmetric (handled : Option Exc) (w : Nat) (A B : Mat K n n) (hA : ∀ i j, A i j = A j i) (p : Nat) :
    (inv handled A = .ok B → ∀ i j, B i j = B j i) ∧ (pow handled w A (p : Int) = .ok B → ∀ i j, B i j = B j i) := by
  have ht : Aᵀ = A := by ext i j; exact hA j i
  constructor
  · intro h i j
    have h1 := (C30_inv_sound handled A B h).1
    have h2 : Bᵀ * A = 1 := by
      have := congrArg Matrix.transpose h1
      rwa [Matrix.transpose_mul, ht, Matrix.transpose_one] at this
    have h3 : Bᵀ = B := by
      calc Bᵀ = Bᵀ * (A * B) := by rw [h1, Matrix.mul_one]
        _ = B := by rw [← Matrix.mul_assoc, h2, Matrix.one_mul]
    exact congrFun (congrFun h3 j) i
  · intro h i j
    rw [C43_pow] at h
    injection h with h
    have : (A ^ p)ᵀ = A ^ p := by rw [Matrix.transpose_pow, ht]
    rw [← h]
    exact congrFun (congrFun this j) i

theorem det_perm (σ : Equiv.Perm (Fin n)) : (permMatrix σ : Mat K n n).det = ((Equiv.Perm.sign σ : ℤ) : K) := by
  have : (permMatrix σ : Mat K n n) = (1 : Mat K n n).submatrix σ id := by
    ext i j
    rw [Matrix.submatrix_apply, Matrix.one_apply]
    rfl
  rw [this, Matrix.det_permute, Matrix.det_one, mul_one]

/-- C152: the determinant of a permutation matrix is the sign, its inverse the matrix of the inverse permutation. -/
theorem C152_permutation_det (handled : Option Exc) (hn : 1 ≤ n) (σ : Equiv.Perm (Fin n)) :
    det (permMatrix σ : Mat K n n) = .ok ((Equiv.Perm.sign σ : ℤ) : K) ∧
      inv handled (permMatrix σ : Mat K n n) = .ok (permMatrix σ.symm) := by
  have h0 : (permMatrix σ : Mat K n n).det ≠ 0 := by
    rw [det_perm]
    rcases Int.units_eq_one_or (Equiv.Perm.sign σ) with h | h <;> rw [h] <;> simp
  refine ⟨by rw [det_ok, det_perm], ?_⟩
  rw [inv_ok handled hn _ h0]
  congr 1
  refine Matrix.inv_eq_right_inv ?_
  have h := (C152_permutation σ (permMatrix (K := K) σ.symm) (permMatrix σ.symm)).1
  rw [mult_ok] at h
  injection h with h
  rw [h]
  ext i j
  show (if σ.symm (σ i) = j then (1 : K) else 0) = _
  rw [Equiv.symm_apply_apply, Matrix.one_apply]

end field

/-! ## Cases that meet the hypotheses -/

def formUp : Mat ℚ 3 3 := !![2, 3, 5; 0, 7, 11; 0, 0, 13]
def formNil : Mat ℚ 3 3 := !![0, 3, 5; 0, 0, 11; 0, 0, 0]
def formLow : Mat ℚ 3 3 := !![1, 0, 0; 7, 1, 0; 2, 9, 1]
def formRot : Mat ℚ 2 2 := !![3/5, 4/5; -4/5, 3/5]
def formMarkov : Mat ℚ 2 2 := !![1/4, 3/4; 2/3, 1/3]
def formProj : Mat ℚ 2 2 := !![1/2, 1/2; 1/2, 1/2]
def formRefl : Mat ℚ 2 2 := !![0, 2; 1/2, 0]

example : IsUpper formUp := fun i j => by fin_cases i <;> fin_cases j <;> decide +kernel
example : ∀ i, formUp i i ≠ 0 := fun i => by fin_cases i <;> decide +kernel
example : ¬ IsLowerTri formUp := fun h => absurd (h 0 1 (by decide)) (by decide +kernel)
example : IsStrictUpper formNil := fun i j => by fin_cases i <;> fin_cases j <;> decide +kernel
example : IsLowerTri formLow := fun i j => by fin_cases i <;> fin_cases j <;> decide +kernel
example : ∀ i, formLow i i ≠ 0 := fun i => by fin_cases i <;> decide +kernel
example : IsUnitLower formLow :=
  ⟨fun i j => by fin_cases i <;> fin_cases j <;> decide +kernel, fun i => by fin_cases i <;> decide +kernel⟩
example : IsOrthogonal formRot := fun i j => by fin_cases i <;> fin_cases j <;> decide +kernel
example : IsStochastic formMarkov :=
  ⟨fun i j => by fin_cases i <;> fin_cases j <;> decide +kernel, fun i => by fin_cases i <;> decide +kernel⟩
example : mult formProj formProj = .ok formProj := by decide +kernel
example : mult formRefl formRefl = eye1 2 := by decide +kernel
example : ∀ i j, formProj i j = formProj j i := fun i j => by fin_cases i <;> fin_cases j <;> decide +kernel

end MatrixLibs
