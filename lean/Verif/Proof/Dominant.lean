import Verif.Spec.Dominant
import Verif.Spec.Linear
import Mathlib.LinearAlgebra.Matrix.Determinant.Basic
import Mathlib.LinearAlgebra.Matrix.ToLinearEquiv
import Mathlib.Algebra.Order.BigOperators.Ring.Finset
import Mathlib.Algebra.Order.BigOperators.Group.Finset
import Mathlib.Algebra.BigOperators.Fin
import Mathlib.Algebra.BigOperators.Field
import Mathlib.Algebra.Order.Field.Basic
import Mathlib.Data.Fintype.Lattice
import Mathlib.Tactic.Linarith
import Mathlib.Tactic.FieldSimp
import Mathlib.Tactic.Ring

/-!
# Diagonally dominant matrices over an ordered field
-/

namespace MatrixLibs

set_option linter.unusedSectionVars false

variable {K : Type} [Field K] [LinearOrder K] [IsStrictOrderedRing K] {n : Nat}

theorem RowsDominate.transpose {A : Mat K n n} (h : RowsDominate A) : ColsDominate A.transpose := h
theorem ColsDominate.transpose {A : Mat K n n} (h : ColsDominate A) : RowsDominate A.transpose := h

/-- What multiplying by a dominant matrix does to the largest component of a vector. -/
theorem dominant_mulVec {A : Mat K n n} (x : Fin n → K) (i : Fin n) (hi : ∀ j, |x j| ≤ |x i|) :
    (|A i i| - ∑ j ∈ Finset.univ.erase i, |A i j|) * |x i| ≤ |∑ j, A i j * x j| := by
  have h1 : ∑ j, A i j * x j = A i i * x i + ∑ j ∈ Finset.univ.erase i, A i j * x j :=
    (Finset.add_sum_erase _ _ (Finset.mem_univ i)).symm
  have h2 : |∑ j ∈ Finset.univ.erase i, A i j * x j| ≤
      (∑ j ∈ Finset.univ.erase i, |A i j|) * |x i| := by
    rw [Finset.sum_mul]
    refine (Finset.abs_sum_le_sum_abs _ _).trans (Finset.sum_le_sum fun j _ => ?_)
    rw [abs_mul]
    exact mul_le_mul_of_nonneg_left (hi j) (abs_nonneg _)
  have h3 := abs_sub_abs_le_abs_sub (A i i * x i) (-∑ j ∈ Finset.univ.erase i, A i j * x j)
  rw [abs_neg, sub_neg_eq_add, ← h1, abs_mul] at h3
  linarith

theorem RowsDominate.det_ne_zero {A : Mat K n n} (h : RowsDominate A) : A.det ≠ 0 := by
  intro hz
  obtain ⟨v, hv, h0⟩ := Matrix.exists_mulVec_eq_zero_iff.mpr hz
  have hne : Nonempty (Fin n) := by
    by_contra hc
    exact hv (funext fun i => absurd ⟨i⟩ hc)
  obtain ⟨i, hi⟩ := Finite.exists_max (fun j => |v j|)
  have hp : 0 < |v i| := by
    obtain ⟨j, hj⟩ := Function.ne_iff.mp hv
    exact lt_of_lt_of_le (abs_pos.mpr hj) (hi j)
  have h1 := dominant_mulVec (A := A) v i hi
  have h2 : ∑ j, A i j * v j = 0 := congrFun h0 i
  rw [h2, abs_zero] at h1
  have := mul_pos (sub_pos.mpr (h i)) hp
  linarith

theorem ColsDominate.det_ne_zero {A : Mat K n n} (h : ColsDominate A) : A.det ≠ 0 := by
  rw [← Matrix.det_transpose]
  exact h.transpose.det_ne_zero

/-- Leading blocks of dominant matrices are dominant. -/
theorem RowsDominate.leading {A : Mat K n n} (h : RowsDominate A) (k : Nat) (hk : k ≤ n) :
    RowsDominate (A.submatrix (Fin.castLE hk) (Fin.castLE hk)) := by
  intro i
  refine lt_of_le_of_lt ?_ (h (Fin.castLE hk i))
  have : ∑ j ∈ Finset.univ.erase i, |(A.submatrix (Fin.castLE hk) (Fin.castLE hk)) i j| =
      ∑ j ∈ (Finset.univ.erase i).map (Fin.castLEEmb hk), |A (Fin.castLE hk i) j| := by
    rw [Finset.sum_map]; rfl
  rw [this]
  refine Finset.sum_le_sum_of_subset_of_nonneg (fun j hj => ?_) (fun _ _ _ => abs_nonneg _)
  obtain ⟨a, ha, rfl⟩ := Finset.mem_map.mp hj
  refine Finset.mem_erase.mpr ⟨fun hc => ?_, Finset.mem_univ _⟩
  exact (Finset.mem_erase.mp ha).1 (Fin.castLE_injective hk hc)

theorem RowsDominate.minor_ne_zero {A : Mat K n n} (h : RowsDominate A) (k : Nat) (hk : k ≤ n) :
    leadingMinor A k hk ≠ 0 := (h.leading k hk).det_ne_zero

theorem ColsDominate.minor_ne_zero {A : Mat K n n} (h : ColsDominate A) (k : Nat) (hk : k ≤ n) :
    leadingMinor A k hk ≠ 0 := by
  unfold leadingMinor
  rw [← Matrix.det_transpose]
  exact (h.transpose.leading k hk).det_ne_zero

/-! ### The product bound -/

/-- One step of elimination on the determinant. -/
theorem det_schur (A : Mat K (n + 1) (n + 1)) (h : A 0 0 ≠ 0) :
    A.det = A 0 0 *
      (Matrix.of fun i j : Fin n => A i.succ j.succ - A i.succ 0 / A 0 0 * A 0 j.succ).det := by
  set B : Mat K (n + 1) (n + 1) := Matrix.of fun i j =>
    if i = 0 then A 0 j else A i j - A i 0 / A 0 0 * A 0 j with hB
  have h1 : A.det = B.det := by
    refine Matrix.det_eq_of_forall_row_eq_smul_add_const
      (fun i => if i = 0 then 0 else A i 0 / A 0 0) 0 (if_pos rfl) (fun i j => ?_)
    by_cases hi : i = 0
    · subst hi; simp [hB]
    · simp [hB, hi]
  rw [h1, Matrix.det_succ_column_zero, Fin.sum_univ_succ, Finset.sum_eq_zero, add_zero]
  · simp only [Fin.val_zero, pow_zero, one_mul]
    have : B 0 0 = A 0 0 := by simp [hB]
    rw [this]
    congr 2
  · intro i _
    have : B i.succ 0 = 0 := by
      simp only [hB, Matrix.of_apply, if_neg (Fin.succ_ne_zero i)]
      field_simp
      ring
    rw [this, mul_zero, zero_mul]

/-- Sum over the other columns, split at the first. -/
theorem sum_erase_succ (f : Fin (n + 1) → K) (i : Fin n) :
    ∑ j ∈ Finset.univ.erase i.succ, f j = f 0 + ∑ j ∈ Finset.univ.erase i, f j.succ := by
  have h1 := Finset.add_sum_erase Finset.univ f (Finset.mem_univ i.succ)
  have h2 := Finset.add_sum_erase Finset.univ (fun j : Fin n => f j.succ) (Finset.mem_univ i)
  rw [Fin.sum_univ_succ] at h1
  linarith

theorem sum_erase_zero (f : Fin (n + 1) → K) :
    ∑ j ∈ Finset.univ.erase 0, f j = ∑ j : Fin n, f j.succ := by
  have h1 := Finset.add_sum_erase Finset.univ f (Finset.mem_univ 0)
  rw [Fin.sum_univ_succ] at h1
  linarith

/-- Ostrowski's bound: the determinant of a dominant matrix is at least the product of the amounts
by which the diagonal elements dominate. -/
theorem ostrowski : ∀ {n : Nat} (A : Mat K n n), RowsDominate A →
    ∏ i, (|A i i| - ∑ j ∈ Finset.univ.erase i, |A i j|) ≤ |A.det| := by
  intro n
  induction n with
  | zero => intro A _; simp
  | succ n ih =>
    intro A h
    have h00 := h 0
    rw [sum_erase_zero] at h00
    have hs0 : 0 ≤ ∑ j : Fin n, |A 0 j.succ| := Finset.sum_nonneg fun _ _ => abs_nonneg _
    have hp : 0 < |A 0 0| := lt_of_le_of_lt hs0 h00
    have hA0 : A 0 0 ≠ 0 := abs_pos.mp hp
    set S : Mat K n n := Matrix.of fun i j : Fin n =>
      A i.succ j.succ - A i.succ 0 / A 0 0 * A 0 j.succ with hS
    -- the amount of domination does not shrink
    have hgap : ∀ i : Fin n, |A i.succ i.succ| - ∑ j ∈ Finset.univ.erase i.succ, |A i.succ j| ≤
        |S i i| - ∑ j ∈ Finset.univ.erase i, |S i j| := by
      intro i
      rw [sum_erase_succ (fun j => |A i.succ j|) i]
      set c : K := |A i.succ 0| / |A 0 0| with hc
      have hc0 : 0 ≤ c := div_nonneg (abs_nonneg _) (abs_nonneg _)
      have hcm : c * |A 0 0| = |A i.succ 0| := div_mul_cancel₀ _ hp.ne'
      have ht : ∀ j : Fin n, |A i.succ 0 / A 0 0 * A 0 j.succ| = c * |A 0 j.succ| := by
        intro j; rw [abs_mul, abs_div]
      have h1 : |A i.succ i.succ| - c * |A 0 i.succ| ≤ |S i i| := by
        have := abs_sub_abs_le_abs_sub (A i.succ i.succ) (A i.succ 0 / A 0 0 * A 0 i.succ)
        rw [ht] at this
        exact this
      have h2 : ∑ j ∈ Finset.univ.erase i, |S i j| ≤
          ∑ j ∈ Finset.univ.erase i, |A i.succ j.succ| +
            c * ∑ j ∈ Finset.univ.erase i, |A 0 j.succ| := by
        rw [Finset.mul_sum, ← Finset.sum_add_distrib]
        refine Finset.sum_le_sum fun j _ => ?_
        rw [← ht j]
        exact abs_sub _ _
      have h3 := Finset.add_sum_erase Finset.univ (fun j : Fin n => |A 0 j.succ|)
        (Finset.mem_univ i)
      have h4 : c * ∑ j : Fin n, |A 0 j.succ| ≤ |A i.succ 0| := by
        rw [← hcm]
        exact mul_le_mul_of_nonneg_left h00.le hc0
      rw [← h3, mul_add] at h4
      linarith
    have hSd : RowsDominate S := fun i => by
      have := hgap i
      have := h i.succ
      linarith
    rw [det_schur A hA0, abs_mul, Fin.prod_univ_succ]
    refine mul_le_mul ?_ ((Finset.prod_le_prod (fun i _ => ?_) (fun i _ => hgap i)).trans (ih S hSd))
      (Finset.prod_nonneg fun i _ => ?_) (abs_nonneg _)
    · rw [sum_erase_zero]; linarith
    · exact (sub_pos.mpr (h i.succ)).le
    · exact (sub_pos.mpr (h i.succ)).le

/-- The determinant is at most the product of the absolute row sums. -/
theorem det_le_rows : ∀ {n : Nat} (A : Mat K n n), |A.det| ≤ ∏ i, ∑ j, |A i j| := by
  intro n
  induction n with
  | zero => intro A; simp
  | succ n ih =>
    intro A
    rw [Matrix.det_succ_row_zero, Fin.prod_univ_succ]
    refine (Finset.abs_sum_le_sum_abs _ _).trans ?_
    rw [Finset.sum_mul]
    refine Finset.sum_le_sum fun j _ => ?_
    rw [abs_mul, abs_mul, abs_pow, abs_neg, abs_one, one_pow, one_mul]
    refine mul_le_mul_of_nonneg_left ((ih _).trans ?_) (abs_nonneg _)
    refine Finset.prod_le_prod (fun i _ => Finset.sum_nonneg fun _ _ => abs_nonneg _) fun i _ => ?_
    simp only [Matrix.submatrix_apply]
    rw [Fin.sum_univ_succAbove (fun k => |A i.succ k|) j]
    exact le_add_of_nonneg_left (abs_nonneg _)

/-- Varah's bound: solving with a dominant matrix. -/
theorem dominant_solve {A : Mat K n n} (μ η : K) (hμ : 0 < μ)
    (hgap : ∀ i, μ ≤ |A i i| - ∑ j ∈ Finset.univ.erase i, |A i j|) (x : Fin n → K)
    (hy : ∀ i, |∑ j, A i j * x j| ≤ η) (k : Fin n) : |x k| ≤ η / μ := by
  have hne : Nonempty (Fin n) := ⟨k⟩
  obtain ⟨i, hi⟩ := Finite.exists_max (fun j => |x j|)
  have h1 := dominant_mulVec (A := A) x i hi
  have h2 : μ * |x i| ≤ η :=
    (mul_le_mul_of_nonneg_right (hgap i) (abs_nonneg _)).trans (h1.trans (hy i))
  rw [le_div_iff₀ hμ]
  have := hi k
  nlinarith

/-- Symmetric, dominant, with positive diagonal: positive definite. -/
theorem RowsDominate.posDef {A : Mat K n n} (h : RowsDominate A) (hsym : ∀ i j, A i j = A j i)
    (hpos : ∀ i, 0 < A i i) : IsPosDef A := by
  refine ⟨hsym, fun x hx => ?_⟩
  have hoff : ∀ i j, -(|A i j| * (x i ^ 2 + x j ^ 2) / 2) ≤ x i * A i j * x j := by
    intro i j
    have h1 : |x i * A i j * x j| ≤ |A i j| * (x i ^ 2 + x j ^ 2) / 2 := by
      rw [abs_mul, abs_mul, ← sq_abs (x i), ← sq_abs (x j)]
      have := mul_nonneg (abs_nonneg (A i j)) (sq_nonneg (|x i| - |x j|))
      nlinarith
    exact (neg_le_neg h1).trans (neg_abs_le _)
  set g : Fin n → K := fun i => ∑ j ∈ Finset.univ.erase i, |A i j| with hg
  have hrow : ∀ i, A i i * x i ^ 2 - (g i * x i ^ 2 +
      ∑ j ∈ Finset.univ.erase i, |A i j| * x j ^ 2) / 2 ≤ ∑ j, x i * A i j * x j := by
    intro i
    rw [← Finset.add_sum_erase _ _ (Finset.mem_univ i)]
    have h1 : -((g i * x i ^ 2 + ∑ j ∈ Finset.univ.erase i, |A i j| * x j ^ 2) / 2) ≤
        ∑ j ∈ Finset.univ.erase i, x i * A i j * x j := by
      have e : -((g i * x i ^ 2 + ∑ j ∈ Finset.univ.erase i, |A i j| * x j ^ 2) / 2) =
          ∑ j ∈ Finset.univ.erase i, -(|A i j| * (x i ^ 2 + x j ^ 2) / 2) := by
        rw [hg, Finset.sum_mul, ← Finset.sum_add_distrib, Finset.sum_div, ← Finset.sum_neg_distrib]
        exact Finset.sum_congr rfl fun j _ => by ring
      rw [e]
      exact Finset.sum_le_sum fun j _ => hoff i j
    linarith
  -- exchanging the two indices of the double sum
  have hswap : ∑ i, ∑ j ∈ Finset.univ.erase i, |A i j| * x j ^ 2 = ∑ i, g i * x i ^ 2 := by
    have e1 : ∀ i, ∑ j ∈ Finset.univ.erase i, |A i j| * x j ^ 2 =
        ∑ j, (if j = i then 0 else |A i j| * x j ^ 2) := by
      intro i
      rw [← Finset.add_sum_erase _ _ (Finset.mem_univ i), if_pos rfl, zero_add]
      exact Finset.sum_congr rfl fun j hj => (if_neg (Finset.mem_erase.mp hj).1).symm
    have e2 : ∀ i, g i * x i ^ 2 = ∑ j, (if j = i then 0 else |A i j| * x i ^ 2) := by
      intro i
      rw [← Finset.add_sum_erase _ _ (Finset.mem_univ i), if_pos rfl, zero_add, hg, Finset.sum_mul]
      exact Finset.sum_congr rfl fun j hj => (if_neg (Finset.mem_erase.mp hj).1).symm
    simp only [e1, e2]
    rw [Finset.sum_comm]
    refine Finset.sum_congr rfl fun i _ => Finset.sum_congr rfl fun j _ => ?_
    rw [hsym j i]
    by_cases hij : i = j
    · rw [if_pos hij, if_pos hij.symm]
    · rw [if_neg hij, if_neg (Ne.symm hij)]
  have hsum : ∑ i, (A i i - g i) * x i ^ 2 ≤ ∑ i, ∑ j, x i * A i j * x j := by
    refine le_trans (le_of_eq ?_) (Finset.sum_le_sum fun i _ => hrow i)
    have e : ∑ i, (A i i * x i ^ 2 -
        (g i * x i ^ 2 + ∑ j ∈ Finset.univ.erase i, |A i j| * x j ^ 2) / 2) =
        ∑ i, A i i * x i ^ 2 - (∑ i, g i * x i ^ 2 +
          ∑ i, ∑ j ∈ Finset.univ.erase i, |A i j| * x j ^ 2) / 2 := by
      rw [Finset.sum_sub_distrib, ← Finset.sum_div, Finset.sum_add_distrib]
    rw [e, hswap]
    have e2 : ∑ i, (A i i - g i) * x i ^ 2 = ∑ i, A i i * x i ^ 2 - ∑ i, g i * x i ^ 2 := by
      rw [← Finset.sum_sub_distrib]
      exact Finset.sum_congr rfl fun i _ => by ring
    rw [e2]
    ring
  refine lt_of_lt_of_le ?_ hsum
  obtain ⟨k, hk⟩ := Function.ne_iff.mp hx
  have hgp : ∀ i, 0 < A i i - g i := fun i => by
    have := h i
    rw [abs_of_pos (hpos i)] at this
    exact sub_pos.mpr this
  refine Finset.sum_pos' (fun i _ => mul_nonneg (hgp i).le (sq_nonneg _))
    ⟨k, Finset.mem_univ k, mul_pos (hgp k) ?_⟩
  exact lt_of_le_of_ne (sq_nonneg _) (Ne.symm (pow_ne_zero 2 hk))

end MatrixLibs
