import Verif.Proof.FloatChol
import Verif.Props.FloatRange
import Mathlib.LinearAlgebra.Matrix.NonsingularInverse
import Mathlib.LinearAlgebra.Matrix.Block

/-!
# When the floating point Cholesky factorisation succeeds
-/

namespace MatrixLibs

set_option linter.unusedSectionVars false

variable {n : Nat}

/-- A triangular system with a right-hand side of which only the first `m` elements are not zero. -/
theorem solve_upper (L : Fin n → Fin n → ℝ) (m : Nat) (l : Fin n → ℝ) (hlow : ∀ a b, a < b → L a b = 0)
    (hdiag : ∀ a : Fin n, a.val < m → L a a ≠ 0) (hl : ∀ b : Fin n, m ≤ b.val → l b = 0) :
    ∃ y : Fin n → ℝ, (∀ b : Fin n, m ≤ b.val → y b = 0) ∧ ∀ b, ∑ a, L a b * y a = l b := by
  classical
  let M : Matrix (Fin n) (Fin n) ℝ := .of fun a b => if a.val < m then L a b else if a = b then 1 else 0
  have hM : M.BlockTriangular OrderDual.toDual := by
    intro a b hab
    have hab : a < b := hab
    show (if a.val < m then L a b else if a = b then 1 else 0) = 0
    split
    · exact hlow a b hab
    · exact if_neg hab.ne
  have hdet : M.det ≠ 0 := by
    rw [Matrix.det_of_isLowerTriangular M hM]
    refine Finset.prod_ne_zero_iff.mpr fun a _ => ?_
    show (if a.val < m then L a a else if a = a then 1 else 0) ≠ 0
    split
    · next h => exact hdiag a h
    · simp
  have hunit : IsUnit M.transpose.det := by rw [Matrix.det_transpose]; exact hdet.isUnit
  let y := M.transpose⁻¹.mulVec l
  have hy : ∀ b, ∑ a, M a b * y a = l b := by
    have : M.transpose.mulVec y = l := by
      show M.transpose.mulVec (M.transpose⁻¹.mulVec l) = l
      rw [Matrix.mulVec_mulVec, Matrix.mul_nonsing_inv _ hunit, Matrix.one_mulVec]
    exact fun b => congrFun this b
  have hy0 : ∀ b : Fin n, m ≤ b.val → y b = 0 := by
    intro b hb
    have h := hy b
    rw [hl b hb, Finset.sum_eq_single b] at h
    · have e : M b b = 1 := by
        show (if b.val < m then L b b else if b = b then 1 else 0) = 1
        rw [if_neg (by omega), if_pos rfl]
      rwa [e, one_mul] at h
    · intro a _ hab
      have e : M a b = 0 := by
        show (if a.val < m then L a b else if a = b then 1 else 0) = 0
        split
        · exact hlow a b (by rw [Fin.lt_def]; omega)
        · simp
      rw [e, zero_mul]
    · intro h
      exact absurd (Finset.mem_univ b) h
  refine ⟨y, hy0, fun b => ?_⟩
  rw [← hy b]
  refine Finset.sum_congr rfl fun a _ => ?_
  by_cases h : a.val < m
  · congr 1
    exact (if_pos h).symm
  · rw [hy0 a (by omega), mul_zero, mul_zero]

/-- The norm of a row computed with small residuals from a factor with small residuals. -/
theorem energy (A L : Fin n → Fin n → ℝ) (d : Fin n → ℝ) (c ε w : ℝ) (m : Nat) (i : Fin n) (hm : m ≤ i.val)
    (l : Fin n → ℝ) (hsym : ∀ a b, A a b = A b a) (hd : ∀ a, 0 ≤ d a)
    (hpd : ∀ x : Fin n → ℝ, c * (∑ a, |x a| * d a) ^ 2 ≤ ∑ a, ∑ b, x a * A a b * x b)
    (hlow : ∀ a b, a < b → L a b = 0) (hdiag : ∀ a : Fin n, a.val < m → L a a ≠ 0)
    (hl : ∀ b : Fin n, m ≤ b.val → l b = 0)
    (hE : ∀ a b : Fin n, a.val < m → b.val < m → |∑ k, L a k * L b k - A a b| ≤ ε * (d a * d b))
    (he : ∀ b : Fin n, b.val < m → |∑ k, L b k * l k - A i b| ≤ w * d b) :
    ∃ Y, 0 ≤ Y ∧ ∑ k, l k ^ 2 ≤ A i i + ε * Y ^ 2 + 2 * w * Y - c * (Y + d i) ^ 2 := by
  obtain ⟨y, hy0, hy⟩ := solve_upper L m l hlow hdiag hl
  refine ⟨∑ a, |y a| * d a, Finset.sum_nonneg fun a _ => mul_nonneg (abs_nonneg _) (hd a), ?_⟩
  have r1 : ∑ k, l k ^ 2 = ∑ a, y a * ∑ k, L a k * l k := by
    simp_rw [Finset.mul_sum]
    rw [Finset.sum_comm]
    refine Finset.sum_congr rfl fun k _ => ?_
    rw [sq]
    nth_rw 1 [← hy k]
    rw [Finset.sum_mul]
    exact Finset.sum_congr rfl fun a _ => by ring
  have r2 : ∀ a, ∑ k, L a k * l k = ∑ b, y b * ∑ k, L a k * L b k := by
    intro a
    simp_rw [Finset.mul_sum]
    rw [Finset.sum_comm]
    refine Finset.sum_congr rfl fun k _ => ?_
    rw [← hy k, Finset.mul_sum]
    exact Finset.sum_congr rfl fun b _ => by ring
  have hi0 : y i = 0 := hy0 i hm
  have q := hpd fun a => y a - if a = i then 1 else 0
  have e1 : (∑ a, |y a - if a = i then 1 else 0| * d a) = (∑ a, |y a| * d a) + d i := by
    rw [← Finset.sum_erase_add _ _ (Finset.mem_univ i), ← Finset.sum_erase_add (a := i) Finset.univ (fun a => |y a| * d a)
      (Finset.mem_univ i), if_pos rfl, hi0]
    rw [abs_zero, zero_mul, add_zero, zero_sub, abs_neg, abs_one, one_mul]
    congr 1
    refine Finset.sum_congr rfl fun a ha => ?_
    rw [if_neg (Finset.ne_of_mem_erase ha), sub_zero]
  have e2 : (∑ a, ∑ b, (y a - if a = i then 1 else 0) * A a b * (y b - if b = i then 1 else 0)) =
      (∑ a, ∑ b, y a * A a b * y b) - 2 * (∑ a, y a * A i a) + A i i := by
    have h1 : ∀ a b, (y a - if a = i then (1:ℝ) else 0) * A a b * (y b - if b = i then (1:ℝ) else 0) =
        y a * A a b * y b - (if b = i then y a * A a b else 0) - (if a = i then A a b * y b else 0) +
          (if a = i then (if b = i then A a b else 0) else 0) := by
      intro a b
      split <;> split <;> ring
    simp_rw [h1, Finset.sum_add_distrib, Finset.sum_sub_distrib]
    simp only [Finset.sum_ite_eq', Finset.mem_univ, if_true]
    have h2 : ∀ x, (∑ x_1, if x = i then A x x_1 * y x_1 else 0) = if x = i then ∑ b, A x b * y b else 0 := by
      intro x; split <;> simp
    have h3 : ∀ x, (∑ x_1, if x = i then (if x_1 = i then A x x_1 else 0) else 0) = if x = i then A x i else 0 := by
      intro x; split <;> simp
    simp_rw [h2, h3]
    simp only [Finset.sum_ite_eq', Finset.mem_univ, if_true]
    have h4 : ∑ a, y a * A a i = ∑ a, y a * A i a := Finset.sum_congr rfl fun a _ => by rw [hsym]
    have h5 : ∑ a, A i a * y a = ∑ a, y a * A i a := Finset.sum_congr rfl fun a _ => mul_comm _ _
    rw [h4, h5]
    ring
  rw [e1, e2] at q
  have r3 : (∑ a, ∑ b, y a * A a b * y b) ≤ (∑ k, l k ^ 2) + ε * (∑ a, |y a| * d a) ^ 2 := by
    rw [r1]
    simp_rw [r2]
    rw [sq, Finset.sum_mul_sum, Finset.mul_sum, ← Finset.sum_add_distrib]
    refine Finset.sum_le_sum fun a _ => ?_
    rw [Finset.mul_sum, Finset.mul_sum, ← Finset.sum_add_distrib]
    refine Finset.sum_le_sum fun b _ => ?_
    by_cases ha : a.val < m
    · by_cases hb : b.val < m
      · have := mul_le_mul_of_nonneg_left (hE a b ha hb) (abs_nonneg (y a * y b))
        rw [← abs_mul] at this
        have h := neg_abs_le (y a * y b * (∑ k, L a k * L b k - A a b))
        rw [abs_mul (y a) (y b)] at this
        nlinarith
      · rw [hy0 b (by omega)]
        simp
    · rw [hy0 a (by omega)]
      simp
  have r4 : (∑ k, l k ^ 2) ≤ (∑ a, y a * A i a) + w * ∑ a, |y a| * d a := by
    rw [r1, Finset.mul_sum, ← Finset.sum_add_distrib]
    refine Finset.sum_le_sum fun a _ => ?_
    by_cases ha : a.val < m
    · have := mul_le_mul_of_nonneg_left (he a ha) (abs_nonneg (y a))
      rw [← abs_mul] at this
      have h := le_abs_self (y a * (∑ k, L a k * l k - A i a))
      nlinarith
    · rw [hy0 a (by omega)]
      simp
  linarith

/-- Cauchy-Schwarz. -/
theorem sum_abs_mul_le (x y : Fin n → ℝ) {a b : ℝ} (ha : 0 ≤ a) (hb : 0 ≤ b) (hx : ∑ k, x k ^ 2 ≤ a ^ 2)
    (hy : ∑ k, y k ^ 2 ≤ b ^ 2) : ∑ k, |x k| * |y k| ≤ a * b := by
  have h := Finset.sum_mul_sq_le_sq_mul_sq Finset.univ (fun k => |x k|) (fun k => |y k|)
  simp only [sq_abs] at h
  have h0 : 0 ≤ ∑ k, y k ^ 2 := Finset.sum_nonneg fun k _ => sq_nonneg _
  have h2 : (∑ k, |x k| * |y k|) ^ 2 ≤ (a * b) ^ 2 := by
    rw [mul_pow]
    exact h.trans (mul_le_mul hx hy h0 (sq_nonneg a))
  exact (abs_le_of_sq_le_sq' h2 (mul_nonneg ha hb)).2

namespace Fl
variable {F : Fmt}

/-- `(1 + u)^(n + 2) - 1`. -/
noncomputable def cholGamma (F : Fmt) (n : Nat) : ℝ := (1 + F.u) ^ (n + 2) - 1

theorem cholGamma_pow {k : Nat} (h : k ≤ n + 2) : (1 + F.u) ^ k - 1 ≤ cholGamma F n :=
  sub_le_sub_right (pow_le_pow_right₀ (by have := u_nonneg F; linarith) h) 1

theorem cholGamma_nonneg : 0 ≤ cholGamma F n := by
  have := one_add_u_pow F (n + 2)
  unfold cholGamma
  linarith

theorem u_pos : 0 < F.u := by unfold Fmt.u; positivity

theorem cholGamma_u : F.u * (1 + F.u) ^ n ≤ cholGamma F n := by
  have h1 := cholGamma_pow (F := F) (n := n) (k := n + 1) (by omega)
  have h2 := one_add_u_pow F n
  rw [pow_succ] at h1
  linarith

theorem cholGamma_pos : 0 < cholGamma F n :=
  lt_of_lt_of_le (mul_pos u_pos (by have := one_add_u_pow F n; linarith)) cholGamma_u

/-- What is assumed of the scales. -/
structure CholScale (A : Mat (Fl F) n n) (d : Fin n → ℝ) : Prop where
  sym : ∀ i j, (A i j).val = (A j i).val
  dpos : ∀ i, 0 < d i
  diag : ∀ i, (A i i).val ≤ d i ^ 2
  eta1 : ∀ i, n * F.eta ≤ F.u * d i ^ 2
  eta2 : ∀ i, F.eta ≤ F.u * d i

/-- What is assumed of the matrix. -/
structure CholPD (A : Mat (Fl F) n n) (d : Fin n → ℝ) : Prop extends CholScale A d where
  fin : ∀ i j, (A i j).Finite
  max1 : ∀ i, 2 * d i ≤ F.maxFinite
  max2 : ∀ i, 4 * d i ^ 2 ≤ F.maxFinite
  pd : ∀ x : Fin n → ℝ, 6 * cholGamma F n * (∑ i, |x i| * d i) ^ 2 ≤ ∑ i, ∑ j, x i * (A i j).val * x j

section
variable {A L : Mat (Fl F) n n} {d : Fin n → ℝ}

theorem CholPD.diag_ge (h : CholPD A d) (i : Fin n) : 6 * cholGamma F n * d i ^ 2 ≤ (A i i).val := by
  have := h.pd fun k => if k = i then 1 else 0
  have e : (∑ k, |if k = i then (1 : ℝ) else 0| * d k) = d i := by
    rw [Finset.sum_eq_single i]
    · rw [if_pos rfl, abs_one, one_mul]
    · intro k _ hk
      rw [if_neg hk, abs_zero, zero_mul]
    · intro hk
      exact absurd (Finset.mem_univ i) hk
  rw [e] at this
  simpa using this

theorem CholPD.gamma (h : CholPD A d) (i : Fin n) : 6 * cholGamma F n ≤ 1 := by
  have hd := h.dpos i
  have h1 := h.diag i
  have h2 := h.diag_ge i
  have : 6 * cholGamma F n * d i ^ 2 ≤ 1 * d i ^ 2 := by linarith
  exact le_of_mul_le_mul_right this (by positivity)

theorem CholScale.eta_mul (h : CholScale A d) (i j : Fin n) : n * F.eta ≤ F.u * (d i * d j) := by
  have hu := u_nonneg F
  have hi := (h.dpos i).le
  have hj := (h.dpos j).le
  rcases le_total (d i) (d j) with hl | hl
  · refine (h.eta1 i).trans (mul_le_mul_of_nonneg_left ?_ hu)
    rw [sq]
    exact mul_le_mul_of_nonneg_left hl hi
  · refine (h.eta1 j).trans (mul_le_mul_of_nonneg_left ?_ hu)
    rw [sq]
    exact mul_le_mul_of_nonneg_right hl hj

theorem CholScale.under (h : CholScale A d) (i j : Fin n) {k : Nat} (hk : k ≤ n) :
    k * (1 + F.u) ^ (k - 1) * F.eta ≤ cholGamma F n * (d i * d j) := by
  have h1 := h.eta_mul i j
  have he := eta_nonneg F
  have h2 : (1 + F.u) ^ (k - 1) ≤ (1 + F.u) ^ n :=
    pow_le_pow_right₀ (by have := u_nonneg F; linarith) (by omega)
  have h3 := one_add_u_pow F (k - 1)
  have h4 : (k : ℝ) ≤ n := by exact_mod_cast hk
  have hd : 0 ≤ d i * d j := mul_nonneg (h.dpos i).le (h.dpos j).le
  calc k * (1 + F.u) ^ (k - 1) * F.eta ≤ n * (1 + F.u) ^ n * F.eta := by
        refine mul_le_mul_of_nonneg_right (mul_le_mul h4 h2 (by linarith) (Nat.cast_nonneg _)) he
    _ = (1 + F.u) ^ n * (n * F.eta) := by ring
    _ ≤ (1 + F.u) ^ n * (F.u * (d i * d j)) := mul_le_mul_of_nonneg_left h1 (by linarith)
    _ = F.u * (1 + F.u) ^ n * (d i * d j) := by ring
    _ ≤ _ := mul_le_mul_of_nonneg_right cholGamma_u hd

theorem CholScale.under2 (h : CholScale A d) (i j : Fin n) {l : ℝ} (hl : |l| ≤ 3 / 2 * d j) :
    (n + |l|) * (1 + F.u) ^ n * F.eta ≤ 5 / 2 * cholGamma F n * (d i * d j) := by
  have h1 := h.eta_mul i j
  have h2 := h.eta2 i
  have he := eta_nonneg F
  have hj := h.dpos j
  have hi := h.dpos i
  have hn := one_add_u_pow F n
  have h3 : |l| * F.eta ≤ 3 / 2 * d j * (F.u * d i) := mul_le_mul hl h2 he (by linarith)
  calc (n + |l|) * (1 + F.u) ^ n * F.eta = (1 + F.u) ^ n * (n * F.eta + |l| * F.eta) := by ring
    _ ≤ (1 + F.u) ^ n * (F.u * (d i * d j) + 3 / 2 * d j * (F.u * d i)) :=
        mul_le_mul_of_nonneg_left (by linarith) (by linarith)
    _ = 5 / 2 * (F.u * (1 + F.u) ^ n) * (d i * d j) := by ring
    _ ≤ _ := mul_le_mul_of_nonneg_right (by have := cholGamma_u (F := F) (n := n); linarith) (mul_nonneg hi.le hj.le)

theorem CholPD.elem (h : CholPD A d) (i j : Fin n) {D : ℝ} (hi : d i ^ 2 ≤ D) (hj : d j ^ 2 ≤ D) : |(A i j).val| ≤ D := by
  by_cases hij : i = j
  · subst hij
    have h1 := h.diag i
    have h3 : 0 ≤ (A i i).val :=
      (mul_nonneg (by have := cholGamma_nonneg (F := F) (n := n); linarith) (sq_nonneg _)).trans (h.diag_ge i)
    rw [abs_of_nonneg h3]
    linarith
  · have key : ∀ s : ℝ, s ^ 2 = 1 → 0 ≤ (A i i).val + (A j j).val + 2 * (s * (A i j).val) := by
      intro s hs
      have h2 := h.pd fun k => (if k = i then 1 else 0) + if k = j then s else 0
      have h3 : 0 ≤ 6 * cholGamma F n * (∑ k, |(if k = i then (1:ℝ) else 0) + if k = j then s else 0| * d k) ^ 2 :=
        mul_nonneg (by have := cholGamma_nonneg (F := F) (n := n); linarith) (sq_nonneg _)
      have h4 := h3.trans h2
      have e : ∀ a b, ((if a = i then (1:ℝ) else 0) + if a = j then s else 0) * (A a b).val *
          ((if b = i then (1:ℝ) else 0) + if b = j then s else 0) =
          (if a = i then (if b = i then (A a b).val else 0) else 0) + (if a = i then (if b = j then (A a b).val * s else 0) else 0) +
          ((if a = j then (if b = i then s * (A a b).val else 0) else 0) +
          (if a = j then (if b = j then s * (A a b).val * s else 0) else 0)) := by
        intro a b
        split <;> split <;> split <;> split <;> ring
      have hc : ∀ (k m : Fin n) (f : Fin n → Fin n → ℝ), (∑ a, ∑ b, if a = k then (if b = m then f a b else 0) else 0) = f k m := by
        intro k m f
        rw [Finset.sum_eq_single k, Finset.sum_eq_single m]
        · simp
        · intro b _ hb; simp [hb]
        · intro hb; exact absurd (Finset.mem_univ m) hb
        · intro b _ hb; simp [hb]
        · intro hb; exact absurd (Finset.mem_univ k) hb
      simp_rw [e, Finset.sum_add_distrib] at h4
      rw [hc, hc, hc, hc, h.sym j i] at h4
      have h5 : s * (A j j).val * s = s ^ 2 * (A j j).val := by ring
      rw [h5, hs] at h4
      linarith
    have h1 := key 1 (by norm_num)
    have h2 := key (-1) (by norm_num)
    have h3 := h.diag i
    have h4 := h.diag j
    rw [abs_le]
    constructor <;> linarith

/-- A finished row. -/
structure RowFin (L : Mat (Fl F) n n) (d : Fin n → ℝ) (a : Fin n) : Prop where
  fin : ∀ b, (L a b).Finite
  norm : ∑ k, (L a k).val ^ 2 ≤ (3 / 2 * d a) ^ 2

/-- A finished row, with a positive element on the diagonal. -/
structure RowOk (L : Mat (Fl F) n n) (d : Fin n → ℝ) (a : Fin n) : Prop extends RowFin L d a where
  pos : 0 < (L a a).val

theorem RowFin.le {a : Fin n} (h : RowFin L d a) (hd : 0 < d a) (b : Fin n) : |(L a b).val| ≤ 3 / 2 * d a := by
  have := Finset.single_le_sum (f := fun k => (L a k).val ^ 2) (fun k _ => sq_nonneg _) (Finset.mem_univ b)
  have h2 : (L a b).val ^ 2 ≤ (3 / 2 * d a) ^ 2 := this.trans h.norm
  exact abs_le_of_sq_le_sq h2 (by linarith)

theorem factor_err (h : CholScale A d) (hc : CholCells A n 0 L) {a b : Fin n} (ha : RowFin L d a) (hb : RowFin L d b) :
    |∑ k, (L a k).val * (L b k).val - (A a b).val| ≤ 5 * cholGamma F n * (d a * d b) := by
  have key : ∀ {a b : Fin n}, RowFin L d a → RowFin L d b → b ≤ a →
      |∑ k, (L a k).val * (L b k).val - (A a b).val| ≤ 5 * cholGamma F n * (d a * d b) := by
    intro a b ha hb hab
    have h1 := chol_backward hc a b hab (ha.fin b) (hb.fin b)
    have h2 := h.under2 a b (hb.le (h.dpos b) b)
    have h3 := sum_abs_mul_le (fun k => (L a k).val) (fun k => (L b k).val) (by have := h.dpos a; linarith)
      (by have := h.dpos b; linarith) ha.norm hb.norm
    have h4 := mul_le_mul_of_nonneg_left h3 (cholGamma_nonneg (F := F) (n := n))
    have h5 : 0 ≤ cholGamma F n * (d a * d b) :=
      mul_nonneg cholGamma_nonneg (mul_nonneg (h.dpos a).le (h.dpos b).le)
    refine h1.trans ?_
    change cholGamma F n * _ + _ ≤ _
    nlinarith
  rcases le_total b a with hab | hab
  · exact key ha hb hab
  · have := key hb ha hab
    rw [h.sym, mul_comm (d a)]
    convert this using 4
    exact mul_comm _ _

/-- Row `i` as far as it is known. -/
theorem row_bound (h : CholPD A d) (hc : CholCells A n 0 L) (i : Fin n) (hr : ∀ a, a < i → RowOk L d a) (m : Nat)
    (hm : m ≤ i.val) (l : Fin n → ℝ) (hl : ∀ b : Fin n, m ≤ b.val → l b = 0)
    (he : ∀ b : Fin n, b.val < m → |∑ k, (L b k).val * l k - (A i b).val| ≤
      cholGamma F n * (∑ k, |(L b k).val| * |l k|) + 5 / 2 * cholGamma F n * (d b * d i)) :
    ∑ k, l k ^ 2 ≤ 2 * d i ^ 2 ∧ 6 * cholGamma F n * d i ^ 2 ≤ (A i i).val - ∑ k, l k ^ 2 := by
  have hg := cholGamma_nonneg (F := F) (n := n)
  have hg6 := h.gamma i
  have hd := h.dpos i
  have hdi := h.diag i
  have hlt : ∀ a : Fin n, a.val < m → a < i := fun a ha => by rw [Fin.lt_def]; omega
  set g := cholGamma F n
  set ρ := Real.sqrt (∑ k, l k ^ 2)
  have hρ0 : 0 ≤ ρ := Real.sqrt_nonneg _
  have hρ : ρ ^ 2 = ∑ k, l k ^ 2 := Real.sq_sqrt (Finset.sum_nonneg fun k _ => sq_nonneg _)
  obtain ⟨Y, hY, hE⟩ := energy (fun a b => (A a b).val) (fun a b => (L a b).val) d (6 * g) (5 * g)
    (3 / 2 * g * ρ + 5 / 2 * g * d i) m i hm l h.sym (fun a => (h.dpos a).le) h.pd
    (fun a b hab => by rw [hc.upper a b hab, zero_val]) (fun a ha => (hr a (hlt a ha)).pos.ne') hl
    (fun a b ha hb => factor_err h.toCholScale hc (hr a (hlt a ha)).toRowFin (hr b (hlt b hb)).toRowFin)
    (fun b hb => by
      refine (he b hb).trans ?_
      have hdb := h.dpos b
      have h1 := sum_abs_mul_le (fun k => (L b k).val) l (a := 3 / 2 * d b) (b := ρ) (by linarith) hρ0
        (hr b (hlt b hb)).norm hρ.ge
      have h2 := mul_le_mul_of_nonneg_left h1 hg
      nlinarith)
  rw [← hρ] at hE ⊢
  have hgY : 0 ≤ g * Y := mul_nonneg hg hY
  have hgYd : 0 ≤ g * Y * d i := mul_nonneg hgY hd.le
  have hgY2 : 0 ≤ g * Y * Y := mul_nonneg hgY hY
  have hgd2 : 0 ≤ g * (d i * d i) := mul_nonneg hg (mul_nonneg hd.le hd.le)
  have hgg : 0 ≤ (1 - 6 * g) * (g * Y * Y) := mul_nonneg (by linarith) hgY2
  have b1 : ρ ^ 2 ≤ 2 * d i ^ 2 := by
    nlinarith [sq_nonneg (ρ - 3 * g * Y)]
  refine ⟨b1, ?_⟩
  have b2 : ρ ≤ 3 / 2 * d i := by
    have : ρ ^ 2 ≤ (3 / 2 * d i) ^ 2 := by nlinarith
    exact (abs_le_of_sq_le_sq' this (by linarith)).2
  have b3 : g * Y * ρ ≤ g * Y * (3 / 2 * d i) := mul_le_mul_of_nonneg_left b2 hgY
  nlinarith

theorem cholS_finite (L : Mat (Fl F) n n) (i j : Fin n) (h1 : ∀ p, p < i → (L i p).Finite)
    (h2 : ∀ p, p < i → (L j p).Finite)
    (hb : (1 + F.u) ^ i.val * (∑ p, if p < i then |(L i p).val| * |(L j p).val| else 0) +
      i.val * (1 + F.u) ^ (i.val - 1) * F.eta ≤ F.maxFinite) : (cholS L i j).Finite := by
  obtain ⟨P, hP, hf⟩ := C66_mul_finite (n := 1) (m := i.val) (p := 1)
    (.of fun _ p => L i ⟨p.val, lt_trans p.2 i.2⟩) (.of fun p _ => L j ⟨p.val, lt_trans p.2 i.2⟩)
    (fun _ p => h1 _ p.2) (fun p _ => h2 _ p.2)
  rw [show opMul _ _ = .ok _ from mult_eq _ _] at hP
  cases hP
  refine hf 0 0 ?_
  rw [← sum_cut (i := i) (fun p => |(L i p).val| * |(L j p).val|)] at hb
  exact hb

/-- The first `m` elements of row `i`. -/
noncomputable def maskRow (L : Mat (Fl F) n n) (i : Fin n) (m : Nat) : Fin n → ℝ := fun k => if k.val < m then (L i k).val else 0

theorem maskRow_lt {i p : Fin n} {m : Nat} (h : p.val < m) : maskRow L i m p = (L i p).val := if_pos h

theorem maskRow_ge {i p : Fin n} {m : Nat} (h : ¬ p.val < m) : maskRow L i m p = 0 := if_neg h

/-- The residuals of the elements of row `i` that are known. -/
theorem mask_residual (h : CholPD A d) (hc : CholCells A n 0 L) (i : Fin n) (hr : ∀ a, a < i → RowOk L d a) (b : Fin n)
    (hb : b < i) (hf : (L i b).Finite) (l : Fin n → ℝ) (hl : ∀ k, k ≤ b → l k = (L i k).val) :
    |∑ k, (L b k).val * l k - (A i b).val| ≤
      cholGamma F n * (∑ k, |(L b k).val| * |l k|) + 5 / 2 * cholGamma F n * (d b * d i) := by
  have h1 := chol_backward hc i b hb.le hf ((hr b hb).fin b)
  have h2 := h.under2 i b ((hr b hb).le (h.dpos b) b)
  have e1 : ∑ k, (L b k).val * l k = ∑ k, (L i k).val * (L b k).val := by
    refine Finset.sum_congr rfl fun k _ => ?_
    rcases le_or_gt k b with hk | hk
    · rw [hl k hk, mul_comm]
    · rw [hc.upper b k hk, zero_val, zero_mul, mul_zero]
  have e2 : ∑ k, |(L b k).val| * |l k| = ∑ k, |(L i k).val| * |(L b k).val| := by
    refine Finset.sum_congr rfl fun k _ => ?_
    rcases le_or_gt k b with hk | hk
    · rw [hl k hk, mul_comm]
    · rw [hc.upper b k hk, zero_val, abs_zero, zero_mul, mul_zero]
  rw [e1, e2, mul_comm (d b)]
  change _ ≤ cholGamma F n * _ + _ at h1
  linarith

theorem mask_bound (h : CholPD A d) (hc : CholCells A n 0 L) (i : Fin n) (hr : ∀ a, a < i → RowOk L d a) (m : Nat)
    (hm : m ≤ i.val) (hf : ∀ b : Fin n, b.val < m → (L i b).Finite) :
    ∑ k, maskRow L i m k ^ 2 ≤ 2 * d i ^ 2 ∧
      6 * cholGamma F n * d i ^ 2 ≤ (A i i).val - ∑ k, maskRow L i m k ^ 2 := by
  refine row_bound h hc i hr m hm _ (fun b hb => if_neg (by omega)) fun b hb => ?_
  refine mask_residual h hc i hr b (by rw [Fin.lt_def]; omega) (hf b hb) _ fun k hk => if_pos ?_
  rw [Fin.le_def] at hk
  omega

/-- The sum of products is finite and small. -/
theorem mask_cholS (h : CholPD A d) (i j : Fin n) (M : Mat (Fl F) n n)
    (l m : Fin n → ℝ) (hl : ∑ k, l k ^ 2 ≤ (3 / 2 * d i) ^ 2) (hm : ∑ k, m k ^ 2 ≤ (3 / 2 * d j) ^ 2)
    (h1 : ∀ p, p < i → (M i p).Finite) (h2 : ∀ p, p < i → (M j p).Finite)
    (e1 : ∀ p, p < i → (M i p).val = l p) (e2 : ∀ p, p < i → (M j p).val = m p) :
    (cholS M i j).Finite ∧ |(cholS M i j).val| ≤ 3 * (d i * d j) := by
  have hg := h.gamma i
  have hg0 := cholGamma_nonneg (F := F) (n := n)
  have hdi := h.dpos i
  have hdj := h.dpos j
  have hdd : 0 ≤ d i * d j := (mul_pos hdi hdj).le
  have hX : (∑ p, if p < i then |(M i p).val| * |(M j p).val| else 0) ≤ 9 / 4 * (d i * d j) := by
    have h3 := sum_abs_mul_le l m (by linarith) (by linarith) hl hm
    have h4 : (∑ p, if p < i then |(M i p).val| * |(M j p).val| else 0) ≤ ∑ k, |l k| * |m k| := by
      refine Finset.sum_le_sum fun p _ => ?_
      split
      · next hp => rw [e1 p hp, e2 p hp]
      · positivity
    linarith
  have hX0 : 0 ≤ ∑ p, if p < i then |(M i p).val| * |(M j p).val| else 0 :=
    Finset.sum_nonneg fun p _ => by split <;> positivity
  have hu := h.under i j (k := i.val) i.2.le
  have hp := cholGamma_pow (F := F) (n := n) (k := i.val) (by have := i.2; omega)
  have hP1 : |∑ p, if p < i then (M i p).val * (M j p).val else 0| ≤
      ∑ p, if p < i then |(M i p).val| * |(M j p).val| else 0 := by
    refine (Finset.abs_sum_le_sum_abs _ _).trans (Finset.sum_le_sum fun p _ => ?_)
    split
    · rw [abs_mul]
    · rw [abs_zero]
  set X := ∑ p, if p < i then |(M i p).val| * |(M j p).val| else 0
  have h5 := mul_le_mul_of_nonneg_right hp hX0
  have h6 := mul_le_mul_of_nonneg_left hX hg0
  have h7 := mul_le_mul_of_nonneg_right hg hdd
  have hall : (1 + F.u) ^ i.val * X + i.val * (1 + F.u) ^ (i.val - 1) * F.eta ≤ 3 * (d i * d j) := by
    nlinarith
  have hfin : (cholS M i j).Finite := by
    refine cholS_finite M i j h1 h2 (hall.trans ?_)
    have a := h.max2 i
    have b := h.max2 j
    nlinarith [sq_nonneg (d i - d j), sq_nonneg (d i), sq_nonneg (d j)]
  refine ⟨hfin, ?_⟩
  have h8 := cholS_err M i j hfin
  have h9 := abs_sub_abs_le_abs_sub (cholS M i j).val (∑ p, if p < i then (M i p).val * (M j p).val else 0)
  nlinarith

theorem cholS_sub_finite (h : CholPD A d) (i j : Fin n) {S : Fl F} (hS : S.Finite) (hb : |S.val| ≤ 3 * (d i * d j)) :
    ((A i j).sub S).Finite := by
  refine (sub_rounded (h.fin i j) hS).finite ?_
  have a := h.max2 i
  have b := h.max2 j
  have hdi := h.dpos i
  have hdj := h.dpos j
  have h1 := abs_sub (A i j).val S.val
  rcases le_total (d i) (d j) with hl | hl
  · have h2 := h.elem i j (D := d j ^ 2) (by nlinarith) le_rfl
    nlinarith
  · have h2 := h.elem i j (D := d i ^ 2) le_rfl (by nlinarith)
    nlinarith

/-- The elements below the diagonal are finite. -/
theorem off_step (h : CholPD A d) (hc : CholCells A n 0 L) (i : Fin n) (hr : ∀ a, a < i → RowOk L d a) (j : Fin n)
    (hji : j < i) (hf : ∀ b : Fin n, b < j → (L i b).Finite) : (L i j).Finite := by
  have hg0 := cholGamma_nonneg (F := F) (n := n)
  have hdi := h.dpos i
  have hdj := h.dpos j
  have hrj := hr j hji
  have hji' := hji
  rw [Fin.lt_def] at hji'
  obtain ⟨hb, -⟩ := mask_bound h hc i hr j.val (by omega) (fun b hb => hf b hb)
  have hcell := hc.off i j (.inl i.2) hji
  have hrow : ∀ p, cutRow L i j j p = L j p := by
    intro p
    unfold cutRow
    rw [Matrix.of_apply, if_neg (fun e => ne_of_lt hji e.1)]
  have hlt : ∀ p, p < j → cutRow L i j i p = L i p := by
    intro p hp
    unfold cutRow
    rw [Matrix.of_apply, if_neg (fun e => absurd hp (not_lt.mpr e.2))]
  have hge : ∀ p, ¬ p < j → cutRow L i j i p = ofInt 0 := by
    intro p hp
    unfold cutRow
    rw [Matrix.of_apply, if_pos ⟨rfl, not_lt.mp hp⟩]
  obtain ⟨hS, hSb⟩ := mask_cholS h i j (cutRow L i j) (maskRow L i j.val) (fun k => (L j k).val)
    (by nlinarith) hrj.norm
    (fun p _ => by
      by_cases hp : p < j
      · rw [hlt p hp]; exact hf p hp
      · rw [hge p hp]; exact zero_finite)
    (fun p _ => by rw [hrow]; exact hrj.fin p)
    (fun p _ => by
      by_cases hp : p < j
      · rw [hlt p hp, maskRow_lt hp]
      · rw [hge p hp, maskRow_ge hp, zero_val])
    (fun p _ => by rw [hrow])
  have ht := cholS_sub_finite h i j hS hSb
  have e1 := cholS_err (cutRow L i j) i j hS
  have e2 := sub_err_res ht
  set S := cholS (cutRow L i j) i j
  set t := (A i j).sub S
  rw [hcell]
  refine (div_rounded ht (hrj.fin j) hrj.pos.ne').finite ?_
  set q := t.val / (L j j).val
  have hq : (L j j).val * q = t.val := mul_div_cancel₀ _ hrj.pos.ne'
  -- the row with the exact quotient in the place of its rounding
  let l : Fin n → ℝ := fun k => if k < j then (L i k).val else if k = j then q else 0
  have hlj : l j = q := by
    show (if j < j then _ else if j = j then q else 0) = q
    rw [if_neg (lt_irrefl j), if_pos rfl]
  have hll : ∀ k, k < j → l k = (L i k).val := fun k hk => if_pos hk
  have hl0 : ∀ k, j < k → l k = 0 := fun k hk => by
    show (if k < j then _ else if k = j then q else 0) = 0
    rw [if_neg (not_lt.mpr hk.le), if_neg hk.ne']
  obtain ⟨hb2, -⟩ := row_bound h hc i hr (j.val + 1) (by omega) l
    (fun b hb => hl0 b (by rw [Fin.lt_def]; omega)) (fun b hb => by
      by_cases hbj : b < j
      · exact mask_residual h hc i hr b (hbj.trans hji) (hf b hbj) l fun k hk => hll k (lt_of_le_of_lt hk hbj)
      · have : b = j := by rw [Fin.lt_def] at hbj; exact Fin.ext (by omega)
        subst this
        have c1 : (∑ p, if p < i then (cutRow L i b i p).val * (cutRow L i b b p).val else 0) =
            ∑ p, if p < b then (L b p).val * l p else 0 := by
          refine Finset.sum_congr rfl (fun p _ => ?_)
          by_cases hp : p < b
          · rw [if_pos (hp.trans hji), if_pos hp, hrow, hlt p hp, hll p hp, mul_comm]
          · rw [hge p hp, zero_val, zero_mul, ite_self, if_neg hp]
        have c2 : (∑ p, if p < i then |(cutRow L i b i p).val| * |(cutRow L i b b p).val| else 0) =
            ∑ p, if p < b then |(L b p).val| * |l p| else 0 := by
          refine Finset.sum_congr rfl (fun p _ => ?_)
          by_cases hp : p < b
          · rw [if_pos (hp.trans hji), if_pos hp, hrow, hlt p hp, hll p hp, mul_comm]
          · rw [hge p hp, zero_val, abs_zero, zero_mul, ite_self, if_neg hp]
        rw [c1, c2] at e1
        rw [sum_split b (fun k => (L b k).val * l k) (fun p hp => by rw [hl0 p hp, mul_zero]),
          sum_split b (fun k => |(L b k).val| * |l k|) (fun p hp => by rw [hl0 p hp, abs_zero, mul_zero]), hlj, hq,
          ← abs_mul, hq]
        have hX : 0 ≤ ∑ p, if p < b then |(L b p).val| * |l p| else 0 :=
          Finset.sum_nonneg (fun p _ => by split <;> positivity)
        set P := ∑ p, if p < b then (L b p).val * l p else 0
        set X := ∑ p, if p < b then |(L b p).val| * |l p| else 0
        have h3 : |P + t.val - (A i b).val| ≤ |S.val - P| + |t.val - ((A i b).val - S.val)| := by
          rw [show P + t.val - (A i b).val = -(S.val - P) + (t.val - ((A i b).val - S.val)) by ring]
          refine (abs_add_le _ _).trans ?_
          rw [abs_neg]
        have h4 := mul_le_mul_of_nonneg_right
          (cholGamma_pow (F := F) (n := n) (k := i.val) (by have := i.2; omega)) hX
        have h5 := cholGamma_pow (F := F) (n := n) (k := 1) (by omega)
        rw [pow_one, add_sub_cancel_left] at h5
        have h6 := mul_le_mul_of_nonneg_right h5 (abs_nonneg t.val)
        have h7 := h.under b i (k := i.val) i.2.le
        have h8 : 0 ≤ cholGamma F n * (d b * d i) := mul_nonneg hg0 (mul_pos hdj hdi).le
        nlinarith)
  have h9 := Finset.single_le_sum (f := fun k => l k ^ 2) (fun k _ => sq_nonneg _) (Finset.mem_univ j)
  have h10 : q ^ 2 ≤ (2 * d i) ^ 2 := by
    have : l j ^ 2 ≤ 2 * d i ^ 2 := h9.trans hb2
    rw [hlj] at this
    nlinarith
  exact (abs_le_of_sq_le_sq h10 (by linarith)).trans (h.max1 i)

/-- The norm of a row with a finite element on the diagonal. -/
theorem row_norm (h : CholScale A d) (hg : 6 * cholGamma F n ≤ 1) (hc : CholCells A n 0 L) (i : Fin n)
    (hlf : (L i i).Finite) : ∑ k, (L i k).val ^ 2 ≤ (3 / 2 * d i) ^ 2 := by
  have hg0 := cholGamma_nonneg (F := F) (n := n)
  have hd := h.dpos i
  have hl0 := chol_diag_nonneg hc i hlf
  have hback := chol_backward hc i i le_rfl hlf hlf
  have e4 : (L i i).val ^ 2 ≤ ∑ k, (L i k).val ^ 2 :=
    Finset.single_le_sum (f := fun k => (L i k).val ^ 2) (fun k _ => sq_nonneg _) (Finset.mem_univ i)
  have e5 : ∑ k, (L i k).val * (L i k).val = ∑ k, (L i k).val ^ 2 := Finset.sum_congr rfl fun k _ => (sq _).symm
  have e6 : ∑ k, |(L i k).val| * |(L i k).val| = ∑ k, (L i k).val ^ 2 :=
    Finset.sum_congr rfl fun k _ => by rw [abs_mul_abs_self, sq]
  rw [e5, e6] at hback
  have h10 : (n + |(L i i).val|) * (1 + F.u) ^ n * F.eta ≤ cholGamma F n * (d i ^ 2 + d i * (L i i).val) := by
    rw [abs_of_nonneg hl0]
    have a1 := h.eta1 i
    have a2 := h.eta2 i
    have a3 := one_add_u_pow F n
    calc _ = (1 + F.u) ^ n * (n * F.eta + (L i i).val * F.eta) := by ring
      _ ≤ (1 + F.u) ^ n * (F.u * d i ^ 2 + (L i i).val * (F.u * d i)) :=
          mul_le_mul_of_nonneg_left (add_le_add a1 (mul_le_mul_of_nonneg_left a2 hl0)) (by linarith)
      _ = F.u * (1 + F.u) ^ n * (d i ^ 2 + d i * (L i i).val) := by ring
      _ ≤ _ := mul_le_mul_of_nonneg_right cholGamma_u (by positivity)
  change _ ≤ cholGamma F n * _ + _ at hback
  have h11 := (abs_le.mp hback).2
  have h12 := h.diag i
  by_contra hcon
  rw [not_le] at hcon
  set N := ∑ k, (L i k).val ^ 2
  have h13 : (L i i).val ^ 2 ≤ N := e4
  -- N ≤ d² + g N + g (d² + d l), g ≤ 1/6, l² ≤ N
  have h14 : cholGamma F n * N ≤ 1 / 6 * N := mul_le_mul_of_nonneg_right (by linarith) (by linarith [sq_nonneg (L i i).val])
  have h15 : cholGamma F n * (d i ^ 2 + d i * (L i i).val) ≤ 1 / 6 * (d i ^ 2 + d i * (L i i).val) :=
    mul_le_mul_of_nonneg_right (by linarith) (by positivity)
  have h16 : d i * (L i i).val ≤ (d i ^ 2 + N) / 2 := by nlinarith [sq_nonneg (d i - (L i i).val)]
  nlinarith

theorem row_step (h : CholPD A d) (hc : CholCells A n 0 L) (i : Fin n) (hr : ∀ a, a < i → RowOk L d a) : RowOk L d i := by
  have hg0 := cholGamma_pos (F := F) (n := n)
  have hg := h.gamma i
  have hd := h.dpos i
  have hoff : ∀ k : Nat, ∀ j : Fin n, j.val = k → j < i → (L i j).Finite := by
    intro k
    induction k using Nat.strong_induction_on with
    | _ k ih =>
      intro j hj hji
      refine off_step h hc i hr j hji fun b hb => ih b.val ?_ b rfl (hb.trans hji)
      rw [Fin.lt_def] at hb
      omega
  have hf : ∀ b : Fin n, b < i → (L i b).Finite := fun b hb => hoff b.val b rfl hb
  obtain ⟨hb, hgap⟩ := mask_bound h hc i hr i.val le_rfl (fun b hb => hf b hb)
  have hmask : ∀ p, p < i → (L i p).val = maskRow L i i.val p := fun p hp => (if_pos hp).symm
  have hm2 : ∑ k, maskRow L i i.val k ^ 2 ≤ (3 / 2 * d i) ^ 2 := by nlinarith
  obtain ⟨hS, hSb⟩ := mask_cholS h i i L (maskRow L i i.val) (maskRow L i i.val) hm2 hm2 hf hf hmask hmask
  have ht := cholS_sub_finite h i i hS hSb
  have hcell := hc.diag i (.inl i.2)
  have e1 := cholS_err L i i hS
  have e2 := sub_err_res ht
  set S := cholS L i i
  have hP : (∑ p, if p < i then (L i p).val * (L i p).val else 0) = ∑ k, maskRow L i i.val k ^ 2 := by
    refine Finset.sum_congr rfl fun p _ => ?_
    by_cases hp : p < i
    · rw [if_pos hp, maskRow_lt hp, sq]
    · rw [if_neg hp, maskRow_ge hp]; norm_num
  have hX : (∑ p, if p < i then |(L i p).val| * |(L i p).val| else 0) = ∑ k, maskRow L i i.val k ^ 2 := by
    rw [← hP]
    refine Finset.sum_congr rfl fun p _ => ?_
    rw [abs_mul_abs_self]
  rw [hP, hX] at e1
  have hR0 : 0 ≤ ∑ k, maskRow L i i.val k ^ 2 := Finset.sum_nonneg fun k _ => sq_nonneg _
  set R := ∑ k, maskRow L i i.val k ^ 2
  have h4 := mul_le_mul_of_nonneg_right
    (cholGamma_pow (F := F) (n := n) (k := i.val) (by have := i.2; omega)) hR0
  have h7 := h.under i i (k := i.val) i.2.le
  have hdd : 0 < d i ^ 2 := by positivity
  have hgd : 0 < cholGamma F n * d i ^ 2 := mul_pos hg0 hdd
  have h8 : cholGamma F n * R ≤ cholGamma F n * (2 * d i ^ 2) := mul_le_mul_of_nonneg_left hb hg0.le
  have hpos : 0 < (A i i).val - S.val := by
    have := (abs_le.mp e1).2
    rw [← sq] at h7
    nlinarith
  set t := (A i i).sub S
  have htpos : 0 < t.val := by
    rcases Rounded.nonneg (sub_rounded (h.fin i i) hS) hpos.le with hh | hh
    · refine lt_of_le_of_ne hh.2 fun e => ?_
      have e3 : t.val = 0 := e.symm
      rw [e3, abs_zero, mul_zero, zero_sub, abs_neg] at e2
      exact absurd (abs_nonpos_iff.mp e2) hpos.ne'
    · have : t = .inf false := hh
      rw [this] at ht
      exact ht.elim
  have hsq := sqrt_rounded ht htpos.le
  have htb : t.val ≤ 4 * d i ^ 2 := by
    have h1 := (abs_le.mp e2).2
    rw [abs_of_pos htpos] at h1
    have h5 := cholGamma_pow (F := F) (n := n) (k := 1) (by omega)
    rw [pow_one, add_sub_cancel_left] at h5
    have h2 := h.diag i
    have h9 := (abs_le.mp e1).1
    rw [← sq] at h7
    nlinarith
  have hlf : (L i i).Finite := by
    rw [hcell]
    refine hsq.finite ?_
    rw [abs_of_nonneg (Real.sqrt_nonneg _)]
    refine le_trans ?_ (h.max1 i)
    refine Real.sqrt_le_iff.mpr ⟨by linarith, ?_⟩
    nlinarith
  have hl0 : 0 < (L i i).val := by
    refine lt_of_le_of_ne (chol_diag_nonneg hc i hlf) fun e => ?_
    have e3 := sqrt_err_res (a := t) (by rw [← hcell]; exact hlf)
    rw [← hcell, ← e, abs_zero, mul_zero, zero_sub, abs_neg] at e3
    have := abs_nonpos_iff.mp e3
    rw [Real.sqrt_eq_zero htpos.le] at this
    exact absurd this htpos.ne'
  have hfin : ∀ b, (L i b).Finite := by
    intro b
    rcases lt_trichotomy b i with hb | hb | hb
    · exact hf b hb
    · rw [hb]; exact hlf
    · rw [hc.upper i b hb]; exact zero_finite
  exact ⟨⟨hfin, row_norm h.toCholScale hg hc i hlf⟩, hl0⟩

theorem all_rows (h : CholPD A d) (hc : CholCells A n 0 L) (i : Fin n) : RowOk L d i := by
  have : ∀ k : Nat, ∀ i : Fin n, i.val = k → RowOk L d i := by
    intro k
    induction k using Nat.strong_induction_on with
    | _ k ih =>
      intro i hi
      refine row_step h hc i fun a ha => ih a.val ?_ a rfl
      rw [Fin.lt_def] at ha
      omega
  exact this i.val i rfl

/-- A finite factor. -/
theorem finite_form (h : CholScale A d) (hg : 6 * cholGamma F n ≤ 1) (hc : CholCells A n 0 L)
    (hL : ∀ i j, (L i j).Finite) (x : Fin n → ℝ) :
    -(5 * cholGamma F n * (∑ i, |x i| * d i) ^ 2) ≤ ∑ i, ∑ j, x i * (A i j).val * x j := by
  have hrow : ∀ i, RowFin L d i := fun i => ⟨hL i, row_norm h hg hc i (hL i i)⟩
  have h1 : 0 ≤ ∑ i, ∑ j, x i * (∑ k, (L i k).val * (L j k).val) * x j := by
    have : (∑ i, ∑ j, x i * (∑ k, (L i k).val * (L j k).val) * x j) = ∑ k, (∑ i, x i * (L i k).val) ^ 2 := by
      simp_rw [sq, Finset.sum_mul_sum, Finset.mul_sum, Finset.sum_mul]
      rw [Finset.sum_comm' (t' := Finset.univ) (s' := fun _ => Finset.univ) (by simp)]
      rw [show (∑ y : Fin n, ∑ x_1 : Fin n, ∑ i : Fin n, x x_1 * ((L x_1 i).val * (L y i).val) * x y) =
        ∑ y : Fin n, ∑ i : Fin n, ∑ x_1 : Fin n, x x_1 * ((L x_1 i).val * (L y i).val) * x y from
        Finset.sum_congr rfl fun y _ => Finset.sum_comm]
      rw [Finset.sum_comm]
      refine Finset.sum_congr rfl fun k _ => ?_
      rw [Finset.sum_comm]
      exact Finset.sum_congr rfl fun i _ => Finset.sum_congr rfl fun j _ => by ring
    rw [this]
    exact Finset.sum_nonneg fun k _ => sq_nonneg _
  have h2 : (∑ i, ∑ j, x i * (∑ k, (L i k).val * (L j k).val) * x j) ≤
      (∑ i, ∑ j, x i * (A i j).val * x j) + 5 * cholGamma F n * (∑ i, |x i| * d i) ^ 2 := by
    rw [sq, Finset.sum_mul_sum, Finset.mul_sum, ← Finset.sum_add_distrib]
    refine Finset.sum_le_sum fun i _ => ?_
    rw [Finset.mul_sum, ← Finset.sum_add_distrib]
    refine Finset.sum_le_sum fun j _ => ?_
    have := mul_le_mul_of_nonneg_left (factor_err h hc (hrow i) (hrow j)) (abs_nonneg (x i * x j))
    rw [← abs_mul] at this
    have h3 := le_abs_self (x i * x j * (∑ k, (L i k).val * (L j k).val - (A i j).val))
    rw [abs_mul (x i)] at this
    nlinarith
  linarith

end
end Fl
end MatrixLibs
