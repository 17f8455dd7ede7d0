import Verif.Proof.FloatCholPD
import Verif.Props.Chol
import Verif.Props.FloatInv
import Mathlib.LinearAlgebra.Matrix.Notation

/-!
# Property C128: which floating point matrices `chol` accepts

`d i` is a scale of row and column `i`, at least the square root of the diagonal element; `(∑ i, |x i| * d i) ^ 2` measures
`x` in these scales. If `xᵀ A x` is a few roundings of it above zero, `chol` succeeds; if it is below zero by a few
roundings for some `x`, it does not.
-/

namespace MatrixLibs

set_option linter.unusedSectionVars false

variable {F : Fmt} {n : Nat}

theorem isSymetric_val {A : Mat (Fl F) n n} (hA : ∀ i j, (A i j).Finite) (h : isSymetric A = .ok true) (i j : Fin n) :
    (A i j).val = (A j i).val := by
  obtain ⟨b, hb, h'⟩ := C36_isSymetric_pairs A
  rw [h] at hb
  cases hb
  have key : ∀ i j : Fin n, j < i → (A i j).val = (A j i).val := fun i j hij =>
    (Fl.eq_iff (hA i j) (hA j i)).mp (h'.mp rfl i j hij)
  rcases lt_trichotomy i j with hij | hij | hij
  · exact (key j i hij).symm
  · rw [hij]
  · exact key i j hij

/-- C128: `chol` succeeds on matrices that are positive definite by a few roundings, and the product of its result with
the transpose is close to the argument. -/
theorem C128_chol_accepts (A : Mat (Fl F) n n) (d : Fin n → ℝ) (hA : ∀ i j, (A i j).Finite)
    (hs : isSymetric A = .ok true) (hd : ∀ i, 0 < d i ∧ (A i i).val ≤ d i ^ 2)
    (hunder : ∀ i, n * F.eta ≤ F.u * d i ^ 2 ∧ F.eta ≤ F.u * d i)
    (hover : ∀ i, 2 * d i ≤ F.maxFinite ∧ 4 * d i ^ 2 ≤ F.maxFinite)
    (hpd : ∀ x : Fin n → ℝ, 6 * ((1 + F.u) ^ (n + 2) - 1) * (∑ i, |x i| * d i) ^ 2 ≤
      ∑ i, ∑ j, x i * (A i j).val * x j) :
    ∃ L, chol A = .ok L ∧ (∀ i j, (L i j).Finite) ∧ (∀ i, 0 < (L i i).val) ∧
      ∀ i j, |((L.map Fl.val) * (L.map Fl.val).transpose) i j - (A i j).val| ≤
        5 * ((1 + F.u) ^ (n + 2) - 1) * (d i * d j) := by
  obtain ⟨L, hL, hc⟩ := wp_total (Fl.wp_chol A)
  have h : Fl.CholPD A d := ⟨⟨isSymetric_val hA hs, fun i => (hd i).1, fun i => (hd i).2, fun i => (hunder i).1,
    fun i => (hunder i).2⟩, hA, fun i => (hover i).1, fun i => (hover i).2, hpd⟩
  have hr := Fl.all_rows h hc
  exact ⟨L, hL, fun i => (hr i).fin, fun i => (hr i).pos, fun i j =>
    Fl.factor_err h.toCholScale hc (hr i).toRowFin (hr j).toRowFin⟩

/-- C128: if all elements of the result are finite, the argument is positive definite up to a few roundings. -/
theorem C128_chol_finite (A : Mat (Fl F) n n) (d : Fin n → ℝ) (hA : ∀ i j, (A i j).Finite)
    (hs : isSymetric A = .ok true) (hd : ∀ i, 0 < d i ∧ (A i i).val ≤ d i ^ 2)
    (hunder : ∀ i, n * F.eta ≤ F.u * d i ^ 2 ∧ F.eta ≤ F.u * d i) (hn : 6 * ((1 + F.u) ^ (n + 2) - 1) ≤ 1) :
    ∃ L, chol A = .ok L ∧ ((∀ i j, (L i j).Finite) → ∀ x : Fin n → ℝ,
      -(5 * ((1 + F.u) ^ (n + 2) - 1) * (∑ i, |x i| * d i) ^ 2) ≤ ∑ i, ∑ j, x i * (A i j).val * x j) := by
  obtain ⟨L, hL, hc⟩ := wp_total (Fl.wp_chol A)
  exact ⟨L, hL, fun hf => Fl.finite_form ⟨isSymetric_val hA hs, fun i => (hd i).1, fun i => (hd i).2,
    fun i => (hunder i).1, fun i => (hunder i).2⟩ hn hc hf⟩

/-- C128: so a matrix that is far enough from being positive definite is not factored: the result has an infinite or
NaN element. -/
theorem C128_chol_rejects (A : Mat (Fl F) n n) (d : Fin n → ℝ) (hA : ∀ i j, (A i j).Finite)
    (hs : isSymetric A = .ok true) (hd : ∀ i, 0 < d i ∧ (A i i).val ≤ d i ^ 2)
    (hunder : ∀ i, n * F.eta ≤ F.u * d i ^ 2 ∧ F.eta ≤ F.u * d i) (hn : 6 * ((1 + F.u) ^ (n + 2) - 1) ≤ 1)
    (x : Fin n → ℝ) (hx : ∑ i, ∑ j, x i * (A i j).val * x j <
      -(5 * ((1 + F.u) ^ (n + 2) - 1) * (∑ i, |x i| * d i) ^ 2)) :
    ∃ L i j, chol A = .ok L ∧ ¬ (L i j).Finite := by
  obtain ⟨L, hL, h⟩ := C128_chol_finite A d hA hs hd hunder hn
  by_contra hcon
  refine absurd hx (not_lt.mpr (h (fun i j => ?_) x))
  by_contra hf
  exact hcon ⟨L, i, j, hL, hf⟩

/-- C128 in terms of the smallest eigenvalue: it is enough that it exceeds the largest diagonal element times the size
and a few roundings. -/
theorem C128_chol_eigenvalue (A : Mat (Fl F) n n) (D lam : ℝ) (hA : ∀ i j, (A i j).Finite) (hs : isSymetric A = .ok true)
    (hD : 0 < D) (hdiag : ∀ i, (A i i).val ≤ D ^ 2) (hunder : n * F.eta ≤ F.u * D ^ 2 ∧ F.eta ≤ F.u * D)
    (hover : 2 * D ≤ F.maxFinite ∧ 4 * D ^ 2 ≤ F.maxFinite)
    (hl : 6 * ((1 + F.u) ^ (n + 2) - 1) * n * D ^ 2 ≤ lam)
    (hpd : ∀ x : Fin n → ℝ, lam * ∑ i, x i ^ 2 ≤ ∑ i, ∑ j, x i * (A i j).val * x j) :
    ∃ L, chol A = .ok L ∧ (∀ i j, (L i j).Finite) ∧ (∀ i, 0 < (L i i).val) ∧
      ∀ i j, |((L.map Fl.val) * (L.map Fl.val).transpose) i j - (A i j).val| ≤
        5 * ((1 + F.u) ^ (n + 2) - 1) * D ^ 2 := by
  have hg := Fl.cholGamma_nonneg (F := F) (n := n)
  unfold Fl.cholGamma at hg
  have := C128_chol_accepts A (fun _ => D) hA hs (fun i => ⟨hD, hdiag i⟩) (fun _ => hunder) (fun _ => hover) fun x => by
    refine le_trans ?_ (hpd x)
    rw [← Finset.sum_mul, mul_pow]
    have h1 : (∑ i, |x i|) ^ 2 ≤ n * ∑ i, x i ^ 2 := by
      have := Finset.sum_mul_sq_le_sq_mul_sq Finset.univ (fun i => |x i|) (fun _ : Fin n => (1 : ℝ))
      simp only [mul_one, sq_abs, one_pow, Finset.sum_const, Finset.card_univ, Fintype.card_fin, nsmul_eq_mul] at this
      linarith
    have h0 : 0 ≤ ∑ i, x i ^ 2 := Finset.sum_nonneg fun i _ => sq_nonneg _
    calc 6 * ((1 + F.u) ^ (n + 2) - 1) * ((∑ i, |x i|) ^ 2 * D ^ 2)
        ≤ 6 * ((1 + F.u) ^ (n + 2) - 1) * ((n * ∑ i, x i ^ 2) * D ^ 2) :=
          mul_le_mul_of_nonneg_left (mul_le_mul_of_nonneg_right h1 (sq_nonneg D)) (by linarith)
      _ = 6 * ((1 + F.u) ^ (n + 2) - 1) * n * D ^ 2 * ∑ i, x i ^ 2 := by ring
      _ ≤ _ := mul_le_mul_of_nonneg_right hl h0
  simpa only [sq] using this

theorem dominant_form {A : Fin n → Fin n → ℝ} {lam : ℝ} (hs : ∀ i j, A i j = A j i)
    (h : ∀ i, lam + ∑ j, (if j = i then 0 else |A i j|) ≤ A i i) (x : Fin n → ℝ) :
    lam * ∑ i, x i ^ 2 ≤ ∑ i, ∑ j, x i * A i j * x j := by
  have h1 : ∀ i j, (if j = i then A i i * x i ^ 2 else 0) - (if j = i then 0 else |A i j| * ((x i ^ 2 + x j ^ 2) / 2)) ≤
      x i * A i j * x j := by
    intro i j
    split
    · next e =>
      subst e
      rw [sub_zero]
      exact le_of_eq (by ring)
    · have h2 := neg_abs_le (x i * A i j * x j)
      rw [abs_mul, abs_mul] at h2
      have h3 : |x i| * |x j| ≤ (x i ^ 2 + x j ^ 2) / 2 := by
        have := sq_nonneg (|x i| - |x j|)
        rw [sub_sq, sq_abs, sq_abs] at this
        linarith
      have h4 := mul_le_mul_of_nonneg_left h3 (abs_nonneg (A i j))
      nlinarith
  have h5 := Finset.sum_le_sum fun i (_ : i ∈ Finset.univ) => Finset.sum_le_sum fun j (_ : j ∈ Finset.univ) => h1 i j
  refine le_trans ?_ h5
  simp_rw [Finset.sum_sub_distrib]
  have e1 : (∑ i, ∑ j, if j = i then A i i * x i ^ 2 else 0) = ∑ i, A i i * x i ^ 2 :=
    Finset.sum_congr rfl fun i _ => by simp
  have e2 : (∑ i, ∑ j, if j = i then 0 else |A i j| * ((x i ^ 2 + x j ^ 2) / 2)) =
      ∑ i, (∑ j, if j = i then 0 else |A i j|) * x i ^ 2 := by
    have a1 : (∑ i, ∑ j, if j = i then 0 else |A i j| * ((x i ^ 2 + x j ^ 2) / 2)) =
        (∑ i, ∑ j, if j = i then 0 else |A i j| * (x i ^ 2 / 2)) + ∑ i, ∑ j, if j = i then 0 else |A i j| * (x j ^ 2 / 2) := by
      rw [← Finset.sum_add_distrib]
      refine Finset.sum_congr rfl fun i _ => ?_
      rw [← Finset.sum_add_distrib]
      refine Finset.sum_congr rfl fun j _ => ?_
      split
      · rw [add_zero]
      · ring
    have a2 : (∑ i, ∑ j, if j = i then 0 else |A i j| * (x j ^ 2 / 2)) =
        ∑ i, ∑ j, if j = i then 0 else |A i j| * (x i ^ 2 / 2) := by
      rw [Finset.sum_comm]
      refine Finset.sum_congr rfl fun i _ => Finset.sum_congr rfl fun j _ => ?_
      rw [hs j i]
      simp only [eq_comm]
    rw [a1, a2, ← Finset.sum_add_distrib]
    refine Finset.sum_congr rfl fun i _ => ?_
    rw [Finset.sum_mul, ← Finset.sum_add_distrib]
    refine Finset.sum_congr rfl fun j _ => ?_
    split
    · rw [add_zero, zero_mul]
    · ring
  rw [e1, e2, ← Finset.sum_sub_distrib, Finset.mul_sum]
  refine Finset.sum_le_sum fun i _ => ?_
  have := mul_le_mul_of_nonneg_right (h i) (sq_nonneg (x i))
  linarith

/-- C128 for diagonally dominant matrices. -/
theorem C128_chol_dominant (A : Mat (Fl F) n n) (D lam : ℝ) (hA : ∀ i j, (A i j).Finite) (hs : isSymetric A = .ok true)
    (hD : 0 < D) (hdiag : ∀ i, (A i i).val ≤ D ^ 2) (hunder : n * F.eta ≤ F.u * D ^ 2 ∧ F.eta ≤ F.u * D)
    (hover : 2 * D ≤ F.maxFinite ∧ 4 * D ^ 2 ≤ F.maxFinite)
    (hl : 6 * ((1 + F.u) ^ (n + 2) - 1) * n * D ^ 2 ≤ lam)
    (hdom : ∀ i, lam + ∑ j, (if j = i then 0 else |(A i j).val|) ≤ (A i i).val) :
    ∃ L, chol A = .ok L ∧ (∀ i j, (L i j).Finite) ∧ (∀ i, 0 < (L i i).val) ∧
      ∀ i j, |((L.map Fl.val) * (L.map Fl.val).transpose) i j - (A i j).val| ≤
        5 * ((1 + F.u) ^ (n + 2) - 1) * D ^ 2 :=
  C128_chol_eigenvalue A D lam hA hs hD hdiag hunder hover hl (dominant_form (isSymetric_val hA hs) hdom)

/-! ## Examples -/

theorem c128_small (z : Int) (h : z.natAbs ≤ 2 ^ 24 := by decide) :
    (Fl.ofInt z : Fl binary32).Finite ∧ (Fl.ofInt z : Fl binary32).val = z := Fl.val_ofInt_exact (F := binary32) z h

theorem binary32_max : (10 : ℝ) ^ 38 ≤ binary32.maxFinite := by
  unfold Fmt.maxFinite binary32
  norm_num

/-- A matrix whose factor is irrational. -/
def c128Example : Mat (Fl binary32) 3 3 :=
  !![.ofInt 4, .ofInt 1, .ofInt 0; .ofInt 1, .ofInt 4, .ofInt (-1); .ofInt 0, .ofInt (-1), .ofInt 4]

theorem c128Example_val : ∀ i j, (c128Example i j).Finite ∧
    (c128Example i j).val = (!![4, 1, 0; 1, 4, -1; 0, -1, 4] : Matrix (Fin 3) (Fin 3) ℝ) i j := by
  have h4 := c128_small 4
  have h1 := c128_small 1
  have h0 := c128_small 0
  have hm := c128_small (-1)
  norm_num at h4 h1 h0 hm
  intro i j
  fin_cases i <;> fin_cases j <;> simp [c128Example, h4, h1, h0, hm]

example : ∃ L, chol c128Example = .ok L ∧ (∀ i j, (L i j).Finite) ∧ (∀ i, 0 < (L i i).val) ∧
    ∀ i j, |((L.map Fl.val) * (L.map Fl.val).transpose) i j - (c128Example i j).val| ≤
      5 * ((1 + binary32.u) ^ (3 + 2) - 1) * 2 ^ 2 := by
  have hmax := binary32_max
  have hη := binary32_eta_le
  refine C128_chol_dominant c128Example 2 2 (fun i j => (c128Example_val i j).1) (by decide +kernel) two_pos
    (fun i => ?_) ⟨?_, ?_⟩ ⟨?_, ?_⟩ ?_ (fun i => ?_)
  · rw [(c128Example_val i i).2]
    fin_cases i <;> norm_num
  · rw [binary32_u]
    norm_num at hη ⊢
    linarith
  · rw [binary32_u]
    norm_num at hη ⊢
    linarith
  · linarith
  · linarith
  · rw [binary32_u]
    norm_num
  · simp only [(c128Example_val _ _).2]
    fin_cases i <;> simp [Fin.sum_univ_three] <;> norm_num

/-- A matrix that is not positive definite, although its diagonal is positive. -/
def c128Bad : Mat (Fl binary32) 2 2 := !![.ofInt 1, .ofInt 2; .ofInt 2, .ofInt 1]

theorem c128Bad_val : ∀ i j, (c128Bad i j).Finite ∧
    (c128Bad i j).val = (!![1, 2; 2, 1] : Matrix (Fin 2) (Fin 2) ℝ) i j := by
  have h2 := c128_small 2
  have h1 := c128_small 1
  norm_num at h2 h1
  intro i j
  fin_cases i <;> fin_cases j <;> simp [c128Bad, h2, h1]

example : ∃ L i j, chol c128Bad = .ok L ∧ ¬ (L i j).Finite := by
  have hη := binary32_eta_le
  refine C128_chol_rejects c128Bad (fun _ => 2) (fun i j => (c128Bad_val i j).1) (by decide +kernel)
    (fun i => ⟨two_pos, ?_⟩) (fun i => ⟨?_, ?_⟩) ?_ ![1, -1] ?_
  · rw [(c128Bad_val i i).2]
    fin_cases i <;> norm_num
  · rw [binary32_u]
    norm_num at hη ⊢
    linarith
  · rw [binary32_u]
    norm_num at hη ⊢
    linarith
  · rw [binary32_u]
    norm_num
  · simp only [(c128Bad_val _ _).2, binary32_u]
    simp [Fin.sum_univ_two]
    norm_num

end MatrixLibs
