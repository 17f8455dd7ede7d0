import Verif.Proof.FloatLuDom
import Verif.Props.FloatFactor
import Verif.Props.FloatDominant

/-!
# Property C130: LU factors of floating point matrices with dominant columns
-/

namespace MatrixLibs

set_option linter.unusedSectionVars false

variable {F : Fmt} {n : Nat}

/-- In every column the diagonal element exceeds the sum of the others by at least `μ`, the sum of the whole column is at
most `C`, `μ` is large compared with the rounding errors, and `C` is not near the limit of the format. -/
structure ColDominant (A : Mat (Fl F) n n) (C μ : ℝ) : Prop where
  finite : ∀ i j, (A i j).Finite
  pos : 0 < μ
  cols : ∀ j, ∑ i, |(A i j).val| ≤ C
  dominant : ∀ j, ∑ i ∈ Finset.univ.erase j, |(A i j).val| + μ ≤ |(A j j).val|
  accuracy : 4 * (n + 1) * luEps F n C ≤ μ
  range : 4 * (n + 1) * C ≤ F.maxFinite

theorem ColDominant.hyp {A : Mat (Fl F) n n} {C μ : ℝ} (h : ColDominant A C μ) : ColHyp A C μ where
  fin := h.finite
  pos := h.pos
  col j := by
    rw [offSum_zero, add_comm, Finset.sum_erase_add _ _ (Finset.mem_univ j)]
    exact h.cols j
  dom j := by
    rw [offSum_zero, add_comm]
    exact h.dominant j
  small := h.accuracy
  max := h.range

/-- C130: `lu` of a matrix with dominant columns returns finite factors of bounded elements: below the diagonal of each
column of `L` the magnitudes add up to at most 1, so no pivoting would have been better; no element of `U` exceeds twice
the largest sum of a column; the pivots are at least half the dominance, with the signs of the diagonal of `A`; and the
product of the factors is `A` up to `luEps`. -/
theorem C130_lu (A : Mat (Fl F) n n) (C μ : ℝ) (h : ColDominant A C μ) :
    ∃ L U, lu A = .ok (L, U) ∧ (∀ i j, (L i j).Finite ∧ |(L i j).val| ≤ 1) ∧
      (∀ j, ∑ i ∈ Finset.univ.filter (j < ·), |(L i j).val| ≤ 1) ∧
      (∀ i j, (U i j).Finite ∧ |(U i j).val| ≤ 2 * C) ∧
      (∀ j, μ / 2 ≤ |(U j j).val| ∧ 0 < (U j j).val * (A j j).val) ∧
      ∀ i j, |((L.map Fl.val) * (U.map Fl.val)) i j - (A i j).val| ≤ luEps F n C := by
  obtain ⟨⟨L, U⟩, hlu, hc, hok⟩ := wp_total (wp_lu_dom h.hyp)
  dsimp only at hc hok
  have hLf : ∀ i j, (L i j).Finite := fun i j => (hok j).Lfin i
  have hUf : ∀ i j, (U i j).Finite := fun i j => (hok j).Ufin i
  have hL1 : ∀ i j, |(L i j).val| ≤ 1 := fun i j => by
    rcases lt_trichotomy i j with hi | hi | hi
    · rw [hc.Lupper i j hi, Fl.zero_val, abs_zero]
      exact zero_le_one
    · subst hi
      rw [Fl.lu_diag hc hUf i, abs_one]
    · exact (hok j).le_one hi
  refine ⟨L, U, hlu, fun i j => ⟨hLf i j, hL1 i j⟩, fun j => ?_, fun i j => ⟨hUf i j, (hok j).Ubound i⟩,
    fun j => ⟨(hok j).piv, (hok j).sgn⟩, fun i j => ?_⟩
  · refine le_trans (le_of_eq ?_) (hok j).Lsum
    rw [Finset.sum_filter]
    unfold offSum
    refine Finset.sum_congr rfl fun i _ => if_congr ?_ rfl rfl
    rw [lt_iff_le_and_ne, Fin.le_def]
    exact and_congr_right fun _ => ne_comm
  · obtain ⟨-, -, -, hb⟩ := C74_lu_backward A L U hlu hLf hUf
    refine (hb i j).trans ?_
    have hC := h.hyp.C_pos i
    have hX : ∑ k, |(L i k).val| * |(U k j).val| ≤ n * (2 * C) := by
      have : ∑ k, |(L i k).val| * |(U k j).val| ≤ ∑ _k : Fin n, 2 * C := by
        refine Finset.sum_le_sum fun k _ => ?_
        have := mul_le_mul (hL1 i k) ((hok j).Ubound k) (abs_nonneg _) zero_le_one
        linarith
      rwa [Finset.sum_const, Finset.card_univ, Fintype.card_fin, nsmul_eq_mul] at this
    have h1 := mul_le_mul_of_nonneg_left hX (ColHyp.gamma_nonneg F n)
    have hη := Fl.eta_nonneg F
    have hp := Fl.one_add_u_pow F n
    have h2 : (n + |(U j j).val|) * (1 + F.u) ^ n * F.eta ≤ (n + 2 * C) * (1 + F.u) ^ n * F.eta := by
      have := (hok j).Ubound j
      gcongr
    have h3 := (h.hyp.scale i).2.2.2.2
    linarith

/-- The product of the diagonal of `U` has the sign of the product of the diagonal of `A`. -/
theorem C130_lu_sign (A : Mat (Fl F) n n) (C μ : ℝ) (h : ColDominant A C μ) :
    ∃ L U, lu A = .ok (L, U) ∧ 0 < (∏ j, (U j j).val) * ∏ j, (A j j).val := by
  obtain ⟨L, U, h1, -, -, -, h2, -⟩ := C130_lu A C μ h
  exact ⟨L, U, h1, prod_signs _ _ _ fun j _ => (h2 j).2⟩

/-! ## An example -/

def c130Int : Matrix (Fin 3) (Fin 3) ℤ := !![7, 1, -2; 2, -8, 2; -1, 3, 9]

def c130Example : Mat (Fl binary32) 3 3 := c130Int.map Fl.ofInt

theorem c130_dominant : ColDominant c130Example 13 4 := by
  have hs : ∀ i j, (c130Int i j).natAbs ≤ 2 ^ 24 := by decide +kernel
  have hv : ∀ i j, (c130Example i j).Finite ∧ (c130Example i j).val = c130Int i j := fun i j =>
    Fl.val_ofInt_exact (F := binary32) _ (hs i j)
  have hη := binary32_eta_le
  have hη0 := Fl.eta_nonneg binary32
  have hmax := binary32_max
  refine ⟨fun i j => (hv i j).1, by norm_num, fun j => ?_, fun j => ?_, ?_, ?_⟩
  · have : ∀ j, ∑ i, |c130Int i j| ≤ 13 := by decide +kernel
    have := this j
    have e : ∑ i, |(c130Example i j).val| = ((∑ i, |c130Int i j| : ℤ) : ℝ) := by
      push_cast
      exact Finset.sum_congr rfl fun i _ => by rw [(hv i j).2]
    rw [e]
    exact_mod_cast this
  · have : ∀ j, ∑ i ∈ Finset.univ.erase j, |c130Int i j| + 4 ≤ |c130Int j j| := by decide +kernel
    have := this j
    have e : ∑ i ∈ Finset.univ.erase j, |(c130Example i j).val| = ((∑ i ∈ Finset.univ.erase j, |c130Int i j| : ℤ) : ℝ) := by
      push_cast
      exact Finset.sum_congr rfl fun i _ => by rw [(hv i j).2]
    rw [e, (hv j j).2]
    exact_mod_cast this
  · unfold luEps
    rw [binary32_u]
    norm_num at hη ⊢
    linarith
  · norm_num at hmax ⊢
    linarith

example : ∃ L U, lu c130Example = .ok (L, U) ∧
    ∀ i j, |((L.map Fl.val) * (U.map Fl.val)) i j - (c130Example i j).val| ≤ luEps binary32 3 13 := by
  obtain ⟨L, U, h1, -, -, -, -, h2⟩ := C130_lu c130Example 13 4 c130_dominant
  exact ⟨L, U, h1, h2⟩

end MatrixLibs
