import Verif.Proof.FloatElim
import Verif.Props.FloatFactor

/-!
# Backward stability of the floating point determinant (C101)
-/

namespace MatrixLibs

set_option linter.unusedSectionVars false

variable {F : Fmt} {n : Nat}

/-- C101: for `n ≥ 4`, if no element exceeds `G` in magnitude during the elimination and no pivot is below `m`,
then a finite result of `det` is, up to the rounding of one product, the exact determinant of a matrix that
differs from `A` by at most `7 n u G` (and the effect of underflow) in each element. -/
theorem C101_det_backward (hn : 4 ≤ n) (A : Mat (Fl F) n n) (G m : ℝ) (hm : 0 < m)
    (hG : ∀ k σ S, ElimSteps A k σ S → ∀ i j, (S i j).Finite ∧ |(S i j).val| ≤ G)
    (hpiv : ∀ k σ S, ElimSteps A k σ S → ∀ i : Fin n, i.val < k → m ≤ |(S i i).val|) :
    ∃ d, det A = .ok d ∧ (d.Finite → ∃ E : Matrix (Fin n) (Fin n) ℝ,
      (∀ i j, |E i j| ≤ n * (7 * F.u * G + (2 + 1 / m) * F.eta)) ∧
      |d.val - (A.map Fl.val + E).det| ≤ ((1 + F.u) ^ n - 1) * |(A.map Fl.val + E).det| +
        n * ((1 + F.u) ^ n * (max 1 G) ^ n * F.eta)) := by
  have hu := Fl.u_nonneg F
  have he := Fl.eta_nonneg F
  have h0 : 0 < n := by omega
  have hG0 : 0 ≤ G := (abs_nonneg _).trans (hG 0 1 A .start ⟨0, h0⟩ ⟨0, h0⟩).2
  have hε : 0 ≤ 7 * F.u * G + (2 + 1 / m) * F.eta := by positivity
  rw [det_general A hn]
  obtain ⟨d, hd, hp⟩ := wp_total (Fl.wp_detN_elim A)
  refine ⟨d, hd, fun hf => ?_⟩
  have key : ∀ k σ S, ElimSteps A k σ S → ∃ E : Matrix (Fin n) (Fin n) ℝ,
      (∀ i j, |E i j| ≤ n * (7 * F.u * G + (2 + 1 / m) * F.eta)) ∧
      (S.map Fl.val).det = σ * (A.map Fl.val + E).det := by
    intro k σ S hS
    obtain ⟨E, h1, h2⟩ := hS.det_eq hm hG0 hG hpiv 0 0 (fun _ _ _ => rfl) (fun i j => by simp)
    refine ⟨E, fun i j => ?_, by rw [add_zero] at h2; exact h2⟩
    refine (h1 i j).trans ?_
    rw [zero_add]
    exact mul_le_mul_of_nonneg_right (by exact_mod_cast hS.le) hε
  rcases hp with ⟨σ, S, hS, f, B, hff, hfv, rfl, rfl⟩ | ⟨hz, q, σ, S, hS, hq⟩
  · obtain ⟨E, h1, h2⟩ := key _ _ _ hS
    refine ⟨E, h1, ?_⟩
    have hσ : (σ : ℝ) = 1 ∨ (σ : ℝ) = -1 := by
      rcases hS.sign with h | h <;> rw [h] <;> simp
    have hfin := Fl.div_finite_left hf
    have ht := (Fl.dprod_tracks S (le_max_left 1 G)
      (fun i => ((hG _ _ _ hS i i).2).trans (le_max_right 1 G)) hfin).err
    rw [(Fl.div_sign hfin hff hfv hσ).2]
    rw [← hS.det_diag, h2] at ht
    have e1 : |(σ : ℝ) * (A.map Fl.val + E).det| = |(A.map Fl.val + E).det| := by
      rcases hσ with h | h <;> rw [h] <;> simp
    have e2 : |(σ : ℝ) * (Fl.dprod S).val - (A.map Fl.val + E).det| =
        |(Fl.dprod S).val - σ * (A.map Fl.val + E).det| := by
      rcases hσ with h | h <;> rw [h]
      · simp
      · rw [← abs_neg]; congr 1; ring
    rw [e2]
    rw [e1] at ht
    exact ht
  · obtain ⟨E, h1, h2⟩ := key _ _ _ hS
    rw [hS.det_zero q rfl hq] at h2
    have h3 : (A.map Fl.val + E).det = 0 := by
      rcases hS.sign with h | h <;> rw [h] at h2 <;> simpa using h2.symm
    refine ⟨E, h1, ?_⟩
    rw [h3, hz hf, sub_zero, abs_zero, mul_zero, zero_add]
    positivity

/-- A matrix with an exchange of rows. -/
def c101Example : Mat (Fl binary32) 4 4 :=
  !![Fl.ofInt 0, Fl.ofInt 2, Fl.ofInt 1, Fl.ofInt 3;
     Fl.ofInt 2, Fl.ofInt 1, Fl.ofInt 0, Fl.ofInt 1;
     Fl.ofInt 4, Fl.ofInt 4, Fl.ofInt 5, Fl.ofInt (-1);
     Fl.ofInt 2, Fl.ofInt 5, Fl.ofInt 2, Fl.ofInt 8]

/-- The hypotheses hold for it: the elements stay below 9, the pivots above 1. -/
theorem c101Example_bounds : ∀ k σ S, ElimSteps c101Example k σ S →
    (∀ i j, (S i j).Finite ∧ |(S i j).val| ≤ 9) ∧ ∀ i : Fin 4, i.val < k → 1 ≤ |(S i i).val| := by
  have hv : ∀ z : Int, z.natAbs ≤ 9 → (Fl.ofInt z : Fl binary32).Finite ∧ (Fl.ofInt z : Fl binary32).val = z := by
    intro z hz
    exact Fl.val_ofInt_exact (F := binary32) z (hz.trans (by decide))
  have hrun : ∀ k : Fin 5, ∀ x ∈ elimRun c101Example k.val,
      (∀ i j, ∃ z ∈ Finset.Icc (-9 : Int) 9, x.2 i j = Fl.ofInt z) ∧
      ∀ i : Fin 4, i.val < k.val → ∃ z ∈ Finset.Icc (-9 : Int) 9, z ≠ 0 ∧ x.2 i i = Fl.ofInt z := by
    decide +kernel
  intro k σ S hS
  have hk := hS.le
  obtain ⟨h1, h2⟩ := hrun ⟨k, by omega⟩ (σ, S) hS.run
  refine ⟨fun i j => ?_, fun i hi => ?_⟩
  · obtain ⟨z, hz, e⟩ := h1 i j
    rw [Finset.mem_Icc] at hz
    dsimp only at e
    rw [e, (hv z (by omega)).2]
    refine ⟨(hv z (by omega)).1, ?_⟩
    rw [abs_le]
    exact ⟨by exact_mod_cast hz.1, by exact_mod_cast hz.2⟩
  · obtain ⟨z, hz, h0, e⟩ := h2 i hi
    rw [Finset.mem_Icc] at hz
    dsimp only at e
    rw [e, (hv z (by omega)).2]
    have : (1 : Int) ≤ |z| := Int.one_le_abs h0
    exact_mod_cast this

example : det c101Example = .ok (Fl.ofInt (-16)) := by decide +kernel

end MatrixLibs
