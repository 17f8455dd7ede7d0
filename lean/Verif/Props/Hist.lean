import Verif.Proof.Hist
import Verif.Proof.Movement
import Verif.Spec.Order
import Mathlib.LinearAlgebra.Matrix.Notation

/-!
# Properties C52–C54: histograms

The result, a `std::map`, is the list of its entries in iteration order.
`i * j < 2^64` says that the matrix exists: its size is a `std::size_t`.
-/

namespace MatrixLibs

set_option linter.unusedSectionVars false

section
variable {T : Type} [Inhabited T] [CScalar T] [LinearOrder T] [OrderedScalar T] {i j : Nat}

/-- C52: `histogram(A)` maps every value occurring in `A` to its number of occurrences and has no
other entry; its keys are strictly increasing in iteration order. -/
theorem C52_histogram (A : Mat T i j) (hij : i * j < 2 ^ 64) :
    ∃ h, histogram A = .ok h ∧ h.Pairwise (fun p q => p.1 < q.1) ∧
      ∀ x n, (x, n) ∈ h ↔ n = numElems A (· = x) ∧ ∃ a b, A a b = x := by
  obtain ⟨h, hh, hH⟩ := wp_total (histogram_isHist OrderedScalar.lt_iff A hij)
  refine ⟨h, hh, hH.sorted, fun x n => ?_⟩
  rw [hH.mem, numElems_count, ← mem_rowMajor]
  constructor
  · rintro ⟨rfl, h0⟩
    exact ⟨rfl, List.count_pos_iff.mp h0⟩
  · rintro ⟨rfl, hx⟩
    exact ⟨rfl, List.count_pos_iff.mpr hx⟩

/-- C52: the counts add up to the number of elements. -/
theorem C52_histogram_total (A : Mat T i j) (hij : i * j < 2 ^ 64) :
    ∃ h, histogram A = .ok h ∧ (h.map Prod.snd).sum = i * j := by
  obtain ⟨h, hh, hH⟩ := wp_total (histogram_isHist OrderedScalar.lt_iff A hij)
  refine ⟨h, hh, ?_⟩
  have := hH.sum (fun _ => true)
  unfold countSum at this
  rwa [List.filter_true, List.countP_true, rowMajor_length] at this

/-- C52: and over the keys with any property to the number of elements with that property. -/
theorem C52_histogram_count (A : Mat T i j) (hij : i * j < 2 ^ 64) (p : T → Prop)
    [DecidablePred p] :
    ∃ h, histogram A = .ok h ∧
      ((h.filter fun q => decide (p q.1)).map Prod.snd).sum = numElems A p := by
  obtain ⟨h, hh, hH⟩ := wp_total (histogram_isHist OrderedScalar.lt_iff A hij)
  refine ⟨h, hh, ?_⟩
  have := hH.sum (fun x => decide (p x))
  rwa [← numElems_countP] at this

/-- Three values, one of them twice. -/
example : histogram (!![3, 1; 3, 2] : Mat ℚ 2 2) = .ok [(1, 1), (2, 1), (3, 2)] := by
  decide +kernel

/-- C53: `cumulative_histogram(A)` has the keys of `histogram(A)` and maps each to the number of
elements not greater than it. -/
theorem C53_cumulative (A : Mat T i j) (hij : i * j < 2 ^ 64) :
    ∃ h c, histogram A = .ok h ∧ cumulative_histogram A = .ok c ∧
      c.map Prod.fst = h.map Prod.fst ∧ ∀ x n, (x, n) ∈ c → n = numElems A (· ≤ x) := by
  obtain ⟨h, hh, hH, hc⟩ := cumulative_ok OrderedScalar.lt_iff A hij
  refine ⟨h, _, hh, hc, running_keys OrderedScalar.lt_iff h 0, fun x n hm => ?_⟩
  rw [running_mem OrderedScalar.lt_iff h 0 x n hH.sorted hm, Nat.zero_add, hH.sum,
    numElems_countP]

/-- C53: its keys are strictly increasing, its values non-decreasing. -/
theorem C53_cumulative_monotone (A : Mat T i j) (hij : i * j < 2 ^ 64) :
    ∃ c, cumulative_histogram A = .ok c ∧
      c.Pairwise (fun p q => p.1 < q.1 ∧ p.2 ≤ q.2) := by
  obtain ⟨h, hh, hH, hc⟩ := cumulative_ok OrderedScalar.lt_iff A hij
  obtain ⟨-, c, -, hc', -, hval⟩ := C53_cumulative A hij
  rw [hc] at hc'
  cases hc'
  refine ⟨_, hc, ?_⟩
  have hs : (running 0 h).Pairwise (fun p q => p.1 < q.1) := by
    rw [← List.pairwise_map (R := (· < ·)), running_keys OrderedScalar.lt_iff, List.pairwise_map]
    exact hH.sorted
  refine List.Pairwise.imp_of_mem ?_ hs
  rintro ⟨x, n⟩ ⟨y, m⟩ hx hy hxy
  refine ⟨hxy, ?_⟩
  dsimp only at *
  rw [hval x n hx, hval y m hy]
  unfold numElems
  refine Finset.card_le_card ?_
  intro q hq
  rw [Finset.mem_filter] at *
  exact ⟨hq.1, hq.2.trans hxy.le⟩

/-- C53: the largest key has the number of all elements. -/
theorem C53_cumulative_last (A : Mat T i j) (hij : i * j < 2 ^ 64) :
    ∃ c, cumulative_histogram A = .ok c ∧
      ∀ x n, (x, n) ∈ c → (∀ a b, A a b ≤ x) → n = i * j := by
  obtain ⟨-, c, -, hc, -, hval⟩ := C53_cumulative A hij
  refine ⟨c, hc, fun x n hm hx => ?_⟩
  rw [hval x n hm, numElems_countP, ← rowMajor_length A, List.countP_eq_length]
  intro y hy
  obtain ⟨a, b, rfl⟩ := (mem_rowMajor A y).mp hy
  exact decide_eq_true (hx a b)

/-- The same matrix: the counts accumulate to the number of elements. -/
example : cumulative_histogram (!![3, 1; 3, 2] : Mat ℚ 2 2) = .ok [(1, 1), (2, 2), (3, 4)] := by
  decide +kernel

/-- C54: the histograms do not depend on the arrangement of the elements. -/
theorem C54_rearranged {i' j' : Nat} (A : Mat T i j) (B : Mat T i' j') (h : Rearranged A B)
    (hij : i * j < 2 ^ 64) :
    histogram A = histogram B ∧ cumulative_histogram A = cumulative_histogram B := by
  obtain ⟨e, he⟩ := h
  have hcard : i * j = i' * j' := by
    have := Fintype.card_congr e
    simpa using this
  obtain ⟨h1, hh1, hH1, hc1⟩ := cumulative_ok OrderedScalar.lt_iff A hij
  obtain ⟨h2, hh2, hH2, hc2⟩ := cumulative_ok OrderedScalar.lt_iff B (hcard ▸ hij)
  have := isHist_unique OrderedScalar.lt_iff _ _ h1 h2 (rowMajor_perm A B e he) hH1 hH2
  rw [hh1, hh2, hc1, hc2, this]
  exact ⟨rfl, rfl⟩

/-- C54: for example, transposing does not change them. -/
theorem C54_trans (A : Mat T i j) (C : Mat T j i) (hC : trans A = .ok C)
    (hij : i * j < 2 ^ 64) :
    histogram C = histogram A ∧ cumulative_histogram C = cumulative_histogram A := by
  rw [trans_ok] at hC
  cases hC
  obtain ⟨h1, h2⟩ := C54_rearranged A A.transpose ⟨Equiv.prodComm _ _, fun q => rfl⟩ hij
  exact ⟨h1.symm, h2.symm⟩

end

example : histogram (!![3, 1; 1, 2] : Mat (BitVec 32) 2 2) = .ok [(1, 2), (2, 1), (3, 1)] := by
  decide +kernel
example : cumulative_histogram (!![3, 1; 1, 2] : Mat (BitVec 32) 2 2) =
    .ok [(1, 2), (2, 3), (3, 4)] := by decide +kernel
example : histogram (!![3, 1; -1, 1/2] : Mat ℚ 2 2) =
    .ok [(-1, 1), (1/2, 1), (1, 1), (3, 1)] := by decide +kernel
example : Rearranged (!![1, 2; 3, 4] : Mat ℚ 2 2) !![1, 3; 2, 4] :=
  ⟨Equiv.prodComm _ _, by simp [Fin.forall_fin_two]⟩

end MatrixLibs
