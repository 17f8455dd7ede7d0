import Verif.Proof.Alloc
import Mathlib.Data.List.Sort
import Mathlib.LinearAlgebra.Matrix.Notation

/-!
# C144: dynamic memory of `median`, `histogram` and `cumulative_histogram`

Every request for memory is granted or refused by an arbitrary `grant`.
-/

namespace MatrixLibs

set_option linter.unusedSectionVars false

variable {T : Type} [Inhabited T] [CScalar T] {i j : Nat}

open NodeMap

/-- The blocks in use have been requested. -/
def Heap.Valid (h : Heap) : Prop := ∀ b ∈ h.used, b < h.log.length

/-- In `h'` the map `m` owns blocks of its own, and everything in use apart from them was in use in `h`. -/
structure Owns (m : NodeMap T) (h h' : Heap) : Prop where
  used : h'.used = h.used ∪ m.blocks.toFinset
  apart : Disjoint h.used m.blocks.toFinset
  nodup : m.blocks.Nodup
  bad : h'.bad = h.bad

/-- The function behaves as if nothing had been requested: what was in use still is, nothing else is, and only blocks in
use were released. Meanwhile requests of the sizes `sizes` were made. -/
structure Clean (sizes : List Nat) (h h' : Heap) : Prop where
  used : h'.used = h.used
  log : h'.log = sizes.reverse ++ h.log
  bad : h'.bad = h.bad

theorem Heap.Valid.disjoint {h : Heap} (hv : h.Valid) (q : Nat) (n : Nat) (hn : h.log.length ≤ n) :
    Disjoint h.used (fresh n q) := by
  rw [Finset.disjoint_left]
  intro b hb hb'
  have := hv b hb
  have := (List.mem_range'_1.mp (List.mem_toFinset.mp hb')).1
  omega

/-! ## `median` -/

/-- `median` makes one request, for all the elements, and releases the block whether it returns or throws. A refused
request makes it throw `std::bad_alloc`. -/
theorem C144_median (grow : Nat → Nat) (grant : Nat → Bool) (sort : List T → List T) (A : Mat T i j) (h : Heap)
    (hv : h.Valid) (h0 : i * j ≠ 0) :
    (grant h.log.length = true → (medianMem grow grant sort A h).1 = median sort A ∧
      (((∃ x, median sort A = .ok x) ∨ ∃ e, median sort A = .error (.throws e)) →
        Clean [i * j] h (medianMem grow grant sort A h).2)) ∧
    (grant h.log.length = false → (medianMem grow grant sort A h).1 = .error (.throws badAlloc) ∧
      Clean [i * j] h (medianMem grow grant sort A h).2) := by
  constructor
  · intro hg
    obtain ⟨v, e⟩ := median_mem grow grant sort A h h0 hg
    unfold medianMem
    rw [e]
    dsimp only
    have hn : h.log.length ∉ h.used := fun hb => absurd (hv _ hb) (lt_irrefl _)
    have hd : Vec.destroy (⟨some (h.log.length, i * j), v⟩ : Vec T) ⟨insert h.log.length h.used, i * j :: h.log, h.bad⟩ =
        ⟨h.used, i * j :: h.log, h.bad⟩ := by
      unfold Vec.destroy release
      dsimp only
      rw [if_pos (Finset.mem_insert_self _ _), Finset.erase_insert hn]
    refine ⟨?_, ?_⟩
    · unfold unwind
      split <;> simp_all
    · rintro (⟨x, hx⟩ | ⟨x, hx⟩)
      · rw [hx]
        unfold unwind
        dsimp only
        rw [hd]
        exact ⟨rfl, rfl, rfl⟩
      · rw [hx]
        unfold unwind
        dsimp only
        rw [hd]
        exact ⟨rfl, rfl, rfl⟩
  · intro hg
    have e : medianBody grow grant sort A (h, ⟨none, []⟩) =
        (.error (.throws badAlloc), ⟨h.used, i * j :: h.log, h.bad⟩, ⟨none, []⟩) := by
      unfold medianBody
      dsimp only
      refine run_error (x := Vec.reserve grant (i * j)) ?_
      unfold Vec.reserve
      dsimp only
      rw [if_pos (show Vec.capacity (⟨none, []⟩ : Vec T) < i * j from Nat.pos_of_ne_zero h0)]
      unfold Vec.reallocate request
      dsimp only
      rw [if_neg (by rw [hg]; decide)]
    unfold medianMem
    rw [e]
    exact ⟨rfl, rfl, rfl, rfl⟩

/-- A matrix without elements needs no memory. -/
theorem C144_median_empty (grow : Nat → Nat) (grant : Nat → Bool) (sort : List T → List T) (A : Mat T i j) (h : Heap)
    (h0 : i * j = 0) : medianMem grow grant sort A h = (median sort A, h) := by
  have hr : rowMajor A = [] := List.eq_nil_of_length_eq_zero (by rw [rowMajor_length, h0])
  have e : ∃ v, medianBody grow grant sort A (h, ⟨none, []⟩) = (median sort A, h, ⟨none, v⟩) := by
    unfold medianBody
    dsimp only
    have e1 : (Vec.reserve grant (i * j) : Run (Heap × Vec T) Unit) (h, ⟨none, []⟩) = (.ok (), h, ⟨none, []⟩) := by
      unfold Vec.reserve
      dsimp only
      rw [if_neg (show ¬ Vec.capacity (⟨none, []⟩ : Vec T) < i * j by rw [h0]; exact Nat.not_lt_zero _)]
    rw [run_ok e1, runElems, hr]
    obtain ⟨v, e⟩ := median_rest sort A h ⟨none, []⟩ hr.symm
    exact ⟨v, (run_ok (x := pure ()) (s' := (h, (⟨none, []⟩ : Vec T))) rfl).trans e⟩
  obtain ⟨v, e⟩ := e
  unfold medianMem
  rw [e]
  dsimp only
  unfold unwind
  split <;> rfl

/-- Three elements, 7 blocks requested before, of which one is in use. -/
example : (medianMem (fun c => 2 * c) (fun _ => true) (List.insertionSort (· ≤ ·)) (!![5, 1, 3] : Mat ℚ 1 3)
    ⟨{2}, [1, 1, 1, 1, 1, 1, 1], false⟩).1 = .ok 3 ∧
    (medianMem (fun c => 2 * c) (fun k => k != 7) (List.insertionSort (· ≤ ·)) (!![5, 1, 3] : Mat ℚ 1 3)
    ⟨{2}, [1, 1, 1, 1, 1, 1, 1], false⟩).1 = .error (.throws badAlloc) := by
  constructor <;> decide +kernel

/-- Without `reserve` the vector would have grown step by step: `push_back` can also be refused. -/
example : (Vec.push_back (fun c => 2 * c) (fun k => k != 7) (3 : ℚ) (⟨{2}, [1, 1, 1, 1, 1, 1, 1], false⟩, ⟨some (2, 1), [5]⟩)).1 =
    .error (.throws badAlloc) := by
  decide +kernel

/-! ## `histogram` -/

/-- `histogram` makes one request for each entry of its result. If all are granted, it returns the histogram, which
owns those blocks. -/
theorem C144_histogram (grant : Nat → Bool) (A : Mat T i j) (h : Heap) (hv : h.Valid) (t : SizeMap T)
    (ht : histogram A = .ok t) (hg : ∀ q < t.length, grant (h.log.length + q) = true) :
    ∃ m h', histogramMem grant A h = (.ok m, h') ∧ m.entries = t ∧ h'.log = List.replicate t.length 1 ++ h.log ∧
      Owns m h h' := by
  have hA : StrictWeak A := by
    by_contra hA
    unfold histogram at ht
    rw [if_neg hA] at ht
    exact absurd ht (by simp)
  rw [histogram_ops A hA] at ht
  cases ht
  obtain ⟨m, r1, r2, r3⟩ := (run_fresh grant (histOps A) h).1 hg
  have hl : (applyAll ([] : SizeMap T) (histOps A)).length = m.length := by
    rw [← r2]; exact List.length_map _
  have hs : m.blocks.toFinset = fresh h.log.length m.length := by
    ext x
    rw [List.mem_toFinset, List.mem_toFinset, r3.mem_iff]
  refine ⟨m, ⟨h.used ∪ fresh h.log.length m.length, List.replicate m.length 1 ++ h.log, h.bad⟩, ?_, r2, ?_, ?_⟩
  · unfold histogramMem
    rw [if_pos hA, histogramBody_eq, r1]
  · rw [hl]
  · exact ⟨by rw [hs], by rw [hs]; exact hv.disjoint _ _ le_rfl, r3.nodup_iff.mpr (List.nodup_range' (step := 1)), rfl⟩

/-- If a request is refused, `histogram` throws `std::bad_alloc` and nothing it requested remains in use. -/
theorem C144_histogram_refused (grant : Nat → Bool) (A : Mat T i j) (h : Heap) (hv : h.Valid) (t : SizeMap T)
    (ht : histogram A = .ok t) (q : Nat) (hq : q < t.length) (hg : ∀ q' < q, grant (h.log.length + q') = true)
    (hno : grant (h.log.length + q) = false) :
    ∃ h', histogramMem grant A h = (.error (.throws badAlloc), h') ∧ Clean (List.replicate (q + 1) 1) h h' := by
  have hA : StrictWeak A := by
    by_contra hA
    unfold histogram at ht
    rw [if_neg hA] at ht
    exact absurd ht (by simp)
  rw [histogram_ops A hA] at ht
  cases ht
  obtain ⟨m, r1, r3⟩ := (run_fresh grant (histOps A) h).2 q hq hg hno
  refine ⟨⟨h.used, List.replicate (q + 1) 1 ++ h.log, h.bad⟩, ?_, ?_⟩
  · unfold histogramMem
    rw [if_pos hA, histogramBody_eq, r1]
    show (_, m.destroy _) = _
    rw [destroy_eq m _ _ _ _ _ r3 (hv.disjoint _ _ le_rfl)]
  · exact ⟨rfl, by rw [List.reverse_replicate], rfl⟩

/-- Two different values in three elements. -/
example : (histogramMem (fun _ => true) (!![5, 1, 5] : Mat ℚ 1 3) ⟨{2}, [1, 1, 1, 1, 1, 1, 1], false⟩).1 =
      .ok [(1, 1, 8), (5, 2, 7)] ∧
    (histogramMem (fun k => k != 8) (!![5, 1, 5] : Mat ℚ 1 3) ⟨{2}, [1, 1, 1, 1, 1, 1, 1], false⟩).1 =
      .error (.throws badAlloc) ∧
    (histogramMem (fun k => k != 9) (!![5, 1, 5] : Mat ℚ 1 3) ⟨{2}, [1, 1, 1, 1, 1, 1, 1], false⟩).1 =
      .ok [(1, 1, 8), (5, 2, 7)] := by
  refine ⟨?_, ?_, ?_⟩ <;> decide +kernel

/-- The caller who destroys the map gets back the memory they started from. -/
theorem C144_destroy (m : NodeMap T) (h h' : Heap) (hm : Owns m h h') : m.destroy h' = ⟨h.used, h'.log, h.bad⟩ := by
  unfold NodeMap.destroy
  rw [release_all _ _ hm.nodup fun b hb => by
    rw [hm.used]; exact Finset.mem_union_right _ (List.mem_toFinset.mpr hb)]
  rw [hm.used, Finset.union_sdiff_cancel_right hm.apart, hm.bad]

/-! ## `cumulative_histogram` -/

/-- `cumulative_histogram` makes two requests for each entry of its result: one for the histogram, one for the result.
If all are granted, it returns the cumulative histogram, and only the blocks of the result remain in use. -/
theorem C144_cumulative (grant : Nat → Bool) (A : Mat T i j) (h : Heap) (hv : h.Valid) (t : SizeMap T)
    (ht : cumulative_histogram A = .ok t) (hg : ∀ q < 2 * t.length, grant (h.log.length + q) = true) :
    ∃ m h', cumulativeHistogramMem grant A h = (.ok m, h') ∧ m.entries = t ∧
      h'.log = List.replicate (2 * t.length) 1 ++ h.log ∧ Owns m h h' := by
  have hA : StrictWeak A := by
    by_contra hA
    unfold cumulative_histogram histogram at ht
    rw [if_neg hA] at ht
    exact absurd ht (by simp [bind, Except.bind])
  have hlen := cumulative_length A hA
  unfold cumulative_histogram at ht
  rw [histogram_ops A hA, ok_bind] at ht
  dsimp only at ht
  rw [cumulative_ops] at ht
  cases ht
  obtain ⟨m, r1, r2, r3⟩ := (run_fresh grant (histOps A) h).1 fun q hq => hg q (by omega)
  have hl : (applyAll ([] : SizeMap T) (histOps A)).length = m.length := by
    rw [← r2]; exact List.length_map _
  obtain ⟨m', s1, s2, s3⟩ := (run_fresh grant (cumOps (applyAll [] (histOps A)) 0)
    ⟨h.used ∪ fresh h.log.length m.length, List.replicate m.length 1 ++ h.log, h.bad⟩).1 fun q hq => by
      have := hg (m.length + q) (by omega)
      rwa [List.length_append, List.length_replicate, Nat.add_comm m.length, Nat.add_assoc]
  have hl' : m'.length = m.length := by
    rw [← hl, ← hlen, ← s2]; exact (List.length_map _).symm
  have hn : (List.replicate m.length 1 ++ h.log).length = h.log.length + m.length := by
    rw [List.length_append, List.length_replicate, Nat.add_comm]
  rw [← r2] at s1
  dsimp only at s1 s3
  rw [hn] at s1 s3
  have hs : m'.blocks.toFinset = fresh (h.log.length + m.length) m'.length := by
    ext x
    rw [List.mem_toFinset, List.mem_toFinset, s3.mem_iff]
  have hd : Disjoint (fresh (h.log.length + m.length) m'.length) (fresh h.log.length m.length) := by
    rw [Finset.disjoint_left]
    intro b hb hb'
    have := List.mem_range'_1.mp (List.mem_toFinset.mp hb)
    have := List.mem_range'_1.mp (List.mem_toFinset.mp hb')
    omega
  refine ⟨m', ⟨h.used ∪ fresh (h.log.length + m.length) m'.length, List.replicate (2 * m'.length) 1 ++ h.log, h.bad⟩,
    ?_, s2, ?_, ?_⟩
  · unfold cumulativeHistogramMem histogramMem
    rw [if_pos hA, histogramBody_eq, r1]
    dsimp only
    rw [cumulativeBody_eq, s1]
    dsimp only
    rw [Finset.union_right_comm, destroy_eq m _ _ _ _ _ r3 (Finset.disjoint_union_left.mpr ⟨hv.disjoint _ _ le_rfl, hd⟩),
      ← List.append_assoc, List.replicate_append_replicate, hl', two_mul]
  · rw [← s2, show m'.entries.length = m'.length from List.length_map _]
  · refine ⟨by rw [hs], by rw [hs]; exact hv.disjoint _ _ (by omega), s3.nodup_iff.mpr (List.nodup_range' (step := 1)), rfl⟩

/-- If a request is refused, `cumulative_histogram` throws `std::bad_alloc` and nothing it requested remains in use. -/
theorem C144_cumulative_refused (grant : Nat → Bool) (A : Mat T i j) (h : Heap) (hv : h.Valid) (t : SizeMap T)
    (ht : cumulative_histogram A = .ok t) (q : Nat) (hq : q < 2 * t.length)
    (hg : ∀ q' < q, grant (h.log.length + q') = true) (hno : grant (h.log.length + q) = false) :
    ∃ h', cumulativeHistogramMem grant A h = (.error (.throws badAlloc), h') ∧ Clean (List.replicate (q + 1) 1) h h' := by
  have hA : StrictWeak A := by
    by_contra hA
    unfold cumulative_histogram histogram at ht
    rw [if_neg hA] at ht
    exact absurd ht (by simp [bind, Except.bind])
  have hlen := cumulative_length A hA
  unfold cumulative_histogram at ht
  rw [histogram_ops A hA, ok_bind] at ht
  dsimp only at ht
  rw [cumulative_ops] at ht
  cases ht
  by_cases hq1 : q < (applyAll ([] : SizeMap T) (histOps A)).length
  · obtain ⟨h', e, hc⟩ := C144_histogram_refused grant A h hv _ (histogram_ops A hA) q hq1 hg hno
    refine ⟨h', ?_, hc⟩
    unfold cumulativeHistogramMem
    rw [e]
  obtain ⟨m, r1, r2, r3⟩ := (run_fresh grant (histOps A) h).1 fun q' hq' => hg q' (by omega)
  have hl : (applyAll ([] : SizeMap T) (histOps A)).length = m.length := by
    rw [← r2]; exact List.length_map _
  have hn : (List.replicate m.length 1 ++ h.log).length = h.log.length + m.length := by
    rw [List.length_append, List.length_replicate, Nat.add_comm]
  obtain ⟨m', s1, s3⟩ := (run_fresh grant (cumOps (applyAll [] (histOps A)) 0)
    ⟨h.used ∪ fresh h.log.length m.length, List.replicate m.length 1 ++ h.log, h.bad⟩).2 (q - m.length) (by omega)
      (fun q' hq' => by
        have := hg (m.length + q') (by omega)
        dsimp only
        rwa [hn, Nat.add_assoc])
      (by
        dsimp only
        rw [hn, show h.log.length + m.length + (q - m.length) = h.log.length + q by omega]
        exact hno)
  rw [← r2] at s1
  dsimp only at s1 s3
  rw [hn] at s1 s3
  have hd : Disjoint (fresh (h.log.length + m.length) (q - m.length)) (fresh h.log.length m.length) := by
    rw [Finset.disjoint_left]
    intro b hb hb'
    have := List.mem_range'_1.mp (List.mem_toFinset.mp hb)
    have := List.mem_range'_1.mp (List.mem_toFinset.mp hb')
    omega
  refine ⟨⟨h.used, List.replicate (q + 1) 1 ++ h.log, h.bad⟩, ?_, rfl, by rw [List.reverse_replicate], rfl⟩
  unfold cumulativeHistogramMem histogramMem
  rw [if_pos hA, histogramBody_eq, r1]
  dsimp only
  rw [cumulativeBody_eq, s1]
  show (_, m'.destroy (m.destroy _)) = _
  rw [Finset.union_right_comm, destroy_eq m _ _ _ _ _ r3 (Finset.disjoint_union_left.mpr ⟨hv.disjoint _ _ le_rfl, hd⟩),
    destroy_eq m' _ _ _ _ _ s3 (hv.disjoint _ _ (by omega)), ← List.append_assoc, List.replicate_append_replicate,
    show q - m.length + 1 + m.length = q + 1 by omega]

/-- Two different values: four requests, the last of which is refused in the second case. -/
example : (cumulativeHistogramMem (fun _ => true) (!![5, 1, 5] : Mat ℚ 1 3) ⟨{2}, [1, 1, 1, 1, 1, 1, 1], false⟩).1 =
      .ok [(1, 1, 9), (5, 3, 10)] ∧
    (cumulativeHistogramMem (fun k => k != 10) (!![5, 1, 5] : Mat ℚ 1 3) ⟨{2}, [1, 1, 1, 1, 1, 1, 1], false⟩).1 =
      .error (.throws badAlloc) ∧
    (cumulativeHistogramMem (fun k => k != 11) (!![5, 1, 5] : Mat ℚ 1 3) ⟨{2}, [1, 1, 1, 1, 1, 1, 1], false⟩).1 =
      .ok [(1, 1, 9), (5, 3, 10)] := by
  refine ⟨?_, ?_, ?_⟩ <;> decide +kernel

/-- The memory of the examples is valid. -/
example : Heap.Valid ⟨{2}, [1, 1, 1, 1, 1, 1, 1], false⟩ := by
  intro b hb
  rw [Finset.mem_singleton.mp hb]
  decide

end MatrixLibs
