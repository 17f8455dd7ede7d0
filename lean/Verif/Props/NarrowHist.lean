import Verif.Props.Hist
import Verif.Props.NarrowStats

/-!
# Property C108: histograms of narrow integer matrices
-/

namespace MatrixLibs

set_option linter.unusedSectionVars false

section
variable {t : Narrow} {i j i' j' : Nat}

theorem narrow_lt (a b : NInt t) : (Promoted.keyScalar (NInt t)).lt a b = true ↔ a < b := by
  show decide (a.val < b.val) = true ↔ a.val < b.val
  exact decide_eq_true_iff

/-- C108: `histogram(A)` maps every value occurring in `A` to its number of occurrences and has no other entry; its
keys are strictly increasing in iteration order. -/
theorem C108_histogram (A : Mat (NInt t) i j) (hij : i * j < 2 ^ 64) :
    ∃ h, Promoted.histogram A = .ok h ∧ h.Pairwise (fun p q => p.1.val < q.1.val) ∧
      ∀ x n, (x, n) ∈ h ↔ n = numElems A (· = x) ∧ ∃ a b, A a b = x := by
  let _ := Promoted.keyScalar (NInt t)
  have : OrderedScalar (NInt t) := ⟨narrow_lt⟩
  obtain ⟨h, h1, h2, h3⟩ := C52_histogram A hij
  refine ⟨h, h1, h2, fun x n => (h3 x n).trans ?_⟩
  unfold numElems
  constructor <;> rintro ⟨rfl, h⟩ <;> exact ⟨by congr, h⟩

/-- C108: the counts add up to the number of elements. -/
theorem C108_histogram_total (A : Mat (NInt t) i j) (hij : i * j < 2 ^ 64) :
    ∃ h, Promoted.histogram A = .ok h ∧ (h.map Prod.snd).sum = i * j := by
  let _ := Promoted.keyScalar (NInt t)
  have : OrderedScalar (NInt t) := ⟨narrow_lt⟩
  exact C52_histogram_total A hij

/-- C108: `cumulative_histogram(A)` has the keys of `histogram(A)` and maps each to the number of elements not greater
than it. -/
theorem C108_cumulative (A : Mat (NInt t) i j) (hij : i * j < 2 ^ 64) :
    ∃ h c, Promoted.histogram A = .ok h ∧ Promoted.cumulative_histogram A = .ok c ∧
      c.map Prod.fst = h.map Prod.fst ∧ ∀ x n, (x, n) ∈ c → n = numElems A (fun y => y.val ≤ x.val) := by
  let _ := Promoted.keyScalar (NInt t)
  have : OrderedScalar (NInt t) := ⟨narrow_lt⟩
  exact C53_cumulative A hij

/-- C108: neither depends on the arrangement of the elements. -/
theorem C108_rearranged (A : Mat (NInt t) i j) (B : Mat (NInt t) i' j') (h : Rearranged A B) (hij : i * j < 2 ^ 64) :
    Promoted.histogram A = Promoted.histogram B ∧ Promoted.cumulative_histogram A = Promoted.cumulative_histogram B := by
  let _ := Promoted.keyScalar (NInt t)
  have : OrderedScalar (NInt t) := ⟨narrow_lt⟩
  exact C54_rearranged A B h hij

/-- C108: there are at most `2^w` entries, however large the matrix. -/
theorem C108_size (A : Mat (NInt t) i j) (hij : i * j < 2 ^ 64) :
    ∃ h, Promoted.histogram A = .ok h ∧ h.length ≤ 2 ^ t.w := by
  obtain ⟨h, hh, hs, -⟩ := C108_histogram A hij
  refine ⟨h, hh, ?_⟩
  have hnd : (h.map fun p => (p.1.val - t.min).toNat).Nodup := by
    rw [List.Nodup, List.pairwise_map]
    refine hs.imp fun {p q} hpq => ?_
    have := p.1.has.1
    have := q.1.has.1
    omega
  have hsub : (h.map fun p => (p.1.val - t.min).toNat) ⊆ List.range (2 ^ t.w) := by
    intro k hk
    obtain ⟨p, -, rfl⟩ := List.mem_map.mp hk
    rw [List.mem_range]
    have h1 := p.1.has
    have h2 : t.max - t.min = 2 ^ t.w - 1 := by
      unfold Narrow.max Narrow.min
      have : (2 : ℤ) ^ t.w = 2 * 2 ^ (t.w - 1) := by
        rw [← pow_succ', Nat.sub_add_cancel t.pos]
      split <;> omega
    have h3 : ((2 ^ t.w : ℕ) : ℤ) = (2 : ℤ) ^ t.w := by push_cast; rfl
    unfold Narrow.Has at h1
    omega
  have := (hnd.subperm hsub).length_le
  rwa [List.length_map, List.length_range] at this

end

example : Promoted.histogram (!![NInt.ofInt 200, NInt.ofInt 1; NInt.ofInt (-3), NInt.ofInt 1] : Mat (NInt .int8) 2 2) =
    .ok [(NInt.ofInt (-56), 1), (NInt.ofInt (-3), 1), (NInt.ofInt 1, 2)] := by decide +kernel
/-- The same bit patterns as `unsigned char` are ordered differently. -/
example : Promoted.histogram (!![NInt.ofInt 200, NInt.ofInt 1; NInt.ofInt (-3), NInt.ofInt 1] : Mat (NInt .uint8) 2 2) =
    .ok [(NInt.ofInt 1, 2), (NInt.ofInt 200, 1), (NInt.ofInt 253, 1)] := by decide +kernel
example : Promoted.cumulative_histogram (!![NInt.ofInt 200, NInt.ofInt 1; NInt.ofInt (-3), NInt.ofInt 1] :
    Mat (NInt .int8) 2 2) = .ok [(NInt.ofInt (-56), 1), (NInt.ofInt (-3), 2), (NInt.ofInt 1, 4)] := by decide +kernel

end MatrixLibs
