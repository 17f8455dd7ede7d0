import Verif.Proof.StatsLaws
import Verif.Props.Stats
import Verif.Props.Hist
import Verif.Props.Movement
import Mathlib.Logic.Equiv.Fin.Basic

/-!
# Properties C133, C134: statistics of joined matrices, and how the statistics relate to each other
-/

namespace MatrixLibs

set_option linter.unusedSectionVars false

open CScalar (ofInt)

/-! ## C133 -/

section
variable {T : Type} {i1 i2 j1 j2 i j : Nat}

theorem IsStacked.pooled {A : Mat T i1 j} {B : Mat T i2 j} {R : Mat T (i1 + i2) j}
    (h : IsStacked A B R) : Pooled A B R := by
  refine ⟨(Equiv.sumProdDistrib (Fin i1) (Fin i2) (Fin j)).symm.trans
    (Equiv.prodCongr finSumFinEquiv (Equiv.refl _)), fun q => ?_, fun q => ?_⟩
  · exact h.1 q.1 q.2
  · exact h.2 q.1 q.2

theorem IsJoined.pooled {A : Mat T i j1} {B : Mat T i j2} {R : Mat T i (j1 + j2)}
    (h : IsJoined A B R) : Pooled A B R := by
  refine ⟨(Equiv.prodSumDistrib (Fin i) (Fin j1) (Fin j2)).symm.trans
    (Equiv.prodCongr (Equiv.refl _) finSumFinEquiv), fun q => ?_, fun q => ?_⟩
  · exact h.1 q.1 q.2
  · exact h.2 q.1 q.2

variable [Inhabited T]

/-- C133: joining matrices pools their elements. -/
theorem C133_concatenate (A : Mat T i1 j) (B : Mat T i2 j) (A' : Mat T i j1) (B' : Mat T i j2) :
    (∃ R, concatenateRows A B = .ok R ∧ Pooled A B R) ∧
      ∃ R', concatenateCols A' B' = .ok R' ∧ Pooled A' B' R' := by
  obtain ⟨R, hR, h⟩ := C09_concatenate_rows A B
  obtain ⟨R', hR', h'⟩ := C09_concatenate_cols A' B'
  exact ⟨⟨R, hR, h.pooled⟩, R', hR', h'.pooled⟩

/-- C133: so do the square versions. -/
theorem C133_concatenate_square (A B : Mat T i i) :
    (∃ R, concatenateV A B = .ok R ∧ Pooled A B R) ∧
      ∃ R', concatenateH A B = .ok R' ∧ Pooled A B R' := by
  obtain ⟨R, hR, h⟩ := C08_concatenateV A B
  obtain ⟨R', hR', h'⟩ := C08_concatenateH A B
  exact ⟨⟨R, hR, h.pooled⟩, R', hR', h'.pooled⟩

end

section
variable {T : Type} [Inhabited T] [CScalar T] [LinearOrder T] [OrderedScalar T]
  {r c r' c' R S : Nat}

/-- C133: the counts of the histograms of pooled matrices add up, for every value, and so do those
of the elements not greater than any bound. -/
theorem C133_histogram (A : Mat T r c) (B : Mat T r' c') (C : Mat T R S) (h : Pooled A B C)
    (hRS : R * S < 2 ^ 64) :
    ∃ hA hB hC, histogram A = .ok hA ∧ histogram B = .ok hB ∧ histogram C = .ok hC ∧
      ∀ (p : T → Prop) [DecidablePred p],
        ((hC.filter fun q => decide (p q.1)).map Prod.snd).sum =
          ((hA.filter fun q => decide (p q.1)).map Prod.snd).sum +
          ((hB.filter fun q => decide (p q.1)).map Prod.snd).sum := by
  have hcard := h.card
  obtain ⟨hA, eA, -⟩ := C52_histogram A (by omega)
  obtain ⟨hB, eB, -⟩ := C52_histogram B (by omega)
  obtain ⟨hC, eC, -⟩ := C52_histogram C hRS
  refine ⟨hA, hB, hC, eA, eB, eC, fun p _ => ?_⟩
  obtain ⟨_, h1, e1⟩ := C52_histogram_count A (by omega) p
  obtain ⟨_, h2, e2⟩ := C52_histogram_count B (by omega) p
  obtain ⟨_, h3, e3⟩ := C52_histogram_count C hRS p
  rw [eA] at h1
  rw [eB] at h2
  rw [eC] at h3
  cases h1
  cases h2
  cases h3
  rw [e1, e2, e3, h.numElems p]

end

section
variable {K : Type} [Field K] [LinearOrder K] [IsStrictOrderedRing K] [Inhabited K] [CScalar K]
  [ExactOrdered K] {r c r' c' R S i j : Nat}

theorem size_ne {r c : Nat} (h : r * c ≠ 0) : ((r * c : Nat) : K) ≠ 0 := by exact_mod_cast h

theorem size_pos {r c : Nat} (h : r * c ≠ 0) : (0 : K) < ((r * c : Nat) : K) := by
  exact_mod_cast Nat.pos_of_ne_zero h

/-- The defining equation of the mean. -/
theorem mean_mul (A : Mat K r c) (h : r * c ≠ 0) (m : K) (hm : mean A = .ok m) :
    ∑ a, ∑ b, A a b = m * ((r * c : Nat) : K) := by
  rw [mean_ok A h] at hm
  cases hm
  rw [div_mul_cancel₀ _ (size_ne h)]

/-- The second moment about any point. -/
theorem var_mul (A : Mat K r c) (h : r * c ≠ 0) (m v : K) (hm : mean A = .ok m)
    (hv : var A = .ok v) (x : K) :
    ∑ a, ∑ b, (A a b - x) ^ 2 = (v + (m - x) ^ 2) * ((r * c : Nat) : K) := by
  have hs := mean_mul A h m hm
  obtain ⟨m', hm', hv'⟩ := C58_var A h
  rw [hm] at hm'
  cases hm'
  rw [hv] at hv'
  cases hv'
  have hn := size_ne (K := K) h
  have e : ∀ a b, (A a b - x) ^ 2 = (A a b - m) ^ 2 + (2 * (m - x) * A a b + (x ^ 2 - m ^ 2)) :=
    fun a b => by ring
  simp only [e, Finset.sum_add_distrib, ← Finset.mul_sum, hs, Finset.sum_const, Finset.card_univ,
    Fintype.card_fin, nsmul_eq_mul]
  rw [← Nat.cast_mul, add_mul, div_mul_cancel₀ _ hn, Nat.cast_mul]
  ring

/-- C133: the mean of pooled matrices is the mean of their means, weighted with their sizes. -/
theorem C133_mean (A : Mat K r c) (B : Mat K r' c') (C : Mat K R S) (h : Pooled A B C)
    (hA : r * c ≠ 0) (hB : r' * c' ≠ 0) :
    ∃ mA mB, mean A = .ok mA ∧ mean B = .ok mB ∧
      mean C = .ok ((mA * ((r * c : Nat) : K) + mB * ((r' * c' : Nat) : K)) /
        (((r * c : Nat) : K) + ((r' * c' : Nat) : K))) := by
  have hC : R * S ≠ 0 := by have := h.card; omega
  refine ⟨_, _, mean_ok A hA, mean_ok B hB, ?_⟩
  rw [mean_ok C hC, h.sum (fun x => x), div_mul_cancel₀ _ (size_ne hA),
    div_mul_cancel₀ _ (size_ne hB), h.card, Nat.cast_add]

/-- C133: the variance of pooled matrices is the weighted mean of their variances plus the spread of
their means. -/
theorem C133_var (A : Mat K r c) (B : Mat K r' c') (C : Mat K R S) (h : Pooled A B C)
    (hA : r * c ≠ 0) (hB : r' * c' ≠ 0) :
    ∃ mA mB vA vB, mean A = .ok mA ∧ mean B = .ok mB ∧ var A = .ok vA ∧ var B = .ok vB ∧
      var C = .ok ((vA * ((r * c : Nat) : K) + vB * ((r' * c' : Nat) : K)) /
          (((r * c : Nat) : K) + ((r' * c' : Nat) : K)) +
        ((r * c : Nat) : K) * ((r' * c' : Nat) : K) /
          (((r * c : Nat) : K) + ((r' * c' : Nat) : K)) ^ 2 * (mA - mB) ^ 2) := by
  have hC : R * S ≠ 0 := by have := h.card; omega
  obtain ⟨mA, mB, hmA, hmB, hmC⟩ := C133_mean A B C h hA hB
  obtain ⟨vA, hvA, -⟩ := C58_var_nonneg A hA
  obtain ⟨vB, hvB, -⟩ := C58_var_nonneg B hB
  obtain ⟨m', hm', hv'⟩ := C58_var C hC
  rw [hmC] at hm'
  have hm2 := Except.ok.inj hm'
  refine ⟨mA, mB, vA, vB, hmA, hmB, hvA, hvB, ?_⟩
  rw [hv', ← Nat.cast_mul, h.sum (fun x => (x - m') ^ 2), var_mul A hA mA vA hmA hvA,
    var_mul B hB mB vB hmB hvB, h.card, Nat.cast_add, ← hm2]
  congr 1
  have h1 := size_pos (K := K) hA
  have h2 := size_pos (K := K) hB
  field_simp
  ring

/-- One half of `C133_median`. -/
theorem median_pool_le (sort : List K → List K) (hsort : Sorts sort) (A : Mat K r c)
    (B : Mat K r' c') (C : Mat K R S) (h : Pooled A B C) (hA : r * c ≠ 0) (hB : r' * c' ≠ 0)
    (hRS : R * S < 2 ^ 64) (mA mB mC m : K) (eA : median sort A = .ok mA)
    (eB : median sort B = .ok mB) (eC : median sort C = .ok mC) (h1 : mA ≤ m) (h2 : mB ≤ m) :
    mC ≤ m := by
  have hcard := h.card
  obtain ⟨la, ua, e1, hla, la1, ua1⟩ := median_mid sort hsort A hA (by omega)
  obtain ⟨lb, ub, e2, hlb, lb1, ub1⟩ := median_mid sort hsort B hB (by omega)
  obtain ⟨lc, uc, e3, hlc, lc1, uc1⟩ := median_mid sort hsort C (by omega) hRS
  rw [eA] at e1
  rw [eB] at e2
  rw [eC] at e3
  cases e1
  cases e2
  cases e3
  by_contra hcon
  have hcon := not_le.mp hcon
  set t : K := (uc - lc) / 2 with ht
  have ht0 : 0 ≤ t := by rw [ht]; linarith
  have g1 : ¬ lc ≤ m - t := by rw [ht]; intro hc; linarith
  have g2 : ¬ uc ≤ m + t := by rw [ht]; intro hc; linarith
  rw [lc1, h.numElems] at g1
  rw [uc1, h.numElems] at g2
  have monoA := numElems_mono A (· ≤ m - t) (· ≤ m + t) (fun z hz => hz.trans (by linarith))
  have monoB := numElems_mono B (· ≤ m - t) (· ≤ m + t) (fun z hz => hz.trans (by linarith))
  have a1 : la ≤ m - t ∨ ua ≤ m + t := by
    by_contra hc
    push Not at hc
    linarith [hc.1, hc.2]
  have b1 : lb ≤ m - t ∨ ub ≤ m + t := by
    by_contra hc
    push Not at hc
    linarith [hc.1, hc.2]
  rw [la1, ua1] at a1
  rw [lb1, ub1] at b1
  omega

/-- The other half. -/
theorem le_median_pool (sort : List K → List K) (hsort : Sorts sort) (A : Mat K r c)
    (B : Mat K r' c') (C : Mat K R S) (h : Pooled A B C) (hA : r * c ≠ 0) (hB : r' * c' ≠ 0)
    (hRS : R * S < 2 ^ 64) (mA mB mC m : K) (eA : median sort A = .ok mA)
    (eB : median sort B = .ok mB) (eC : median sort C = .ok mC) (h1 : m ≤ mA) (h2 : m ≤ mB) :
    m ≤ mC := by
  have hcard := h.card
  obtain ⟨la, ua, e1, hla, la1, ua1⟩ := median_mid sort hsort A hA (by omega)
  obtain ⟨lb, ub, e2, hlb, lb1, ub1⟩ := median_mid sort hsort B hB (by omega)
  obtain ⟨lc, uc, e3, hlc, lc1, uc1⟩ := median_mid sort hsort C (by omega) hRS
  rw [eA] at e1
  rw [eB] at e2
  rw [eC] at e3
  cases e1
  cases e2
  cases e3
  by_contra hcon
  have hcon := not_le.mp hcon
  have g1 := (lc1 lc).mp le_rfl
  have g2 := (uc1 uc).mp le_rfl
  rw [h.numElems] at g1 g2
  have monoA := numElems_mono A (· ≤ lc) (· ≤ uc) (fun z hz => hz.trans hlc)
  have monoB := numElems_mono B (· ≤ lc) (· ≤ uc) (fun z hz => hz.trans hlc)
  have a1 : ¬ (la ≤ lc ∧ ua ≤ uc) := fun hc => by linarith [hc.1, hc.2]
  have b1 : ¬ (lb ≤ lc ∧ ub ≤ uc) := fun hc => by linarith [hc.1, hc.2]
  rw [la1, ua1] at a1
  rw [lb1, ub1] at b1
  omega

/-- C133: the median of pooled matrices lies between their medians. -/
theorem C133_median (sort : List K → List K) (hsort : Sorts sort) (A : Mat K r c)
    (B : Mat K r' c') (C : Mat K R S) (h : Pooled A B C) (hA : r * c ≠ 0) (hB : r' * c' ≠ 0)
    (hRS : R * S < 2 ^ 64) :
    ∃ mA mB mC, median sort A = .ok mA ∧ median sort B = .ok mB ∧ median sort C = .ok mC ∧
      min mA mB ≤ mC ∧ mC ≤ max mA mB := by
  have hcard := h.card
  obtain ⟨_, _, e1, -⟩ := median_mid sort hsort A hA (by omega)
  obtain ⟨_, _, e2, -⟩ := median_mid sort hsort B hB (by omega)
  obtain ⟨_, _, e3, -⟩ := median_mid sort hsort C (by omega) hRS
  exact ⟨_, _, _, e1, e2, e3,
    le_median_pool sort hsort A B C h hA hB hRS _ _ _ _ e1 e2 e3 (min_le_left _ _) (min_le_right _ _),
    median_pool_le sort hsort A B C h hA hB hRS _ _ _ _ e1 e2 e3 (le_max_left _ _) (le_max_right _ _)⟩

end

/-- A `1 × 2` on top of a `2 × 2` matrix. -/
example : concatenateRows (!![1, 2] : Mat ℚ 1 2) !![6, 8; 7, 6] = .ok !![1, 2; 6, 8; 7, 6] ∧
    mean (!![1, 2] : Mat ℚ 1 2) = .ok (3/2) ∧ mean (!![6, 8; 7, 6] : Mat ℚ 2 2) = .ok (27/4) ∧
    mean (!![1, 2; 6, 8; 7, 6] : Mat ℚ 3 2) = .ok 5 ∧
    var (!![1, 2; 6, 8; 7, 6] : Mat ℚ 3 2) = .ok (20/3) := by
  refine ⟨?_, ?_, ?_, ?_, ?_⟩ <;> decide +kernel

/-! ## C134 -/

section
variable {K : Type} [Field K] [LinearOrder K] [IsStrictOrderedRing K] [Inhabited K] [CScalar K]
  [ExactOrdered K] {r c r' c' i j : Nat}

/-- C134: mean and variance do not depend on the arrangement of the elements. -/
theorem C134_rearranged (A : Mat K r c) (B : Mat K r' c') (h : Rearranged A B)
    (hA : r * c ≠ 0) : mean B = mean A ∧ var B = var A := by
  have hB : r' * c' ≠ 0 := by rw [h.card]; exact hA
  have hm : mean B = mean A := by
    rw [mean_ok A hA, mean_ok B hB, h.sum (fun x => x), h.card]
  refine ⟨hm, ?_⟩
  obtain ⟨m, e1, e2⟩ := C58_var A hA
  obtain ⟨m', e1', e2'⟩ := C58_var B hB
  rw [hm, e1] at e1'
  cases e1'
  rw [e2, e2', h.sum (fun x => (x - m) ^ 2), ← Nat.cast_mul, ← Nat.cast_mul, h.card]

/-- C134: `mean(A + B) == mean(A) + mean(B)`. -/
theorem C134_mean_add (A B C : Mat K r c) (h : r * c ≠ 0) (hC : opAdd A B = .ok C) :
    ∃ mA mB, mean A = .ok mA ∧ mean B = .ok mB ∧ mean C = .ok (mA + mB) := by
  refine ⟨_, _, mean_ok A h, mean_ok B h, ?_⟩
  have e : opAdd A B = .ok (A + B) := sum_ok A B
  rw [e] at hC
  cases hC
  rw [mean_ok _ h]
  simp only [Matrix.add_apply, Finset.sum_add_distrib]
  rw [add_div]

/-- C134: mean and variance from the histogram: the sums of its keys, and of their squared
distances from the mean, weighted with the counts. -/
theorem C134_histogram (A : Mat K r c) (h : r * c ≠ 0) (hij : r * c < 2 ^ 64) :
    ∃ hist m v, histogram A = .ok hist ∧ mean A = .ok m ∧ var A = .ok v ∧
      m * ((r * c : Nat) : K) = (hist.map fun q => (q.2 : K) * q.1).sum ∧
      v * ((r * c : Nat) : K) = (hist.map fun q => (q.2 : K) * (q.1 - m) ^ 2).sum := by
  obtain ⟨hist, hh, hH⟩ := wp_total (histogram_isHist OrderedScalar.lt_iff A hij)
  obtain ⟨m, hm, hv⟩ := C58_var A h
  refine ⟨hist, m, _, hh, hm, hv, ?_, ?_⟩
  · rw [← mean_mul A h m hm]
    have := hH.weighted _ _ (fun x : K => x)
    simp only [nsmul_eq_mul] at this
    rw [this, rowMajor_sum]
  · rw [← Nat.cast_mul, div_mul_cancel₀ _ (size_ne h)]
    have := hH.weighted _ _ (fun x : K => (x - m) ^ 2)
    simp only [nsmul_eq_mul] at this
    rw [this, rowMajor_sum]

/-- C134: the median of an odd number of elements is the smallest key of the cumulative histogram
with more than half of the elements at or below it. -/
theorem C134_cumulative (sort : List K → List K) (hsort : Sorts sort) (A : Mat K r c)
    (h : r * c % 2 = 1) (hij : r * c < 2 ^ 64) :
    ∃ cum m n, cumulative_histogram A = .ok cum ∧ median sort A = .ok m ∧ (m, n) ∈ cum ∧
      r * c < 2 * n ∧ ∀ x k, (x, k) ∈ cum → r * c < 2 * k → m ≤ x := by
  obtain ⟨hist, cum, e1, e2, e3, e4⟩ := C53_cumulative A hij
  obtain ⟨m, hm, hk⟩ := median_odd sort hsort A h
  obtain ⟨hist', e1', -, hmem⟩ := C52_histogram A hij
  rw [e1] at e1'
  cases e1'
  have hkey : m ∈ cum.map Prod.fst := by
    rw [e3]
    exact List.mem_map.mpr ⟨(m, _), (hmem m _).mpr ⟨rfl, hk.1⟩, rfl⟩
  obtain ⟨⟨m', n⟩, hn, rfl⟩ := List.mem_map.mp hkey
  refine ⟨cum, m', n, e2, hm, hn, ?_, fun x k hx hk2 => ?_⟩
  · have := (hk.le_iff m').mp le_rfl
    rw [e4 m' n hn]
    omega
  · rw [hk.le_iff x, ← e4 x k hx]
    omega

/-- C134: no more than `var(A) / t²` of the elements are `t` or more away from the mean. -/
theorem C134_chebyshev (A : Mat K r c) (h : r * c ≠ 0) (t : K) (ht : 0 ≤ t) :
    ∃ m v, mean A = .ok m ∧ var A = .ok v ∧
      (numElems A (fun x => t ≤ |x - m|) : K) * t ^ 2 ≤ v * ((r * c : Nat) : K) := by
  obtain ⟨m, hm, hv⟩ := C58_var A h
  refine ⟨m, _, hm, hv, ?_⟩
  rw [← Nat.cast_mul, div_mul_cancel₀ _ (size_ne h), numElems_sum, Nat.cast_sum, Finset.sum_mul]
  refine Finset.sum_le_sum fun a _ => ?_
  rw [Nat.cast_sum, Finset.sum_mul]
  refine Finset.sum_le_sum fun b _ => ?_
  split
  · next hx =>
    rw [Nat.cast_one, one_mul, ← sq_abs (A a b - m)]
    exact pow_le_pow_left₀ ht hx 2
  · rw [Nat.cast_zero, zero_mul]
    exact sq_nonneg _

/-- If at least half of the elements are at distance `d` from the mean on one side, `d²` is at most
the variance. -/
theorem half_side (A : Mat K r c) (h : r * c ≠ 0) (m v d : K) (hm : mean A = .ok m)
    (hv : var A = .ok v) (p : K → Prop) [DecidablePred p]
    (hp : ∀ x, p x → 4 * d ^ 2 ≤ (x - (m + d)) ^ 2) (hhalf : r * c ≤ 2 * numElems A p) :
    d ^ 2 ≤ v := by
  have e := var_mul A h m v hm hv (m + d)
  have hn := size_pos (K := K) h
  have h1 : (numElems A p : K) * (4 * d ^ 2) ≤ ∑ a, ∑ b, (A a b - (m + d)) ^ 2 := by
    rw [numElems_sum, Nat.cast_sum, Finset.sum_mul]
    refine Finset.sum_le_sum fun a _ => ?_
    rw [Nat.cast_sum, Finset.sum_mul]
    refine Finset.sum_le_sum fun b _ => ?_
    split
    · next hx => rw [Nat.cast_one, one_mul]; exact hp _ hx
    · rw [Nat.cast_zero, zero_mul]; exact sq_nonneg _
  have h2 : ((r * c : Nat) : K) ≤ 2 * (numElems A p : K) := by exact_mod_cast hhalf
  have h3 : ((r * c : Nat) : K) * (2 * d ^ 2) ≤ (v + d ^ 2) * ((r * c : Nat) : K) := by
    calc ((r * c : Nat) : K) * (2 * d ^ 2) ≤ 2 * (numElems A p : K) * (2 * d ^ 2) :=
          mul_le_mul_of_nonneg_right h2 (by positivity)
      _ = (numElems A p : K) * (4 * d ^ 2) := by ring
      _ ≤ _ := h1
      _ = (v + d ^ 2) * ((r * c : Nat) : K) := by rw [e]; ring
  have h4 : 2 * d ^ 2 ≤ v + d ^ 2 := by
    by_contra hc
    have := mul_lt_mul_of_pos_right (not_le.mp hc) hn
    linarith
  linarith

/-- C134: mean and median differ by no more than the standard deviation. -/
theorem C134_mean_median (sort : List K → List K) (hsort : Sorts sort) (A : Mat K r c)
    (h : r * c ≠ 0) (hij : r * c < 2 ^ 64) :
    ∃ m md v, mean A = .ok m ∧ median sort A = .ok md ∧ var A = .ok v ∧ (m - md) ^ 2 ≤ v := by
  obtain ⟨m, hm, hv⟩ := C58_var A h
  obtain ⟨md, hmd, h1, h2⟩ := C57_median_half sort hsort A h hij
  refine ⟨m, md, _, hm, hmd, hv, ?_⟩
  rcases le_total md m with hle | hle
  · refine half_side A h m _ (m - md) hm hv (· ≤ md) (fun x hx => ?_) h1
    nlinarith
  · have := half_side A h m _ (m - md) hm hv (md ≤ ·) (fun x hx => ?_) h2
    · exact this
    · nlinarith

/-- C134: the variance of elements between `lo` and `hi` is at most `(hi - mean) * (mean - lo)`, and
so at most a quarter of the square of the range. -/
theorem C134_var_range (A : Mat K r c) (h : r * c ≠ 0) (lo hi : K)
    (hlo : ∀ a b, lo ≤ A a b) (hhi : ∀ a b, A a b ≤ hi) :
    ∃ m v, mean A = .ok m ∧ var A = .ok v ∧ v ≤ (hi - m) * (m - lo) ∧ v ≤ (hi - lo) ^ 2 / 4 := by
  obtain ⟨m, hm, hv⟩ := C58_var A h
  have hs := mean_mul A h m hm
  have hn := size_pos (K := K) h
  have e := var_mul A h m _ hm hv ((hi + lo) / 2)
  set v : K := (∑ a, ∑ b, (A a b - m) ^ 2) / ((r : K) * (c : K)) with hvdef
  have h1 : ∑ a, ∑ b, (A a b - (hi + lo) / 2) ^ 2 ≤ (((hi - lo) / 2) ^ 2) * ((r * c : Nat) : K) := by
    have e2 : (((hi - lo) / 2) ^ 2) * ((r * c : Nat) : K) =
        ∑ _a : Fin r, ∑ _b : Fin c, ((hi - lo) / 2) ^ 2 := by
      simp only [Finset.sum_const, Finset.card_univ, Fintype.card_fin, nsmul_eq_mul, Nat.cast_mul]
      ring
    rw [e2]
    refine Finset.sum_le_sum fun a _ => Finset.sum_le_sum fun b _ => ?_
    have := mul_nonneg (sub_nonneg.mpr (hlo a b)) (sub_nonneg.mpr (hhi a b))
    nlinarith
  rw [e] at h1
  have h2 := le_of_mul_le_mul_right h1 hn
  refine ⟨m, v, hm, hv, by nlinarith, ?_⟩
  have := sq_nonneg (m - (hi + lo) / 2)
  nlinarith

theorem numElems_of_map {A B : Mat K r c} (f : K → K) (hB : ∀ a b, B a b = f (A a b)) (p q : K → Prop)
    [DecidablePred p] [DecidablePred q] (hpq : ∀ x, p (f x) ↔ q x) :
    numElems B p = numElems A q := by
  unfold numElems
  refine congrArg Finset.card (Finset.filter_congr fun x _ => ?_)
  rw [hB]
  exact hpq _

/-- The lower and upper medians are determined by what they do. -/
theorem median_of_mid (sort : List K → List K) (hsort : Sorts sort) (A : Mat K r c)
    (h0 : r * c ≠ 0) (hij : r * c < 2 ^ 64) (lo hi : K)
    (hlo : ∀ y, lo ≤ y ↔ r * c ≤ 2 * numElems A (· ≤ y))
    (hhi : ∀ y, hi ≤ y ↔ r * c < 2 * numElems A (· ≤ y)) :
    median sort A = .ok ((lo + hi) / 2) := by
  obtain ⟨l, u, e, -, h1, h2⟩ := median_mid sort hsort A h0 hij
  have e1 : lo = l := le_antisymm ((hlo l).mpr ((h1 l).mp le_rfl)) ((h1 lo).mpr ((hlo lo).mp le_rfl))
  have e2 : hi = u := le_antisymm ((hhi u).mpr ((h2 u).mp le_rfl)) ((h2 hi).mpr ((hhi hi).mp le_rfl))
  rw [e, e1, e2]

/-- C134: `median(A + s) == median(A) + s`. -/
theorem C134_median_add (sort : List K → List K) (hsort : Sorts sort) (A B : Mat K r c) (s : K)
    (h0 : r * c ≠ 0) (hij : r * c < 2 ^ 64) (hB : opAddScalar A s = .ok B) :
    ∃ m, median sort A = .ok m ∧ median sort B = .ok (m + s) := by
  unfold opAddScalar at hB
  rw [sumScalar_ok] at hB
  have hB' : ∀ a b, B a b = A a b + s := fun a b => by
    rw [← Except.ok.inj hB]; rfl
  obtain ⟨l, u, e, -, h1, h2⟩ := median_mid sort hsort A h0 hij
  refine ⟨_, e, ?_⟩
  have key : ∀ y, numElems B (· ≤ y) = numElems A (· ≤ y - s) := fun y =>
    numElems_of_map (· + s) hB' _ _ (fun x => by
      show x + s ≤ y ↔ x ≤ y - s
      exact le_sub_iff_add_le.symm)
  rw [median_of_mid sort hsort B h0 hij (l + s) (u + s)
    (fun y => by rw [key, ← h1]; exact le_sub_iff_add_le.symm)
    (fun y => by rw [key, ← h2]; exact le_sub_iff_add_le.symm)]
  congr 1
  ring

/-- C134: `median(A * s) == median(A) * s` for positive `s`. -/
theorem median_mul_pos (sort : List K → List K) (hsort : Sorts sort) (A B : Mat K r c) (s : K)
    (hs : 0 < s) (h0 : r * c ≠ 0) (hij : r * c < 2 ^ 64) (hB : ∀ a b, B a b = A a b * s) :
    ∃ m, median sort A = .ok m ∧ median sort B = .ok (m * s) := by
  obtain ⟨l, u, e, -, h1, h2⟩ := median_mid sort hsort A h0 hij
  refine ⟨_, e, ?_⟩
  have key : ∀ y, numElems B (· ≤ y) = numElems A (· ≤ y / s) := fun y =>
    numElems_of_map (· * s) hB _ _ (fun x => by
      show x * s ≤ y ↔ x ≤ y / s
      exact (le_div_iff₀ hs).symm)
  rw [median_of_mid sort hsort B h0 hij (l * s) (u * s)
    (fun y => by rw [key, ← h1]; exact (le_div_iff₀ hs).symm)
    (fun y => by rw [key, ← h2]; exact (le_div_iff₀ hs).symm)]
  congr 1
  ring

/-- Negating the elements negates the median. -/
theorem median_neg (sort : List K → List K) (hsort : Sorts sort) (A B : Mat K r c)
    (h0 : r * c ≠ 0) (hij : r * c < 2 ^ 64) (hB : ∀ a b, B a b = -A a b) :
    ∃ m, median sort A = .ok m ∧ median sort B = .ok (-m) := by
  obtain ⟨l, u, e, -, h1, h2⟩ := median_mid sort hsort A h0 hij
  obtain ⟨l', u', e', -, h1', h2'⟩ := median_mid sort hsort B h0 hij
  refine ⟨_, e, ?_⟩
  -- counting below `y` in `B` is counting above `-y` in `A`
  have key : ∀ y, numElems B (· ≤ y) + numElems A (· < -y) = r * c := by
    intro y
    have e1 : numElems B (· ≤ y) = numElems A (fun x => ¬ x < -y) :=
      numElems_of_map (fun x => -x) hB _ _ (fun x => by
        show -x ≤ y ↔ ¬ x < -y
        rw [not_lt]; exact neg_le)
    have := numElems_compl A (· < -y)
    omega
  -- strictly below the lower, at most below the upper median
  have hlt : ∀ (z : K) (hz : ∀ y, y < z → 2 * numElems A (· ≤ y) < r * c),
      2 * numElems A (· < z) < r * c ∨ numElems A (· < z) = 0 ∧ 0 < r * c := by
    intro z hz
    by_cases hne : ∃ q : Fin r × Fin c, A q.1 q.2 < z
    · left
      obtain ⟨q, hq, hmax⟩ := Finset.exists_max_image
        (Finset.univ.filter fun q : Fin r × Fin c => A q.1 q.2 < z) (fun q => A q.1 q.2)
        ⟨hne.choose, Finset.mem_filter.mpr ⟨Finset.mem_univ _, hne.choose_spec⟩⟩
      have hq' := (Finset.mem_filter.mp hq).2
      have : numElems A (· < z) ≤ numElems A (· ≤ A q.1 q.2) := by
        refine Finset.card_le_card fun p hp => ?_
        exact Finset.mem_filter.mpr ⟨Finset.mem_univ _, hmax p hp⟩
      have := hz _ hq'
      omega
    · right
      refine ⟨?_, Nat.pos_of_ne_zero h0⟩
      rw [numElems, Finset.card_eq_zero, Finset.filter_eq_empty_iff]
      exact fun q _ hq => hne ⟨q, hq⟩
  have hle : ∀ (z : K) (hz : ∀ y, y < z → 2 * numElems A (· ≤ y) ≤ r * c),
      2 * numElems A (· < z) ≤ r * c := by
    intro z hz
    by_cases hne : ∃ q : Fin r × Fin c, A q.1 q.2 < z
    · obtain ⟨q, hq, hmax⟩ := Finset.exists_max_image
        (Finset.univ.filter fun q : Fin r × Fin c => A q.1 q.2 < z) (fun q => A q.1 q.2)
        ⟨hne.choose, Finset.mem_filter.mpr ⟨Finset.mem_univ _, hne.choose_spec⟩⟩
      have hq' := (Finset.mem_filter.mp hq).2
      have : numElems A (· < z) ≤ numElems A (· ≤ A q.1 q.2) := by
        refine Finset.card_le_card fun p hp => ?_
        exact Finset.mem_filter.mpr ⟨Finset.mem_univ _, hmax p hp⟩
      have := hz _ hq'
      omega
    · have : numElems A (· < z) = 0 := by
        rw [numElems, Finset.card_eq_zero, Finset.filter_eq_empty_iff]
        exact fun q _ hq => hne ⟨q, hq⟩
      omega
  rw [median_of_mid sort hsort B h0 hij (-u) (-l) (fun y => ?_) (fun y => ?_)]
  · congr 1; ring
  · have hk := key y
    constructor
    · intro hy
      have := hle u (fun w hw => by
        have := (h2 w).not.mp (not_le.mpr hw); omega)
      have hmono := numElems_mono A (· < -y) (· < u) (fun z hz => lt_of_lt_of_le hz (neg_le.mp hy))
      omega
    · intro hy
      by_contra hc
      have hc' : u < -y := by rw [not_le] at hc; linarith
      have := (h2 u).mp le_rfl
      have hmono := numElems_mono A (· ≤ u) (· < -y) (fun z hz => lt_of_le_of_lt hz hc')
      omega
  · have hk := key y
    constructor
    · intro hy
      have := hlt l (fun w hw => by
        have := (h1 w).not.mp (not_le.mpr hw); omega)
      have hmono := numElems_mono A (· < -y) (· < l) (fun z hz => lt_of_lt_of_le hz (neg_le.mp hy))
      omega
    · intro hy
      by_contra hc
      have hc' : l < -y := by rw [not_le] at hc; linarith
      have := (h1 l).mp le_rfl
      have hmono := numElems_mono A (· ≤ l) (· < -y) (fun z hz => lt_of_le_of_lt hz hc')
      omega

/-- C134: `median(A * s) == median(A) * s`, whatever the sign of `s`. -/
theorem C134_median_mul (sort : List K → List K) (hsort : Sorts sort) (A B : Mat K r c) (s : K)
    (h0 : r * c ≠ 0) (hij : r * c < 2 ^ 64) (hB : opMulScalar A s = .ok B) :
    ∃ m, median sort A = .ok m ∧ median sort B = .ok (m * s) := by
  unfold opMulScalar at hB
  rw [multScalar_ok'] at hB
  have hB' : ∀ a b, B a b = A a b * s := fun a b => by
    rw [← Except.ok.inj hB]; rfl
  rcases lt_trichotomy s 0 with hs | rfl | hs
  · obtain ⟨m, e, eN⟩ := median_neg sort hsort A (Matrix.of fun a b => -A a b) h0 hij
      (fun _ _ => rfl)
    obtain ⟨m', e1, e2⟩ := median_mul_pos sort hsort (Matrix.of fun a b => -A a b) B (-s)
      (by linarith) h0 hij (fun a b => by rw [hB', Matrix.of_apply]; ring)
    rw [eN] at e1
    cases e1
    refine ⟨m, e, ?_⟩
    rw [e2]
    congr 1
    ring
  · obtain ⟨m, e, -, -⟩ := C57_median_half sort hsort A h0 hij
    refine ⟨m, e, ?_⟩
    obtain ⟨m', e', h1, h2⟩ := C57_median_half sort hsort B h0 hij
    obtain ⟨l, u, e3, -, h3, h4⟩ := median_mid sort hsort B h0 hij
    have hB0 : ∀ y : K, numElems B (· ≤ y) = if 0 ≤ y then r * c else 0 := by
      intro y
      rw [numElems_sum]
      simp only [hB', mul_zero, Finset.sum_const, Finset.card_univ, Fintype.card_fin, smul_eq_mul]
      split <;> simp
    rw [median_of_mid sort hsort B h0 hij 0 0 (fun y => ?_) (fun y => ?_)]
    · congr 1; ring
    · rw [hB0]; split
      · next hy => exact ⟨fun _ => by omega, fun _ => hy⟩
      · next hy => exact ⟨fun h => absurd h hy, fun h => by omega⟩
    · rw [hB0]; split
      · next hy => exact ⟨fun _ => by omega, fun _ => hy⟩
      · next hy => exact ⟨fun h => absurd h hy, fun h => by omega⟩
  · exact median_mul_pos sort hsort A B s hs h0 hij hB'

end

/-- A `3 × 3` matrix: mean 5, median 4, variance 202/9. -/
example : mean (!![1, 2, 2; 4, 4, 4; 1, 12, 15] : Mat ℚ 3 3) = .ok 5 ∧
    median (List.insertionSort (· ≤ ·)) (!![1, 2, 2; 4, 4, 4; 1, 12, 15] : Mat ℚ 3 3) = .ok 4 ∧
    var (!![1, 2, 2; 4, 4, 4; 1, 12, 15] : Mat ℚ 3 3) = .ok (202/9) ∧
    cumulative_histogram (!![1, 2, 2; 4, 4, 4; 1, 12, 15] : Mat ℚ 3 3) =
      .ok [(1, 2), (2, 4), (4, 7), (12, 8), (15, 9)] := by
  refine ⟨?_, ?_, ?_, ?_⟩ <;> decide +kernel

/-- Scaling by a negative number, even number of elements. -/
example : median (List.insertionSort (· ≤ ·)) (!![5, 1; 3, 8] : Mat ℚ 2 2) = .ok 4 ∧
    opMulScalar (!![5, 1; 3, 8] : Mat ℚ 2 2) (-2) = .ok !![-10, -2; -6, -16] ∧
    median (List.insertionSort (· ≤ ·)) (!![-10, -2; -6, -16] : Mat ℚ 2 2) = .ok (-8) := by
  refine ⟨?_, ?_, ?_⟩ <;> decide +kernel

end MatrixLibs
