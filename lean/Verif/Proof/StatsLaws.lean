import Verif.Proof.Stats
import Verif.Proof.Hist
import Verif.Spec.Pool
import Mathlib.Algebra.BigOperators.Group.Finset.Sigma
import Mathlib.Algebra.BigOperators.Ring.Finset
import Mathlib.Data.Fintype.BigOperators
import Mathlib.Algebra.Order.BigOperators.Group.Finset
import Mathlib.Tactic.FieldSimp
import Mathlib.Tactic.Linarith

/-!
# Sums and counts over pooled matrices, and the median through counting
-/

namespace MatrixLibs

set_option linter.unusedSectionVars false

section
variable {T : Type} {r c r' c' R S : Nat} {A : Mat T r c} {B : Mat T r' c'} {C : Mat T R S}

theorem sum_cells {M : Type} [AddCommMonoid M] (A : Mat T r c) (f : T → M) :
    ∑ a, ∑ b, f (A a b) = ∑ q : Fin r × Fin c, f (A q.1 q.2) :=
  (Fintype.sum_prod_type (fun q : Fin r × Fin c => f (A q.1 q.2))).symm

theorem Pooled.sum {M : Type} [AddCommMonoid M] (h : Pooled A B C) (f : T → M) :
    ∑ a, ∑ b, f (C a b) = (∑ a, ∑ b, f (A a b)) + ∑ a, ∑ b, f (B a b) := by
  obtain ⟨e, h1, h2⟩ := h
  rw [sum_cells, sum_cells, sum_cells, ← Equiv.sum_comp e, Fintype.sum_sum_type]
  exact congrArg₂ (· + ·) (Finset.sum_congr rfl fun q _ => by rw [h1])
    (Finset.sum_congr rfl fun q _ => by rw [h2])

theorem Pooled.card (h : Pooled A B C) : R * S = r * c + r' * c' := by
  obtain ⟨e, -, -⟩ := h
  have := Fintype.card_congr e
  simpa using this.symm

theorem numElems_sum (A : Mat T r c) (p : T → Prop) [DecidablePred p] :
    numElems A p = ∑ a, ∑ b, if p (A a b) then 1 else 0 := by
  rw [sum_cells A (fun x => if p x then 1 else 0), numElems, Finset.card_filter]

theorem Pooled.numElems (h : Pooled A B C) (p : T → Prop) [DecidablePred p] :
    numElems C p = MatrixLibs.numElems A p + MatrixLibs.numElems B p := by
  rw [numElems_sum, numElems_sum, numElems_sum]
  exact h.sum fun x => if p x then 1 else 0

theorem Rearranged.sum {M : Type} [AddCommMonoid M] (h : Rearranged A B) (f : T → M) :
    ∑ a, ∑ b, f (B a b) = ∑ a, ∑ b, f (A a b) := by
  obtain ⟨e, h1⟩ := h
  rw [sum_cells, sum_cells, ← Equiv.sum_comp e]
  exact Finset.sum_congr rfl fun q _ => by rw [h1]

theorem Rearranged.card (h : Rearranged A B) : r' * c' = r * c := by
  obtain ⟨e, -⟩ := h
  have := Fintype.card_congr e
  simpa using this.symm

end

section
variable {T : Type} [LinearOrder T] {i j : Nat}

/-- The `k`-th smallest element, through counting. -/
theorem IsKth.le_iff {A : Mat T i j} {k : Nat} {x : T} (h : IsKth A k x) (y : T) :
    x ≤ y ↔ k < numElems A (· ≤ y) := by
  constructor
  · intro hxy
    exact lt_of_lt_of_le h.2.2 (numElems_mono A _ _ fun z hz => hz.trans hxy)
  · intro hk
    by_contra hc
    have := numElems_mono A (· ≤ y) (· < x) fun z hz => lt_of_le_of_lt hz (not_le.mp hc)
    have := h.2.1
    omega

end

/-- The median as the mean of a lower and an upper one, both determined by counting. -/
theorem median_mid {K : Type} [Field K] [LinearOrder K] [IsStrictOrderedRing K]
    [Inhabited K] [CScalar K] [ExactOrdered K] {i j : Nat} (sort : List K → List K)
    (hsort : Sorts sort) (A : Mat K i j) (h0 : i * j ≠ 0) (hij : i * j < 2 ^ 64) :
    ∃ lo hi, median sort A = .ok ((lo + hi) / 2) ∧ lo ≤ hi ∧
      (∀ y, lo ≤ y ↔ i * j ≤ 2 * numElems A (· ≤ y)) ∧
      ∀ y, hi ≤ y ↔ i * j < 2 * numElems A (· ≤ y) := by
  rcases Nat.mod_two_eq_zero_or_one (i * j) with hp | hp
  · obtain ⟨x, y, hx, hy, hm⟩ := median_even sort hsort A hp h0 hij
    refine ⟨x, y, ?_, isKth_mono A _ _ (Nat.sub_le _ 1) x y hx hy, fun z => ?_, fun z => ?_⟩
    · rw [hm, ExactRing.add_eq, ok_bind, ExactRing.ofInt_eq, Int.cast_ofNat,
        ExactField.div_eq _ _ (by norm_num), add_comm]
    · rw [hx.le_iff z]; omega
    · rw [hy.le_iff z]; omega
  · obtain ⟨m, hm, hk⟩ := median_odd sort hsort A hp
    refine ⟨m, m, ?_, le_rfl, fun z => ?_, fun z => ?_⟩
    · rw [hm]; congr 1; ring
    · rw [hk.le_iff z]; omega
    · rw [hk.le_iff z]; omega

/-- The counts of a histogram as weights. -/
theorem IsHist.weighted {T : Type} [Inhabited T] [CScalar T] [LinearOrder T] {M : Type}
    [AddCommMonoid M] (l : List T) (m : SizeMap T) (h : IsHist l m) (f : T → M) :
    (m.map fun q => q.2 • f q.1).sum = (l.map f).sum := by
  have hnd : m.Nodup := h.sorted.imp fun {a b} hab hc => by
    subst hc; exact lt_irrefl _ hab
  have e1 : (m.map fun q => q.2 • f q.1).sum = ∑ q ∈ m.toFinset, q.2 • f q.1 := by
    rw [List.sum_toFinset _ hnd]
  rw [e1, Finset.sum_list_map_count]
  symm
  refine Finset.sum_bij (fun x _ => (x, l.count x)) ?_ ?_ ?_ ?_
  · intro x hx
    rw [List.mem_toFinset] at hx ⊢
    exact (h.mem _ _).mpr ⟨rfl, List.count_pos_iff.mpr hx⟩
  · intro x _ y _ hxy
    exact (Prod.mk.inj hxy).1
  · rintro ⟨x, n⟩ hx
    rw [List.mem_toFinset, h.mem] at hx
    obtain ⟨rfl, h0⟩ := hx
    exact ⟨x, List.mem_toFinset.mpr (List.count_pos_iff.mp h0), rfl⟩
  · intro x _; rfl

end MatrixLibs
