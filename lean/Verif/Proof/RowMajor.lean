import Verif.Proof.Wp
import Verif.Spec.Order
import Mathlib.Data.List.OfFn
import Mathlib.Data.List.FinRange
import Mathlib.Algebra.BigOperators.Fin
import Mathlib.Algebra.BigOperators.Group.Finset.Basic
import Mathlib.Data.Fintype.BigOperators

/-!
# Row-major loops as folds over the list of elements
-/

namespace MatrixLibs

variable {T σ : Type} {r c : Nat}

/-- The elements in row-major order. -/
def rowMajor (A : Mat T r c) : List T :=
  (List.finRange r).flatMap fun a => (List.finRange c).map fun b => A a b

theorem loopN_foldlM (body : Nat → σ → Res σ) :
    ∀ (cnt k : Nat) (s : σ),
      loopN body cnt k s = (List.range' k cnt).foldlM (fun s m => body m s) s := by
  intro cnt
  induction cnt with
  | zero => intro k s; rfl
  | succ n ih =>
    intro k s
    rw [loopN, List.range'_succ, List.foldlM_cons]
    congr 1
    funext s
    exact ih (k + 1) s

theorem forUp_foldlM (n : Nat) (s : σ) (body : Nat → σ → Res σ) :
    forUp 0 n s body = (List.finRange n).foldlM (fun s m => body m.val s) s := by
  unfold forUp
  rw [loopN_foldlM, Nat.sub_zero]
  have : List.range' 0 n = (List.finRange n).map Fin.val := by
    rw [List.map_coe_finRange_eq_range, List.range_eq_range']
  rw [this, List.foldlM_map]

/-- A loop over rows and columns that reads each element once. -/
theorem forElems (A : Mat T r c) (s : σ) (f : σ → T → Res σ) :
    (forUp 0 r s fun it s => forUp 0 c s fun jt s => do f s (← rd A it jt)) =
      (rowMajor A).foldlM f s := by
  rw [forUp_foldlM]
  unfold rowMajor
  have hflat : ∀ (l : List (Fin r)) (s : σ), (l.flatMap fun a => (List.finRange c).map fun b =>
      A a b).foldlM f s = l.foldlM (fun s a => ((List.finRange c).map fun b => A a b).foldlM f s) s
      := by
    intro l
    induction l with
    | nil => intro s; rfl
    | cons a l ih =>
      intro s
      rw [List.flatMap_cons, List.foldlM_append, List.foldlM_cons]
      congr 1
      funext s
      exact ih s
  rw [hflat]
  congr 1
  funext s a
  rw [forUp_foldlM, List.foldlM_map]
  congr 1
  funext s b
  rw [rd_fin, ok_bind]

theorem foldlM_ok (l : List T) (s : σ) (f : σ → T → Res σ) (g : σ → T → σ)
    (h : ∀ s x, f s x = .ok (g s x)) : l.foldlM f s = .ok (l.foldl g s) := by
  induction l generalizing s with
  | nil => rfl
  | cons x l ih => rw [List.foldlM_cons, h, ok_bind, ih, List.foldl_cons]

theorem wp_foldlM {E : Stop → Prop} (I : List T → σ → Prop) (f : σ → T → Res σ)
    (hstep : ∀ pre s x, I pre s → wp (f s x) (I (pre ++ [x])) E) :
    ∀ (l pre : List T) (s : σ), I pre s → wp (l.foldlM f s) (I (pre ++ l)) E := by
  intro l
  induction l with
  | nil =>
    intro pre s h
    rw [List.foldlM_nil, List.append_nil]
    exact h
  | cons x l ih =>
    intro pre s h
    rw [List.foldlM_cons, wp_bind]
    refine wp_mono (hstep pre s x h) ?_ (fun _ h => h)
    intro s' h'
    have := ih (pre ++ [x]) s' h'
    rwa [List.append_assoc, List.singleton_append] at this

theorem rowMajor_length (A : Mat T r c) : (rowMajor A).length = r * c := by
  unfold rowMajor
  rw [List.length_flatMap]
  simp

theorem mem_rowMajor (A : Mat T r c) (x : T) : x ∈ rowMajor A ↔ ∃ a b, A a b = x := by
  unfold rowMajor
  simp

/-- Sums over the elements. -/
theorem rowMajor_sum {M : Type} [AddCommMonoid M] (A : Mat T r c) (f : T → M) :
    ((rowMajor A).map f).sum = ∑ a, ∑ b, f (A a b) := by
  unfold rowMajor
  rw [List.map_flatMap, List.flatMap_def, List.sum_flatten, List.map_map]
  show ((List.finRange r).map fun a => (((List.finRange c).map fun b => A a b).map f).sum).sum = _
  simp only [List.map_map]
  rw [← List.ofFn_eq_map, List.sum_ofFn]
  refine Finset.sum_congr rfl (fun a _ => ?_)
  rw [← List.ofFn_eq_map, List.sum_ofFn]
  rfl

/-- Counting elements. -/
theorem rowMajor_countP (A : Mat T r c) (p : T → Bool) :
    (rowMajor A).countP p =
      (Finset.univ.filter fun q : Fin r × Fin c => p (A q.1 q.2) = true).card := by
  rw [Finset.card_filter, Fintype.sum_prod_type]
  rw [← rowMajor_sum A (fun x => if p x = true then 1 else 0)]
  generalize rowMajor A = l
  induction l with
  | nil => rfl
  | cons x l ih =>
    rw [List.countP_cons, List.map_cons, List.sum_cons, ih, add_comm]

/-- A rearrangement of the elements of a matrix, possibly of another shape. -/
theorem rowMajor_perm {r' c' : Nat} (A : Mat T r c) (B : Mat T r' c')
    (e : Fin r × Fin c ≃ Fin r' × Fin c') (h : ∀ q, B (e q).1 (e q).2 = A q.1 q.2) :
    (rowMajor A).Perm (rowMajor B) := by
  classical
  rw [List.perm_iff_count]
  intro x
  rw [List.count_eq_countP, List.count_eq_countP, rowMajor_countP, rowMajor_countP]
  refine Finset.card_bij (fun q _ => e q) ?_ ?_ ?_
  · intro q hq
    rw [Finset.mem_filter] at *
    rw [h q]
    exact ⟨Finset.mem_univ _, hq.2⟩
  · intro q _ q' _ hqq
    exact e.injective hqq
  · intro q hq
    rw [Finset.mem_filter] at hq
    refine ⟨e.symm q, ?_, e.apply_symm_apply q⟩
    rw [Finset.mem_filter]
    refine ⟨Finset.mem_univ _, ?_⟩
    have := h (e.symm q)
    rw [e.apply_symm_apply] at this
    rw [← this]
    exact hq.2

theorem numElems_countP (A : Mat T r c) (p : T → Prop) [DecidablePred p] :
    numElems A p = (rowMajor A).countP (fun x => decide (p x)) := by
  rw [rowMajor_countP]
  unfold numElems
  simp only [decide_eq_true_eq]

theorem numElems_count [DecidableEq T] (A : Mat T r c) (x : T) :
    numElems A (· = x) = (rowMajor A).count x := by
  rw [numElems_countP, List.count_eq_countP]
  congr 1

/-- The elements, numbered in row-major order. -/
theorem rowMajor_ofFn (A : Mat T r c) :
    rowMajor A = List.ofFn fun k : Fin (r * c) => A k.divNat k.modNat := by
  unfold rowMajor
  rw [List.ofFn_mul, List.flatMap_def, ← List.ofFn_eq_map]
  congr 1
  refine congrArg _ (funext fun a => ?_)
  rw [← List.ofFn_eq_map]
  refine congrArg _ (funext fun b => ?_)
  have hc : 0 < c := by have := b.isLt; omega
  congr 1
  · apply Fin.ext
    show a.val = (a.val * c + b.val) / c
    rw [mul_comm, Nat.mul_add_div hc, Nat.div_eq_of_lt b.isLt, add_zero]
  · apply Fin.ext
    show b.val = (a.val * c + b.val) % c
    rw [mul_comm, Nat.mul_add_mod, Nat.mod_eq_of_lt b.isLt]

end MatrixLibs
