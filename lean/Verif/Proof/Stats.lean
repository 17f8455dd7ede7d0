import Verif.Model.Stats
import Verif.Proof.Order
import Verif.Proof.RowMajor
import Verif.Proof.Arith
import Verif.Spec.Order

/-!
# Mean, median, variance
-/

namespace MatrixLibs

set_option linter.unusedSectionVars false

open CScalar (ofInt)

section
variable {T R : Type} [Inhabited T] [CScalar T] [Ring R] {i j : Nat}

/-- Accumulating a function of the elements. -/
theorem wp_accumulate (H : RingSem T R) (A : Mat T i j) (f : T → Res T) (g : T → R)
    (hf : ∀ x, wp (f x) (fun y => H.val y = g x) H.Bad) :
    wp (forUp 0 i (ofInt 0) fun it result =>
      forUp 0 j result fun jt result => do
        let x ← rd A it jt
        let y ← f x
        CScalar.add result y) (fun s => H.val s = ∑ a, ∑ b, g (A a b)) H.Bad := by
  rw [forElems A (ofInt 0) (fun result x => do
    let y ← f x
    CScalar.add result y)]
  refine wp_mono (wp_foldlM (fun pre s => H.val s = (pre.map g).sum) _ ?_ (rowMajor A) [] (ofInt 0)
    ?_) ?_ (fun _ h => h)
  · intro pre s x hs
    rw [wp_bind]
    refine wp_mono (hf x) ?_ (fun _ h => h)
    intro y hy
    refine wp_mono (H.add s y) ?_ (fun _ h => h)
    intro t ht
    rw [ht, hs, hy]
    simp
  · rw [H.ofInt 0 (by omega) (by omega)]
    simp
  · intro s hs
    rw [hs, List.nil_append, rowMajor_sum]

theorem wp_total_sum (H : RingSem T R) (A : Mat T i j) :
    wp (forUp 0 i (ofInt 0) fun it result =>
      forUp 0 j result fun jt result => do
        CScalar.add result (← rd A it jt)) (fun s => H.val s = ∑ a, ∑ b, H.val (A a b)) H.Bad :=
  wp_accumulate H A (fun x => .ok x) H.val (fun x => by rw [wp_ok])

end

section
variable {K : Type} [Field K] [Inhabited K] [CScalar K] [ExactField K] {i j : Nat}

theorem mean_ok (A : Mat K i j) (h : i * j ≠ 0) :
    mean A = .ok ((∑ a, ∑ b, A a b) / ((i * j : Nat) : K)) := by
  apply wp_eq
  unfold mean
  rw [wp_bind]
  refine wp_mono (wp_total_sum (RingSem.exact K) A) ?_ (fun _ h => h)
  intro s hs
  rw [ExactField.divSize_eq _ _ h, wp_ok]
  have hs' : s = ∑ a, ∑ b, A a b := hs
  rw [hs']

theorem mean_empty (A : Mat K i j) (h : i * j = 0) :
    mean A = .error (.ub .divisionByZero) := by
  unfold mean
  obtain ⟨s, hs, -⟩ := wp_total (wp_total_sum (RingSem.exact K) A)
  rw [hs, ok_bind, h, ExactField.divSize_zero]

theorem var_ok (A : Mat K i j) (h : i * j ≠ 0) :
    var A = .ok ((∑ a, ∑ b, (A a b - (∑ a, ∑ b, A a b) / ((i * j : Nat) : K)) *
      (A a b - (∑ a, ∑ b, A a b) / ((i * j : Nat) : K))) / ((i * j : Nat) : K)) := by
  apply wp_eq
  unfold var
  rw [mean_ok A h, ok_bind]
  set μ := (∑ a, ∑ b, A a b) / ((i * j : Nat) : K) with hμ
  have hbody : ∀ it jt, it < i → jt < j → ∀ result : K, (do
      let d ← CScalar.sub (← rd A it jt) μ
      let e ← CScalar.sub (← rd A it jt) μ
      CScalar.add result (← CScalar.mul d e)) = (do
      let x ← rd A it jt
      let y ← (do
        let d ← CScalar.sub x μ
        let e ← CScalar.sub x μ
        CScalar.mul d e)
      CScalar.add result y) := by
    intro it jt hi hj result
    rw [rd_eq hi hj, ok_bind, ok_bind]
    rw [ExactRing.sub_eq, ok_bind, ok_bind]
    rw [ExactRing.sub_eq, ok_bind, ok_bind]
    rfl
  rw [forUp_congr (fun it s _ hi => forUp_congr (fun jt s _ hj => hbody it jt hi hj s))]
  rw [wp_bind]
  refine wp_mono (wp_accumulate (RingSem.exact K) A
    (fun x => do
        let d ← CScalar.sub x μ
        let e ← CScalar.sub x μ
        CScalar.mul d e) (fun x => (x - μ) * (x - μ)) ?_) ?_ (fun _ h => h)
  · intro x
    rw [ExactRing.sub_eq, ok_bind, ok_bind, ExactRing.mul_eq, wp_ok]
    rfl
  · intro s hs
    rw [ExactField.divSize_eq _ _ h, wp_ok]
    have hs' : s = _ := hs
    rw [hs']

end

/-! ## Median -/

section
variable {T : Type} [Inhabited T] [CScalar T] {i j : Nat}

omit [CScalar T] in
theorem median_elems (A : Mat T i j) :
    (forUp 0 i [] fun it v => forUp 0 j v fun jt v => do
      .ok (v ++ [← rd A it jt])) = .ok (rowMajor A) := by
  rw [forElems A [] (fun v x => .ok (v ++ [x]))]
  rw [foldlM_ok _ _ _ (fun v x => v ++ [x]) (fun _ _ => rfl)]
  congr 1
  generalize rowMajor A = l
  suffices h : ∀ (l pre : List T), l.foldl (fun v x => v ++ [x]) pre = pre ++ l by
    rw [h, List.nil_append]
  intro l
  induction l with
  | nil => intro pre; rw [List.foldl_nil, List.append_nil]
  | cons x l ih =>
    intro pre
    rw [List.foldl_cons, ih, List.append_assoc, List.singleton_append]

end

section
variable {T : Type} [LinearOrder T]

/-- In a sorted list at least `k + 1` elements are not greater than the one at position `k`. -/
theorem sorted_count_le (l : List T) (hs : l.Pairwise (· ≤ ·)) (k : Nat) (hk : k < l.length)
    (m : T) (hm : l[k] ≤ m) : k + 1 ≤ l.countP (fun x => decide (x ≤ m)) := by
  have h1 : (l.take (k + 1)).countP (fun x => decide (x ≤ m)) = (l.take (k + 1)).length := by
    rw [List.countP_eq_length]
    intro x hx
    obtain ⟨n, hn, rfl⟩ := List.getElem_of_mem hx
    rw [List.length_take] at hn
    rw [List.getElem_take]
    refine decide_eq_true (le_trans ?_ hm)
    rcases Nat.lt_or_ge n k with h | h
    · exact List.pairwise_iff_getElem.mp hs n k (by omega) hk h
    · have : n = k := by omega
      subst this
      exact le_rfl
  have h2 := (List.take_sublist (k + 1) l).countP_le (p := fun x => decide (x ≤ m))
  rw [h1, List.length_take] at h2
  omega

/-- And at least `n - k` are not less than it. -/
theorem sorted_count_ge (l : List T) (hs : l.Pairwise (· ≤ ·)) (k : Nat) (hk : k < l.length)
    (m : T) (hm : m ≤ l[k]) : l.length - k ≤ l.countP (fun x => decide (m ≤ x)) := by
  have h1 : (l.drop k).countP (fun x => decide (m ≤ x)) = (l.drop k).length := by
    rw [List.countP_eq_length]
    intro x hx
    obtain ⟨n, hn, rfl⟩ := List.getElem_of_mem hx
    rw [List.length_drop] at hn
    rw [List.getElem_drop]
    refine decide_eq_true (le_trans hm ?_)
    rcases Nat.eq_zero_or_pos n with h | h
    · subst h
      exact le_rfl
    · exact List.pairwise_iff_getElem.mp hs k (k + n) hk (by omega) (by omega)
  have h2 := (List.drop_sublist k l).countP_le (p := fun x => decide (m ≤ x))
  rw [h1, List.length_drop] at h2
  exact h2

end

section
variable {T : Type} [LinearOrder T] {i j : Nat}

/-- The sorted elements are the order statistics. -/
theorem sorted_isKth (A : Mat T i j) (l : List T) (hp : l.Perm (rowMajor A))
    (hs : l.Pairwise (· ≤ ·)) (k : Nat) (hk : k < l.length) : IsKth A k l[k] := by
  refine ⟨(mem_rowMajor A _).mp (hp.mem_iff.mp (List.getElem_mem hk)), ?_, ?_⟩
  · rw [numElems_countP, ← hp.countP_eq]
    have h1 := sorted_count_ge l hs k hk l[k] le_rfl
    have h2 := List.length_eq_countP_add_countP (l := l) (fun x => decide (l[k] ≤ x))
    have h3 : l.countP (fun x => decide (x < l[k])) =
        l.countP (fun x => ¬ (decide (l[k] ≤ x) = true)) := by
      refine List.countP_congr (fun x _ => ?_)
      simp
    rw [h3]
    omega
  · rw [numElems_countP, ← hp.countP_eq]
    have := sorted_count_le l hs k hk l[k] le_rfl
    omega

theorem numElems_mono (A : Mat T i j) (p q : T → Prop) [DecidablePred p] [DecidablePred q]
    (h : ∀ x, p x → q x) : numElems A p ≤ numElems A q := by
  unfold numElems
  refine Finset.card_le_card ?_
  intro x hx
  rw [Finset.mem_filter] at *
  exact ⟨hx.1, h _ hx.2⟩

theorem isKth_unique (A : Mat T i j) (k : Nat) (x y : T) (hx : IsKth A k x) (hy : IsKth A k y) :
    x = y := by
  rcases lt_trichotomy x y with h | h | h
  · have := numElems_mono A (· ≤ x) (· < y) (fun z hz => lt_of_le_of_lt hz h)
    have h1 := hx.2.2
    have h2 := hy.2.1
    omega
  · exact h
  · have := numElems_mono A (· ≤ y) (· < x) (fun z hz => lt_of_le_of_lt hz h)
    have h1 := hy.2.2
    have h2 := hx.2.1
    omega

theorem numElems_rearranged {i' j' : Nat} (A : Mat T i j) (B : Mat T i' j') (h : Rearranged A B)
    (p : T → Prop) [DecidablePred p] : numElems A p = numElems B p := by
  obtain ⟨e, he⟩ := h
  rw [numElems_countP, numElems_countP, (rowMajor_perm A B e he).countP_eq]

theorem isKth_rearranged {i' j' : Nat} (A : Mat T i j) (B : Mat T i' j') (h : Rearranged A B)
    (k : Nat) (x : T) (hx : IsKth A k x) : IsKth B k x := by
  obtain ⟨⟨a, b, hab⟩, h1, h2⟩ := hx
  rw [numElems_rearranged A B h] at h1 h2
  obtain ⟨e, he⟩ := h
  exact ⟨⟨_, _, (he (a, b)).trans hab⟩, h1, h2⟩

theorem isKth_mono (A : Mat T i j) (k k' : Nat) (hk : k ≤ k') (x y : T) (hx : IsKth A k x)
    (hy : IsKth A k' y) : x ≤ y := by
  by_contra h
  rw [not_le] at h
  have := numElems_mono A (· ≤ y) (· < x) (fun z hz => lt_of_le_of_lt hz h)
  have h1 := hy.2.2
  have h2 := hx.2.1
  omega

/-- Elements not greater and elements greater. -/
theorem numElems_compl (A : Mat T i j) (p : T → Prop) [DecidablePred p] :
    numElems A p + numElems A (fun x => ¬ p x) = i * j := by
  rw [numElems_countP, numElems_countP, ← rowMajor_length A]
  rw [List.length_eq_countP_add_countP (l := rowMajor A) (fun x => decide (p x))]
  congr 1
  refine List.countP_congr (fun x _ => ?_)
  simp

end

section
variable {T : Type} [Inhabited T] [CScalar T] [LinearOrder T] {i j : Nat}

theorem vecRd_eq (v : List T) (k : Nat) (hk : k < v.length) : vecRd v k = .ok v[k] := by
  unfold vecRd
  rw [List.getElem?_eq_getElem hk]

theorem median_eq (sort : List T → List T) (A : Mat T i j) (hw : StrictWeak A) :
    median sort A = (if i * j % 2 = 0 then do
      let x ← vecRd (sort (rowMajor A)) (i * j / 2)
      let y ← vecRd (sort (rowMajor A)) (szSub (i * j / 2) 1)
      CScalar.div (← CScalar.add x y) (ofInt 2)
    else
      vecRd (sort (rowMajor A)) (i * j / 2)) := by
  unfold median stdSort
  rw [median_elems, ok_bind, if_pos hw, ok_bind]

theorem median_odd [OrderedScalar T] (sort : List T → List T) (hsort : Sorts sort) (A : Mat T i j)
    (h : i * j % 2 = 1) : ∃ m, median sort A = .ok m ∧ IsKth A (i * j / 2) m := by
  obtain ⟨hp, hs⟩ := hsort (rowMajor A)
  have hl : (sort (rowMajor A)).length = i * j := by rw [hp.length_eq, rowMajor_length]
  have hk : i * j / 2 < (sort (rowMajor A)).length := by rw [hl]; omega
  refine ⟨(sort (rowMajor A))[i * j / 2], ?_, sorted_isKth A _ hp hs _ hk⟩
  rw [median_eq _ _ (strictWeak_of_lt OrderedScalar.lt_iff A), if_neg (by omega), vecRd_eq _ _ hk]

theorem median_even [OrderedScalar T] (sort : List T → List T) (hsort : Sorts sort) (A : Mat T i j)
    (h : i * j % 2 = 0) (h0 : i * j ≠ 0) (hij : i * j < 2 ^ 64) :
    ∃ x y, IsKth A (i * j / 2 - 1) x ∧ IsKth A (i * j / 2) y ∧
      median sort A = (do CScalar.div (← CScalar.add y x) (ofInt 2)) := by
  obtain ⟨hp, hs⟩ := hsort (rowMajor A)
  have hl : (sort (rowMajor A)).length = i * j := by rw [hp.length_eq, rowMajor_length]
  have hk : i * j / 2 < (sort (rowMajor A)).length := by rw [hl]; omega
  have hk' : i * j / 2 - 1 < (sort (rowMajor A)).length := by rw [hl]; omega
  have hsz : szSub (i * j / 2) 1 = i * j / 2 - 1 := by
    unfold szSub sizeMod
    omega
  refine ⟨_, _, sorted_isKth A _ hp hs _ hk', sorted_isKth A _ hp hs _ hk, ?_⟩
  rw [median_eq _ _ (strictWeak_of_lt OrderedScalar.lt_iff A), if_pos h, hsz, vecRd_eq _ _ hk, vecRd_eq _ _ hk', ok_bind, ok_bind]

theorem median_empty [OrderedScalar T] (sort : List T → List T) (hsort : Sorts sort) (A : Mat T i j)
    (h : i * j = 0) : median sort A = .error (.ub .outOfBounds) := by
  obtain ⟨hp, hs⟩ := hsort (rowMajor A)
  have hl : (sort (rowMajor A)).length = 0 := by rw [hp.length_eq, rowMajor_length, h]
  rw [median_eq _ _ (strictWeak_of_lt OrderedScalar.lt_iff A), h, if_pos rfl]
  unfold vecRd
  rw [List.getElem?_eq_none (by omega), error_bind]

end

end MatrixLibs
