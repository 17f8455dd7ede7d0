import Verif.Model.Stats
import Verif.Proof.Order
import Verif.Proof.RowMajor
import Mathlib.Data.List.Sort

/-!
# Histograms
-/

namespace MatrixLibs

set_option linter.unusedSectionVars false

section
variable {T : Type} [Inhabited T] [CScalar T] [LinearOrder T]
  (hlt : ∀ a b : T, CScalar.lt a b = true ↔ a < b)

/-- Keys strictly increasing. -/
def KeysSorted (m : SizeMap T) : Prop := m.Pairwise fun p q => p.1 < q.1

include hlt

theorem update_cons (k k' : T) (c : Nat) (t : SizeMap T) (f : Nat → Nat) :
    SizeMap.update ((k', c) :: t) k f =
      if k < k' then (k, f 0) :: (k', c) :: t
      else if k' < k then (k', c) :: SizeMap.update t k f
      else (k', f c) :: t := by
  rw [SizeMap.update]
  simp only [hlt]

theorem update_mem (m : SizeMap T) (k : T) (f : Nat → Nat) (hs : KeysSorted m) (x : T) (c : Nat) :
    (x, c) ∈ m.update k f ↔ (x ≠ k ∧ (x, c) ∈ m) ∨
      (x = k ∧ ((∃ c0, (k, c0) ∈ m ∧ c = f c0) ∨ ((∀ c0, (k, c0) ∉ m) ∧ c = f 0))) := by
  induction m with
  | nil => rw [SizeMap.update]; simp
  | cons p t ih =>
    obtain ⟨k', c'⟩ := p
    obtain ⟨hhead, htail⟩ := List.pairwise_cons.mp hs
    rw [update_cons hlt]
    split
    · next h =>
      have hno : ∀ c0, (k, c0) ∉ (k', c') :: t := by
        intro c0 hmem
        rcases List.mem_cons.mp hmem with h' | h'
        · cases h'; exact lt_irrefl _ h
        · exact lt_irrefl _ (lt_trans h (hhead _ h'))
      constructor
      · intro hmem
        rcases List.mem_cons.mp hmem with h' | h'
        · cases h'
          exact Or.inr ⟨rfl, Or.inr ⟨hno, rfl⟩⟩
        · left
          refine ⟨?_, h'⟩
          rintro rfl
          exact hno c h'
      · rintro (⟨-, h'⟩ | ⟨rfl, ⟨c0, h', -⟩ | ⟨-, rfl⟩⟩)
        · exact List.mem_cons_of_mem _ h'
        · exact absurd h' (hno c0)
        · exact List.mem_cons_self
    · split
      · next h1 h2 =>
        have hne : k ≠ k' := ne_of_gt h2
        constructor
        · intro hmem
          rcases List.mem_cons.mp hmem with h' | h'
          · cases h'
            exact Or.inl ⟨fun h => hne h.symm, List.mem_cons_self⟩
          · rcases (ih htail).mp h' with ⟨h3, h4⟩ | ⟨rfl, ⟨c0, h4, h5⟩ | ⟨h4, h5⟩⟩
            · exact Or.inl ⟨h3, List.mem_cons_of_mem _ h4⟩
            · exact Or.inr ⟨rfl, Or.inl ⟨c0, List.mem_cons_of_mem _ h4, h5⟩⟩
            · refine Or.inr ⟨rfl, Or.inr ⟨fun c0 hmem => ?_, h5⟩⟩
              rcases List.mem_cons.mp hmem with h6 | h6
              · cases h6; exact hne rfl
              · exact h4 c0 h6
        · rintro (⟨h3, h4⟩ | ⟨rfl, ⟨c0, h4, h5⟩ | ⟨h4, h5⟩⟩)
          · rcases List.mem_cons.mp h4 with h6 | h6
            · rw [h6]; exact List.mem_cons_self
            · exact List.mem_cons_of_mem _ ((ih htail).mpr (Or.inl ⟨h3, h6⟩))
          · rcases List.mem_cons.mp h4 with h6 | h6
            · cases h6; exact absurd rfl hne
            · exact List.mem_cons_of_mem _ ((ih htail).mpr (Or.inr ⟨rfl, Or.inl ⟨c0, h6, h5⟩⟩))
          · exact List.mem_cons_of_mem _ ((ih htail).mpr
              (Or.inr ⟨rfl, Or.inr ⟨fun c0 h => h4 c0 (List.mem_cons_of_mem _ h), h5⟩⟩))
      · next h1 h2 =>
        have heq : k = k' := le_antisymm (not_lt.mp h2) (not_lt.mp h1)
        subst heq
        constructor
        · intro hmem
          rcases List.mem_cons.mp hmem with h' | h'
          · cases h'
            exact Or.inr ⟨rfl, Or.inl ⟨c', List.mem_cons_self, rfl⟩⟩
          · exact Or.inl ⟨ne_of_gt (hhead _ h'), List.mem_cons_of_mem _ h'⟩
        · rintro (⟨h3, h4⟩ | ⟨rfl, ⟨c0, h4, h5⟩ | ⟨h4, h5⟩⟩)
          · rcases List.mem_cons.mp h4 with h6 | h6
            · cases h6; exact absurd rfl h3
            · exact List.mem_cons_of_mem _ h6
          · rcases List.mem_cons.mp h4 with h6 | h6
            · cases h6; rw [h5]; exact List.mem_cons_self
            · exact absurd (hhead _ h6) (lt_irrefl _)
          · exact absurd List.mem_cons_self (h4 c')

theorem update_keys (m : SizeMap T) (k : T) (f : Nat → Nat) (q : T × Nat)
    (h : q ∈ m.update k f) : q.1 = k ∨ q ∈ m := by
  induction m with
  | nil =>
    rw [SizeMap.update] at h
    rw [List.mem_singleton.mp h]
    exact Or.inl rfl
  | cons p t ih =>
    obtain ⟨k', c'⟩ := p
    rw [update_cons hlt] at h
    split at h
    · rcases List.mem_cons.mp h with rfl | h
      · exact Or.inl rfl
      · exact Or.inr h
    · split at h
      · rcases List.mem_cons.mp h with rfl | h
        · exact Or.inr List.mem_cons_self
        · rcases ih h with h | h
          · exact Or.inl h
          · exact Or.inr (List.mem_cons_of_mem _ h)
      · next h1 h2 =>
        rcases List.mem_cons.mp h with rfl | h
        · exact Or.inl (le_antisymm (not_lt.mp h1) (not_lt.mp h2))
        · exact Or.inr (List.mem_cons_of_mem _ h)

theorem update_sorted (m : SizeMap T) (k : T) (f : Nat → Nat) (hs : KeysSorted m) :
    KeysSorted (m.update k f) := by
  induction m with
  | nil => rw [SizeMap.update]; exact List.pairwise_singleton _ _
  | cons p t ih =>
    obtain ⟨k', c'⟩ := p
    obtain ⟨hhead, htail⟩ := List.pairwise_cons.mp hs
    rw [update_cons hlt]
    split
    · next h =>
      refine List.pairwise_cons.mpr ⟨?_, hs⟩
      intro q hq
      rcases List.mem_cons.mp hq with rfl | hq
      · exact h
      · exact lt_trans h (hhead q hq)
    · split
      · next h1 h2 =>
        refine List.pairwise_cons.mpr ⟨?_, ih htail⟩
        intro q hq
        rcases update_keys hlt t k f q hq with h | h
        · rw [h]; exact h2
        · exact hhead q h
      · exact List.pairwise_cons.mpr ⟨hhead, htail⟩

/-- The sum of the counts over the keys satisfying `p`. -/
def countSum (p : T → Bool) (m : SizeMap T) : Nat :=
  ((m.filter fun q => p q.1).map Prod.snd).sum

theorem countSum_cons (p : T → Bool) (k : T) (c : Nat) (t : SizeMap T) :
    countSum p ((k, c) :: t) = (if p k then c else 0) + countSum p t := by
  unfold countSum
  rw [List.filter_cons]
  split <;> simp

theorem countSum_update (p : T → Bool) (m : SizeMap T) (k : T) :
    countSum p (m.update k (· + 1)) = (if p k then 1 else 0) + countSum p m := by
  induction m with
  | nil =>
    rw [SizeMap.update, countSum_cons hlt]
  | cons q t ih =>
    obtain ⟨k', c'⟩ := q
    rw [update_cons hlt]
    split
    · rw [countSum_cons hlt]
    · split
      · rw [countSum_cons hlt, ih, countSum_cons hlt]
        omega
      · next h1 h2 =>
        have heq : k = k' := le_antisymm (not_lt.mp h2) (not_lt.mp h1)
        subst heq
        rw [countSum_cons hlt, countSum_cons hlt]
        split <;> omega

/-- What a histogram of the elements `l` is. -/
structure IsHist (l : List T) (m : SizeMap T) : Prop where
  sorted : KeysSorted m
  mem : ∀ x c, (x, c) ∈ m ↔ c = l.count x ∧ 0 < c
  sum : ∀ p : T → Bool, countSum p m = l.countP p

theorem hist_step (l : List T) (m : SizeMap T) (x : T) (h : IsHist l m) :
    IsHist (l ++ [x]) (m.update x (· + 1)) := by
  refine ⟨update_sorted hlt m x _ h.sorted, ?_, ?_⟩
  · intro y c
    rw [update_mem hlt m x _ h.sorted]
    rw [List.count_append, List.count_singleton]
    constructor
    · rintro (⟨h1, h2⟩ | ⟨rfl, ⟨c0, h1, rfl⟩ | ⟨h1, rfl⟩⟩)
      · obtain ⟨h3, h4⟩ := (h.mem y c).mp h2
        rw [if_neg (by simpa using fun h => h1 h.symm)]
        omega
      · obtain ⟨h3, h4⟩ := (h.mem y c0).mp h1
        simp
        omega
      · have h0 : l.count y = 0 := by
          by_contra hne
          exact h1 (l.count y) ((h.mem y _).mpr ⟨rfl, by omega⟩)
        simp [h0]
    · rintro ⟨rfl, h2⟩
      by_cases hyx : y = x
      · subst hyx
        right
        refine ⟨rfl, ?_⟩
        by_cases h0 : l.count y = 0
        · right
          refine ⟨fun c0 hc0 => ?_, by simp [h0]⟩
          have := (h.mem y c0).mp hc0
          omega
        · left
          exact ⟨l.count y, (h.mem y _).mpr ⟨rfl, by omega⟩, by simp⟩
      · left
        have hxy : ¬ ((x == y) = true) := by
          simpa using fun h => hyx h.symm
        rw [if_neg hxy] at h2 ⊢
        refine ⟨hyx, (h.mem y _).mpr ⟨by omega, h2⟩⟩
  · intro p
    rw [countSum_update hlt, h.sum p, List.countP_append, List.countP_singleton]
    omega

theorem isHist_nil : IsHist ([] : List T) [] :=
  ⟨List.Pairwise.nil, fun x c => by simp, fun p => rfl⟩

/-- The counters do not wrap as long as there are fewer than 2^64 elements. -/
theorem histogram_isHist {i j : Nat} (A : Mat T i j) (hij : i * j < 2 ^ 64) :
    wp (histogram A) (IsHist (rowMajor A)) (fun _ => False) := by
  unfold histogram
  rw [if_pos (strictWeak_of_lt hlt A)]
  rw [forElems A [] (fun h x => .ok (SizeMap.update h x fun c => szAdd c 1))]
  have key := wp_foldlM (E := fun _ => False)
    (fun pre m => pre.length < 2 ^ 64 → IsHist pre m)
    (fun h x => .ok (SizeMap.update h x fun c => szAdd c 1))
    (by
      intro pre m x ih
      rw [wp_ok]
      intro hlen
      rw [List.length_append, List.length_singleton] at hlen
      have hm := ih (by omega)
      have : m.update x (fun c => szAdd c 1) = m.update x (· + 1) := by
        -- every counter in the map is at most the number of elements seen
        have hbound : ∀ c, (x, c) ∈ m → szAdd c 1 = c + 1 := by
          intro c hc
          have h1 := ((hm.mem x c).mp hc).1
          have h2 := List.count_le_length (a := x) (l := pre)
          unfold szAdd sizeMod
          rw [Nat.mod_eq_of_lt (by omega)]
        have h0 : szAdd 0 1 = 0 + 1 := rfl
        clear ih
        have gen : ∀ m : SizeMap T, (∀ c, (x, c) ∈ m → szAdd c 1 = c + 1) →
            m.update x (fun c => szAdd c 1) = m.update x (· + 1) := by
          intro m
          induction m with
          | nil => intro _; rw [SizeMap.update, SizeMap.update, h0]
          | cons q t ih =>
            obtain ⟨k', c'⟩ := q
            intro hb
            rw [update_cons hlt, update_cons hlt, h0]
            split
            · rfl
            · split
              · rw [ih (fun c hc => hb c (List.mem_cons_of_mem _ hc))]
              · next h1 h2 =>
                have heq : x = k' := le_antisymm (not_lt.mp h2) (not_lt.mp h1)
                subst heq
                rw [hb c' List.mem_cons_self]
        exact gen m hbound
      rw [this]
      exact hist_step hlt pre m x hm)
    (rowMajor A) [] [] (fun _ => isHist_nil hlt)
  refine wp_mono key ?_ (fun _ h => h)
  intro m hm
  rw [List.nil_append] at hm
  exact hm (by rw [rowMajor_length]; exact hij)

/-- A histogram is determined by the elements up to order. -/
theorem isHist_unique (l l' : List T) (m m' : SizeMap T) (hp : l.Perm l') (h : IsHist l m)
    (h' : IsHist l' m') : m = m' := by
  have hmem : ∀ q, q ∈ m ↔ q ∈ m' := by
    rintro ⟨x, c⟩
    rw [h.mem, h'.mem, hp.count_eq]
  have nd : ∀ {m : SizeMap T}, KeysSorted m → m.Nodup := by
    intro m hs
    refine List.Pairwise.imp ?_ hs
    rintro p q hpq rfl
    exact lt_irrefl _ hpq
  have hperm : m.Perm m' := (List.perm_ext_iff_of_nodup (nd h.sorted) (nd h'.sorted)).mpr hmem
  refine List.Perm.eq_of_pairwise (le := fun p q : T × Nat => p.1 < q.1) ?_ h.sorted h'.sorted
    hperm
  intro a b _ _ hab hba
  exact absurd (lt_trans hab hba) (lt_irrefl _)

/-! ## Cumulative histogram -/

/-- Running totals. -/
def running : Nat → SizeMap T → SizeMap T
  | _, [] => []
  | s, (k, c) :: t => (k, s + c) :: running (s + c) t

theorem update_append (m : SizeMap T) (k : T) (f : Nat → Nat) (h : ∀ q ∈ m, q.1 < k) :
    m.update k f = m ++ [(k, f 0)] := by
  induction m with
  | nil => rw [SizeMap.update]; rfl
  | cons q t ih =>
    obtain ⟨k', c'⟩ := q
    have h1 : k' < k := h _ List.mem_cons_self
    rw [update_cons hlt, if_neg (not_lt.mpr h1.le), if_pos h1,
      ih (fun q hq => h q (List.mem_cons_of_mem _ hq))]
    rfl

theorem cumul_fold (h : SizeMap T) : ∀ (m : SizeMap T) (s : Nat),
    KeysSorted h → (∀ q ∈ m, ∀ p ∈ h, q.1 < p.1) → s + (h.map Prod.snd).sum < 2 ^ 64 →
    (h.foldl (fun (s : SizeMap T × Nat) (p : T × Nat) =>
      (s.1.update p.1 fun _ => szAdd s.2 p.2, szAdd s.2 p.2)) (m, s)).1 = m ++ running s h := by
  induction h with
  | nil =>
    intro m s _ _ _
    rw [List.foldl_nil, running, List.append_nil]
  | cons p t ih =>
    obtain ⟨k, c⟩ := p
    intro m s hs hm hsum
    rw [List.map_cons, List.sum_cons] at hsum
    obtain ⟨hhead, htail⟩ := List.pairwise_cons.mp hs
    have hadd : szAdd s c = s + c := by
      unfold szAdd sizeMod
      rw [Nat.mod_eq_of_lt]
      dsimp only at hsum
      omega
    rw [List.foldl_cons]
    dsimp only
    rw [hadd, update_append hlt m k _ (fun q hq => hm q hq _ List.mem_cons_self),
      ih _ _ htail ?_ (by dsimp only at hsum; omega), running, List.append_assoc,
      List.singleton_append]
    intro q hq p hp
    rcases List.mem_append.mp hq with hq | hq
    · exact hm q hq p (List.mem_cons_of_mem _ hp)
    · rw [List.mem_singleton.mp hq]
      exact hhead p hp

theorem running_keys (h : SizeMap T) : ∀ s, (running s h).map Prod.fst = h.map Prod.fst := by
  induction h with
  | nil => intro s; rfl
  | cons p t ih =>
    obtain ⟨k, c⟩ := p
    intro s
    rw [running, List.map_cons, List.map_cons, ih]

/-- The value at a key: the start value plus the counts of all keys up to it. -/
theorem running_mem (h : SizeMap T) : ∀ (s : Nat) (k : T) (v : Nat), KeysSorted h →
    (k, v) ∈ running s h → v = s + countSum (fun x => decide (x ≤ k)) h := by
  induction h with
  | nil => intro s k v _ hm; exact absurd hm List.not_mem_nil
  | cons p t ih =>
    obtain ⟨k', c⟩ := p
    intro s k v hs hm
    obtain ⟨hhead, htail⟩ := List.pairwise_cons.mp hs
    rw [running] at hm
    rw [countSum_cons hlt]
    rcases List.mem_cons.mp hm with h | h
    · cases h
      have : countSum (fun x => decide (x ≤ k')) t = 0 := by
        unfold countSum
        have hf : t.filter (fun q => decide (q.1 ≤ k')) = [] := by
          rw [List.filter_eq_nil_iff]
          intro q hq
          simpa using hhead q hq
        rw [hf]; rfl
      rw [this]
      simp
    · have hk : k' ≤ k := by
        have : k ∈ (running (s + c) t).map Prod.fst := List.mem_map.mpr ⟨_, h, rfl⟩
        rw [running_keys hlt] at this
        obtain ⟨q, hq, rfl⟩ := List.mem_map.mp this
        exact (hhead q hq).le
      rw [ih (s + c) k v htail h]
      simp [hk]
      omega

theorem cumulative_ok {i j : Nat} (A : Mat T i j) (hij : i * j < 2 ^ 64) :
    ∃ h, histogram A = .ok h ∧ IsHist (rowMajor A) h ∧
      cumulative_histogram A = .ok (running 0 h) := by
  obtain ⟨h, hh, hH⟩ := wp_total (histogram_isHist hlt A hij)
  refine ⟨h, hh, hH, ?_⟩
  unfold cumulative_histogram
  rw [hh, ok_bind]
  dsimp only
  rw [cumul_fold hlt h [] 0 hH.sorted (fun q hq => absurd hq List.not_mem_nil)]
  · rfl
  · have := hH.sum (fun _ => true)
    unfold countSum at this
    rw [List.filter_true] at this
    rw [this, List.countP_true, rowMajor_length]
    omega

end

end MatrixLibs
