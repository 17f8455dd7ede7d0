import Verif.Proof.Hist

/-!
# Histograms of elements compared by a key

Different elements may compare equivalent (`-0` and `+0`); the map keeps the first one.
-/

namespace MatrixLibs

set_option linter.unusedSectionVars false

section
variable {T L : Type} [Inhabited T] [CScalar T] [Inhabited L] [CScalar L] [LinearOrder L]
  (hlt : ∀ a b : L, CScalar.lt a b = true ↔ a < b) (P : T → Prop) (key : T → L)
  (hkey : ∀ a b : T, P a → P b → (CScalar.lt a b = true ↔ key a < key b))

/-- The same map with its keys replaced. -/
def mapKeys (key : T → L) (m : SizeMap T) : SizeMap L := m.map (Prod.map key id)

/-- One more element counted. -/
def bump {T : Type} [Inhabited T] [CScalar T] (m : SizeMap T) (x : T) : SizeMap T :=
  m.update x fun c => szAdd c 1

include hlt

theorem bump_covers (l : List L) : KeysSorted (l.foldl bump []) ∧
    ∀ x ∈ l, ∃ c, (x, c) ∈ l.foldl bump ([] : SizeMap L) := by
  induction l using List.reverseRecOn with
  | nil => exact ⟨List.Pairwise.nil, fun x h => absurd h List.not_mem_nil⟩
  | append_singleton l y ih =>
    obtain ⟨hs, hc⟩ := ih
    rw [List.foldl_append, List.foldl_cons, List.foldl_nil]
    refine ⟨update_sorted hlt _ _ _ hs, fun x hx => ?_⟩
    by_cases hxy : x = y
    · subst hxy
      by_cases h : ∃ c0, (x, c0) ∈ l.foldl bump ([] : SizeMap L)
      · obtain ⟨c0, h⟩ := h
        exact ⟨_, (update_mem hlt _ _ _ hs _ _).mpr (.inr ⟨rfl, .inl ⟨c0, h, rfl⟩⟩)⟩
      · exact ⟨_, (update_mem hlt _ _ _ hs _ _).mpr (.inr ⟨rfl, .inr ⟨fun c0 h' => h ⟨c0, h'⟩, rfl⟩⟩)⟩
    · have hx' : x ∈ l := by
        rcases List.mem_append.mp hx with h | h
        · exact h
        · exact absurd (List.mem_singleton.mp h) hxy
      obtain ⟨c, hc⟩ := hc x hx'
      exact ⟨c, (update_mem hlt _ _ _ hs _ _).mpr (.inl ⟨hxy, hc⟩)⟩

include hkey

theorem update_hom (m : SizeMap T) (k : T) (f : Nat → Nat) (hk : P k) (hm : ∀ q ∈ m, P q.1) :
    mapKeys key (m.update k f) = SizeMap.update (mapKeys key m) (key k) f := by
  induction m with
  | nil => rfl
  | cons p t ih =>
    obtain ⟨k', c⟩ := p
    have hk' : P k' := hm _ List.mem_cons_self
    have ih := ih fun q hq => hm q (List.mem_cons_of_mem _ hq)
    have e : mapKeys key ((k', c) :: t) = (key k', c) :: mapKeys key t := rfl
    rw [e, SizeMap.update, SizeMap.update]
    simp only [hkey _ _ hk hk', hkey _ _ hk' hk, hlt]
    split_ifs
    · rfl
    · rw [← ih]; rfl
    · rfl

/-- A key after an update: an old one, or the new one if no old one is equivalent. -/
theorem update_first (m : SizeMap T) (k : T) (f : Nat → Nat) (hk : P k) (hm : ∀ q ∈ m, P q.1)
    (hs : KeysSorted (mapKeys key m)) (q : T × Nat) (hq : q ∈ m.update k f) :
    (q.1 = k ∧ ∀ p ∈ m, key p.1 ≠ key k) ∨ ∃ c, (q.1, c) ∈ m := by
  induction m with
  | nil =>
    rw [SizeMap.update] at hq
    rw [List.mem_singleton.mp hq]
    exact .inl ⟨rfl, fun p hp => absurd hp List.not_mem_nil⟩
  | cons p t ih =>
    obtain ⟨k', c⟩ := p
    have hk' : P k' := hm _ List.mem_cons_self
    obtain ⟨hhead, htail⟩ := List.pairwise_cons.mp (show KeysSorted ((key k', c) :: mapKeys key t) from hs)
    have hhead' : ∀ p ∈ t, key k' < key p.1 := fun p hp =>
      hhead (Prod.map key id p) (List.mem_map.mpr ⟨p, hp, rfl⟩)
    have ih := ih (fun q hq => hm q (List.mem_cons_of_mem _ hq)) htail
    rw [SizeMap.update] at hq
    simp only [hkey _ _ hk hk', hkey _ _ hk' hk] at hq
    split_ifs at hq with h1 h2
    · rcases List.mem_cons.mp hq with rfl | hq
      · refine .inl ⟨rfl, fun p hp => ?_⟩
        rcases List.mem_cons.mp hp with rfl | hp
        · exact (ne_of_lt h1).symm
        · exact (ne_of_lt (h1.trans (hhead' p hp))).symm
      · exact .inr ⟨q.2, hq⟩
    · rcases List.mem_cons.mp hq with rfl | hq
      · exact .inr ⟨c, List.mem_cons_self⟩
      · rcases ih hq with ⟨h3, h4⟩ | ⟨c', h3⟩
        · refine .inl ⟨h3, fun p hp => ?_⟩
          rcases List.mem_cons.mp hp with rfl | hp
          · exact ne_of_lt h2
          · exact h4 p hp
        · exact .inr ⟨c', List.mem_cons_of_mem _ h3⟩
    · rcases List.mem_cons.mp hq with rfl | hq
      · exact .inr ⟨c, List.mem_cons_self⟩
      · exact .inr ⟨q.2, List.mem_cons_of_mem _ hq⟩

/-- The histogram by keys is the histogram of the keys; every entry holds the first of the elements equivalent
to it. -/
theorem hist_key (l : List T) (hl : ∀ x ∈ l, P x) :
    mapKeys key (l.foldl bump []) = (l.map key).foldl bump [] ∧
    (∀ q ∈ l.foldl bump [], P q.1 ∧
      ∃ pre post, l = pre ++ q.1 :: post ∧ ∀ x ∈ pre, key x ≠ key q.1) := by
  induction l using List.reverseRecOn with
  | nil => exact ⟨rfl, fun q h => absurd h List.not_mem_nil⟩
  | append_singleton l y ih =>
    have hy : P y := hl y (by simp)
    obtain ⟨h1, h2⟩ := ih fun x hx => hl x (List.mem_append_left _ hx)
    have hm : ∀ q ∈ l.foldl bump [], P q.1 := fun q hq => (h2 q hq).1
    obtain ⟨hs, hc⟩ := bump_covers hlt (l.map key)
    rw [← h1] at hs hc
    rw [List.map_append, List.foldl_append, List.foldl_append, List.foldl_cons, List.foldl_nil,
      List.map_cons, List.map_nil, List.foldl_cons, List.foldl_nil, ← h1]
    refine ⟨update_hom hlt P key hkey _ _ _ hy hm, fun q hq => ?_⟩
    rcases update_first hlt P key hkey _ _ _ hy hm hs q hq with ⟨h3, h4⟩ | ⟨c, h3⟩
    · refine ⟨h3 ▸ hy, l, [], by rw [h3], fun x hx => ?_⟩
      obtain ⟨c, hc⟩ := hc (key x) (List.mem_map.mpr ⟨x, hx, rfl⟩)
      obtain ⟨p, hp, hpe⟩ := List.mem_map.mp hc
      have : key p.1 = key x := congrArg Prod.fst hpe
      rw [h3, ← this]
      exact h4 p hp
    · obtain ⟨h4, pre, post, h5, h6⟩ := h2 _ h3
      refine ⟨h4, pre, post ++ [y], ?_, h6⟩
      rw [h5, List.append_assoc, List.cons_append]

theorem update_append_key (m : SizeMap T) (k : T) (f : Nat → Nat) (hk : P k) (hm : ∀ q ∈ m, P q.1)
    (h : ∀ q ∈ m, key q.1 < key k) : m.update k f = m ++ [(k, f 0)] := by
  induction m with
  | nil => rw [SizeMap.update]; rfl
  | cons q t ih =>
    obtain ⟨k', c'⟩ := q
    have hk' : P k' := hm _ List.mem_cons_self
    have h1 : key k' < key k := h _ List.mem_cons_self
    rw [SizeMap.update]
    simp only [hkey _ _ hk hk', hkey _ _ hk' hk]
    rw [if_neg (not_lt.mpr h1.le), if_pos h1, ih (fun q hq => hm q (List.mem_cons_of_mem _ hq))
      (fun q hq => h q (List.mem_cons_of_mem _ hq))]
    rfl

theorem cumul_fold_key (h : SizeMap T) : ∀ (m : SizeMap T) (s : Nat), (∀ q ∈ h, P q.1) →
    (∀ q ∈ m, P q.1) → KeysSorted (mapKeys key h) → (∀ q ∈ m, ∀ p ∈ h, key q.1 < key p.1) →
    s + (h.map Prod.snd).sum < 2 ^ 64 →
    (h.foldl (fun (s : SizeMap T × Nat) (p : T × Nat) =>
      (s.1.update p.1 fun _ => szAdd s.2 p.2, szAdd s.2 p.2)) (m, s)).1 = m ++ running s h := by
  induction h with
  | nil =>
    intro m s _ _ _ _ _
    rw [List.foldl_nil, running, List.append_nil]
  | cons p t ih =>
    obtain ⟨k, c⟩ := p
    intro m s hP hPm hs hm hsum
    rw [List.map_cons, List.sum_cons] at hsum
    obtain ⟨hhead, htail⟩ := List.pairwise_cons.mp (show KeysSorted ((key k, c) :: mapKeys key t) from hs)
    have hadd : szAdd s c = s + c := by
      unfold szAdd sizeMod
      rw [Nat.mod_eq_of_lt]
      dsimp only at hsum
      omega
    rw [List.foldl_cons]
    dsimp only
    rw [hadd, update_append_key hlt P key hkey m k _ (hP _ List.mem_cons_self) hPm
      (fun q hq => hm q hq _ List.mem_cons_self),
      ih _ _ (fun q hq => hP q (List.mem_cons_of_mem _ hq)) ?_ htail ?_ (by dsimp only at hsum; omega),
      running, List.append_assoc, List.singleton_append]
    · intro q hq
      rcases List.mem_append.mp hq with hq | hq
      · exact hPm q hq
      · rw [List.mem_singleton.mp hq]
        exact hP (k, c) List.mem_cons_self
    · intro q hq p hp
      rcases List.mem_append.mp hq with hq | hq
      · exact hm q hq p (List.mem_cons_of_mem _ hp)
      · rw [List.mem_singleton.mp hq]
        exact hhead (Prod.map key id p) (List.mem_map.mpr ⟨p, hp, rfl⟩)

omit hlt hkey

theorem running_fst (h : SizeMap T) : ∀ s, (running s h).map Prod.fst = h.map Prod.fst := by
  induction h with
  | nil => intro s; rfl
  | cons p t ih =>
    obtain ⟨k, c⟩ := p
    intro s
    rw [running, List.map_cons, List.map_cons, ih]

theorem mapKeys_running (h : SizeMap T) : ∀ s, mapKeys key (running s h) = running s (mapKeys key h) := by
  induction h with
  | nil => intro s; rfl
  | cons p t ih =>
    obtain ⟨k, c⟩ := p
    intro s
    have e : mapKeys key ((k, c) :: t) = (key k, c) :: mapKeys key t := rfl
    rw [e, running, running, ← ih]
    rfl

theorem rowMajor_map {i j : Nat} (A : Mat T i j) : rowMajor (A.map key) = (rowMajor A).map key := by
  unfold rowMajor
  rw [List.map_flatMap]
  simp only [List.map_map]
  rfl

/-- An element found at the end of a prefix of the row-major order. -/
theorem rowMajor_split {i j : Nat} (A : Mat T i j) {pre post : List T} {k : T}
    (h : rowMajor A = pre ++ k :: post) :
    ∃ a b, A a b = k ∧ ∀ a' b', (a' < a ∨ a' = a ∧ b' < b) → A a' b' ∈ pre := by
  have hlen : pre.length < i * j := by
    rw [← rowMajor_length A, h, List.length_append, List.length_cons]
    omega
  have get : ∀ n (hn : n < i * j), (rowMajor A)[n]? = some (A (Fin.divNat ⟨n, hn⟩) (Fin.modNat ⟨n, hn⟩)) := by
    intro n hn
    rw [rowMajor_ofFn, List.getElem?_ofFn, dif_pos hn]
  refine ⟨Fin.divNat ⟨pre.length, hlen⟩, Fin.modNat ⟨pre.length, hlen⟩, ?_, ?_⟩
  · have h1 := get _ hlen
    rw [h, List.getElem?_append_right le_rfl, Nat.sub_self, List.getElem?_cons_zero] at h1
    exact (Option.some.inj h1).symm
  · intro a' b' hab
    have hj : 0 < j := by have := b'.isLt; omega
    have hd : (Fin.divNat ⟨pre.length, hlen⟩ : Fin i).val = pre.length / j := rfl
    have hm : (Fin.modNat ⟨pre.length, hlen⟩ : Fin j).val = pre.length % j := rfl
    have hdm := Nat.div_add_mod pre.length j
    have hlt : a'.val * j + b'.val < pre.length := by
      rcases hab with hab | ⟨hab, hb⟩
      · have h1 : a'.val < pre.length / j := by rw [← hd]; exact hab
        have h2 : (a'.val + 1) * j ≤ pre.length / j * j := Nat.mul_le_mul_right _ h1
        have h3 := b'.isLt
        rw [Nat.add_mul, Nat.one_mul] at h2
        rw [Nat.mul_comm] at hdm
        omega
      · have h1 : a'.val = pre.length / j := by rw [← hd, hab]
        have h2 : b'.val < pre.length % j := by rw [← hm]; exact hb
        rw [h1, Nat.mul_comm]
        omega
    have h1 := get _ (hlt.trans hlen)
    rw [h, List.getElem?_append_left hlt] at h1
    have e1 : (Fin.divNat ⟨a'.val * j + b'.val, hlt.trans hlen⟩ : Fin i) = a' := by
      apply Fin.ext
      show (a'.val * j + b'.val) / j = a'.val
      rw [mul_comm, Nat.mul_add_div hj, Nat.div_eq_of_lt b'.isLt, add_zero]
    have e2 : (Fin.modNat ⟨a'.val * j + b'.val, hlt.trans hlen⟩ : Fin j) = b' := by
      apply Fin.ext
      show (a'.val * j + b'.val) % j = b'.val
      rw [mul_comm, Nat.mul_add_mod, Nat.mod_eq_of_lt b'.isLt]
    rw [e1, e2] at h1
    exact List.mem_of_getElem? h1

include hlt hkey

theorem histogram_fold {i j : Nat} (A : Mat T i j) (hA : ∀ a b, P (A a b)) :
    histogram A = .ok ((rowMajor A).foldl bump []) := by
  unfold histogram
  rw [if_pos (strictWeak_of_key A key fun a b a' b' => hkey _ _ (hA a b) (hA a' b')),
    forElems A [] (fun h x => .ok (SizeMap.update h x fun c => szAdd c 1))]
  exact foldlM_ok _ _ _ bump fun _ _ => rfl

/-- `histogram` and `cumulative_histogram` of elements compared by a key. -/
theorem histogram_key {i j : Nat} (A : Mat T i j) (hA : ∀ a b, P (A a b)) (hij : i * j < 2 ^ 64) :
    ∃ h, histogram A = .ok h ∧ cumulative_histogram A = .ok (running 0 h) ∧
      IsHist ((rowMajor A).map key) (mapKeys key h) ∧
      ∀ q ∈ h, P q.1 ∧ ∃ a b, A a b = q.1 ∧
        ∀ a' b', (a' < a ∨ a' = a ∧ b' < b) → key (A a' b') ≠ key q.1 := by
  have hl : ∀ x ∈ rowMajor A, P x := by
    intro x hx
    obtain ⟨a, b, rfl⟩ := (mem_rowMajor A x).mp hx
    exact hA a b
  obtain ⟨h1, h2⟩ := hist_key hlt P key hkey (rowMajor A) hl
  have hH := histogram_fold hlt P key hkey A hA
  obtain ⟨h', hh', hH'⟩ := wp_total (histogram_isHist hlt (A.map key) hij)
  rw [histogram_fold hlt (fun _ => True) id (fun a b _ _ => hlt a b) (A.map key) fun _ _ => trivial,
    rowMajor_map, ← h1] at hh'
  cases hh'
  rw [rowMajor_map] at hH'
  have hsum : ((mapKeys key ((rowMajor A).foldl bump [])).map Prod.snd).sum = i * j := by
    have := hH'.sum (fun _ => true)
    unfold countSum at this
    rw [List.filter_true] at this
    rw [this, List.countP_true, List.length_map, rowMajor_length]
  refine ⟨_, hH, ?_, hH', fun q hq => ?_⟩
  · unfold cumulative_histogram
    rw [hH, ok_bind]
    dsimp only
    rw [cumul_fold_key hlt P key hkey _ [] 0 (fun q hq => (h2 q hq).1)
      (fun q hq => absurd hq List.not_mem_nil) hH'.sorted (fun q hq => absurd hq List.not_mem_nil)]
    · rfl
    · have e : (mapKeys key ((rowMajor A).foldl bump [])).map Prod.snd =
          ((rowMajor A).foldl bump []).map Prod.snd := by
        unfold mapKeys
        rw [List.map_map]
        rfl
      rw [← e, hsum]
      omega
  · obtain ⟨h3, pre, post, h4, h5⟩ := h2 q hq
    obtain ⟨a, b, h6, h7⟩ := rowMajor_split A h4
    exact ⟨h3, a, b, h6, fun a' b' h => h5 _ (h7 a' b' h)⟩

end

end MatrixLibs
