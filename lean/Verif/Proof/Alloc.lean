import Verif.Model.Alloc
import Verif.Proof.RowMajor
import Verif.Proof.Stats
import Mathlib.Data.Finset.Basic
import Mathlib.Data.List.Nodup

/-!
# Dynamic memory
-/

namespace MatrixLibs

set_option linter.unusedSectionVars false

variable {T : Type} [Inhabited T] [CScalar T] {i j : Nat} {σ α β : Type}

open CScalar (ofInt)

/-! ## Statements -/

theorem run_bind (x : Run σ α) (f : α → Run σ β) (s : σ) :
    (x >>= f) s = (match x s with | (.ok a, s') => f a s' | (.error e, s') => (.error e, s')) := by
  show (match x s with | (a, s') => (ExceptT.bindCont f a : StateM σ _) s') = _
  rcases x s with ⟨a | a, s'⟩ <;> rfl

theorem run_ok {x : Run σ α} {f : α → Run σ β} {s s' : σ} {a : α} (h : x s = (.ok a, s')) : (x >>= f) s = f a s' := by
  rw [run_bind, h]

theorem run_error {x : Run σ α} {f : α → Run σ β} {s s' : σ} {e : Stop} (h : x s = (.error e, s')) :
    (x >>= f) s = (.error e, s') := by
  rw [run_bind, h]

/-- A statement for each member of a list. -/
def eachRun {γ : Type} (f : γ → Run σ Unit) : List γ → Run σ Unit
  | [] => pure ()
  | x :: l => do
    f x
    eachRun f l

theorem eachRun_append {γ : Type} (f : γ → Run σ Unit) (l l' : List γ) :
    eachRun f (l ++ l') = (do eachRun f l; eachRun f l') := by
  induction l with
  | nil => exact (pure_bind _ _).symm
  | cons x l ih =>
    show (do f x; eachRun f (l ++ l')) = (do (do f x; eachRun f l); eachRun f l')
    rw [ih, bind_assoc]

theorem eachRun_map {γ δ : Type} (g : δ → γ) (f : γ → Run σ Unit) (l : List δ) :
    eachRun f (l.map g) = eachRun (fun x => f (g x)) l := by
  induction l with
  | nil => rfl
  | cons x l ih =>
    show (do f (g x); eachRun f (l.map g)) = _
    rw [ih]
    rfl

theorem eachRun_flatMap {γ δ : Type} (g : δ → List γ) (f : γ → Run σ Unit) (l : List δ) :
    eachRun f (l.flatMap g) = eachRun (fun x => eachRun f (g x)) l := by
  induction l with
  | nil => rfl
  | cons x l ih =>
    rw [List.flatMap_cons, eachRun_append, ih]
    rfl

theorem loopRun_eq (body : Nat → Run σ Unit) : ∀ cnt k, loopRun body cnt k = eachRun body (List.range' k cnt) := by
  intro cnt
  induction cnt with
  | zero => intro k; rfl
  | succ n ih =>
    intro k
    rw [List.range'_succ]
    show (do body k; loopRun body n (k + 1)) = _
    rw [ih]
    rfl

theorem forRun_eq (n : Nat) (body : Nat → Run σ Unit) :
    forRun 0 n body = eachRun (fun m : Fin n => body m.val) (List.finRange n) := by
  unfold forRun
  rw [loopRun_eq, Nat.sub_zero, ← eachRun_map Fin.val body, List.map_coe_finRange_eq_range, List.range_eq_range']

/-- A loop over rows and columns that reads each element once. -/
theorem runElems (A : Mat T i j) (f : T → Run σ Unit) :
    (forRun 0 i fun it => forRun 0 j fun jt => do f (← liftRes (rd A it jt))) = eachRun f (rowMajor A) := by
  rw [forRun_eq]
  unfold rowMajor
  rw [eachRun_flatMap]
  congr 1
  funext a
  rw [forRun_eq, eachRun_map]
  congr 1
  funext b
  rw [rd_fin]
  funext s
  exact run_ok (x := liftRes (.ok (A a b))) rfl

/-! ## The vector -/

theorem push_room {grow : Nat → Nat} {grant : Nat → Bool} (x : T) (h : Heap) (b cap : Nat) (l : List T)
    (hl : l.length < cap) :
    Vec.push_back grow grant x (h, ⟨some (b, cap), l⟩) = (.ok (), h, ⟨some (b, cap), l ++ [x]⟩) := by
  unfold Vec.push_back
  refine (run_ok (x := get) (a := (h, (⟨some (b, cap), l⟩ : Vec T))) (s' := (h, ⟨some (b, cap), l⟩)) rfl).trans ?_
  refine (congrFun (if_neg (show ¬ l.length = cap by omega)) _).trans ?_
  rfl

theorem push_all {grow : Nat → Nat} {grant : Nat → Bool} (h : Heap) (b cap : Nat) (l : List T) :
    ∀ l' : List T, l'.length + l.length ≤ cap →
    eachRun (Vec.push_back grow grant) l (h, ⟨some (b, cap), l'⟩) = (.ok (), h, ⟨some (b, cap), l' ++ l⟩) := by
  induction l with
  | nil => intro l' _; rw [List.append_nil]; rfl
  | cons x l ih =>
    intro l' hl
    rw [List.length_cons] at hl
    refine (run_ok (push_room x h b cap l' (by omega))).trans ?_
    rw [ih (l' ++ [x]) (by rw [List.length_append, List.length_singleton]; omega), List.append_assoc]
    rfl

theorem liftRes_bind (x : Res α) (f : α → Res β) : (liftRes (x >>= f) : Run σ β) = liftRes x >>= fun a => liftRes (f a) := by
  funext s
  cases x with
  | ok a => exact (run_ok (x := liftRes (.ok a)) (f := fun a => liftRes (f a)) (s := s) rfl).symm
  | error e => exact (run_error (x := liftRes (.error e)) (f := fun a => liftRes (f a)) (s := s) rfl).symm

theorem liftRes_ite {p : Prop} [Decidable p] (x y : Res α) :
    (liftRes (if p then x else y) : Run σ α) = if p then liftRes x else liftRes y := by
  split <;> rfl

/-- What `median` returns once the elements are in the vector. -/
theorem median_tail (sort : List T → List T) (A : Mat T i j) :
    median sort A = (do
      let v ← stdSort sort A (rowMajor A)
      if i * j % 2 = 0 then
        let x ← vecRd v (i * j / 2)
        let y ← vecRd v (szSub (i * j / 2) 1)
        CScalar.div (← CScalar.add x y) (ofInt 2)
      else
        vecRd v (i * j / 2)) := by
  unfold median
  rw [median_elems, ok_bind]

/-- From the loops on, the block stays the same. -/
theorem median_rest (sort : List T → List T) (A : Mat T i j) (h : Heap) (w : Vec T) (hw : w.items = rowMajor A) :
    ∃ v, (do
      let v ← liftRes (stdSort sort A (← get).2.items)
      modify fun (h, w) => (h, ⟨w.block, v⟩)
      if i * j % 2 = 0 then
        let x ← liftRes (vecRd v (i * j / 2))
        let y ← liftRes (vecRd v (szSub (i * j / 2) 1))
        liftRes do CScalar.div (← CScalar.add x y) (ofInt 2)
      else
        liftRes (vecRd v (i * j / 2)) : Run (Heap × Vec T) T) (h, w) = (median sort A, h, ⟨w.block, v⟩) := by
  rw [median_tail]
  cases hs : stdSort sort A (rowMajor A) with
  | error e =>
    refine ⟨w.items, ?_⟩
    refine (run_ok (x := get) (s' := (h, w)) rfl).trans ?_
    refine run_error (x := liftRes _) ?_
    show liftRes (stdSort sort A w.items) (h, w) = _
    rw [show stdSort sort A w.items = .error e by rw [hw, hs]]
    rfl
  | ok v =>
    refine ⟨v, ?_⟩
    refine (run_ok (x := get) (s' := (h, w)) rfl).trans ?_
    refine (run_ok (x := liftRes _) (a := v) (s' := (h, w)) ?_).trans ?_
    · dsimp only
      rw [hw, hs]
      rfl
    refine (run_ok (x := modify _) (s' := (h, ⟨w.block, v⟩)) rfl).trans ?_
    rw [ok_bind]
    simp only [← liftRes_bind]
    rw [← liftRes_ite]
    rfl

theorem median_mem (grow : Nat → Nat) (grant : Nat → Bool) (sort : List T → List T) (A : Mat T i j) (h : Heap)
    (h0 : i * j ≠ 0) (hg : grant h.log.length = true) :
    ∃ v, medianBody grow grant sort A (h, ⟨none, []⟩) =
      (median sort A, ⟨insert h.log.length h.used, i * j :: h.log, h.bad⟩, ⟨some (h.log.length, i * j), v⟩) := by
  unfold medianBody
  have e : (Vec.reserve grant (i * j) : Run (Heap × Vec T) Unit) (h, ⟨none, []⟩) =
      (.ok (), ⟨insert h.log.length h.used, i * j :: h.log, h.bad⟩, ⟨some (h.log.length, i * j), []⟩) := by
    unfold Vec.reserve
    dsimp only
    rw [if_pos (show Vec.capacity (⟨none, []⟩ : Vec T) < i * j from Nat.pos_of_ne_zero h0)]
    unfold Vec.reallocate request
    dsimp only
    rw [if_pos hg]
    rfl
  dsimp only
  rw [run_ok e, runElems]
  rw [run_ok (push_all _ _ _ _ _ (by rw [rowMajor_length]; exact Nat.le_of_eq (Nat.zero_add _)))]
  exact median_rest sort A _ _ rfl

/-! ## The map -/

namespace NodeMap

theorem insertAt_spec (grant : Nat → Bool) (k : T) (f : Nat → Nat) (h : Heap) (m : NodeMap T) :
    ((SizeMap.update m.entries k f).length = m.length ∧ ∃ m' : NodeMap T, insertAt grant k f m h = (.ok m', h) ∧
      m'.entries = SizeMap.update m.entries k f ∧ m'.blocks = m.blocks) ∨
    ((SizeMap.update m.entries k f).length = m.length + 1 ∧
      (grant h.log.length = true → ∃ m' : NodeMap T, insertAt grant k f m h =
        (.ok m', ⟨insert h.log.length h.used, 1 :: h.log, h.bad⟩) ∧
        m'.entries = SizeMap.update m.entries k f ∧ m'.blocks.Perm (h.log.length :: m.blocks)) ∧
      (grant h.log.length = false → insertAt grant k f m h =
        (.error (.throws badAlloc), ⟨h.used, 1 :: h.log, h.bad⟩))) := by
  induction m with
  | nil =>
    right
    refine ⟨rfl, fun hg => ⟨[(k, f 0, h.log.length)], ?_, rfl, List.Perm.refl _⟩, fun hg => ?_⟩ <;>
    · simp only [insertAt, request, hg]
      rfl
  | cons q t ih =>
    obtain ⟨k', c, b'⟩ := q
    have he : entries ((k', c, b') :: t) = (k', c) :: entries t := rfl
    have hlt : (entries t).length = t.length := List.length_map _
    rw [he]
    unfold SizeMap.update insertAt
    by_cases h1 : CScalar.lt k k' = true
    · right
      rw [if_pos h1, if_pos h1]
      refine ⟨by simp [hlt], fun hg => ⟨(k, f 0, h.log.length) :: (k', c, b') :: t, ?_, rfl, List.Perm.refl _⟩,
        fun hg => ?_⟩ <;>
      · simp only [request, hg]
        rfl
    · rw [if_neg h1, if_neg h1]
      by_cases h2 : CScalar.lt k' k = true
      · rw [if_pos h2, if_pos h2]
        rcases ih with ⟨hl, m', e1, e2, e3⟩ | ⟨hl, hok, hno⟩
        · left
          refine ⟨by simp [hl], (k', c, b') :: m', by rw [e1], ?_, ?_⟩
          · show (k', c) :: entries m' = _
            rw [e2]
          · show b' :: blocks m' = b' :: blocks t
            rw [e3]
        · right
          refine ⟨by simp [hl], fun hg => ?_, fun hg => by rw [hno hg]⟩
          obtain ⟨m', e1, e2, e3⟩ := hok hg
          refine ⟨(k', c, b') :: m', by rw [e1], ?_, ?_⟩
          · show (k', c) :: entries m' = _
            rw [e2]
          · show (b' :: blocks m').Perm (_ :: b' :: blocks t)
            exact (e3.cons b').trans (List.Perm.swap _ _ _)
      · rw [if_neg h2, if_neg h2]
        left
        exact ⟨by simp [hlt], _, rfl, rfl, rfl⟩

/-- A sequence of updates. -/
def applyAll (t : SizeMap T) (ops : List (T × (Nat → Nat))) : SizeMap T := ops.foldl (fun t q => t.update q.1 q.2) t

theorem update_length (t : SizeMap T) (k : T) (f : Nat → Nat) : t.length ≤ (t.update k f).length := by
  induction t with
  | nil => exact Nat.zero_le _
  | cons q t ih =>
    unfold SizeMap.update
    split_ifs <;> simp only [List.length_cons] <;> omega

theorem applyAll_length (ops : List (T × (Nat → Nat))) : ∀ t : SizeMap T, t.length ≤ (applyAll t ops).length := by
  induction ops with
  | nil => intro t; exact le_rfl
  | cons q ops ih => intro t; exact (update_length t q.1 q.2).trans (ih _)

/-- The blocks of `q` requests from number `n` on. -/
abbrev fresh (n q : Nat) : Finset Nat := (List.range' n q).toFinset

theorem run_updates (grant : Nat → Bool) (ops : List (T × (Nat → Nat))) :
    ∀ (h : Heap) (m : NodeMap T) (d q : Nat), (applyAll m.entries ops).length = m.length + d → q ≤ d →
      (∀ q' < q, grant (h.log.length + q') = true) →
      (q = d → ∃ m' : NodeMap T, eachRun (fun p => update grant p.1 p.2) ops (h, m) =
        (.ok (), ⟨h.used ∪ fresh h.log.length d, List.replicate d 1 ++ h.log, h.bad⟩, m') ∧
        m'.entries = applyAll m.entries ops ∧ m'.blocks.Perm (List.range' h.log.length d ++ m.blocks)) ∧
      (q < d → grant (h.log.length + q) = false → ∃ m' : NodeMap T,
        eachRun (fun p => update grant p.1 p.2) ops (h, m) =
          (.error (.throws badAlloc), ⟨h.used ∪ fresh h.log.length q, List.replicate (q + 1) 1 ++ h.log, h.bad⟩, m') ∧
        m'.blocks.Perm (List.range' h.log.length q ++ m.blocks)) := by
  induction ops with
  | nil =>
    intro h m d q hd hq hg
    have hd0 : d = 0 := by
      have : (entries m).length = m.length := List.length_map _
      have e : (applyAll m.entries []).length = m.entries.length := rfl
      omega
    subst hd0
    refine ⟨fun _ => ⟨m, ?_, rfl, List.Perm.refl _⟩, fun h => absurd h (by omega)⟩
    simp [fresh]
    rfl
  | cons p ops ih =>
    intro h m d q hd hq hg
    have hm : (entries m).length = m.length := List.length_map _
    have hstep : ∀ {m' : NodeMap T} {h' : Heap}, insertAt grant p.1 p.2 m h = (.ok m', h') →
        update grant p.1 p.2 (h, m) = (.ok (), h', m') := by
      intro m' h' e
      unfold update
      dsimp only
      rw [e]
    rcases insertAt_spec grant p.1 p.2 h m with ⟨hl, m', e1, e2, e3⟩ | ⟨hl, hok, hno⟩
    · have hm' : m'.length = m.length := by
        rw [← hl, ← e2]; exact (List.length_map _).symm
      have hd' : (applyAll m'.entries ops).length = m'.length + d := by
        rw [e2, hm', ← hd]; rfl
      have := ih h m' d q hd' hq hg
      rw [e2, e3] at this
      unfold eachRun
      rw [run_ok (hstep e1)]
      exact this
    · have hd1 : 1 ≤ d := by
        have := applyAll_length ops (SizeMap.update m.entries p.1 p.2)
        have e : (applyAll (SizeMap.update m.entries p.1 p.2) ops).length = m.length + d := hd
        omega
      cases q with
      | zero =>
        refine ⟨fun e => absurd e (by omega), fun _ hno' => ?_⟩
        refine ⟨m, ?_, List.Perm.refl _⟩
        unfold eachRun
        rw [run_error (s' := (⟨h.used, 1 :: h.log, h.bad⟩, m)) (e := .throws badAlloc)]
        · simp [fresh]
        · unfold update
          dsimp only
          rw [hno hno']
      | succ q =>
        obtain ⟨m', e1, e2, e3⟩ := hok (hg 0 (by omega))
        have hm' : m'.length = m.length + 1 := by
          rw [← hl, ← e2]; exact (List.length_map _).symm
        have hd' : (applyAll m'.entries ops).length = m'.length + (d - 1) := by
          rw [e2, hm']
          have e : (applyAll (SizeMap.update m.entries p.1 p.2) ops).length = m.length + d := hd
          omega
        have := ih ⟨insert h.log.length h.used, 1 :: h.log, h.bad⟩ m' (d - 1) q hd' (by omega) (by
          intro q' hq'
          have := hg (q' + 1) (by omega)
          rw [List.length_cons, Nat.add_right_comm]
          exact this)
        unfold eachRun
        rw [run_ok (hstep e1)]
        rw [e2] at this
        have hu : ∀ n, insert h.log.length h.used ∪ fresh (h.log.length + 1) n = h.used ∪ fresh h.log.length (n + 1) := by
          intro n
          unfold fresh
          rw [List.range'_succ, List.toFinset_cons, Finset.union_insert, Finset.insert_union]
        have hlog : ∀ n, List.replicate n 1 ++ 1 :: h.log = List.replicate (n + 1) 1 ++ h.log := by
          intro n
          rw [List.replicate_succ', List.append_assoc]
          rfl
        have hp : ∀ n, (List.range' (h.log.length + 1) n ++ m'.blocks).Perm
            (List.range' h.log.length (n + 1) ++ m.blocks) := by
          intro n
          refine ((List.Perm.refl _).append e3).trans ?_
          rw [List.range'_succ]
          exact List.perm_middle
        simp only [List.length_cons, hu, hlog] at this
        refine ⟨fun e => ?_, fun hlt hno' => ?_⟩
        · obtain ⟨m'', r1, r2, r3⟩ := this.1 (by omega)
          rw [show d - 1 + 1 = d by omega] at r1
          refine ⟨m'', r1, r2, ?_⟩
          have := r3.trans (hp (d - 1))
          rwa [show d - 1 + 1 = d by omega] at this
        · obtain ⟨m'', r1, r3⟩ := this.2 (by omega) (by
            rw [show h.log.length + 1 + q = h.log.length + (q + 1) by omega]; exact hno')
          exact ⟨m'', r1, r3.trans (hp q)⟩

theorem release_all (l : List Nat) : ∀ h : Heap, l.Nodup → (∀ b ∈ l, b ∈ h.used) →
    l.foldl (fun h b => release b h) h = ⟨h.used \ l.toFinset, h.log, h.bad⟩ := by
  induction l with
  | nil => intro h _ _; simp
  | cons b l ih =>
    intro h hn hs
    rw [List.nodup_cons] at hn
    rw [List.foldl_cons, ih]
    · unfold release
      rw [if_pos (hs b List.mem_cons_self)]
      congr 1
      ext x
      simp only [Finset.mem_sdiff, Finset.mem_erase, List.toFinset_cons, Finset.mem_insert]
      tauto
    · exact hn.2
    · intro x hx
      unfold release
      rw [if_pos (hs b List.mem_cons_self)]
      refine Finset.mem_erase.mpr ⟨?_, hs x (List.mem_cons_of_mem _ hx)⟩
      rintro rfl
      exact hn.1 hx

/-- Destroying a map gives its blocks back. -/
theorem destroy_eq (m : NodeMap T) (U : Finset Nat) (log : List Nat) (bad : Bool) (n q : Nat)
    (hp : m.blocks.Perm (List.range' n q)) (hU : Disjoint U (fresh n q)) :
    m.destroy ⟨U ∪ fresh n q, log, bad⟩ = ⟨U, log, bad⟩ := by
  have hs : m.blocks.toFinset = fresh n q := by
    unfold fresh
    ext x
    rw [List.mem_toFinset, List.mem_toFinset, hp.mem_iff]
  unfold destroy
  rw [release_all]
  · rw [hs, Finset.union_sdiff_cancel_right hU]
  · exact hp.nodup_iff.mpr (List.nodup_range' (step := 1))
  · intro b hb
    exact Finset.mem_union_right _ (by rw [← hs]; exact List.mem_toFinset.mpr hb)

end NodeMap

/-! ## The histograms -/

open NodeMap

/-- The updates of `histogram`. -/
def histOps (A : Mat T i j) : List (T × (Nat → Nat)) := (rowMajor A).map fun x => (x, fun c => szAdd c 1)

theorem histogramBody_eq (grant : Nat → Bool) (A : Mat T i j) :
    histogramBody grant A = eachRun (fun p => NodeMap.update grant p.1 p.2) (histOps A) := by
  unfold histogramBody histOps
  rw [runElems A (fun x => NodeMap.update grant x fun c => szAdd c 1), eachRun_map]

theorem histogram_ops (A : Mat T i j) (hA : StrictWeak A) : histogram A = .ok (applyAll [] (histOps A)) := by
  unfold histogram histOps applyAll
  rw [if_pos hA, forElems A [] (fun h x => .ok (SizeMap.update h x fun c => szAdd c 1)), List.foldl_map]
  exact foldlM_ok _ _ _ (fun h x => SizeMap.update h x fun c => szAdd c 1) fun _ _ => rfl

/-- The updates of `cumulative_histogram`. -/
def cumOps : SizeMap T → Nat → List (T × (Nat → Nat))
  | [], _ => []
  | p :: t, s => (p.1, fun _ => szAdd s p.2) :: cumOps t (szAdd s p.2)

theorem cumulativeBody_eq (grant : Nat → Bool) (m : NodeMap T) : ∀ s, cumulativeBody grant m s =
    eachRun (fun p => NodeMap.update grant p.1 p.2) (cumOps m.entries s) := by
  induction m with
  | nil => intro s; rfl
  | cons p t ih =>
    intro s
    show (do NodeMap.update grant p.1 (fun _ => szAdd s p.2.1); cumulativeBody grant t (szAdd s p.2.1)) = _
    rw [ih]
    rfl

theorem cumulative_ops (m : SizeMap T) : ∀ (t : SizeMap T) (s : Nat), (m.foldl
    (fun (s : SizeMap T × Nat) (p : T × Nat) =>
      let cumul_sum := szAdd s.2 p.2
      (s.1.update p.1 fun _ => cumul_sum, cumul_sum)) (t, s)).1 = applyAll t (cumOps m s) := by
  induction m with
  | nil => intro t s; rfl
  | cons p m ih => intro t s; exact ih _ _

/-- Keys of `S` in increasing order. -/
def Increasing (S : T → Prop) (m : SizeMap T) : Prop :=
  m.Pairwise (fun p q => CScalar.lt p.1 q.1 = true) ∧ ∀ p ∈ m, S p.1

section
variable {S : T → Prop} (tr : ∀ x y z, S x → S y → S z → CScalar.lt x y = true → CScalar.lt y z = true →
  CScalar.lt x z = true)

theorem update_key_old (m : SizeMap T) (k : T) (f : Nat → Nat) (q : T × Nat) (hq : q ∈ m.update k f) :
    q.1 = k ∨ ∃ p ∈ m, p.1 = q.1 := by
  induction m with
  | nil =>
    rw [SizeMap.update, List.mem_singleton] at hq
    exact .inl (by rw [hq])
  | cons p t ih =>
    unfold SizeMap.update at hq
    split_ifs at hq
    · rcases List.mem_cons.mp hq with rfl | hq
      · exact .inl rfl
      · exact .inr ⟨q, hq, rfl⟩
    · rcases List.mem_cons.mp hq with rfl | hq
      · exact .inr ⟨_, List.mem_cons_self, rfl⟩
      · rcases ih hq with h | ⟨p', hp', e⟩
        · exact .inl h
        · exact .inr ⟨p', List.mem_cons_of_mem _ hp', e⟩
    · rcases List.mem_cons.mp hq with rfl | hq
      · exact .inr ⟨_, List.mem_cons_self, rfl⟩
      · exact .inr ⟨q, List.mem_cons_of_mem _ hq, rfl⟩

include tr

theorem update_increasing (m : SizeMap T) (k : T) (f : Nat → Nat) (hk : S k) (hm : Increasing S m) :
    Increasing S (m.update k f) := by
  refine ⟨?_, fun q hq => ?_⟩
  · induction m with
    | nil => exact List.pairwise_singleton _ _
    | cons p t ih =>
      obtain ⟨hm, hS⟩ := hm
      have hp : S p.1 := hS _ List.mem_cons_self
      have hSt : ∀ q ∈ t, S q.1 := fun q hq => hS q (List.mem_cons_of_mem _ hq)
      obtain ⟨h1, h2⟩ := List.pairwise_cons.mp hm
      unfold SizeMap.update
      split_ifs with hlt hgt
      · refine List.pairwise_cons.mpr ⟨fun q hq => ?_, hm⟩
        rcases List.mem_cons.mp hq with rfl | hq
        · exact hlt
        · exact tr _ _ _ hk hp (hSt q hq) hlt (h1 q hq)
      · refine List.pairwise_cons.mpr ⟨fun q hq => ?_, ih ⟨h2, hSt⟩⟩
        rcases update_key_old t k f q hq with e | ⟨p', hp', e⟩
        · rw [e]; exact hgt
        · rw [← e]; exact h1 p' hp'
      · exact List.pairwise_cons.mpr ⟨fun q hq => h1 q hq, h2⟩
  · rcases update_key_old m k f q hq with e | ⟨p', hp', e⟩
    · rw [e]; exact hk
    · rw [← e]; exact hm.2 p' hp'

theorem applyAll_increasing (ops : List (T × (Nat → Nat))) (hops : ∀ p ∈ ops, S p.1) :
    ∀ m : SizeMap T, Increasing S m → Increasing S (applyAll m ops) := by
  induction ops with
  | nil => intro m hm; exact hm
  | cons p ops ih =>
    intro m hm
    exact ih (fun q hq => hops q (List.mem_cons_of_mem _ hq)) _
      (update_increasing tr m p.1 p.2 (hops p List.mem_cons_self) hm)

omit tr in
/-- An update with a key greater than all others. -/
theorem update_last (m : SizeMap T) (k : T) (f : Nat → Nat) (hm : ∀ p ∈ m, CScalar.lt p.1 k = true ∧ CScalar.lt k p.1 = false) :
    m.update k f = m ++ [(k, f 0)] := by
  induction m with
  | nil => rfl
  | cons p t ih =>
    unfold SizeMap.update
    have := hm p List.mem_cons_self
    rw [if_neg (by rw [this.2]; decide), if_pos this.1, ih fun q hq => hm q (List.mem_cons_of_mem _ hq)]
    rfl

variable (irr : ∀ x, S x → CScalar.lt x x = false)

include irr

/-- The cumulative histogram has as many entries as the histogram. -/
theorem cumOps_length (m : SizeMap T) : ∀ (t : SizeMap T) (s : Nat), Increasing S (t ++ m) →
    (applyAll t (cumOps m s)).length = t.length + m.length := by
  induction m with
  | nil => intro t s _; rfl
  | cons p m ih =>
    intro t s hi
    show (applyAll (t.update p.1 _) (cumOps m (szAdd s p.2))).length = _
    obtain ⟨hp, hS⟩ := hi
    obtain ⟨h1, h2, h3⟩ := List.pairwise_append.mp hp
    rw [update_last t p.1 _ fun q hq => ?_, ih _ _ ?_]
    · simp only [List.length_append, List.length_cons, List.length_nil]
      omega
    · obtain ⟨h4, h5⟩ := List.pairwise_cons.mp h2
      refine ⟨?_, fun q hq => ?_⟩
      · rw [List.append_assoc]
        refine List.pairwise_append.mpr ⟨h1, List.pairwise_cons.mpr ⟨fun q hq => h4 q hq, h5⟩, fun a ha b hb => ?_⟩
        rcases List.mem_cons.mp hb with rfl | hb
        · exact h3 a ha p List.mem_cons_self
        · exact h3 a ha b (List.mem_cons_of_mem _ hb)
      · rw [List.append_assoc] at hq
        rcases List.mem_append.mp hq with hq | hq
        · exact hS q (List.mem_append_left _ hq)
        · rcases List.mem_cons.mp hq with rfl | hq
          · exact hS p (List.mem_append_right _ List.mem_cons_self)
          · exact hS q (List.mem_append_right _ (List.mem_cons_of_mem _ hq))
    · have hlt := h3 q hq p List.mem_cons_self
      refine ⟨hlt, ?_⟩
      by_contra hne
      have hgt : CScalar.lt p.1 q.1 = true := by simpa using hne
      have hq' := hS q (List.mem_append_left _ hq)
      have hp' := hS p (List.mem_append_right _ List.mem_cons_self)
      have := tr _ _ _ hq' hp' hq' hlt hgt
      rw [irr _ hq'] at this
      exact absurd this (by decide)

end

theorem cumulative_length (A : Mat T i j) (hA : StrictWeak A) :
    (applyAll [] (cumOps (applyAll [] (histOps A)) 0)).length = (applyAll ([] : SizeMap T) (histOps A)).length := by
  have tr : ∀ x y z, (∃ a b, A a b = x) → (∃ a b, A a b = y) → (∃ a b, A a b = z) → CScalar.lt x y = true →
      CScalar.lt y z = true → CScalar.lt x z = true := by
    rintro _ _ _ ⟨a, b, rfl⟩ ⟨a', b', rfl⟩ ⟨a'', b'', rfl⟩
    exact ((hA a b).2 a' b' a'' b'').1
  have irr : ∀ x, (∃ a b, A a b = x) → CScalar.lt x x = false := by
    rintro _ ⟨a, b, rfl⟩
    exact (hA a b).1
  have := cumOps_length tr irr (applyAll [] (histOps A)) [] 0 (by
    refine applyAll_increasing tr _ (fun p hp => ?_) _ ⟨List.Pairwise.nil, fun p hp => absurd hp List.not_mem_nil⟩
    obtain ⟨x, hx, rfl⟩ := List.mem_map.mp hp
    exact (mem_rowMajor A x).mp hx)
  rw [this]
  exact Nat.zero_add _

/-- The requests of a sequence of updates that starts from an empty map. -/
theorem run_fresh (grant : Nat → Bool) (ops : List (T × (Nat → Nat))) (h : Heap) :
    ((∀ q < (applyAll ([] : SizeMap T) ops).length, grant (h.log.length + q) = true) →
      ∃ m' : NodeMap T, eachRun (fun p => NodeMap.update grant p.1 p.2) ops (h, []) =
        (.ok (), ⟨h.used ∪ fresh h.log.length m'.length, List.replicate m'.length 1 ++ h.log, h.bad⟩, m') ∧
        m'.entries = applyAll [] ops ∧ m'.blocks.Perm (List.range' h.log.length m'.length)) ∧
    (∀ q < (applyAll ([] : SizeMap T) ops).length, (∀ q' < q, grant (h.log.length + q') = true) →
      grant (h.log.length + q) = false → ∃ m' : NodeMap T,
        eachRun (fun p => NodeMap.update grant p.1 p.2) ops (h, []) =
          (.error (.throws badAlloc), ⟨h.used ∪ fresh h.log.length q, List.replicate (q + 1) 1 ++ h.log, h.bad⟩, m') ∧
        m'.blocks.Perm (List.range' h.log.length q)) := by
  have e0 : ∀ d, (applyAll ([] : SizeMap T) ops).length = d →
      (applyAll (entries ([] : NodeMap T)) ops).length = ([] : NodeMap T).length + d := by
    intro d hd
    rw [← hd]
    exact (Nat.zero_add _).symm
  constructor
  · intro hg
    obtain ⟨m', r1, r2, r3⟩ := (run_updates grant ops h [] _ _ (e0 _ rfl) le_rfl hg).1 rfl
    have hl : (applyAll ([] : SizeMap T) ops).length = m'.length := by
      rw [← show m'.entries.length = m'.length from List.length_map _, r2]
      rfl
    rw [hl] at r1 r3
    exact ⟨m', r1, r2, by simpa [blocks] using r3⟩
  · intro q hq hg hno
    obtain ⟨m', r1, r3⟩ := (run_updates grant ops h [] _ q (e0 _ rfl) hq.le hg).2 hq hno
    exact ⟨m', r1, by simpa [blocks] using r3⟩

end MatrixLibs
