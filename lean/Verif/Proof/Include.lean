import Verif.Spec.Include
import Mathlib.Tactic.Tauto

/-!
# Including headers in any order
-/

namespace MatrixLibs.Incl

/-! ## Facts about the headers -/

/-- The functions that call functions of headers they do not include. -/
def touchy (n : Name) : Bool := n == .var || n == .stddev || n == .pow

/-- How deep the includes of a header are nested. -/
def rank : Hdr → Nat
  | .all => 4
  | .conv2 | .pow => 3
  | .inv | .lu | .stddev | .utils => 2
  | .type | .cholesky | .concatenate | .fill | .mult | .ones | .swap | .zeros => 0
  | _ => 1

/-- What the includes of a header bring. -/
def inner (h : Hdr) : List Hdr := (includes h).flatMap brings

/-- The definitions use what stands before them or what `av` brings. -/
def okDefs (h : Hdr) (av : List Hdr) : List Name → List Def → Bool
  | _, [] => true
  | a, d :: ds =>
    decide (d.name ∉ a) && decide (home d.name = h) && !touchy d.name && !d.sends &&
    (d.parse ++ d.call).all (fun m => decide (m ∈ a) || (decide (home m ∈ av) && !touchy m && decide (home m ≠ .print))) &&
    (d.parseStd ++ d.callStd).all (fun s => decide (s ≠ .cout)) &&
    okDefs h av (d.name :: a) ds

/-- Every header of the list finds what it needs in `have_` and before it. -/
def rdyB : List Hdr → List Hdr → Bool
  | _, [] => true
  | have_, h :: l => (needs h).all (fun x => decide (x ∈ have_)) && rdyB (have_ ++ brings h) l

theorem guard_inj {a b : Hdr} : guard a = guard b → a = b := by
  cases a <;> cases b <;> decide

theorem guard_stream (a : Hdr) : guard a ≠ streamMacro := by
  cases a <;> decide

theorem rank_includes (h : Hdr) : ∀ i ∈ includes h, rank i < rank h := by
  cases h <;> decide

theorem rdy_includes (h : Hdr) : rdyB (needs h) (includes h) = true := by
  cases h <;> decide

theorem mem_brings (h x : Hdr) : x ∈ brings h ↔ x = h ∨ x ∈ inner h := by
  cases h <;> cases x <;> decide

theorem self_brings (h : Hdr) : h ∈ brings h := (mem_brings h h).2 (.inl rfl)

theorem not_inner (h : Hdr) : h ∉ inner h := by
  cases h <;> decide

theorem needs_brings (h : Hdr) : ∀ x ∈ needs h, x ∉ brings h := by
  cases h <;> decide

theorem type_before (h : Hdr) : h ≠ .type → h ≠ .all → .type ∈ inner h ++ needs h := by
  cases h <;> decide

theorem why_needs (on : Bool) (h : Hdr) : ∀ x ∈ needs h,
    (∃ i ∈ includes h, x ∈ needs i) ∨ ∃ d ∈ defs on h, ∃ m ∈ d.parse, home m = x := by
  cases on <;> cases h <;> decide

theorem okDefs_of (on : Bool) (h : Hdr) : h ≠ .var → h ≠ .stddev → h ≠ .pow → h ≠ .print →
    okDefs h (inner h ++ needs h) [] (defs on h) = true := by
  cases on <;> cases h <;> decide

theorem mem_names (on : Bool) (n : Name) (h : Hdr) : home n = h ↔ n ∈ (defs on h).map (·.name) := by
  cases on <;> cases h <;> cases n <;> decide

theorem nodup_names (on : Bool) (h : Hdr) : ((defs on h).map (·.name)).Nodup := by
  cases on <;> cases h <;> decide

theorem home_all (n : Name) : home n ≠ .all := by cases n <;> decide

theorem home_touchy (n : Name) (h : touchy n = true) : home n = .var ∨ home n = .stddev ∨ home n = .pow := by
  revert h; cases n <;> decide

/-! ## What is known, in terms of headers -/

/-- The headers read and opened; whether `var`, `pow` can be called and `print` sends, if they are defined. -/
structure Sum where
  C : Hdr → Prop
  G : Hdr → Prop
  v : Prop
  p : Prop
  s : Prop

/-- The function can be called. -/
def Works (a : Sum) (n : Name) : Prop := a.C (home n) ∧ ((n = .var ∨ n = .stddev) → a.v) ∧ (n = .pow → a.p)

/-- `k` is summarised by `a`; `pre`: the user has defined `PRINT_IOSTREAM_ENABLE`. -/
structure Rep (lib : StdHdr → List StdName) (pre : Prop) (k : Known) (a : Sum) : Prop where
  mac : ∀ h, guard h ∈ k.macros ↔ a.G h
  on : streamMacro ∈ k.macros ↔ pre ∨ a.G .all
  decl : ∀ n, n ∈ k.declared ↔ a.C (home n)
  call : ∀ n, n ∈ k.callable ↔ Works a n
  send : ∀ n, n ∈ k.sending ↔ home n = .print ∧ a.C .print ∧ a.s
  std : a.C .type → ∀ x, x ≠ .cout → x ∈ k.std
  give : ∀ x, x ≠ .cout → x ∈ k.std ∨ ∃ y ∈ stds false .type, x ∈ lib y
  good : ∀ x, a.C x → (∀ y ∈ brings x, a.C y) ∧ ∀ y ∈ needs x, a.C y

/-- A header is included. -/
def step (pre : Prop) (a : Sum) (h : Hdr) : Sum where
  C x := a.C x ∨ x ∈ brings h
  G x := a.G x ∨ x ∈ brings h
  v := (a.C .var ∧ a.v) ∨ (¬ a.C .var ∧ .var ∈ brings h ∧ (h = .all ∨ a.C .mean))
  p := (a.C .pow ∧ a.p) ∨ (¬ a.C .pow ∧ .pow ∈ brings h ∧ (h = .all ∨ a.C .mult))
  s := (a.C .print ∧ a.s) ∨ (¬ a.C .print ∧ .print ∈ brings h ∧ (h = .all ∨ pre ∨ a.G .all))

variable {lib : StdHdr → List StdName} {pre : Prop}

theorem Rep.congr {k : Known} {a b : Sum} (r : Rep lib pre k a) (hC : ∀ x, b.C x ↔ a.C x) (hG : ∀ x, b.G x ↔ a.G x)
    (hv : a.C .var → (b.v ↔ a.v)) (hp : a.C .pow → (b.p ↔ a.p)) (hs : a.C .print → (b.s ↔ a.s)) : Rep lib pre k b where
  mac h := (r.mac h).trans (hG h).symm
  on := by rw [r.on, hG]
  decl n := (r.decl n).trans (hC _).symm
  call n := by
    have hvar : (n = .var ∨ n = .stddev) → a.C (home n) → a.C .var := by
      rintro (h | h) hn
      · rw [h] at hn; exact hn
      · rw [h] at hn; exact (r.good _ hn).1 .var (by decide)
    rw [r.call]
    unfold Works
    rw [hC]
    refine ⟨fun ⟨h1, h2, h3⟩ => ⟨h1, fun h => (hv (hvar h h1)).2 (h2 h), fun h => ?_⟩, fun ⟨h1, h2, h3⟩ =>
      ⟨h1, fun h => (hv (hvar h h1)).1 (h2 h), fun h => ?_⟩⟩
    · have h3' := h3 h; rw [h] at h1; exact (hp h1).2 h3'
    · have h3' := h3 h; rw [h] at h1; exact (hp h1).1 h3'
  send n := by
    rw [r.send, hC]
    exact ⟨fun ⟨h1, h2, h3⟩ => ⟨h1, h2, (hs h2).2 h3⟩, fun ⟨h1, h2, h3⟩ => ⟨h1, h2, (hs h2).1 h3⟩⟩
  std h := r.std ((hC _).1 h)
  give := r.give
  good x hx := ⟨fun y hy => (hC y).2 ((r.good x ((hC x).1 hx)).1 y hy), fun y hy => (hC y).2 ((r.good x ((hC x).1 hx)).2 y hy)⟩

/-- Every header of the list finds what it needs in `C` and before it. -/
def Rdy : (Hdr → Prop) → List Hdr → Prop
  | _, [] => True
  | C, h :: l => (∀ y ∈ needs h, C y) ∧ Rdy (fun x => C x ∨ x ∈ brings h) l

theorem Rdy.of_bool {C : Hdr → Prop} : ∀ {l have_ : List Hdr}, rdyB have_ l = true → (∀ y ∈ have_, C y) → Rdy C l
  | [], _, _, _ => trivial
  | h :: l, have_, hb, hC => by
    simp only [rdyB, Bool.and_eq_true, List.all_eq_true, decide_eq_true_eq] at hb
    refine ⟨fun y hy => hC y (hb.1 y hy), ?_⟩
    refine Rdy.of_bool (have_ := have_ ++ brings h) hb.2 fun y hy => ?_
    rcases List.mem_append.1 hy with hy | hy
    · exact .inl (hC y hy)
    · exact .inr hy

theorem Rdy.needs {C : Hdr → Prop} : ∀ {l : List Hdr}, Rdy C l → ∀ i ∈ l, ∀ x ∈ needs i, C x ∨ ∃ j ∈ l, x ∈ brings j
  | h :: l, hr, i, hi, x, hx => by
    rcases List.mem_cons.1 hi with rfl | hi
    · exact .inl (hr.1 x hx)
    · rcases Rdy.needs hr.2 i hi x hx with (h' | h') | ⟨j, hj, h'⟩
      · exact .inl h'
      · exact .inr ⟨h, List.mem_cons_self, h'⟩
      · exact .inr ⟨j, List.mem_cons_of_mem _ hj, h'⟩

theorem step_C (l : List Hdr) (a : Sum) (x : Hdr) : (l.foldl (step pre) a).C x ↔ a.C x ∨ ∃ i ∈ l, x ∈ brings i := by
  induction l generalizing a with
  | nil => simp
  | cons h l ih => rw [List.foldl_cons, ih]; simp [step, or_assoc]

theorem step_G (l : List Hdr) (a : Sum) (x : Hdr) : (l.foldl (step pre) a).G x ↔ a.G x ∨ ∃ i ∈ l, x ∈ brings i := by
  induction l generalizing a with
  | nil => simp
  | cons h l ih => rw [List.foldl_cons, ih]; simp [step, or_assoc]

/-! ## Lists of headers -/

/-- Opening a header does what `step` says, or fails without a second definition. -/
def Spec (lib : StdHdr → List StdName) (pre : Prop) (f : Nat) (i : Hdr) : Prop :=
  ∀ k a, Rep lib pre k a → (∀ x ∈ brings i, a.G x ↔ a.C x) →
    ((∀ y ∈ needs i, a.C y) → ∃ k', openHdr lib f k i = .ok k' ∧ Rep lib pre k' (step pre a i)) ∧
    (¬ (∀ y ∈ needs i, a.C y) → ∃ e, openHdr lib f k i = .error e ∧ ∃ n, e = .undeclared n)

theorem incs {f : Nat} : ∀ (l : List Hdr), (∀ i ∈ l, Spec lib pre f i) → ∀ k a, Rep lib pre k a →
    (∀ i ∈ l, ∀ x ∈ brings i, a.G x ↔ a.C x) →
    (Rdy a.C l → ∃ k', (l.map Line.inc).foldlM (readLine lib (openHdr lib f)) k = .ok k' ∧
      Rep lib pre k' (l.foldl (step pre) a)) ∧
    (¬ Rdy a.C l → ∃ e, (l.map Line.inc).foldlM (readLine lib (openHdr lib f)) k = .error e ∧ ∃ n, e = .undeclared n)
  | [], _, k, a, r, _ => ⟨fun _ => ⟨k, rfl, r⟩, fun h => absurd trivial h⟩
  | h :: l, hs, k, a, r, hg => by
    obtain ⟨ok, bad⟩ := hs h List.mem_cons_self k a r (hg h List.mem_cons_self)
    have fold : ((h :: l).map Line.inc).foldlM (readLine lib (openHdr lib f)) k =
        (openHdr lib f k h >>= fun k' => (l.map Line.inc).foldlM (readLine lib (openHdr lib f)) k') := rfl
    rw [fold]
    by_cases hn : ∀ y ∈ needs h, a.C y
    · obtain ⟨k', e, r'⟩ := ok hn
      have ih := incs l (fun i hi => hs i (List.mem_cons_of_mem _ hi)) k' (step pre a h) r' (fun i hi x hx => by
        have := hg i (List.mem_cons_of_mem _ hi) x hx
        simp only [step, this])
      rw [e]
      exact ⟨fun hr => ih.1 hr.2, fun hr => ih.2 fun hr' => hr ⟨hn, hr'⟩⟩
    · obtain ⟨e, he, n, hn'⟩ := bad hn
      rw [he]
      exact ⟨fun hr => absurd hr.1 hn, fun _ => ⟨e, rfl, n, hn'⟩⟩

/-! ## Definitions -/

theorem define_ok {k : Known} {d : Def} (h1 : d.name ∉ k.declared) (h2 : ∀ n ∈ d.parse, n ∈ k.declared)
    (h3 : ∀ s ∈ d.parseStd, s ∈ k.std) : define k d = .ok { k with
      declared := d.name :: k.declared
      callable :=
        if (∀ n ∈ d.parse ++ d.call, n ∈ k.callable) ∧ ∀ s ∈ d.callStd, s ∈ k.std then d.name :: k.callable
        else k.callable
      sending := if d.sends ∨ ∃ n ∈ d.parse ++ d.call, n ∈ k.sending then d.name :: k.sending else k.sending } := by
  rw [define, if_neg h1, if_pos ⟨h2, h3⟩]

/-- Bodies whose definitions find everything. -/
theorem body_ok {o : Known → Hdr → Except Err Known} {h : Hdr} {av : List Hdr} (hp : h ≠ .print) {a : Sum} (ha : ∀ x ∈ av, a.C x)
    (hC : ¬ a.C h) :
    ∀ (ds : List Def) (seen : List Name) (k : Known), okDefs h av seen ds = true →
    (∀ m ∈ seen, home m = h) →
    (∀ n, n ∈ k.declared ↔ a.C (home n) ∨ n ∈ seen) → (∀ n, n ∈ k.callable ↔ Works a n ∨ n ∈ seen) →
    (∀ n, n ∈ k.sending → home n = .print) → (∀ x, x ≠ .cout → x ∈ k.std) →
    ∃ k', (ds.map Line.defn).foldlM (readLine lib o) k = .ok k' ∧
      (∀ n, n ∈ k'.declared ↔ a.C (home n) ∨ n ∈ seen ∨ n ∈ ds.map (·.name)) ∧
      (∀ n, n ∈ k'.callable ↔ Works a n ∨ n ∈ seen ∨ n ∈ ds.map (·.name)) ∧ k'.sending = k.sending ∧ k'.std = k.std ∧
      k'.macros = k.macros
  | [], seen, k, _, _, hd, hc, _, _ => ⟨k, rfl, by simpa using hd, by simpa using hc, rfl, rfl, rfl⟩
  | d :: ds, seen, k, hok, hseen, hd, hc, hsend, hstd => by
    simp only [okDefs, Bool.and_eq_true, decide_eq_true_eq, List.all_eq_true, Bool.not_eq_true', Bool.or_eq_true,
      List.mem_append] at hok
    obtain ⟨⟨⟨⟨⟨⟨h1, h2⟩, h3⟩, h4⟩, h5⟩, h6⟩, h7⟩ := hok
    have notTouchy : ∀ m, touchy m = false → ∀ {b : Sum}, Works b m ↔ b.C (home m) := by
      intro m hm b
      unfold Works
      refine ⟨fun h => h.1, fun h => ⟨h, ?_, ?_⟩⟩
      · rintro (rfl | rfl) <;> simp [touchy] at hm
      · rintro rfl; simp [touchy] at hm
    have av' : ∀ m, m ∈ d.parse ∨ m ∈ d.call → m ∈ k.declared ∧ m ∈ k.callable ∧ m ∉ k.sending := by
      intro m hm
      rcases h5 m hm with hm | ⟨⟨hm, ht⟩, hpr⟩
      · exact ⟨(hd m).2 (.inr hm), (hc m).2 (.inr hm), fun hs => hp ((hseen m hm).symm.trans (hsend m hs))⟩
      · exact ⟨(hd m).2 (.inl (ha _ hm)), (hc m).2 (.inl ((notTouchy m ht).2 (ha _ hm))), fun hs => hpr (hsend m hs)⟩
    have hdef := define_ok (k := k) (d := d) (fun hm => by
        rcases (hd _).1 hm with hm | hm
        · rw [h2] at hm; exact hC hm
        · exact h1 hm)
      (fun n hn => (av' n (.inl hn)).1) (fun s hs => hstd s (h6 s (.inl hs)))
    rw [if_pos ⟨fun n hn => (av' n (List.mem_append.1 hn)).2.1, fun s hs => hstd s (h6 s (.inr hs))⟩,
      if_neg (by
        rintro (hs | ⟨n, hn, hs⟩)
        · rw [h4] at hs; cases hs
        · exact (av' n (List.mem_append.1 hn)).2.2 hs)] at hdef
    obtain ⟨k', e, r1, r2, r3, r4, r5⟩ := body_ok (o := o) hp ha hC ds (d.name :: seen)
      { k with declared := d.name :: k.declared, callable := d.name :: k.callable } h7
      (fun m hm => (List.mem_cons.1 hm).elim (fun e => e ▸ h2) (hseen m))
      (fun n => by simp only [List.mem_cons, hd]; tauto) (fun n => by simp only [List.mem_cons, hc]; tauto) hsend hstd
    refine ⟨k', ?_, fun n => ?_, fun n => ?_, r3, r4, r5⟩
    · show (define k d >>= fun k' => (ds.map Line.defn).foldlM (readLine lib o) k') = _
      rw [hdef]; exact e
    · rw [r1]; simp only [List.mem_cons, List.map_cons]; tauto
    · rw [r2]; simp only [List.mem_cons, List.map_cons]; tauto

/-- Bodies in which a name is missing. -/
theorem body_bad {o : Known → Hdr → Except Err Known} :
    ∀ (ds : List Def) (k : Known), (ds.map (·.name)).Nodup → (∀ d ∈ ds, d.name ∉ k.declared) →
    (∃ d ∈ ds, ∃ m ∈ d.parse, m ∉ k.declared ∧ m ∉ ds.map (·.name)) →
    ∃ e, (ds.map Line.defn).foldlM (readLine lib o) k = .error e ∧ ∃ n, e = .undeclared n
  | [], _, _, _, h => by obtain ⟨d, hd, _⟩ := h; cases hd
  | d :: ds, k, hnd, hk, hm => by
    have fold : ((d :: ds).map Line.defn).foldlM (readLine lib o) k =
        (define k d >>= fun k' => (ds.map Line.defn).foldlM (readLine lib o) k') := rfl
    rw [fold]
    have h1 := hk d List.mem_cons_self
    by_cases h2 : (∀ n ∈ d.parse, n ∈ k.declared) ∧ ∀ s ∈ d.parseStd, s ∈ k.std
    · rw [define_ok h1 h2.1 h2.2]
      rw [List.map_cons, List.nodup_cons] at hnd
      refine body_bad ds _ hnd.2 (fun d' hd' => ?_) ?_
      · rw [List.mem_cons, not_or]
        exact ⟨fun e => hnd.1 (e ▸ List.mem_map_of_mem hd'), hk d' (List.mem_cons_of_mem _ hd')⟩
      · obtain ⟨d', hd', m, hm1, hm2, hm3⟩ := hm
        rw [List.map_cons, List.mem_cons, not_or] at hm3
        rcases List.mem_cons.1 hd' with rfl | hd'
        · exact absurd (h2.1 m hm1) hm2
        · exact ⟨d', hd', m, hm1, by rw [List.mem_cons, not_or]; exact ⟨hm3.1, hm2⟩, hm3.2⟩
    · rw [define, if_neg h1, if_neg h2]
      exact ⟨_, rfl, _, rfl⟩

/-- Standard headers are included. -/
theorem stds_ok {o : Known → Hdr → Except Err Known} : ∀ (l : List StdHdr) (k : Known),
    ∃ k', (l.map Line.std).foldlM (readLine lib o) k = .ok k' ∧
      (∀ x, x ∈ k'.std ↔ x ∈ k.std ∨ ∃ y ∈ l, x ∈ lib y) ∧ k'.macros = k.macros ∧ k'.declared = k.declared ∧
      k'.callable = k.callable ∧ k'.sending = k.sending
  | [], k => ⟨k, rfl, by simp, rfl, rfl, rfl, rfl⟩
  | y :: l, k => by
    obtain ⟨k', e, h1, h2, h3, h4, h5⟩ := stds_ok (o := o) l { k with std := lib y ++ k.std }
    refine ⟨k', e, fun x => ?_, h2, h3, h4, h5⟩
    rw [h1]; simp only [List.mem_append, List.mem_cons, exists_eq_or_imp]; tauto

/-! ## Opening a header -/

theorem fold_append {o : Known → Hdr → Except Err Known} (k : Known) (l l' : List Line) :
    (l ++ l').foldlM (readLine lib o) k = (l.foldlM (readLine lib o) k >>= fun k' => l'.foldlM (readLine lib o) k') :=
  List.foldlM_append

/-- A header that was opened before. -/
theorem open_again {f : Nat} {h : Hdr} {k : Known} {a : Sum} (r : Rep lib pre k a) (hg : ∀ x ∈ brings h, a.G x ↔ a.C x)
    (hC : a.C h) : ∃ k', openHdr lib (f + 1) k h = .ok k' ∧ Rep lib pre k' (step pre a h) := by
  refine ⟨k, by rw [openHdr, if_pos ((r.mac h).2 ((hg h (self_brings h)).2 hC))], ?_⟩
  have hb := (r.good h hC).1
  refine r.congr (fun x => ?_) (fun x => ?_) (fun hx => ?_) (fun hx => ?_) (fun hx => ?_) <;> simp only [step]
  · exact ⟨fun h => h.elim id (hb x), .inl⟩
  · exact ⟨fun h => h.elim id fun hx => (hg x hx).2 (hb x hx), .inl⟩
  · tauto
  · tauto
  · tauto

/-- The definitions of a header have been read. -/
def body (on : Prop) (a : Sum) (h : Hdr) : Sum where
  C x := a.C x ∨ x = h
  G := a.G
  v := (h = .var ∧ a.C .mean) ∨ (h ≠ .var ∧ a.v)
  p := (h = .pow ∧ a.C .mult) ∨ (h ≠ .pow ∧ a.p)
  s := (h = .print ∧ on) ∨ (h ≠ .print ∧ a.s)

theorem body_std {o : Known → Hdr → Except Err Known} {on : Bool} {h : Hdr} {k : Known} {a : Sum} (r : Rep lib pre k a)
    (hi : ∀ x ∈ inner h ++ needs h, a.C x) (hcout : .cout ∈ lib .iostream) :
    ∃ k', ((stds on h).map Line.std).foldlM (readLine lib o) k = .ok k' ∧ Rep lib pre k' a ∧
      (h ≠ .all → ∀ x, x ≠ .cout → x ∈ k'.std) ∧ (h = .print → on = true → .cout ∈ k'.std) := by
  obtain ⟨k', e, h1, h2, h3, h4, h5⟩ := stds_ok (lib := lib) (o := o) (stds on h) k
  refine ⟨k', e, ⟨fun x => by rw [h2]; exact r.mac x, by rw [h2]; exact r.on, fun n => by rw [h3]; exact r.decl n,
    fun n => by rw [h4]; exact r.call n, fun n => by rw [h5]; exact r.send n, fun ht x hx => (h1 x).2 (.inl (r.std ht x hx)),
    fun x hx => (r.give x hx).imp_left fun hx => (h1 x).2 (.inl hx), r.good⟩, fun ha x hx => ?_, ?_⟩
  · by_cases ht : h = .type
    · subst ht; exact (h1 x).2 (r.give x hx)
    · exact (h1 x).2 (.inl (r.std (hi _ (type_before h ht ha)) x hx))
  · rintro rfl rfl; exact (h1 _).2 (.inr ⟨.iostream, List.mem_singleton.2 rfl, hcout⟩)

theorem good_body {on : Prop} {h : Hdr} {a : Sum} (g : ∀ x, a.C x → (∀ y ∈ brings x, a.C y) ∧ ∀ y ∈ needs x, a.C y)
    (hi : ∀ x ∈ inner h ++ needs h, a.C x) :
    ∀ x, (body on a h).C x → (∀ y ∈ brings x, (body on a h).C y) ∧ ∀ y ∈ needs x, (body on a h).C y := by
  rintro x (hx | rfl)
  · exact ⟨fun y hy => .inl ((g x hx).1 y hy), fun y hy => .inl ((g x hx).2 y hy)⟩
  · refine ⟨fun y hy => ?_, fun y hy => .inl (hi y (List.mem_append_right _ hy))⟩
    rcases (mem_brings _ _).1 hy with hy | hy
    · exact .inr hy
    · exact .inl (hi y (List.mem_append_left _ hy))

theorem body_defs {o : Known → Hdr → Except Err Known} {on : Bool} {h : Hdr} {k : Known} {a : Sum} (r : Rep lib pre k a)
    (hi : ∀ x ∈ inner h ++ needs h, a.C x) (hC : ¬ a.C h) (hst : h ≠ .all → ∀ x, x ≠ .cout → x ∈ k.std)
    (hcout : h = .print → on = true → .cout ∈ k.std) :
    ∃ k', ((defs on h).map Line.defn).foldlM (readLine lib o) k = .ok k' ∧ Rep lib pre k' (body (on = true) a h) := by
  by_cases hall : h = .all
  · subst hall
    refine ⟨k, rfl, r.mac, r.on, fun n => ?_, fun n => ?_, fun n => ?_, fun ht => r.std ?_, r.give, good_body r.good hi⟩
    · rw [r.decl]; simp [body, home_all]
    · rw [r.call]; simp [body, Works, home_all]
    · rw [r.send]; simp [body]
    · simpa [body] using ht
  have hstd := hst hall
  have htype : (body (on = true) a h).C .type → ∀ x, x ≠ .cout → x ∈ k.std := fun _ => hstd
  by_cases hgen : h ≠ .var ∧ h ≠ .stddev ∧ h ≠ .pow ∧ h ≠ .print
  · obtain ⟨g1, g2, g3, g4⟩ := hgen
    obtain ⟨k', e, h1, h2, h3, h4, h5⟩ := body_ok (lib := lib) (o := o) g4 hi hC (defs on h) [] k (okDefs_of on h g1 g2 g3 g4)
      (by simp) (by simpa using r.decl) (by simpa using r.call) (fun n hn => ((r.send n).1 hn).1) hstd
    have hn := fun n => mem_names on n h
    refine ⟨k', e, fun x => by rw [h5]; exact r.mac x, by rw [h5]; exact r.on, fun n => ?_, fun n => ?_, fun n => ?_,
      fun ht => by rw [h4]; exact htype ht, fun x hx => by rw [h4]; exact r.give x hx, good_body r.good hi⟩
    · rw [h1, ← hn]; simp [body]
    · rw [h2, ← hn]
      simp only [body, Works, List.not_mem_nil, false_or, g1, g3, false_and, ne_eq, not_false_eq_true, true_and]
      constructor
      · rintro (⟨q1, q2⟩ | q)
        · exact ⟨.inl q1, q2⟩
        · refine ⟨.inr q, ?_, ?_⟩
          · rintro (rfl | rfl)
            · exact absurd q.symm g1
            · exact absurd q.symm g2
          · rintro rfl; exact absurd q.symm g3
      · rintro ⟨q1 | q1, q2⟩
        · exact .inl ⟨q1, q2⟩
        · exact .inr q1
    · rw [h3, r.send]; simp [body, g4, Ne.symm g4]
  have hM : ∀ n, home n ∈ inner h ++ needs h → n ∈ k.declared := fun _ hn => (r.decl _).2 (hi _ hn)
  have hK : ∀ n, home n ∈ inner h ++ needs h → touchy n = false → n ∈ k.callable := fun n hn ht => by
    refine (r.call _).2 ⟨hi _ hn, ?_, ?_⟩
    · rintro (rfl | rfl) <;> simp [touchy] at ht
    · rintro rfl; simp [touchy] at ht
  have hS : ∀ n, home n ≠ .print → n ∉ k.sending := fun _ hn hs => hn ((r.send _).1 hs).1
  have hD : ∀ n, home n = h → n ∉ k.declared := fun n hn hd => hC (hn ▸ (r.decl n).1 hd)
  have one : ∀ d : Def, defs on h = [d] → (∀ n ∈ d.parse, home n ∈ inner h ++ needs h) → (∀ s ∈ d.parseStd, s ≠ .cout) →
      (∀ s ∈ d.callStd, s ≠ .cout) → d.sends = false → (∀ n ∈ d.parse ++ d.call, home n ≠ .print) →
      ∃ k', ((defs on h).map Line.defn).foldlM (readLine lib o) k = .ok k' ∧ k'.macros = k.macros ∧ k'.std = k.std ∧
        k'.sending = k.sending ∧ k'.declared = d.name :: k.declared ∧
        k'.callable = if ∀ n ∈ d.parse ++ d.call, n ∈ k.callable then d.name :: k.callable else k.callable := by
    intro d hd q1 q2 q3 q4 q5
    have hname : home d.name = h := (mem_names on _ _).2 (by rw [hd]; exact List.mem_singleton.2 rfl)
    have e := define_ok (hD _ hname) (fun n hn => hM n (q1 n hn)) (fun s hs => hstd s (q2 s hs))
    rw [hd]
    have hs : ([d].map Line.defn).foldlM (readLine lib o) k = define k d := by simp [readLine]
    rw [hs, e]
    refine ⟨_, rfl, rfl, rfl, ?_, rfl, ?_⟩
    · refine if_neg ?_
      rw [q4]
      rintro (hs | ⟨n, hn, hs⟩)
      · cases hs
      · exact hS n (q5 n hn) hs
    · have : (∀ s ∈ d.callStd, s ∈ k.std) := fun s hs => hstd s (q3 s hs)
      exact if_congr (and_iff_left this) rfl rfl
  have hdecl : ∀ n, home n = h → ∀ m, (m ∈ n :: k.declared ↔ (body (on = true) a h).C (home m)) ∨ home m = h ∧ m ≠ n := by
    intro n hn m
    by_cases hm : home m = h
    · by_cases e : m = n
      · exact .inl (by simp [e, body, hn])
      · exact .inr ⟨hm, e⟩
    · refine .inl ?_
      have e : m ≠ n := fun e => hm (e ▸ hn)
      simp [body, hm, e, r.decl]
  by_cases hp : h = .print
  · subst hp
    have hM' := hM .Matrix (by decide)
    have hK' := hK .Matrix (by decide) (by decide)
    have hS' : ∀ n, n ∉ k.sending := fun n hn => hC ((r.send n).1 hn).2.1
    have d1 := hD .print_num rfl
    have d2 := hD .print_endl rfl
    have d3 := hD .print rfl
    cases on
    · refine ⟨{ k with
          declared := .print :: .print_endl :: .print_num :: k.declared
          callable := .print :: .print_endl :: .print_num :: k.callable }, ?_, r.mac, r.on, fun n => ?_, fun n => ?_,
          fun n => ?_, fun _ => hstd, r.give, good_body r.good hi⟩
      · simp [defs, readLine, define, bind, Except.bind, pure, Except.pure, d1, d2, d3, hM', hK', hS']
      · simp only [List.mem_cons, r.decl]; cases n <;> simp [body, home, hC]
      · simp only [List.mem_cons, r.call]; cases n <;> simp [body, home, hC, Works]
      · simp [body, hS']
    · have hcout := hcout rfl rfl
      refine ⟨{ k with
          declared := .print :: .print_endl :: .print_num :: k.declared
          callable := .print :: .print_endl :: .print_num :: k.callable
          sending := .print :: .print_endl :: .print_num :: k.sending }, ?_, r.mac, r.on, fun n => ?_, fun n => ?_,
          fun n => ?_, fun _ => hstd, r.give, good_body r.good hi⟩
      · simp [defs, readLine, define, bind, Except.bind, pure, Except.pure, d1, d2, d3, hM', hK', hcout]
      · simp only [List.mem_cons, r.decl]; cases n <;> simp [body, home, hC]
      · simp only [List.mem_cons, r.call]; cases n <;> simp [body, home, hC, Works]
      · simp only [List.mem_cons, hS', or_false]; cases n <;> simp [body, home]
  have hsend : ∀ n, n ∈ k.sending ↔ home n = .print ∧ (body (on = true) a h).C .print ∧ (body (on = true) a h).s := by
    intro n; rw [r.send]; simp [body, hp, Ne.symm hp]
  by_cases hv : h = .var
  · subst hv
    obtain ⟨k', e, h1, h2, h3, h4, h5⟩ := one _ rfl (by decide) (by decide) (by decide) rfl (by decide)
    refine ⟨k', e, fun x => by rw [h1]; exact r.mac x, by rw [h1]; exact r.on, fun n => ?_, fun n => ?_,
      fun n => by rw [h3]; exact hsend n, fun ht => by rw [h2]; exact hstd, fun x hx => by rw [h2]; exact r.give x hx,
      good_body r.good hi⟩
    · rw [h4]; exact (hdecl .var rfl n).resolve_right (by cases n <;> simp [home])
    · rw [h5]
      have hstd' : ¬ a.C .stddev := fun h => hC ((r.good _ h).1 _ (by decide))
      have hmean : (∀ n ∈ [Name.Matrix] ++ [.mean], n ∈ k.callable) ↔ a.C .mean := by
        have := hK .Matrix (by decide) (by decide)
        have q : .mean ∈ k.callable ↔ a.C .mean := by rw [r.call]; simp [Works, home]
        simp [this, q]
      by_cases hm : a.C .mean
      · rw [if_pos (hmean.2 hm), List.mem_cons, r.call]
        cases n <;> simp [Works, body, home, hm, hC, hstd']
      · rw [if_neg (mt hmean.1 hm), r.call]
        cases n <;> simp [Works, body, home, hm, hC, hstd']
  by_cases hv : h = .stddev
  · subst hv
    obtain ⟨k', e, h1, h2, h3, h4, h5⟩ := one _ rfl (by decide) (by decide) (by decide) rfl (by decide)
    refine ⟨k', e, fun x => by rw [h1]; exact r.mac x, by rw [h1]; exact r.on, fun n => ?_, fun n => ?_,
      fun n => by rw [h3]; exact hsend n, fun ht => by rw [h2]; exact hstd, fun x hx => by rw [h2]; exact r.give x hx,
      good_body r.good hi⟩
    · rw [h4]; exact (hdecl .stddev rfl n).resolve_right (by cases n <;> simp [home])
    · rw [h5]
      have hvar : a.C .var := hi _ (by decide)
      have hmean : (∀ n ∈ [Name.Matrix] ++ [.var], n ∈ k.callable) ↔ a.v := by
        have := hK .Matrix (by decide) (by decide)
        have q : .var ∈ k.callable ↔ a.v := by rw [r.call]; simp [Works, home, hvar]
        simp [this, q]
      by_cases hm : a.v
      · rw [if_pos (hmean.2 hm), List.mem_cons, r.call]
        cases n <;> simp [Works, body, home, hm, hC, hvar]
      · rw [if_neg (mt hmean.1 hm), r.call]
        cases n <;> simp [Works, body, home, hm, hC, hvar]
  by_cases hv : h = .pow
  · subst hv
    obtain ⟨k', e, h1, h2, h3, h4, h5⟩ := one _ rfl (by decide) (by decide) (by decide) rfl (by decide)
    refine ⟨k', e, fun x => by rw [h1]; exact r.mac x, by rw [h1]; exact r.on, fun n => ?_, fun n => ?_,
      fun n => by rw [h3]; exact hsend n, fun ht => by rw [h2]; exact hstd, fun x hx => by rw [h2]; exact r.give x hx,
      good_body r.good hi⟩
    · rw [h4]; exact (hdecl .pow rfl n).resolve_right (by cases n <;> simp [home])
    · rw [h5]
      have hmean : (∀ n ∈ [Name.Matrix, .eye, .ones] ++ [.inv1, .inv2, .inv3, .inv, .opMul], n ∈ k.callable) ↔ a.C .mult := by
        have q1 := hK .Matrix (by decide) (by decide)
        have q2 := hK .eye (by decide) (by decide)
        have q3 := hK .ones (by decide) (by decide)
        have q4 := hK .inv1 (by decide) (by decide)
        have q5 := hK .inv2 (by decide) (by decide)
        have q6 := hK .inv3 (by decide) (by decide)
        have q7 := hK .inv (by decide) (by decide)
        have q8 : .opMul ∈ k.callable ↔ a.C .mult := by rw [r.call]; simp [Works, home]
        simp [q1, q2, q3, q4, q5, q6, q7, q8]
      by_cases hm : a.C .mult
      · rw [if_pos (hmean.2 hm), List.mem_cons, r.call]
        cases n <;> simp [Works, body, home, hm, hC]
      · rw [if_neg (mt hmean.1 hm), r.call]
        cases n <;> simp [Works, body, home, hm, hC]
  tauto

/-! ## Which of two headers comes first -/

theorem keep_v (l : List Hdr) (a : Sum) (h : a.C .var) : (l.foldl (step pre) a).v ↔ a.v := by
  induction l generalizing a with
  | nil => rfl
  | cons i l ih => rw [List.foldl_cons, ih _ (Or.inl h)]; simp [step, h]

theorem keep_p (l : List Hdr) (a : Sum) (h : a.C .pow) : (l.foldl (step pre) a).p ↔ a.p := by
  induction l generalizing a with
  | nil => rfl
  | cons i l ih => rw [List.foldl_cons, ih _ (Or.inl h)]; simp [step, h]

theorem keep_s (l : List Hdr) (a : Sum) (h : a.C .print) : (l.foldl (step pre) a).s ↔ a.s := by
  induction l generalizing a with
  | nil => rfl
  | cons i l ih => rw [List.foldl_cons, ih _ (Or.inl h)]; simp [step, h]

theorem first_v {l₁ l₂ : List Hdr} {i : Hdr} {a : Sum} (h : ¬ a.C .var) (h₁ : ∀ j ∈ l₁, .var ∉ brings j) (hi : .var ∈ brings i) :
    ((l₁ ++ i :: l₂).foldl (step pre) a).v ↔ i = .all ∨ a.C .mean ∨ ∃ j ∈ l₁, .mean ∈ brings j := by
  have hn : ¬ (l₁.foldl (step pre) a).C .var := by
    rw [step_C]; exact fun q => q.elim h fun ⟨j, hj, hv⟩ => h₁ j hj hv
  rw [List.foldl_append, List.foldl_cons, keep_v _ _ (Or.inr hi)]
  simp only [step, hn, hi, false_and, false_or, not_false_eq_true, true_and, step_C]

theorem first_p {l₁ l₂ : List Hdr} {i : Hdr} {a : Sum} (h : ¬ a.C .pow) (h₁ : ∀ j ∈ l₁, .pow ∉ brings j) (hi : .pow ∈ brings i) :
    ((l₁ ++ i :: l₂).foldl (step pre) a).p ↔ i = .all ∨ a.C .mult ∨ ∃ j ∈ l₁, .mult ∈ brings j := by
  have hn : ¬ (l₁.foldl (step pre) a).C .pow := by
    rw [step_C]; exact fun q => q.elim h fun ⟨j, hj, hv⟩ => h₁ j hj hv
  rw [List.foldl_append, List.foldl_cons, keep_p _ _ (Or.inr hi)]
  simp only [step, hn, hi, false_and, false_or, not_false_eq_true, true_and, step_C]

theorem first_s {l₁ l₂ : List Hdr} {i : Hdr} {a : Sum} (h : ¬ a.C .print) (h₁ : ∀ j ∈ l₁, .print ∉ brings j)
    (hi : .print ∈ brings i) :
    ((l₁ ++ i :: l₂).foldl (step pre) a).s ↔ i = .all ∨ pre ∨ a.G .all ∨ ∃ j ∈ l₁, .all ∈ brings j := by
  have hn : ¬ (l₁.foldl (step pre) a).C .print := by
    rw [step_C]; exact fun q => q.elim h fun ⟨j, hj, hv⟩ => h₁ j hj hv
  rw [List.foldl_append, List.foldl_cons, keep_s _ _ (Or.inr hi)]
  simp only [step, hn, hi, false_and, false_or, not_false_eq_true, true_and, step_G]

theorem brings_var (h : Hdr) : .var ∈ brings h → h = .var ∨ h = .stddev ∨ h = .all := by cases h <;> decide

theorem brings_pow (h : Hdr) : .pow ∈ brings h → h = .pow ∨ h = .all := by cases h <;> decide

theorem brings_print (h : Hdr) : .print ∈ brings h → h = .print ∨ h = .all := by cases h <;> decide

theorem brings_all (h : Hdr) : .all ∈ brings h ↔ h = .all := by cases h <;> decide

theorem all_includes : (∃ l₁ l₂, includes .all = l₁ ++ .stddev :: l₂ ∧ (∀ j ∈ l₁, .var ∉ brings j) ∧ ∃ j ∈ l₁, .mean ∈ brings j) ∧
    (∃ l₁ l₂, includes .all = l₁ ++ .pow :: l₂ ∧ (∀ j ∈ l₁, .pow ∉ brings j) ∧ ∃ j ∈ l₁, .mult ∈ brings j) ∧
    ∃ l₁ l₂, includes .all = l₁ ++ .print :: l₂ ∧ ∀ j ∈ l₁, .print ∉ brings j :=
  ⟨⟨(includes .all).take 18, (includes .all).drop 19, by decide⟩, ⟨(includes .all).take 16, (includes .all).drop 17, by decide⟩,
    ⟨(includes .all).take 17, (includes .all).drop 18, by decide⟩⟩

/-- Reading the includes and the definitions of a header is including it. -/
theorem body_step {on : Prop} {k : Known} {h : Hdr} {a : Sum} (hC : ¬ a.C h) (hon : h = .print → (on ↔ pre ∨ a.G .all))
    (r : Rep lib pre k (body on ((includes h).foldl (step pre) { a with G := fun x => a.G x ∨ x = h }) h)) :
    Rep lib pre k (step pre a h) := by
  have inner' : ∀ x, (∃ i ∈ includes h, x ∈ brings i) ↔ x ∈ inner h := fun x => by simp [inner]
  refine r.congr (fun x => ?_) (fun x => ?_) (fun hx => ?_) (fun hx => ?_) (fun hx => ?_)
  · simp only [step, body, step_C, inner', mem_brings h]; tauto
  · simp only [step, body, step_G, inner', mem_brings h]; tauto
  · by_cases hv : a.C .var
    · have : h ≠ .var := fun e => hC (e ▸ hv)
      simp only [body, step, this, hv, false_and, false_or, ne_eq, not_false_eq_true, true_and, not_true, or_false]
      exact (keep_v _ { a with G := fun x => a.G x ∨ x = h } hv).symm
    · have hb : .var ∈ brings h := by
        simp only [body, step_C, inner', hv, false_or] at hx
        exact (mem_brings _ _).2 (hx.symm.imp_left id)
      rcases brings_var h hb with rfl | rfl | rfl
      · simp [body, step, hv, includes, brings]
      · simp [body, step, hv, includes, brings]
      · obtain ⟨⟨l₁, l₂, e, q1, q2⟩, -⟩ := all_includes
        simp only [body, e]
        rw [first_v (a := { a with G := fun x => a.G x ∨ x = .all }) hv q1 (by decide)]
        simp [step, hv, hb, q2]
  · by_cases hv : a.C .pow
    · have : h ≠ .pow := fun e => hC (e ▸ hv)
      simp only [body, step, this, hv, false_and, false_or, ne_eq, not_false_eq_true, true_and, not_true, or_false]
      exact (keep_p _ { a with G := fun x => a.G x ∨ x = h } hv).symm
    · have hb : .pow ∈ brings h := by
        simp only [body, step_C, inner', hv, false_or] at hx
        exact (mem_brings _ _).2 (hx.symm.imp_left id)
      rcases brings_pow h hb with rfl | rfl
      · simp [body, step, hv, includes, brings]
      · obtain ⟨-, ⟨l₁, l₂, e, q1, q2⟩, -⟩ := all_includes
        simp only [body, e]
        rw [first_p (a := { a with G := fun x => a.G x ∨ x = .all }) hv q1 (by decide)]
        simp [step, hv, hb, q2]
  · by_cases hv : a.C .print
    · have : h ≠ .print := fun e => hC (e ▸ hv)
      simp only [body, step, this, hv, false_and, false_or, ne_eq, not_false_eq_true, true_and, not_true, or_false]
      exact (keep_s _ { a with G := fun x => a.G x ∨ x = h } hv).symm
    · have hb : .print ∈ brings h := by
        simp only [body, step_C, inner', hv, false_or] at hx
        exact (mem_brings _ _).2 (hx.symm.imp_left id)
      rcases brings_print h hb with rfl | rfl
      · simp [body, step, hv, includes, brings, hon rfl]
      · obtain ⟨-, -, ⟨l₁, l₂, e, q1⟩⟩ := all_includes
        simp only [body, e]
        rw [first_s (a := { a with G := fun x => a.G x ∨ x = .all }) hv q1 (by decide)]
        simp [step, hv, hb]

/-- The lines before the includes. -/
theorem head_ok {o : Known → Hdr → Except Err Known} {h : Hdr} {k : Known} {a : Sum} (r : Rep lib pre k a) :
    ∃ k', (if h = .all then [Line.define streamMacro] else []).foldlM (readLine lib o)
      { k with macros := guard h :: k.macros } = .ok k' ∧ Rep lib pre k' { a with G := fun x => a.G x ∨ x = h } := by
  have mac : ∀ x, guard x ∈ guard h :: k.macros ↔ a.G x ∨ x = h := fun x => by
    rw [List.mem_cons, r.mac]
    exact ⟨fun q => q.symm.imp_right guard_inj, fun q => q.symm.imp_left fun e => by rw [e]⟩
  by_cases hall : h = .all
  · rw [if_pos hall]
    refine ⟨_, rfl, fun x => ?_, ?_, r.decl, r.call, r.send, r.std, r.give, r.good⟩
    · rw [List.mem_cons, mac]
      exact or_iff_right (guard_stream x)
    · exact ⟨fun _ => .inr (.inr hall.symm), fun _ => List.mem_cons_self⟩
  · rw [if_neg hall]
    refine ⟨_, rfl, mac, ?_, r.decl, r.call, r.send, r.std, r.give, r.good⟩
    rw [List.mem_cons, r.on]
    constructor
    · rintro (q | q | q)
      · exact absurd q.symm (guard_stream h)
      · exact .inl q
      · exact .inr (.inl q)
    · rintro (q | q | q)
      · exact .inr (.inl q)
      · exact .inr (.inr q)
      · exact absurd q.symm hall

theorem open_spec (hcout : .cout ∈ lib .iostream) : ∀ (f : Nat) (h : Hdr), rank h < f → Spec lib pre f h
  | 0, h, hf => absurd hf (Nat.not_lt_zero _)
  | f + 1, h, hf => by
    intro k a r hg
    by_cases hG : a.G h
    · have hC := (hg h (self_brings h)).1 hG
      exact ⟨fun _ => open_again r hg hC, fun hn => absurd (r.good h hC).2 hn⟩
    have hC : ¬ a.C h := fun hC => hG ((hg h (self_brings h)).2 hC)
    have inner' : ∀ x, (∃ i ∈ includes h, x ∈ brings i) ↔ x ∈ inner h := fun x => by simp [inner]
    obtain ⟨k1, e1, r1⟩ := head_ok (lib := lib) (o := openHdr lib f) (h := h) r
    obtain ⟨ok, bad⟩ := incs (includes h) (fun i hi => open_spec hcout f i (Nat.lt_of_lt_of_le (rank_includes h i hi)
      (Nat.lt_succ_iff.1 hf))) k1 _ r1 (fun i hi x hx => by
        have hx' : x ∈ inner h := (inner' x).1 ⟨i, hi, hx⟩
        have hne : x ≠ h := fun e => not_inner h (e ▸ hx')
        have := hg x ((mem_brings h x).2 (.inr hx'))
        simp [hne, this])
    have hopen : openHdr lib (f + 1) k h =
        ((includes h).map Line.inc).foldlM (readLine lib (openHdr lib f)) k1 >>= fun k2 =>
        ((stds (decide (streamMacro ∈ k.macros)) h).map Line.std).foldlM (readLine lib (openHdr lib f)) k2 >>= fun k3 =>
        ((defs (decide (streamMacro ∈ k.macros)) h).map Line.defn).foldlM (readLine lib (openHdr lib f)) k3 := by
      rw [openHdr, if_neg (mt (r.mac h).1 hG), lines, fold_append, fold_append, fold_append, e1]
      simp only [bind_assoc]; rfl
    rw [hopen]
    by_cases hr : Rdy a.C (includes h)
    · obtain ⟨k2, e2, r2⟩ := ok hr
      rw [e2]
      have hin : ∀ x, x ∈ inner h → ((includes h).foldl (step pre) { a with G := fun x => a.G x ∨ x = h }).C x :=
        fun x hx => (step_C _ _ _).2 (.inr ((inner' x).2 hx))
      have hnC : ¬ ((includes h).foldl (step pre) { a with G := fun x => a.G x ∨ x = h }).C h := by
        rw [step_C, inner']; exact fun q => q.elim hC (not_inner h)
      constructor
      · intro hn
        have hi : ∀ x ∈ inner h ++ needs h, ((includes h).foldl (step pre) { a with G := fun x => a.G x ∨ x = h }).C x := by
          intro x hx
          rcases List.mem_append.1 hx with hx | hx
          · exact hin x hx
          · exact (step_C _ _ _).2 (.inl (hn x hx))
        obtain ⟨k3, e3, r3, s3, c3⟩ := body_std (o := openHdr lib f) (on := decide (streamMacro ∈ k.macros)) r2 hi hcout
        obtain ⟨k4, e4, r4⟩ := body_defs (o := openHdr lib f) r3 hi hnC s3 c3
        refine ⟨k4, ?_, body_step hC (fun _ => ?_) r4⟩
        · show (((stds (decide (streamMacro ∈ k.macros)) h).map Line.std).foldlM (readLine lib (openHdr lib f)) k2 >>= _) = _
          rw [e3]; exact e4
        · rw [decide_eq_true_iff, r.on]
      · intro hn
        obtain ⟨x, hx⟩ := not_forall.1 hn
        obtain ⟨hx, hxC⟩ := Classical.not_imp.1 hx
        have hx2 : ¬ ((includes h).foldl (step pre) { a with G := fun x => a.G x ∨ x = h }).C x := by
          rw [step_C, inner']
          rintro (q | q)
          · exact hxC q
          · exact needs_brings h x hx ((mem_brings h x).2 (.inr q))
        obtain ⟨k3, e3, t1, t2, t3, t4, t5⟩ := stds_ok (lib := lib) (o := openHdr lib f)
          (stds (decide (streamMacro ∈ k.macros)) h) k2
        show ∃ e, (((stds (decide (streamMacro ∈ k.macros)) h).map Line.std).foldlM (readLine lib (openHdr lib f)) k2 >>= _) =
          .error e ∧ _
        rw [e3]
        rcases why_needs (decide (streamMacro ∈ k.macros)) h x hx with ⟨i, hi, hxi⟩ | ⟨d, hd, m, hm, hmx⟩
        · exact absurd ((step_C _ { a with G := fun x => a.G x ∨ x = h } _).2 (Rdy.needs hr i hi x hxi)) hx2
        · refine body_bad _ k3 (nodup_names _ h) (fun d' hd' => ?_) ⟨d, hd, m, hm, ?_, ?_⟩
          · rw [t3, r2.decl, (mem_names _ _ h).2 (List.mem_map_of_mem hd')]
            exact hnC
          · rw [t3, r2.decl, hmx]
            exact hx2
          · rw [← mem_names, hmx]
            rintro rfl
            exact needs_brings x x hx (self_brings x)
    · obtain ⟨e, he, n, hn⟩ := bad hr
      rw [he]
      exact ⟨fun hn' => absurd (Rdy.of_bool (rdy_includes h) hn') hr, fun _ => ⟨e, rfl, n, hn⟩⟩

/-! ## Translation units -/

theorem rdy_iff : ∀ (l : List Hdr) (C : Hdr → Prop),
    Rdy C l ↔ ∀ l₁ h l₂, l = l₁ ++ h :: l₂ → ∀ x ∈ needs h, C x ∨ Has l₁ x
  | [], C => ⟨fun _ l₁ h l₂ e => by simp at e, fun _ => trivial⟩
  | i :: l, C => by
    have ih := rdy_iff l (fun x => C x ∨ x ∈ brings i)
    constructor
    · rintro ⟨h1, h2⟩ l₁ h l₂ e x hx
      rcases List.cons_eq_append_iff.1 e with ⟨rfl, e'⟩ | ⟨l', rfl, e'⟩
      · rw [List.cons.injEq] at e'
        obtain ⟨rfl, rfl⟩ := e'
        exact .inl (h1 x hx)
      · rcases ih.1 h2 l' h l₂ e' x hx with (q | q) | ⟨j, hj, q⟩
        · exact .inl q
        · exact .inr ⟨i, List.mem_cons_self, q⟩
        · exact .inr ⟨j, List.mem_cons_of_mem _ hj, q⟩
    · intro H
      refine ⟨fun y hy => (H [] i l rfl y hy).elim id fun ⟨j, hj, _⟩ => absurd hj (List.not_mem_nil), ih.2 ?_⟩
      intro l₁ h l₂ e x hx
      rcases H (i :: l₁) h l₂ (by rw [e]; rfl) x hx with q | ⟨j, hj, q⟩
      · exact .inl (.inl q)
      · rcases List.mem_cons.1 hj with rfl | hj
        · exact .inl (.inr q)
        · exact .inr ⟨j, hj, q⟩

/-- Nothing has been read. -/
def none : Sum where
  C _ := False
  G _ := False
  v := False
  p := False
  s := False

theorem rank_lt (h : Hdr) : rank h < 5 := by cases h <;> decide

theorem unit_spec {on : Bool} {s : List StdHdr} {l : List Hdr} {depth : Nat} (he : Enough lib s) (hd : 5 ≤ depth) :
    (Ordered l → ∃ k, compile lib depth (unit on s l) = .ok k ∧ Rep lib (on = true) k (l.foldl (step (on = true)) none)) ∧
    (¬ Ordered l → ∃ e, compile lib depth (unit on s l) = .error e ∧ ∃ n, e = .undeclared n) := by
  obtain ⟨k, e, h1, h2, h3, h4, h5⟩ := stds_ok (lib := lib) (o := openHdr lib depth) s
    { macros := if on = true then [streamMacro] else [] }
  have r : Rep lib (on = true) k none := by
    refine ⟨fun h => ?_, ?_, fun n => by simp [h3, none], fun n => by simp [h4, none, Works], fun n => by simp [h5, none],
      fun h => h.elim, fun x hx => ?_, fun x h => h.elim⟩
    · rw [h2]; cases on <;> simp [none, guard_stream]
    · rw [h2]; cases on <;> simp [none]
    · obtain ⟨y, hy, hx⟩ := he.1 x hx
      rcases List.mem_append.1 hy with hy | hy
      · exact .inl ((h1 x).2 (.inr ⟨y, hy, hx⟩))
      · exact .inr ⟨y, hy, hx⟩
  have hc : compile lib depth (unit on s l) = (l.map Line.inc).foldlM (readLine lib (openHdr lib depth)) k := by
    rw [compile, unit, fold_append, fold_append]
    cases on
    · exact congrArg (· >>= _) e
    · exact congrArg (· >>= _) e
  have hr : Rdy none.C l ↔ Ordered l := by
    rw [rdy_iff]; simp [Ordered, none]
  rw [hc, ← hr]
  exact incs l (fun i _ => open_spec he.2 depth i (Nat.lt_of_lt_of_le (rank_lt i) hd)) k none r (fun _ _ _ _ => Iff.rfl)

/-- The first header that brings `x`. -/
theorem first_of : ∀ {l : List Hdr} {x : Hdr}, Has l x → ∃ l₁ h l₂, l = l₁ ++ h :: l₂ ∧ ¬ Has l₁ x ∧ x ∈ brings h
  | [], x, ⟨_, hj, _⟩ => absurd hj List.not_mem_nil
  | i :: l, x, ⟨j, hj, hx⟩ => by
    by_cases hi : x ∈ brings i
    · exact ⟨[], i, l, rfl, fun ⟨_, h, _⟩ => absurd h List.not_mem_nil, hi⟩
    · have : Has l x := ⟨j, (List.mem_cons.1 hj).resolve_left fun e => hi (e ▸ hx), hx⟩
      obtain ⟨l₁, h, l₂, e, h1, h2⟩ := first_of this
      refine ⟨i :: l₁, h, l₂, by rw [e]; rfl, ?_, h2⟩
      rintro ⟨j, hj, hx⟩
      rcases List.mem_cons.1 hj with rfl | hj
      · exact hi hx
      · exact h1 ⟨j, hj, hx⟩

theorem fold_C {l : List Hdr} (x : Hdr) : (l.foldl (step pre) none).C x ↔ Has l x := by
  rw [step_C]; simp [none, Has]

theorem fold_v {l : List Hdr} (h : Has l .var) : (l.foldl (step pre) none).v ↔ Before .mean .var l := by
  have key : ∀ l₁ i l₂, l = l₁ ++ i :: l₂ → ¬ Has l₁ .var → .var ∈ brings i →
      ((l.foldl (step pre) none).v ↔ i = .all ∨ Has l₁ .mean) := by
    rintro l₁ i l₂ rfl h1 h2
    rw [first_v (a := none) (fun h => h) (fun j hj hv => h1 ⟨j, hj, hv⟩) h2]
    simp [none, Has]
  constructor
  · intro hv
    obtain ⟨l₁, i, l₂, e, h1, h2⟩ := first_of h
    exact ⟨l₁, i, l₂, e, h1, h2, (key l₁ i l₂ e h1 h2).1 hv⟩
  · rintro ⟨l₁, i, l₂, e, h1, h2, h3⟩
    exact (key l₁ i l₂ e h1 h2).2 h3

theorem fold_p {l : List Hdr} (h : Has l .pow) : (l.foldl (step pre) none).p ↔ Before .mult .pow l := by
  have key : ∀ l₁ i l₂, l = l₁ ++ i :: l₂ → ¬ Has l₁ .pow → .pow ∈ brings i →
      ((l.foldl (step pre) none).p ↔ i = .all ∨ Has l₁ .mult) := by
    rintro l₁ i l₂ rfl h1 h2
    rw [first_p (a := none) (fun h => h) (fun j hj hv => h1 ⟨j, hj, hv⟩) h2]
    simp [none, Has]
  constructor
  · intro hv
    obtain ⟨l₁, i, l₂, e, h1, h2⟩ := first_of h
    exact ⟨l₁, i, l₂, e, h1, h2, (key l₁ i l₂ e h1 h2).1 hv⟩
  · rintro ⟨l₁, i, l₂, e, h1, h2, h3⟩
    exact (key l₁ i l₂ e h1 h2).2 h3

theorem fold_s {l : List Hdr} (h : Has l .print) : (l.foldl (step pre) none).s ↔ pre ∨ Before .all .print l := by
  have key : ∀ l₁ i l₂, l = l₁ ++ i :: l₂ → ¬ Has l₁ .print → .print ∈ brings i →
      ((l.foldl (step pre) none).s ↔ pre ∨ i = .all ∨ Has l₁ .all) := by
    rintro l₁ i l₂ rfl h1 h2
    rw [first_s (a := none) (fun h => h) (fun j hj hv => h1 ⟨j, hj, hv⟩) h2]
    simp only [none, Has, false_or]; tauto
  constructor
  · intro hv
    obtain ⟨l₁, i, l₂, e, h1, h2⟩ := first_of h
    exact ((key l₁ i l₂ e h1 h2).1 hv).imp_right fun q => ⟨l₁, i, l₂, e, h1, h2, q⟩
  · rintro (q | ⟨l₁, i, l₂, e, h1, h2, h3⟩)
    · obtain ⟨l₁, i, l₂, e, h1, h2⟩ := first_of h
      exact (key l₁ i l₂ e h1 h2).2 (.inl q)
    · exact (key l₁ i l₂ e h1 h2).2 (.inr h3)

end MatrixLibs.Incl
