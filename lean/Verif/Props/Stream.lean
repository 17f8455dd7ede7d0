import Verif.Proof.Alloc
import Verif.Spec.Stream
import Verif.Props.Print

/-!
# C145: `print` with other output functions, and on streams with a width or a failing device
-/

namespace MatrixLibs

set_option linter.unusedSectionVars false

variable {T : Type} [Inhabited T] {i j : Nat} {σ : Type}

/-- What a call does. -/
def Call.run (print_num : T → Run σ Unit) (print_endl : Run σ Unit) : Call T → Run σ Unit
  | .num x => print_num x
  | .endl => print_endl

/-- C145: whatever `print_num` and `print_endl` do, `print` calls `print_num` with every element of the first row from
left to right, then `print_endl`, then goes on with the next row; an exception ends it there. -/
theorem C145_calls (print_num : T → Run σ Unit) (print_endl : Run σ Unit) (A : Mat T i j) :
    printRun print_num print_endl A = eachRun (Call.run print_num print_endl) (calls A) := by
  unfold printRun calls
  rw [forRun_eq, List.ofFn_eq_map, ← List.flatMap_def, eachRun_flatMap]
  congr 1
  funext a
  rw [eachRun_append, List.ofFn_eq_map, eachRun_map, forRun_eq]
  congr 1
  · congr 1
    funext b
    rw [rd_fin]
    funext s
    exact run_ok (x := liftRes (.ok (A a b))) rfl
  · funext _
    exact (bind_pure _).symm

/-- C145: without `PRINT_IOSTREAM_ENABLE`, `print` does nothing. -/
theorem C145_silent (A : Mat T i j) (s : σ) : printRun printNumEmpty printEndlEmpty A s = (.ok (), s) := by
  rw [C145_calls]
  generalize calls A = l
  induction l with
  | nil => rfl
  | cons c l ih =>
    refine (run_ok (a := ()) (s' := s) ?_).trans ih
    cases c <;> rfl

/-! ## Streams -/

/-- What became of writing `l` to the good stream `s`. -/
structure Outcome (dev : Device) (s : Ostream) (l : List Char) (r : Res Unit) (s' : Ostream) (p : List Char) : Prop where
  /-- a part of the text from its beginning has been written, -/
  isPrefix : p <+: l
  out : s'.out = s.out ++ p
  /-- all of it if the stream is still good; -/
  good : s'.bad = false → p = l ∧ r = .ok ()
  /-- otherwise the device has failed, and an exception is thrown exactly if these are enabled. -/
  failed : s'.bad = true → ((∃ c, p ++ [c] <+: l ∧ dev.takes (s.out ++ p) c = false) ∨ dev.flushes (s.out ++ p) = false) ∧
    r = if s.mask then .error (.throws iosFailure) else .ok ()
  fill : s'.fill = s.fill
  left : s'.left = s.left
  mask : s'.mask = s.mask

theorem put_outcome (dev : Device) (l : List Char) : ∀ s : Ostream, s.bad = false →
    ∃ p, Outcome dev s l (put dev l s).1 (put dev l s).2 p ∧ (put dev l s).2.width = s.width := by
  induction l with
  | nil =>
    intro s hs
    refine ⟨[], ⟨List.prefix_refl _, (List.append_nil _).symm, fun _ => ⟨rfl, rfl⟩, fun h => ?_, rfl, rfl, rfl⟩, rfl⟩
    have h : s.bad = true := h
    rw [hs] at h
    cases h
  | cons c l ih =>
    intro s hs
    unfold put
    by_cases ht : dev.takes s.out c = true
    · simp only [if_pos ht]
      obtain ⟨p, h, hw⟩ := ih { s with out := s.out ++ [c] } hs
      refine ⟨c :: p, ⟨List.cons_prefix_cons.mpr ⟨rfl, h.isPrefix⟩, ?_, fun hb => ?_, fun hb => ?_, h.fill, h.left, h.mask⟩, hw⟩
      · rw [h.out, List.append_assoc]; rfl
      · exact ⟨by rw [(h.good hb).1], (h.good hb).2⟩
      · obtain ⟨h1, h2⟩ := h.failed hb
        have e : s.out ++ [c] ++ p = s.out ++ c :: p := by rw [List.append_assoc]; rfl
        dsimp only at h1
        rw [e] at h1
        refine ⟨h1.imp (fun ⟨x, hx, hx'⟩ => ⟨x, List.cons_prefix_cons.mpr ⟨rfl, hx⟩, hx'⟩) id, h2⟩
    · simp only [if_neg ht]
      unfold setBad
      refine ⟨[], ⟨List.nil_prefix, ?_, fun hb => ?_, fun hb => ⟨.inl ⟨c, ?_, ?_⟩, ?_⟩, ?_, ?_, ?_⟩, ?_⟩
      · split <;> exact (List.append_nil _).symm
      · revert hb
        split <;> exact fun h => absurd h (by simp)
      · exact List.cons_prefix_cons.mpr ⟨rfl, List.nil_prefix⟩
      · rw [List.append_nil]
        simpa using ht
      all_goals split <;> rfl

/-- One step after another. -/
theorem Outcome.bind {dev : Device} {s : Ostream} {l l' p : List Char} {x y : Run Ostream Unit}
    (hx : Outcome dev s l (x s).1 (x s).2 p)
    (hbad : ∀ s : Ostream, s.bad = true → y s = (.ok (), s))
    (hy : (x s).2.bad = false → ∃ p', Outcome dev (x s).2 l' (y (x s).2).1 (y (x s).2).2 p') :
    ∃ p', Outcome dev s (l ++ l') ((x >>= fun _ => y) s).1 ((x >>= fun _ => y) s).2 p' := by
  by_cases hb : (x s).2.bad = true
  · obtain ⟨h1, h2⟩ := hx.failed hb
    have e : (x >>= fun _ => y) s = x s := by
      rw [run_bind]
      rcases hxs : x s with ⟨r, s'⟩
      cases r with
      | ok u =>
        rw [hxs] at hb
        exact hbad s' hb
      | error e => rfl
    rw [e]
    refine ⟨p, ⟨hx.isPrefix.trans (List.prefix_append _ _), hx.out, fun h => ?_, fun _ => ⟨h1.imp
      (fun ⟨c, hc, hc'⟩ => ⟨c, hc.trans (List.prefix_append _ _), hc'⟩) id, h2⟩, hx.fill, hx.left, hx.mask⟩⟩
    rw [hb] at h
    cases h
  · have hb : (x s).2.bad = false := by simpa using hb
    obtain ⟨p', h⟩ := hy hb
    obtain ⟨rfl, hr⟩ := hx.good hb
    have e : (x >>= fun _ => y) s = y (x s).2 := by
      rw [run_bind]
      rcases hxs : x s with ⟨r, s'⟩
      rw [hxs] at hr
      simp only at hr
      rw [hr]
    rw [e]
    have ho : (x s).2.out ++ p' = s.out ++ (p ++ p') := by rw [hx.out, List.append_assoc]
    refine ⟨p ++ p', ⟨List.prefix_append_right_inj _ |>.mpr h.isPrefix, by rw [h.out, ho], fun hg => ?_, fun hg => ?_,
      h.fill.trans hx.fill, h.left.trans hx.left, h.mask.trans hx.mask⟩⟩
    · exact ⟨by rw [(h.good hg).1], (h.good hg).2⟩
    · obtain ⟨h1, h2⟩ := h.failed hg
      rw [ho] at h1
      rw [hx.mask] at h2
      exact ⟨h1.imp (fun ⟨c, hc, hc'⟩ => ⟨c, by
        rw [List.append_assoc]; exact (List.prefix_append_right_inj _).mpr hc, hc'⟩) id, h2⟩

/-- The text of a sequence of calls. -/
def callText (fmt : T → List Char) (pad : List Char → List Char) : List (Call T) → List Char
  | [] => []
  | .num x :: l => pad (fmt x) ++ [' '] ++ callText fmt id l
  | .endl :: l => ['\n'] ++ callText fmt pad l

/-- On a bad stream nothing happens. -/
theorem eachRun_bad (dev : Device) (fmt : T → List Char) (l : List (Call T)) (s : Ostream) (hs : s.bad = true) :
    eachRun (Call.run (printNumStream dev fmt) (printEndlStream dev)) l s = (.ok (), s) := by
  have hi : ∀ t, insertText dev t s = (.ok (), s) := fun t => by
    unfold insertText
    rw [if_pos hs]
  induction l with
  | nil => rfl
  | cons c l ih =>
    refine (run_ok (a := ()) (s' := s) ?_).trans ih
    cases c with
    | num x => exact (run_ok (hi _)).trans (hi _)
    | endl =>
      refine (run_ok (a := ()) (s' := s) ?_).trans ?_
      · exact if_pos hs
      · unfold flush
        rw [if_pos hs]

theorem insert_outcome (dev : Device) (l : List Char) (s : Ostream) (hs : s.bad = false) :
    ∃ p, Outcome dev s (s.pad l) (insertText dev l s).1 (insertText dev l s).2 p ∧ (insertText dev l s).2.width = 0 := by
  obtain ⟨p, h, hw⟩ := put_outcome dev (s.pad l) { s with width := 0 } hs
  have e : insertText dev l s = put dev (s.pad l) { s with width := 0 } := by
    unfold insertText
    rw [hs]
    rfl
  rw [e]
  exact ⟨p, ⟨h.isPrefix, h.out, h.good, h.failed, h.fill, h.left, h.mask⟩, hw⟩

theorem pad_eq (s : Ostream) (l : List Char) : s.pad l = padText s.width s.fill s.left l := rfl

theorem pad_zero (s : Ostream) (hs : s.width = 0) (l : List Char) : s.pad l = l := by
  unfold Ostream.pad
  rw [hs, Nat.zero_sub]
  split
  · exact List.append_nil _
  · rfl

theorem num_outcome (dev : Device) (fmt : T → List Char) (x : T) (s : Ostream) (hs : s.bad = false) :
    ∃ p, Outcome dev s (s.pad (fmt x) ++ [' ']) (printNumStream dev fmt x s).1 (printNumStream dev fmt x s).2 p := by
  obtain ⟨p, h, hw⟩ := insert_outcome dev (fmt x) s hs
  refine h.bind (y := insertText dev [' ']) (fun s hs => ?_) fun hb => ?_
  · unfold insertText
    rw [if_pos hs]
  · obtain ⟨p', h', -⟩ := insert_outcome dev [' '] _ hb
    rw [pad_zero _ hw] at h'
    exact ⟨p', h'⟩

theorem num_width (dev : Device) (fmt : T → List Char) (x : T) (s : Ostream) (hs : s.bad = false) :
    (printNumStream dev fmt x s).2.width = 0 := by
  obtain ⟨p, h, hw⟩ := insert_outcome dev (fmt x) s hs
  unfold printNumStream
  rw [run_bind]
  rcases e : insertText dev (fmt x) s with ⟨r, s'⟩
  rw [e] at hw
  cases r with
  | error _ => exact hw
  | ok u =>
    show (insertText dev [' '] s').2.width = 0
    by_cases hb : s'.bad = true
    · unfold insertText
      rw [if_pos hb]
      exact hw
    · obtain ⟨-, -, h⟩ := insert_outcome dev [' '] s' (by simpa using hb)
      exact h

theorem flush_outcome (dev : Device) (s : Ostream) (hs : s.bad = false) :
    ∃ p, Outcome dev s [] (flush dev s).1 (flush dev s).2 p ∧ (flush dev s).2.width = s.width := by
  unfold flush
  rw [hs, if_neg (by decide)]
  split
  · refine ⟨[], ⟨List.prefix_refl _, (List.append_nil _).symm, fun _ => ⟨rfl, rfl⟩, fun h => ?_, rfl, rfl, rfl⟩, rfl⟩
    have h : s.bad = true := h
    rw [hs] at h
    cases h
  · rename_i hf
    unfold setBad
    refine ⟨[], ⟨List.prefix_refl _, ?_, fun hb => ?_, fun hb => ⟨.inr ?_, ?_⟩, ?_, ?_, ?_⟩, ?_⟩
    · split <;> exact (List.append_nil _).symm
    · revert hb
      split <;> exact fun h => absurd h (by simp)
    · rw [List.append_nil]
      simpa using hf
    all_goals split <;> rfl

theorem endl_outcome (dev : Device) (s : Ostream) (hs : s.bad = false) :
    (∃ p, Outcome dev s ['\n'] (printEndlStream dev s).1 (printEndlStream dev s).2 p) ∧
    (printEndlStream dev s).2.width = s.width := by
  have e : putNewline dev s = put dev ['\n'] s := by
    unfold putNewline
    rw [hs]
    rfl
  obtain ⟨p, h, hw⟩ := put_outcome dev ['\n'] s hs
  rw [← e] at h hw
  constructor
  · refine h.bind (y := flush dev) (l' := []) (fun s hs => ?_) fun hb => ?_
    · unfold flush
      rw [if_pos hs]
    · obtain ⟨p', h', -⟩ := flush_outcome dev _ hb
      exact ⟨p', h'⟩
  · unfold printEndlStream
    rw [run_bind]
    rcases e' : putNewline dev s with ⟨r, s'⟩
    rw [e'] at hw
    cases r with
    | error _ => exact hw
    | ok u =>
      show (flush dev s').2.width = s.width
      by_cases hb : s'.bad = true
      · unfold flush
        rw [if_pos hb]
        exact hw
      · obtain ⟨-, -, h⟩ := flush_outcome dev s' (by simpa using hb)
        exact h.trans hw

theorem pad_congr {s s' : Ostream} (hf : s'.fill = s.fill) (hl : s'.left = s.left) (hw : s'.width = s.width) :
    s'.pad = s.pad := by
  unfold Ostream.pad
  rw [hf, hl, hw]

theorem calls_outcome (dev : Device) (fmt : T → List Char) (l : List (Call T)) : ∀ s : Ostream, s.bad = false →
    ∃ p, Outcome dev s (callText fmt s.pad l) (eachRun (Call.run (printNumStream dev fmt) (printEndlStream dev)) l s).1
      (eachRun (Call.run (printNumStream dev fmt) (printEndlStream dev)) l s).2 p := by
  induction l with
  | nil =>
    intro s hs
    refine ⟨[], ⟨List.prefix_refl _, (List.append_nil _).symm, fun _ => ⟨rfl, rfl⟩, fun h => ?_, rfl, rfl, rfl⟩⟩
    have h : s.bad = true := h
    rw [hs] at h
    cases h
  | cons c l ih =>
    intro s hs
    cases c with
    | num x =>
      obtain ⟨p, h⟩ := num_outcome dev fmt x s hs
      refine h.bind (y := eachRun _ l) (fun s hs => eachRun_bad dev fmt l s hs) fun hb => ?_
      have := ih _ hb
      rwa [show Ostream.pad (printNumStream dev fmt x s).2 = id from funext (pad_zero _ (num_width dev fmt x s hs))] at this
    | endl =>
      obtain ⟨⟨p, h⟩, hw⟩ := endl_outcome dev s hs
      refine h.bind (y := eachRun _ l) (fun s hs => eachRun_bad dev fmt l s hs) fun hb => ?_
      have := ih _ hb
      rwa [pad_congr h.fill h.left hw] at this

/-! ## The text -/

theorem callText_append (fmt : T → List Char) (l l' : List (Call T)) :
    callText fmt id (l ++ l') = callText fmt id l ++ callText fmt id l' := by
  induction l with
  | nil => rfl
  | cons c l ih =>
    cases c with
    | num x =>
      show id (fmt x) ++ [' '] ++ callText fmt id (l ++ l') = id (fmt x) ++ [' '] ++ callText fmt id l ++ _
      rw [ih, List.append_assoc (id (fmt x) ++ [' '])]
    | endl =>
      show ['\n'] ++ callText fmt id (l ++ l') = ['\n'] ++ callText fmt id l ++ _
      rw [ih, List.append_assoc]

theorem callText_row (fmt : T → List Char) (l : List T) :
    callText fmt id (l.map Call.num ++ [Call.endl]) = renderRow fmt l := by
  unfold renderRow
  induction l with
  | nil => rfl
  | cons x l ih =>
    show id (fmt x) ++ [' '] ++ callText fmt id (l.map Call.num ++ [Call.endl]) = _
    rw [ih, List.flatMap_cons, List.append_assoc (fmt x ++ [' '])]
    rfl

theorem callText_rows (fmt : T → List Char) (rows : List (List T)) :
    callText fmt id (rows.map fun l => l.map Call.num ++ [Call.endl]).flatten = (rows.map (renderRow fmt)).flatten := by
  induction rows with
  | nil => rfl
  | cons r rows ih =>
    rw [List.map_cons, List.flatten_cons, callText_append, callText_row, ih]
    rfl

theorem renderRow_map (fmt : T → List Char) (l : List T) : renderRow id (l.map fmt) = renderRow fmt l := by
  unfold renderRow
  rw [List.flatMap_map]
  rfl

theorem callText_calls (fmt : T → List Char) (s : Ostream) (A : Mat T i j) :
    callText fmt s.pad (calls A) = render id (texts fmt s A) := by
  have hrow : ∀ (n : Nat) (f : Fin n → T), (List.ofFn fun b => Call.num (f b)) = (List.ofFn f).map Call.num := by
    intro n f
    rw [List.map_ofFn]
    rfl
  cases i with
  | zero => rfl
  | succ i =>
    -- later rows
    have hrest : callText fmt id (List.ofFn fun a : Fin i => (List.ofFn fun b => Call.num (A a.succ b)) ++ [Call.endl]).flatten =
        (List.ofFn fun a : Fin i => renderRow id (List.ofFn fun b => texts fmt s A a.succ b)).flatten := by
      have e1 : (List.ofFn fun a : Fin i => (List.ofFn fun b => Call.num (A a.succ b)) ++ [Call.endl]) =
          (List.ofFn fun a : Fin i => List.ofFn fun b => A a.succ b).map fun l => l.map Call.num ++ [Call.endl] := by
        rw [List.map_ofFn]
        congr 1
        funext a
        rw [hrow]
        rfl
      rw [e1, callText_rows, List.map_ofFn]
      congr 2
      funext a
      show renderRow fmt (List.ofFn fun b => A a.succ b) = _
      rw [← renderRow_map, List.map_ofFn]
      congr 2
    unfold calls render
    rw [List.ofFn_succ, List.ofFn_succ, List.flatten_cons, List.flatten_cons]
    cases j with
    | zero =>
      -- only newlines
      have hnl : ∀ (n : Nat) (pad : List Char → List Char), callText fmt pad
          (List.ofFn fun _ : Fin n => ([Call.endl] : List (Call T))).flatten =
          (List.ofFn fun _ : Fin n => ['\n']).flatten := by
        intro n pad
        induction n with
        | zero => rfl
        | succ n ih =>
          rw [List.ofFn_succ, List.ofFn_succ]
          show ['\n'] ++ callText fmt pad (List.ofFn fun _ : Fin n => ([Call.endl] : List (Call T))).flatten = ['\n'] ++ _
          rw [ih]
      have := hnl (i + 1) s.pad
      rw [List.ofFn_succ, List.ofFn_succ] at this
      exact this
    | succ j =>
      rw [List.ofFn_succ, List.ofFn_succ]
      show s.pad (fmt (A 0 0)) ++ [' '] ++ callText fmt id (((List.ofFn fun b : Fin j => Call.num (A 0 b.succ)) ++ [Call.endl]) ++
        (List.ofFn fun a : Fin i => (List.ofFn fun b => Call.num (A a.succ b)) ++ [Call.endl]).flatten) = _
      rw [hrow _ (fun b : Fin j => A 0 b.succ), callText_append, callText_row, hrest]
      rw [← renderRow_map, List.map_ofFn]
      show _ = (renderRow id (texts fmt s A 0 0 :: _)) ++ _
      have e0 : texts fmt s A 0 0 = s.pad (fmt (A 0 0)) := if_pos ⟨rfl, rfl⟩
      have e1 : (List.ofFn fun b : Fin j => texts fmt s A 0 b.succ) = List.ofFn (fmt ∘ fun b : Fin j => A 0 b.succ) := by
        congr 1
      rw [e0, e1]
      unfold renderRow
      rw [List.flatMap_cons]
      simp only [List.append_assoc]
      rfl

/-! ## The theorems -/

/-- C145: on a good stream, `print` writes a part of the text from its beginning, in which only the first element is
padded to the width of the stream. If the stream is still good afterwards, it has written all of it and returned;
otherwise the device has refused a character or a flush at that very place, and `print` throws if exceptions are enabled
and returns as if nothing had happened if not. -/
theorem C145_stream (dev : Device) (fmt : T → List Char) (A : Mat T i j) (s : Ostream) (hs : s.bad = false) :
    ∃ r s' p, printRun (printNumStream dev fmt) (printEndlStream dev) A s = (r, s') ∧
      Outcome dev s (render id (texts fmt s A)) r s' p := by
  obtain ⟨p, h⟩ := calls_outcome dev fmt (calls A) s hs
  rw [callText_calls, ← C145_calls] at h
  exact ⟨_, _, p, rfl, h⟩

/-- C145: if the device takes everything, all of the text is written. -/
theorem C145_written (dev : Device) (fmt : T → List Char) (A : Mat T i j) (s : Ostream) (hs : s.bad = false)
    (ht : ∀ p c, dev.takes p c = true) (hf : ∀ p, dev.flushes p = true) :
    ∃ s', printRun (printNumStream dev fmt) (printEndlStream dev) A s = (.ok (), s') ∧
      s'.out = s.out ++ render id (texts fmt s A) ∧ s'.bad = false := by
  obtain ⟨r, s', p, e, h⟩ := C145_stream dev fmt A s hs
  have hb : s'.bad = false := by
    by_contra hb
    obtain ⟨h1, -⟩ := h.failed (by simpa using hb)
    rcases h1 with ⟨c, -, hc⟩ | hc
    · rw [ht] at hc; cases hc
    · rw [hf] at hc; cases hc
  obtain ⟨rfl, rfl⟩ := h.good hb
  exact ⟨s', e, h.out, hb⟩

/-- C145: with width 0, the initial state, that is the text of C59. -/
theorem C145_plain (fmt : T → List Char) (A : Mat T i j) (s : Ostream) (hs : s.width = 0) :
    render id (texts fmt s A) = render fmt A := by
  have e : ∀ a, (List.ofFn fun b => texts fmt s A a b) = (List.ofFn fun b => A a b).map fmt := by
    intro a
    rw [List.map_ofFn]
    congr 1
    funext b
    unfold texts
    rw [← pad_eq, pad_zero s hs, ite_self]
    rfl
  unfold render
  simp only [e, renderRow_map]

/-- C145: the columns of a matrix are not aligned by `std::setw`: apart from the first element, each is as wide as its
text. -/
theorem C145_width (fmt : T → List Char) (A : Mat T i j) (s : Ostream) (a : Fin i) (b : Fin j) :
    (texts fmt s A a b).length = if a.val = 0 ∧ b.val = 0 then max s.width (fmt (A a b)).length else (fmt (A a b)).length := by
  unfold texts padText List.rightpad List.leftpad
  split_ifs <;> simp only [List.length_append, List.length_replicate] <;> omega

/-- `std::cout << std::setw(3)` before printing: the first element is padded. -/
example : ((printRun (printNumStream ⟨fun _ _ => true, fun _ => true⟩ (fun n : Nat => Nat.toDigits 10 n))
    (printEndlStream ⟨fun _ _ => true, fun _ => true⟩) (!![7, 8; 9, 10] : Mat Nat 2 2)
    ⟨[], 3, ' ', false, false, false⟩).2.out) = "  7 8 \n9 10 \n".toList := by
  decide +kernel

/-- A device that takes five characters: silent loss, or an exception. -/
example : ((printRun (printNumStream ⟨fun p _ => p.length < 5, fun _ => true⟩ (fun n : Nat => Nat.toDigits 10 n))
    (printEndlStream ⟨fun p _ => p.length < 5, fun _ => true⟩) (!![7, 8; 9, 10] : Mat Nat 2 2)
    ⟨[], 0, ' ', false, false, false⟩).2.out = "7 8 \n".toList ∧
    (printRun (printNumStream ⟨fun p _ => p.length < 5, fun _ => true⟩ (fun n : Nat => Nat.toDigits 10 n))
    (printEndlStream ⟨fun p _ => p.length < 5, fun _ => true⟩) (!![7, 8; 9, 10] : Mat Nat 2 2)
    ⟨[], 0, ' ', false, false, false⟩).1 = .ok () ∧
    (printRun (printNumStream ⟨fun p _ => p.length < 5, fun _ => true⟩ (fun n : Nat => Nat.toDigits 10 n))
    (printEndlStream ⟨fun p _ => p.length < 5, fun _ => true⟩) (!![7, 8; 9, 10] : Mat Nat 2 2)
    ⟨[], 0, ' ', false, false, true⟩).1 = .error (.throws iosFailure)) := by
  refine ⟨?_, ?_, ?_⟩ <;> decide +kernel

end MatrixLibs
