import Verif.Spec.FloatSign
import Verif.Proof.FloatOps
import Verif.Proof.FloatElim
import Verif.Model.Stats
import Verif.Model.Conv

/-!
# Operations and sign changes

Every operation rounds a number and its negative alike, so sign changes pass through the programs.
-/

namespace MatrixLibs

set_option linter.unusedSectionVars false

variable {F : Fmt}

namespace Fl

/-- The relation by cases. -/
def Gr (s : Bool) : Fl F → Fl F → Prop
  | .nan, .nan => True
  | .inf t, .inf t' => t' = (t ^^ s)
  | .fin t M _, .fin t' M' _ => M = M' ∧ (M = 0 ∨ t' = (t ^^ s))
  | _, _ => False

theorem isZero_cases (a : Fl F) : a.IsZero ↔ ∃ t h, a = .fin t 0 h := by
  unfold IsZero
  rw [ofInt_zero]
  unfold pack
  rw [dif_pos rep_zero]
  cases a with
  | nan => simp [eq, key]
  | inf t =>
    have : (0 : Int) < F.bound := by unfold Fmt.bound; positivity
    cases t <;> simp [eq, key, signed] <;> omega
  | fin t M h => cases t <;> simp [eq, key, signed] <;> (intro _; exact rep_zero)

theorem gr_iff (s : Bool) (a b : Fl F) : SameSign s a b ↔ Gr s a b := by
  unfold SameSign Same
  rw [isZero_cases, isZero_cases]
  cases a with
  | nan => cases b <;> cases s <;> simp [Gr, neg]
  | inf t => cases b <;> cases s <;> cases t <;> simp [Gr, neg, eq_comm]
  | fin t M h =>
    cases b with
    | nan => cases s <;> simp [Gr, neg]
    | inf t' => cases s <;> simp [Gr, neg]
    | fin t' M' h' =>
      have hr : F.Rep 0 := rep_zero
      cases s <;> cases t <;> cases t' <;> simp [Gr, neg, hr] <;> omega

variable {s t : Bool} {a a' b b' : Fl F}

theorem roundQuot_zero (b : Nat) : roundQuot F 0 b = 0 := by
  simp [roundQuot, roundMag, Fmt.ulpExp]
  split <;> simp_all [Nat.compare_eq_gt]

theorem gr_pack (t t' s : Bool) (N : Nat) (h : N = 0 ∨ t' = (t ^^ s)) : Gr s (pack t N : Fl F) (pack t' N) := by
  unfold pack
  split
  · exact ⟨rfl, h⟩
  · next hr =>
    rcases h with h | h
    · subst h; exact absurd rep_zero hr
    · exact h

theorem gr_roundInt (z : Int) (p q : Bool) : Gr s (roundInt p z : Fl F) (roundInt q (if s then -z else z)) := by
  unfold roundInt
  by_cases hz : z = 0
  · subst hz
    have : (if s then -(0 : Int) else 0) = 0 := by cases s <;> rfl
    rw [this, if_pos rfl, if_pos rfl]
    exact gr_pack _ _ _ _ (.inl rfl)
  · have h' : (if s then -z else z) ≠ 0 := by cases s <;> simpa using hz
    have hn : (if s then -z else z).natAbs = z.natAbs := by cases s <;> simp
    rw [if_neg hz, if_neg h', hn]
    refine gr_pack _ _ _ _ (.inr ?_)
    cases s
    · simp
    · by_cases h0 : z < 0
      · have : ¬ 0 < z := by omega
        simp [h0, this]
      · have : 0 < z := by omega
        simp [h0, this]

theorem Gr.signed_eq {t t' : Bool} {M M' : Nat} {h : F.Rep M} {h' : F.Rep M'}
    (hg : Gr s (.fin t M h : Fl F) (.fin t' M' h')) : signed t' M' = if s then -signed t M else signed t M := by
  obtain ⟨rfl, h0 | rfl⟩ := hg
  · subst h0; cases s <;> cases t <;> cases t' <;> rfl
  · cases s <;> cases t <;> simp [signed]

theorem Gr.add (ha : Gr s a a') (hb : Gr s b b') : Gr s (a.add b) (a'.add b') := by
  cases a with
  | nan => cases a' <;> first | exact ha.elim | (cases b <;> cases b' <;> first | exact hb.elim | trivial)
  | inf u =>
    cases a' with
    | nan => exact ha.elim
    | fin _ _ _ => exact ha.elim
    | inf u' =>
      obtain rfl : u' = (u ^^ s) := ha
      cases b with
      | nan => cases b' <;> first | exact hb.elim | trivial
      | inf v =>
        cases b' with
        | nan => exact hb.elim
        | fin _ _ _ => exact hb.elim
        | inf v' =>
          obtain rfl : v' = (v ^^ s) := hb
          cases u <;> cases v <;> cases s <;> simp [Fl.add, Gr]
      | fin v N hN => cases b' <;> first | exact hb.elim | rfl
  | fin u M hM =>
    cases a' with
    | nan => exact ha.elim
    | inf _ => exact ha.elim
    | fin u' M' hM' =>
      cases b with
      | nan => cases b' <;> first | exact hb.elim | trivial
      | inf v => cases b' <;> first | exact hb.elim | exact hb
      | fin v N hN =>
        cases b' with
        | nan => exact hb.elim
        | inf _ => exact hb.elim
        | fin v' N' hN' =>
          show Gr s (roundInt _ _) (roundInt _ _)
          rw [ha.signed_eq, hb.signed_eq]
          have := gr_roundInt (F := F) (s := s) (signed u M + signed v N) (u && v) (u' && v')
          cases s
          · exact this
          · simp only [if_true, neg_add] at this ⊢
            exact this

theorem Gr.neg (ha : Gr s a a') : Gr s a.neg a'.neg := by
  cases a <;> cases a' <;> first | exact ha.elim | trivial | skip
  · have h : _ = _ := ha
    show (!_) = _
    rw [h]; simp
  · obtain ⟨h1, h2⟩ := ha
    refine ⟨h1, h2.imp_right fun h => ?_⟩
    rw [h]; simp

theorem Gr.sub (ha : Gr s a a') (hb : Gr s b b') : Gr s (a.sub b) (a'.sub b') := ha.add hb.neg

theorem xor_swap (a s b t : Bool) : ((a ^^ s) ^^ (b ^^ t)) = ((a ^^ b) ^^ (s ^^ t)) := by
  cases a <;> cases s <;> cases b <;> cases t <;> rfl

theorem Gr.mul (ha : Gr s a a') (hb : Gr t b b') : Gr (s ^^ t) (a.mul b) (a'.mul b') := by
  cases a with
  | nan => cases a' <;> first | exact ha.elim | (cases b <;> cases b' <;> first | exact hb.elim | trivial)
  | inf u =>
    cases a' with
    | nan => exact ha.elim
    | fin _ _ _ => exact ha.elim
    | inf u' =>
      obtain rfl : u' = (u ^^ s) := ha
      cases b with
      | nan => cases b' <;> first | exact hb.elim | trivial
      | inf v =>
        cases b' with
        | nan => exact hb.elim
        | fin _ _ _ => exact hb.elim
        | inf v' =>
          obtain rfl : v' = (v ^^ t) := hb
          exact xor_swap _ _ _ _
      | fin v N hN =>
        cases b' with
        | nan => exact hb.elim
        | inf _ => exact hb.elim
        | fin v' N' hN' =>
          obtain ⟨rfl, h⟩ := hb
          show Gr _ (if N = 0 then _ else _) (if N = 0 then _ else _)
          split
          · trivial
          · next h0 =>
            obtain rfl := h.resolve_left h0
            exact xor_swap _ _ _ _
  | fin u M hM =>
    cases a' with
    | nan => exact ha.elim
    | inf _ => exact ha.elim
    | fin u' M' hM' =>
      obtain ⟨rfl, h⟩ := ha
      cases b with
      | nan => cases b' <;> first | exact hb.elim | trivial
      | inf v =>
        cases b' with
        | nan => exact hb.elim
        | fin _ _ _ => exact hb.elim
        | inf v' =>
          obtain rfl : v' = (v ^^ t) := hb
          show Gr _ (if M = 0 then _ else _) (if M = 0 then _ else _)
          split
          · trivial
          · next h0 =>
            obtain rfl := h.resolve_left h0
            exact xor_swap _ _ _ _
      | fin v N hN =>
        cases b' with
        | nan => exact hb.elim
        | inf _ => exact hb.elim
        | fin v' N' hN' =>
          obtain ⟨rfl, h'⟩ := hb
          refine gr_pack _ _ _ _ ?_
          by_cases h0 : M = 0
          · subst h0; left; rw [Nat.zero_mul, roundQuot_zero]
          by_cases h1 : N = 0
          · subst h1; left; rw [Nat.mul_zero, roundQuot_zero]
          obtain rfl := h.resolve_left h0
          obtain rfl := h'.resolve_left h1
          exact .inr (xor_swap _ _ _ _)

/-- Division needs a divisor that is not zero, or the same divisor. -/
theorem Gr.div (ha : Gr s a a') (hb : Gr t b b') (h0 : ¬ b.IsZero) : Gr (s ^^ t) (a.div b) (a'.div b') := by
  rw [isZero_cases] at h0
  cases a with
  | nan => cases a' <;> first | exact ha.elim | (cases b <;> cases b' <;> first | exact hb.elim | trivial)
  | inf u =>
    cases a' with
    | nan => exact ha.elim
    | fin _ _ _ => exact ha.elim
    | inf u' =>
      obtain rfl : u' = (u ^^ s) := ha
      cases b with
      | nan => cases b' <;> first | exact hb.elim | trivial
      | inf v => cases b' <;> first | exact hb.elim | trivial
      | fin v N hN =>
        cases b' with
        | nan => exact hb.elim
        | inf _ => exact hb.elim
        | fin v' N' hN' =>
          obtain ⟨rfl, h⟩ := hb
          have hN0 : N ≠ 0 := fun e => h0 (by subst e; exact ⟨v, hN, rfl⟩)
          obtain rfl := h.resolve_left hN0
          exact xor_swap _ _ _ _
  | fin u M hM =>
    cases a' with
    | nan => exact ha.elim
    | inf _ => exact ha.elim
    | fin u' M' hM' =>
      obtain ⟨rfl, h⟩ := ha
      cases b with
      | nan => cases b' <;> first | exact hb.elim | trivial
      | inf v => cases b' <;> first | exact hb.elim | exact gr_pack _ _ _ _ (.inl rfl)
      | fin v N hN =>
        cases b' with
        | nan => exact hb.elim
        | inf _ => exact hb.elim
        | fin v' N' hN' =>
          obtain ⟨rfl, h'⟩ := hb
          have hN0 : N ≠ 0 := fun e => h0 (by subst e; exact ⟨v, hN, rfl⟩)
          obtain rfl := h'.resolve_left hN0
          show Gr _ (if N = 0 then _ else _) (if N = 0 then _ else _)
          rw [if_neg hN0, if_neg hN0]
          refine gr_pack _ _ _ _ ?_
          by_cases h0 : M = 0
          · subst h0; left; rw [Nat.zero_mul, roundQuot_zero]
          obtain rfl := h.resolve_left h0
          exact .inr (xor_swap _ _ _ _)

theorem gr_refl (a : Fl F) : Gr false a a := by
  cases a with
  | nan => trivial
  | inf t => show t = (t ^^ false); simp
  | fin t M h => exact ⟨rfl, .inr (by simp)⟩

theorem gr_neg (a : Fl F) : Gr true a a.neg := by
  cases a with
  | nan => trivial
  | inf t => show (!t) = (t ^^ true); simp
  | fin t M h => exact ⟨rfl, .inr (by simp)⟩

/-- The sign of a zero dividend does not matter when the divisor is the same. -/
theorem Gr.div_same (ha : Gr s a a') (b : Fl F) : Gr s (a.div b) (a'.div b) := by
  by_cases h0 : b.IsZero
  · obtain ⟨v, hN, rfl⟩ := (isZero_cases b).mp h0
    cases a with
    | nan => cases a' <;> first | exact ha.elim | trivial
    | inf u =>
      cases a' with
      | nan => exact ha.elim
      | fin _ _ _ => exact ha.elim
      | inf u' =>
        obtain rfl : u' = (u ^^ s) := ha
        show ((u ^^ s) ^^ v) = ((u ^^ v) ^^ s)
        cases u <;> cases v <;> cases s <;> rfl
    | fin u M hM =>
      cases a' with
      | nan => exact ha.elim
      | inf _ => exact ha.elim
      | fin u' M' hM' =>
        obtain ⟨rfl, h⟩ := ha
        show Gr _ (if M = 0 then .nan else .inf (u ^^ v)) (if M = 0 then .nan else .inf (u' ^^ v))
        split
        · trivial
        · next h1 =>
          obtain rfl := h.resolve_left h1
          show ((u ^^ s) ^^ v) = ((u ^^ v) ^^ s)
          cases u <;> cases v <;> cases s <;> rfl
  · have := ha.div (gr_refl b) h0
    rwa [Bool.xor_false] at this

theorem Gr.isZero (ha : Gr s a a') : a.IsZero ↔ a'.IsZero := by
  rw [isZero_cases, isZero_cases]
  cases a <;> cases a' <;> first | exact ha.elim | simp
  obtain ⟨rfl, -⟩ := ha
  tauto

theorem Gr.eq_zero (ha : Gr s a a') : a.eq (ofInt 0) = a'.eq (ofInt 0) := by
  have := ha.isZero
  unfold IsZero at this
  exact Bool.eq_iff_iff.mpr this

theorem Gr.key (ha : Gr s a a') : a'.key = a.key.map fun z => if s then -z else z := by
  cases a <;> cases a' <;> first | exact ha.elim | rfl | skip
  · have h : _ = _ := ha
    subst h
    cases s <;> simp [Fl.key] <;> (rename_i u; cases u <;> simp [signed])
  · have := ha.signed_eq
    simp only [Fl.key, Option.map_some, this]

/-- Comparing two elements for equality gives the same after both change sign. -/
theorem Gr.eq (ha : Gr s a a') (hb : Gr s b b') : a.eq b = a'.eq b' := by
  unfold Fl.eq
  rw [ha.key, hb.key]
  cases a.key <;> cases b.key <;> cases s <;> simp

theorem Gr.sqrt (ha : Gr false a a') : Gr false a.sqrt a'.sqrt := by
  cases a <;> cases a' <;> first | exact ha.elim | trivial | skip
  · have h : _ = _ := ha
    rw [Bool.xor_false] at h
    subst h
    exact gr_refl _
  · rename_i u M hM u' M' hM'
    obtain ⟨rfl, h⟩ := ha
    by_cases h0 : M = 0
    · subst h0
      exact ⟨rfl, .inl rfl⟩
    · obtain rfl := h.resolve_left h0
      simp only [Bool.xor_false]
      exact gr_refl _

theorem Gr.abs (ha : Gr s a a') : a.abs = a'.abs := by
  cases a <;> cases a' <;> first | exact ha.elim | rfl | skip
  obtain ⟨rfl, -⟩ := ha
  rfl

theorem gr_zero : Gr s (ofInt 0 : Fl F) (ofInt 0) := by
  rw [ofInt_zero]; exact gr_pack _ _ _ _ (.inl rfl)

end Fl
/-! ## Two runs side by side -/

section
variable {α β γ δ σ σ' ρ ρ' : Type} {R : α → β → Prop} {S : γ → δ → Prop}

theorem both_ok {a : α} {b : β} (h : R a b) : BothDo R (.ok a : Res α) (.ok b) := h

theorem both_error (e : Stop) : BothDo R (.error e : Res α) (.error e : Res β) := rfl

theorem both_bind {x : Res α} {y : Res β} {f : α → Res γ} {g : β → Res δ} (h : BothDo R x y)
    (hf : ∀ a b, R a b → BothDo S (f a) (g b)) : BothDo S (x >>= f) (y >>= g) := by
  cases x <;> cases y
  · exact h
  · exact h.elim
  · exact h.elim
  · exact hf _ _ h

theorem both_mono {x : Res α} {y : Res β} {R' : α → β → Prop} (h : BothDo R x y) (hR : ∀ a b, R a b → R' a b) :
    BothDo R' x y := by
  cases x <;> cases y
  · exact h
  · exact h.elim
  · exact h.elim
  · exact hR _ _ h

theorem both_refl {R : α → α → Prop} (hR : ∀ a, R a a) (x : Res α) : BothDo R x x := by
  cases x
  · rfl
  · exact hR _

theorem both_loopN (I : Nat → σ → σ' → Prop) {body : Nat → σ → Res σ} {body' : Nat → σ' → Res σ'} (hi : Nat)
    (h : ∀ k s s', k < hi → I k s s' → BothDo (I (k + 1)) (body k s) (body' k s')) :
    ∀ (cnt k : Nat) (s : σ) (s' : σ'), k + cnt ≤ hi → I k s s' →
      BothDo (I (k + cnt)) (loopN body cnt k s) (loopN body' cnt k s')
  | 0, _, _, _, _, hs => hs
  | cnt + 1, k, s, s', hk, hs => by
    unfold loopN
    refine both_bind (h k s s' (by omega) hs) fun a b hab => ?_
    have := both_loopN I hi h cnt (k + 1) a b (by omega) hab
    rwa [show k + 1 + cnt = k + (cnt + 1) by omega] at this

/-- A loop whose invariant depends on the counter. -/
theorem both_forUp_at (I : Nat → σ → σ' → Prop) {lo hi : Nat} {s : σ} {s' : σ'} {body : Nat → σ → Res σ}
    {body' : Nat → σ' → Res σ'} (hlo : lo ≤ hi) (hs : I lo s s')
    (h : ∀ k s s', k < hi → I k s s' → BothDo (I (k + 1)) (body k s) (body' k s')) :
    BothDo (I hi) (forUp lo hi s body) (forUp lo hi s' body') := by
  have := both_loopN I hi h (hi - lo) lo s s' (by omega) hs
  rwa [show lo + (hi - lo) = hi by omega] at this

theorem both_forUp {I : σ → σ' → Prop} {lo hi : Nat} {s : σ} {s' : σ'} {body : Nat → σ → Res σ}
    {body' : Nat → σ' → Res σ'} (hs : I s s')
    (h : ∀ k s s', lo ≤ k → k < hi → I s s' → BothDo I (body k s) (body' k s')) :
    BothDo I (forUp lo hi s body) (forUp lo hi s' body') := by
  by_cases hle : lo ≤ hi
  · refine both_mono (both_forUp_at (fun k s s' => lo ≤ k ∧ I s s') hle ⟨le_refl _, hs⟩
      (fun k s s' hk hI => both_mono (h k s s' hI.1 hk hI.2) fun _ _ h => ⟨by omega, h⟩)) fun _ _ h => h.2
  · unfold forUp
    rw [show hi - lo = 0 by omega]
    exact hs

/-- Both fall through, or both return. -/
inductive CtlBoth (I : σ → σ' → Prop) (V : ρ → ρ' → Prop) : Ctl σ ρ → Ctl σ' ρ' → Prop
  | cont {s s'} : I s s' → CtlBoth I V (.cont s) (.cont s')
  | ret {v v'} : V v v' → CtlBoth I V (.ret v) (.ret v')

theorem both_loopRetN {I : σ → σ' → Prop} {V : ρ → ρ' → Prop} {body : Nat → σ → Res (Ctl σ ρ)}
    {body' : Nat → σ' → Res (Ctl σ' ρ')} (hi : Nat)
    (h : ∀ k s s', k < hi → I s s' → BothDo (CtlBoth I V) (body k s) (body' k s')) :
    ∀ (cnt k : Nat) (s : σ) (s' : σ'), k + cnt ≤ hi → I s s' →
      BothDo (CtlBoth I V) (loopRetN body cnt k s) (loopRetN body' cnt k s')
  | 0, _, _, _, _, hs => CtlBoth.cont hs
  | cnt + 1, k, s, s', hk, hs => by
    unfold loopRetN
    refine both_bind (h k s s' (by omega) hs) fun a b hab => ?_
    cases hab with
    | cont hs => exact both_loopRetN hi h cnt (k + 1) _ _ (by omega) hs
    | ret hv => exact CtlBoth.ret hv

theorem both_forRet {I : σ → σ' → Prop} {V : ρ → ρ' → Prop} {lo hi : Nat} {s : σ} {s' : σ'}
    {body : Nat → σ → Res (Ctl σ ρ)} {body' : Nat → σ' → Res (Ctl σ' ρ')} (hs : I s s')
    (h : ∀ k s s', k < hi → I s s' → BothDo (CtlBoth I V) (body k s) (body' k s')) :
    BothDo (CtlBoth I V) (forRet lo hi s body) (forRet lo hi s' body') := by
  unfold forRet
  by_cases hle : lo ≤ hi
  · exact both_loopRetN hi h _ _ _ _ (by omega) hs
  · rw [show hi - lo = 0 by omega]
    exact CtlBoth.cont hs

end

/-! ## Elements -/

/-- All elements are related. -/
def MGr (s : Bool) {r c : Nat} (A B : Mat (Fl F) r c) : Prop := ∀ i j, Fl.Gr s (A i j) (B i j)

theorem mgr_iff (s : Bool) {r c : Nat} (A B : Mat (Fl F) r c) : MatSign s A B ↔ MGr s A B :=
  forall_congr' fun i => forall_congr' fun j => Fl.gr_iff s _ _

section
open Fl
variable {s t : Bool} {r c n m p : Nat}

theorem both_rd {A B : Mat (Fl F) r c} (h : MGr s A B) (i j : Nat) : BothDo (Gr s) (rd A i j) (rd B i j) := by
  unfold rd
  split
  · exact h _ _
  · rfl

theorem both_wr {A B : Mat (Fl F) r c} (h : MGr s A B) {a b : Fl F} (hab : Gr s a b) (i j : Nat) :
    BothDo (MGr s) (wr A i j a) (wr B i j b) := by
  unfold wr
  split
  · intro p q
    simp only [Matrix.of_apply]
    split
    · exact hab
    · exact h p q
  · rfl

theorem both_add {a a' b b' : Fl F} (ha : Gr s a a') (hb : Gr s b b') :
    BothDo (Gr s) (CScalar.add a b) (CScalar.add a' b') := ha.add hb

theorem both_sub {a a' b b' : Fl F} (ha : Gr s a a') (hb : Gr s b b') :
    BothDo (Gr s) (CScalar.sub a b) (CScalar.sub a' b') := ha.sub hb

theorem both_mul {a a' b b' : Fl F} (ha : Gr s a a') (hb : Gr t b b') :
    BothDo (Gr (s ^^ t)) (CScalar.mul a b) (CScalar.mul a' b') := ha.mul hb

theorem both_div {a a' b b' : Fl F} (ha : Gr s a a') (hb : Gr t b b') (h0 : ¬ b.IsZero) :
    BothDo (Gr (s ^^ t)) (CScalar.div a b) (CScalar.div a' b') := ha.div hb h0

theorem both_divSize {a a' : Fl F} (ha : Gr s a a') (k : Nat) :
    BothDo (Gr s) (CScalar.divSize a k) (CScalar.divSize a' k) := ha.div_same _

theorem mgr_refl (A : Mat (Fl F) r c) : MGr false A A := fun _ _ => gr_refl _

theorem mgr_init : MGr s (valueInit r c : Mat (Fl F) r c) (valueInit r c) := fun _ _ => gr_zero

theorem mgr_const0 : MGr s (Mat.const (CScalar.ofInt 0) : Mat (Fl F) r c) (Mat.const (CScalar.ofInt 0)) :=
  fun _ _ => gr_zero

theorem both_zeros : BothDo (MGr s) (zeros (T := Fl F) r c) (zeros r c) := by
  unfold zeros fill
  exact both_forUp mgr_init fun k A B _ _ h => both_forUp h fun l A B _ _ h => both_wr h gr_zero _ _

/-! ## Arithmetic -/

theorem both_sum {A B A' B' : Mat (Fl F) r c} (hA : MGr s A A') (hB : MGr s B B') :
    BothDo (MGr s) (sum A B) (sum A' B') := by
  unfold sum
  exact both_forUp mgr_init fun i _ _ _ _ h => both_forUp h fun j _ _ _ _ h =>
    both_bind (both_rd hA i j) fun _ _ ha => both_bind (both_rd hB i j) fun _ _ hb =>
      both_bind (both_add ha hb) fun _ _ hx => both_wr h hx _ _

theorem both_matSub {A B A' B' : Mat (Fl F) r c} (hA : MGr s A A') (hB : MGr s B B') :
    BothDo (MGr s) (sub A B) (sub A' B') := by
  unfold MatrixLibs.sub
  exact both_forUp mgr_init fun i _ _ _ _ h => both_forUp h fun j _ _ _ _ h =>
    both_bind (both_rd hA i j) fun _ _ ha => both_bind (both_rd hB i j) fun _ _ hb =>
      both_bind (both_sub ha hb) fun _ _ hx => both_wr h hx _ _

theorem both_mult {A A' : Mat (Fl F) n m} {B B' : Mat (Fl F) m p} (hA : MGr s A A') (hB : MGr t B B') :
    BothDo (MGr (s ^^ t)) (mult A B) (mult A' B') := by
  unfold mult
  exact both_bind both_zeros fun _ _ h => both_forUp h fun i _ _ _ _ h => both_forUp h fun j _ _ _ _ h =>
    both_forUp h fun k _ _ _ _ h => both_bind (both_rd hA i k) fun _ _ ha => both_bind (both_rd hB k j) fun _ _ hb =>
      both_bind (both_mul ha hb) fun _ _ hx => both_bind (both_rd h i j) fun _ _ hy =>
        both_bind (both_add hy hx) fun _ _ hz => both_wr h hz _ _

theorem both_multScalar {A A' : Mat (Fl F) r c} {x x' : Fl F} (hA : MGr s A A') (hx : Gr t x x') :
    BothDo (MGr (s ^^ t)) (multScalar A x) (multScalar A' x') := by
  unfold multScalar
  exact both_forUp mgr_init fun i _ _ _ _ h => both_forUp h fun j _ _ _ _ h =>
    both_bind (both_rd hA i j) fun _ _ ha => both_bind (both_mul ha hx) fun _ _ hz => both_wr h hz _ _

theorem both_bareThrow {α β : Type} {R : α → β → Prop} (handled : Option Exc) :
    BothDo R (bareThrow handled : Res α) (bareThrow handled : Res β) := by
  cases handled <;> rfl

theorem both_matDiv (handled : Option Exc) {A A' : Mat (Fl F) r c} {x x' : Fl F} (hA : MGr s A A') (hx : Gr t x x') :
    BothDo (MGr (s ^^ t)) (MatrixLibs.div handled A x) (MatrixLibs.div handled A' x') := by
  unfold MatrixLibs.div
  have he : CScalar.eq x (CScalar.ofInt 0) = CScalar.eq x' (CScalar.ofInt 0) := hx.eq_zero
  rw [← he]
  split
  · exact both_bareThrow handled
  · next h0 =>
    exact both_forUp mgr_init fun i _ _ _ _ h => both_forUp h fun j _ _ _ _ h =>
      both_bind (both_rd hA i j) fun _ _ ha => both_bind (both_div ha hx h0) fun _ _ hz => both_wr h hz _ _

theorem both_trans {A A' : Mat (Fl F) r c} (hA : MGr s A A') : BothDo (MGr s) (trans A) (trans A') := by
  unfold trans
  exact both_forUp mgr_init fun i _ _ _ _ h => both_forUp h fun j _ _ _ _ h =>
    both_bind (both_rd hA i j) fun _ _ ha => both_wr h ha _ _

theorem both_getminor {A A' : Mat (Fl F) n n} (hA : MGr s A A') (i j : Nat) :
    BothDo (MGr s) (getminor A i j) (getminor A' i j) := by
  unfold getminor
  refine both_bind (R := fun x y => MGr s x.1 y.1 ∧ x.2 = y.2) ?_ fun a b h => both_ok (R := MGr s) h.1
  refine both_forUp ⟨mgr_init, rfl⟩ fun k x y _ _ h => ?_
  obtain ⟨M, u⟩ := x
  obtain ⟨M', u'⟩ := y
  obtain ⟨h1, rfl⟩ := h
  dsimp only
  split
  · refine both_bind (R := fun x y => MGr s x.1 y.1 ∧ x.2 = y.2) ?_ fun a b h => ⟨h.1, rfl⟩
    refine both_forUp ⟨h1, rfl⟩ fun l x y _ _ h => ?_
    obtain ⟨M, v⟩ := x
    obtain ⟨M', v'⟩ := y
    obtain ⟨h1, rfl⟩ := h
    dsimp only
    split
    · exact both_bind (both_rd hA k l) fun _ _ ha => both_bind (both_wr h1 ha _ _) fun _ _ h => ⟨h, rfl⟩
    · exact ⟨h1, rfl⟩
  · exact ⟨h1, rfl⟩

/-! ## Convolutions and statistics -/

theorem both_convTerm {A A' : Mat (Fl F) r c} {K K' : Mat (Fl F) 3 3} (hA : MGr s A A') (hK : MGr t K K') (u v a b : Nat) :
    BothDo (Gr (s ^^ t)) (convTerm A K u v a b) (convTerm A' K' u v a b) := by
  unfold convTerm
  split
  · exact gr_zero
  · rw [Bool.xor_comm]
    exact both_bind (both_rd hK _ _) fun _ _ h1 => both_bind (both_rd hA _ _) fun _ _ h2 => both_mul h1 h2

theorem both_addTo {A A' : Mat (Fl F) r c} {x x' : Fl F} (hA : MGr s A A') (hx : Gr s x x') (a b : Nat) :
    BothDo (MGr s) (addTo A a b x) (addTo A' a b x') := by
  unfold addTo
  exact both_bind (both_rd hA _ _) fun _ _ h1 => both_bind (both_add h1 hx) fun _ _ h2 => both_wr hA h2 _ _

macro "both_conv" hA:term "," hK:term : tactic => `(tactic|
  repeat' first
    | exact both_convTerm $hA $hK _ _ _ _
    | exact both_wr (by assumption) gr_zero _ _
    | exact both_addTo (by assumption) (by assumption) _ _
    | refine both_bind (R := Gr _) (both_convTerm $hA $hK _ _ _ _) (fun _ _ _ => ?_)
    | refine both_bind (R := MGr _) (both_wr (by assumption) gr_zero _ _) (fun _ _ _ => ?_)
    | refine both_bind (R := MGr _) (both_addTo (by assumption) (by assumption) _ _) (fun _ _ _ => ?_))

theorem both_conv2 {A A' : Mat (Fl F) r c} {K K' : Mat (Fl F) 3 3} (hA : MGr s A A') (hK : MGr t K K') :
    BothDo (MGr (s ^^ t)) (conv2 A K) (conv2 A' K') := by
  unfold conv2
  refine both_forUp mgr_init fun i _ _ _ _ h => both_forUp h fun j _ _ _ _ h => ?_
  both_conv hA, hK

theorem both_conv2_full {A A' : Mat (Fl F) r c} {K K' : Mat (Fl F) 3 3} (hA : MGr s A A') (hK : MGr t K K') :
    BothDo (MGr (s ^^ t)) (conv2_full A K) (conv2_full A' K') := by
  unfold conv2_full
  refine both_forUp mgr_init fun i _ _ _ _ h => both_forUp h fun j _ _ _ _ h => ?_
  both_conv hA, hK

theorem both_conv2_valid {A A' : Mat (Fl F) n n} {K K' : Mat (Fl F) 3 3} (hA : MGr s A A') (hK : MGr t K K') :
    BothDo (MGr (s ^^ t)) (conv2_valid A K) (conv2_valid A' K') := by
  unfold conv2_valid
  exact both_bind (both_conv2 hA hK) fun _ _ h => both_bind (both_getminor h _ _) fun _ _ h => both_getminor h _ _

theorem both_mean {A A' : Mat (Fl F) r c} (hA : MGr s A A') : BothDo (Gr s) (mean A) (mean A') := by
  unfold mean
  exact both_bind (both_forUp gr_zero fun i _ _ _ _ h => both_forUp h fun j _ _ _ _ h =>
    both_bind (both_rd hA i j) fun _ _ ha => both_add h ha) fun _ _ h => both_divSize h _

theorem both_var {A A' : Mat (Fl F) r c} (hA : MGr s A A') : BothDo (Gr false) (var A) (var A') := by
  unfold var
  refine both_bind (both_mean hA) fun _ _ hm => ?_
  refine both_bind (both_forUp (I := Gr false) gr_zero fun i _ _ _ _ h => both_forUp h fun j _ _ _ _ h => ?_)
    fun _ _ h => both_divSize h _
  refine both_bind (both_rd hA i j) fun _ _ ha => both_bind (both_sub ha hm) fun _ _ hd =>
    both_bind (both_rd hA i j) fun _ _ ha => both_bind (both_sub ha hm) fun _ _ he => ?_
  have hx := both_mul hd he
  rw [Bool.xor_self] at hx
  exact both_bind hx fun _ _ hx => both_add h hx

theorem both_stddev {A A' : Mat (Fl F) r c} (hA : MGr s A A') : BothDo (Gr false) (stddev A) (stddev A') := by
  unfold stddev
  exact both_bind (both_var hA) fun _ _ h => h.sqrt

end

end MatrixLibs
