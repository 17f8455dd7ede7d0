import Verif.Proof.Tri
import Verif.Proof.EnvOps

/-!
# Arithmetics in which zeros behave

Integers, and floating point numbers in every rounding mode, without switches for subnormal numbers or with both.
-/

namespace MatrixLibs

set_option linter.unusedSectionVars false

open CScalar (ofInt)

/-! ## Integers -/

theorem SInt.checked_val {w : Nat} (a : SInt w) : (SInt.checked a.val : Res (SInt w)) = .ok a := by
  unfold SInt.checked
  rw [dif_pos a.inRange]

theorem SInt.wrap_eq {w : Nat} {k : Int} (h : InRange w k) (hw : 1 ≤ w) : (SInt.wrap k : SInt w).val = k := by
  obtain ⟨h1, h2⟩ := h
  show Int.bmod k (2 ^ w) = k
  have e : (2 : ℤ) ^ w = 2 * 2 ^ (w - 1) := by rw [← pow_succ']; congr 1; omega
  rw [Int.bmod_eq_of_le_mul_two]
  · push_cast; rw [e]; omega
  · push_cast; rw [e]; omega

theorem sint_zero (w : Nat) : (SInt.wrap 0 : SInt w).val = 0 := by
  show Int.bmod 0 (2 ^ w) = 0
  simp

theorem sint_one {w : Nat} (hw : 2 ≤ w) : (SInt.wrap 1 : SInt w).val = 1 := by
  refine SInt.wrap_eq ⟨?_, ?_⟩ (by omega)
  · have : (0 : ℤ) < 2 ^ (w - 1) := by positivity
    omega
  · exact one_lt_pow₀ (by norm_num) (by omega)

theorem sint_zeroish {w : Nat} {a : SInt w} : Zeroish a ↔ a.val = 0 := by
  unfold Zeroish
  show decide (a.val = (SInt.wrap 0 : SInt w).val) = true ↔ _
  rw [sint_zero, decide_eq_true_iff]

theorem zeroArith_signed {w : Nat} (hw : 2 ≤ w) : ZeroArith (fun _ : SInt w => True) where
  lit := sint_zeroish.mpr (sint_zero w)
  fin_zero := fun _ => trivial
  mul := by
    intro a b _ _ h
    refine ⟨SInt.wrap 0, ?_, sint_zeroish.mpr (sint_zero w)⟩
    show SInt.checked (a.val * b.val) = _
    have : a.val * b.val = (SInt.wrap 0 : SInt w).val := by
      rw [sint_zero]
      rcases h with h | h <;> rw [sint_zeroish.mp h] <;> simp
    rw [this, SInt.checked_val]
  add := by
    intro a z h
    refine ⟨a, ?_, .inl rfl⟩
    show SInt.checked (a.val + z.val) = _
    rw [sint_zeroish.mp h, add_zero, SInt.checked_val]
  zadd := by
    intro a z h
    refine ⟨a, ?_, .inl rfl⟩
    show SInt.checked (z.val + a.val) = _
    rw [sint_zeroish.mp h, zero_add, SInt.checked_val]
  sub := by
    intro a z h
    refine ⟨a, ?_, .inl rfl⟩
    show SInt.checked (a.val - z.val) = _
    rw [sint_zeroish.mp h, sub_zero, SInt.checked_val]
  div := by
    intro z p h _ hp
    refine ⟨z, ?_, h⟩
    show (if p.val = 0 then _ else SInt.checked (z.val.tdiv p.val)) = _
    rw [if_neg fun e => hp (sint_zeroish.mpr e), sint_zeroish.mp h, Int.zero_tdiv, ← sint_zeroish.mp h, SInt.checked_val]
  div_one := by
    intro a
    refine ⟨a, ?_, .inl rfl⟩
    show (if (SInt.wrap 1 : SInt w).val = 0 then _ else SInt.checked (a.val.tdiv (SInt.wrap 1 : SInt w).val)) = _
    rw [sint_one hw, if_neg one_ne_zero, Int.tdiv_one, SInt.checked_val]
  one := fun h => by
    have : (SInt.wrap 1 : SInt w).val = 0 := sint_zeroish.mp h
    rw [sint_one hw] at this
    exact one_ne_zero this
  div_self := by
    intro p _ hp
    have hp0 : p.val ≠ 0 := fun e => hp (sint_zeroish.mpr e)
    show (if p.val = 0 then _ else SInt.checked (p.val.tdiv p.val)) = .ok (SInt.wrap 1)
    have := SInt.checked_val (SInt.wrap 1 : SInt w)
    rw [sint_one hw] at this
    rw [if_neg hp0, Int.tdiv_self hp0, this]
  fin_one := trivial
  one_mul := by
    intro a
    refine ⟨a, ?_, .inl rfl⟩
    show SInt.checked ((SInt.wrap 1 : SInt w).val * a.val) = _
    rw [sint_one hw, one_mul, SInt.checked_val]
  mul_one := by
    intro a
    refine ⟨a, ?_, .inl rfl⟩
    show SInt.checked (a.val * (SInt.wrap 1 : SInt w).val) = _
    rw [sint_one hw, mul_one, SInt.checked_val]

theorem bv_zeroish {w : Nat} {a : BitVec w} : Zeroish a ↔ a = 0#w := by
  unfold Zeroish
  show (a == BitVec.ofInt w 0) = true ↔ _
  rw [beq_iff_eq]
  rfl

theorem bv_one_ne {w : Nat} (hw : 1 ≤ w) : (1#w : BitVec w) ≠ 0#w := by
  intro h
  have := congrArg BitVec.toNat h
  rw [BitVec.toNat_ofNat, BitVec.toNat_ofNat, Nat.zero_mod, Nat.mod_eq_of_lt (Nat.one_lt_two_pow (by omega))] at this
  omega

theorem bv_ofInt_one (w : Nat) : (CScalar.ofInt 1 : BitVec w) = 1#w := rfl

theorem zeroArith_unsigned {w : Nat} (hw : 1 ≤ w) : ZeroArith (fun _ : BitVec w => True) where
  lit := bv_zeroish.mpr rfl
  fin_zero := fun _ => trivial
  mul := by
    intro a b _ _ h
    refine ⟨0#w, ?_, bv_zeroish.mpr rfl⟩
    show Except.ok (a * b) = _
    rcases h with h | h <;> rw [bv_zeroish.mp h] <;> simp
  add := by
    intro a z h
    refine ⟨a, ?_, .inl rfl⟩
    show Except.ok (a + z) = _
    rw [bv_zeroish.mp h, BitVec.add_zero]
  zadd := by
    intro a z h
    refine ⟨a, ?_, .inl rfl⟩
    show Except.ok (z + a) = _
    rw [bv_zeroish.mp h, BitVec.zero_add]
  sub := by
    intro a z h
    refine ⟨a, ?_, .inl rfl⟩
    show Except.ok (a - z) = _
    rw [bv_zeroish.mp h, BitVec.sub_zero]
  div := by
    intro z p h _ hp
    refine ⟨z, ?_, h⟩
    show (if p = 0#w then _ else Except.ok (z / p)) = _
    rw [if_neg fun e => hp (bv_zeroish.mpr e), bv_zeroish.mp h, BitVec.zero_udiv]
  div_one := by
    intro a
    refine ⟨a, ?_, .inl rfl⟩
    show (if (1#w) = 0#w then _ else Except.ok (a / 1#w)) = _
    rw [if_neg (bv_one_ne hw), BitVec.udiv_one]
  one := fun h => bv_one_ne hw (bv_zeroish.mp h)
  div_self := by
    intro p _ hp
    have hp0 : p ≠ 0#w := fun e => hp (bv_zeroish.mpr e)
    show (if p = 0#w then _ else Except.ok (p / p)) = .ok (1#w)
    rw [if_neg hp0, BitVec.udiv_self, if_neg (by simpa using hp0)]
  fin_one := trivial
  one_mul := by
    intro a
    refine ⟨a, ?_, .inl rfl⟩
    show Except.ok (1#w * a) = _
    rw [BitVec.one_mul]
  mul_one := by
    intro a
    refine ⟨a, ?_, .inl rfl⟩
    show Except.ok (a * 1#w) = _
    rw [BitVec.mul_one]

theorem totalSteps_unsigned (w : Nat) : TotalSteps (BitVec w) := fun v x p y h => by
  have hp : p ≠ 0#w := fun e => h (bv_zeroish.mpr e)
  exact ⟨_, _, _, rfl, if_neg hp, rfl⟩

/-! ## Floating point -/

namespace FpEnv

open Fl

variable {F : Fmt} {e : FpEnv}

theorem ofInt_zero_nought : (Fl.ofInt 0 : Fl F) = nought false := ofInt_zero'

theorem seen_nought (s : Bool) : e.seen (nought s : Fl F) = nought s := seen_not_subnormal (nought_not_subnormal s)

theorem eq_zero_iff {a : Fl F} : Fl.eq a (nought false) = true ↔ ∃ s, a = nought s := by
  unfold Fl.eq
  match a with
  | .nan => simp [key, nought]
  | .inf s =>
    have := bound_pos F
    simp [key, nought, signed]
    cases s <;> simp <;> omega
  | .fin s N h =>
    simp only [key, nought, signed]
    constructor
    · intro h
      refine ⟨s, ?_⟩
      have : N = 0 := by cases s <;> simp_all
      subst this
      rfl
    · rintro ⟨t, h⟩
      injection h with h1 h2
      subst h2
      simp

theorem zeroish_iff {a : Fl F} : Zeroish (T := InEnv e F) a ↔ ∃ s, e.seen a = nought s := by
  unfold Zeroish
  show Fl.eq (e.seen a) (e.seen (Fl.ofInt 0 : Fl F)) = true ↔ _
  rw [ofInt_zero_nought, seen_nought, eq_zero_iff]

theorem zeroish_nought (s : Bool) : Zeroish (T := InEnv e F) (nought s : Fl F) := zeroish_iff.mpr ⟨s, seen_nought s⟩

theorem roundQuotBy_exact {h : How} {a b n : Nat} (hb : 0 < b) (he : a = n * b) (hg : F.Grid n) : roundQuotBy h F a b = n := by
  have := roundQuotBy_spec (F := F) h (a := a) (b := b) hb
  refine this.exact ?_ hg
  have hb' : (b : ℝ) ≠ 0 := by exact_mod_cast hb.ne'
  rw [he]
  push_cast
  field_simp

theorem unit_grid (F : Fmt) : F.Grid F.unit := by
  have : F.Grid (1 * 2 ^ (F.emax + F.p - 2)) := grid_mul (by have := F.hp; exact Nat.one_le_two_pow)
  rw [one_mul] at this
  exact this

/-- Adding a zero, to a number that has been read. -/
theorem addBy_zero (m : RMode) (a : Fl F) (t : Bool) :
    addBy m a (nought t) = a ∨ ((∃ s, a = nought s) ∧ ∃ s, addBy m a (nought t) = nought s) := by
  match a with
  | .nan => exact .inl rfl
  | .inf s => exact .inl rfl
  | .fin s N h =>
    show roundIntBy m _ (signed s N + signed t 0) = _ ∨ _
    have e0 : signed s N + signed t 0 = signed s N := by cases t <;> simp [signed]
    rcases Nat.eq_zero_or_pos N with h0 | h0
    · subst h0
      right
      refine ⟨⟨s, rfl⟩, ?_⟩
      refine ⟨if m = .down then s || t else s && t, ?_⟩
      show roundIntBy m _ (signed s 0 + signed t 0) = _
      have : signed s 0 + signed t 0 = 0 := by cases s <;> cases t <;> simp [signed]
      rw [this]
      unfold roundIntBy
      rw [if_pos rfl]
      unfold pack
      rw [dif_pos rep_zero]
      rfl
    · left
      rw [e0]
      unfold roundIntBy
      have h1 : signed s N ≠ 0 := by cases s <;> simp [signed] <;> omega
      have h2 : decide (signed s N < 0) = s := by cases s <;> simp [signed]; omega
      have h3 : (signed s N).natAbs = N := by cases s <;> simp [signed]
      rw [if_neg h1, h2, h3, roundQuotBy_exact (n := N) one_pos (by omega) h.2, packBy_rep h]

theorem addBy_zero' (m : RMode) (a : Fl F) (t : Bool) :
    addBy m (nought t) a = a ∨ ((∃ s, a = nought s) ∧ ∃ s, addBy m (nought t) a = nought s) := by
  match a with
  | .nan => exact .inl rfl
  | .inf s => exact .inl rfl
  | .fin s N h =>
    show roundIntBy m _ (signed t 0 + signed s N) = _ ∨ _
    have e0 : signed t 0 + signed s N = signed s N := by cases t <;> simp [signed]
    rcases Nat.eq_zero_or_pos N with h0 | h0
    · subst h0
      right
      refine ⟨⟨s, rfl⟩, ?_⟩
      refine ⟨if m = .down then t || s else t && s, ?_⟩
      show roundIntBy m _ (signed t 0 + signed s 0) = _
      have : signed t 0 + signed s 0 = 0 := by cases s <;> cases t <;> simp [signed]
      rw [this]
      unfold roundIntBy
      rw [if_pos rfl]
      unfold pack
      rw [dif_pos rep_zero]
      rfl
    · left
      rw [e0]
      unfold roundIntBy
      have h1 : signed s N ≠ 0 := by cases s <;> simp [signed] <;> omega
      have h2 : decide (signed s N < 0) = s := by cases s <;> simp [signed]; omega
      have h3 : (signed s N).natAbs = N := by cases s <;> simp [signed]
      rw [if_neg h1, h2, h3, roundQuotBy_exact (n := N) one_pos (by omega) h.2, packBy_rep h]

theorem seen_seen (a : Fl F) : e.seen (e.seen a) = e.seen a := by
  unfold seen
  split
  · exact flush_flush a
  · rfl

/-- Reading a number changes it only if it counts as zero. -/
theorem seen_cases (a : Fl F) : e.seen a = a ∨ ∃ s, e.seen a = nought s := by
  unfold seen
  split
  · match a with
    | .nan => exact .inl rfl
    | .inf _ => exact .inl rfl
    | .fin s N h =>
      rw [flush_fin]
      split
      · exact .inr ⟨s, rfl⟩
      · exact .inl rfl
  · exact .inl rfl

/-- If results are flushed, operands are. -/
def Both (e : FpEnv) : Prop := e.ftz.isSome = true → e.daz = true

theorem flush_of_seen (h : e.Both) (hf : e.ftz.isSome = true) (a : Fl F) : (e.seen a).flush = e.seen a := by
  unfold seen
  rw [h hf, if_pos rfl, flush_flush]

theorem kept_seen {a r : Fl F} (h : r = e.seen a ∨ ((∃ s, e.seen a = nought s) ∧ ∃ s, r = nought s)) :
    Kept (T := InEnv e F) a r := by
  rcases h with h | ⟨h1, s, rfl⟩
  · rcases e.seen_cases a with h' | ⟨s, h'⟩
    · left; rw [h, h']
    · right
      refine ⟨zeroish_iff.mpr ⟨s, h'⟩, zeroish_iff.mpr ⟨s, ?_⟩⟩
      rw [h, seen_seen, h']
  · exact .inr ⟨zeroish_iff.mpr h1, zeroish_nought s⟩

theorem flush_nought (s : Bool) : (nought s : Fl F).flush = nought s := flush_eq (nought_not_subnormal s)

theorem kept_flushed (h : e.Both) {a r : Fl F} (hr : r = e.seen a ∨ ((∃ s, e.seen a = nought s) ∧ ∃ s, r = nought s)) :
    Kept (T := InEnv e F) a (if e.ftz.isSome then r.flush else r : Fl F) := by
  by_cases hf : e.ftz.isSome = true
  · have e1 : (if e.ftz.isSome then r.flush else r) = r.flush := if_pos hf
    refine kept_seen ?_
    rw [e1]
    rcases hr with hr | ⟨h1, s, rfl⟩
    · left; rw [hr, flush_of_seen h hf]
    · exact .inr ⟨h1, s, flush_nought s⟩
  · have e1 : (if e.ftz.isSome then r.flush else r) = r := if_neg hf
    refine kept_seen ?_
    rw [e1]
    exact hr

theorem add_zero_kept (h : e.Both) {a z : Fl F} (hz : Zeroish (T := InEnv e F) z) : Kept (T := InEnv e F) a (e.add a z) := by
  obtain ⟨t, hz⟩ := zeroish_iff.mp hz
  unfold add
  rw [hz]
  exact kept_flushed h (addBy_zero e.mode (e.seen a) t)

theorem zero_add_kept (h : e.Both) {a z : Fl F} (hz : Zeroish (T := InEnv e F) z) : Kept (T := InEnv e F) a (e.add z a) := by
  obtain ⟨t, hz⟩ := zeroish_iff.mp hz
  unfold add
  rw [hz]
  exact kept_flushed h (addBy_zero' e.mode (e.seen a) t)

theorem zeroish_neg {z : Fl F} (hz : Zeroish (T := InEnv e F) z) : Zeroish (T := InEnv e F) z.neg := by
  obtain ⟨t, hz⟩ := zeroish_iff.mp hz
  exact zeroish_iff.mpr ⟨!t, by rw [seen_neg, hz]; rfl⟩

theorem packBy_zero (h : How) (s : Bool) : (packBy h s 0 : Fl F) = nought s := packBy_rep rep_zero

theorem mul_zero_zeroish {a b : Fl F} (ha : a.Finite) (hb : b.Finite)
    (h : Zeroish (T := InEnv e F) a ∨ Zeroish (T := InEnv e F) b) : ∃ s, e.mul a b = nought s := by
  have ha' := (finite_seen (e := e)).mpr ha
  have hb' := (finite_seen (e := e)).mpr hb
  unfold mul
  match hA : e.seen a, hB : e.seen b with
  | .fin s M hM, .fin t N hN =>
    dsimp only
    split
    · exact ⟨_, rfl⟩
    · refine ⟨s ^^ t, ?_⟩
      have hMN : M * N = 0 := by
        rcases h with h | h
        · obtain ⟨r, h⟩ := zeroish_iff.mp h
          rw [hA] at h
          injection h with h1 h2
          rw [h2, zero_mul]
        · obtain ⟨r, h⟩ := zeroish_iff.mp h
          rw [hB] at h
          injection h with h1 h2
          rw [h2, mul_zero]
      unfold mulBy
      dsimp only
      rw [hMN, roundQuotBy_exact (n := 0) (unit_pos F) (by omega) grid_zero, packBy_zero]
  | .nan, _ => rw [hA] at ha'; exact ha'.elim
  | .inf _, _ => rw [hA] at ha'; exact ha'.elim
  | .fin _ _ _, .nan => rw [hB] at hb'; exact hb'.elim
  | .fin _ _ _, .inf _ => rw [hB] at hb'; exact hb'.elim

theorem zero_div_zeroish {z p : Fl F} (hz : Zeroish (T := InEnv e F) z) (hp : p.Finite) (h0 : ¬ Zeroish (T := InEnv e F) p) :
    ∃ s, e.div z p = nought s := by
  obtain ⟨r, hz⟩ := zeroish_iff.mp hz
  have hp' := (finite_seen (e := e)).mpr hp
  unfold div
  rw [hz]
  match hP : e.seen p with
  | .fin t N hN =>
    unfold nought
    dsimp only
    split
    · exact ⟨_, rfl⟩
    · refine ⟨r ^^ t, ?_⟩
      have hN0 : N ≠ 0 := by
        rintro rfl
        exact h0 (zeroish_iff.mpr ⟨t, hP⟩)
      unfold divBy
      dsimp only
      rw [if_neg hN0, zero_mul, roundQuotBy_exact (n := 0) (by omega) (by omega) grid_zero, packBy_zero]
      rfl
  | .nan => rw [hP] at hp'; exact hp'.elim
  | .inf _ => rw [hP] at hp'; exact hp'.elim

theorem unit_rep (F : Fmt) : F.Rep F.unit := by
  refine ⟨?_, unit_grid F⟩
  unfold Fmt.unit Fmt.bound
  have := F.hp
  have := F.he
  exact Nat.pow_lt_pow_right (by omega) (by omega)

theorem ofInt_one : (Fl.ofInt 1 : Fl F) = .fin false F.unit (unit_rep F) := by
  unfold Fl.ofInt roundInt
  have hu := unit_pos F
  have h1 : (1 : ℤ) * (F.unit : ℤ) = ((F.unit : ℕ) : ℤ) := one_mul _
  rw [h1, if_neg (by omega)]
  have h2 : decide (((F.unit : ℕ) : ℤ) < 0) = false := by simp
  rw [h2, Int.natAbs_natCast]
  have h3 : roundQuot F F.unit 1 = F.unit := roundQuotBy_exact (h := .near) one_pos (by omega) (unit_grid F)
  rw [h3]
  unfold pack
  rw [dif_pos (unit_rep F)]

theorem unit_normal' (F : Fmt) : 2 ^ (F.p - 1) ≤ F.unit := by
  have h1 := F.hp
  have h2 := F.he
  exact Nat.pow_le_pow_right (by norm_num) (by omega)

theorem seen_one (e : FpEnv) : e.seen (Fl.ofInt 1 : Fl F) = .fin false F.unit (unit_rep F) := by
  rw [ofInt_one]
  refine seen_not_subnormal ?_
  rw [subnormal_iff]
  have := unit_normal' F
  omega

theorem div_one_kept (h : e.Both) (a : Fl F) : Kept (T := InEnv e F) a (e.div a (Fl.ofInt 1)) := by
  refine kept_seen ?_
  unfold div
  rw [seen_one]
  have hu := unit_pos F
  match hA : e.seen a with
  | .nan => exact .inl rfl
  | .inf s => left; show Fl.inf (s ^^ false) = _; rw [Bool.xor_false]
  | .fin s M hM =>
    dsimp only
    rcases Nat.eq_zero_or_pos M with h0 | h0
    · subst h0
      right
      refine ⟨⟨s, rfl⟩, s ^^ false, ?_⟩
      split
      · rfl
      · unfold divBy
        dsimp only
        rw [if_neg hu.ne', zero_mul, roundQuotBy_exact (n := 0) hu (by omega) grid_zero, packBy_zero]
    · left
      have ht : ¬ (F.unit ≠ 0 ∧ e.tiny F (e.mode.how (s ^^ false)) (M * F.unit) F.unit = true) := by
        rintro ⟨-, ht⟩
        by_cases hf : e.ftz.isSome = true
        · have hfl := flush_of_seen h hf a
          rw [hA, flush_fin] at hfl
          have hM2 : 2 ^ (F.p - 1) ≤ M := by
            by_contra hlt
            rw [if_pos (by omega)] at hfl
            injection hfl with _ hfl
            omega
          have := not_tiny (e := e) (h := e.mode.how (s ^^ false)) (F := F) (a := M * F.unit) (b := F.unit) hu (by
            have hu' := unit_posR F
            push_cast
            rw [mul_div_cancel_right₀ _ hu'.ne']
            exact_mod_cast hM2)
          rw [this] at ht
          exact absurd ht (by decide)
        · unfold tiny at ht
          cases hz : e.ftz with
          | none => rw [hz] at ht; exact absurd ht Bool.false_ne_true
          | some t => rw [hz] at hf; exact hf rfl
      rw [if_neg ht]
      unfold divBy
      dsimp only
      rw [if_neg hu.ne', roundQuotBy_exact (n := M) hu rfl hM.2, packBy_rep hM, Bool.xor_false]

theorem mul_one_kept (h : e.Both) (a : Fl F) : Kept (T := InEnv e F) a (e.mul a (Fl.ofInt 1)) := by
  refine kept_seen ?_
  unfold mul
  rw [seen_one]
  have hu := unit_pos F
  match hA : e.seen a with
  | .nan => exact .inl rfl
  | .inf s => left; show (if F.unit = 0 then Fl.nan else Fl.inf (s ^^ false)) = _; rw [if_neg hu.ne', Bool.xor_false]
  | .fin s M hM =>
    dsimp only
    rcases Nat.eq_zero_or_pos M with h0 | h0
    · subst h0
      right
      refine ⟨⟨s, rfl⟩, s ^^ false, ?_⟩
      split
      · rfl
      · unfold mulBy
        dsimp only
        rw [zero_mul, roundQuotBy_exact (n := 0) hu (by omega) grid_zero, packBy_zero]
    · left
      have ht : ¬ (e.tiny F (e.mode.how (s ^^ false)) (M * F.unit) F.unit = true) := by
        intro ht
        by_cases hf : e.ftz.isSome = true
        · have hfl := flush_of_seen h hf a
          rw [hA, flush_fin] at hfl
          have hM2 : 2 ^ (F.p - 1) ≤ M := by
            by_contra hlt
            rw [if_pos (by omega)] at hfl
            injection hfl with _ hfl
            omega
          have := not_tiny (e := e) (h := e.mode.how (s ^^ false)) (F := F) (a := M * F.unit) (b := F.unit) hu (by
            have hu' := unit_posR F
            push_cast
            rw [mul_div_cancel_right₀ _ hu'.ne']
            exact_mod_cast hM2)
          rw [this] at ht
          exact absurd ht (by decide)
        · unfold tiny at ht
          cases hz : e.ftz with
          | none => rw [hz] at ht; exact absurd ht Bool.false_ne_true
          | some t => rw [hz] at hf; exact hf rfl
      rw [if_neg ht]
      unfold mulBy
      dsimp only
      rw [roundQuotBy_exact (n := M) hu rfl hM.2, packBy_rep hM, Bool.xor_false]

theorem one_mul_kept (h : e.Both) (a : Fl F) : Kept (T := InEnv e F) a (e.mul (Fl.ofInt 1) a) := by
  refine kept_seen ?_
  unfold mul
  rw [seen_one]
  have hu := unit_pos F
  match hA : e.seen a with
  | .nan => exact .inl rfl
  | .inf s => left; show (if F.unit = 0 then Fl.nan else Fl.inf (false ^^ s)) = _; rw [if_neg hu.ne', Bool.false_xor]
  | .fin s M hM =>
    dsimp only
    rcases Nat.eq_zero_or_pos M with h0 | h0
    · subst h0
      right
      refine ⟨⟨s, rfl⟩, false ^^ s, ?_⟩
      split
      · rfl
      · unfold mulBy
        dsimp only
        rw [mul_zero, roundQuotBy_exact (n := 0) hu (by omega) grid_zero, packBy_zero]
    · left
      have ht : ¬ (e.tiny F (e.mode.how (false ^^ s)) (F.unit * M) F.unit = true) := by
        intro ht
        by_cases hf : e.ftz.isSome = true
        · have hfl := flush_of_seen h hf a
          rw [hA, flush_fin] at hfl
          have hM2 : 2 ^ (F.p - 1) ≤ M := by
            by_contra hlt
            rw [if_pos (by omega)] at hfl
            injection hfl with _ hfl
            omega
          have := not_tiny (e := e) (h := e.mode.how (false ^^ s)) (F := F) (a := F.unit * M) (b := F.unit) hu (by
            have hu' := unit_posR F
            push_cast
            rw [mul_div_cancel_left₀ _ hu'.ne']
            exact_mod_cast hM2)
          rw [this] at ht
          exact absurd ht (by decide)
        · unfold tiny at ht
          cases hz : e.ftz with
          | none => rw [hz] at ht; exact absurd ht Bool.false_ne_true
          | some t => rw [hz] at hf; exact hf rfl
      rw [if_neg ht]
      unfold mulBy
      dsimp only
      rw [roundQuotBy_exact (n := M) hu (Nat.mul_comm _ _) hM.2, packBy_rep hM, Bool.false_xor]

theorem div_self_eq {p : Fl F} (hp : p.Finite) (h0 : ¬ Zeroish (T := InEnv e F) p) : e.div p p = Fl.ofInt 1 := by
  have hp' := (finite_seen (e := e)).mpr hp
  have hu := unit_pos F
  unfold div
  match hP : e.seen p with
  | .fin t N hN =>
    dsimp only
    have hN0 : N ≠ 0 := by
      rintro rfl
      exact h0 (zeroish_iff.mpr ⟨t, hP⟩)
    have hpos : 0 < N := by omega
    have := not_tiny (e := e) (h := e.mode.how (t ^^ t)) (F := F) (a := N * F.unit) (b := N) hpos (by
      have hu' : (0 : ℝ) < N := by exact_mod_cast hpos
      push_cast
      rw [mul_div_cancel_left₀ _ hu'.ne']
      exact unit_normal F)
    rw [if_neg (by rw [this]; simp)]
    unfold divBy
    dsimp only
    rw [if_neg hN0, roundQuotBy_exact (n := F.unit) hpos (Nat.mul_comm _ _) (unit_grid F), packBy_rep (unit_rep F), ofInt_one, Bool.xor_self]
  | .nan => rw [hP] at hp'; exact hp'.elim
  | .inf _ => rw [hP] at hp'; exact hp'.elim

theorem one_not_zeroish : ¬ Zeroish (T := InEnv e F) (Fl.ofInt 1 : Fl F) := by
  rw [zeroish_iff, seen_one]
  rintro ⟨s, h⟩
  injection h with _ h
  have := unit_pos F
  omega

end FpEnv

open FpEnv in
theorem zeroArith_env {F : Fmt} {e : FpEnv} (h : e.Both) : ZeroArith (T := InEnv e F) (fun a => Fl.Finite (F := F) a) where
  lit := by
    have := zeroish_nought (e := e) (F := F) false
    rw [← ofInt_zero_nought] at this
    exact this
  fin_zero := by
    intro a ha
    obtain ⟨s, hs⟩ := zeroish_iff.mp ha
    refine (finite_seen (e := e)).mp ?_
    rw [hs]
    trivial
  mul := by
    intro a b ha hb hz
    obtain ⟨s, hs⟩ := mul_zero_zeroish (e := e) ha hb hz
    refine ⟨_, rfl, ?_⟩
    rw [hs]
    exact zeroish_nought s
  add := fun hz => ⟨_, rfl, add_zero_kept h hz⟩
  zadd := fun hz => ⟨_, rfl, zero_add_kept h hz⟩
  sub := fun hz => ⟨_, rfl, add_zero_kept h (zeroish_neg hz)⟩
  div := by
    intro z p hz hp h0
    obtain ⟨s, hs⟩ := zero_div_zeroish (e := e) hz hp h0
    refine ⟨_, rfl, ?_⟩
    rw [hs]
    exact zeroish_nought s
  div_one := fun {a} => ⟨_, rfl, div_one_kept h a⟩
  one := one_not_zeroish
  div_self := fun hp h0 => congrArg Except.ok (div_self_eq hp h0)
  fin_one := by
    show Fl.Finite (Fl.ofInt 1 : Fl F)
    rw [ofInt_one]
    trivial
  one_mul := fun {a} => ⟨_, rfl, one_mul_kept h a⟩
  mul_one := fun {a} => ⟨_, rfl, mul_one_kept h a⟩

theorem totalSteps_env (e : FpEnv) (F : Fmt) : TotalSteps (InEnv e F) := fun _ _ _ _ _ => ⟨_, _, _, rfl, rfl, rfl⟩

end MatrixLibs
