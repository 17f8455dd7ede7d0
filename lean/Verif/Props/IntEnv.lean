import Verif.Props.IntFloat
import Verif.Proof.EnvOps
import Mathlib.LinearAlgebra.Matrix.Notation

/-!
# Integers held in floating point matrices, in every floating point environment (C161)
-/

namespace MatrixLibs

set_option linter.unusedSectionVars false

open CScalar (ofInt)

section
variable {w : Nat} {F : Fmt} {e : FpEnv}

/-- One is a normal number. -/
theorem minNormal_le_one (F : Fmt) : F.minNormal ≤ 1 := by
  have hu := Fl.unit_posR F
  have hp := F.hp
  have he := F.he
  unfold Fmt.minNormal
  rw [div_le_one hu]
  unfold Fmt.unit
  push_cast
  exact pow_le_pow_right₀ (by norm_num) (by omega)

/-- Whole numbers are not subnormal. -/
theorem not_subnormal_int {a : Fl F} {k : Int} (h : a.val = k) : ¬ a.Subnormal := by
  rintro ⟨-, h0, h1⟩
  rw [h] at h0 h1
  have hk : k ≠ 0 := by rintro rfl; exact h0 (by simp)
  have : (1 : ℝ) ≤ |(k : ℝ)| := by exact_mod_cast Int.one_le_abs hk
  have := minNormal_le_one F
  linarith

theorem seen_int {a : Fl F} {k : Int} (h : a.val = k) : e.seen a = a :=
  FpEnv.seen_not_subnormal (not_subnormal_int h)

/-- Rounding a whole number that fits, in any mode. -/
theorem roundedBy_int (h : w ≤ F.p + 1) {k : Int} (hk : InRange w k) {m : RMode} {x : ℝ} {a : Fl F} (hx : x = k)
    (hr : Fl.RoundedBy m x a) : a.Finite ∧ a.val = k := by
  have e := Fl.val_ofInt_exact (F := F) k (fits h hk)
  subst hx
  exact hr.faithful.exact e.1 e.2

theorem env_add_int (h : w ≤ F.p + 1) {a b : Fl F} {i j : Int} (ha : a.Finite ∧ a.val = i) (hb : b.Finite ∧ b.val = j)
    (hk : InRange w (i + j)) : (e.add a b).Finite ∧ (e.add a b).val = (i + j : Int) := by
  have hr := roundedBy_int h hk (m := e.mode) (x := a.val + b.val) (by rw [ha.2, hb.2]; push_cast; rfl)
    (Fl.addBy_rounded ha.1 hb.1)
  have hs : ¬ (Fl.addBy e.mode (e.seen a) (e.seen b)).Subnormal := by
    rw [seen_int ha.2, seen_int hb.2]
    exact not_subnormal_int hr.2
  rw [FpEnv.add_normal (.inr hs), seen_int ha.2, seen_int hb.2]
  exact hr

theorem env_sub_int (h : w ≤ F.p + 1) {a b : Fl F} {i j : Int} (ha : a.Finite ∧ a.val = i) (hb : b.Finite ∧ b.val = j)
    (hk : InRange w (i - j)) : (e.sub a b).Finite ∧ (e.sub a b).val = (i - j : Int) := by
  have := env_add_int (e := e) h ha (b := b.neg) (j := -j)
    ⟨(Fl.neg_finite b).mpr hb.1, by rw [Fl.neg_val, hb.2]; push_cast; rfl⟩ (by rwa [← sub_eq_add_neg])
  rwa [← sub_eq_add_neg] at this

theorem env_mul_cases {a b : Fl F} :
    e.mul a b = Fl.mulBy e.mode (e.seen a) (e.seen b) ∨ ∃ s, e.mul a b = Fl.nought s := by
  unfold FpEnv.mul
  split
  · next h1 h2 =>
    split
    · exact .inr ⟨_, rfl⟩
    · exact .inl (by rw [h1, h2])
  · exact .inl rfl

theorem nought_val (s : Bool) : (Fl.nought s : Fl F).Finite ∧ (Fl.nought s : Fl F).val = 0 := by
  refine ⟨trivial, ?_⟩
  unfold Fl.nought Fl.val Fl.signed
  simp

theorem env_mul_int (h : w ≤ F.p + 1) {a b : Fl F} {i j : Int} (ha : a.Finite ∧ a.val = i) (hb : b.Finite ∧ b.val = j)
    (hk : InRange w (i * j)) : (e.mul a b).Finite ∧ (e.mul a b).val = (i * j : Int) := by
  have hr := roundedBy_int h hk (m := e.mode) (x := a.val * b.val) (by rw [ha.2, hb.2]; push_cast; rfl)
    (Fl.mulBy_rounded ha.1 hb.1)
  have he : e.mul a b = Fl.mulBy e.mode a b ∨ ∃ s, e.mul a b = Fl.nought s := by
    have := env_mul_cases (e := e) (a := a) (b := b)
    rwa [seen_int ha.2, seen_int hb.2] at this
  by_cases h0 : i * j = 0
  · rcases he with he | ⟨s, he⟩
    · rw [he]; exact hr
    · rw [he, h0]
      simpa using nought_val (F := F) s
  · have hn := FpEnv.mul_normal (e := e) ha.1 hb.1 (.inr (by
      unfold FpEnv.val
      rw [seen_int ha.2, seen_int hb.2, ha.2, hb.2, ← Int.cast_mul]
      have : (1 : ℝ) ≤ |((i * j : Int) : ℝ)| := by exact_mod_cast Int.one_le_abs h0
      exact (minNormal_le_one F).trans this))
    rw [hn, seen_int ha.2, seen_int hb.2]
    exact hr

/-- The number of the environment holds the integer. -/
local instance relHoldsEnv : Rel (SInt w) (InEnv e F) := ⟨fun a (b : Fl F) => b.Finite ∧ b.val = a.val⟩

theorem sim_checked_env {k : Int} {a : Fl F} (ha : InRange w k → a.Finite ∧ a.val = k) :
    SimRes (SInt.checked k : Res (SInt w)) (.ok a : Res (InEnv e F)) := by
  unfold SInt.checked
  by_cases hk : InRange w k
  · rw [dif_pos hk]
    exact ⟨a, rfl, ha hk⟩
  · rw [dif_neg hk]
    exact sim_ub _ _

theorem holdsEnv_lit (hw : 2 ≤ w) (h : w ≤ F.p + 1) {k : Int} (h1 : -2 ≤ k) (h2 : k < 2) :
    (SInt.wrap k : SInt w) ≈≈ (show InEnv e F from (Fl.ofInt k : Fl F)) := by
  have hk : (SInt.wrap k : SInt w).val = k := wrap_small hw h1 h2
  have := Fl.val_ofInt_exact (F := F) k (fits h (w := w) (hk ▸ (SInt.wrap k : SInt w).inRange))
  exact ⟨this.1, by rw [this.2, hk]⟩

theorem simRing_env (hw : 2 ≤ w) (h : w ≤ F.p + 1) : SimRing (SInt w) (InEnv e F) where
  init := holdsEnv_lit hw h (by decide) (by decide)
  zero := holdsEnv_lit hw h (by decide) (by decide)
  one := holdsEnv_lit hw h (by decide) (by decide)
  minusOne := holdsEnv_lit hw h (by decide) (by decide)
  add h1 h2 := sim_checked_env fun hk => env_add_int h h1 h2 hk
  sub h1 h2 := sim_checked_env fun hk => env_sub_int h h1 h2 hk
  mul h1 h2 := sim_checked_env fun hk => env_mul_int h h1 h2 hk

theorem simOrd_env : SimOrd (SInt w) (InEnv e F) where
  eq {a b} (a' b' : Fl F) h1 h2 := by
    have h1 : a'.Finite ∧ a'.val = a.val := h1
    have h2 : b'.Finite ∧ b'.val = b.val := h2
    show decide (a.val = b.val) = (e.seen a').eq (e.seen b')
    rw [seen_int h1.2, seen_int h2.2, Bool.eq_iff_iff, Fl.eq_iff h1.1 h2.1, h1.2, h2.2, decide_eq_true_eq, Int.cast_inj]
  lt {a b} (a' b' : Fl F) h1 h2 := by
    have h1 : a'.Finite ∧ a'.val = a.val := h1
    have h2 : b'.Finite ∧ b'.val = b.val := h2
    show decide (a.val < b.val) = (e.seen a').lt (e.seen b')
    rw [seen_int h1.2, seen_int h2.2, Bool.eq_iff_iff, Fl.lt_iff h1.1 h2.1, h1.2, h2.2, decide_eq_true_eq, Int.cast_lt]
  abs {a} (a' : Fl F) h1 := by
    have h1 : a'.Finite ∧ a'.val = a.val := h1
    show SimRes (SInt.checked |a.val| : Res (SInt w)) (.ok (Fl.abs a') : Res (InEnv e F))
    exact sim_checked_env fun _ => ⟨(Fl.abs_finite _).mpr h1.1, by rw [Fl.abs_val, h1.2, Int.cast_abs]⟩

end

/-- The matrix of the environment holds the integers of `A`; zeros may be negative. -/
def HoldsIntIn {w r c : Nat} {F : Fmt} (e : FpEnv) (X : Mat (InEnv e F) r c) (A : Mat (SInt w) r c) : Prop :=
  ∀ i j, (show Fl F from X i j).Finite ∧ (show Fl F from X i j).val = (A i j).val

section
variable {w : Nat} {F : Fmt} (e : FpEnv) (hw : 2 ≤ w) (h : w ≤ F.p + 1) {r c n m p : Nat}
include hw h

attribute [local instance] relHoldsEnv

/-- C161: sums and differences. -/
theorem C161_add_sub {A B : Mat (SInt w) r c} {X Y : Mat (InEnv e F) r c} (hX : HoldsIntIn e X A) (hY : HoldsIntIn e Y B) :
    (∀ R, opAdd A B = .ok R → ∃ Z, opAdd X Y = .ok Z ∧ HoldsIntIn e Z R) ∧
    (∀ R, opSub A B = .ok R → ∃ Z, opSub X Y = .ok Z ∧ HoldsIntIn e Z R) :=
  haveI := simRing_env (e := e) hw h
  ⟨fun _ hR => (sim_sum (T := SInt w) (U := InEnv e F) hX hY).ok_elim hR,
    fun _ hR => (sim_sub (T := SInt w) (U := InEnv e F) hX hY).ok_elim hR⟩

/-- C161: sums, differences and products with a scalar. -/
theorem C161_scalar {A : Mat (SInt w) r c} {X : Mat (InEnv e F) r c} {s : SInt w} {x : Fl F} (hX : HoldsIntIn e X A)
    (hx : x.Finite ∧ x.val = s.val) :
    (∀ R, opAddScalar A s = .ok R → ∃ Z, opAddScalar (T := InEnv e F) X x = .ok Z ∧ HoldsIntIn e Z R) ∧
    (∀ R, opSubScalar A s = .ok R → ∃ Z, opSubScalar (T := InEnv e F) X x = .ok Z ∧ HoldsIntIn e Z R) ∧
    (∀ R, opMulScalar A s = .ok R → ∃ Z, opMulScalar (T := InEnv e F) X x = .ok Z ∧ HoldsIntIn e Z R) :=
  haveI := simRing_env (e := e) hw h
  ⟨fun _ hR => (sim_sumScalar (T := SInt w) (U := InEnv e F) hX hx).ok_elim hR,
    fun _ hR => (sim_subScalar (T := SInt w) (U := InEnv e F) hX hx).ok_elim hR,
    fun _ hR => (sim_multScalar (T := SInt w) (U := InEnv e F) hX hx).ok_elim hR⟩

/-- C161: products. -/
theorem C161_mul {A : Mat (SInt w) n m} {B : Mat (SInt w) m p} {R : Mat (SInt w) n p} {X : Mat (InEnv e F) n m}
    {Y : Mat (InEnv e F) m p} (hX : HoldsIntIn e X A) (hY : HoldsIntIn e Y B) (hR : opMul A B = .ok R) :
    ∃ Z, opMul X Y = .ok Z ∧ HoldsIntIn e Z R :=
  haveI := simRing_env (e := e) hw h
  (sim_mult (T := SInt w) (U := InEnv e F) hX hY).ok_elim hR

/-- C161: the Strassen product. -/
theorem C161_strassen {A B R : Mat (SInt w) 2 2} {X Y : Mat (InEnv e F) 2 2} (hX : HoldsIntIn e X A)
    (hY : HoldsIntIn e Y B) (hR : strassen A B = .ok R) : ∃ Z, strassen X Y = .ok Z ∧ HoldsIntIn e Z R :=
  haveI := simRing_env (e := e) hw h
  (sim_strassen (T := SInt w) (U := InEnv e F) hX hY).ok_elim hR

/-- C161: powers with exponents that are not negative. -/
theorem C161_pow (handled : Option Exc) (we : Nat) {A R : Mat (SInt w) n n} {X : Mat (InEnv e F) n n}
    (hX : HoldsIntIn e X A) {q : Int} (hq : 0 ≤ q) (hR : pow handled we A q = .ok R) :
    ∃ Z, pow handled we X q = .ok Z ∧ HoldsIntIn e Z R :=
  haveI := simRing_env (e := e) hw h
  (sim_pow_nonneg (T := SInt w) (U := InEnv e F) handled we hX hq).ok_elim hR

/-- C161: determinants of matrices of order at most three. -/
theorem C161_det (h0 : 1 ≤ n) (hn : n ≤ 3) {A : Mat (SInt w) n n} {X : Mat (InEnv e F) n n} (hX : HoldsIntIn e X A)
    {d : SInt w} (hd : det A = .ok d) : ∃ x : Fl F, det X = .ok x ∧ x.Finite ∧ x.val = d.val :=
  haveI := simRing_env (e := e) hw h
  (sim_det_small (T := SInt w) (U := InEnv e F) h0 hn hX).ok_elim hd

/-- C161: absolute values. -/
theorem C161_abs {A R : Mat (SInt w) r c} {X : Mat (InEnv e F) r c} (hX : HoldsIntIn e X A) (hR : abs A = .ok R) :
    ∃ Z, abs X = .ok Z ∧ HoldsIntIn e Z R :=
  haveI := simRing_env (e := e) hw h
  haveI := simOrd_env (w := w) (F := F) (e := e)
  (sim_abs (T := SInt w) (U := InEnv e F) hX).ok_elim hR

/-- C161: convolutions. -/
theorem C161_conv2 {A : Mat (SInt w) r c} {K : Mat (SInt w) 3 3} {X : Mat (InEnv e F) r c} {Y : Mat (InEnv e F) 3 3}
    (hX : HoldsIntIn e X A) (hY : HoldsIntIn e Y K) :
    (∀ R, conv2 A K = .ok R → ∃ Z, conv2 X Y = .ok Z ∧ HoldsIntIn e Z R) ∧
    (∀ R, conv2_full A K = .ok R → ∃ Z, conv2_full X Y = .ok Z ∧ HoldsIntIn e Z R) :=
  haveI := simRing_env (e := e) hw h
  ⟨fun _ hR => (sim_conv2 (T := SInt w) (U := InEnv e F) hX hY).ok_elim hR,
    fun _ hR => (sim_conv2_full (T := SInt w) (U := InEnv e F) hX hY).ok_elim hR⟩

/-- C161: the valid part of a convolution. -/
theorem C161_conv2_valid {A : Mat (SInt w) n n} {K : Mat (SInt w) 3 3} {X : Mat (InEnv e F) n n} {Y : Mat (InEnv e F) 3 3}
    (hX : HoldsIntIn e X A) (hY : HoldsIntIn e Y K) {R} (hR : conv2_valid A K = .ok R) :
    ∃ Z, conv2_valid X Y = .ok Z ∧ HoldsIntIn e Z R :=
  haveI := simRing_env (e := e) hw h
  (sim_conv2_valid (T := SInt w) (U := InEnv e F) hX hY).ok_elim hR

/-- C161: `==` and `isSymetric`. -/
theorem C161_predicates {A B : Mat (SInt w) r c} {X Y : Mat (InEnv e F) r c} (hX : HoldsIntIn e X A)
    (hY : HoldsIntIn e Y B) {S : Mat (SInt w) n n} {V : Mat (InEnv e F) n n} (hV : HoldsIntIn e V S) :
    (∀ b, arrayEq A B = .ok b → arrayEq X Y = .ok b) ∧ (∀ b, isSymetric S = .ok b → isSymetric V = .ok b) :=
  haveI := simRing_env (e := e) hw h
  haveI := simOrd_env (w := w) (F := F) (e := e)
  ⟨fun _ hb => by
      obtain ⟨b, hb', e⟩ := (sim_arrayEq (T := SInt w) (U := InEnv e F) hX hY).ok_elim hb
      rw [hb', show _ = b from e],
    fun _ hb => by
      obtain ⟨b, hb', e⟩ := (sim_isSymetric (T := SInt w) (U := InEnv e F) hV).ok_elim hb
      rw [hb', show _ = b from e]⟩

end

/-- C161: integers that fit the precision are held after conversion. -/
theorem C161_convert {w : Nat} {F : Fmt} (e : FpEnv) (h : w ≤ F.p + 1) {r c : Nat} (A : Mat (SInt w) r c) :
    HoldsIntIn e (A.map (fun a => (show InEnv e F from (Fl.ofInt a.val : Fl F)))) A := fun i j =>
  Fl.val_ofInt_exact _ (fits h (A i j).inRange)

/-- C161: so the numbers do not depend on the environment: two environments give equal products, zeros possibly with
different signs. -/
theorem C161_same {w : Nat} {F : Fmt} (hw : 2 ≤ w) (h : w ≤ F.p + 1) (e e' : FpEnv) {n m p : Nat} {A : Mat (SInt w) n m}
    {B : Mat (SInt w) m p} {R : Mat (SInt w) n p} {X : Mat (InEnv e F) n m} {Y : Mat (InEnv e F) m p}
    {X' : Mat (InEnv e' F) n m} {Y' : Mat (InEnv e' F) m p} (hX : HoldsIntIn e X A) (hY : HoldsIntIn e Y B)
    (hX' : HoldsIntIn e' X' A) (hY' : HoldsIntIn e' Y' B) (hR : opMul A B = .ok R) :
    ∃ Z Z', opMul X Y = .ok Z ∧ opMul X' Y' = .ok Z' ∧
      ∀ i j, Fl.eq (F := F) (Z i j) (Z' i j) = true := by
  obtain ⟨Z, h1, h2⟩ := C161_mul e hw h hX hY hR
  obtain ⟨Z', h1', h2'⟩ := C161_mul e' hw h hX' hY' hR
  exact ⟨Z, Z', h1, h1', fun i j => (Fl.eq_iff (h2 i j).1 (h2' i j).1).mpr ((h2 i j).2.trans (h2' i j).2.symm)⟩

/-- C161 is sharp: one more bit, and the rounding mode can be seen: in `float`, 2^24 + 1 is 2^24 downward and 2^24 + 2
upward. -/
theorem C161_one_more_bit :
    opAdd (T := InEnv ⟨.down, false, none⟩ binary32) (Mat.const (Fl.ofInt 16777216 : Fl binary32) : Mat _ 1 1)
        (Mat.const (Fl.ofInt 1 : Fl binary32)) = .ok (Mat.const (Fl.ofInt 16777216 : Fl binary32)) ∧
    opAdd (T := InEnv ⟨.up, false, none⟩ binary32) (Mat.const (Fl.ofInt 16777216 : Fl binary32) : Mat _ 1 1)
        (Mat.const (Fl.ofInt 1 : Fl binary32)) = .ok (Mat.const (Fl.ofInt 16777218 : Fl binary32)) := by
  decide +kernel

/-! Concrete cases. -/

private def N32 : Mat (SInt 32) 2 2 := !![SInt.wrap 3, SInt.wrap (-2); SInt.wrap 4, SInt.wrap 5]

private def upFlush : FpEnv := ⟨.up, true, some .after⟩

/-- The hypotheses are met: the fifth power in `double`, rounding upward and flushing. -/
example : ∃ Z : Mat (InEnv upFlush binary64) 2 2,
    pow none 32 (N32.map (fun a => (show InEnv upFlush binary64 from (Fl.ofInt a.val : Fl binary64)))) 5 = .ok Z ∧
    HoldsIntIn upFlush Z
      (!![SInt.wrap (-2685), SInt.wrap (-418); SInt.wrap (836), SInt.wrap (-2267)] : Mat (SInt 32) 2 2) :=
  C161_pow upFlush (by decide) (by decide) none 32 (C161_convert upFlush (by decide) N32) (by decide) (by decide +kernel)

end MatrixLibs
