import Verif.Proof.SimHom
import Verif.Proof.FloatOps
import Verif.Props.Arith
import Verif.Props.Widen
import Mathlib.LinearAlgebra.Matrix.Notation

/-!
# Integers held in floating point matrices (C103)
-/

namespace MatrixLibs

set_option linter.unusedSectionVars false

open CScalar (ofInt)

/-- The floating point matrix `X` holds the integers of `A`; zeros may be negative. -/
def HoldsInt {w r c : Nat} {F : Fmt} (X : Mat (Fl F) r c) (A : Mat (SInt w) r c) : Prop :=
  ∀ i j, (X i j).Finite ∧ (X i j).val = (A i j).val

section
variable {w : Nat} {F : Fmt}

/-- The float holds the integer. -/
local instance relHolds : Rel (SInt w) (Fl F) := ⟨fun a b => b.Finite ∧ b.val = a.val⟩

theorem fits (h : w ≤ F.p + 1) {k : Int} (hk : InRange w k) : k.natAbs ≤ 2 ^ F.p := by
  have : (2 ^ (w - 1) : Int) ≤ 2 ^ F.p := pow_le_pow_right₀ (by norm_num) (by omega)
  have h1 := hk.1
  have h2 := hk.2
  zify
  rw [abs_le]
  omega

theorem sim_rounded (h : w ≤ F.p + 1) {k : Int} {x : ℝ} {a : Fl F} (hx : x = k) (hr : Fl.Rounded x a) :
    SimRes (SInt.checked k : Res (SInt w)) (.ok a : Res (Fl F)) := by
  unfold SInt.checked
  by_cases hk : InRange w k
  · rw [dif_pos hk]
    subst hx
    refine ⟨a, rfl, hr.exact (k.natAbs * F.unit) ?_ (Fl.rep_int (fits h hk))⟩
    rw [Nat.cast_mul, Nat.cast_natAbs, Int.cast_abs]
  · rw [dif_neg hk]
    exact sim_ub _ _

theorem holds_lit (hw : 2 ≤ w) (h : w ≤ F.p + 1) {k : Int} (h1 : -2 ≤ k) (h2 : k < 2) :
    (SInt.wrap k : SInt w) ≈≈ (Fl.ofInt k : Fl F) := by
  have hk : (SInt.wrap k : SInt w).val = k := wrap_small hw h1 h2
  have := Fl.val_ofInt_exact (F := F) k (fits h (w := w) (hk ▸ (SInt.wrap k : SInt w).inRange))
  exact ⟨this.1, by rw [this.2, hk]⟩

theorem simRing_holds (hw : 2 ≤ w) (h : w ≤ F.p + 1) : SimRing (SInt w) (Fl F) where
  init := holds_lit hw h (by decide) (by decide)
  zero := holds_lit hw h (by decide) (by decide)
  one := holds_lit hw h (by decide) (by decide)
  minusOne := holds_lit hw h (by decide) (by decide)
  add {a b a' b'} h1 h2 := sim_rounded h (x := a'.val + b'.val) (by rw [h1.2, h2.2]; push_cast; rfl)
    (Fl.add_rounded h1.1 h2.1)
  sub {a b a' b'} h1 h2 := sim_rounded h (x := a'.val - b'.val) (by rw [h1.2, h2.2]; push_cast; rfl)
    (Fl.sub_rounded h1.1 h2.1)
  mul {a b a' b'} h1 h2 := sim_rounded h (x := a'.val * b'.val) (by rw [h1.2, h2.2]; push_cast; rfl)
    (Fl.mul_rounded h1.1 h2.1)

theorem simOrd_holds : SimOrd (SInt w) (Fl F) where
  eq {a b a' b'} h1 h2 := by
    show decide (a.val = b.val) = a'.eq b'
    rw [Bool.eq_iff_iff, Fl.eq_iff h1.1 h2.1, h1.2, h2.2, decide_eq_true_eq, Int.cast_inj]
  lt {a b a' b'} h1 h2 := by
    show decide (a.val < b.val) = a'.lt b'
    rw [Bool.eq_iff_iff, Fl.lt_iff h1.1 h2.1, h1.2, h2.2, decide_eq_true_eq, Int.cast_lt]
  abs {a a'} h1 := by
    show SimRes (SInt.checked |a.val|) (.ok a'.abs)
    unfold SInt.checked
    split
    · exact ⟨_, rfl, (Fl.abs_finite _).mpr h1.1, by rw [Fl.abs_val, h1.2, Int.cast_abs]⟩
    · exact sim_ub _ _

theorem SimRes.ok_elim {α β : Type} [Rel α β] {x : Res α} {y : Res β} {a : α} (h : SimRes x y) (hx : x = .ok a) :
    ∃ b, y = .ok b ∧ a ≈≈ b := by
  subst hx
  exact h

end

section
variable {w : Nat} {F : Fmt} (hw : 2 ≤ w) (h : w ≤ F.p + 1) {r c n m p : Nat}
include hw h

attribute [local instance] relHolds

/-- C103: sums. -/
theorem C103_add {A B R : Mat (SInt w) r c} {X Y : Mat (Fl F) r c} (hX : HoldsInt X A) (hY : HoldsInt Y B)
    (hR : opAdd A B = .ok R) : ∃ Z, opAdd X Y = .ok Z ∧ HoldsInt Z R :=
  haveI := simRing_holds hw h
  (sim_sum (T := SInt w) hX hY).ok_elim hR

/-- C103: differences. -/
theorem C103_sub {A B R : Mat (SInt w) r c} {X Y : Mat (Fl F) r c} (hX : HoldsInt X A) (hY : HoldsInt Y B)
    (hR : opSub A B = .ok R) : ∃ Z, opSub X Y = .ok Z ∧ HoldsInt Z R :=
  haveI := simRing_holds hw h
  (sim_sub (T := SInt w) hX hY).ok_elim hR

/-- C103: sums, differences and products with a scalar. -/
theorem C103_scalar {A : Mat (SInt w) r c} {X : Mat (Fl F) r c} {s : SInt w} {x : Fl F} (hX : HoldsInt X A)
    (hx : x.Finite ∧ x.val = s.val) :
    (∀ R, opAddScalar A s = .ok R → ∃ Z, opAddScalar X x = .ok Z ∧ HoldsInt Z R) ∧
    (∀ R, opSubScalar A s = .ok R → ∃ Z, opSubScalar X x = .ok Z ∧ HoldsInt Z R) ∧
    (∀ R, opMulScalar A s = .ok R → ∃ Z, opMulScalar X x = .ok Z ∧ HoldsInt Z R) :=
  haveI := simRing_holds hw h
  ⟨fun _ hR => (sim_sumScalar (T := SInt w) hX hx).ok_elim hR, fun _ hR => (sim_subScalar (T := SInt w) hX hx).ok_elim hR,
    fun _ hR => (sim_multScalar (T := SInt w) hX hx).ok_elim hR⟩

/-- C103: products. -/
theorem C103_mul {A : Mat (SInt w) n m} {B : Mat (SInt w) m p} {R : Mat (SInt w) n p} {X : Mat (Fl F) n m}
    {Y : Mat (Fl F) m p} (hX : HoldsInt X A) (hY : HoldsInt Y B) (hR : opMul A B = .ok R) :
    ∃ Z, opMul X Y = .ok Z ∧ HoldsInt Z R :=
  haveI := simRing_holds hw h
  (sim_mult (T := SInt w) hX hY).ok_elim hR

/-- C103: the Strassen product. -/
theorem C103_strassen {A B R : Mat (SInt w) 2 2} {X Y : Mat (Fl F) 2 2} (hX : HoldsInt X A) (hY : HoldsInt Y B)
    (hR : strassen A B = .ok R) : ∃ Z, strassen X Y = .ok Z ∧ HoldsInt Z R :=
  haveI := simRing_holds hw h
  (sim_strassen (T := SInt w) hX hY).ok_elim hR

/-- C103: powers with exponents that are not negative. -/
theorem C103_pow (handled : Option Exc) (we : Nat) {A R : Mat (SInt w) n n} {X : Mat (Fl F) n n} (hX : HoldsInt X A)
    {q : Int} (hq : 0 ≤ q) (hR : pow handled we A q = .ok R) : ∃ Z, pow handled we X q = .ok Z ∧ HoldsInt Z R :=
  haveI := simRing_holds hw h
  (sim_pow_nonneg (T := SInt w) handled we hX hq).ok_elim hR

/-- C103: determinants of matrices of order at most three. -/
theorem C103_det (h0 : 1 ≤ n) (hn : n ≤ 3) {A : Mat (SInt w) n n} {X : Mat (Fl F) n n} (hX : HoldsInt X A)
    {d : SInt w} (hd : det A = .ok d) : ∃ x, det X = .ok x ∧ x.Finite ∧ x.val = d.val :=
  haveI := simRing_holds hw h
  (sim_det_small (T := SInt w) h0 hn hX).ok_elim hd

/-- C103: absolute values. -/
theorem C103_abs {A R : Mat (SInt w) r c} {X : Mat (Fl F) r c} (hX : HoldsInt X A) (hR : abs A = .ok R) :
    ∃ Z, abs X = .ok Z ∧ HoldsInt Z R :=
  haveI := simRing_holds hw h
  haveI := simOrd_holds (w := w) (F := F)
  (sim_abs (T := SInt w) hX).ok_elim hR

/-- C103: convolutions. -/
theorem C103_conv2 {A : Mat (SInt w) r c} {K : Mat (SInt w) 3 3} {X : Mat (Fl F) r c} {Y : Mat (Fl F) 3 3}
    (hX : HoldsInt X A) (hY : HoldsInt Y K) :
    (∀ R, conv2 A K = .ok R → ∃ Z, conv2 X Y = .ok Z ∧ HoldsInt Z R) ∧
    (∀ R, conv2_full A K = .ok R → ∃ Z, conv2_full X Y = .ok Z ∧ HoldsInt Z R) :=
  haveI := simRing_holds hw h
  ⟨fun _ hR => (sim_conv2 (T := SInt w) hX hY).ok_elim hR, fun _ hR => (sim_conv2_full (T := SInt w) hX hY).ok_elim hR⟩

/-- C103: the valid part of a convolution. -/
theorem C103_conv2_valid {A : Mat (SInt w) n n} {K : Mat (SInt w) 3 3} {X : Mat (Fl F) n n} {Y : Mat (Fl F) 3 3}
    (hX : HoldsInt X A) (hY : HoldsInt Y K) {R} (hR : conv2_valid A K = .ok R) :
    ∃ Z, conv2_valid X Y = .ok Z ∧ HoldsInt Z R :=
  haveI := simRing_holds hw h
  (sim_conv2_valid (T := SInt w) hX hY).ok_elim hR

/-- C103: `==` and `isSymetric`. -/
theorem C103_predicates {A B : Mat (SInt w) r c} {X Y : Mat (Fl F) r c} (hX : HoldsInt X A) (hY : HoldsInt Y B)
    {S : Mat (SInt w) n n} {V : Mat (Fl F) n n} (hV : HoldsInt V S) :
    (∀ b, arrayEq A B = .ok b → arrayEq X Y = .ok b) ∧ (∀ b, isSymetric S = .ok b → isSymetric V = .ok b) :=
  haveI := simRing_holds hw h
  haveI := simOrd_holds (w := w) (F := F)
  ⟨fun _ hb => by
      obtain ⟨b, hb', e⟩ := (sim_arrayEq (T := SInt w) (U := Fl F) hX hY).ok_elim hb
      rw [hb', show _ = b from e],
    fun _ hb => by
      obtain ⟨b, hb', e⟩ := (sim_isSymetric (T := SInt w) (U := Fl F) hV).ok_elim hb
      rw [hb', show _ = b from e]⟩

end

/-- C103: a matrix of `int` can be held in one of `double`, and one of 25-bit integers in one of `float`, by
converting its elements. -/
theorem C103_convert {w : Nat} {F : Fmt} (h : w ≤ F.p + 1) {r c : Nat} (A : Mat (SInt w) r c) :
    HoldsInt (A.map (fun a => (Fl.ofInt a.val : Fl F))) A := fun i j =>
  Fl.val_ofInt_exact _ (fits h (A i j).inRange)

/-- C103 is sharp: `int` elements do not fit into `float`, even where the `int` sum does not overflow. -/
theorem C103_float_int_differs :
    opAdd (Mat.const (SInt.wrap 16777216) : Mat (SInt 32) 1 1) (Mat.const (SInt.wrap 1)) =
      .ok (Mat.const (SInt.wrap 16777217)) ∧
    opAdd (Mat.const (Fl.ofInt 16777216) : Mat (Fl binary32) 1 1) (Mat.const (Fl.ofInt 1)) =
      .ok (Mat.const (Fl.ofInt 16777216)) := by
  decide +kernel

/-! Concrete cases. -/

private def M32 : Mat (SInt 32) 2 2 := !![SInt.wrap 3, SInt.wrap (-2); SInt.wrap 4, SInt.wrap 5]

example : pow none 32 M32 5 = .ok !![SInt.wrap (-2685), SInt.wrap (-418); SInt.wrap (836), SInt.wrap (-2267)] := by
  decide +kernel
/-- The hypotheses are met: the fifth power, in `double`. -/
example : ∃ Z, pow none 32 (M32.map (fun a => (Fl.ofInt a.val : Fl binary64))) 5 = .ok Z ∧
    HoldsInt Z (!![SInt.wrap (-2685), SInt.wrap (-418); SInt.wrap (836), SInt.wrap (-2267)] : Mat (SInt 32) 2 2) :=
  C103_pow (by decide) (by decide) none 32 (C103_convert (by decide) M32) (by decide) (by decide +kernel)
example : ∃ x, det (M32.map (fun a => (Fl.ofInt a.val : Fl binary64))) = .ok x ∧ x.Finite ∧
    x.val = ((SInt.wrap 23 : SInt 32).val : ℝ) :=
  C103_det (by decide) (by decide) (by decide) (by decide) (C103_convert (by decide) M32) (by decide +kernel)

end MatrixLibs
