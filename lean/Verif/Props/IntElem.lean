import Verif.Props.Arith

/-!
# Property C78: elementwise operations on integer matrices
-/

namespace MatrixLibs

set_option linter.unusedSectionVars false

open CScalar (ofInt)

/-- `x` is the matrix of the integers `f a b`, or signed overflow if one of them does not fit. -/
def SignedElementwise {w i j : Nat} (f : Fin i → Fin j → Int) (x : Res (Mat (SInt w) i j)) : Prop :=
  (∀ R, x = .ok R ↔ ∀ a b, (R a b).val = f a b) ∧
  (x = .error (.ub .signedOverflow) ↔ ∃ a b, ¬ InRange w (f a b))

/-- `x` is the matrix of the integers `f a b` reduced modulo `2^w`. -/
def UnsignedElementwise {w i j : Nat} (f : Fin i → Fin j → Int) (x : Res (Mat (BitVec w) i j)) :
    Prop :=
  ∃ R, x = .ok R ∧ ∀ a b, ((R a b).toNat : Int) = f a b % 2 ^ w

variable {w i j : Nat}

theorem signed_of_checked {f : Fin i → Fin j → Int} {x : Res (Mat (SInt w) i j)}
    (h : ElementwiseOf (fun a b => SInt.checked (f a b)) x) : SignedElementwise f x := by
  have hr : ∀ R : Mat (SInt w) i j, (∀ a b, SInt.checked (f a b) = .ok (R a b)) ↔
      ∀ a b, (R a b).val = f a b := by
    refine fun R => forall₂_congr fun a b => ⟨fun hc => ?_, fun hc => ?_⟩
    · have := wp_ok_elim (checked_iff (w := w) (f a b)) hc
      exact this.1
    · unfold SInt.checked
      rw [dif_pos (hc ▸ (R a b).inRange)]
      congr 1
      exact SInt.ext_val hc.symm
  refine ⟨fun R => (h.1 R).trans (hr R), ?_, ?_⟩
  · intro hx
    obtain ⟨a, b, hab, -⟩ := (h.2 _).mp hx
    have := wp_error_elim (checked_iff (w := w) (f a b)) hab
    exact ⟨a, b, this.2⟩
  · rintro ⟨a, b, hab⟩
    cases hx : x with
    | ok R =>
      have := (hr R).mp ((h.1 R).mp hx) a b
      exact absurd (this ▸ (R a b).inRange) hab
    | error e =>
      obtain ⟨a', b', hab', -⟩ := (h.2 _).mp hx
      have := wp_error_elim (checked_iff (w := w) (f a' b')) hab'
      rw [this.1]

theorem unsigned_of {g : Fin i → Fin j → BitVec w} {f : Fin i → Fin j → Int}
    {x : Res (Mat (BitVec w) i j)} (h : ElementwiseOf (fun a b => .ok (g a b)) x)
    (hg : ∀ a b, ((g a b).toNat : Int) = f a b % 2 ^ w) : UnsignedElementwise f x :=
  ⟨.of g, (h.1 _).mpr fun _ _ => rfl, hg⟩

/-- C78: signed integers, operations with a matrix and a scalar operand. -/
theorem C78_signed_scalar (A : Mat (SInt w) i j) (s : SInt w) :
    SignedElementwise (fun a b => (A a b).val + s.val) (opAddScalar A s) ∧
    SignedElementwise (fun a b => s.val + (A a b).val) (opScalarAdd s A) ∧
    SignedElementwise (fun a b => (A a b).val - s.val) (opSubScalar A s) ∧
    SignedElementwise (fun a b => (A a b).val * s.val) (opMulScalar A s) ∧
    SignedElementwise (fun a b => s.val * (A a b).val) (opScalarMul s A) := by
  refine ⟨signed_of_checked (C14_add_scalar A s).1, ?_, signed_of_checked (C14_sub_scalar A s).1,
    signed_of_checked (multScalar_elementwise A s), ?_⟩
  · have := signed_of_checked (C14_scalar_add A s)
    simpa only [add_comm] using this
  · have := signed_of_checked (multScalar_elementwise A s)
    simp only [mul_comm] at this
    exact this

/-- C78: signed integers, sum, difference and absolute value. -/
theorem C78_signed (A B : Mat (SInt w) i j) :
    SignedElementwise (fun a b => (A a b).val + (B a b).val) (opAdd A B) ∧
    SignedElementwise (fun a b => (A a b).val - (B a b).val) (opSub A B) ∧
    SignedElementwise (fun a b => |(A a b).val|) (abs A) :=
  ⟨signed_of_checked (C14_add A B), signed_of_checked (C14_sub A B).1, signed_of_checked (C24_abs A)⟩

/-- C78: signed integers, division by a nonzero scalar truncates toward zero. -/
theorem C78_signed_div (handled : Option Exc) (A : Mat (SInt w) i j) (s : SInt w)
    (hs : s.val ≠ 0) :
    SignedElementwise (fun a b => (A a b).val.tdiv s.val) (opDiv handled A s) := by
  have hz : CScalar.eq s (ofInt 0) = false := by
    have : (ofInt 0 : SInt w).val = 0 := by
      show Int.bmod 0 (2 ^ w) = 0
      simp
    show decide (s.val = (ofInt 0 : SInt w).val) = false
    rw [this]
    exact decide_eq_false hs
  have h := (C22_div handled A s hz).1
  have e : (fun (a : Fin i) (b : Fin j) => CScalar.div (A a b) s) =
      fun a b => SInt.checked ((A a b).val.tdiv s.val) := by
    funext a b
    exact if_neg hs
  rw [e] at h
  exact signed_of_checked h

/-- C78: for division the only overflow is that of the minimum by -1. -/
theorem C78_signed_div_overflow (handled : Option Exc) (A : Mat (SInt w) i j) (s : SInt w)
    (hw : 2 ≤ w) (hs : s.val ≠ 0) :
    opDiv handled A s = .error (.ub .signedOverflow) ↔
      s.val = -1 ∧ ∃ a b, (A a b).val = -(2 ^ (w - 1)) := by
  rw [(C78_signed_div handled A s hs).2]
  have hp : (2 : Int) ≤ 2 ^ (w - 1) := by
    calc (2 : Int) = 2 ^ 1 := by norm_num
      _ ≤ 2 ^ (w - 1) := by
        apply pow_le_pow_right₀ (by norm_num)
        omega
  have key : ∀ x : SInt w, ¬ InRange w (x.val.tdiv s.val) ↔ s.val = -1 ∧ x.val = -(2 ^ (w - 1)) := by
    intro x
    have hx := x.inRange
    unfold InRange at *
    generalize (2 : Int) ^ (w - 1) = p at *
    have hle : ((x.val.tdiv s.val).natAbs) ≤ x.val.natAbs := by
      rw [Int.natAbs_tdiv]
      exact Nat.div_le_self _ _
    constructor
    · intro h
      by_cases h1 : s.val = -1
      · refine ⟨h1, ?_⟩
        rw [h1, Int.tdiv_neg, Int.tdiv_one] at h
        omega
      · exfalso
        apply h
        by_cases h2 : s.val = 1
        · rw [h2, Int.tdiv_one]
          exact hx
        · have hs2 : 2 ≤ s.val.natAbs := by omega
          have : ((x.val.tdiv s.val).natAbs) ≤ x.val.natAbs / 2 := by
            rw [Int.natAbs_tdiv]
            exact Nat.div_le_div_left hs2 (by omega)
          omega
    · rintro ⟨h1, h2⟩
      rw [h1, h2, Int.tdiv_neg, Int.tdiv_one]
      omega
  simp only [key]
  constructor
  · rintro ⟨a, b, h1, h2⟩
    exact ⟨h1, a, b, h2⟩
  · rintro ⟨h1, a, b, h2⟩
    exact ⟨a, b, h1, h2⟩

/-- C78: signed integers, division by zero stops before the first division. -/
theorem C78_signed_div_zero (A : Mat (SInt w) i j) (s : SInt w) (hs : s.val = 0) :
    opDiv none A s = .error .terminates := by
  refine (C22_div_zero_terminates A s ?_).1
  have : (ofInt 0 : SInt w).val = 0 := by
    show Int.bmod 0 (2 ^ w) = 0
    simp
  show decide (s.val = (ofInt 0 : SInt w).val) = true
  rw [this]
  exact decide_eq_true hs

/-- C78: unsigned integers wrap around. -/
theorem C78_unsigned (A B : Mat (BitVec w) i j) (s : BitVec w) :
    UnsignedElementwise (fun a b => (A a b).toNat + (B a b).toNat) (opAdd A B) ∧
    UnsignedElementwise (fun a b => (A a b).toNat - (B a b).toNat) (opSub A B) ∧
    UnsignedElementwise (fun a b => (A a b).toNat + s.toNat) (opAddScalar A s) ∧
    UnsignedElementwise (fun a b => (A a b).toNat - s.toNat) (opSubScalar A s) ∧
    UnsignedElementwise (fun a b => (A a b).toNat * s.toNat) (opMulScalar A s) := by
  have ha : ∀ x y : BitVec w, ((x + y).toNat : Int) = ((x.toNat : Int) + y.toNat) % 2 ^ w := by
    intro x y
    rw [BitVec.toNat_add]
    norm_cast
  have hs : ∀ x y : BitVec w, ((x - y).toNat : Int) = ((x.toNat : Int) - y.toNat) % 2 ^ w := by
    intro x y
    rw [BitVec.toNat_sub, Int.natCast_mod, Nat.cast_add, Nat.cast_sub y.isLt.le]
    push_cast
    rw [show ((2 : Int) ^ w - y.toNat + x.toNat) = (x.toNat - y.toNat) + 2 ^ w by ring,
      Int.add_emod_right]
  have hm : ∀ x y : BitVec w, ((x * y).toNat : Int) = ((x.toNat : Int) * y.toNat) % 2 ^ w := by
    intro x y
    rw [BitVec.toNat_mul]
    norm_cast
  exact ⟨unsigned_of (C14_add A B) fun _ _ => ha _ _, unsigned_of (C14_sub A B).1 fun _ _ => hs _ _,
    unsigned_of (C14_add_scalar A s).1 fun _ _ => ha _ _,
    unsigned_of (C14_sub_scalar A s).1 fun _ _ => hs _ _,
    unsigned_of (multScalar_elementwise A s) fun _ _ => hm _ _⟩

/-- C78: unsigned integers, division rounds down. -/
theorem C78_unsigned_div (handled : Option Exc) (A : Mat (BitVec w) i j) (s : BitVec w)
    (hs : s.toNat ≠ 0) :
    ∃ R, opDiv handled A s = .ok R ∧ ∀ a b, (R a b).toNat = (A a b).toNat / s.toNat := by
  have h0 : s ≠ 0#w := by
    rintro rfl
    simp at hs
  have hz : CScalar.eq s (ofInt 0) = false := by
    show (s == BitVec.ofInt w 0) = false
    simpa using h0
  have h := (C22_div handled A s hz).1
  refine ⟨.of fun a b => A a b / s, (h.1 _).mpr fun a b => if_neg h0, fun a b => ?_⟩
  exact BitVec.toNat_udiv

/-- C78: `abs` of a non-empty matrix of unsigned elements does not compile. -/
theorem C78_unsigned_abs (A : Mat (BitVec w) (i + 1) (j + 1)) : abs A = .error .illFormed :=
  ((C24_abs A).2 _).mpr ⟨0, 0, rfl, fun a b h => by
    rcases h with h | ⟨-, h⟩
    · exact absurd h (by simp)
    · exact absurd h (by simp)⟩

example : opDiv none (!![mkInt (-7), mkInt 7] : Mat (SInt 32) 1 2) (mkInt 2) =
    .ok !![mkInt (-3), mkInt 3] := by decide +kernel
example : opDiv none (!![mkInt 5, mkInt (-2147483648)] : Mat (SInt 32) 1 2) (mkInt (-1)) =
    .error (.ub .signedOverflow) := by decide +kernel
example : opSub (!![3#32, 5#32] : Mat (BitVec 32) 1 2) !![4#32, 1#32] = .ok !![4294967295#32, 4#32] := by
  decide +kernel
example : opDiv none (!![7#32, 4294967295#32] : Mat (BitVec 32) 1 2) 2#32 =
    .ok !![3#32, 2147483647#32] := by decide +kernel

end MatrixLibs
