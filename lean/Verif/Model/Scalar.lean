import Verif.Model.Float
import Mathlib.Data.BitVec
import Mathlib.Data.Rat.Defs
import Mathlib.Algebra.Order.Ring.Rat
import Mathlib.Data.Rat.Sqrt
import Mathlib.Analysis.Real.Sqrt

/-!
# Element types

The headers are templates over the element type `T`. A `CScalar T` gives the meaning of the
operations they apply to `T`. Each operation may stop (signed overflow, division by zero, ...).
-/

namespace MatrixLibs

/-- The operations the headers use on the element type. -/
class CScalar (T : Type) where
  /-- `a + b` -/
  add : T → T → Res T
  /-- `a - b` -/
  sub : T → T → Res T
  /-- `a * b` -/
  mul : T → T → Res T
  /-- `a / b` -/
  div : T → T → Res T
  /-- `-a` -/
  neg : T → Res T
  /-- implicit conversion of an `int` (or `double`) literal to `T`, and mixed operands `1/x`,
  `-1*x`, `x == 0` after the usual arithmetic conversions -/
  ofInt : Int → T
  /-- `a == b` -/
  eq : T → T → Bool
  /-- `a < b` -/
  lt : T → T → Bool
  /-- `std::abs(a)`, converted to `T` -/
  abs : T → Res T
  /-- `sqrt(a)`, converted to `T` -/
  sqrt : T → Res T
  /-- `a / n` with `n` a `std::size_t`, converted to `T` -/
  divSize : T → Nat → Res T

/-! ## Unsigned integers of `w` bits (`w ≥ 32`, no integer promotion) -/

/-- `std::size_t` is taken to be 64 bits wide. -/
def sizeMod : Nat := 2 ^ 64

/-- Conversion of a truncated square root to `w`-bit unsigned: a value the type cannot represent is undefined. -/
def unsignedOf (w : Nat) : Option Nat → Res (BitVec w)
  | some k => if k < 2 ^ w then .ok (BitVec.ofNat w k) else .error (.ub .domain)
  | none => .error (.ub .domain)

/-- Unsigned `w`-bit integers: wrapping arithmetic, truncating division.
`std::abs` of an unsigned type is ambiguous and does not compile. `sqrt` goes through `double`
and truncates; a result that the type cannot represent is undefined. -/
instance unsignedScalar (w : Nat) : CScalar (BitVec w) where
  add a b := .ok (a + b)
  sub a b := .ok (a - b)
  mul a b := .ok (a * b)
  div a b := if b = 0#w then .error (.ub .divisionByZero) else .ok (a / b)
  neg a := .ok (-a)
  ofInt k := BitVec.ofInt w k
  eq a b := a == b
  lt a b := decide (a < b)
  abs _ := .error .illFormed
  sqrt a := unsignedOf w (sqrtTrunc a.toNat)
  divSize a n :=
    if n = 0 then .error (.ub .divisionByZero) else .ok (BitVec.ofNat w (a.toNat % sizeMod / n))

/-! ## Signed integers of `w` bits -/

/-- Values representable in `w`-bit two's complement. -/
def InRange (w : Nat) (k : Int) : Prop := -(2 ^ (w - 1) : Int) ≤ k ∧ k < 2 ^ (w - 1)

instance (w : Nat) (k : Int) : Decidable (InRange w k) := by unfold InRange; infer_instance

/-- Signed `w`-bit integers (`int`: `w = 32`, `long`: `w = 64`). -/
structure SInt (w : Nat) where
  val : Int
  inRange : InRange w val
  deriving DecidableEq

namespace SInt
variable {w : Nat}

/-- Result `k` of a signed operation: undefined if not representable. -/
def checked (k : Int) : Res (SInt w) :=
  if h : InRange w k then .ok ⟨k, h⟩ else .error (.ub .signedOverflow)

theorem bmod_inRange (k : Int) : InRange w (Int.bmod k (2 ^ w)) := by
  unfold InRange
  have hpos : (0 : Int) < 2 ^ (w - 1) := by positivity
  cases w with
  | zero => simp [Int.bmod_one]
  | succ n =>
    have h1 : 0 < 2 ^ (n + 1) := by positivity
    have h2 := Int.le_bmod (x := k) h1
    have h3 := Int.bmod_lt (x := k) h1
    have e : ((2 ^ (n + 1) : Nat) : Int) = 2 * 2 ^ n := by push_cast; ring
    rw [e] at h2 h3
    simp only [Nat.add_sub_cancel]
    constructor
    · exact le_trans (by omega) h2
    · exact lt_of_lt_of_le h3 (by omega)

/-- Conversion to `w` bits modulo `2^w` (implementation-defined before C++20, two's complement
on every supported compiler). -/
def wrap (k : Int) : SInt w := ⟨Int.bmod k (2 ^ w), bmod_inRange k⟩

/-- Conversion of a truncated square root: a value the type cannot represent is undefined. -/
def ofTrunc : Option Nat → Res (SInt w)
  | some k => if h : InRange w k then .ok ⟨k, h⟩ else .error (.ub .domain)
  | none => .error (.ub .domain)

end SInt

/-- Signed `w`-bit integers: overflow and division by zero are undefined, division truncates,
`T / size_t` converts the dividend to unsigned 64 bits (usual arithmetic conversions),
`sqrt` goes through `double`, a NaN result has no integer value. -/
instance signedScalar (w : Nat) : CScalar (SInt w) where
  add a b := SInt.checked (a.val + b.val)
  sub a b := SInt.checked (a.val - b.val)
  mul a b := SInt.checked (a.val * b.val)
  div a b := if b.val = 0 then .error (.ub .divisionByZero) else SInt.checked (a.val.tdiv b.val)
  neg a := SInt.checked (-a.val)
  ofInt k := SInt.wrap k
  eq a b := decide (a.val = b.val)
  lt a b := decide (a.val < b.val)
  abs a := SInt.checked |a.val|
  sqrt a := SInt.ofTrunc (sqrtTrunc a.val)
  divSize a n :=
    if n = 0 then .error (.ub .divisionByZero)
    else .ok (SInt.wrap ((a.val % (sizeMod : Int)) / (n : Int)))

/-! ## Floating point -/

/-- `float` and `double` elements: no operation stops. `T / size_t` converts the divisor to `T`
first (usual arithmetic conversions). -/
instance floatScalar (F : Fmt) : CScalar (Fl F) where
  add a b := .ok (a.add b)
  sub a b := .ok (a.sub b)
  mul a b := .ok (a.mul b)
  div a b := .ok (a.div b)
  neg a := .ok a.neg
  ofInt k := Fl.ofInt k
  eq a b := a.eq b
  lt a b := a.lt b
  abs a := .ok a.abs
  sqrt a := .ok a.sqrt
  divSize a n := .ok (a.div (Fl.ofInt n))

/-! ## Exact arithmetic -/

/-- Exact rational arithmetic. Division by zero and the square root of a number that is not the
square of a rational have no value. -/
instance ratScalar : CScalar ℚ where
  add a b := .ok (a + b)
  sub a b := .ok (a - b)
  mul a b := .ok (a * b)
  div a b := if b = 0 then .error (.ub .divisionByZero) else .ok (a / b)
  neg a := .ok (-a)
  ofInt k := (k : ℚ)
  eq a b := decide (a = b)
  lt a b := decide (a < b)
  abs a := .ok |a|
  sqrt a := if 0 ≤ a ∧ Rat.sqrt a * Rat.sqrt a = a then .ok (Rat.sqrt a) else .error (.ub .domain)
  divSize a n := if n = 0 then .error (.ub .divisionByZero) else .ok (a / n)

open Classical in
/-- Exact real arithmetic. -/
noncomputable instance realScalar : CScalar ℝ where
  add a b := .ok (a + b)
  sub a b := .ok (a - b)
  mul a b := .ok (a * b)
  div a b := if b = 0 then .error (.ub .divisionByZero) else .ok (a / b)
  neg a := .ok (-a)
  ofInt k := (k : ℝ)
  eq a b := decide (a = b)
  lt a b := decide (a < b)
  abs a := .ok |a|
  sqrt a := if 0 ≤ a then .ok (Real.sqrt a) else .error (.ub .domain)
  divSize a n := if n = 0 then .error (.ub .divisionByZero) else .ok (a / n)

end MatrixLibs
