import Verif.Model.Core
import Mathlib.Tactic.Positivity

/-!
# IEEE 754 binary floating point

`float` and `double` as element types. Every finite number of a binary format is an integer
multiple of its smallest positive number, so a finite float is a sign and a natural number of such
units. All operations round to nearest, ties to even. Simplifications: all NaNs are the same value
(sign and payload are not modelled), expressions are evaluated in the element type
(`FLT_EVAL_METHOD` 0, no contraction to fused multiply-add), the rounding mode is never changed,
floating point exceptions are not trapped.
-/

namespace MatrixLibs

/-- A binary format: precision `p` and largest exponent `emax`. -/
structure Fmt where
  p : Nat
  emax : Nat
  hp : 2 ≤ p
  he : p ≤ emax

/-- `float`. -/
def binary32 : Fmt := ⟨24, 127, by omega, by omega⟩

/-- `double`. -/
def binary64 : Fmt := ⟨53, 1023, by omega, by omega⟩

namespace Fmt
variable (F : Fmt)

/-- Number of units in 1: the smallest positive number is `2^(2-emax-p)`. -/
def unit : Nat := 2 ^ (F.emax + F.p - 2)

/-- All finite numbers are below this number of units, `2^(emax+1)`. -/
def bound : Nat := 2 ^ (F.p + (2 * F.emax - 1))

/-- Exponent of the spacing of the numbers around `N` units: `p` bits are available. -/
def ulpExp (N : Nat) : Nat := N.log2 + 1 - F.p

/-- `N` units is a number of the format. -/
def Rep (N : Nat) : Prop := N < F.bound ∧ 2 ^ F.ulpExp N ∣ N

instance (N : Nat) : Decidable (F.Rep N) := by unfold Rep; infer_instance

end Fmt

/-- A datum of the format: NaN, an infinity, or a finite number (zeros have a sign). -/
inductive Fl (F : Fmt) where
  | nan
  | inf (neg : Bool)
  | fin (neg : Bool) (N : Nat) (h : F.Rep N)

namespace Fl
variable {F : Fmt}

/-- An encoding that tells all data apart. -/
def code : Fl F → Nat × Bool × Nat
  | .nan => (0, false, 0)
  | .inf s => (1, s, 0)
  | .fin s N _ => (2, s, N)

theorem code_inj {a b : Fl F} (h : a.code = b.code) : a = b := by
  cases a <;> cases b <;> simp_all [code]

instance : DecidableEq (Fl F) := fun _ _ => decidable_of_iff _ ⟨code_inj, congrArg code⟩

/-- Sign and magnitude of a result that is already rounded: an infinity if it is too big. -/
def pack (neg : Bool) (N : Nat) : Fl F := if h : F.Rep N then .fin neg N h else .inf neg

/-- Rounding to nearest, ties to even, of a real magnitude `x`: `fl` is the integer part of `x` and
`half m k` compares `x` with `(m + 1/2) * 2^k`. -/
def roundMag (F : Fmt) (fl : Nat) (half : Nat → Nat → Ordering) : Nat :=
  let k := F.ulpExp fl
  let m := fl / 2 ^ k
  match half m k with
  | .lt => m * 2 ^ k
  | .gt => (m + 1) * 2 ^ k
  | .eq => if m % 2 = 0 then m * 2 ^ k else (m + 1) * 2 ^ k

/-- Rounding of the quotient `a / b`, in units. -/
def roundQuot (F : Fmt) (a b : Nat) : Nat :=
  roundMag F (a / b) fun m k => compare (2 * a) ((2 * m + 1) * 2 ^ k * b)

/-- Rounding of the square root of `a`, in units. -/
def roundSqrt (F : Fmt) (a : Nat) : Nat :=
  roundMag F a.sqrt fun m k => compare (4 * a) (((2 * m + 1) * 2 ^ k) ^ 2)

/-- Signed number of units of a finite number. -/
def signed (neg : Bool) (N : Nat) : Int := if neg then -(N : Int) else N

/-- Rounding of an integer number of units; `zneg` is the sign of an exact zero. -/
def roundInt (zneg : Bool) (z : Int) : Fl F :=
  if z = 0 then pack zneg 0 else pack (decide (z < 0)) (roundQuot F z.natAbs 1)

/-- `-a`: flips the sign. -/
def neg : Fl F → Fl F
  | .nan => .nan
  | .inf s => .inf !s
  | .fin s N h => .fin (!s) N h

/-- `std::abs(a)`: clears the sign. -/
def abs : Fl F → Fl F
  | .nan => .nan
  | .inf _ => .inf false
  | .fin _ N h => .fin false N h

/-- `a + b`. An exact zero sum of opposite signs is `+0`. -/
def add : Fl F → Fl F → Fl F
  | .nan, _ => .nan
  | _, .nan => .nan
  | .inf s, .inf t => if s = t then .inf s else .nan
  | .inf s, .fin .. => .inf s
  | .fin .., .inf t => .inf t
  | .fin s M _, .fin t N _ => roundInt (s && t) (signed s M + signed t N)

/-- `a - b`. -/
def sub (a b : Fl F) : Fl F := add a (neg b)

/-- `a * b`. -/
def mul : Fl F → Fl F → Fl F
  | .nan, _ => .nan
  | _, .nan => .nan
  | .inf s, .inf t => .inf (s ^^ t)
  | .inf s, .fin t N _ => if N = 0 then .nan else .inf (s ^^ t)
  | .fin s M _, .inf t => if M = 0 then .nan else .inf (s ^^ t)
  | .fin s M _, .fin t N _ => pack (s ^^ t) (roundQuot F (M * N) F.unit)

/-- `a / b`. -/
def div : Fl F → Fl F → Fl F
  | .nan, _ => .nan
  | _, .nan => .nan
  | .inf _, .inf _ => .nan
  | .inf s, .fin t _ _ => .inf (s ^^ t)
  | .fin s _ _, .inf t => pack (s ^^ t) 0
  | .fin s M _, .fin t N _ =>
    if N = 0 then (if M = 0 then .nan else .inf (s ^^ t))
    else pack (s ^^ t) (roundQuot F (M * F.unit) N)

/-- `sqrt(a)`, correctly rounded. (For `float` the call may go through `double`; rounding twice
gives the same result there.) -/
def sqrt : Fl F → Fl F
  | .nan => .nan
  | .inf s => if s then .nan else .inf false
  | .fin s N h => if N = 0 then .fin s N h else if s then .nan else pack false (roundSqrt F (N * F.unit))

/-- Position in the order of the format; NaN has none. -/
def key : Fl F → Option Int
  | .nan => none
  | .inf s => some (signed s F.bound)
  | .fin s N _ => some (signed s N)

/-- `a == b`: false if an operand is NaN, `-0 == +0`. -/
def eq (a b : Fl F) : Bool :=
  match a.key, b.key with
  | some x, some y => decide (x = y)
  | _, _ => false

/-- `a < b`: false if an operand is NaN. -/
def lt (a b : Fl F) : Bool :=
  match a.key, b.key with
  | some x, some y => decide (x < y)
  | _, _ => false

/-- Conversion of an integer, rounded. -/
def ofInt (k : Int) : Fl F := roundInt false (k * F.unit)

end Fl

instance (F : Fmt) : Inhabited (Fl F) := ⟨Fl.ofInt 0⟩

/-- `sqrt` of an integer (the overload for integral arguments: the argument is converted to `double`), then
converted to an integer type, which truncates. `none` if the result is infinite or NaN, so has no integer value. -/
@[irreducible] def sqrtTrunc (k : Int) : Option Nat :=
  match (Fl.ofInt k : Fl binary64).sqrt with
  | .fin _ N _ => some (N / binary64.unit)
  | _ => none

end MatrixLibs
