import Verif.Model.Scalar

/-!
# Rounding modes

A caller can change the rounding mode of floating point operations with `std::fesetround` (`<cfenv>`) before a call; the
library does not touch it, so the whole call runs in that mode. Operations, square roots and the conversion of
`i*j` (`matrix_mean.hpp:42`, `matrix_var.hpp:43`) are rounded in the mode; the constants 0, 1, 2 are numbers of every format.
Assumed: the compiler does not evaluate operations in another mode ahead of time (`-frounding-math`).
-/

namespace MatrixLibs

/-- `FE_TONEAREST`, `FE_DOWNWARD`, `FE_UPWARD`, `FE_TOWARDZERO`. -/
inductive RMode where
  | nearest | down | up | zero
  deriving DecidableEq

/-- What becomes of the magnitude. -/
inductive How where
  | near | trunc | away
  deriving DecidableEq

/-- Rounding of the magnitude of a positive or negative (`neg`) result. -/
def RMode.how : RMode → Bool → How
  | .nearest, _ => .near
  | .zero, _ => .trunc
  | .down, neg => if neg then .away else .trunc
  | .up, neg => if neg then .trunc else .away

/-- Number of units of the largest finite number. -/
def Fmt.top (F : Fmt) : Nat := (2 ^ F.p - 1) * 2 ^ (2 * F.emax - 1)

namespace Fl
variable {F : Fmt}

/-- Rounding of a real magnitude `x`: `fl` is the integer part of `x`, `half m k` compares `x` with `(m + 1/2) * 2^k`,
`isInt N` says whether `x = N`. -/
def roundMagBy (h : How) (F : Fmt) (fl : Nat) (half : Nat → Nat → Ordering) (isInt : Nat → Bool) : Nat :=
  let k := F.ulpExp fl
  let m := fl / 2 ^ k
  match h with
  | .near => roundMag F fl half
  | .trunc => m * 2 ^ k
  | .away => if isInt (m * 2 ^ k) then m * 2 ^ k else (m + 1) * 2 ^ k

/-- Rounding of the quotient `a / b`, in units. -/
def roundQuotBy (h : How) (F : Fmt) (a b : Nat) : Nat :=
  roundMagBy h F (a / b) (fun m k => compare (2 * a) ((2 * m + 1) * 2 ^ k * b)) fun N => N * b == a

/-- Rounding of the square root of `a`, in units. -/
def roundSqrtBy (h : How) (F : Fmt) (a : Nat) : Nat :=
  roundMagBy h F a.sqrt (fun m k => compare (4 * a) (((2 * m + 1) * 2 ^ k) ^ 2)) fun N => N * N == a

theorem _root_.MatrixLibs.Fmt.top_rep (F : Fmt) : F.Rep F.top := by
  have hp := F.hp
  have h1 : 1 ≤ 2 ^ F.p := Nat.one_le_two_pow
  have e : F.top + 2 ^ (2 * F.emax - 1) = F.bound := by
    unfold Fmt.top Fmt.bound
    rw [Nat.sub_mul, one_mul, ← pow_add, Nat.sub_add_cancel]
    exact Nat.pow_le_pow_right (by omega) (by omega)
  have h2 : 0 < 2 ^ (2 * F.emax - 1) := by positivity
  refine ⟨by omega, ?_⟩
  refine Dvd.dvd.mul_left (pow_dvd_pow 2 ?_) _
  have hlt : F.top.log2 < F.p + (2 * F.emax - 1) := by
    have h3 : F.top ≠ 0 := by
      have : 2 ≤ 2 ^ F.p := by
        calc 2 = 2 ^ 1 := rfl
          _ ≤ 2 ^ F.p := Nat.pow_le_pow_right (by omega) (by omega)
      unfold Fmt.top
      exact (Nat.mul_pos (by omega) h2).ne'
    rw [Nat.log2_lt h3]
    show F.top < F.bound
    omega
  unfold Fmt.ulpExp
  omega

/-- Sign and rounded magnitude: if it is too big, the largest finite number or an infinity. -/
def packBy (h : How) (neg : Bool) (N : Nat) : Fl F :=
  if hN : F.Rep N then .fin neg N hN else if h = .trunc then .fin neg F.top F.top_rep else .inf neg

/-- Rounding of an integer number of units; `zneg` is the sign of an exact zero. -/
def roundIntBy (m : RMode) (zneg : Bool) (z : Int) : Fl F :=
  if z = 0 then pack zneg 0 else packBy (m.how (decide (z < 0))) (decide (z < 0)) (roundQuotBy (m.how (decide (z < 0))) F z.natAbs 1)

/-- `a + b`. An exact zero sum of opposite signs is `-0` when rounding downward, else `+0`. -/
def addBy (m : RMode) : Fl F → Fl F → Fl F
  | .nan, _ => .nan
  | _, .nan => .nan
  | .inf s, .inf t => if s = t then .inf s else .nan
  | .inf s, .fin .. => .inf s
  | .fin .., .inf t => .inf t
  | .fin s M _, .fin t N _ => roundIntBy m (if m = .down then s || t else s && t) (signed s M + signed t N)

/-- `a - b`. -/
def subBy (m : RMode) (a b : Fl F) : Fl F := addBy m a (neg b)

/-- `a * b`. -/
def mulBy (m : RMode) : Fl F → Fl F → Fl F
  | .nan, _ => .nan
  | _, .nan => .nan
  | .inf s, .inf t => .inf (s ^^ t)
  | .inf s, .fin t N _ => if N = 0 then .nan else .inf (s ^^ t)
  | .fin s M _, .inf t => if M = 0 then .nan else .inf (s ^^ t)
  | .fin s M _, .fin t N _ => packBy (m.how (s ^^ t)) (s ^^ t) (roundQuotBy (m.how (s ^^ t)) F (M * N) F.unit)

/-- `a / b`. -/
def divBy (m : RMode) : Fl F → Fl F → Fl F
  | .nan, _ => .nan
  | _, .nan => .nan
  | .inf _, .inf _ => .nan
  | .inf s, .fin t _ _ => .inf (s ^^ t)
  | .fin s _ _, .inf t => pack (s ^^ t) 0
  | .fin s M _, .fin t N _ =>
    if N = 0 then (if M = 0 then .nan else .inf (s ^^ t))
    else packBy (m.how (s ^^ t)) (s ^^ t) (roundQuotBy (m.how (s ^^ t)) F (M * F.unit) N)

/-- `sqrt(a)`. -/
def sqrtBy (m : RMode) : Fl F → Fl F
  | .nan => .nan
  | .inf s => if s then .nan else .inf false
  | .fin s N h =>
    if N = 0 then .fin s N h else if s then .nan
    else packBy (m.how false) false (roundSqrtBy (m.how false) F (N * F.unit))

/-- Conversion of an integer. -/
def ofIntBy (m : RMode) (k : Int) : Fl F := roundIntBy m false (k * F.unit)

end Fl

/-- Floating point numbers of a program that runs in a rounding mode. -/
def Moded (_ : RMode) (F : Fmt) := Fl F

instance (m : RMode) (F : Fmt) : Inhabited (Moded m F) := ⟨(Fl.ofInt 0 : Fl F)⟩

instance (m : RMode) (F : Fmt) : DecidableEq (Moded m F) := inferInstanceAs (DecidableEq (Fl F))

/-- Arithmetic in a rounding mode. -/
instance modeScalar (m : RMode) (F : Fmt) : CScalar (Moded m F) where
  add a b := .ok (Fl.addBy m a b)
  sub a b := .ok (Fl.subBy m a b)
  mul a b := .ok (Fl.mulBy m a b)
  div a b := .ok (Fl.divBy m a b)
  neg a := .ok (Fl.neg a)
  ofInt k := (Fl.ofInt k : Fl F)
  eq a b := Fl.eq a b
  lt a b := Fl.lt a b
  abs a := .ok (Fl.abs a)
  sqrt a := .ok (Fl.sqrtBy m a)
  divSize a n := .ok (Fl.divBy m a (Fl.ofIntBy m n))

end MatrixLibs
