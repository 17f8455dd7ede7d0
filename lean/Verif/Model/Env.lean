import Verif.Model.Mode

/-!
# Floating point environments

Besides the rounding mode, a thread has switches for small numbers: results in the subnormal range can be flushed to zero (FTZ)
and subnormal operands can be read as zero (DAZ). On x86 they are the bits 15 and 6 of MXCSR, set at the start of every program
linked with `-ffast-math` (`crtfastmath.o`) and by `_MM_SET_FLUSH_ZERO_MODE`/`_MM_SET_DENORMALS_ZERO_MODE`; on ARM both are
FPCR.FZ. The library does not touch them, so the whole call runs in the environment of the caller. What else `-ffast-math` does
(reassociation) is not modelled here.
-/

namespace MatrixLibs

/-- When a result counts as tiny: if it is below the smallest normal number before rounding (ARM), or after rounding with
unbounded exponent (x86). -/
inductive Tiny where
  | before | after
  deriving DecidableEq

/-- Rounding mode and switches. -/
structure FpEnv where
  mode : RMode
  /-- subnormal operands are read as zero -/
  daz : Bool
  /-- tiny results are flushed to zero -/
  ftz : Option Tiny
  deriving DecidableEq

/-- The environment at the start of a program. -/
def FpEnv.default : FpEnv := ⟨.nearest, false, none⟩

namespace Fl
variable {F : Fmt}

theorem rep_nought : F.Rep 0 := ⟨by unfold Fmt.bound; positivity, dvd_zero _⟩

/-- A zero. -/
def nought (s : Bool) : Fl F := .fin s 0 rep_nought

/-- Subnormal numbers become zeros of their sign. -/
def flush : Fl F → Fl F
  | .fin s N h => if N < 2 ^ (F.p - 1) then nought s else .fin s N h
  | a => a

end Fl

namespace FpEnv
variable {F : Fmt} (e : FpEnv)

/-- How an operation reads an operand. -/
def seen (a : Fl F) : Fl F := if e.daz then a.flush else a

/-- Is the result of magnitude `a / b` (in units) flushed? -/
def tiny (F : Fmt) (h : How) (a b : Nat) : Bool :=
  match e.ftz with
  | none => false
  | some .before => decide (a < 2 ^ (F.p - 1) * b)
  | some .after => decide (Fl.roundQuotBy h F (2 * a) b < 2 ^ F.p)

/-- `a + b`. (Tiny sums are exact, so it does not matter when they are detected.) -/
def add (a b : Fl F) : Fl F :=
  let r := Fl.addBy e.mode (e.seen a) (e.seen b)
  if e.ftz.isSome then r.flush else r

/-- `a - b`. -/
def sub (a b : Fl F) : Fl F := e.add a b.neg

/-- `a * b`. -/
def mul (a b : Fl F) : Fl F :=
  match e.seen a, e.seen b with
  | .fin s M h, .fin t N h' =>
    if e.tiny F (e.mode.how (s ^^ t)) (M * N) F.unit then Fl.nought (s ^^ t) else Fl.mulBy e.mode (.fin s M h) (.fin t N h')
  | a', b' => Fl.mulBy e.mode a' b'

/-- `a / b`. -/
def div (a b : Fl F) : Fl F :=
  match e.seen a, e.seen b with
  | .fin s M h, .fin t N h' =>
    if N ≠ 0 ∧ e.tiny F (e.mode.how (s ^^ t)) (M * F.unit) N then Fl.nought (s ^^ t)
    else Fl.divBy e.mode (.fin s M h) (.fin t N h')
  | a', b' => Fl.divBy e.mode a' b'

/-- `sqrt(a)` (never tiny). -/
def sqrt (a : Fl F) : Fl F := Fl.sqrtBy e.mode (e.seen a)

end FpEnv

/-- Floating point numbers of a program that runs in an environment. -/
def InEnv (_ : FpEnv) (F : Fmt) := Fl F

instance (e : FpEnv) (F : Fmt) : Inhabited (InEnv e F) := ⟨(Fl.ofInt 0 : Fl F)⟩

instance (e : FpEnv) (F : Fmt) : DecidableEq (InEnv e F) := inferInstanceAs (DecidableEq (Fl F))

/-- Arithmetic in an environment. Change of sign and absolute value only touch the sign bit. -/
instance envScalar (e : FpEnv) (F : Fmt) : CScalar (InEnv e F) where
  add a b := .ok (e.add (F := F) a b)
  sub a b := .ok (e.sub (F := F) a b)
  mul a b := .ok (e.mul (F := F) a b)
  div a b := .ok (e.div (F := F) a b)
  neg a := .ok (Fl.neg (F := F) a)
  ofInt k := (Fl.ofInt k : Fl F)
  eq a b := Fl.eq (F := F) (e.seen (F := F) a) (e.seen (F := F) b)
  lt a b := Fl.lt (F := F) (e.seen (F := F) a) (e.seen (F := F) b)
  abs a := .ok (Fl.abs (F := F) a)
  sqrt a := .ok (e.sqrt (F := F) a)
  divSize a n := .ok (e.div (F := F) a (Fl.ofIntBy e.mode n))

end MatrixLibs
