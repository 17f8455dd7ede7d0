import Verif.Model.Env
import Verif.Spec.Scale

/-!
# Floating point environments: errors of operations, and operations without exceptions

Vocabulary of C150.
-/

namespace MatrixLibs

namespace FpEnv
variable {F : Fmt} (e : FpEnv)

/-- The number that operations read from a finite element. -/
noncomputable def val (a : Fl F) : ℝ := (e.seen a).val

/-- Can subnormal numbers be lost? -/
def flushes : Bool := e.daz || e.ftz.isSome

/-- Relative error of an operation: `2^-p` when rounding to nearest, else `2^(1-p)`. -/
noncomputable def u (F : Fmt) : ℝ := if e.mode = .nearest then F.u else 2 * F.u

/-- The smallest positive normal number. -/
noncomputable def _root_.MatrixLibs.Fmt.minNormal (F : Fmt) : ℝ := 2 ^ (F.p - 1) / F.unit

/-- Absolute error of a product, a quotient or a sum of two numbers together: the smallest normal number (twice) if subnormal
numbers can be lost, else the smallest positive number, or half of it when rounding to nearest. -/
noncomputable def eta (F : Fmt) : ℝ :=
  if e.flushes then 2 * F.minNormal else if e.mode = .nearest then F.eta else 2 * F.eta

/-- Not zero, but below the smallest normal number. -/
def _root_.MatrixLibs.Fl.Subnormal (a : Fl F) : Prop := a.Finite ∧ a.val ≠ 0 ∧ |a.val| < F.minNormal

/-- Is a product or quotient of magnitude `x` flushed, if it is to be rounded in the way `h`? With unbounded exponent the
largest number below the smallest normal one, `m`, would be `m (1 - 2^-p)`; halfway cases go to `m`, whose significand is even. -/
def Below (t : Tiny) (h : How) (F : Fmt) (x : ℝ) : Prop :=
  match t, h with
  | .before, _ => x < F.minNormal
  | .after, .trunc => x < F.minNormal
  | .after, .near => x < F.minNormal * (1 - 1 / 2 ^ (F.p + 1))
  | .after, .away => x ≤ F.minNormal * (1 - 1 / 2 ^ F.p)

/-- The sum is rounded from finite operands without overflow. -/
def AddOk (a b : Fl F) : Prop :=
  match e.seen a, e.seen b with
  | .fin s M _, .fin t N _ =>
    let z := Fl.signed s M + Fl.signed t N
    F.Rep (Fl.roundQuotBy (e.mode.how (decide (z < 0))) F z.natAbs 1)
  | _, _ => False

/-- The product is rounded from finite operands without overflow. -/
def MulOk (a b : Fl F) : Prop :=
  match e.seen a, e.seen b with
  | .fin s M _, .fin t N _ => F.Rep (Fl.roundQuotBy (e.mode.how (s ^^ t)) F (M * N) F.unit)
  | _, _ => False

/-- The quotient is rounded from finite operands, the divisor not zero, without overflow. -/
def DivOk (a b : Fl F) : Prop :=
  match e.seen a, e.seen b with
  | .fin s M _, .fin t N _ => N ≠ 0 ∧ F.Rep (Fl.roundQuotBy (e.mode.how (s ^^ t)) F (M * F.unit) N)
  | _, _ => False

/-- The root is taken of a finite number that is not negative. -/
def SqrtOk (a : Fl F) : Prop :=
  match e.seen a with
  | .fin s N _ => N = 0 ∨ s = false
  | _ => False

/-- The integer is converted without overflow. -/
def SizeOk (F : Fmt) (n : Nat) : Prop := F.Rep (Fl.roundQuotBy (e.mode.how false) F (n * F.unit) 1)

instance (a b : Fl F) : Decidable (e.AddOk a b) := by unfold AddOk; split <;> infer_instance
instance (a b : Fl F) : Decidable (e.MulOk a b) := by unfold MulOk; split <;> infer_instance
instance (a b : Fl F) : Decidable (e.DivOk a b) := by unfold DivOk; split <;> infer_instance
instance (a : Fl F) : Decidable (e.SqrtOk a) := by unfold SqrtOk; split <;> infer_instance
instance (n : Nat) : Decidable (e.SizeOk F n) := by unfold SizeOk; infer_instance

/-- `a + b`, if it raises no exception. -/
def trapAdd (a b : Fl F) : Res (Fl F) := guarded (e.AddOk a b) (e.add a b)
/-- `a - b`, if it raises no exception. -/
def trapSub (a b : Fl F) : Res (Fl F) := guarded (e.AddOk a b.neg) (e.sub a b)
/-- `a * b`, if it raises no exception. -/
def trapMul (a b : Fl F) : Res (Fl F) := guarded (e.MulOk a b) (e.mul a b)
/-- `a / b`, if it raises no exception. -/
def trapDiv (a b : Fl F) : Res (Fl F) := guarded (e.DivOk a b) (e.div a b)
/-- `sqrt(a)`, if it raises no exception. -/
def trapSqrt (a : Fl F) : Res (Fl F) := guarded (e.SqrtOk a) (e.sqrt a)
/-- `a / n`, if neither the conversion of `n` nor the division raises an exception. -/
def trapDivSize (a : Fl F) (n : Nat) : Res (Fl F) :=
  guarded (e.SizeOk F n ∧ e.DivOk a (Fl.ofIntBy e.mode n)) (e.div a (Fl.ofIntBy e.mode n))

end FpEnv

/-- Numbers of a program in an environment, with operations that stop on an overflow, an invalid operation or a division by
zero. A call on such numbers returns a value if it raises none of these exceptions. -/
def Trapped (_ : FpEnv) (F : Fmt) : Type := Fl F

instance (e : FpEnv) (F : Fmt) : Inhabited (Trapped e F) := ⟨(Fl.ofInt 0 : Fl F)⟩

instance (e : FpEnv) (F : Fmt) : DecidableEq (Trapped e F) := inferInstanceAs (DecidableEq (Fl F))

instance trappedScalar (e : FpEnv) (F : Fmt) : CScalar (Trapped e F) where
  add := e.trapAdd (F := F)
  sub := e.trapSub (F := F)
  mul := e.trapMul (F := F)
  div := e.trapDiv (F := F)
  neg a := .ok (Fl.neg (F := F) a)
  ofInt k := (Fl.ofInt k : Fl F)
  eq a b := Fl.eq (F := F) (e.seen (F := F) a) (e.seen (F := F) b)
  lt a b := Fl.lt (F := F) (e.seen (F := F) a) (e.seen (F := F) b)
  abs a := .ok (Fl.abs (F := F) a)
  sqrt := e.trapSqrt (F := F)
  divSize := e.trapDivSize (F := F)

end MatrixLibs
