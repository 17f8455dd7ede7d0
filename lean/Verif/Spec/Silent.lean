import Verif.Spec.Env

/-!
# Operations that raise no floating point exception

Vocabulary of C162. An operation on finite operands raises no exception (FE_INEXACT, FE_OVERFLOW, FE_UNDERFLOW, FE_INVALID or
FE_DIVBYZERO of `<cfenv>`) if its result is the exact one. Numbers are compared by their units (`F.unit` units are 1), so that
the exact result need not be represented.
-/

namespace MatrixLibs

namespace FpEnv
variable {F : Fmt} (e : FpEnv)

/-- The sum of the finite operands, as they are read, is exact. -/
def AddExact (a b : Fl F) : Prop :=
  match e.seen a, e.seen b, e.add a b with
  | .fin s M _, .fin t N _, .fin x K _ => Fl.signed x K = Fl.signed s M + Fl.signed t N
  | _, _, _ => False

/-- The product is exact. -/
def MulExact (a b : Fl F) : Prop :=
  match e.seen a, e.seen b, e.mul a b with
  | .fin s M _, .fin t N _, .fin x K _ => Fl.signed x K * F.unit = Fl.signed s M * Fl.signed t N
  | _, _, _ => False

/-- The quotient is exact. -/
def DivExact (a b : Fl F) : Prop :=
  match e.seen a, e.seen b, e.div a b with
  | .fin s M _, .fin t N _, .fin x K _ => Fl.signed t N ≠ 0 ∧ Fl.signed x K * Fl.signed t N = Fl.signed s M * F.unit
  | _, _, _ => False

/-- The root is exact. -/
def SqrtExact (a : Fl F) : Prop :=
  match e.seen a, e.sqrt a with
  | .fin s M _, .fin x K _ => 0 ≤ Fl.signed s M ∧ 0 ≤ Fl.signed x K ∧ Fl.signed x K * Fl.signed x K = Fl.signed s M * F.unit
  | _, _ => False

/-- The integer is converted exactly. -/
def SizeExact (F : Fmt) (n : Nat) : Prop :=
  match (Fl.ofIntBy e.mode n : Fl F) with
  | .fin x K _ => Fl.signed x K = n * F.unit
  | _ => False

instance (a b : Fl F) : Decidable (e.AddExact a b) := by unfold AddExact; split <;> infer_instance
instance (a b : Fl F) : Decidable (e.MulExact a b) := by unfold MulExact; split <;> infer_instance
instance (a b : Fl F) : Decidable (e.DivExact a b) := by unfold DivExact; split <;> infer_instance
instance (a : Fl F) : Decidable (e.SqrtExact a) := by unfold SqrtExact; split <;> infer_instance
instance (n : Nat) : Decidable (e.SizeExact F n) := by unfold SizeExact; split <;> infer_instance

/-- `a + b`, unless it raises an exception. -/
def sAdd (a b : Fl F) : Res (Fl F) := guarded (e.AddExact a b) (e.add a b)

/-- `a - b`, unless it raises an exception. -/
def sSub (a b : Fl F) : Res (Fl F) := guarded (e.AddExact a b.neg) (e.sub a b)

/-- `a * b`, unless it raises an exception. -/
def sMul (a b : Fl F) : Res (Fl F) := guarded (e.MulExact a b) (e.mul a b)

/-- `a / b`, unless it raises an exception. -/
def sDiv (a b : Fl F) : Res (Fl F) := guarded (e.DivExact a b) (e.div a b)

/-- `sqrt(a)`, unless it raises an exception. -/
def sSqrt (a : Fl F) : Res (Fl F) := guarded (e.SqrtExact a) (e.sqrt a)

/-- `a / n` for an `n` of type size_t, unless the conversion or the division raises an exception. -/
def sDivSize (a : Fl F) (n : Nat) : Res (Fl F) :=
  guarded (e.SizeExact F n ∧ e.DivExact a (Fl.ofIntBy e.mode n)) (e.div a (Fl.ofIntBy e.mode n))

end FpEnv

/-- Numbers of a program in an environment, with operations that stop when they raise an exception (or have an operand that is
not finite). A call on finite numbers of this type returns or throws if it raises none of the exceptions. -/
def Silent (_ : FpEnv) (F : Fmt) : Type := Fl F

instance (e : FpEnv) (F : Fmt) : Inhabited (Silent e F) := ⟨(Fl.ofInt 0 : Fl F)⟩

instance (e : FpEnv) (F : Fmt) : DecidableEq (Silent e F) := inferInstanceAs (DecidableEq (Fl F))

instance silentScalar (e : FpEnv) (F : Fmt) : CScalar (Silent e F) where
  add := e.sAdd (F := F)
  sub := e.sSub (F := F)
  mul := e.sMul (F := F)
  div := e.sDiv (F := F)
  neg a := .ok (Fl.neg (F := F) a)
  ofInt k := (Fl.ofInt k : Fl F)
  eq a b := Fl.eq (F := F) (e.seen (F := F) a) (e.seen (F := F) b)
  lt a b := Fl.lt (F := F) (e.seen (F := F) a) (e.seen (F := F) b)
  abs a := .ok (Fl.abs (F := F) a)
  sqrt := e.sSqrt (F := F)
  divSize := e.sDivSize (F := F)

/-- Operations read the results of others unchanged: if DAZ is set then FTZ is too, so that no result is subnormal. -/
def FpEnv.ReadsResults (e : FpEnv) : Prop := e.daz = true → e.ftz.isSome = true

instance (e : FpEnv) : Decidable e.ReadsResults := by unfold FpEnv.ReadsResults; infer_instance

/-- All elements are finite. -/
def AllFinite {F : Fmt} {r c : Nat} (A : Mat (Fl F) r c) : Prop := ∀ i j, (A i j).Finite

/-- The real numbers that operations read from the elements. -/
noncomputable def FpEnv.read {F : Fmt} (e : FpEnv) {r c : Nat} (A : Mat (Fl F) r c) : Matrix (Fin r) (Fin c) ℝ :=
  .of fun i j => e.val (A i j)

end MatrixLibs
