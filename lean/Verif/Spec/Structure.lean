import Verif.Model.Arith
import Verif.Model.Narrow

/-!
# The elementwise functions of the library, as one family
-/

namespace MatrixLibs

/-- `A + s`, `A - s`, `A * s`, `A / s` and `abs(A)`. -/
inductive Elem1 (T : Type) where
  | addS (s : T)
  | subS (s : T)
  | mulS (s : T)
  | divS (handled : Option Exc) (s : T)
  | abs

/-- `A + B` and `A - B`. -/
inductive Elem2 where
  | add
  | sub

variable {T : Type} [Inhabited T] [CScalar T] {r c : Nat}

/-- The call. -/
def Elem1.run (op : Elem1 T) (A : Mat T r c) : Res (Mat T r c) :=
  match op with
  | .addS s => opAddScalar A s
  | .subS s => opSubScalar A s
  | .mulS s => opMulScalar A s
  | .divS handled s => opDiv handled A s
  | .abs => MatrixLibs.abs A

/-- The call. -/
def Elem2.run (op : Elem2) (A B : Mat T r c) : Res (Mat T r c) :=
  match op with
  | .add => opAdd A B
  | .sub => opSub A B

section narrow
variable {T P : Type} [Inhabited T] [CScalar P] [Promo T P] {r c : Nat}

/-- The call, for elements that are promoted. -/
def Elem1.runP (op : Elem1 T) (A : Mat T r c) : Res (Mat T r c) :=
  match op with
  | .addS s => Promoted.sumScalar A s
  | .subS s => Promoted.subScalar A s
  | .mulS s => Promoted.multScalar A s
  | .divS handled s => Promoted.div handled A s
  | .abs => Promoted.abs A

/-- The call, for elements that are promoted. -/
def Elem2.runP (op : Elem2) (A B : Mat T r c) : Res (Mat T r c) :=
  match op with
  | .add => Promoted.sum A B
  | .sub => Promoted.sub A B

end narrow

end MatrixLibs
