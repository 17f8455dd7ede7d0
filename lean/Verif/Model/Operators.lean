import Verif.Model.Overload

/-!
# Overload resolution for the operators and for `sum`, `sub`, `mult`, `div`

Their parameters are `Matrix<T, d, d'>` and `T` itself, so unlike in `Verif.Model.Overload` the element types
take part in the deduction. `Matrix<T, i, j>` is `std::array<std::array<T, j>, i>`
(`matrix_type.hpp:36-37`); a parameter type that contains a template parameter accepts no implicit conversion
([temp.deduct.call]).
-/

namespace MatrixLibs.Overload

/-- Types of arguments: `std::array<T, n>` and all others, which are told apart by a number. Reference and
top-level `const` do not matter. -/
inductive Ty where
  | base (t : Nat)
  | arr (T : Ty) (n : Nat)
  deriving DecidableEq, Repr

/-- `mlib::Matrix<T, r, c>`, `matrix_type.hpp:36-37`. -/
abbrev Ty.mat (T : Ty) (r c : Nat) : Ty := .arr (.arr T c) r

/-- Types of function template parameters. -/
inductive Pat where
  | var (x : Nat)
  | arr (p : Pat) (d : Dim)
  deriving DecidableEq, Repr

/-- `const Matrix<T, r, c>&` as a parameter. -/
abbrev Pat.mat (p : Pat) (r c : Dim) : Pat := .arr (.arr p c) r

/-- What has been deduced so far. -/
structure Deduced where
  tys : List (Nat × Ty) := []
  dims : List (Nat × Nat) := []

/-- Deduction of a dimension. -/
def deduceDim (d : Dim) (n : Nat) (s : Deduced) : Option Deduced :=
  match d with
  | .lit k => if k = n then some s else none
  | .var x =>
    match s.dims.lookup x with
    | some k => if k = n then some s else none
    | none => some { s with dims := (x, n) :: s.dims }

/-- Deduction of one parameter from the type of its argument. -/
def deduceTy : Pat → Ty → Deduced → Option Deduced
  | .var x, t, s =>
    match s.tys.lookup x with
    | some u => if u = t then some s else none
    | none => some { s with tys := (x, t) :: s.tys }
  | .arr p d, .arr t n, s => (deduceDim d n s).bind (deduceTy p t)
  | .arr _ _, .base _, _ => none

/-- Deduction of all parameters. -/
def deduceAll : List Pat → List Ty → Deduced → Option Deduced
  | [], [], s => some s
  | p :: ps, t :: ts, s => (deduceTy p t s).bind (deduceAll ps ts)
  | _, _, _ => none

/-- Deduction succeeds for the candidate with parameters `ps`. -/
def viableTy (ps : List Pat) (args : List Ty) : Bool := (deduceAll ps args {}).isSome

/-- Overload resolution. Simplification: several viable candidates are reported as ambiguous without asking which
is the most specialised (C102 proves that there never are several). -/
def resolveTy {ι : Type} (cands : List (ι × List Pat)) (args : List Ty) : Outcome ι :=
  match cands.filter fun c => viableTy c.2 args with
  | [] => .noMatch
  | [c] => .selected c.1
  | _ => .ambiguous

/-- The forms of a binary operator. -/
inductive Form where
  | matMat | matScalar | scalarMat
  deriving DecidableEq, Repr

/-- `operator+`: `matrix_sum.hpp:80-81`, `95-96`, `110-111`. -/
def addCands : List (Form × List Pat) :=
  [ (.matMat,    [.mat (.var 0) (.var 0) (.var 1), .mat (.var 0) (.var 0) (.var 1)]),
    (.matScalar, [.mat (.var 0) (.var 0) (.var 1), .var 0]),
    (.scalarMat, [.var 0, .mat (.var 0) (.var 0) (.var 1)]) ]

/-- `operator-`: `matrix_sub.hpp:80-81`, `95-96`; `sum` and `sub`: `matrix_sum.hpp:32-33,56-57`,
`matrix_sub.hpp:32-33,56-57`. -/
def subCands : List (Form × List Pat) :=
  [ (.matMat,    [.mat (.var 0) (.var 0) (.var 1), .mat (.var 0) (.var 0) (.var 1)]),
    (.matScalar, [.mat (.var 0) (.var 0) (.var 1), .var 0]) ]

/-- `operator*`: `matrix_mult.hpp:83-84`, `98-99`, `113-114`. -/
def mulCands : List (Form × List Pat) :=
  [ (.matMat,    [.mat (.var 0) (.var 0) (.var 1), .mat (.var 0) (.var 1) (.var 2)]),
    (.matScalar, [.mat (.var 0) (.var 0) (.var 1), .var 0]),
    (.scalarMat, [.var 0, .mat (.var 0) (.var 0) (.var 1)]) ]

/-- `mult`: `matrix_mult.hpp:32-33`, `59-60`. -/
def multCands : List (Form × List Pat) :=
  [ (.matMat,    [.mat (.var 0) (.var 0) (.var 1), .mat (.var 0) (.var 1) (.var 2)]),
    (.matScalar, [.mat (.var 0) (.var 0) (.var 1), .var 0]) ]

/-- `operator/` and `div`: `matrix_div.hpp:59-60`, `32-33`. -/
def divCands : List (Form × List Pat) :=
  [ (.matScalar, [.mat (.var 0) (.var 0) (.var 1), .var 0]) ]

end MatrixLibs.Overload
