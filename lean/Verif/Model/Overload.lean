import Mathlib.Data.List.Basic

/-!
# Overload resolution for `concatenate`, `det` and `inv`

The candidates of each set are function templates whose parameters are `Matrix<T, d, d'>` with
each `d` a template parameter or a literal. All of them deduce the same `T`, so a candidate is
described by the list of its dimension patterns. Resolution: candidates whose deduction succeeds
are viable; among several viable ones the most specialised is selected if there is one, otherwise
the call is ambiguous. `p` is at least as specialised as `q` if deduction of `q` succeeds with `p`'s
parameters taken as unique constants ([temp.deduct.partial]).
-/

namespace MatrixLibs.Overload

/-- A dimension in a function template parameter: a literal or a template parameter. -/
inductive Dim where
  | lit (n : Nat)
  | var (x : Nat)
  deriving DecidableEq, Repr

/-- Template argument deduction of a list of dimension patterns against values; `emb` embeds
literals, `s` is what has been deduced so far. -/
def deduce {V : Type} [DecidableEq V] (emb : Nat → V) :
    List Dim → List V → List (Nat × V) → Bool
  | [], [], _ => true
  | .lit n :: ps, v :: vs, s => decide (emb n = v) && deduce emb ps vs s
  | .var x :: ps, v :: vs, s =>
    match s.lookup x with
    | some u => decide (u = v) && deduce emb ps vs s
    | none => deduce emb ps vs ((x, v) :: s)
  | _, _, _ => false

/-- The candidate with patterns `p` is viable for arguments of dimensions `args`. -/
def viable (p : List Dim) (args : List Nat) : Bool := deduce id p args []

/-- `p` is at least as specialised as `q`. -/
def atLeast (p q : List Dim) : Bool := deduce Dim.lit q p []

/-- `p` is more specialised than `q`. -/
def moreSpecialised (p q : List Dim) : Bool := atLeast p q && !atLeast q p

/-- Outcome of overload resolution. -/
inductive Outcome (ι : Type) where
  | selected (f : ι)
  | ambiguous
  | noMatch
  deriving DecidableEq, Repr

/-- Overload resolution among named candidates. -/
def resolve {ι : Type} [DecidableEq ι] (cands : List (ι × List Dim)) (args : List Nat) :
    Outcome ι :=
  let vs := cands.filter fun c => viable c.2 args
  match vs.filter fun c => vs.all fun d => decide (d.1 = c.1) || moreSpecialised c.2 d.2 with
  | c :: _ => .selected c.1
  | [] => if vs.isEmpty then .noMatch else .ambiguous

/-- The three `concatenate` templates. -/
inductive Concat where
  | square | rows | cols
  deriving DecidableEq, Repr

/-- `matrix_concatenate.hpp:35-36`, `79-80`, `109-110`: dimensions of `A` then of `B`. -/
def concatCands : List (Concat × List Dim) :=
  [ (.square, [.var 0, .var 0, .var 0, .var 0]),
    (.rows,   [.var 0, .var 2, .var 1, .var 2]),
    (.cols,   [.var 0, .var 1, .var 0, .var 2]) ]

/-- The four `det` (and the four `inv`) templates. -/
inductive Square where
  | one | two | three | general
  deriving DecidableEq, Repr

/-- `matrix_det.hpp:32-33,46-47,63-64,81-82`; the same shapes in
`matrix_inv.hpp:65-66,80-81,104-105,132-133`. Whether a parameter is a reference or a value does
not matter for partial ordering. -/
def squareCands : List (Square × List Dim) :=
  [ (.one,     [.lit 1, .lit 1]),
    (.two,     [.lit 2, .lit 2]),
    (.three,   [.lit 3, .lit 3]),
    (.general, [.var 0, .var 0]) ]

end MatrixLibs.Overload
