import Verif.Model.Core
import Verif.Model.Scalar

/-!
# The matrix type itself

`Matrix<T, i, j>` is `std::array<std::array<T, j>, i>` (`matrix_type.hpp:35-36`). Modelled here: brace initialisers
([dcl.init.aggr], with brace elision) and the lexicographic `<` of `std::array`. (`==` is `arrayEq` in `Model/Stats`.)
-/

namespace MatrixLibs

variable {T : Type}

/-- An element of a brace initialiser: an expression of the element type, or a list in braces. Simplified: expressions
of other types (a row, a whole matrix) and narrowing are left out. -/
inductive Init (T : Type) where
  | val (x : T)
  | list (l : List (Init T))

/-- The aggregates `Matrix` consists of: a `std::array` is a structure whose only member is an array. -/
inductive Shape where
  | elem
  | array (n : Nat) (s : Shape)
  | struct (s : Shape)

/-- Values of a shape. -/
@[reducible] def Shape.Val (T : Type) : Shape → Type
  | .elem => T
  | .array n s => Fin n → s.Val T
  | .struct s => s.Val T

/-- Value initialisation, `{}`. -/
def Shape.zero [Inhabited T] : (s : Shape) → s.Val T
  | .elem => (default : T)
  | .array _ s => fun _ => s.zero
  | .struct s => s.zero

/-- `n` members in order, each taking what it needs from the front of the list of initialisers. -/
def initMany {α β : Type} (one : List β → Res (α × List β)) : (n : Nat) → List β → Res ((Fin n → α) × List β)
  | 0, l => .ok (Fin.elim0, l)
  | n + 1, l => do
    let (x, l) ← one l
    let (v, l) ← initMany one n l
    .ok (Fin.cons x v, l)

/-- A list in braces must be used up by what it initialises. -/
def usedUp {α β : Type} (x : Res (α × List β)) : Res α := do
  match ← x with
  | (v, []) => .ok v
  | _ => .error .illFormed

/-- Initialises an object of shape `s` from the front of the list and returns the rest, [dcl.init.aggr]: nothing left:
value initialisation; a list in braces initialises the members of this object; otherwise the braces have been left out
and the members take their initialisers from the same list. -/
def initFrom [Inhabited T] : (s : Shape) → List (Init T) → Res (s.Val T × List (Init T))
  | s, [] => .ok (s.zero, [])
  | .elem, .val x :: l => .ok (x, l)
  | .elem, .list [] :: l => .ok ((default : T), l)
  | .elem, .list [.val x] :: l => .ok (x, l)
  | .elem, .list _ :: _ => .error .illFormed
  | .array n s, .list m :: l => do .ok (← usedUp (initMany (initFrom s) n m), l)
  | .array n s, .val x :: l => initMany (initFrom s) n (.val x :: l)
  | .struct s, .list m :: l => do .ok (← usedUp (initFrom s m), l)
  | .struct s, .val x :: l => initFrom s (.val x :: l)

/-- The shape of `Matrix<T, r, c>`, `matrix_type.hpp:35-36`. -/
def matrixShape (r c : Nat) : Shape := .struct (.array r (.struct (.array c .elem)))

/-- `Matrix<T, r, c> A = { l }`, for `r` and `c` of at least 1 (a `std::array` of size 0 has no array member). -/
def initMatrix [Inhabited T] (r c : Nat) (l : List (Init T)) : Res (Mat T r c) := do
  let v : Fin r → Fin c → T ← usedUp (initFrom (matrixShape r c) [.list l])
  .ok (.of v)

section
variable [CScalar T] {i j : Nat}

/-- `A[it] < B[it]` of two rows: `std::lexicographical_compare` of `std::array<T, j>`. -/
def rowLess (A B : Mat T i j) (it : Nat) : Res Bool := do
  let c ← forRet 0 j () fun jt _ => do
    let a ← rd A it jt
    let b ← rd B it jt
    if CScalar.lt a b then .ok (.ret true) else if CScalar.lt b a then .ok (.ret false) else .ok (.cont ())
  match c with
  | .ret b => .ok b
  | .cont _ => .ok false

/-- `A < B` of `std::array<std::array<T, j>, i>`: `std::lexicographical_compare` of the rows. -/
def arrayLess (A B : Mat T i j) : Res Bool := do
  let c ← forRet 0 i () fun it _ => do
    if ← rowLess A B it then .ok (.ret true) else if ← rowLess B A it then .ok (.ret false) else .ok (.cont ())
  match c with
  | .ret b => .ok b
  | .cont _ => .ok false

end

end MatrixLibs
