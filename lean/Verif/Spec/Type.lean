import Verif.Model.Type

/-!
# Specifications for the matrix type
-/

namespace MatrixLibs

variable {T : Type}

/-- `x1, x2, ..., xk` as initialisers. -/
def exprs (l : List T) : List (Init T) := l.map .val

/-- `{...}, {...}, ...`: the rows in braces. -/
def bracedRows (rows : List (List T)) : List (Init T) := rows.map fun row => .list (exprs row)

/-- The places before row `i`, column `j` when the elements are listed row by row. -/
def Before {r c : Nat} (p q : Fin r × Fin c) : Prop := p.1 < q.1 ∨ p.1 = q.1 ∧ p.2 < q.2

end MatrixLibs
