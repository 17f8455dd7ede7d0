import Verif.Model.Core
import Mathlib.Data.List.OfFn

/-!
# Layout of a printed matrix
-/

namespace MatrixLibs

variable {T : Type} {i j : Nat}

/-- A printed row: every element followed by a space, then a newline. -/
def renderRow (fmt : T → List Char) (row : List T) : List Char :=
  row.flatMap (fun x => fmt x ++ [' ']) ++ ['\n']

/-- A printed matrix: its rows. -/
def render (fmt : T → List Char) (A : Mat T i j) : List Char :=
  (List.ofFn fun a => renderRow fmt (List.ofFn fun b => A a b)).flatten

/-- The elements of a matrix, row by row. -/
def elements (A : Mat T i j) : List T := (List.ofFn fun a => List.ofFn fun b => A a b).flatten

end MatrixLibs
