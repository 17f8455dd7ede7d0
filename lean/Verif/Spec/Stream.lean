import Verif.Model.Stream
import Verif.Spec.Print

/-!
# What `print` does step by step, and what it writes to a stream with a width
-/

namespace MatrixLibs

variable {T : Type} {i j : Nat}

/-- A call made by `print`. -/
inductive Call (T : Type) where
  | num (x : T)
  | endl

/-- The elements of each row from left to right, then a new line. -/
def calls (A : Mat T i j) : List (Call T) :=
  (List.ofFn fun a => (List.ofFn fun b => Call.num (A a b)) ++ [Call.endl]).flatten

/-- A text made `width` characters wide, if it is shorter: with fill characters after it if it is to be on the left, before
it otherwise. -/
def padText (width : Nat) (fill : Char) (left : Bool) (l : List Char) : List Char :=
  if left then l.rightpad width fill else l.leftpad width fill

/-- The texts of the elements: only the first is padded. -/
def texts (fmt : T → List Char) (s : Ostream) (A : Mat T i j) : Mat (List Char) i j := fun a b =>
  if a.val = 0 ∧ b.val = 0 then padText s.width s.fill s.left (fmt (A a b)) else fmt (A a b)

/-- Padding makes a text as wide as asked for, if it is not that wide already. -/
example (width : Nat) (fill : Char) (left : Bool) (l : List Char) :
    (padText width fill left l).length = max width l.length := by
  cases left
  · exact List.length_leftpad
  · exact List.length_rightpad

end MatrixLibs
