import Verif.Spec.FloatElim

/-!
# Floating point numbers up to the sign of zero

Vocabulary of C127 and C140.
-/

namespace MatrixLibs

variable {F : Fmt}

/-- The same datum, where +0 and -0 are not told apart. -/
def Fl.Same (a b : Fl F) : Prop := a = b ∨ (a.IsZero ∧ b.IsZero)

/-- `b` is `a` (`s` false) or `-a` (`s` true). -/
def Fl.SameSign (s : Bool) (a b : Fl F) : Prop := (if s then a.neg else a).Same b

/-- The same of all elements of two matrices. -/
def MatSign (s : Bool) {r c : Nat} (A B : Mat (Fl F) r c) : Prop := ∀ i j, Fl.SameSign s (A i j) (B i j)

/-- The same elements, where +0 and -0 are not told apart. -/
def SameMat {r c : Nat} (A B : Mat (Fl F) r c) : Prop := ∀ i j, (A i j).Same (B i j)

/-- Both calls return, with related results, or both stop in the same way. -/
def BothDo {α β : Type} (R : α → β → Prop) (x : Res α) (y : Res β) : Prop :=
  match x, y with
  | .ok a, .ok b => R a b
  | .error e, .error e' => e = e'
  | _, _ => False

end MatrixLibs
