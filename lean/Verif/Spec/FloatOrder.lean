import Verif.Spec.Float

/-!
# The order of floating point numbers
-/

namespace MatrixLibs

namespace Fl
variable {F : Fmt}

/-- The C++ comparison `a <= b`: less or equal, false if an operand is NaN. -/
def Le (a b : Fl F) : Prop := a.lt b = true ∨ a.eq b = true

end Fl

/-- Element by element `A <= B`. -/
def MatLe {F : Fmt} {r c : Nat} (A B : Mat (Fl F) r c) : Prop := ∀ i j, Fl.Le (A i j) (B i j)

/-- All elements are finite and not negative (zeros of both signs are allowed). -/
def MatNonNeg {F : Fmt} {r c : Nat} (A : Mat (Fl F) r c) : Prop := ∀ i j, (A i j).Finite ∧ 0 ≤ (A i j).val

/-- All elements are finite. -/
def MatFinite {F : Fmt} {r c : Nat} (A : Mat (Fl F) r c) : Prop := ∀ i j, (A i j).Finite

end MatrixLibs
