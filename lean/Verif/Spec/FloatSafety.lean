import Verif.Model.Core

/-!
# Outcomes of a call
-/

namespace MatrixLibs

/-- The call returns normally. -/
def Returns {α : Type} (x : Res α) : Prop := ∃ a, x = .ok a

/-- The call returns, throws an exception or calls `std::terminate`: no undefined behaviour, no
endless loop. -/
def ReturnsOrThrows {α : Type} (x : Res α) : Prop :=
  (∃ a, x = .ok a) ∨ (∃ e, x = .error (.throws e)) ∨ x = .error .terminates

end MatrixLibs
