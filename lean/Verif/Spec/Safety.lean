import Verif.Model.Core

/-!
# Memory safety
-/

namespace MatrixLibs

/-- An out-of-bounds access, the use of an indeterminate value, a standard container or algorithm used with
elements that are not ordered (it may then do either), or non-termination. -/
def MemoryFault (e : Stop) : Prop :=
  e = .ub .outOfBounds ∨ e = .ub .uninitialised ∨ e = .ub .badOrder ∨ e = .diverges

/-- However `x` ends, it does not end in a memory fault. -/
def MemSafe {α : Type} (x : Res α) : Prop := ∀ e, x = .error e → ¬ MemoryFault e

end MatrixLibs
