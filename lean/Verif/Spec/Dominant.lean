import Verif.Model.Core
import Mathlib.Algebra.Order.Group.Abs
import Mathlib.Algebra.BigOperators.Group.Finset.Basic
import Mathlib.Data.Fintype.Basic

/-!
# Diagonal dominance in exact arithmetic
-/

namespace MatrixLibs

variable {K : Type} [AddCommGroup K] [LinearOrder K] {n : Nat}

/-- Every diagonal element is larger, in absolute value, than the other elements of its row
together. -/
def RowsDominate (A : Mat K n n) : Prop := ∀ i, ∑ j ∈ Finset.univ.erase i, |A i j| < |A i i|

/-- Every diagonal element is larger, in absolute value, than the other elements of its column
together. -/
def ColsDominate (A : Mat K n n) : Prop := ∀ j, ∑ i ∈ Finset.univ.erase j, |A i j| < |A j j|

end MatrixLibs
