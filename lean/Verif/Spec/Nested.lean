import Verif.Model.Core

/-!
# Leading blocks
-/

namespace MatrixLibs

/-- The first `k` rows and columns. -/
def leading {T : Type} {n k : Nat} (h : k ≤ n) (A : Mat T n n) : Mat T k k :=
  .of fun i j => A (i.castLE h) (j.castLE h)

end MatrixLibs
