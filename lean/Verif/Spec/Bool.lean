import Verif.Model.Core
import Mathlib.LinearAlgebra.Matrix.Determinant.Basic

/-!
# Boolean matrices
-/

namespace MatrixLibs

/-- The matrix of zeros and ones. -/
def bits {r c : Nat} (A : Mat Bool r c) : Matrix (Fin r) (Fin c) ℤ := A.map fun x => if x then 1 else 0

/-- There is a walk of `p` steps from `a` to `b` in the graph with an edge `x → y` where `A[x][y]` is true. -/
def Walk {n : Nat} (A : Mat Bool n n) (p : Nat) (a b : Fin n) : Prop :=
  ∃ v : Nat → Fin n, v 0 = a ∧ v p = b ∧ ∀ k < p, A (v k) (v (k + 1)) = true

/-- Exactly one element of every row and of every column is true. -/
def IsPermutation {n : Nat} (A : Mat Bool n n) : Prop := ∃ σ : Equiv.Perm (Fin n), ∀ a b, A a b = true ↔ b = σ a

end MatrixLibs
