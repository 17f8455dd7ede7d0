import Verif.Spec.Linear
import Mathlib.Algebra.BigOperators.Group.Finset.Basic
import Mathlib.Algebra.Order.Ring.Defs
import Mathlib.Data.Matrix.Basic

/-!
# Forms of matrices

Triangular, orthogonal, stochastic and permutation matrices.
-/

namespace MatrixLibs

variable {K : Type} {n : Nat}

/-- Zeros below the diagonal. -/
def IsUpper [Zero K] (A : Mat K n n) : Prop := ∀ i j, j < i → A i j = 0

/-- Zeros above the diagonal. -/
def IsLowerTri [Zero K] (A : Mat K n n) : Prop := ∀ i j, i < j → A i j = 0

/-- Zeros on the diagonal and below. -/
def IsStrictUpper [Zero K] (A : Mat K n n) : Prop := ∀ i j, j ≤ i → A i j = 0

/-- Rows of length 1, orthogonal to each other. -/
def IsOrthogonal [CommRing K] (A : Mat K n n) : Prop := ∀ i j, ∑ k, A i k * A j k = if i = j then 1 else 0

/-- Rows of numbers that are not negative and add up to 1. -/
def IsStochastic [Ring K] [LE K] (A : Mat K n n) : Prop := (∀ i j, 0 ≤ A i j) ∧ ∀ i, ∑ j, A i j = 1

/-- Row `i` has a one in column `σ i` and zeros elsewhere. -/
def permMatrix [Zero K] [One K] (σ : Equiv.Perm (Fin n)) : Mat K n n := fun i j => if σ i = j then 1 else 0

end MatrixLibs
