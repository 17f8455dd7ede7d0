import Verif.Model.Core
import Mathlib.LinearAlgebra.Matrix.Determinant.Basic

/-!
# Specifications from linear algebra
-/

namespace MatrixLibs

variable {K : Type} [Field K] {n : Nat}

/-- Leading principal minor of order `k`: determinant of the first `k` rows and columns. -/
def leadingMinor (A : Mat K n n) (k : Nat) (hk : k ≤ n) : K :=
  (A.submatrix (Fin.castLE hk) (Fin.castLE hk)).det

/-- Zeros above the diagonal, ones on it. -/
def IsUnitLower (L : Mat K n n) : Prop := (∀ i p, i < p → L i p = 0) ∧ ∀ i, L i i = 1

/-- Zeros below the diagonal, nothing zero on it. -/
def IsRegularUpper (U : Mat K n n) : Prop := (∀ p q, q < p → U p q = 0) ∧ ∀ q, U q q ≠ 0

/-- Zeros above the diagonal. -/
def IsLower (L : Mat K n n) : Prop := ∀ i p, i < p → L i p = 0

/-- Symmetric and positive definite, written out. -/
def IsPosDef [LT K] (A : Mat K n n) : Prop :=
  (∀ i j, A i j = A j i) ∧ ∀ x : Fin n → K, x ≠ 0 → 0 < ∑ i, ∑ j, x i * A i j * x j

end MatrixLibs
