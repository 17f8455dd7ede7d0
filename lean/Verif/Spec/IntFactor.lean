import Verif.Model.Core
import Mathlib.Algebra.BigOperators.Fin

/-!
# Factorisations of integer matrices, with divisions truncated toward zero
-/

namespace MatrixLibs

variable {n : Nat}

/-- `L` is unit lower triangular, `U` upper triangular, and their first `k` columns are those of
the LU factorisation of `A` without pivoting, except that the multipliers are truncated toward
zero: on and above the diagonal `L * U` is `A`, and below it
`L i j = trunc((A i j - Σ_{p < j} L i p * U p j) / U j j)`. -/
structure IsTruncLu (A L U : Matrix (Fin n) (Fin n) ℤ) (k : Nat) : Prop where
  L_upper : ∀ i p, i < p → L i p = 0
  L_diag : ∀ p, L p p = 1
  U_lower : ∀ p q, q < p → U p q = 0
  U_diag : ∀ q, q.val < k → U q q ≠ 0
  upper : ∀ i j, j.val < k → i ≤ j → ∑ p, L i p * U p j = A i j
  lower : ∀ i j, j.val < k → j < i →
    L i j = (A i j - ∑ p, if p < j then L i p * U p j else 0).tdiv (U j j)

/-- Cell `(a, b)`, `b ≤ a`, is that of the Cholesky factorisation of the lower half of `A`, except
that quotients are truncated toward zero and square roots rounded down. -/
def TruncCholCell (A L : Matrix (Fin n) (Fin n) ℤ) (a b : Fin n) : Prop :=
  (b = a → 0 ≤ L a a ∧
    L a a ^ 2 ≤ A a a - (∑ p, if p < a then L a p * L a p else 0) ∧
    A a a - (∑ p, if p < a then L a p * L a p else 0) < (L a a + 1) ^ 2) ∧
  (b < a → L b b ≠ 0 ∧
    L a b = (A a b - ∑ p, if p < b then L a p * L b p else 0).tdiv (L b b))

/-- `L` is lower triangular and all its cells are as above. -/
structure IsTruncChol (A L : Matrix (Fin n) (Fin n) ℤ) : Prop where
  upper : ∀ a b, a < b → L a b = 0
  cell : ∀ a b, b ≤ a → TruncCholCell A L a b

end MatrixLibs
