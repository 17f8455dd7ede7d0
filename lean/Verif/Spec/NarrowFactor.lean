import Verif.Model.Narrow
import Mathlib.Algebra.BigOperators.Fin

/-!
# Factorisations of matrices of narrow integers

The recurrences of the LU and the Cholesky factorisation, with divisions truncated toward zero and with each sum
and each element converted to the element type (`t.conv` is the conversion of an integer).
-/

namespace MatrixLibs

variable {n : Nat}

/-- The first `k` columns of `L` (lower triangular) and `U` (upper triangular) are those of the recurrence of the
LU factorisation without pivoting, in the arithmetic of `t`. -/
structure IsWrapLu (t : Narrow) (A L U : Matrix (Fin n) (Fin n) ℤ) (k : Nat) : Prop where
  L_upper : ∀ i p, i < p → L i p = 0
  U_lower : ∀ p q, q < p → U p q = 0
  U_diag : ∀ q, q.val < k → U q q ≠ 0
  upper : ∀ i j, j.val < k → i ≤ j →
    U i j = t.conv (A i j - t.conv (∑ p, if p < i then L i p * U p j else 0))
  lower : ∀ i j, j.val < k → j ≤ i →
    L i j = t.conv ((A i j - t.conv (∑ p, if p < j then L i p * U p j else 0)).tdiv (U j j))

/-- Cell `(a, b)`, `b ≤ a`, is that of the recurrence of the Cholesky factorisation of the lower half of `A` in
the arithmetic of `t`, with square roots rounded down. -/
def WrapCholCell (t : Narrow) (A L : Matrix (Fin n) (Fin n) ℤ) (a b : Fin n) : Prop :=
  (b = a → 0 ≤ L a a ∧
    L a a ^ 2 ≤ A a a - t.conv (∑ p, if p < a then L a p * L a p else 0) ∧
    A a a - t.conv (∑ p, if p < a then L a p * L a p else 0) < (L a a + 1) ^ 2) ∧
  (b < a → L b b ≠ 0 ∧
    L a b = t.conv ((A a b - t.conv (∑ p, if p < b then L a p * L b p else 0)).tdiv (L b b)))

/-- `L` is lower triangular and all its cells are as above. -/
structure IsWrapChol (t : Narrow) (A L : Matrix (Fin n) (Fin n) ℤ) : Prop where
  upper : ∀ a b, a < b → L a b = 0
  cell : ∀ a b, b ≤ a → WrapCholCell t A L a b

end MatrixLibs
