import Verif.Model.Core

/-!
# Factorisations of Boolean matrices

The recurrences of the LU and the Cholesky factorisation, where sums are disjunctions, products are conjunctions and
differences are exclusive disjunctions.
-/

namespace MatrixLibs

variable {n : Nat}

/-- The first `k` columns of `L` (lower triangular) and `U` (upper triangular) are those of the recurrence of the
LU factorisation without pivoting. -/
structure IsBoolLu (A L U : Mat Bool n n) (k : Nat) : Prop where
  L_upper : ∀ i p, i < p → L i p = false
  U_lower : ∀ p q, q < p → U p q = false
  U_diag : ∀ q, q.val < k → U q q = true
  upper : ∀ i j, j.val < k → i ≤ j → U i j = (A i j ^^ decide (∃ p, p < i ∧ L i p = true ∧ U p j = true))
  lower : ∀ i j, j.val < k → j ≤ i → L i j = (A i j ^^ decide (∃ p, p < j ∧ L i p = true ∧ U p j = true))

/-- Cell `(a, b)`, `b ≤ a`, is that of the recurrence of the Cholesky factorisation of the lower half of `A`. -/
def BoolCholCell (A L : Mat Bool n n) (a b : Fin n) : Prop :=
  (b < a → L b b = true) ∧ L a b = (A a b ^^ decide (∃ p, p < b ∧ L a p = true ∧ L b p = true))

/-- `L` is lower triangular and all its cells are as above. -/
structure IsBoolChol (A L : Mat Bool n n) : Prop where
  upper : ∀ a b, a < b → L a b = false
  cell : ∀ a b, b ≤ a → BoolCholCell A L a b

end MatrixLibs
