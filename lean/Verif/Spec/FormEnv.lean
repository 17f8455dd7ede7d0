import Verif.Spec.Env

/-!
# Products of diagonals

Vocabulary of C153.
-/

namespace MatrixLibs

/-- The product of the first `k` elements of the diagonal, each product rounded in the environment, from the left, starting with
1. -/
def FpEnv.diagProd {F : Fmt} {n : Nat} (e : FpEnv) (A : Mat (Fl F) n n) : (k : Nat) → k ≤ n → Fl F
  | 0, _ => Fl.ofInt 1
  | k + 1, h => e.mul (e.diagProd A k (by omega)) (A ⟨k, h⟩ ⟨k, h⟩)

/-- Operands are flushed if results are: the switches FTZ and DAZ are both off, both on, or only DAZ is on. -/
def FpEnv.Consistent (e : FpEnv) : Prop := e.ftz ≠ none → e.daz = true

/-- `b` is `a`, or both are read as zero. -/
def FpEnv.Same {F : Fmt} (e : FpEnv) (a b : Fl F) : Prop := b = a ∨ (a.Finite ∧ b.Finite ∧ e.val a = 0 ∧ e.val b = 0)

end MatrixLibs
