import Verif.Model.Float
import Verif.Model.Core
import Mathlib.Logic.Equiv.Basic

/-!
# Gaussian elimination in floating point

The textbook method, with the first row whose element is not zero as the pivot row: what accuracy of a
determinant is measured by.
-/

namespace MatrixLibs

variable {F : Fmt} {n : Nat}

/-- Compares equal to zero. -/
def Fl.IsZero (a : Fl F) : Prop := a.eq (Fl.ofInt 0) = true

instance (a : Fl F) : Decidable a.IsZero := by unfold Fl.IsZero; infer_instance

/-- Exchange rows `k` and `p`, then subtract multiples of row `k` from the rows below, in floating point; the
column below the pivot becomes zero. -/
def elimStep (S : Mat (Fl F) n n) (k p : Fin n) : Mat (Fl F) n n :=
  .of fun i j =>
    let R := fun i => S (Equiv.swap k p i)
    if k < i then
      if k < j then (R i j).sub (((R i k).mul (R k j)).div (R k k))
      else if j = k then Fl.ofInt 0
      else R i j
    else R i j

/-- `S` is the matrix after `k` steps of elimination, one per column, and `σ` is the sign of the exchanges. -/
inductive ElimSteps (A : Mat (Fl F) n n) : Nat → Int → Mat (Fl F) n n → Prop
  | start : ElimSteps A 0 1 A
  | step {k : Fin n} {σ : Int} {S : Mat (Fl F) n n} (p : Fin n) (h : ElimSteps A k.val σ S) (hp : k ≤ p)
      (nonzero : ¬ (S p k).IsZero) (first : ∀ i, k ≤ i → i < p → (S i k).IsZero) :
      ElimSteps A (k.val + 1) (if p = k then σ else -σ) (elimStep S k p)

end MatrixLibs
