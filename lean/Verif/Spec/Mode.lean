import Verif.Model.Mode
import Verif.Spec.FloatOrder

/-!
# What IEEE 754 demands of an operation in each rounding mode
-/

namespace MatrixLibs

namespace Fl
variable {F : Fmt}

/-- `a` is a lower bound of `x`: `-inf`, or a finite number that does not exceed `x`. -/
def Below (a : Fl F) (x : ℝ) : Prop := a = .inf true ∨ (a.Finite ∧ a.val ≤ x)

/-- `a` is an upper bound of `x`: `+inf`, or a finite number that is not less than `x`. -/
def Above (a : Fl F) (x : ℝ) : Prop := a = .inf false ∨ (a.Finite ∧ x ≤ a.val)

/-- `a` is `x` rounded downward: the greatest datum that is a lower bound. -/
structure Downward (x : ℝ) (a : Fl F) : Prop where
  below : a.Below x
  greatest : ∀ b : Fl F, b.Below x → Le b a

/-- `a` is `x` rounded upward: the least datum that is an upper bound. -/
structure Upward (x : ℝ) (a : Fl F) : Prop where
  above : a.Above x
  least : ∀ b : Fl F, b.Above x → Le a b

/-- `a` is the real number `x`, rounded in the mode. (The sign of a zero result is not specified here.) -/
def RoundedBy (m : RMode) (x : ℝ) (a : Fl F) : Prop :=
  match m with
  | .nearest => Rounded x a
  | .down => Downward x a
  | .up => Upward x a
  | .zero => (0 ≤ x → Downward x a) ∧ (x ≤ 0 → Upward x a)

end Fl

/-- Every element is a lower bound. -/
def MatBelow {F : Fmt} {r c : Nat} (A : Mat (Fl F) r c) (X : Mat ℝ r c) : Prop := ∀ i j, (A i j).Below (X i j)

/-- Every element is an upper bound. -/
def MatAbove {F : Fmt} {r c : Nat} (A : Mat (Fl F) r c) (X : Mat ℝ r c) : Prop := ∀ i j, (A i j).Above (X i j)

/-- A call returns in every mode. The result is a lower bound of the exact result `X` when rounding downward, an upper
bound when rounding upward, and between these two in every mode unless it is NaN. -/
def Enclosed {F : Fmt} {r c : Nat} (call : RMode → Res (Mat (Fl F) r c)) (X : Mat ℝ r c) : Prop :=
  ∃ lo hi, call .down = .ok lo ∧ call .up = .ok hi ∧ MatBelow lo X ∧ MatAbove hi X ∧
    ∀ m, ∃ P, call m = .ok P ∧ ∀ i j, P i j = .nan ∨ (Fl.Le (lo i j) (P i j) ∧ Fl.Le (P i j) (hi i j))

end MatrixLibs
