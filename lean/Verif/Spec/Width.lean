import Verif.Spec.Mode

/-!
# Enclosures of known width

Vocabulary of C166.
-/

namespace MatrixLibs

/-- A call returns finite elements in every mode. Rounding downward gives `lo` and rounding upward `hi`; the exact result `X` and
the results in all modes are between them, and `lo` and `hi` differ by at most `W`. -/
def EnclosedWithin {F : Fmt} {r c : Nat} (call : RMode → Res (Mat (Fl F) r c)) (X W : Mat ℝ r c) : Prop :=
  ∃ lo hi, call .down = .ok lo ∧ call .up = .ok hi ∧
    (∀ i j, (lo i j).Finite ∧ (hi i j).Finite ∧ (lo i j).val ≤ X i j ∧ X i j ≤ (hi i j).val ∧ (hi i j).val - (lo i j).val ≤ W i j) ∧
    ∀ m, ∃ P, call m = .ok P ∧ ∀ i j, (P i j).Finite ∧ (lo i j).val ≤ (P i j).val ∧ (P i j).val ≤ (hi i j).val

/-- Distance of a number of precision `p` from the next, relative to the first: `2^(1-p)`. -/
noncomputable def Fmt.step (F : Fmt) : ℝ := 2 * F.u

/-- The smallest positive number. -/
noncomputable def Fmt.smallest (F : Fmt) : ℝ := 2 * F.eta

end MatrixLibs
