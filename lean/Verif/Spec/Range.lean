import Verif.Spec.Env

/-!
# Bounds of floating point elements

Vocabulary of C164.
-/

namespace MatrixLibs

/-- The largest finite number, `(2^p - 1) 2^(emax + 1 - p)`. -/
noncomputable def Fmt.largest (F : Fmt) : ℝ := (2 ^ F.p - 1) * 2 ^ ((F.emax : ℤ) + 1 - F.p)

/-- `n * 2^t` is within the range of the format: `n` has no more digits than a significand, `2^t` is not below the smallest
positive number `2^(2 - emax - p)`, and the product is not above the largest number. -/
def Fmt.Room (F : Fmt) (n : Nat) (t : ℤ) : Prop := n ≤ 2 ^ F.p ∧ 2 - (F.emax : ℤ) - F.p ≤ t ∧ (n : ℝ) * 2 ^ t ≤ F.largest

/-- A finite number of at most the given size. -/
def Fl.AtMost {F : Fmt} (x : ℝ) (a : Fl F) : Prop := a.Finite ∧ |a.val| ≤ x

/-- All elements are finite numbers of at most the given size. -/
def ElementsAtMost {F : Fmt} {r c : Nat} (x : ℝ) (A : Mat (Fl F) r c) : Prop := ∀ i j, (A i j).AtMost x

end MatrixLibs
