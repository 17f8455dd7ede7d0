import Verif.Model.Scalar
import Mathlib.Algebra.Group.Even

/-!
# What IEEE 754 demands of an operation: the exact result, rounded to nearest, ties to even
-/

namespace MatrixLibs

/-- `N` units fit into `p` significant bits (the exponent is not bounded above). -/
def Fmt.Grid (F : Fmt) (N : Nat) : Prop := 2 ^ F.ulpExp N ∣ N

/-- Significand of a number of the grid. -/
def Fmt.significand (F : Fmt) (N : Nat) : Nat := N / 2 ^ F.ulpExp N

/-- `N` is the number of the grid nearest to the magnitude `x`; if two are nearest, it is the one
with the even significand. -/
structure Nearest (F : Fmt) (x : ℝ) (N : Nat) : Prop where
  grid : F.Grid N
  nearest : ∀ M, F.Grid M → |(N : ℝ) - x| ≤ |(M : ℝ) - x|
  even : ∀ M, F.Grid M → |(M : ℝ) - x| = |(N : ℝ) - x| → M ≠ N → Even (F.significand N)

namespace Fl
variable {F : Fmt}

/-- Neither NaN nor infinite. -/
def Finite : Fl F → Prop
  | .fin .. => True
  | _ => False

instance (a : Fl F) : Decidable a.Finite := by cases a <;> unfold Finite <;> infer_instance

/-- The real value of a finite number (0 for the others). -/
noncomputable def val : Fl F → ℝ
  | .fin s N _ => (signed s N : ℝ) / F.unit
  | _ => 0

/-- `a` is the real number `x`, rounded to nearest with ties to even: the nearest number with
unbounded exponent, or an infinity if that is not below `2^(emax+1)`. The sign is that of `x` (zero
results: not specified here). -/
def Rounded (x : ℝ) (a : Fl F) : Prop :=
  ∃ N, Nearest F (|x| * F.unit) N ∧
    ((N < F.bound ∧ ∃ s h, a = .fin s N h ∧ (x ≠ 0 → (s = true ↔ x < 0))) ∨
     (F.bound ≤ N ∧ ∃ s, a = .inf s ∧ (s = true ↔ x < 0)))

/-- Unit roundoff `2^-p`. -/
noncomputable def _root_.MatrixLibs.Fmt.u (F : Fmt) : ℝ := 1 / 2 ^ F.p

/-- Half the smallest positive number: the largest error of a result in the subnormal range. -/
noncomputable def _root_.MatrixLibs.Fmt.eta (F : Fmt) : ℝ := 1 / (2 * F.unit)

/-- The largest finite number, `(2 - 2^(1-p)) * 2^emax`. -/
noncomputable def _root_.MatrixLibs.Fmt.maxFinite (F : Fmt) : ℝ :=
  (2 ^ F.p - 1) * 2 ^ (F.emax + 1 - F.p)

end Fl

end MatrixLibs
