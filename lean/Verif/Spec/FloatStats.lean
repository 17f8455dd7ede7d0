import Verif.Spec.Float
import Mathlib.Algebra.BigOperators.Group.Finset.Basic

/-!
# Mean and variance of the real values of a floating point matrix, and error bounds

`F.u` is the unit roundoff, `F.eta` half the smallest positive number.
-/

namespace MatrixLibs

variable {F : Fmt} {r c : Nat}

/-- The mean of the elements. -/
noncomputable def exactMean (A : Mat (Fl F) r c) : ℝ := (∑ i, ∑ j, (A i j).val) / (r * c)

/-- The variance of the elements: the mean of the squared distances from the mean. -/
noncomputable def exactVar (A : Mat (Fl F) r c) : ℝ :=
  (∑ i, ∑ j, ((A i j).val - exactMean A) ^ 2) / (r * c)

/-- The bound of the error of the mean. -/
noncomputable def meanErr (A : Mat (Fl F) r c) : ℝ :=
  ((1 + F.u) ^ (r * c) - 1) * ((∑ i, ∑ j, |(A i j).val|) / (r * c)) + F.eta

/-- The bound of the error of the variance: `N + 3` roundings, the squared error of the mean, and
underflow. -/
noncomputable def varErr (A : Mat (Fl F) r c) : ℝ :=
  ((1 + F.u) ^ (r * c + 3) - 1) * exactVar A + (1 + F.u) ^ (r * c + 3) * meanErr A ^ 2 +
    ((1 + F.u) ^ (r * c) + 1) * F.eta

end MatrixLibs
