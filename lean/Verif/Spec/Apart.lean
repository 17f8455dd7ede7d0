import Verif.Spec.Range
import Verif.Spec.Standard

/-!
# Distance of results in two floating point environments

Vocabulary of C167.
-/

namespace MatrixLibs

/-- No element is a subnormal number. -/
def NoSubnormal {F : Fmt} {r c : Nat} (A : Mat (Fl F) r c) : Prop := ∀ i j, ¬ (A i j).Subnormal

/-- A bound of what is lost when an operation reads an element: the smallest normal number if subnormal operands are read as
zero, else nothing. -/
noncomputable def FpEnv.lost (e : FpEnv) (F : Fmt) : ℝ := if e.daz then F.minNormal else 0

/-- Two calls return matrices of finite elements that differ by at most `W`. -/
def Apart {F : Fmt} {r c : Nat} (a b : Res (Mat (Fl F) r c)) (W : Mat ℝ r c) : Prop :=
  ∃ P Q, a = .ok P ∧ b = .ok Q ∧ ∀ i j, (P i j).Finite ∧ (Q i j).Finite ∧ |(P i j).val - (Q i j).val| ≤ W i j

/-- Two calls return finite numbers that differ by at most `w`. -/
def NumbersApart {F : Fmt} (a b : Res (Fl F)) (w : ℝ) : Prop :=
  ∃ x y, a = .ok x ∧ b = .ok y ∧ x.Finite ∧ y.Finite ∧ |x.val - y.val| ≤ w

/-- Error bound of a product of `m` columns, the sum of whose absolute terms is `S`. -/
noncomputable def dotError (e : FpEnv) (F : Fmt) (m : Nat) (S : ℝ) : ℝ :=
  ((1 + e.u F) ^ m - 1) * S + m * (1 + e.u F) ^ (m - 1) * e.eta F

/-- Absolute error of a sum: the smallest normal number if subnormal numbers can be lost, else nothing. -/
noncomputable def FpEnv.sumLoss (e : FpEnv) (F : Fmt) : ℝ := if e.flushes then F.minNormal else 0

/-- Error bound of a product by `strassen` of elements up to `2^u` and `2^v`. -/
noncomputable def strassenError (e : FpEnv) (F : Fmt) (u v : ℤ) : ℝ :=
  ((1 + e.u F) ^ 6 - 1) * (12 * (2 ^ u * 2 ^ v)) + (1 + e.u F) ^ 5 *
    (5 * (2 ^ u + 2 ^ v) * e.sumLoss F + 2 * e.sumLoss F ^ 2 + 4 * e.eta F)

/-- Error bound of the determinant of a 3x3 matrix. -/
noncomputable def det3Error (e : FpEnv) (F : Fmt) (A : Mat ℝ 3 3) : ℝ :=
  ((1 + e.u F) ^ 7 - 1) * Standard.perm3 A + 6 * (1 + e.u F) ^ 6 * (1 + |A 2 0| + |A 2 1| + |A 2 2|) * e.eta F

/-- Error bound of the mean of `N` elements, the mean of whose absolute values is `S`. -/
noncomputable def meanError (e : FpEnv) (F : Fmt) (N : Nat) (S : ℝ) : ℝ :=
  ((1 + e.u F) ^ (N + 2) - 1) * S + ((1 + e.u F) ^ (N + 1) + 1) * e.eta F

/-- Error bound of a power `q` of an `n` x `n` matrix with elements up to `2^t`, `n` at most `2^s`, where `S` is the element of the
power of the absolute values. -/
noncomputable def powError (e : FpEnv) (F : Fmt) (n s t q : Nat) (S : ℝ) : ℝ :=
  ((1 + e.u F) ^ (n * (q - 1)) - 1) * S +
    (1 + e.u F) ^ (n * (q - 1)) * ((1 + (n : ℝ) ^ 2 * e.eta F) ^ (q - 1) - 1) * (2 ^ s * 2 ^ t) ^ q / n

end MatrixLibs
