import Verif.Model.Scalar
import Mathlib.Data.Fintype.Perm

/-!
# The standard model of floating point arithmetic

What error analysis assumes of an arithmetic, whatever its formats, rounding modes and treatment of small numbers. Operations
may stop (overflow, division by zero); if they do not, their results are near the exact ones.
-/

namespace MatrixLibs

/-- `s` is `x` up to the relative error `u` (of the exact value and of the computed one) and the absolute error `e`. -/
structure Near (u e x s : ℝ) : Prop where
  err : |s - x| ≤ u * |x| + e
  res : |s - x| ≤ u * |s| + e

/-- An arithmetic whose elements stand for real numbers. -/
class Standard (T : Type) [Inhabited T] [CScalar T] where
  /-- the number an element stands for -/
  val : T → ℝ
  /-- relative error of an operation -/
  u : ℝ
  /-- absolute error of products and quotients (underflow) -/
  e : ℝ
  /-- absolute error of sums and differences -/
  d : ℝ
  u_nonneg : 0 ≤ u
  u_lt_one : u < 1
  e_nonneg : 0 ≤ e
  d_nonneg : 0 ≤ d
  zero : val (CScalar.ofInt 0) = 0
  one : val (CScalar.ofInt 1) = 1
  neg_one : val (CScalar.ofInt (-1)) = -1
  /-- what compares equal to zero is zero -/
  eq_zero {a : T} : CScalar.eq a (CScalar.ofInt 0) = true → val a = 0
  /-- products with zero, quotients of zero and products of signs are exact -/
  mul_by_zero {a b s : T} : val a = 0 ∨ val b = 0 → CScalar.mul a b = .ok s → val s = 0
  zero_quot {a b s : T} : val a = 0 → CScalar.div a b = .ok s → val s = 0
  mul_sign {a b s : T} : |val a| = 1 → |val b| = 1 → CScalar.mul a b = .ok s → val s = val a * val b
  neg {a s : T} : CScalar.neg a = .ok s → val s = -val a
  add {a b s : T} : CScalar.add a b = .ok s → Near u d (val a + val b) (val s)
  /-- adding to the literal 0 makes no relative error -/
  zero_add {a s : T} : CScalar.add (CScalar.ofInt 0) a = .ok s → |val s - val a| ≤ d
  sub {a b s : T} : CScalar.sub a b = .ok s → Near u d (val a - val b) (val s)
  mul {a b s : T} : CScalar.mul a b = .ok s → Near u e (val a * val b) (val s)
  div {a b s : T} : CScalar.div a b = .ok s → val b ≠ 0 ∧ Near u e (val a / val b) (val s)
  div_self {a s : T} : CScalar.div a a = .ok s → val s = 1
  sqrt {a s : T} : CScalar.sqrt a = .ok s → 0 ≤ val a ∧ 0 ≤ val s ∧ |val s - Real.sqrt (val a)| ≤ u * val s
  /-- division by the number of elements -/
  divSize {a s : T} {n : Nat} : CScalar.divSize a n = .ok s → |val s - val a / n| ≤ ((1 + u) ^ 2 - 1) * |val a / n| + e

namespace Standard

/-- Absolute error of a product and a sum. -/
def h (T : Type) [Inhabited T] [CScalar T] [Standard T] : ℝ := e T + d T

/-- Six products of three elements. -/
noncomputable def perm3 (A : Mat ℝ 3 3) : ℝ :=
  |A 0 0| * |A 1 1| * |A 2 2| + |A 0 1| * |A 1 2| * |A 2 0| + |A 0 2| * |A 1 0| * |A 2 1| +
    |A 0 2| * |A 1 1| * |A 2 0| + |A 0 1| * |A 1 0| * |A 2 2| + |A 0 0| * |A 1 2| * |A 2 1|

section
variable {T : Type} [Inhabited T] [CScalar T] [Standard T] {r c : Nat}

/-- The mean of the elements. -/
noncomputable def trueMean (A : Mat T r c) : ℝ := (∑ i, ∑ j, val (A i j)) / ((r * c : Nat) : ℝ)

/-- The variance of the elements: the mean of the squared distances from the mean. -/
noncomputable def trueVar (A : Mat T r c) : ℝ := (∑ i, ∑ j, (val (A i j) - trueMean A) ^ 2) / ((r * c : Nat) : ℝ)

/-- The bound of the error of the mean. -/
noncomputable def meanBound (A : Mat T r c) : ℝ :=
  ((1 + u T) ^ (r * c + 2) - 1) * ((∑ i, ∑ j, |val (A i j)|) / ((r * c : Nat) : ℝ)) + ((1 + u T) ^ (r * c + 1) + 1) * h T

/-- The bound of the error of the variance: `N + 4` roundings, the squared error of the mean, and underflow. -/
noncomputable def varBound (A : Mat T r c) : ℝ :=
  ((1 + u T) ^ (r * c + 4) * (1 + d T) - 1) * trueVar A + (1 + u T) ^ (r * c + 4) * (1 + d T) * meanBound A ^ 2 +
    ((1 + u T) ^ (r * c + 2) * (1 + d T) * d T + (1 + u T) ^ (r * c + 1) * h T + e T)

variable {n : Nat}

/-- `s - a b / c`. -/
def elimCell (s a b c : T) : Res T := do
  let t ← CScalar.mul a b
  let q ← CScalar.div t c
  CScalar.sub s q

/-- `S'` is `S` after rows `k` and `p` are exchanged and multiples of row `k` are subtracted from the rows below, with the
operations of `T`; the column below the pivot becomes zero. -/
def Eliminated (S : Mat T n n) (k p : Fin n) (S' : Mat T n n) : Prop :=
  ∀ i j, let R := fun i => S (Equiv.swap k p i)
    if k < i then
      if k < j then elimCell (R i j) (R i k) (R k j) (R k k) = .ok (S' i j)
      else if j = k then S' i j = CScalar.ofInt 0
      else S' i j = R i j
    else S' i j = R i j

/-- `S` is the matrix after `k` steps of elimination, one per column, and `σ` is the sign of the exchanges. The pivot row is
the first whose element does not compare equal to zero. -/
inductive Steps (A : Mat T n n) : Nat → Int → Mat T n n → Prop
  | start : Steps A 0 1 A
  | step {k : Fin n} {σ : Int} {S S' : Mat T n n} (p : Fin n) (h : Steps A k.val σ S) (hp : k ≤ p)
      (nonzero : CScalar.eq (S p k) (CScalar.ofInt 0) = false)
      (first : ∀ i, k ≤ i → i < p → CScalar.eq (S i k) (CScalar.ofInt 0) = true) (hS' : Eliminated S k p S') :
      Steps A (k.val + 1) (if p = k then σ else -σ) S'

/-- During the elimination no element exceeds `G` in magnitude and no pivot is below `m`. -/
def Bounded (A : Mat T n n) (G m : ℝ) : Prop :=
  ∀ k σ S, Steps A k σ S → (∀ i j, |val (S i j)| ≤ G) ∧ ∀ i : Fin n, i.val < k → m ≤ |val (S i i)|

variable (T)

/-- How much the rounding errors of the elimination may change every element of an `n` by `n` matrix: `G` bounds the elements,
`m` the pivots from below. -/
noncomputable def elimEps (n : Nat) (G m : ℝ) : ℝ :=
  n * (u T * (1 + (2 + u T) ^ 2) * G + ((1 + u T) ^ 2 + 1 / m) * h T)

/-- The determinant with all signs positive, of the absolute values increased by `ε`: the largest absolute value that
the determinant can take if every element changes by at most `ε`. -/
def permAbs (A : Matrix (Fin n) (Fin n) ℝ) (ε : ℝ) : ℝ :=
  ∑ σ : Equiv.Perm (Fin n), ∏ i, (|A (σ i) i| + ε)

/-- The bound of the error of the determinant of an `n` by `n` matrix with bounded elimination. -/
noncomputable def detNBound (A : Mat ℝ n n) (G m : ℝ) : ℝ :=
  permAbs A (elimEps T n G m) - permAbs A 0 + ((1 + u T) ^ (n + 1) - 1) * permAbs A (elimEps T n G m) +
    (n + 1) * ((1 + u T) ^ (n + 1) * (max 1 G) ^ n * h T)

/-- The bound of the error of a 2x2 determinant. -/
noncomputable def det2Bound (A : Mat ℝ 2 2) : ℝ :=
  ((1 + u T) ^ 2 - 1) * (|A 0 0| * |A 1 1| + |A 0 1| * |A 1 0|) + 2 * (1 + u T) * h T

/-- The bound of the error of a 3x3 determinant. -/
noncomputable def det3Bound (A : Mat ℝ 3 3) : ℝ :=
  ((1 + u T) ^ 7 - 1) * perm3 A + 6 * (1 + u T) ^ 6 * (1 + |A 2 0| + |A 2 1| + |A 2 2|) * h T

/-- The bound of the error of an element of the inverse: `x` is the exact element, `D` the exact determinant; `ε` and `E` bound
the errors of the numerator and of the determinant. -/
noncomputable def quotBound (x D ε E : ℝ) : ℝ := u T * |x| + (1 + u T) * ((ε + |x| * E) / (|D| - E)) + e T

end

end Standard

end MatrixLibs
