import Verif.Proof.Count
import Mathlib.LinearAlgebra.Matrix.Notation

/-!
# C147: how many operations of the element type each function performs

`Verif.Model.Count` is the model again, with a counter for each operation of the element type that goes up by one whenever
the operation is performed. Comparisons and conversions of integers are not counted.
-/

namespace MatrixLibs

section
set_option linter.unusedSectionVars false

variable {T : Type} [Inhabited T] [CScalar T] {i j n : Nat}

/-- C147: counting changes no outcome (elementwise functions, products and statistics). -/
theorem C147_same_elementwise {m p : Nat} (handled : Option Exc) (A B : Mat T i j) (s : T) (C : Mat T n m) (D : Mat T m p)
    (E F : Mat T 2 2) (sort : List T → List T) (ex : T → Bool) :
    HasOutcome (Count.sum A B) (sum A B) ∧ HasOutcome (Count.sumScalar A s) (sumScalar A s) ∧
    HasOutcome (Count.sub A B) (sub A B) ∧ HasOutcome (Count.subScalar A s) (subScalar A s) ∧
    HasOutcome (Count.mult C D) (mult C D) ∧ HasOutcome (Count.multScalar A s) (multScalar A s) ∧
    HasOutcome (Count.div handled A s) (div handled A s) ∧ HasOutcome (Count.abs A) (abs A) ∧
    HasOutcome (Count.strassen E F) (strassen E F) ∧ HasOutcome (Count.mean A) (mean A) ∧ HasOutcome (Count.var A) (var A) ∧
    HasOutcome (Count.stddev A) (stddev A) ∧ HasOutcome (Count.median sort A) (median sort A) ∧
    HasOutcome (Count.compareLoop ex A B) (compareLoop ex A B) :=
  ⟨returns_sumFn A B, returns_sumScalar A s, returns_subFn A B, returns_subScalar A s, returns_mult C D,
    returns_multScalar A s, returns_divFn handled A s, returns_absFn A, returns_strassen E F, returns_mean A, returns_var A,
    returns_stddev A, returns_median sort A, returns_compareLoop ex A B⟩

/-- C147: counting changes no outcome (square matrices and convolution). -/
theorem C147_same (handled : Option Exc) (w : Nat) (A : Mat T n n) (p : Int) (B : Mat T i j) (K : Mat T 3 3) :
    HasOutcome (Count.det A) (det A) ∧ HasOutcome (Count.inv handled A) (inv handled A) ∧ HasOutcome (Count.lu A) (lu A) ∧
    HasOutcome (Count.chol A) (chol A) ∧ HasOutcome (Count.pow handled w A p) (pow handled w A p) ∧
    HasOutcome (Count.conv2 B K) (conv2 B K) ∧ HasOutcome (Count.conv2_full B K) (conv2_full B K) ∧
    HasOutcome (Count.conv2_valid A K) (conv2_valid A K) :=
  ⟨returns_det A, returns_inv handled A, returns_lu A, returns_chol A, returns_powFuel handled w _ A p, returns_conv2 B K,
    returns_conv2_full B K, returns_conv2_valid A K⟩

/-- C147: elementwise functions: one operation for each element. -/
theorem C147_elementwise (handled : Option Exc) (A B : Mat T i j) (s : T) (ex : T → Bool) :
    Performs (Count.sum A B) (opCount (add := i * j)) ∧ Performs (Count.sumScalar A s) (opCount (add := i * j)) ∧
    Performs (Count.sub A B) (opCount (sub := i * j)) ∧ Performs (Count.subScalar A s) (opCount (sub := i * j)) ∧
    Performs (Count.multScalar A s) (opCount (mul := i * j)) ∧ Performs (Count.div handled A s) (opCount (div := i * j)) ∧
    Performs (Count.abs A) (opCount (abs := i * j)) ∧
    PerformsAtMost (Count.compareLoop ex A B) (opCount (sub := i * j) (abs := i * j)) ∧
    (∀ k, (Count.compareLoop ex A B k).1 = .ok true →
      (Count.compareLoop ex A B k).2 = k + opCount (sub := i * j) (abs := i * j)) :=
  ⟨performs_sumFn A B, performs_sumScalar A s, performs_subFn A B, performs_subScalar A s, performs_multScalar A s,
    performs_divFn handled A s, performs_absFn A, atMost_compareLoop ex A B, compareLoop_true ex A B⟩

/-- C147: products: `n m p` multiplications and as many additions; 7 multiplications with Strassen's scheme. -/
theorem C147_product {m p : Nat} (A : Mat T n m) (B : Mat T m p) (C D : Mat T 2 2) :
    Performs (Count.mult A B) (opCount (add := n * p * m) (mul := n * p * m)) ∧
    Performs (Count.strassen C D) (opCount (add := 12) (sub := 6) (mul := 7)) :=
  ⟨performs_mult A B, performs_strassen C D⟩

/-- C147: statistics. The variance makes two passes; the median adds and divides only for an even number of elements. -/
theorem C147_statistics (sort : List T → List T) (A : Mat T i j) :
    Performs (Count.mean A) (opCount (add := i * j) (divSize := 1)) ∧
    Performs (Count.var A) (opCount (add := 2 * (i * j)) (sub := 2 * (i * j)) (mul := i * j) (divSize := 2)) ∧
    Performs (Count.stddev A)
      (opCount (add := 2 * (i * j)) (sub := 2 * (i * j)) (mul := i * j) (sqrt := 1) (divSize := 2)) ∧
    Performs (Count.median sort A) (if i * j % 2 = 0 then opCount (add := 1) (div := 1) else 0) := by
  refine ⟨performs_mean A, performs_var A, performs_stddev A, ?_⟩
  refine Performs.of_eq (performs_median sort A) ?_
  split
  · rw [show (i * j + 1) % 2 = 1 by omega]
  · rw [show (i * j + 1) % 2 = 0 by omega]
    funext o
    cases o <;> rfl

/-- C147: the determinant. Exactly up to 3x3; from 4x4 on a cubic number of operations at most, however the search for
pivots goes, and the product of the diagonal and the division by the sign at least. -/
theorem C147_det (A : Mat T n n) :
    PerformsAtMost (Count.det A) (detCost n) ∧ (1 ≤ n → n ≤ 3 → Performs (Count.det A) (detCost n)) ∧
    (4 ≤ n → PerformsAtLeast (Count.det A) (opCount (mul := n) (div := 1))) := by
  refine ⟨atMost_det A, fun h1 h3 => ?_, fun h4 => ?_⟩
  swap
  · match n, A, h4 with
    | n + 4, A, _ => exact atLeast_detN A
  match n, A, h1, h3 with
  | 1, A, _, _ => exact performs_lift _
  | 2, A, _, _ => exact performs_det2 A
  | 3, A, _, _ => exact performs_det3 A

/-- C147: the inverse. From 4x4 on at least `n^3` multiplications and `n^2` divisions if it returns. -/
theorem C147_inv (handled : Option Exc) (A : Mat T n n) :
    PerformsAtMost (Count.inv handled A) (invCost n) ∧ (n ≤ 3 → Performs (Count.inv handled A) (invCost n)) ∧
    (4 ≤ n → PerformsAtLeast (Count.inv handled A) (opCount (mul := n ^ 3 + n) (div := n ^ 2))) := by
  refine ⟨atMost_inv handled A, performs_inv_small handled A, fun h4 => ?_⟩
  match n, A, h4 with
  | n + 4, A, h4 =>
    refine (atLeast_invN handled A h4).mono (le_of_eq ?_)
    congr 1 <;> ring

/-- C147: the inverse of an `n`x`n` matrix takes at most `n^5` multiplications, and `n^5` divisions. -/
theorem C147_inv_order (handled : Option Exc) (A : Mat T n n) (k : Op → Nat) :
    (Count.inv handled A k).2 .mul ≤ k .mul + n ^ 5 ∧ (Count.inv handled A k).2 .div ≤ k .div + n ^ 5 := by
  have h := atMost_inv handled A k
  have hc : invCost n .mul ≤ n ^ 5 ∧ invCost n .div ≤ n ^ 5 := by
    match n with
    | 0 => decide +kernel
    | 1 => decide +kernel
    | 2 => decide +kernel
    | 3 => decide +kernel
    | 4 => decide +kernel
    | n + 5 =>
      have e1 : (n + 4) * (n + 5) * (n + 6) / 3 * 3 ≤ (n + 4) * (n + 5) * (n + 6) := Nat.div_mul_le_self _ _
      have e2 : (n + 3) * (n + 4) * (n + 5) / 3 * 3 ≤ (n + 3) * (n + 4) * (n + 5) := Nat.div_mul_le_self _ _
      generalize hx : (n + 4) * (n + 5) * (n + 6) / 3 = x at e1
      generalize hy : (n + 3) * (n + 4) * (n + 5) / 3 = y at e2
      have m1 : invCost (n + 5) .mul =
          x + (n + 4) + (n + 5) + (n + 5) * (n + 5) * (y + (n + 3) + (n + 4) + 1) := by
        rw [← hx, ← hy]; rfl
      have m2 : invCost (n + 5) .div = x + 1 + (n + 5) * (n + 5) * (y + 1 + 1) := by
        rw [← hx, ← hy]; rfl
      rw [m1, m2]
      constructor <;> nlinarith [Nat.mul_le_mul_left ((n + 5) * (n + 5)) e2]
  exact ⟨(h .mul).trans (Nat.add_le_add_left hc.1 _), (h .div).trans (Nat.add_le_add_left hc.2 _)⟩

/-- C147: the decompositions. -/
theorem C147_decompositions (A : Mat T n n) :
    Performs (Count.lu A) (opCount (add := (n + 1) * (n * (n - 1) / 2)) (sub := n * (n + 1))
      (mul := (n + 1) * (n * (n - 1) / 2)) (div := n * (n + 1) / 2)) ∧
    Performs (Count.chol A) (opCount (add := (n - 1) * n * (n + 1) / 3) (sub := n * (n + 1) / 2)
      (mul := (n - 1) * n * (n + 1) / 3) (div := n * (n - 1) / 2) (sqrt := n)) :=
  ⟨performs_lu A, performs_chol A⟩

/-- C147: a power takes a squaring for each binary digit of the exponent after the first and another product for each 1
among these digits, so at most `2 log₂ p` products. -/
theorem C147_pow (handled : Option Exc) (w : Nat) (A : Mat T n n) (p : Nat) :
    Performs (Count.pow handled w A (p : Int)) (powProducts p • opCount (add := n * n * n) (mul := n * n * n)) ∧
    powProducts p ≤ 2 * p.log2 :=
  ⟨performs_powFuel handled w A p _ (by rw [Int.natAbs_natCast]; omega), powProducts_le p⟩

/-- C147: a negative exponent costs the inverse and the products of the positive one; two products for -1. -/
theorem C147_pow_negative (handled : Option Exc) (w : Nat) (A : Mat T n n) (p : Int) (hp : p < 0) :
    PerformsAtMost (Count.pow handled w A p)
      (invCost n + (if p = -1 then 2 else powProducts p.natAbs) • opCount (add := n * n * n) (mul := n * n * n)) ∧
    (n ≤ 3 → Performs (Count.pow handled w A p)
      (invCost n + (if p = -1 then 2 else powProducts p.natAbs) • opCount (add := n * n * n) (mul := n * n * n))) :=
  ⟨atMost_pow_neg handled w A p hp, performs_pow_neg handled w A p hp⟩

/-- C147: convolution: 9 additions for each element of the result, and a multiplication for each pair of an element of the
kernel and an element of the matrix that meet. `conv2_valid` computes the whole convolution of the same size and discards
its border. -/
theorem C147_conv2 (A : Mat T i j) (B : Mat T n n) (K : Mat T 3 3) (hi : i ≤ 2 ^ 31) (hj : j ≤ 2 ^ 31) (hn : n ≤ 2 ^ 31) :
    Performs (Count.conv2 A K) (opCount (add := 9 * (i * j)) (mul := (3 * i - 2) * (3 * j - 2))) ∧
    Performs (Count.conv2_full A K) (opCount (add := 9 * ((i + 2) * (j + 2))) (mul := 3 * i * (3 * j))) ∧
    Performs (Count.conv2_valid B K) (opCount (add := 9 * (n * n)) (mul := (3 * n - 2) * (3 * n - 2))) :=
  ⟨performs_conv2 A K hi hj, performs_conv2_full A K hi hj, performs_conv2_valid B K hn⟩

/-! ## Examples -/

/-- C147 is not vacuous: calls that return, with their counts. -/
example : (Count.pow none 32 (!![1, 1; 1, 0] : Mat ℚ 2 2) 10 0).1 = .ok !![89, 55; 55, 34] ∧
    (Count.pow none 32 (!![1, 1; 1, 0] : Mat ℚ 2 2) 10 0).2 = opCount (add := 32) (mul := 32) := by
  refine ⟨by decide +kernel, ?_⟩
  refine (((C147_pow none 32 (!![1, 1; 1, 0] : Mat ℚ 2 2) 10).1 0).2 !![89, 55; 55, 34] (by decide +kernel)).trans ?_
  funext o
  cases o <;> decide +kernel

/-- The bound for `det` is attained: a matrix that needs a swap at each step. -/
example : (Count.det (!![0, 0, 0, 1; 1, 0, 0, 0; 0, 1, 0, 0; 0, 0, 1, 0] : Mat ℚ 4 4) 0).1 = .ok (-1) ∧
    ∀ o, (Count.det (!![0, 0, 0, 1; 1, 0, 0, 0; 0, 1, 0, 0; 0, 0, 1, 0] : Mat ℚ 4 4) 0).2 o = detCost 4 o := by
  refine ⟨by decide +kernel, fun o => ?_⟩
  cases o <;> decide +kernel

/-- Other matrices need less: a triangular matrix has no swaps, and a column of zeros ends the search. -/
example : (Count.det (!![1, 2, 3, 4; 0, 5, 6, 7; 0, 0, 8, 9; 0, 0, 0, 10] : Mat ℚ 4 4) 0).2 .mul = 24 ∧
    (Count.det (0 : Mat ℚ 4 4) 0).2 .mul = 4 ∧ detCost 4 .mul = 27 := by decide +kernel

/-- `pow(A, -1)` computes two products although the inverse alone would do. -/
example : (Count.pow none 32 (!![2, 0; 0, 4] : Mat ℚ 2 2) (-1) 0).1 = .ok !![1 / 2, 0; 0, 1 / 4] ∧
    (Count.pow none 32 (!![2, 0; 0, 4] : Mat ℚ 2 2) (-1) 0).2 .mul = 18 ∧
    (Count.inv none (!![2, 0; 0, 4] : Mat ℚ 2 2) 0).2 .mul = 2 := by decide +kernel

end

end MatrixLibs
