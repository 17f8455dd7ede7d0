import Verif.Spec.Stops
import Mathlib.Data.Nat.Notation
import Mathlib.Data.Nat.Digits.Defs
import Mathlib.Algebra.Order.Group.Nat
import Mathlib.Algebra.Order.Pi

/-!
# Numbers of operations
-/

namespace MatrixLibs

/-- A number of each operation of the element type. -/
def opCount (add sub mul div neg abs sqrt divSize : Nat := 0) : Op → Nat
  | .add => add
  | .sub => sub
  | .mul => mul
  | .div => div
  | .neg => neg
  | .abs => abs
  | .sqrt => sqrt
  | .divSize => divSize

/-- A call that counts operations performs these: exactly these if it returns, and not more otherwise. `x k` is the outcome
of the call and the counts afterwards, starting from the counts `k`. -/
def Performs {α : Type} (x : (Op → Nat) → Res α × (Op → Nat)) (c : Op → Nat) : Prop :=
  ∀ k, (x k).2 ≤ k + c ∧ ∀ v, (x k).1 = .ok v → (x k).2 = k + c

/-- A call that counts operations performs at most these. -/
def PerformsAtMost {α : Type} (x : (Op → Nat) → Res α × (Op → Nat)) (c : Op → Nat) : Prop :=
  ∀ k, (x k).2 ≤ k + c

/-- A call that counts operations performs at least these if it returns. -/
def PerformsAtLeast {α : Type} (x : (Op → Nat) → Res α × (Op → Nat)) (c : Op → Nat) : Prop :=
  ∀ k v, (x k).1 = .ok v → k + c ≤ (x k).2

/-- A call that counts operations has this outcome. -/
def HasOutcome {α : Type} (x : (Op → Nat) → Res α × (Op → Nat)) (y : Res α) : Prop := ∀ k, (x k).1 = y

/-- The number of matrix products in a power: a squaring for each binary digit of the exponent but the first, and a
product for each of these digits that is 1. -/
def powProducts (p : Nat) : Nat := p.log2 + ((Nat.digits 2 p).sum - 1)

/-- What the determinant of an `n`x`n` matrix costs at most. From 4x4 on: Gaussian elimination with a division, a
multiplication and a subtraction for each updated element, a multiplication for each swap of rows and the product of the
diagonal. -/
def detCost : Nat → Op → Nat
  | 1 => 0
  | 2 => opCount (sub := 1) (mul := 2)
  | 3 => opCount (add := 2) (sub := 3) (mul := 12)
  | n => opCount (sub := (n - 1) * n * (n + 1) / 3) (mul := (n - 1) * n * (n + 1) / 3 + (n - 1) + n)
    (div := (n - 1) * n * (n + 1) / 3 + 1)

/-- What the inverse of an `n`x`n` matrix costs at most. From 4x4 on: its determinant and, for each element, a minor, its
sign and a division. -/
def invCost : Nat → Op → Nat
  | 0 => 0
  | 1 => opCount (div := 1)
  | 2 => opCount (sub := 1) (mul := 2) (div := 4) (neg := 2)
  | 3 => opCount (add := 2) (sub := 12) (mul := 30) (div := 9)
  | n => detCost n + (n * n) • (detCost (n - 1) + opCount (mul := 1) (div := 1))

end MatrixLibs
