import Verif.Model.Core
import Mathlib.Algebra.BigOperators.Ring.Finset
import Mathlib.Algebra.BigOperators.Fin

/-!
# Correlation and convolution of a matrix with a 3x3 kernel
-/

namespace MatrixLibs

variable {R : Type} [Ring R] {i j : Nat}

/-- The element at row `a`, column `b` of `A` extended by zeros in all directions. -/
def padded (A : Mat R i j) (a b : ℤ) : R :=
  if h : (0 ≤ a ∧ a < i) ∧ 0 ≤ b ∧ b < j then
    A ⟨a.toNat, by omega⟩ ⟨b.toNat, by omega⟩
  else 0

/-- Correlation: the kernel's element `(u, v)` multiplies the element of `A` at offset
`(u - 1, v - 1)` from `(r, c)`. -/
def correlateAt (A : Mat R i j) (k : Mat R 3 3) (r c : ℤ) : R :=
  ∑ u : Fin 3, ∑ v : Fin 3, k u v * padded A (r + u.val - 1) (c + v.val - 1)

/-- Convolution as in Octave, `conv2(A, K, 'same')` at row `r`, column `c` (both counted from 0):
the element `(r + 1, c + 1)` of the full convolution, in which `A[x][y] * K[u][v]` contributes to
position `(x + u, y + v)`. -/
def octaveSameAt (A : Mat R i j) (k : Mat R 3 3) (r c : ℤ) : R :=
  ∑ u : Fin 3, ∑ v : Fin 3, k u v * padded A (r + 1 - u.val) (c + 1 - v.val)

end MatrixLibs
