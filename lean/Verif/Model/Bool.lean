import Verif.Model.Narrow
import Verif.Model.Format

/-!
# `bool` elements

`Matrix<bool, i, j>` compiles with every function that compiles for `char`. A `bool` is promoted to `int` like the
narrow integers, but the conversion back does not wrap: every value other than zero becomes `true`. The functions
are those of `Verif.Model.Narrow` with this conversion.
-/

namespace MatrixLibs

/-- A `bool` in an arithmetic expression is the `int` 0 or 1; the value of an expression converts to `false` exactly
if it is zero. The square root `matrix_cholesky.hpp:72`, `matrix_stddev.hpp:34` is a `double`, and a NaN (the root of
a negative number) is not zero, so it converts to `true`. -/
instance boolPromo : Promo Bool (SInt 32) where
  load b := if b then ⟨1, by unfold InRange; norm_num⟩ else ⟨0, by unfold InRange; norm_num⟩
  store p := decide (p.val ≠ 0)
  sqrtTo p := .ok (decide (p.val ≠ 0))

namespace Promoted

/-- `compare(A, B, epsilon)`, `matrix_utils.hpp:49-63`, for `bool` elements: as for the narrow integers. -/
def compareBool {i j : Nat} (A B : Mat Bool i j) (epsilon : Fl binary32) : Res Bool :=
  compareLoop (fun d : SInt 32 => epsilon.lt (Fl.ofInt d.val)) A B

end Promoted

/-- `std::cout << b` without `std::boolalpha`, as in `matrix_print.hpp:40`. -/
def fmtBool (b : Bool) : List Char := fmtInt (if b then 1 else 0)

end MatrixLibs
