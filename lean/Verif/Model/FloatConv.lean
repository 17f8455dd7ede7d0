import Verif.Model.Scalar

/-!
# Conversions between floating point formats

`float` elements need not be computed with in `float`: `sqrt` without `std::` (`matrix_stddev.hpp:34`,
`matrix_cholesky.hpp:72`) can select the function of the C library, which takes and returns `double`, and an
implementation with `FLT_EVAL_METHOD` 1 evaluates operations on `float` in `double`.
-/

namespace MatrixLibs

namespace Fl
variable {F : Fmt}

/-- Conversion to another format, rounded to nearest ([conv.double]). -/
def conv (G : Fmt) : Fl F → Fl G
  | .nan => .nan
  | .inf s => .inf s
  | .fin s N _ => pack s (roundQuot G (N * G.unit) F.unit)

end Fl

/-- Elements of format `F` whose operations are carried out in format `G`, each result being converted back. Not
converted: literals, which are small integers, and the number of elements in `mean` and `var`. -/
@[reducible] def viaScalar (F G : Fmt) : CScalar (Fl F) where
  add a b := .ok (((a.conv G).add (b.conv G)).conv F)
  sub a b := .ok (((a.conv G).sub (b.conv G)).conv F)
  mul a b := .ok (((a.conv G).mul (b.conv G)).conv F)
  div a b := .ok (((a.conv G).div (b.conv G)).conv F)
  neg a := .ok ((a.conv G).neg.conv F)
  ofInt k := Fl.ofInt k
  eq a b := (a.conv G).eq (b.conv G)
  lt a b := (a.conv G).lt (b.conv G)
  abs a := .ok ((a.conv G).abs.conv F)
  sqrt a := .ok ((a.conv G).sqrt.conv F)
  divSize a n := .ok (((a.conv G).div ((Fl.ofInt n : Fl F).conv G)).conv F)

end MatrixLibs
