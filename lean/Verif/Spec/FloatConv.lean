import Verif.Model.Float

/-!
# When one format is much wider than another
-/

namespace MatrixLibs

/-- `G` has more than twice the precision and the range of `F`: so is `double` compared with `float`. -/
structure Fmt.Wide (F G : Fmt) : Prop where
  prec : 2 * F.p + 5 ≤ G.p
  range : 2 * (F.emax + F.p) ≤ G.emax

theorem wide_float_double : binary32.Wide binary64 := ⟨by decide, by decide⟩

end MatrixLibs
