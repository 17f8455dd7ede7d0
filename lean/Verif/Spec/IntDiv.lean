import Verif.Spec.Exact

/-!
# Integers that refuse inexact divisions

`ExInt w` is the signed `w`-bit integer type with one extra check: a division whose quotient is not
an integer stops. It serves to say "every division performed by this call is exact".
-/

namespace MatrixLibs

/-- A signed `w`-bit integer whose divisions must come out even. -/
structure ExInt (w : Nat) where
  toInt : SInt w
  deriving DecidableEq

/-- The stop caused by an inexact division of `ExInt`. -/
def inexact : Stop := .ub .domain

/-- Operations of `SInt w`, except that `div` stops unless the divisor divides the dividend. -/
instance exIntScalar (w : Nat) : CScalar (ExInt w) where
  add a b := (CScalar.add a.toInt b.toInt).map ExInt.mk
  sub a b := (CScalar.sub a.toInt b.toInt).map ExInt.mk
  mul a b := (CScalar.mul a.toInt b.toInt).map ExInt.mk
  div a b := if b.toInt.val ∣ a.toInt.val then (CScalar.div a.toInt b.toInt).map ExInt.mk
    else .error inexact
  neg a := (CScalar.neg a.toInt).map ExInt.mk
  ofInt k := ⟨CScalar.ofInt k⟩
  eq a b := CScalar.eq a.toInt b.toInt
  lt a b := CScalar.lt a.toInt b.toInt
  abs a := (CScalar.abs a.toInt).map ExInt.mk
  sqrt a := (CScalar.sqrt a.toInt).map ExInt.mk
  divSize a n := (CScalar.divSize a.toInt n).map ExInt.mk

end MatrixLibs
