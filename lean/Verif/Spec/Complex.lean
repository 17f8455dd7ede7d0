import Verif.Model.Complex
import Verif.Spec.Exact
import Verif.Spec.Float

/-!
# Specifications for complex elements
-/

namespace MatrixLibs

/-- Exact arithmetic in a field in which every element has a square root; `sqrt` returns one that satisfies `P`. -/
class ExactRoot (K : Type) [Field K] [CScalar K] (P : K → Prop) : Prop where
  add_eq : ∀ a b : K, CScalar.add a b = .ok (a + b)
  sub_eq : ∀ a b : K, CScalar.sub a b = .ok (a - b)
  mul_eq : ∀ a b : K, CScalar.mul a b = .ok (a * b)
  ofInt_eq : ∀ k : Int, (CScalar.ofInt k : K) = (k : K)
  div_eq : ∀ a b : K, b ≠ 0 → CScalar.div a b = .ok (a / b)
  div_zero : ∀ a : K, CScalar.div a 0 = .error (.ub .divisionByZero)
  sqrt_eq : ∀ a : K, ∃ b, CScalar.sqrt a = .ok b ∧ b * b = a ∧ P b

/-- The half plane of principal square roots: positive real part, or zero real part and non-negative imaginary part. -/
def RightHalf (z : ℂ) : Prop := 0 < z.re ∨ z.re = 0 ∧ 0 ≤ z.im

/-- The complex number represented by a pair of finite floating point numbers. -/
noncomputable def Cx.val {F : Fmt} {lib : CxLib F} (a : Cx lib) : ℂ := ⟨a.re.val, a.im.val⟩

end MatrixLibs
