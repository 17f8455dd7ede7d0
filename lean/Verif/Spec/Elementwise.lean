import Verif.Model.Core

/-!
# Specification of elementwise functions
-/

namespace MatrixLibs

/-- `res` is the outcome of computing `f a b` for every cell in row-major order:
it returns `R` iff every cell computation returns the element of `R`; it stops with `e` iff the
first cell computation (in row-major order) that does not return stops with `e`. -/
def ElementwiseOf {T : Type} {r c : Nat} (f : Fin r → Fin c → Res T) (res : Res (Mat T r c)) :
    Prop :=
  (∀ R, res = .ok R ↔ ∀ a b, f a b = .ok (R a b)) ∧
  (∀ e, res = .error e ↔ ∃ a b, f a b = .error e ∧
    ∀ a' b', (a' < a ∨ a' = a ∧ b' < b) → ∃ v, f a' b' = .ok v)

/-- The specification determines the outcome. -/
theorem ElementwiseOf.unique {T : Type} {r c : Nat} {f : Fin r → Fin c → Res T}
    {x y : Res (Mat T r c)} (hx : ElementwiseOf f x) (hy : ElementwiseOf f y) : x = y := by
  cases h : x with
  | ok R => exact ((hy.1 R).mpr ((hx.1 R).mp h)).symm
  | error e => exact ((hy.2 e).mpr ((hx.2 e).mp h)).symm

end MatrixLibs
