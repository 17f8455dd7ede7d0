import Verif.Model.Narrow
import Mathlib.Data.Int.ModEq

/-!
# Arithmetic modulo `2^w`

What a user who knows that `w`-bit integers wrap expects of an integer function: the exact integer result,
reduced modulo `2^w`. The value of a `w`-bit element is determined by its residue.
-/

namespace MatrixLibs

/-- Every element of `R` is the exact integer `f a b` modulo `2^w`. -/
def WrapsTo {t : Narrow} {r c : Nat} (R : Mat (NInt t) r c) (f : Fin r → Fin c → ℤ) : Prop :=
  ∀ a b, (R a b).val ≡ f a b [ZMOD 2 ^ t.w]

/-- The matrix of the values. -/
def ints {t : Narrow} {r c : Nat} (A : Mat (NInt t) r c) : Matrix (Fin r) (Fin c) ℤ :=
  A.map NInt.val

/-- The 8-bit types. -/
def Narrow.Is8 (t : Narrow) : Prop := t = .int8 ∨ t = .uint8

end MatrixLibs
