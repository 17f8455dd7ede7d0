import Verif.Model.Scalar

/-!
# Conversions between element types
-/

namespace MatrixLibs

/-- The call has no undefined behaviour: it returns, throws or terminates. -/
def Defined {α : Type} (x : Res α) : Prop := ∀ k, x ≠ .error (.ub k)

theorem InRange.mono {w w' : Nat} (h : w ≤ w') {k : Int} (hk : InRange w k) : InRange w' k := by
  have : (2 ^ (w - 1) : Int) ≤ 2 ^ (w' - 1) := pow_le_pow_right₀ (by norm_num) (by omega)
  exact ⟨le_trans (by omega) hk.1, lt_of_lt_of_le hk.2 this⟩

/-- The same value in a wider type, as from `int` to `long`. -/
def SInt.widen {w w' : Nat} (h : w ≤ w') (a : SInt w) : SInt w' := ⟨a.val, a.inRange.mono h⟩

/-- Conversion to the unsigned type of the same width. -/
def SInt.toUnsigned {w : Nat} (a : SInt w) : BitVec w := BitVec.ofInt w a.val

end MatrixLibs
