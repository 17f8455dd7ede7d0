import Verif.Model.Stats
import Mathlib.Order.Defs.LinearOrder

/-!
# Strict weak orderings
-/

namespace MatrixLibs

set_option linter.unusedSectionVars false

variable {T L : Type} [Inhabited T] [CScalar T] [LinearOrder L] {i j : Nat}

/-- Elements compared by a key are ordered. -/
theorem strictWeak_of_key (A : Mat T i j) (key : T → L)
    (h : ∀ a b a' b', CScalar.lt (A a b) (A a' b') = true ↔ key (A a b) < key (A a' b')) :
    StrictWeak A := by
  have hf : ∀ a b a' b', CScalar.lt (A a b) (A a' b') = false ↔ key (A a' b') ≤ key (A a b) := by
    intro a b a' b'
    rw [← Bool.not_eq_true, h, not_lt]
  intro a b
  refine ⟨(hf a b a b).mpr le_rfl, fun a' b' a'' b'' => ⟨?_, ?_⟩⟩
  · rw [h, h, h]
    exact lt_trans
  · rw [hf, hf, hf, hf, hf, hf]
    rintro ⟨h1, h2⟩ ⟨h3, h4⟩
    exact ⟨h3.trans h1, h2.trans h4⟩

theorem strictWeak_of_lt {T : Type} [Inhabited T] [CScalar T] [LinearOrder T]
    (hlt : ∀ a b : T, CScalar.lt a b = true ↔ a < b) (A : Mat T i j) : StrictWeak A :=
  strictWeak_of_key A id fun _ _ _ _ => hlt _ _

end MatrixLibs
