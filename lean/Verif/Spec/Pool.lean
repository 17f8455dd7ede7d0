import Verif.Model.Core
import Mathlib.Logic.Equiv.Sum

/-!
# Matrices holding the elements of two others
-/

namespace MatrixLibs

/-- `C` holds the elements of `A` and those of `B`, each as often, in any arrangement. -/
def Pooled {T : Type} {r c r' c' R S : Nat} (A : Mat T r c) (B : Mat T r' c') (C : Mat T R S) :
    Prop :=
  ∃ e : (Fin r × Fin c) ⊕ (Fin r' × Fin c') ≃ Fin R × Fin S,
    (∀ q, C (e (.inl q)).1 (e (.inl q)).2 = A q.1 q.2) ∧
    ∀ q, C (e (.inr q)).1 (e (.inr q)).2 = B q.1 q.2

end MatrixLibs
