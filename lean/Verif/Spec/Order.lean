import Verif.Spec.Exact
import Mathlib.Order.Lattice
import Mathlib.Algebra.BigOperators.Fin

/-!
# Ordered element types, counting elements
-/

namespace MatrixLibs

/-- `<` on the element type is a linear order. -/
class OrderedScalar (T : Type) [LinearOrder T] [CScalar T] : Prop where
  lt_iff : ∀ a b : T, CScalar.lt a b = true ↔ a < b

instance (K : Type) [Field K] [LinearOrder K] [CScalar K] [ExactOrdered K] : OrderedScalar K :=
  ⟨ExactOrdered.lt_iff⟩

/-- Signed integers, ordered by value. -/
instance (w : Nat) : LinearOrder (SInt w) :=
  LinearOrder.lift' SInt.val (fun a b h => by cases a; cases b; cases h; rfl)

instance (w : Nat) : OrderedScalar (SInt w) :=
  ⟨fun a b => by
    show decide (a.val < b.val) = true ↔ a.val < b.val
    exact decide_eq_true_iff⟩

/-- Unsigned integers, ordered by value. -/
instance (w : Nat) : LinearOrder (BitVec w) :=
  LinearOrder.lift' BitVec.toNat (fun _ _ h => BitVec.eq_of_toNat_eq h)

instance (w : Nat) : OrderedScalar (BitVec w) :=
  ⟨fun a b => by
    show decide (a.toNat < b.toNat) = true ↔ a.toNat < b.toNat
    exact decide_eq_true_iff⟩

/-- The number of positions of `A` holding an element that satisfies `p`. -/
def numElems {T : Type} {r c : Nat} (A : Mat T r c) (p : T → Prop) [DecidablePred p] : Nat :=
  (Finset.univ.filter fun q : Fin r × Fin c => p (A q.1 q.2)).card

/-- The sum of the first `k` elements in row-major order. -/
def prefixSum {w i j : Nat} (A : Mat (SInt w) i j) (k : Nat) : Int :=
  ∑ q : Fin (i * j) with q.val < k, (A q.divNat q.modNat).val

/-- `x` is the `k`-th smallest element value of `A`, counting from zero: at most `k` elements are
smaller and more than `k` are not greater. -/
def IsKth {T : Type} [LinearOrder T] {r c : Nat} (A : Mat T r c) (k : Nat) (x : T) : Prop :=
  (∃ a b, A a b = x) ∧ numElems A (· < x) ≤ k ∧ k < numElems A (· ≤ x)

/-- What `std::sort` must do to a vector. -/
def Sorts {T : Type} [LinearOrder T] (sort : List T → List T) : Prop :=
  ∀ l, (sort l).Perm l ∧ (sort l).Pairwise (· ≤ ·)

/-- `B` holds the elements of `A`, each as often, in any arrangement. -/
def Rearranged {T : Type} {r c r' c' : Nat} (A : Mat T r c) (B : Mat T r' c') : Prop :=
  ∃ e : Fin r × Fin c ≃ Fin r' × Fin c', ∀ q, B (e q).1 (e q).2 = A q.1 q.2

end MatrixLibs
