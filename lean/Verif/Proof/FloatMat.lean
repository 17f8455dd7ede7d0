import Verif.Proof.FloatOps
import Verif.Proof.Arith
import Verif.Spec.FloatSafety
import Mathlib.Algebra.BigOperators.Fin

/-!
# Floating point matrices: every function as a total function
-/

namespace MatrixLibs

set_option linter.unusedSectionVars false

variable {F : Fmt}

instance (E : Stop → Prop) : OpsSafe (Fl F) E where
  add _ _ := trivial
  sub _ _ := trivial
  mul _ _ := trivial
  div _ _ := trivial
  neg _ := trivial
  abs _ := trivial
  sqrt _ := trivial
  divSize _ _ := trivial

/-- An exception or `std::terminate`. -/
def ThrowStop (e : Stop) : Prop := (∃ x, e = .throws x) ∨ e = .terminates

instance : ThrowsIn ThrowStop where
  throws x := .inl ⟨x, rfl⟩
  terminates := .inr rfl

theorem Safe.returns {α : Type} {x : Res α} (h : Safe (fun _ => False) x) : Returns x := by
  cases x with
  | ok a => exact ⟨a, rfl⟩
  | error e => exact h.elim

theorem Safe.returnsOrThrows {α : Type} {x : Res α} (h : Safe ThrowStop x) : ReturnsOrThrows x := by
  cases x with
  | ok a => exact .inl ⟨a, rfl⟩
  | error e =>
    rcases h with ⟨x, rfl⟩ | rfl
    · exact .inr (.inl ⟨x, rfl⟩)
    · exact .inr (.inr rfl)

namespace Fl

/-- The terms of a dot product. -/
def terms {n m p : Nat} (A : Mat (Fl F) n m) (B : Mat (Fl F) m p) (a : Fin n) (b : Fin p) :
    List (Fl F) := (List.finRange m).map fun k => (A a k).mul (B k b)

theorem dotFrom_eq {n m p : Nat} (A : Mat (Fl F) n m) (B : Mat (Fl F) m p) (a : Fin n)
    (b : Fin p) : dotFrom A B (CScalar.ofInt 0) a b = .ok (fsum (terms A B a b)) := by
  unfold dotFrom
  rw [forUp_foldlM]
  unfold fsum terms
  rw [List.foldl_map]
  refine foldlM_ok _ _ _ (fun (s : Fl F) k => s.add ((A a k).mul (B k b))) ?_
  intro s k
  rw [rd_fin, rd_fin]
  rfl

theorem mult_eq {n m p : Nat} (A : Mat (Fl F) n m) (B : Mat (Fl F) m p) :
    mult A B = .ok (.of fun a b => fsum (terms A B a b)) :=
  (mult_elementwise A B).eq_ok fun a b => dotFrom_eq A B a b

theorem sum_eq {r c : Nat} (A B : Mat (Fl F) r c) :
    sum A B = .ok (.of fun a b => (A a b).add (B a b)) :=
  (sum_elementwise A B).eq_ok fun _ _ => rfl

theorem sub_eq {r c : Nat} (A B : Mat (Fl F) r c) :
    MatrixLibs.sub A B = .ok (.of fun a b => (A a b).sub (B a b)) :=
  (sub_elementwise A B).eq_ok fun _ _ => rfl

theorem multScalar_eq {r c : Nat} (A : Mat (Fl F) r c) (s : Fl F) :
    multScalar A s = .ok (.of fun a b => (A a b).mul s) :=
  (multScalar_elementwise A s).eq_ok fun _ _ => rfl

theorem sumScalar_eq {r c : Nat} (A : Mat (Fl F) r c) (s : Fl F) :
    sumScalar A s = .ok (.of fun a b => (A a b).add s) :=
  (sumScalar_elementwise A s).eq_ok fun _ _ => rfl

theorem subScalar_eq {r c : Nat} (A : Mat (Fl F) r c) (s : Fl F) :
    subScalar A s = .ok (.of fun a b => (A a b).sub s) :=
  (subScalar_elementwise A s).eq_ok fun _ _ => rfl

theorem mean_eq {r c : Nat} (A : Mat (Fl F) r c) :
    mean A = .ok ((fsum (rowMajor A)).div (ofInt (r * c : Nat))) := by
  unfold mean
  rw [forElems A (CScalar.ofInt 0) fun s x => CScalar.add s x]
  rw [foldlM_ok (rowMajor A) (CScalar.ofInt 0) (fun s x => CScalar.add s x) Fl.add (fun _ _ => rfl)]
  rfl

/-- One step of the sum of `var`. -/
def devStep (m s x : Fl F) : Res (Fl F) := .ok (s.add ((x.sub m).mul (x.sub m)))

theorem var_eq {r c : Nat} (A : Mat (Fl F) r c) :
    ∃ m, mean A = .ok m ∧ var A = .ok ((fsum ((rowMajor A).map fun x =>
      (x.sub m).mul (x.sub m))).div (ofInt (r * c : Nat))) := by
  refine ⟨_, mean_eq A, ?_⟩
  unfold var
  rw [mean_eq, ok_bind]
  generalize (fsum (rowMajor A)).div _ = m
  have : (fun (it : Nat) (result : Fl F) => forUp 0 c result fun jt result => (do
      let d ← CScalar.sub (← rd A it jt) m
      let e ← CScalar.sub (← rd A it jt) m
      CScalar.add result (← CScalar.mul d e))) =
      fun it result => forUp 0 c result fun jt result => (do
        devStep m result (← rd A it jt)) := by
    funext it s
    congr 1
    funext jt s
    cases rd A it jt with
    | error e => rfl
    | ok v => rfl
  rw [this, forElems, foldlM_ok (rowMajor A) (CScalar.ofInt 0) (devStep m)
    (fun s x => Fl.add s ((x.sub m).mul (x.sub m))) (fun _ _ => rfl), fsum, List.foldl_map]
  rfl

/-! ## Sums over an index -/

theorem sum_finRange {M : Type} [AddCommMonoid M] {m : Nat} (f : Fin m → M) :
    ((List.finRange m).map f).sum = ∑ k, f k := by
  rw [← List.ofFn_eq_map, List.sum_ofFn]

end Fl

end MatrixLibs
