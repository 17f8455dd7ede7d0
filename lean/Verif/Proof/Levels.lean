import Verif.Proof.FloatSign
import Verif.Proof.Movement

/-!
# Two runs whose inputs and results are related differently

Functions that multiply their inputs and add up the products, for any two element types.
-/

namespace MatrixLibs

set_option linter.unusedSectionVars false

open CScalar (ofInt)

/-- How inputs (`L`) and results (`R`) of two programs are related. -/
structure Levels (T U : Type) [Inhabited T] [Inhabited U] [CScalar T] [CScalar U] where
  L : T → U → Prop
  R : T → U → Prop
  zero : R (ofInt 0) (ofInt 0)
  init : R default default
  weaken {a : T} {a' : U} : L a a' → R a a'
  add {a b : T} {a' b' : U} : R a a' → R b b' → BothDo R (CScalar.add a b) (CScalar.add a' b')
  sub {a b : T} {a' b' : U} : L a a' → L b b' → BothDo R (CScalar.sub a b) (CScalar.sub a' b')
  mul {a b : T} {a' b' : U} : L a a' → L b b' → BothDo R (CScalar.mul a b) (CScalar.mul a' b')
  isZero {a : T} {a' : U} : L a a' → CScalar.eq a (ofInt 0) = CScalar.eq a' (ofInt 0)
  div {a b : T} {a' b' : U} : L a a' → L b b' → CScalar.eq b (ofInt 0) = false →
    BothDo R (CScalar.div a b) (CScalar.div a' b')
  /-- Sizes up to which quotients by the size are related. -/
  size : Nat
  divSize {a : T} {a' : U} {n : Nat} : R a a' → n ≠ 0 → n ≤ size → BothDo R (CScalar.divSize a n) (CScalar.divSize a' n)

namespace Levels

variable {T U : Type} [Inhabited T] [Inhabited U] [CScalar T] [CScalar U] {V : Levels T U} {r c n : Nat}

/-- Elements that are related. -/
def All {r c : Nat} (R : T → U → Prop) (A : Mat T r c) (A' : Mat U r c) : Prop := ∀ i j, R (A i j) (A' i j)

variable {R : T → U → Prop}

theorem rd {A : Mat T r c} {A' : Mat U r c} (h : All R A A') (i j : Nat) : BothDo R (rd A i j) (MatrixLibs.rd A' i j) := by
  unfold MatrixLibs.rd
  split
  · exact h _ _
  · rfl

theorem wr {A : Mat T r c} {A' : Mat U r c} (h : All R A A') {i j : Nat} {a : T} {b : U} (hab : R a b) :
    BothDo (All R) (wr A i j a) (MatrixLibs.wr A' i j b) := by
  unfold MatrixLibs.wr
  split
  · intro p q
    simp only [Matrix.of_apply]
    split
    · exact hab
    · exact h p q
  · rfl

theorem initM : All V.R (valueInit r c) (valueInit r c) := fun _ _ => V.init

theorem sum {A B : Mat T r c} {A' B' : Mat U r c} (hA : All V.L A A') (hB : All V.L B B') :
    BothDo (All V.R) (sum A B) (sum A' B') := by
  unfold MatrixLibs.sum
  exact both_forUp initM fun i _ _ _ _ hS => both_forUp hS fun j _ _ _ _ hS =>
    both_bind (rd hA _ _) fun _ _ h => both_bind (rd hB _ _) fun _ _ h' =>
    both_bind (V.add (V.weaken h) (V.weaken h')) fun _ _ h => wr hS h

theorem sub' {A B : Mat T r c} {A' B' : Mat U r c} (hA : All V.L A A') (hB : All V.L B B') :
    BothDo (All V.R) (MatrixLibs.sub A B) (MatrixLibs.sub A' B') := by
  unfold MatrixLibs.sub
  exact both_forUp initM fun i _ _ _ _ hS => both_forUp hS fun j _ _ _ _ hS =>
    both_bind (rd hA _ _) fun _ _ h => both_bind (rd hB _ _) fun _ _ h' =>
    both_bind (V.sub h h') fun _ _ h => wr hS h

theorem sumScalar {A : Mat T r c} {A' : Mat U r c} {s : T} {s' : U} (hA : All V.L A A') (hs : V.L s s') :
    BothDo (All V.R) (sumScalar A s) (sumScalar A' s') := by
  unfold MatrixLibs.sumScalar
  exact both_forUp initM fun i _ _ _ _ hS => both_forUp hS fun j _ _ _ _ hS =>
    both_bind (rd hA _ _) fun _ _ h => both_bind (V.add (V.weaken h) (V.weaken hs)) fun _ _ h => wr hS h

theorem subScalar {A : Mat T r c} {A' : Mat U r c} {s : T} {s' : U} (hA : All V.L A A') (hs : V.L s s') :
    BothDo (All V.R) (subScalar A s) (subScalar A' s') := by
  unfold MatrixLibs.subScalar
  exact both_forUp initM fun i _ _ _ _ hS => both_forUp hS fun j _ _ _ _ hS =>
    both_bind (rd hA _ _) fun _ _ h => both_bind (V.sub h hs) fun _ _ h => wr hS h

theorem multScalar {A : Mat T r c} {A' : Mat U r c} {s : T} {s' : U} (hA : All V.L A A') (hs : V.L s s') :
    BothDo (All V.R) (multScalar A s) (multScalar A' s') := by
  unfold MatrixLibs.multScalar
  exact both_forUp initM fun i _ _ _ _ hS => both_forUp hS fun j _ _ _ _ hS =>
    both_bind (rd hA _ _) fun _ _ h => both_bind (V.mul h hs) fun _ _ h => wr hS h

theorem div' (handled : Option Exc) {A : Mat T r c} {A' : Mat U r c} {s : T} {s' : U} (hA : All V.L A A') (hs : V.L s s') :
    BothDo (All V.R) (MatrixLibs.div handled A s) (MatrixLibs.div handled A' s') := by
  unfold MatrixLibs.div
  rw [← V.isZero hs]
  split
  · unfold bareThrow
    cases handled <;> rfl
  · next h0 =>
    exact both_forUp initM fun i _ _ _ _ hS => both_forUp hS fun j _ _ _ _ hS =>
      both_bind (rd hA _ _) fun _ _ h => both_bind (V.div h hs (Bool.not_eq_true _ ▸ h0)) fun _ _ h => wr hS h

theorem mult {m p : Nat} {A : Mat T n m} {A' : Mat U n m} {B : Mat T m p} {B' : Mat U m p}
    (hA : All V.L A A') (hB : All V.L B B') : BothDo (All V.R) (mult A B) (mult A' B') := by
  unfold MatrixLibs.mult
  refine both_bind (R := All V.R) ?_ fun _ _ hP => ?_
  · unfold zeros fill
    exact both_forUp initM fun i _ _ _ _ hA => both_forUp hA fun j _ _ _ _ hA => wr hA V.zero
  · exact both_forUp hP fun i _ _ _ _ hP => both_forUp hP fun j _ _ _ _ hP => both_forUp hP fun k _ _ _ _ hP =>
      both_bind (rd hA _ _) fun _ _ ha => both_bind (rd hB _ _) fun _ _ hb =>
      both_bind (V.mul ha hb) fun _ _ ht => both_bind (rd hP _ _) fun _ _ hp =>
      both_bind (V.add hp ht) fun _ _ h => wr hP h

theorem convTerm {A : Mat T r c} {A' : Mat U r c} {K : Mat T 3 3} {K' : Mat U 3 3} (hA : All V.L A A')
    (hK : All V.L K K') (u v x y : Nat) : BothDo V.R (convTerm A K u v x y) (convTerm A' K' u v x y) := by
  unfold MatrixLibs.convTerm
  split
  · exact V.zero
  · exact both_bind (rd hK _ _) fun _ _ hk => both_bind (rd hA _ _) fun _ _ ha => V.mul hk ha

theorem addTo {A : Mat T r c} {A' : Mat U r c} {x : T} {x' : U} (hA : All V.R A A') {i j : Nat}
    (hx : V.R x x') : BothDo (All V.R) (addTo A i j x) (addTo A' i j x') := by
  unfold MatrixLibs.addTo
  exact both_bind (rd hA _ _) fun _ _ h => both_bind (V.add h hx) fun _ _ h => wr hA h

theorem conv2 {A : Mat T r c} {A' : Mat U r c} {K : Mat T 3 3} {K' : Mat U 3 3} (hA : All V.L A A')
    (hK : All V.L K K') : BothDo (All V.R) (conv2 A K) (conv2 A' K') := by
  unfold MatrixLibs.conv2
  refine both_forUp initM fun i _ _ _ _ h => both_forUp h fun j _ _ _ _ h => ?_
  refine both_bind (wr h V.zero) fun _ _ h => ?_
  iterate 8 refine both_bind (convTerm hA hK _ _ _ _) fun _ _ t => both_bind (addTo h t) fun _ _ h => ?_
  exact both_bind (convTerm hA hK _ _ _ _) fun _ _ t => addTo h t

theorem conv2_full {A : Mat T r c} {A' : Mat U r c} {K : Mat T 3 3} {K' : Mat U 3 3} (hA : All V.L A A')
    (hK : All V.L K K') : BothDo (All V.R) (conv2_full A K) (conv2_full A' K') := by
  unfold MatrixLibs.conv2_full
  refine both_forUp initM fun i _ _ _ _ h => both_forUp h fun j _ _ _ _ h => ?_
  refine both_bind (wr h V.zero) fun _ _ h => ?_
  iterate 8 refine both_bind (convTerm hA hK _ _ _ _) fun _ _ t => both_bind (addTo h t) fun _ _ h => ?_
  exact both_bind (convTerm hA hK _ _ _ _) fun _ _ t => addTo h t

theorem getminor {k : Nat} {A : Mat T (k + 1) (k + 1)} {A' : Mat U (k + 1) (k + 1)} (h : All R A A') (i j : Fin (k + 1)) :
    BothDo (All R) (getminor A i.val j.val) (getminor A' i.val j.val) := by
  rw [getminor_ok, getminor_ok]
  exact fun p q => h _ _

theorem conv2_valid {k : Nat} {A : Mat T (k + 2) (k + 2)} {A' : Mat U (k + 2) (k + 2)} {K : Mat T 3 3} {K' : Mat U 3 3}
    (hA : All V.L A A') (hK : All V.L K K') : BothDo (All V.R) (conv2_valid A K) (conv2_valid A' K') := by
  unfold MatrixLibs.conv2_valid
  refine both_bind (conv2 hA hK) fun S S' hS => ?_
  exact both_bind (getminor (k := k + 1) hS (Fin.last _) (Fin.last _)) fun S S' hS => getminor (k := k) hS 0 0

theorem mean {A : Mat T r c} {A' : Mat U r c} (hA : All V.L A A') (h0 : r * c ≠ 0) (hn : r * c ≤ V.size) :
    BothDo V.R (mean A) (mean A') := by
  unfold MatrixLibs.mean
  refine both_bind (both_forUp (I := V.R) V.zero fun i _ _ _ _ h => both_forUp h fun j _ _ _ _ h => ?_)
    fun _ _ h => V.divSize h h0 hn
  exact both_bind (rd hA _ _) fun _ _ h' => V.add h (V.weaken h')

end Levels
end MatrixLibs
