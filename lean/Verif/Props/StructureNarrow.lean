import Verif.Props.Structure
import Verif.Proof.Narrow
import Mathlib.LinearAlgebra.Matrix.Notation

/-!
# Moving elements before or after a computation, for elements narrower than `int` (C106)

The functions are those of `Verif.Model.Narrow`.
-/

namespace MatrixLibs

set_option linter.unusedSectionVars false

open Promo (load store)
open CScalar (ofInt)

variable {T P : Type} [Inhabited T] [CScalar P] [Promo T P]

theorem Elem1.narrow_iff (op : Elem1 T) : ∃ (G : Prop) (f : T → Res T), ∀ {r c : Nat} (A R : Mat T r c),
    op.runP A = .ok R ↔ G ∧ ∀ a b, f (A a b) = .ok (R a b) := by
  cases op with
  | addS s => exact ⟨True, fun x => do .ok (store (← CScalar.add (load x) (load s))), fun A R => by
      rw [true_and]; exact (Promoted.sumScalar_elementwise A s).1 R⟩
  | subS s => exact ⟨True, fun x => do .ok (store (← CScalar.sub (load x) (load s))), fun A R => by
      rw [true_and]; exact (Promoted.subScalar_elementwise A s).1 R⟩
  | mulS s => exact ⟨True, fun x => do .ok (store (← CScalar.mul (load x) (load s))), fun A R => by
      rw [true_and]; exact (Promoted.multScalar_elementwise A s).1 R⟩
  | abs => exact ⟨True, fun x => do .ok (store (← CScalar.abs (load x))), fun A R => by
      rw [true_and]; exact (Promoted.abs_elementwise A).1 R⟩
  | divS handled s =>
    refine ⟨CScalar.eq (load s) (ofInt 0 : P) = false, fun x => do .ok (store (← CScalar.div (load x) (load s))),
      fun A R => ?_⟩
    cases hs : CScalar.eq (load s) (ofInt 0 : P) with
    | false =>
      simp only [true_and]
      exact (Promoted.div_elementwise handled A s hs).1 R
    | true =>
      simp only [reduceCtorEq, false_and, iff_false]
      show ¬ Promoted.div handled A s = _
      unfold Promoted.div
      rw [if_pos hs]
      unfold bareThrow
      cases handled <;> simp

theorem Elem2.narrow_iff (op : Elem2) : ∃ f : T → T → Res T, ∀ {r c : Nat} (A B R : Mat T r c),
    op.runP A B = .ok R ↔ ∀ a b, f (A a b) (B a b) = .ok (R a b) := by
  cases op with
  | add => exact ⟨fun x y => do .ok (store (← CScalar.add (load x) (load y))), fun A B R =>
      (Promoted.sum_elementwise A B).1 R⟩
  | sub => exact ⟨fun x y => do .ok (store (← CScalar.sub (load x) (load y))), fun A B R =>
      (Promoted.sub_elementwise A B).1 R⟩

section
variable {r c r' c' n m p : Nat}

/-! ## Elementwise functions -/

/-- C106, with promoted elements: transposing. -/
theorem C106_trans_narrow (op : Elem1 T) (op2 : Elem2) (A B R : Mat T r c) :
    (op.runP A = .ok R → (do op.runP (← trans A)) = trans R) ∧
    (op2.runP A B = .ok R → (do op2.runP (← trans A) (← trans B)) = trans R) := by
  simp only [trans_ok, ok_bind]
  constructor
  · obtain ⟨G, f, hf⟩ := op.narrow_iff
    intro h
    have h := (hf _ _).mp h
    exact (hf _ _).mpr ⟨h.1, fun a b => h.2 b a⟩
  · obtain ⟨f, hf⟩ := op2.narrow_iff (T := T)
    intro h
    exact (hf _ _ _).mpr (fun a b => (hf _ _ _).mp h b a)

/-- C106, with promoted elements: exchanging rows. -/
theorem C106_swap_rows_narrow (op : Elem1 T) (op2 : Elem2) (A B R : Mat T r c) (r1 r2 : Fin r) :
    (op.runP A = .ok R → (do op.runP (← swap_rows A r1 r2)) = swap_rows R r1 r2) ∧
    (op2.runP A B = .ok R → (do op2.runP (← swap_rows A r1 r2) (← swap_rows B r1 r2)) = swap_rows R r1 r2) := by
  simp only [swap_rows_ok, ok_bind]
  constructor
  · obtain ⟨G, f, hf⟩ := op.narrow_iff
    intro h
    have h := (hf _ _).mp h
    exact (hf _ _).mpr ⟨h.1, fun a b => h.2 _ b⟩
  · obtain ⟨f, hf⟩ := op2.narrow_iff (T := T)
    intro h
    exact (hf _ _ _).mpr (fun a b => (hf _ _ _).mp h _ b)

/-- C106, with promoted elements: exchanging columns. -/
theorem C106_swap_cols_narrow (op : Elem1 T) (op2 : Elem2) (A B R : Mat T r c) (c1 c2 : Fin c) :
    (op.runP A = .ok R → (do op.runP (← swap_cols A c1 c2)) = swap_cols R c1 c2) ∧
    (op2.runP A B = .ok R → (do op2.runP (← swap_cols A c1 c2) (← swap_cols B c1 c2)) = swap_cols R c1 c2) := by
  simp only [swap_cols_ok, ok_bind]
  constructor
  · obtain ⟨G, f, hf⟩ := op.narrow_iff
    intro h
    have h := (hf _ _).mp h
    exact (hf _ _).mpr ⟨h.1, fun a b => h.2 a _⟩
  · obtain ⟨f, hf⟩ := op2.narrow_iff (T := T)
    intro h
    exact (hf _ _ _).mpr (fun a b => (hf _ _ _).mp h a _)

/-- C106, with promoted elements: taking minors. -/
theorem C106_getminor_narrow (op : Elem1 T) (op2 : Elem2) (A B R : Mat T (m + 1) (m + 1)) (i j : Fin (m + 1)) :
    (op.runP A = .ok R → (do op.runP (← getminor A i j)) = getminor R i j) ∧
    (op2.runP A B = .ok R → (do op2.runP (← getminor A i j) (← getminor B i j)) = getminor R i j) := by
  simp only [getminor_ok, ok_bind]
  constructor
  · obtain ⟨G, f, hf⟩ := op.narrow_iff
    intro h
    have h := (hf _ _).mp h
    exact (hf _ _).mpr ⟨h.1, fun a b => h.2 _ _⟩
  · obtain ⟨f, hf⟩ := op2.narrow_iff (T := T)
    intro h
    exact (hf _ _ _).mpr (fun a b => (hf _ _ _).mp h _ _)

/-- C106, with promoted elements: stacking. -/
theorem C106_concatenate_rows_narrow (op : Elem1 T) (op2 : Elem2) (A B R : Mat T r c) (A' B' R' : Mat T r' c) :
    (op.runP A = .ok R → op.runP A' = .ok R' → (do op.runP (← concatenateRows A A')) = concatenateRows R R') ∧
    (op2.runP A B = .ok R → op2.runP A' B' = .ok R' →
      (do op2.runP (← concatenateRows A A') (← concatenateRows B B')) = concatenateRows R R') := by
  simp only [concatenateRows_ok, ok_bind]
  constructor
  · obtain ⟨G, f, hf⟩ := op.narrow_iff
    intro h h'
    have h := (hf _ _).mp h
    have h' := (hf _ _).mp h'
    refine (hf _ _).mpr ⟨h.1, fun a b => ?_⟩
    refine Fin.addCases (fun a => ?_) (fun a => ?_) a
    · simp only [stackRows_castAdd, h.2]
    · simp only [stackRows_natAdd, h'.2]
  · obtain ⟨f, hf⟩ := op2.narrow_iff (T := T)
    intro h h'
    have h := (hf _ _ _).mp h
    have h' := (hf _ _ _).mp h'
    refine (hf _ _ _).mpr (fun a b => ?_)
    refine Fin.addCases (fun a => ?_) (fun a => ?_) a
    · simp only [stackRows_castAdd, h]
    · simp only [stackRows_natAdd, h']

/-- C106, with promoted elements: joining. -/
theorem C106_concatenate_cols_narrow (op : Elem1 T) (op2 : Elem2) (A B R : Mat T r c) (A' B' R' : Mat T r c') :
    (op.runP A = .ok R → op.runP A' = .ok R' → (do op.runP (← concatenateCols A A')) = concatenateCols R R') ∧
    (op2.runP A B = .ok R → op2.runP A' B' = .ok R' →
      (do op2.runP (← concatenateCols A A') (← concatenateCols B B')) = concatenateCols R R') := by
  simp only [concatenateCols_ok, ok_bind]
  constructor
  · obtain ⟨G, f, hf⟩ := op.narrow_iff
    intro h h'
    have h := (hf _ _).mp h
    have h' := (hf _ _).mp h'
    refine (hf _ _).mpr ⟨h.1, fun a b => ?_⟩
    refine Fin.addCases (fun b => ?_) (fun b => ?_) b
    · simp only [joinCols_castAdd, h.2]
    · simp only [joinCols_natAdd, h'.2]
  · obtain ⟨f, hf⟩ := op2.narrow_iff (T := T)
    intro h h'
    have h := (hf _ _ _).mp h
    have h' := (hf _ _ _).mp h'
    refine (hf _ _ _).mpr (fun a b => ?_)
    refine Fin.addCases (fun b => ?_) (fun b => ?_) b
    · simp only [joinCols_castAdd, h]
    · simp only [joinCols_natAdd, h']

/-! ## Products -/

theorem dotFrom_narrow_congr {n n' p p' : Nat} {A : Mat T n m} {A' : Mat T n' m} {B : Mat T m p} {B' : Mat T m p'} {s : T}
    {a : Fin n} {a' : Fin n'} {b : Fin p} {b' : Fin p'} (hA : ∀ k, A a k = A' a' k) (hB : ∀ k, B k b = B' k b') :
    Promoted.dotFrom A B s a b = Promoted.dotFrom A' B' s a' b' := by
  unfold Promoted.dotFrom
  refine forUp_congr (fun k s _ hk => ?_)
  rw [rd_eq a.2 hk, rd_eq a'.2 hk, rd_eq hk b.2, rd_eq hk b'.2]
  simp only [ok_bind]
  rw [show A ⟨a, a.2⟩ ⟨k, hk⟩ = _ from hA ⟨k, hk⟩, show B ⟨k, hk⟩ ⟨b, b.2⟩ = _ from hB ⟨k, hk⟩]

/-- C106, with promoted elements: the product of a stacked matrix is the stacked products. -/
theorem C106_mul_stacked_narrow (A : Mat T n m) (A' : Mat T r' m) (B : Mat T m p) (P : Mat T n p) (P' : Mat T r' p)
    (h : Promoted.mult A B = .ok P) (h' : Promoted.mult A' B = .ok P') :
    (do Promoted.mult (← concatenateRows A A') B) = concatenateRows P P' := by
  simp only [concatenateRows_ok, ok_bind]
  have h := ((Promoted.mult_elementwise A B).1 P).mp h
  have h' := ((Promoted.mult_elementwise A' B).1 P').mp h'
  refine ((Promoted.mult_elementwise _ B).1 _).mpr (fun a b => ?_)
  refine Fin.addCases (fun a => ?_) (fun a => ?_) a
  · rw [stackRows_castAdd, ← h a b]
    exact dotFrom_narrow_congr (fun k => stackRows_castAdd A A' a k) (fun _ => rfl)
  · rw [stackRows_natAdd, ← h' a b]
    exact dotFrom_narrow_congr (fun k => stackRows_natAdd A A' a k) (fun _ => rfl)

/-- C106, with promoted elements: the product with a joined matrix is the joined products. -/
theorem C106_mul_joined_narrow (A : Mat T n m) (B : Mat T m p) (B' : Mat T m c') (P : Mat T n p) (P' : Mat T n c')
    (h : Promoted.mult A B = .ok P) (h' : Promoted.mult A B' = .ok P') :
    (do Promoted.mult A (← concatenateCols B B')) = concatenateCols P P' := by
  simp only [concatenateCols_ok, ok_bind]
  have h := ((Promoted.mult_elementwise A B).1 P).mp h
  have h' := ((Promoted.mult_elementwise A B').1 P').mp h'
  refine ((Promoted.mult_elementwise A _).1 _).mpr (fun a b => ?_)
  refine Fin.addCases (fun b => ?_) (fun b => ?_) b
  · rw [joinCols_castAdd, ← h a b]
    exact dotFrom_narrow_congr (fun _ => rfl) (fun k => joinCols_castAdd B B' k b)
  · rw [joinCols_natAdd, ← h' a b]
    exact dotFrom_narrow_congr (fun _ => rfl) (fun k => joinCols_natAdd B B' k b)

/-- C106, with promoted elements: exchanging two rows of the left factor exchanges the rows of the product. -/
theorem C106_mul_swap_rows_narrow (A : Mat T n m) (B : Mat T m p) (P : Mat T n p) (r1 r2 : Fin n) (h : Promoted.mult A B = .ok P) :
    (do Promoted.mult (← swap_rows A r1 r2) B) = swap_rows P r1 r2 := by
  simp only [swap_rows_ok, ok_bind]
  have h := ((Promoted.mult_elementwise A B).1 P).mp h
  refine ((Promoted.mult_elementwise _ B).1 _).mpr (fun a b => ?_)
  rw [Matrix.of_apply, ← h _ b]
  exact dotFrom_narrow_congr (fun _ => rfl) (fun _ => rfl)

/-- C106, with promoted elements: exchanging two columns of the right factor exchanges the columns of the product. -/
theorem C106_mul_swap_cols_narrow (A : Mat T n m) (B : Mat T m p) (P : Mat T n p) (c1 c2 : Fin p) (h : Promoted.mult A B = .ok P) :
    (do Promoted.mult A (← swap_cols B c1 c2)) = swap_cols P c1 c2 := by
  simp only [swap_cols_ok, ok_bind]
  have h := ((Promoted.mult_elementwise A B).1 P).mp h
  refine ((Promoted.mult_elementwise A _).1 _).mpr (fun a b => ?_)
  rw [Matrix.of_apply, ← h a _]
  exact dotFrom_narrow_congr (fun _ => rfl) (fun _ => rfl)

/-- C106, with promoted elements: transposing reverses a product, for every element type whose product is commutative. -/
theorem C106_mul_trans_narrow (hc : ∀ x y : P, CScalar.mul x y = CScalar.mul y x) (A : Mat T n m) (B : Mat T m p)
    (P : Mat T n p) (h : Promoted.mult A B = .ok P) : (do Promoted.mult (← trans B) (← trans A)) = trans P := by
  simp only [trans_ok, ok_bind]
  have h := ((Promoted.mult_elementwise A B).1 P).mp h
  refine ((Promoted.mult_elementwise _ _).1 _).mpr (fun a b => ?_)
  rw [Matrix.transpose_apply, ← h b a]
  unfold Promoted.dotFrom
  refine forUp_congr (fun k s _ hk => ?_)
  rw [rd_eq a.2 hk, rd_eq b.2 hk, rd_eq hk b.2, rd_eq hk a.2]
  simp only [ok_bind]
  rw [hc]
  rfl

end

example : (do (Elem1.mulS (NInt.ofInt 3 : NInt .uint8)).runP (← trans (!![NInt.ofInt 100, NInt.ofInt 7] : Mat (NInt .uint8) 1 2))) =
    trans !![NInt.ofInt 44, NInt.ofInt 21] :=
  (C106_trans_narrow _ .add _ (Mat.const (NInt.ofInt 0)) _).1 (by decide +kernel)
example : (do Promoted.mult (← concatenateRows (!![NInt.ofInt 100, NInt.ofInt 100] : Mat (NInt .int8) 1 2)
      !![NInt.ofInt 3, NInt.ofInt 1]) !![NInt.ofInt 1; NInt.ofInt 1]) =
    concatenateRows (!![NInt.ofInt (-56)] : Mat (NInt .int8) 1 1) !![NInt.ofInt 4] :=
  C106_mul_stacked_narrow _ _ _ _ _ (by decide +kernel) (by decide +kernel)

end MatrixLibs
