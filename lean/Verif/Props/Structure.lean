import Verif.Spec.Structure
import Verif.Props.Movement
import Verif.Props.Arith
import Mathlib.LinearAlgebra.Matrix.Notation

/-!
# Moving elements before or after a computation (C106)
-/

namespace MatrixLibs

set_option linter.unusedSectionVars false

open CScalar (ofInt)

variable {T : Type} [Inhabited T] [CScalar T]

theorem Elem1.ok_iff (op : Elem1 T) : ∃ (G : Prop) (f : T → Res T), ∀ {r c : Nat} (A R : Mat T r c),
    op.run A = .ok R ↔ G ∧ ∀ a b, f (A a b) = .ok (R a b) := by
  cases op with
  | addS s => exact ⟨True, fun x => CScalar.add x s, fun A R => by
      rw [true_and]; exact (sumScalar_elementwise A s).1 R⟩
  | subS s => exact ⟨True, fun x => CScalar.sub x s, fun A R => by
      rw [true_and]; exact (subScalar_elementwise A s).1 R⟩
  | mulS s => exact ⟨True, fun x => CScalar.mul x s, fun A R => by
      rw [true_and]; exact (multScalar_elementwise A s).1 R⟩
  | abs => exact ⟨True, fun x => CScalar.abs x, fun A R => by
      rw [true_and]; exact (abs_elementwise A).1 R⟩
  | divS handled s =>
    refine ⟨CScalar.eq s (ofInt 0) = false, fun x => CScalar.div x s, fun A R => ?_⟩
    cases hs : CScalar.eq s (ofInt 0) with
    | false =>
      simp only [true_and]
      exact (div_elementwise handled A s hs).1 R
    | true =>
      simp only [reduceCtorEq, false_and, iff_false]
      show ¬ div handled A s = _
      unfold div
      rw [if_pos hs]
      unfold bareThrow
      cases handled <;> simp

theorem Elem2.ok_iff (op : Elem2) : ∃ f : T → T → Res T, ∀ {r c : Nat} (A B R : Mat T r c),
    op.run A B = .ok R ↔ ∀ a b, f (A a b) (B a b) = .ok (R a b) := by
  cases op with
  | add => exact ⟨CScalar.add, fun A B R => (sum_elementwise A B).1 R⟩
  | sub => exact ⟨CScalar.sub, fun A B R => (sub_elementwise A B).1 R⟩

section
variable {r c r' c' n m p : Nat}

/-! ## Elementwise functions -/

/-- C106: transposing. -/
theorem C106_trans (op : Elem1 T) (op2 : Elem2) (A B R : Mat T r c) :
    (op.run A = .ok R → (do op.run (← trans A)) = trans R) ∧
    (op2.run A B = .ok R → (do op2.run (← trans A) (← trans B)) = trans R) := by
  simp only [trans_ok, ok_bind]
  constructor
  · obtain ⟨G, f, hf⟩ := op.ok_iff
    intro h
    have h := (hf _ _).mp h
    exact (hf _ _).mpr ⟨h.1, fun a b => h.2 b a⟩
  · obtain ⟨f, hf⟩ := op2.ok_iff (T := T)
    intro h
    exact (hf _ _ _).mpr (fun a b => (hf _ _ _).mp h b a)

/-- C106: exchanging rows. -/
theorem C106_swap_rows (op : Elem1 T) (op2 : Elem2) (A B R : Mat T r c) (r1 r2 : Fin r) :
    (op.run A = .ok R → (do op.run (← swap_rows A r1 r2)) = swap_rows R r1 r2) ∧
    (op2.run A B = .ok R → (do op2.run (← swap_rows A r1 r2) (← swap_rows B r1 r2)) = swap_rows R r1 r2) := by
  simp only [swap_rows_ok, ok_bind]
  constructor
  · obtain ⟨G, f, hf⟩ := op.ok_iff
    intro h
    have h := (hf _ _).mp h
    exact (hf _ _).mpr ⟨h.1, fun a b => h.2 _ b⟩
  · obtain ⟨f, hf⟩ := op2.ok_iff (T := T)
    intro h
    exact (hf _ _ _).mpr (fun a b => (hf _ _ _).mp h _ b)

/-- C106: exchanging columns. -/
theorem C106_swap_cols (op : Elem1 T) (op2 : Elem2) (A B R : Mat T r c) (c1 c2 : Fin c) :
    (op.run A = .ok R → (do op.run (← swap_cols A c1 c2)) = swap_cols R c1 c2) ∧
    (op2.run A B = .ok R → (do op2.run (← swap_cols A c1 c2) (← swap_cols B c1 c2)) = swap_cols R c1 c2) := by
  simp only [swap_cols_ok, ok_bind]
  constructor
  · obtain ⟨G, f, hf⟩ := op.ok_iff
    intro h
    have h := (hf _ _).mp h
    exact (hf _ _).mpr ⟨h.1, fun a b => h.2 a _⟩
  · obtain ⟨f, hf⟩ := op2.ok_iff (T := T)
    intro h
    exact (hf _ _ _).mpr (fun a b => (hf _ _ _).mp h a _)

/-- C106: taking minors. -/
theorem C106_getminor (op : Elem1 T) (op2 : Elem2) (A B R : Mat T (m + 1) (m + 1)) (i j : Fin (m + 1)) :
    (op.run A = .ok R → (do op.run (← getminor A i j)) = getminor R i j) ∧
    (op2.run A B = .ok R → (do op2.run (← getminor A i j) (← getminor B i j)) = getminor R i j) := by
  simp only [getminor_ok, ok_bind]
  constructor
  · obtain ⟨G, f, hf⟩ := op.ok_iff
    intro h
    have h := (hf _ _).mp h
    exact (hf _ _).mpr ⟨h.1, fun a b => h.2 _ _⟩
  · obtain ⟨f, hf⟩ := op2.ok_iff (T := T)
    intro h
    exact (hf _ _ _).mpr (fun a b => (hf _ _ _).mp h _ _)

omit [CScalar T] in
theorem stackRows_castAdd (A : Mat T r c) (B : Mat T r' c) (a : Fin r) (b : Fin c) :
    stackRows A B (Fin.castAdd r' a) b = A a b := (stackRows_spec A B).1 a b
omit [CScalar T] in
theorem stackRows_natAdd (A : Mat T r c) (B : Mat T r' c) (a : Fin r') (b : Fin c) :
    stackRows A B (Fin.natAdd r a) b = B a b := (stackRows_spec A B).2 a b
omit [CScalar T] in
theorem joinCols_castAdd (A : Mat T r c) (B : Mat T r c') (a : Fin r) (b : Fin c) :
    joinCols A B a (Fin.castAdd c' b) = A a b := (joinCols_spec A B).1 a b
omit [CScalar T] in
theorem joinCols_natAdd (A : Mat T r c) (B : Mat T r c') (a : Fin r) (b : Fin c') :
    joinCols A B a (Fin.natAdd c b) = B a b := (joinCols_spec A B).2 a b

/-- C106: stacking. -/
theorem C106_concatenate_rows (op : Elem1 T) (op2 : Elem2) (A B R : Mat T r c) (A' B' R' : Mat T r' c) :
    (op.run A = .ok R → op.run A' = .ok R' → (do op.run (← concatenateRows A A')) = concatenateRows R R') ∧
    (op2.run A B = .ok R → op2.run A' B' = .ok R' →
      (do op2.run (← concatenateRows A A') (← concatenateRows B B')) = concatenateRows R R') := by
  simp only [concatenateRows_ok, ok_bind]
  constructor
  · obtain ⟨G, f, hf⟩ := op.ok_iff
    intro h h'
    have h := (hf _ _).mp h
    have h' := (hf _ _).mp h'
    refine (hf _ _).mpr ⟨h.1, fun a b => ?_⟩
    refine Fin.addCases (fun a => ?_) (fun a => ?_) a
    · simp only [stackRows_castAdd, h.2]
    · simp only [stackRows_natAdd, h'.2]
  · obtain ⟨f, hf⟩ := op2.ok_iff (T := T)
    intro h h'
    have h := (hf _ _ _).mp h
    have h' := (hf _ _ _).mp h'
    refine (hf _ _ _).mpr (fun a b => ?_)
    refine Fin.addCases (fun a => ?_) (fun a => ?_) a
    · simp only [stackRows_castAdd, h]
    · simp only [stackRows_natAdd, h']

/-- C106: joining. -/
theorem C106_concatenate_cols (op : Elem1 T) (op2 : Elem2) (A B R : Mat T r c) (A' B' R' : Mat T r c') :
    (op.run A = .ok R → op.run A' = .ok R' → (do op.run (← concatenateCols A A')) = concatenateCols R R') ∧
    (op2.run A B = .ok R → op2.run A' B' = .ok R' →
      (do op2.run (← concatenateCols A A') (← concatenateCols B B')) = concatenateCols R R') := by
  simp only [concatenateCols_ok, ok_bind]
  constructor
  · obtain ⟨G, f, hf⟩ := op.ok_iff
    intro h h'
    have h := (hf _ _).mp h
    have h' := (hf _ _).mp h'
    refine (hf _ _).mpr ⟨h.1, fun a b => ?_⟩
    refine Fin.addCases (fun b => ?_) (fun b => ?_) b
    · simp only [joinCols_castAdd, h.2]
    · simp only [joinCols_natAdd, h'.2]
  · obtain ⟨f, hf⟩ := op2.ok_iff (T := T)
    intro h h'
    have h := (hf _ _ _).mp h
    have h' := (hf _ _ _).mp h'
    refine (hf _ _ _).mpr (fun a b => ?_)
    refine Fin.addCases (fun b => ?_) (fun b => ?_) b
    · simp only [joinCols_castAdd, h]
    · simp only [joinCols_natAdd, h']

/-! ## Products -/

theorem dotFrom_congr {n n' p p' : Nat} {A : Mat T n m} {A' : Mat T n' m} {B : Mat T m p} {B' : Mat T m p'} {s : T}
    {a : Fin n} {a' : Fin n'} {b : Fin p} {b' : Fin p'} (hA : ∀ k, A a k = A' a' k) (hB : ∀ k, B k b = B' k b') :
    dotFrom A B s a b = dotFrom A' B' s a' b' := by
  unfold dotFrom
  refine forUp_congr (fun k s _ hk => ?_)
  rw [rd_eq a.2 hk, rd_eq a'.2 hk, rd_eq hk b.2, rd_eq hk b'.2]
  simp only [ok_bind]
  rw [show A ⟨a, a.2⟩ ⟨k, hk⟩ = _ from hA ⟨k, hk⟩, show B ⟨k, hk⟩ ⟨b, b.2⟩ = _ from hB ⟨k, hk⟩]

/-- C106: the product of a stacked matrix is the stacked products. -/
theorem C106_mul_stacked (A : Mat T n m) (A' : Mat T r' m) (B : Mat T m p) (P : Mat T n p) (P' : Mat T r' p)
    (h : opMul A B = .ok P) (h' : opMul A' B = .ok P') :
    (do opMul (← concatenateRows A A') B) = concatenateRows P P' := by
  simp only [concatenateRows_ok, ok_bind]
  have h := ((mult_elementwise A B).1 P).mp h
  have h' := ((mult_elementwise A' B).1 P').mp h'
  refine ((mult_elementwise _ B).1 _).mpr (fun a b => ?_)
  refine Fin.addCases (fun a => ?_) (fun a => ?_) a
  · rw [stackRows_castAdd, ← h a b]
    exact dotFrom_congr (fun k => stackRows_castAdd A A' a k) (fun _ => rfl)
  · rw [stackRows_natAdd, ← h' a b]
    exact dotFrom_congr (fun k => stackRows_natAdd A A' a k) (fun _ => rfl)

/-- C106: the product with a joined matrix is the joined products. -/
theorem C106_mul_joined (A : Mat T n m) (B : Mat T m p) (B' : Mat T m c') (P : Mat T n p) (P' : Mat T n c')
    (h : opMul A B = .ok P) (h' : opMul A B' = .ok P') :
    (do opMul A (← concatenateCols B B')) = concatenateCols P P' := by
  simp only [concatenateCols_ok, ok_bind]
  have h := ((mult_elementwise A B).1 P).mp h
  have h' := ((mult_elementwise A B').1 P').mp h'
  refine ((mult_elementwise A _).1 _).mpr (fun a b => ?_)
  refine Fin.addCases (fun b => ?_) (fun b => ?_) b
  · rw [joinCols_castAdd, ← h a b]
    exact dotFrom_congr (fun _ => rfl) (fun k => joinCols_castAdd B B' k b)
  · rw [joinCols_natAdd, ← h' a b]
    exact dotFrom_congr (fun _ => rfl) (fun k => joinCols_natAdd B B' k b)

/-- C106: exchanging two rows of the left factor exchanges the rows of the product. -/
theorem C106_mul_swap_rows (A : Mat T n m) (B : Mat T m p) (P : Mat T n p) (r1 r2 : Fin n) (h : opMul A B = .ok P) :
    (do opMul (← swap_rows A r1 r2) B) = swap_rows P r1 r2 := by
  simp only [swap_rows_ok, ok_bind]
  have h := ((mult_elementwise A B).1 P).mp h
  refine ((mult_elementwise _ B).1 _).mpr (fun a b => ?_)
  rw [Matrix.of_apply, ← h _ b]
  exact dotFrom_congr (fun _ => rfl) (fun _ => rfl)

/-- C106: exchanging two columns of the right factor exchanges the columns of the product. -/
theorem C106_mul_swap_cols (A : Mat T n m) (B : Mat T m p) (P : Mat T n p) (c1 c2 : Fin p) (h : opMul A B = .ok P) :
    (do opMul A (← swap_cols B c1 c2)) = swap_cols P c1 c2 := by
  simp only [swap_cols_ok, ok_bind]
  have h := ((mult_elementwise A B).1 P).mp h
  refine ((mult_elementwise A _).1 _).mpr (fun a b => ?_)
  rw [Matrix.of_apply, ← h a _]
  exact dotFrom_congr (fun _ => rfl) (fun _ => rfl)

/-- C106: transposing reverses a product, for every element type whose product is commutative. -/
theorem C106_mul_trans (hc : ∀ x y : T, CScalar.mul x y = CScalar.mul y x) (A : Mat T n m) (B : Mat T m p)
    (P : Mat T n p) (h : opMul A B = .ok P) : (do opMul (← trans B) (← trans A)) = trans P := by
  simp only [trans_ok, ok_bind]
  have h := ((mult_elementwise A B).1 P).mp h
  refine ((mult_elementwise _ _).1 _).mpr (fun a b => ?_)
  rw [Matrix.transpose_apply, ← h b a]
  unfold dotFrom
  refine forUp_congr (fun k s _ hk => ?_)
  rw [rd_eq a.2 hk, rd_eq b.2 hk, rd_eq hk b.2, rd_eq hk a.2]
  simp only [ok_bind]
  rw [hc]
  rfl

theorem Fl.mul_comm {F : Fmt} (x y : Fl F) : Fl.mul x y = Fl.mul y x := by
  cases x <;> cases y <;> simp [Fl.mul, Bool.xor_comm, Nat.mul_comm]

/-- C106: the product of every modelled element type is commutative, including the rounded one. -/
theorem C106_mul_comm (w : Nat) (F : Fmt) :
    (∀ x y : BitVec w, CScalar.mul x y = CScalar.mul y x) ∧ (∀ x y : SInt w, CScalar.mul x y = CScalar.mul y x) ∧
    (∀ x y : Fl F, CScalar.mul x y = CScalar.mul y x) ∧ (∀ x y : ℚ, CScalar.mul x y = CScalar.mul y x) ∧
    (∀ x y : ℝ, CScalar.mul x y = CScalar.mul y x) := by
  refine ⟨fun x y => ?_, fun x y => ?_, fun x y => ?_, fun x y => ?_, fun x y => ?_⟩
  · exact congrArg Except.ok (BitVec.mul_comm x y)
  · exact congrArg SInt.checked (Int.mul_comm x.val y.val)
  · exact congrArg Except.ok (Fl.mul_comm x y)
  · exact congrArg Except.ok (Rat.mul_comm x y)
  · exact congrArg Except.ok (_root_.mul_comm x y)

/-! ## Moves among themselves -/

omit [CScalar T] in
/-- C106: transposing exchanges stacking and joining, and rows and columns of a minor. -/
theorem C106_moves (A : Mat T r c) (B : Mat T r' c) (M : Mat T (m + 1) (m + 1)) (i j : Fin (m + 1)) :
    (do trans (← concatenateRows A B)) = (do concatenateCols (← trans A) (← trans B)) ∧
    (do trans (← getminor M i j)) = (do getminor (← trans M) j i) := by
  simp only [concatenateRows_ok, concatenateCols_ok, trans_ok, getminor_ok, ok_bind]
  exact ⟨rfl, rfl⟩

end

/-! Concrete cases, with rounding: the product of floats is not exact, yet equal bit for bit. -/

example : (do opMul (← concatenateRows (!![Fl.ofInt 16777216, Fl.ofInt 1] : Mat (Fl binary32) 1 2)
      !![Fl.ofInt 3, Fl.ofInt 1]) !![Fl.ofInt 1; Fl.ofInt 1]) =
    concatenateRows (!![Fl.ofInt 16777216] : Mat (Fl binary32) 1 1) !![Fl.ofInt 4] :=
  C106_mul_stacked _ _ _ _ _ (by decide +kernel) (by decide +kernel)
example : (do (Elem1.divS none (SInt.wrap 2)).run (← trans (!![SInt.wrap 7, SInt.wrap (-7)] : Mat (SInt 32) 1 2))) =
    trans !![SInt.wrap 3, SInt.wrap (-3)] :=
  (C106_trans _ .add _ (Mat.const (SInt.wrap 0)) _).1 (by decide +kernel)

end MatrixLibs
