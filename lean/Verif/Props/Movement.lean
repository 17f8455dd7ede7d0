import Verif.Proof.Movement
import Verif.Proof.Overload
import Mathlib.Tactic.FinCases
import Mathlib.LinearAlgebra.Matrix.Notation

/-!
# Properties C01–C03, C05–C13, C62: contents, movement, overloads

Every theorem holds for every element type `T` (no arithmetic is done), in particular for floats.
-/

namespace MatrixLibs

set_option linter.unusedSectionVars false

variable {T : Type} [Inhabited T]

/-! ## C01 -/

/-- C01: `fill<T,i,j>(d)` returns, and every element of the result is `d`. -/
theorem C01_fill (i j : Nat) (d : T) :
    ∃ R : Mat T i j, fill i j d = .ok R ∧ ∀ a b, R a b = d :=
  ⟨_, fill_ok i j d, fun _ _ => rfl⟩

/-- C01: `zeros<T,i,j>()`: every element is the `T` converted from `0`. -/
theorem C01_zeros [CScalar T] (i j : Nat) :
    ∃ R : Mat T i j, zeros i j = .ok R ∧ ∀ a b, R a b = CScalar.ofInt 0 :=
  ⟨_, zeros_ok i j, fun _ _ => rfl⟩

/-- C01: `ones<k,i,j>()`: every element is the unsigned 1, whatever `k` is. -/
theorem C01_onesUInt (k i j : Nat) :
    ∃ R : Mat (BitVec 32) i j, onesUInt k i j = .ok R ∧ ∀ a b, R a b = 1#32 :=
  ⟨_, onesUInt_ok k i j, fun _ _ => rfl⟩

/-- C01: the first numeric argument of `ones<k,i,j>()` has no influence. -/
theorem C01_onesUInt_ignores (k k' i j : Nat) : onesUInt k i j = onesUInt k' i j := by
  rw [onesUInt_ok, onesUInt_ok]

/-- C01: `ones<T,i,i>()`: every element is the `T` converted from `1`. -/
theorem C01_ones [CScalar T] (i : Nat) :
    ∃ R : Mat T i i, ones i i = .ok R ∧ ∀ a b, R a b = CScalar.ofInt 1 :=
  ⟨_, ones_ok i, fun _ _ => rfl⟩

/-- C01 (limitation): `ones<T,i,j>()` with `i ≠ j` does not compile. -/
theorem C01_ones_rect [CScalar T] (i j : Nat) (h : i ≠ j) :
    ones (T := T) i j = .error .illFormed := by
  unfold ones; rw [if_neg (Ne.symm h)]

example : fill 2 3 (7 : ℚ) = .ok !![7, 7, 7; 7, 7, 7] := by decide +kernel
example : zeros (T := ℚ) 2 1 = .ok !![0; 0] := by decide +kernel
example : ones (T := ℚ) 2 2 = .ok !![1, 1; 1, 1] := by decide +kernel

/-! ## C02 (first half; the identity law is in `Props/Arith.lean`) -/

/-- C02: `eye<T,n>(d)` has `d` on the diagonal and `0` elsewhere. -/
theorem C02_eye [CScalar T] (n : Nat) (d : T) :
    ∃ R : Mat T n n, eye n d = .ok R ∧ (∀ a, R a a = d) ∧
      ∀ a b, a ≠ b → R a b = CScalar.ofInt 0 := by
  refine ⟨_, eye_ok n d, fun a => ?_, fun a b h => ?_⟩
  · rw [Matrix.of_apply, if_pos rfl]
  · rw [Matrix.of_apply, if_neg h]

example : eye 2 (5 : ℚ) = .ok !![5, 0; 0, 5] := by decide +kernel

/-! ## C03 -/

/-- C03: `trans(A)` returns and its element `(j,i)` is element `(i,j)` of `A`. -/
theorem C03_trans {n m : Nat} (A : Mat T n m) :
    ∃ R : Mat T m n, trans A = .ok R ∧ ∀ i j, R j i = A i j :=
  ⟨_, trans_ok A, fun _ _ => rfl⟩

/-- C03: transposing twice gives the matrix back. -/
theorem C03_trans_trans {n m : Nat} (A : Mat T n m) : (do trans (← trans A)) = .ok A := by
  rw [trans_ok, ok_bind, trans_ok, Matrix.transpose_transpose]

example : trans (!![1, 2, 3; 4, 5, 6] : Mat ℚ 2 3) = .ok !![1, 4; 2, 5; 3, 6] := by decide +kernel

/-! ## C05, C06 -/

/-- C05: `swap_rows` exchanges rows `r1` and `r2` and leaves every other row alone. -/
theorem C05_swap_rows {row col : Nat} (A : Mat T row col) (r1 r2 : Fin row) :
    ∃ R : Mat T row col, swap_rows A r1 r2 = .ok R ∧
      (∀ b, R r1 b = A r2 b) ∧ (∀ b, R r2 b = A r1 b) ∧
      ∀ a b, a ≠ r1 → a ≠ r2 → R a b = A a b := by
  refine ⟨_, swap_rows_ok A r1 r2, fun b => ?_, fun b => ?_, fun a b h1 h2 => ?_⟩
  · rw [Matrix.of_apply, Equiv.swap_apply_left]
  · rw [Matrix.of_apply, Equiv.swap_apply_right]
  · rw [Matrix.of_apply, Equiv.swap_apply_of_ne_of_ne h1 h2]

/-- C05: swapping twice restores the matrix. -/
theorem C05_swap_rows_twice {row col : Nat} (A : Mat T row col) (r1 r2 : Fin row) :
    (do swap_rows (← swap_rows A r1 r2) r1 r2) = .ok A := by
  rw [swap_rows_ok, ok_bind, swap_rows_ok]
  congr 1
  ext a b
  simp [Equiv.swap_apply_self]

/-- C05: the order of the two indices does not matter. -/
theorem C05_swap_rows_comm {row col : Nat} (A : Mat T row col) (r1 r2 : Fin row) :
    swap_rows A r1 r2 = swap_rows A r2 r1 := by
  rw [swap_rows_ok, swap_rows_ok, Equiv.swap_comm]

/-- The outer rows of a `3 × 2` matrix exchange; the middle one stays. -/
example : swap_rows (!![1, 2; 3, 4; 5, 6] : Mat ℚ 3 2) 0 2 = .ok !![5, 6; 3, 4; 1, 2] := by
  decide +kernel

/-- C06: `swap_cols` exchanges columns `c1` and `c2` and leaves every other column alone. -/
theorem C06_swap_cols {row col : Nat} (A : Mat T row col) (c1 c2 : Fin col) :
    ∃ R : Mat T row col, swap_cols A c1 c2 = .ok R ∧
      (∀ a, R a c1 = A a c2) ∧ (∀ a, R a c2 = A a c1) ∧
      ∀ a b, b ≠ c1 → b ≠ c2 → R a b = A a b := by
  refine ⟨_, swap_cols_ok A c1 c2, fun b => ?_, fun b => ?_, fun a b h1 h2 => ?_⟩
  · rw [Matrix.of_apply, Equiv.swap_apply_left]
  · rw [Matrix.of_apply, Equiv.swap_apply_right]
  · rw [Matrix.of_apply, Equiv.swap_apply_of_ne_of_ne h1 h2]

/-- C06: swapping twice restores the matrix. -/
theorem C06_swap_cols_twice {row col : Nat} (A : Mat T row col) (c1 c2 : Fin col) :
    (do swap_cols (← swap_cols A c1 c2) c1 c2) = .ok A := by
  rw [swap_cols_ok, ok_bind, swap_cols_ok]
  congr 1
  ext a b
  simp [Equiv.swap_apply_self]

/-- C06: swapping columns is swapping rows of the transpose. -/
theorem C06_swap_cols_trans {row col : Nat} (A : Mat T row col) (c1 c2 : Fin col) :
    (do trans (← swap_cols A c1 c2)) = (do swap_rows (← trans A) c1 c2) := by
  rw [swap_cols_ok, ok_bind, trans_ok, trans_ok, ok_bind, swap_rows_ok]
  rfl

example : swap_rows (!![1, 2; 3, 4; 5, 6] : Mat ℚ 3 2) 0 2 = .ok !![5, 6; 3, 4; 1, 2] := by
  decide +kernel
example : swap_cols (!![1, 2, 3; 4, 5, 6] : Mat ℚ 2 3) 0 2 = .ok !![3, 2, 1; 6, 5, 4] := by
  decide +kernel

/-! ## C07 -/

/-- C07: equal indices, even out of range, are a no-op. -/
theorem C07_swap_rows_same {row col : Nat} (A : Mat T row col) (r : Nat) :
    swap_rows A r r = .ok A := by
  unfold swap_rows; rw [if_neg (by simp)]

/-- C07: equal indices, even out of range, are a no-op. -/
theorem C07_swap_cols_same {row col : Nat} (A : Mat T row col) (c : Nat) :
    swap_cols A c c = .ok A := by
  unfold swap_cols; rw [if_neg (by simp)]

/-- C07: with distinct indices `swap_rows` returns iff both are in range or there is no column. -/
theorem C07_swap_rows_safe_iff {row col : Nat} (A : Mat T row col) {r1 r2 : Nat} (hne : r1 ≠ r2) :
    (∃ R, swap_rows A r1 r2 = .ok R) ↔ (r1 < row ∧ r2 < row) ∨ col = 0 := by
  constructor
  · rintro ⟨R, hR⟩
    by_contra hcon
    rw [swap_rows_oob A hne (by omega) (by omega)] at hR
    cases hR
  · rintro (⟨h1, h2⟩ | h)
    · exact ⟨_, swap_rows_ok A ⟨r1, h1⟩ ⟨r2, h2⟩⟩
    · subst h
      exact ⟨A, by unfold swap_rows; rw [if_pos hne, forUp_nil le_rfl]⟩

/-- C07: otherwise it is an out-of-bounds access. -/
theorem C07_swap_rows_oob {row col : Nat} (A : Mat T row col) {r1 r2 : Nat} (hne : r1 ≠ r2)
    (h : ¬ ((r1 < row ∧ r2 < row) ∨ col = 0)) :
    swap_rows A r1 r2 = .error (.ub .outOfBounds) :=
  swap_rows_oob A hne (by omega) (by omega)

/-- C07: with distinct indices `swap_cols` returns iff both are in range or there is no row. -/
theorem C07_swap_cols_safe_iff {row col : Nat} (A : Mat T row col) {c1 c2 : Nat} (hne : c1 ≠ c2) :
    (∃ R, swap_cols A c1 c2 = .ok R) ↔ (c1 < col ∧ c2 < col) ∨ row = 0 := by
  constructor
  · rintro ⟨R, hR⟩
    by_contra hcon
    rw [swap_cols_oob A hne (by omega) (by omega)] at hR
    cases hR
  · rintro (⟨h1, h2⟩ | h)
    · exact ⟨_, swap_cols_ok A ⟨c1, h1⟩ ⟨c2, h2⟩⟩
    · subst h
      exact ⟨A, by unfold swap_cols; rw [if_pos hne, forUp_nil le_rfl]⟩

/-- C07: otherwise it is an out-of-bounds access. -/
theorem C07_swap_cols_oob {row col : Nat} (A : Mat T row col) {c1 c2 : Nat} (hne : c1 ≠ c2)
    (h : ¬ ((c1 < col ∧ c2 < col) ∨ row = 0)) :
    swap_cols A c1 c2 = .error (.ub .outOfBounds) :=
  swap_cols_oob A hne (by omega) (by omega)

example : swap_rows (!![1, 2; 3, 4] : Mat ℚ 2 2) 0 2 = .error (.ub .outOfBounds) := by
  decide +kernel
example : swap_rows (!![1, 2; 3, 4] : Mat ℚ 2 2) 9 9 = .ok !![1, 2; 3, 4] := by decide +kernel

/-! ## C08, C09, C10

`Fin.castAdd n i` is index `i` seen in the larger range, `Fin.natAdd n i` is index `n + i`. -/

/-- `R` is `A` stacked on `B`. -/
def IsStacked {i1 i2 j : Nat} (A : Mat T i1 j) (B : Mat T i2 j) (R : Mat T (i1 + i2) j) : Prop :=
  (∀ a b, R (Fin.castAdd i2 a) b = A a b) ∧ ∀ a b, R (Fin.natAdd i1 a) b = B a b

/-- `R` is `A` next to `B`. -/
def IsJoined {i j1 j2 : Nat} (A : Mat T i j1) (B : Mat T i j2) (R : Mat T i (j1 + j2)) : Prop :=
  (∀ a b, R a (Fin.castAdd j2 b) = A a b) ∧ ∀ a b, R a (Fin.natAdd j1 b) = B a b

theorem stackRows_spec {i1 i2 j : Nat} (A : Mat T i1 j) (B : Mat T i2 j) :
    IsStacked A B (stackRows A B) := by
  constructor
  · intro a b
    simp [stackRows]
  · intro a b
    simp [stackRows]

theorem joinCols_spec {i j1 j2 : Nat} (A : Mat T i j1) (B : Mat T i j2) :
    IsJoined A B (joinCols A B) := by
  constructor
  · intro a b
    simp [joinCols]
  · intro a b
    simp [joinCols]

/-- The specification determines the matrix ("and nothing else appears"). -/
theorem IsStacked.unique {i1 i2 j : Nat} {A : Mat T i1 j} {B : Mat T i2 j}
    {R R' : Mat T (i1 + i2) j} (h : IsStacked A B R) (h' : IsStacked A B R') : R = R' := by
  ext a b
  refine Fin.addCases (fun a => ?_) (fun a => ?_) a
  · rw [h.1, h'.1]
  · rw [h.2, h'.2]

/-- The specification determines the matrix. -/
theorem IsJoined.unique {i j1 j2 : Nat} {A : Mat T i j1} {B : Mat T i j2}
    {R R' : Mat T i (j1 + j2)} (h : IsJoined A B R) (h' : IsJoined A B R') : R = R' := by
  ext a b
  refine Fin.addCases (fun b => ?_) (fun b => ?_) b
  · rw [h.1, h'.1]
  · rw [h.2, h'.2]

/-- C08: `concatenateV(A,B)` is `A` stacked on `B`. -/
theorem C08_concatenateV {n : Nat} (A B : Mat T n n) :
    ∃ R, concatenateV A B = .ok R ∧ IsStacked A B R :=
  ⟨_, concatenateRows_ok A B, stackRows_spec A B⟩

/-- C08: `concatenateH(A,B)` is `A` next to `B`. -/
theorem C08_concatenateH {n : Nat} (A B : Mat T n n) :
    ∃ R, concatenateH A B = .ok R ∧ IsJoined A B R :=
  ⟨_, concatenateH_ok A B, joinCols_spec A B⟩

/-- Both directions on `2 × 2` operands. -/
example : concatenateV (!![1, 2; 3, 4] : Mat ℚ 2 2) !![5, 6; 7, 8] = .ok !![1, 2; 3, 4; 5, 6; 7, 8] ∧
    concatenateH (!![1, 2; 3, 4] : Mat ℚ 2 2) !![5, 6; 7, 8] = .ok !![1, 2, 5, 6; 3, 4, 7, 8] := by
  constructor <;> decide +kernel

/-- C09: the vertical `concatenate`. -/
theorem C09_concatenate_rows {i1 i2 j : Nat} (A : Mat T i1 j) (B : Mat T i2 j) :
    ∃ R, concatenateRows A B = .ok R ∧ IsStacked A B R :=
  ⟨_, concatenateRows_ok A B, stackRows_spec A B⟩

/-- C09: the horizontal `concatenate`. -/
theorem C09_concatenate_cols {i j1 j2 : Nat} (A : Mat T i j1) (B : Mat T i j2) :
    ∃ R, concatenateCols A B = .ok R ∧ IsJoined A B R :=
  ⟨_, concatenateCols_ok A B, joinCols_spec A B⟩

/-- A row on top of two rows, a column beside two columns. -/
example : concatenateRows (!![1, 2] : Mat ℚ 1 2) !![3, 4; 5, 6] = .ok !![1, 2; 3, 4; 5, 6] ∧
    concatenateCols (!![1; 2] : Mat ℚ 2 1) !![3, 4; 5, 6] = .ok !![1, 3, 4; 2, 5, 6] := by
  constructor <;> decide +kernel

/-- C10, the claim: `concatenate(A,B)` of square matrices is the pair (stacked, joined). -/
def C10_claim : Prop :=
  ∀ (n : Nat) (A B : Mat ℚ n n),
    ∃ R S, concatenateSquare A B = .ok (R, S) ∧ IsStacked A B R ∧ IsJoined A B S

/-- C10 is false: `second` of the pair is `A` next to `A`. -/
theorem C10_false : ¬ C10_claim := by
  intro h
  obtain ⟨R, S, h1, -, h3⟩ := h 1 (Mat.const 1) (Mat.const 2)
  rw [concatenateSquare_ok] at h1
  have h2 := (Prod.mk.inj (Except.ok.inj h1)).2
  have h4 := (joinCols_spec (Mat.const 1 : Mat ℚ 1 1) (Mat.const 1 : Mat ℚ 1 1)).2 0 0
  have h5 := h3.2 0 0
  rw [← h2, h4] at h5
  exact absurd h5 (by decide +kernel)

/-- C10, what holds: `first` is `A` stacked on `B`; `second` is `A` next to `A`; so the claim holds
exactly when `A = B`. -/
theorem C10_concatenate_square_partial {n : Nat} (A B : Mat T n n) :
    ∃ R S, concatenateSquare A B = .ok (R, S) ∧ IsStacked A B R ∧ IsJoined A A S ∧
      (IsJoined A B S ↔ A = B) := by
  refine ⟨_, _, concatenateSquare_ok A B, stackRows_spec A B, joinCols_spec A A, ?_⟩
  constructor
  · intro h
    ext a b
    rw [← h.2 a b, (joinCols_spec A A).2 a b]
  · rintro rfl
    exact joinCols_spec A A

example : concatenateV (!![1] : Mat ℚ 1 1) !![2] = .ok !![1; 2] := by decide +kernel
example : concatenateH (!![1] : Mat ℚ 1 1) !![2] = .ok !![1, 2] := by decide +kernel
example : concatenateRows (!![1, 2] : Mat ℚ 1 2) !![3, 4; 5, 6] = .ok !![1, 2; 3, 4; 5, 6] := by
  decide +kernel
example : concatenateCols (!![1; 2] : Mat ℚ 2 1) !![3, 4; 5, 6] = .ok !![1, 3, 4; 2, 5, 6] := by
  decide +kernel
example : concatenateSquare (!![1] : Mat ℚ 1 1) !![2] = .ok (!![1; 2], !![1, 1]) := by
  decide +kernel

/-! ## C11, C62 -/

open Overload in
/-- C11: which `concatenate` a call selects, for all shapes. -/
theorem C11_concatenate_overload (r1 c1 r2 c2 : Nat) :
    (resolve concatCands [r1, c1, r2, c2] = .selected .square ↔ r1 = c1 ∧ r2 = c2 ∧ r1 = r2) ∧
    (resolve concatCands [r1, c1, r2, c2] = .selected .rows ↔ c1 = c2 ∧ r1 ≠ r2) ∧
    (resolve concatCands [r1, c1, r2, c2] = .selected .cols ↔ r1 = r2 ∧ c1 ≠ c2) ∧
    (resolve concatCands [r1, c1, r2, c2] = .ambiguous ↔ r1 = r2 ∧ c1 = c2 ∧ r1 ≠ c1) ∧
    (resolve concatCands [r1, c1, r2, c2] = .noMatch ↔ r1 ≠ r2 ∧ c1 ≠ c2) := by
  rw [resolve_concat]
  have hx := decide_eq_true_iff (p := r1 = c1 ∧ r1 = r2 ∧ r1 = c2)
  have hy := decide_eq_true_iff (p := c1 = c2)
  have hz := decide_eq_true_iff (p := r1 = r2)
  revert hx hy hz
  generalize decide (r1 = c1 ∧ r1 = r2 ∧ r1 = c2) = x
  generalize decide (c1 = c2) = y
  generalize decide (r1 = r2) = z
  intro hx hy hz
  cases x <;> cases y <;> cases z <;>
    simp only [Bool.false_eq_true, false_iff, true_iff] at hx hy hz <;>
    simp only [pickConcat, reduceCtorEq, Outcome.selected.injEq, false_iff, true_iff] <;> omega

open Overload in
/-- Each of the five outcomes is met by some shapes. -/
example : resolve concatCands [2, 2, 2, 2] = .selected .square ∧
    resolve concatCands [1, 3, 2, 3] = .selected .rows ∧
    resolve concatCands [3, 1, 3, 2] = .selected .cols ∧
    resolve concatCands [2, 3, 2, 3] = .ambiguous ∧ resolve concatCands [2, 2, 3, 3] = .noMatch := by
  decide

open Overload in
/-- C62: `det`/`inv` of an `n x n` matrix selects the closed form exactly for `n = 1, 2, 3` and
otherwise the general template; no call is ambiguous. -/
theorem C62_square_overload (n : Nat) :
    resolve squareCands [n, n] = .selected
      (if n = 1 then .one else if n = 2 then .two else if n = 3 then .three else .general) :=
  resolve_square n

/-! ## C12, C13 -/

/-- C12: `getminor(A,i,j)` is `A` without row `i` and column `j`. `i.succAbove` is the increasing
enumeration of the indices other than `i`. -/
theorem C12_getminor {m : Nat} (A : Mat T (m + 1) (m + 1)) (i j : Fin (m + 1)) :
    ∃ R : Mat T m m, getminor A i j = .ok R ∧ ∀ a b, R a b = A (i.succAbove a) (j.succAbove b) :=
  ⟨_, getminor_ok A i j, fun _ _ => rfl⟩

/-- The minor of a `3 × 3` matrix without its row `0` and column `1`. -/
example : getminor (!![1, 2, 3; 4, 5, 6; 7, 8, 9] : Mat ℚ 3 3) (0 : Fin 3) (1 : Fin 3) = .ok !![4, 6; 7, 9] := by
  decide +kernel

/-- What `succAbove` is: increasing, and hitting exactly the other indices. -/
theorem succAbove_enumerates {m : Nat} (i : Fin (m + 1)) :
    StrictMono i.succAbove ∧ ∀ k, (∃ a, i.succAbove a = k) ↔ k ≠ i :=
  ⟨Fin.strictMono_succAbove i, fun _ =>
    ⟨fun ⟨a, h⟩ => h ▸ Fin.succAbove_ne i a, fun h => Fin.exists_succAbove_eq h⟩⟩

/-- C13: for `n ≥ 2`, `getminor(A,i,j)` returns iff both indices are in range. -/
theorem C13_getminor_safe_iff {n : Nat} (hn : 2 ≤ n) (A : Mat T n n) (i j : Nat) :
    (∃ R, getminor A i j = .ok R) ↔ i < n ∧ j < n := by
  constructor
  · rintro ⟨R, hR⟩
    by_contra hcon
    by_cases hi : n ≤ i
    · rw [getminor_row_oob hn A hi] at hR; cases hR
    · rw [getminor_col_oob hn A (by omega)] at hR; cases hR
  · rintro ⟨hi, hj⟩
    obtain ⟨m, rfl⟩ : ∃ m, n = m + 1 := ⟨n - 1, by omega⟩
    exact ⟨_, getminor_ok A ⟨i, hi⟩ ⟨j, hj⟩⟩

/-- C13: otherwise it is an out-of-bounds write. -/
theorem C13_getminor_oob {n : Nat} (hn : 2 ≤ n) (A : Mat T n n) (i j : Nat)
    (h : n ≤ i ∨ n ≤ j) : getminor A i j = .error (.ub .outOfBounds) := by
  rcases h with h | h
  · exact getminor_row_oob hn A h
  · exact getminor_col_oob hn A h

/-- C13, `n = 1`: out of bounds exactly when both indices are out of range. -/
theorem C13_getminor_one (A : Mat T 1 1) (i j : Nat) :
    (∃ R, getminor A i j = .ok R) ↔ i = 0 ∨ j = 0 := by
  rw [getminor_one]
  split
  · next h => exact ⟨fun _ => h, fun _ => ⟨_, rfl⟩⟩
  · next h => exact ⟨fun ⟨R, hR⟩ => (by cases hR), fun h' => absurd h' h⟩

example : getminor (!![1, 2, 3; 4, 5, 6; 7, 8, 9] : Mat ℚ 3 3) 0 1 =
    .ok (!![4, 6; 7, 9] : Mat ℚ 2 2) := by decide +kernel
example : getminor (!![1, 2; 3, 4] : Mat ℚ 2 2) 2 0 = .error (.ub .outOfBounds) := by
  decide +kernel

end MatrixLibs
