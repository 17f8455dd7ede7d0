import Verif.Model.Movement
import Verif.Proof.Wp
import Mathlib.LinearAlgebra.Matrix.Defs
import Mathlib.Data.Fin.SuccPred

/-!
# Lemmas about the functions that move elements
-/

namespace MatrixLibs

set_option linter.unusedSectionVars false

variable {T : Type} [Inhabited T] {r c : Nat}

theorem fill_ok (i j : Nat) (data : T) : fill i j data = .ok (Mat.const data) := by
  unfold fill
  have := fill_eq (g := fun _ _ => .ok data) (F := Mat.const data) (valueInit i j)
    (fun _ _ => rfl)
  simpa only [ok_bind] using this

theorem zeros_ok [CScalar T] (i j : Nat) :
    zeros (T := T) i j = .ok (Mat.const (CScalar.ofInt 0)) := fill_ok i j _

theorem onesUInt_ok (k i j : Nat) : onesUInt k i j = .ok (Mat.const 1#32) := fill_ok i j _

theorem ones_ok [CScalar T] (i : Nat) :
    ones (T := T) i i = .ok (Mat.const (CScalar.ofInt 1)) := by
  unfold ones
  rw [if_pos rfl, fill_ok]

theorem eye_ok [CScalar T] (n : Nat) (data : T) :
    eye n data = .ok (.of fun a b => if a = b then data else CScalar.ofInt 0) := by
  unfold eye
  rw [fill_ok, ok_bind]
  apply wp_eq
  refine wp_forUp (fun k S => ∀ a b : Fin n, S a b =
    if a = b ∧ a.val < k then data else CScalar.ofInt 0) (Nat.zero_le n) ?_ ?_ ?_
  · intro a b
    simp [Mat.const]
  · intro k S _ hk ih
    rw [wr_eq hk hk, wp_ok]
    intro a b
    rw [Matrix.of_apply, ih a b]
    by_cases h : a.val = k ∧ b.val = k
    · rw [if_pos h, if_pos ⟨Fin.ext (by omega), by omega⟩]
    · rw [if_neg h]
      refine if_congr ⟨fun h' => ⟨h'.1, by omega⟩, fun h' => ⟨h'.1, ?_⟩⟩ rfl rfl
      obtain ⟨rfl, h2⟩ := h'
      omega
  · intro S h
    ext a b
    rw [h a b, Matrix.of_apply]
    simp [a.2]

theorem trans_ok {n m : Nat} (A : Mat T n m) : trans A = .ok A.transpose := by
  unfold trans
  apply wp_eq
  refine wp_forUp (fun k S => ∀ (a : Fin m) (b : Fin n), b.val < k → S a b = A b a)
    (Nat.zero_le n) (fun a b h => by omega) ?_ ?_
  · intro k S _ hk ih
    refine wp_forUp (fun l S => ∀ (a : Fin m) (b : Fin n),
      (b.val < k ∨ b.val = k ∧ a.val < l) → S a b = A b a) (Nat.zero_le m) ?_ ?_ ?_
    · intro a b h
      exact ih a b (by omega)
    · intro l S _ hl ih2
      rw [rd_eq hk hl, ok_bind, wr_eq hl hk, wp_ok]
      intro a b hab
      rw [Matrix.of_apply]
      split
      · next h =>
        obtain ⟨rfl, rfl⟩ := h
        rfl
      · exact ih2 a b (by omega)
    · intro S h a b hb
      exact h a b (by omega)
  · intro S h
    ext a b
    exact h a b b.2

/-- `std::swap` of two elements inside the matrix. -/
theorem swapElem_ok {r c : Nat} (A : Mat T r c) {i1 j1 i2 j2 : Nat}
    (h1 : i1 < r) (h2 : j1 < c) (h3 : i2 < r) (h4 : j2 < c) :
    swapElem A i1 j1 i2 j2 = .ok (.of fun a b =>
      if a.val = i2 ∧ b.val = j2 then A ⟨i1, h1⟩ ⟨j1, h2⟩
      else if a.val = i1 ∧ b.val = j1 then A ⟨i2, h3⟩ ⟨j2, h4⟩ else A a b) := by
  unfold swapElem
  simp only [rd_eq h1 h2, rd_eq h3 h4, wr_eq h1 h2, wr_eq h3 h4, ok_bind, Matrix.of_apply]

theorem swap_rows_ok {row col : Nat} (A : Mat T row col) (r1 r2 : Fin row) :
    swap_rows A r1.val r2.val = .ok (.of fun a b => A (Equiv.swap r1 r2 a) b) := by
  unfold swap_rows
  split
  · next hne =>
    have hne' : r1 ≠ r2 := fun h => hne (by rw [h])
    apply wp_eq
    refine wp_forUp (fun k S => ∀ (a : Fin row) (b : Fin col),
      S a b = if b.val < k then A (Equiv.swap r1 r2 a) b else A a b) (Nat.zero_le col) ?_ ?_ ?_
    · intro a b; simp
    · intro k S _ hk ih
      rw [swapElem_ok S r1.2 hk r2.2 hk, wp_ok]
      intro a b
      rw [Matrix.of_apply]
      split
      · next h =>
        have ha : a = r2 := Fin.ext h.1
        have hb : (⟨k, hk⟩ : Fin col) = b := Fin.ext h.2.symm
        rw [ih, if_neg (by simp), hb, if_pos (by omega), ha, Equiv.swap_apply_right]
      · next h =>
        split
        · next h' =>
          have ha : a = r1 := Fin.ext h'.1
          have hb : (⟨k, hk⟩ : Fin col) = b := Fin.ext h'.2.symm
          rw [ih, if_neg (by simp), hb, if_pos (by omega), ha, Equiv.swap_apply_left]
        · next h' =>
          rw [ih]
          by_cases hb : b.val = k
          · rw [if_neg (by omega), if_pos (by omega)]
            have h1 : a ≠ r1 := fun h => h' ⟨by rw [h], hb⟩
            have h2 : a ≠ r2 := fun h'' => h ⟨by rw [h''], hb⟩
            rw [Equiv.swap_apply_of_ne_of_ne h1 h2]
          · exact if_congr (by omega) rfl rfl
    · intro S h
      ext a b
      rw [h, if_pos b.2, Matrix.of_apply]
  · next hne =>
    have : r1 = r2 := Fin.ext (not_not.mp hne)
    subst this
    simp only [Equiv.swap_self, Equiv.refl_apply]
    rfl

theorem swap_cols_ok {row col : Nat} (A : Mat T row col) (c1 c2 : Fin col) :
    swap_cols A c1.val c2.val = .ok (.of fun a b => A a (Equiv.swap c1 c2 b)) := by
  unfold swap_cols
  split
  · next hne =>
    have hne' : c1 ≠ c2 := fun h => hne (by rw [h])
    apply wp_eq
    refine wp_forUp (fun k S => ∀ (a : Fin row) (b : Fin col),
      S a b = if a.val < k then A a (Equiv.swap c1 c2 b) else A a b) (Nat.zero_le row) ?_ ?_ ?_
    · intro a b; simp
    · intro k S _ hk ih
      rw [swapElem_ok S hk c1.2 hk c2.2, wp_ok]
      intro a b
      rw [Matrix.of_apply]
      split
      · next h =>
        have hb : b = c2 := Fin.ext h.2
        have ha : (⟨k, hk⟩ : Fin row) = a := Fin.ext h.1.symm
        rw [ih, if_neg (by simp), ha, if_pos (by omega), hb, Equiv.swap_apply_right]
      · next h =>
        split
        · next h' =>
          have hb : b = c1 := Fin.ext h'.2
          have ha : (⟨k, hk⟩ : Fin row) = a := Fin.ext h'.1.symm
          rw [ih, if_neg (by simp), ha, if_pos (by omega), hb, Equiv.swap_apply_left]
        · next h' =>
          rw [ih]
          by_cases ha : a.val = k
          · rw [if_neg (by omega), if_pos (by omega)]
            have h1 : b ≠ c1 := fun h => h' ⟨ha, by rw [h]⟩
            have h2 : b ≠ c2 := fun h'' => h ⟨ha, by rw [h'']⟩
            rw [Equiv.swap_apply_of_ne_of_ne h1 h2]
          · exact if_congr (by omega) rfl rfl
    · intro S h
      ext a b
      rw [h, if_pos a.2, Matrix.of_apply]
  · next hne =>
    have : c1 = c2 := Fin.ext (not_not.mp hne)
    subst this
    simp only [Equiv.swap_self, Equiv.refl_apply]
    rfl

/-- Copying a block of a matrix whose source is always readable. -/
theorem block_ok {r c : Nat} {g : Nat → Nat → Res T} {F : Mat T r c} {r0 r1 c0 c1 : Nat}
    (hr01 : r0 ≤ r1) (hr : r1 ≤ r) (h01 : c0 ≤ c1) (h1 : c1 ≤ c) (S : Mat T r c)
    (h : ∀ (a : Fin r) (b : Fin c), r0 ≤ a.val → a.val < r1 → c0 ≤ b.val → b.val < c1 →
      g a.val b.val = .ok (F a b)) :
    (forUp r0 r1 S fun it S => forUp c0 c1 S fun jt S => do wr S it jt (← g it jt)) =
      .ok (.of fun a b => if (r0 ≤ a.val ∧ a.val < r1) ∧ c0 ≤ b.val ∧ b.val < c1
        then F a b else S a b) := by
  apply wp_eq
  refine wp_mono (wp_block (g := g) hr01 hr h01 h1 S) ?_ ?_
  · intro S' hS
    ext a b
    obtain ⟨h2, h3⟩ := hS a b
    rw [Matrix.of_apply]
    split
    · next hc =>
      have := h2 hc
      rw [h a b hc.1.1 hc.1.2 hc.2.1 hc.2.2] at this
      exact (Except.ok.inj this).symm
    · next hc => exact h3 hc
  · rintro e ⟨it, jt, ha, hb, hc, hd, he⟩
    rw [h ⟨it, by omega⟩ ⟨jt, by omega⟩ ha hb hc hd] at he
    cases he

/-- A row segment whose source is always readable. -/
theorem row_ok {r c : Nat} {g : Nat → Res T} {F : Fin c → T} {it c0 c1 : Nat}
    (hit : it < r) (h01 : c0 ≤ c1) (h1 : c1 ≤ c) (S : Mat T r c)
    (h : ∀ b : Fin c, c0 ≤ b.val → b.val < c1 → g b.val = .ok (F b)) :
    (forUp c0 c1 S fun jt S => do wr S it jt (← g jt)) =
      .ok (.of fun a b => if a.val = it ∧ c0 ≤ b.val ∧ b.val < c1 then F b else S a b) := by
  apply wp_eq
  refine wp_mono (wp_row (g := g) hit h01 h1 S) ?_ ?_
  · intro S' hS
    ext a b
    obtain ⟨h2, h3⟩ := hS a b
    rw [Matrix.of_apply]
    split
    · next hc =>
      have := h2 hc
      rw [h b hc.2.1 hc.2.2] at this
      exact (Except.ok.inj this).symm
    · next hc => exact h3 hc
  · rintro e ⟨jt, hc, hd, he⟩
    rw [h ⟨jt, by omega⟩ hc hd] at he
    cases he

/-- `A` stacked on `B`, by index. -/
def stackRows {i1 i2 j : Nat} (A : Mat T i1 j) (B : Mat T i2 j) : Mat T (i1 + i2) j :=
  .of fun a b => if h : a.val < i1 then A ⟨a.val, h⟩ b else B ⟨a.val - i1, by omega⟩ b

/-- `A` next to `B`, by index. -/
def joinCols {i j1 j2 : Nat} (A : Mat T i j1) (B : Mat T i j2) : Mat T i (j1 + j2) :=
  .of fun a b => if h : b.val < j1 then A a ⟨b.val, h⟩ else B a ⟨b.val - j1, by omega⟩

theorem concatenateRows_ok {i1 i2 j : Nat} (A : Mat T i1 j) (B : Mat T i2 j) :
    concatenateRows A B = .ok (stackRows A B) := by
  unfold concatenateRows
  rw [block_ok (F := stackRows A B) (g := fun it jt => rd A it jt) (Nat.zero_le _) (by omega)
    (Nat.zero_le _) le_rfl, ok_bind,
    block_ok (F := stackRows A B) (g := fun it jt => rd B (it - i1) jt) (by omega) le_rfl
    (Nat.zero_le _) le_rfl]
  · congr 1
    ext a b
    simp only [Matrix.of_apply]
    have := a.2
    have := b.2
    split
    · rfl
    · rw [if_pos (by omega)]
  · intro a b h1 h2 h3 h4
    rw [rd_eq (by omega) h4, stackRows, Matrix.of_apply, dif_neg (by omega)]
  · intro a b h1 h2 h3 h4
    rw [rd_eq h2 h4, stackRows, Matrix.of_apply, dif_pos h2]

theorem concatenateV_eq {n : Nat} (A B : Mat T n n) :
    concatenateV A B = concatenateRows A B := rfl

/-- The row-wise copy of two matrices side by side. -/
theorem joinLoop_ok {i j1 j2 : Nat} (A : Mat T i j1) (B : Mat T i j2) (S : Mat T i (j1 + j2)) :
    (forUp 0 i S fun it result => do
      let result ← forUp 0 j1 result fun jt result => do
        wr result it jt (← rd A it jt)
      forUp j1 (j1 + j2) result fun jt result => do
        wr result it jt (← rd B it (jt - j1))) = .ok (joinCols A B) := by
  apply wp_eq
  refine wp_forUp (fun k S => ∀ (a : Fin i) (b : Fin (j1 + j2)), a.val < k →
    S a b = joinCols A B a b) (Nat.zero_le i) (fun a b h => by omega) ?_ ?_
  · intro k S _ hk ih
    rw [row_ok (F := joinCols A B ⟨k, hk⟩) (g := fun jt => rd A k jt) hk (Nat.zero_le _)
      (by omega), ok_bind, row_ok (F := joinCols A B ⟨k, hk⟩)
      (g := fun jt => rd B k (jt - j1)) hk (by omega) le_rfl, wp_ok]
    · intro a b hab
      simp only [Matrix.of_apply]
      have := b.2
      by_cases hak : a.val = k
      · have ha : a = ⟨k, hk⟩ := Fin.ext hak
        subst ha
        split
        · rfl
        · rw [if_pos (by simp; omega)]
      · rw [if_neg (by omega), if_neg (by omega)]
        exact ih a b (by omega)
    · intro b h1 h2
      rw [rd_eq hk (by omega), joinCols, Matrix.of_apply, dif_neg (by omega)]
    · intro b h1 h2
      rw [rd_eq hk h2, joinCols, Matrix.of_apply, dif_pos h2]
  · intro S h
    ext a b
    exact h a b a.2

theorem concatenateCols_ok {i j1 j2 : Nat} (A : Mat T i j1) (B : Mat T i j2) :
    concatenateCols A B = .ok (joinCols A B) := joinLoop_ok A B _

theorem concatenateH_ok {n : Nat} (A B : Mat T n n) :
    concatenateH A B = .ok (joinCols A B) := joinLoop_ok A B _

theorem concatenateSquare_ok {n : Nat} (A B : Mat T n n) :
    concatenateSquare A B = .ok (stackRows A B, joinCols A A) := by
  have h1 : concatenateSquare A B = (do
      let first ← concatenateV A B
      let second ← concatenateH A A
      .ok (first, second)) := by
    unfold concatenateSquare concatenateV concatenateH
    simp only [bind_assoc]
  rw [h1, concatenateV_eq, concatenateRows_ok, concatenateH_ok, ok_bind, ok_bind]

/-! ## getminor -/

/-- Number of indices below `k` other than `i`. -/
def skipCount (i k : Nat) : Nat := if i < k then k - 1 else k

theorem succAbove_val {m : Nat} (i : Fin (m + 1)) (a : Fin m) :
    (i.succAbove a).val = if a.val < i.val then a.val else a.val + 1 := by
  simp only [Fin.succAbove, Fin.lt_def, Fin.val_castSucc]
  split <;> simp

theorem getminor_ok {m : Nat} (A : Mat T (m + 1) (m + 1)) (i j : Fin (m + 1)) :
    getminor A i.val j.val = .ok (A.submatrix i.succAbove j.succAbove) := by
  unfold getminor
  have key : wp (forUp 0 (m + 1) ((valueInit (m + 1 - 1) (m + 1 - 1) : Mat T m m), 0)
      fun k (x : Mat T m m × Nat) =>
        if k ≠ i.val then do
          let t ← forUp 0 (m + 1) (x.1, 0) fun l (y : Mat T m m × Nat) =>
            if l ≠ j.val then do
              let minor ← wr y.1 x.2 y.2 (← rd A k l)
              .ok (minor, y.2 + 1)
            else .ok (y.1, y.2)
          .ok (t.1, x.2 + 1)
        else .ok (x.1, x.2))
      (fun s => s.1 = A.submatrix i.succAbove j.succAbove) (fun _ => False) := by
    refine wp_forUp (fun k (s : Mat T m m × Nat) => s.2 = skipCount i.val k ∧
      ∀ a b : Fin m, a.val < s.2 → s.1 a b = A (i.succAbove a) (j.succAbove b))
      (Nat.zero_le _) ⟨by simp [skipCount], fun a b h => by simp at h⟩ ?_ ?_
    · rintro k ⟨M, rc⟩ _ hk ⟨hrc, ih⟩
      dsimp only at hrc ih ⊢
      split
      · next hki =>
        rw [wp_bind]
        have hrcm : rc < m := by
          have := i.2
          rw [hrc, skipCount]; split <;> omega
        refine wp_forUp (fun l (t : Mat T m m × Nat) => t.2 = skipCount j.val l ∧
          ∀ a b : Fin m, (a.val < rc ∨ a.val = rc ∧ b.val < t.2) →
            t.1 a b = A (i.succAbove a) (j.succAbove b))
          (Nat.zero_le _) ⟨by simp [skipCount], fun a b h => ih a b (by simpa using h)⟩ ?_ ?_
        · rintro l ⟨N, cc⟩ _ hl ⟨hcc, ih2⟩
          dsimp only at hcc ih2 ⊢
          split
          · next hlj =>
            have hccm : cc < m := by
              have := j.2
              rw [hcc, skipCount]; split <;> omega
            rw [rd_eq hk hl, ok_bind, wr_eq hrcm hccm, ok_bind, wp_ok]
            refine ⟨?_, ?_⟩
            · dsimp only
              rw [hcc, skipCount, skipCount]
              split <;> split <;> omega
            · intro a b hab
              dsimp only at hab ⊢
              rw [Matrix.of_apply]
              split
              · next h =>
                have e1 : (i.succAbove a) = ⟨k, hk⟩ := by
                  apply Fin.ext
                  rw [succAbove_val, h.1, hrc]
                  unfold skipCount
                  split <;> split <;> simp_all <;> omega
                have e2 : (j.succAbove b) = ⟨l, hl⟩ := by
                  apply Fin.ext
                  rw [succAbove_val, h.2, hcc]
                  unfold skipCount
                  split <;> split <;> simp_all <;> omega
                rw [e1, e2]
              · next h => exact ih2 a b (by omega)
          · next hlj =>
            rw [wp_ok]
            refine ⟨?_, ih2⟩
            dsimp only
            rw [hcc, skipCount, skipCount]
            split <;> split <;> omega
        · rintro ⟨N, cc⟩ ⟨hcc, h⟩
          rw [wp_ok]
          dsimp only at hcc h ⊢
          refine ⟨?_, ?_⟩
          · rw [hrc, skipCount, skipCount]
            split <;> split <;> omega
          · intro a b hab
            apply h
            have := b.2
            have := j.2
            have h3 : cc = m := by rw [hcc, skipCount, if_pos (by omega)]; omega
            omega
      · next hki =>
        rw [wp_ok]
        refine ⟨?_, ih⟩
        dsimp only
        rw [hrc, skipCount, skipCount]
        split <;> split <;> omega
    · rintro ⟨M, rc⟩ ⟨hrc, h⟩
      dsimp only at hrc h ⊢
      ext a b
      rw [Matrix.submatrix_apply]
      apply h
      have := a.2
      have := i.2
      rw [hrc, skipCount, if_pos (by omega)]
      omega
  obtain ⟨s, hs, hs'⟩ := wp_total key
  erw [hs]
  rw [ok_bind, hs']

/-! ## Out-of-range indices -/

theorem wp_wr (A : Mat T r c) (i j : Nat) (v : T) :
    wp (wr A i j v) (fun _ => i < r ∧ j < c) (fun e => e = .ub .outOfBounds) := by
  by_cases h : i < r ∧ j < c
  · rw [wr_eq h.1 h.2]; exact h
  · rw [wr_oob h]; rfl

theorem swap_rows_oob {row col : Nat} (A : Mat T row col) {r1 r2 : Nat} (hne : r1 ≠ r2)
    (hcol : 0 < col) (h : ¬ (r1 < row ∧ r2 < row)) :
    swap_rows A r1 r2 = .error (.ub .outOfBounds) := by
  unfold swap_rows swapElem
  rw [if_pos hne, forUp_first hcol]
  by_cases h1 : r1 < row
  · rw [rd_eq h1 hcol, ok_bind, rd_oob (by omega)]; rfl
  · rw [rd_oob (by omega)]; rfl

theorem swap_cols_oob {row col : Nat} (A : Mat T row col) {c1 c2 : Nat} (hne : c1 ≠ c2)
    (hrow : 0 < row) (h : ¬ (c1 < col ∧ c2 < col)) :
    swap_cols A c1 c2 = .error (.ub .outOfBounds) := by
  unfold swap_cols swapElem
  rw [if_pos hne, forUp_first hrow]
  by_cases h1 : c1 < col
  · rw [rd_eq hrow h1, ok_bind, rd_oob (by omega)]; rfl
  · rw [rd_oob (by omega)]; rfl

theorem wp_false {α : Type} {x : Res α} {e : Stop}
    (h : wp x (fun _ => False) (fun e' => e' = e)) : x = .error e := by
  cases x with
  | ok a => exact h.elim
  | error e' => exact congrArg _ h

/-- `getminor` with a row index outside the matrix: one row too many is copied. -/
theorem getminor_row_oob {n : Nat} (hn : 2 ≤ n) (A : Mat T n n) {i j : Nat} (hi : n ≤ i) :
    getminor A i j = .error (.ub .outOfBounds) := by
  unfold getminor
  apply wp_false
  rw [wp_bind]
  refine wp_forUp (fun k (s : Mat T (n - 1) (n - 1) × Nat) => s.2 = k ∧ k ≤ n - 1)
      (Nat.zero_le _) ⟨rfl, Nat.zero_le _⟩ ?_ (fun s h => by omega)
  rintro k ⟨M, rc⟩ _ hk ⟨hrc, -⟩
  dsimp only at hrc ⊢
  subst hrc
  rw [if_pos (by omega), wp_bind]
  refine wp_forUp (fun l (t : Mat T (n - 1) (n - 1) × Nat) =>
    rc < n - 1 ∨ l = 0 ∨ l = 1 ∧ j = 0) (Nat.zero_le _) (by omega) ?_ ?_
  · rintro l ⟨N, cc⟩ _ hl hinv
    dsimp only at hinv ⊢
    split
    · next hlj =>
      rw [rd_eq hk hl, ok_bind, wp_bind]
      refine wp_mono (wp_wr N rc cc _) ?_ (fun _ h => h)
      intro N' h
      exact Or.inl h.1
    · next hlj => rw [wp_ok]; omega
  · intro t ht
    rw [wp_ok]
    dsimp only
    omega

/-- `getminor` with a column index outside the matrix: one column too many is copied. -/
theorem getminor_col_oob {n : Nat} (hn : 2 ≤ n) (A : Mat T n n) {i j : Nat} (hj : n ≤ j) :
    getminor A i j = .error (.ub .outOfBounds) := by
  unfold getminor
  apply wp_false
  rw [wp_bind]
  refine wp_forUp (fun k (s : Mat T (n - 1) (n - 1) × Nat) => k = 0 ∨ k = 1 ∧ i = 0)
      (Nat.zero_le _) (Or.inl rfl) ?_ (fun s h => by omega)
  rintro k ⟨M, rc⟩ _ hk hinv
  dsimp only
  split
  · next hki =>
    rw [wp_bind]
    refine wp_forUp (fun l (t : Mat T (n - 1) (n - 1) × Nat) => t.2 = l ∧ l ≤ n - 1)
      (Nat.zero_le _) ⟨rfl, Nat.zero_le _⟩ ?_ (fun t h => by omega)
    rintro l ⟨N, cc⟩ _ hl ⟨hcc, hle⟩
    dsimp only at hcc ⊢
    subst hcc
    rw [if_pos (by omega), rd_eq hk hl, ok_bind, wp_bind]
    refine wp_mono (wp_wr N rc cc _) ?_ (fun _ h => h)
    intro N' h
    rw [wp_ok]
    dsimp only
    omega
  · next hki => rw [wp_ok]; omega

theorem getminor_one (A : Mat T 1 1) (i j : Nat) :
    getminor A i j = if i = 0 ∨ j = 0 then .ok (.of fun a _ => a.elim0)
      else .error (.ub .outOfBounds) := by
  unfold getminor
  simp only [forUp, loopN, rd_eq (A := A) (Nat.one_pos) (Nat.one_pos), ok_bind, Nat.sub_zero]
  by_cases hi : i = 0
  · subst hi
    simp only [ne_eq, not_true, if_false, ok_bind, true_or, if_true]
    congr 1
    ext a
    exact a.elim0
  · by_cases hj : j = 0
    · subst hj
      rw [if_pos (by omega)]
      simp only [ne_eq, not_true, if_false, ok_bind, or_true, if_true]
      congr 1
      ext a
      exact a.elim0
    · rw [if_pos (by omega), if_pos (by omega), wr_oob (by omega), if_neg (by omega)]
      rfl

end MatrixLibs
