import Verif.Props.BoolArith
import Verif.Proof.NarrowConv
import Mathlib.Tactic.FinCases

/-!
# Property C119: convolution of `bool` matrices is binary dilation
-/

namespace MatrixLibs

set_option linter.unusedSectionVars false

open Promo (load store)
open CScalar (ofInt)

variable {i j : Nat}

/-- The element of `A` at row `a`, column `b` exists and is true. -/
def hit (A : Mat Bool i j) (a b : ℤ) : Prop := ∃ (x : Fin i) (y : Fin j), (x.val : ℤ) = a ∧ (y.val : ℤ) = b ∧ A x y = true

/-- A truth value as an `int`. -/
def IsBit (p : SInt 32) (P : Prop) : Prop := (p.val = 1 ∧ P) ∨ (p.val = 0 ∧ ¬ P)

theorem wp_convTerm_bool (A : Mat Bool i j) (k : Mat Bool 3 3) (u v : Fin 3) (a b : ℤ) (hi : i ≤ 2 ^ 31) (hj : j ≤ 2 ^ 31)
    (ha : -(2 ^ 31) ≤ a) (ha' : a < 2 ^ 32) (hb : -(2 ^ 31) ≤ b) (hb' : b < 2 ^ 32) :
    wp (Promoted.convTerm A k u v (szOf a) (szOf b)) (fun p => IsBit p (k u v = true ∧ hit A a b)) (fun _ => False) := by
  unfold Promoted.convTerm
  by_cases h : isOutOfRange i j (szToInt (szOf a)) (szToInt (szOf b)) = 0
  · rw [if_neg (not_not.mpr h)]
    rw [isOutOfRange_eq_zero, inRange_iff i (by omega) a ha ha', inRange_iff j (by omega) b hb hb'] at h
    obtain ⟨⟨⟨h1, h2⟩, h3⟩, ⟨h4, h5⟩, h6⟩ := h
    have hM : (sizeMod : ℤ) = 2 ^ 64 := by unfold sizeMod; norm_num
    have ea : szOf a = a.toNat := by
      unfold szOf; rw [Int.emod_eq_of_lt h1 (by rw [hM]; omega)]
    have eb : szOf b = b.toNat := by
      unfold szOf; rw [Int.emod_eq_of_lt h4 (by rw [hM]; omega)]
    rw [ea, eb, rd_fin, ok_bind, rd_eq (by omega) (by omega), ok_bind]
    have hh : hit A a b ↔ A ⟨a.toNat, by omega⟩ ⟨b.toNat, by omega⟩ = true := by
      constructor
      · rintro ⟨x, y, rfl, rfl, h⟩
        exact h
      · intro h
        exact ⟨_, _, by simp [h1], by simp [h4], h⟩
    have key : ∀ x y : Bool, wp (CScalar.mul (load x : SInt 32) (load y)) (fun p => IsBit p (x = true ∧ y = true))
        (fun _ => False) := by
      intro x y
      have : CScalar.mul (load x : SInt 32) (load y) = .ok (load (x && y)) := by
        cases x <;> cases y <;> decide +kernel
      rw [this, wp_ok]
      unfold IsBit
      rw [bool_load]
      cases x <;> cases y <;> simp
    refine wp_mono (key _ _) (fun p hp => ?_) (fun _ h => h)
    rw [hh]
    exact hp
  · rw [if_pos h, wp_ok]
    rw [isOutOfRange_eq_zero, inRange_iff i (by omega) a ha ha', inRange_iff j (by omega) b hb hb'] at h
    refine .inr ⟨int_ofInt 0 (by norm_num) (by norm_num), ?_⟩
    rintro ⟨-, x, y, rfl, rfl, -⟩
    have := x.2
    have := y.2
    omega

theorem wp_accum_bool (xs : List (Res (SInt 32))) (ps : List Prop)
    (h : List.Forall₂ (fun x P => wp x (fun p => IsBit p P) (fun _ => False)) xs ps) :
    ∀ v : Bool, wp (accumValN xs v) (fun y => y = true ↔ v = true ∨ ∃ P ∈ ps, P) (fun _ => False) := by
  induction h with
  | nil =>
    intro v
    show wp (.ok v) _ _
    rw [wp_ok]
    simp
  | @cons x P xs ps ht _ ih =>
    intro v
    rw [accumValN, wp_bind]
    refine wp_mono ht ?_ (fun _ h => h)
    intro p hp
    have hadd : ∀ (v c : Bool) (p : SInt 32), p.val = (if c then 1 else 0) → ∃ q, CScalar.add (load v) p = .ok q ∧
        (store q : Bool) = (v || c) := by
      intro v c p hp
      have hr : InRange 32 ((load v : SInt 32).val + p.val) := by
        rw [bool_load, hp]
        cases v <;> cases c <;> decide
      refine ⟨_, checked_ok hr, ?_⟩
      show decide ((load v : SInt 32).val + p.val ≠ 0) = _
      rw [bool_load, hp]
      cases v <;> cases c <;> rfl
    rcases hp with ⟨hp, hP⟩ | ⟨hp, hP⟩
    · obtain ⟨q, hq, hs⟩ := hadd v true p hp
      rw [hq, ok_bind, hs]
      refine wp_mono (ih _) (fun y hy => ?_) (fun _ h => h)
      rw [hy]
      simp only [List.mem_cons, exists_eq_or_imp]
      cases v <;> simp [hP]
    · obtain ⟨q, hq, hs⟩ := hadd v false p hp
      rw [hq, ok_bind, hs]
      refine wp_mono (ih _) (fun y hy => ?_) (fun _ h => h)
      rw [hy]
      simp only [List.mem_cons, exists_eq_or_imp]
      cases v <;> simp [hP]

theorem wp_convCell_bool (A : Mat Bool i j) (k : Mat Bool 3 3) (a b : ℤ) (hi : i ≤ 2 ^ 31) (hj : j ≤ 2 ^ 31)
    (ha : -1 ≤ a) (ha' : a + 1 < 2 ^ 32) (hb : -1 ≤ b) (hb' : b + 1 < 2 ^ 32) :
    wp (convCellN A k a b) (fun y => y = true ↔ ∃ u v : Fin 3, k u v = true ∧ hit A (a + u.val - 1) (b + v.val - 1))
      (fun _ => False) := by
  unfold convCellN
  have C := fun u v a b => wp_convTerm_bool A k u v a b hi hj
  refine wp_mono (wp_accum_bool (convTermsN A k a b)
    [k 0 0 = true ∧ hit A (a - 1) (b - 1), k 0 1 = true ∧ hit A (a - 1) b, k 0 2 = true ∧ hit A (a - 1) (b + 1),
     k 1 0 = true ∧ hit A a (b - 1), k 1 1 = true ∧ hit A a b, k 1 2 = true ∧ hit A a (b + 1),
     k 2 0 = true ∧ hit A (a + 1) (b - 1), k 2 1 = true ∧ hit A (a + 1) b, k 2 2 = true ∧ hit A (a + 1) (b + 1)]
    ?_ (Promoted.lit 0)) ?_ (fun _ h => h)
  · unfold convTermsN
    refine .cons (C 0 0 _ _ ?_ ?_ ?_ ?_) (.cons (C 0 1 _ _ ?_ ?_ ?_ ?_) (.cons (C 0 2 _ _ ?_ ?_ ?_ ?_)
      (.cons (C 1 0 _ _ ?_ ?_ ?_ ?_) (.cons (C 1 1 _ _ ?_ ?_ ?_ ?_) (.cons (C 1 2 _ _ ?_ ?_ ?_ ?_)
      (.cons (C 2 0 _ _ ?_ ?_ ?_ ?_) (.cons (C 2 1 _ _ ?_ ?_ ?_ ?_)
      (.cons (C 2 2 _ _ ?_ ?_ ?_ ?_) .nil)))))))) <;> omega
  · intro y hy
    rw [hy, bool_lit_zero]
    have e0 : ∀ x : ℤ, x + ((0 : Fin 3).val : ℤ) - 1 = x - 1 := fun x => by simp
    have e1 : ∀ x : ℤ, x + ((1 : Fin 3).val : ℤ) - 1 = x := fun x => by simp
    have e2 : ∀ x : ℤ, x + ((2 : Fin 3).val : ℤ) - 1 = x + 1 := fun x => by
      show x + 2 - 1 = x + 1
      ring
    have f3 : ∀ P : Fin 3 → Prop, (∃ u, P u) ↔ P 0 ∨ P 1 ∨ P 2 := by
      intro P
      constructor
      · rintro ⟨u, hu⟩
        fin_cases u
        · exact .inl hu
        · exact .inr (.inl hu)
        · exact .inr (.inr hu)
      · rintro (h | h | h)
        exacts [⟨_, h⟩, ⟨_, h⟩, ⟨_, h⟩]
    simp only [f3, e0, e1, e2, List.mem_cons, List.not_mem_nil, or_false, exists_eq_or_imp, exists_eq_left,
      Bool.false_eq_true, false_or, or_assoc]

/-- C119: `conv2(A, kernel)` is true at a cell exactly if the kernel, centred there, covers a true element of `A` with a
true element: it is the dilation of `A` (by the reflected kernel). It always returns. -/
theorem C119_conv2 (A : Mat Bool i j) (k : Mat Bool 3 3) (hi : i ≤ 2 ^ 31) (hj : j ≤ 2 ^ 31) :
    ∃ S, Promoted.conv2 A k = .ok S ∧ ∀ r c, S r c = true ↔ ∃ (u v : Fin 3) (a : Fin i) (b : Fin j),
      k u v = true ∧ A a b = true ∧ a.val + 1 = r.val + u.val ∧ b.val + 1 = c.val + v.val := by
  rw [conv2_cellsN A k (by unfold sizeMod; omega) (by unfold sizeMod; omega)]
  refine wp_total (wp_mono (wp_fill (g := fun it jt => convCellN A k it jt) _) ?_ ?_)
  · intro S hS r c
    have hr := r.2
    have hc := c.2
    have h := wp_convCell_bool A k r.val c.val hi hj (by omega) (by omega) (by omega) (by omega)
    have h' := wp_ok_elim h (hS r c)
    rw [h']
    constructor
    · rintro ⟨u, v, hk, a, b, ha, hb, h⟩
      exact ⟨u, v, a, b, hk, h, by omega, by omega⟩
    · rintro ⟨u, v, a, b, hk, h, ha, hb⟩
      exact ⟨u, v, hk, a, b, by omega, by omega, h⟩
  · rintro e ⟨r, c, he⟩
    have hr := r.2
    have hc := c.2
    have h := wp_convCell_bool A k r.val c.val hi hj (by omega) (by omega) (by omega) (by omega)
    have := wp_error_elim h he
    exact this

/-- C119: the same for `conv2_full`. -/
theorem C119_conv2_full (A : Mat Bool i j) (k : Mat Bool 3 3) (hi : i ≤ 2 ^ 31) (hj : j ≤ 2 ^ 31) :
    ∃ S, Promoted.conv2_full A k = .ok S ∧ ∀ r c, S r c = true ↔ ∃ (u v : Fin 3) (a : Fin i) (b : Fin j),
      k u v = true ∧ A a b = true ∧ a.val + 2 = r.val + u.val ∧ b.val + 2 = c.val + v.val := by
  rw [conv2_full_cellsN A k (by unfold sizeMod; omega) (by unfold sizeMod; omega)]
  refine wp_total (wp_mono (wp_fill (g := fun it jt => convCellN A k ((it : ℤ) - 1) ((jt : ℤ) - 1)) _) ?_ ?_)
  · intro S hS r c
    have hr := r.2
    have hc := c.2
    have h := wp_convCell_bool A k ((r.val : ℤ) - 1) ((c.val : ℤ) - 1) hi hj (by omega) (by omega) (by omega) (by omega)
    have h' := wp_ok_elim h (hS r c)
    rw [h']
    constructor
    · rintro ⟨u, v, hk, a, b, ha, hb, h⟩
      exact ⟨u, v, a, b, hk, h, by omega, by omega⟩
    · rintro ⟨u, v, a, b, hk, h, ha, hb⟩
      exact ⟨u, v, hk, a, b, by omega, by omega, h⟩
  · rintro e ⟨r, c, he⟩
    have hr := r.2
    have hc := c.2
    have h := wp_convCell_bool A k ((r.val : ℤ) - 1) ((c.val : ℤ) - 1) hi hj (by omega) (by omega) (by omega) (by omega)
    have := wp_error_elim h he
    exact this

/-- C119: `conv2_valid` keeps the cells at which the kernel lies inside `A`. -/
theorem C119_conv2_valid {m : Nat} (A : Mat Bool (m + 2) (m + 2)) (k : Mat Bool 3 3) (hm : m + 2 ≤ 2 ^ 31) :
    ∃ V : Mat Bool m m, Promoted.conv2_valid A k = .ok V ∧ ∀ r c, V r c = true ↔ ∃ u v : Fin 3,
      k u v = true ∧ A ⟨r.val + u.val, by omega⟩ ⟨c.val + v.val, by omega⟩ = true := by
  obtain ⟨S, hS, hw⟩ := C119_conv2 A k hm hm
  have h1 : getminor S (m + 2 - 1) (m + 2 - 1) = _ :=
    getminor_ok (m := m + 1) S (Fin.last (m + 1)) (Fin.last (m + 1))
  refine ⟨.of fun r c => S ⟨r.val + 1, by omega⟩ ⟨c.val + 1, by omega⟩, ?_, fun r c => ?_⟩
  · unfold Promoted.conv2_valid
    rw [hS, ok_bind, h1, ok_bind]
    have h2 : getminor (S.submatrix (Fin.last (m + 1)).succAbove (Fin.last (m + 1)).succAbove) 0 0 = _ :=
      getminor_ok (m := m) _ 0 0
    rw [h2]
    congr 1
    ext r c
    simp only [Matrix.submatrix_apply, Matrix.of_apply, Fin.succAbove_last, Fin.succAbove_zero]
    rfl
  · rw [Matrix.of_apply, hw]
    constructor
    · rintro ⟨u, v, a, b, hk, h, ha, hb⟩
      refine ⟨u, v, hk, ?_⟩
      have ea : (⟨r.val + u.val, by omega⟩ : Fin (m + 2)) = a := Fin.ext (by simp only at ha ⊢; omega)
      have eb : (⟨c.val + v.val, by omega⟩ : Fin (m + 2)) = b := Fin.ext (by simp only at hb ⊢; omega)
      rw [ea, eb]
      exact h
    · rintro ⟨u, v, hk, h⟩
      exact ⟨u, v, _, _, hk, h, by simp only; omega, by simp only; omega⟩

/-- A single pixel grows to the reflected kernel. -/
example : Promoted.conv2 !![false, false, false; false, true, false; false, false, false]
    !![true, true, false; false, true, false; false, false, false] =
    .ok (!![false, false, false; false, true, false; false, true, true] : Mat Bool 3 3) := by decide +kernel

end MatrixLibs
