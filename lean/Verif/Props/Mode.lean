import Verif.Proof.Scale
import Verif.Proof.ModeLevels
import Verif.Props.Conv
import Verif.Proof.Stats
import Verif.Proof.FloatFinite
import Mathlib.LinearAlgebra.Matrix.Notation

/-!
# Property C149: rounding modes
-/

namespace MatrixLibs

set_option linter.unusedSectionVars false
set_option exponentiation.threshold 300

open Fl

variable {F : Fmt} {r c n : Nat}

/-! ## The operations -/

/-- C149: every operation on finite numbers gives the exact result, rounded in the mode. -/
theorem C149_operations (m : RMode) (a b : Fl F) (ha : a.Finite) (hb : b.Finite) :
    (∃ v : Fl F, CScalar.add (T := Moded m F) a b = .ok v ∧ RoundedBy m (a.val + b.val) v) ∧
    (∃ v : Fl F, CScalar.sub (T := Moded m F) a b = .ok v ∧ RoundedBy m (a.val - b.val) v) ∧
    (∃ v : Fl F, CScalar.mul (T := Moded m F) a b = .ok v ∧ RoundedBy m (a.val * b.val) v) ∧
    (b.val ≠ 0 → ∃ v : Fl F, CScalar.div (T := Moded m F) a b = .ok v ∧ RoundedBy m (a.val / b.val) v) ∧
    (0 ≤ a.val → ∃ v : Fl F, CScalar.sqrt (T := Moded m F) a = .ok v ∧ RoundedBy m (Real.sqrt a.val) v) :=
  ⟨⟨_, rfl, addBy_rounded ha hb⟩, ⟨_, rfl, subBy_rounded ha hb⟩, ⟨_, rfl, mulBy_rounded ha hb⟩,
    fun h0 => ⟨_, rfl, divBy_rounded ha hb h0⟩, fun h0 => ⟨_, rfl, sqrtBy_rounded ha h0⟩⟩

/-- C149: rounding to nearest is the arithmetic of all other properties. -/
theorem C149_nearest (F : Fmt) : modeScalar .nearest F = floatScalar F := modeScalar_nearest

/-- C149: results that are numbers of the format are exact in every mode. -/
theorem C149_representable (m : RMode) (x : ℝ) (a b : Fl F) (h : RoundedBy m x a) (hb : b.Finite) (e : b.val = x) :
    a.Finite ∧ a.val = x := h.faithful.exact hb e

/-! ## Enclosures -/

theorem all_below {A : Mat (Fl F) r c} (hA : MatFinite A) :
    Levels.All (belowLevels F).L A (A.map Fl.val) := fun i j => ⟨hA i j, rfl⟩

theorem all_above {A : Mat (Fl F) r c} (hA : MatFinite A) :
    Levels.All (aboveLevels F).L A (A.map Fl.val) := fun i j => ⟨hA i j, rfl⟩

theorem all_lower (m : RMode) {A : Mat (Fl F) r c} (hA : MatFinite A) :
    Levels.All (lowerLevels m F).L A A := fun i j => ⟨hA i j, rfl⟩

theorem all_upper (m : RMode) {A : Mat (Fl F) r c} (hA : MatFinite A) :
    Levels.All (upperLevels m F).L A A := fun i j => ⟨hA i j, rfl⟩

theorem both_ok_right {α β : Type} {R : α → β → Prop} {x : Res α} {b : β} (h : BothDo R x (.ok b)) :
    ∃ a, x = .ok a ∧ R a b := by
  cases x with
  | ok a => exact ⟨a, rfl, h⟩
  | error e => exact h.elim

theorem both_ok_left {α β : Type} {R : α → β → Prop} {a : α} {y : Res β} (h : BothDo R (.ok a) y) :
    ∃ b, y = .ok b ∧ R a b := by
  cases y with
  | ok b => exact ⟨b, rfl, h⟩
  | error e => exact h.elim

theorem enclosed_of {call : RMode → Res (Mat (Fl F) r c)} {X : Mat ℝ r c}
    (h1 : BothDo (Levels.All (belowLevels F).R) (call .down) (.ok X))
    (h2 : BothDo (Levels.All (aboveLevels F).R) (call .up) (.ok X))
    (h3 : ∀ m, BothDo (Levels.All (lowerLevels m F).R) (call .down) (call m))
    (h4 : ∀ m, BothDo (Levels.All (upperLevels m F).R) (call m) (call .up)) : Enclosed call X := by
  obtain ⟨lo, e1, b1⟩ := both_ok_right h1
  obtain ⟨hi, e2, b2⟩ := both_ok_right h2
  refine ⟨lo, hi, e1, e2, b1, b2, fun m => ?_⟩
  have h3 := h3 m
  rw [e1] at h3
  obtain ⟨P, e3, b3⟩ := both_ok_left h3
  have h4 := h4 m
  rw [e3, e2] at h4
  refine ⟨P, e3, fun i j => ?_⟩
  have hl : Lower (lo i j) (P i j) := b3 i j
  have hu : Upper (P i j) (hi i j) := h4 i j
  by_cases hn : P i j = .nan
  · exact .inl hn
  · exact .inr ⟨hl.2.2.resolve_left hn, hu.2.2.resolve_left hn⟩

/-- C149: sums. -/
theorem C149_sum (A B : Mat (Fl F) r c) (hA : MatFinite A) (hB : MatFinite B) :
    Enclosed (fun m => sum (T := Moded m F) A B) (.of fun i j => (A i j).val + (B i j).val) := by
  refine enclosed_of ?_ ?_ (fun m => Levels.sum (all_lower m hA) (all_lower m hB))
    fun m => Levels.sum (all_upper m hA) (all_upper m hB)
  · have := Levels.sum (all_below hA) (all_below hB)
    rwa [sum_ok] at this
  · have := Levels.sum (all_above hA) (all_above hB)
    rwa [sum_ok] at this

/-- C149: differences. -/
theorem C149_sub (A B : Mat (Fl F) r c) (hA : MatFinite A) (hB : MatFinite B) :
    Enclosed (fun m => MatrixLibs.sub (T := Moded m F) A B) (.of fun i j => (A i j).val - (B i j).val) := by
  refine enclosed_of ?_ ?_ (fun m => Levels.sub' (all_lower m hA) (all_lower m hB))
    fun m => Levels.sub' (all_upper m hA) (all_upper m hB)
  · have := Levels.sub' (all_below hA) (all_below hB)
    rwa [sub_ok] at this
  · have := Levels.sub' (all_above hA) (all_above hB)
    rwa [sub_ok] at this

/-- C149: `A - A` is zero in every mode, -0 if rounding downward and +0 if not. -/
theorem C149_sub_self (m : RMode) (A : Mat (Fl F) r c) (hA : MatFinite A) :
    ∃ Z : Mat (Fl F) r c, sub (T := Moded m F) A A = .ok Z ∧
      ∀ i j, (Z i j).Finite ∧ (Z i j).val = 0 ∧ ((Z i j).signBit = true ↔ m = .down) := by
  refine ⟨fun i j => subBy m (A i j) (A i j), (sub_elementwise (T := Moded m F) A A).eq_ok
    (R := fun i j => subBy (F := F) m (A i j) (A i j)) fun i j => rfl, fun i j => ?_⟩
  have h := hA i j
  dsimp only
  cases ha : A i j with
  | nan => rw [ha] at h; exact h.elim
  | inf s => rw [ha] at h; exact h.elim
  | fin s M hM =>
    have hz : signed s M + signed (!s) M = 0 := by cases s <;> simp [signed]
    unfold subBy neg addBy roundIntBy
    dsimp only
    rw [if_pos hz]
    unfold pack
    rw [dif_pos rep_zero]
    refine ⟨trivial, by rw [val_fin]; simp, ?_⟩
    show (if m = .down then s || !s else s && !s) = true ↔ _
    cases s <;> simp

/-- C149: sums with a number. -/
theorem C149_sumScalar (A : Mat (Fl F) r c) (s : Fl F) (hA : MatFinite A) (hs : s.Finite) :
    Enclosed (fun m => sumScalar (T := Moded m F) A s) (.of fun i j => (A i j).val + s.val) := by
  refine enclosed_of ?_ ?_ (fun m => Levels.sumScalar (all_lower m hA) ⟨hs, rfl⟩)
    fun m => Levels.sumScalar (all_upper m hA) ⟨hs, rfl⟩
  · have := Levels.sumScalar (V := belowLevels F) (all_below hA) (s := s) (s' := s.val) ⟨hs, rfl⟩
    rwa [sumScalar_ok] at this
  · have := Levels.sumScalar (V := aboveLevels F) (all_above hA) (s := s) (s' := s.val) ⟨hs, rfl⟩
    rwa [sumScalar_ok] at this

/-- C149: differences with a number. -/
theorem C149_subScalar (A : Mat (Fl F) r c) (s : Fl F) (hA : MatFinite A) (hs : s.Finite) :
    Enclosed (fun m => subScalar (T := Moded m F) A s) (.of fun i j => (A i j).val - s.val) := by
  refine enclosed_of ?_ ?_ (fun m => Levels.subScalar (all_lower m hA) ⟨hs, rfl⟩)
    fun m => Levels.subScalar (all_upper m hA) ⟨hs, rfl⟩
  · have := Levels.subScalar (V := belowLevels F) (all_below hA) (s := s) (s' := s.val) ⟨hs, rfl⟩
    rwa [subScalar_ok] at this
  · have := Levels.subScalar (V := aboveLevels F) (all_above hA) (s := s) (s' := s.val) ⟨hs, rfl⟩
    rwa [subScalar_ok] at this

/-- C149: products with a number. -/
theorem C149_multScalar (A : Mat (Fl F) r c) (s : Fl F) (hA : MatFinite A) (hs : s.Finite) :
    Enclosed (fun m => multScalar (T := Moded m F) A s) (.of fun i j => (A i j).val * s.val) := by
  refine enclosed_of ?_ ?_ (fun m => Levels.multScalar (all_lower m hA) ⟨hs, rfl⟩)
    fun m => Levels.multScalar (all_upper m hA) ⟨hs, rfl⟩
  · have := Levels.multScalar (V := belowLevels F) (all_below hA) (s := s) (s' := s.val) ⟨hs, rfl⟩
    rwa [multScalar_ok'] at this
  · have := Levels.multScalar (V := aboveLevels F) (all_above hA) (s := s) (s' := s.val) ⟨hs, rfl⟩
    rwa [multScalar_ok'] at this

theorem div_real (handled : Option Exc) (A : Mat ℝ r c) (s : ℝ) (h0 : s ≠ 0) :
    MatrixLibs.div handled A s = .ok (.of fun i j => A i j / s) := by
  have h : CScalar.eq s (CScalar.ofInt 0) = false := by
    show decide (s = ((0 : Int) : ℝ)) = false
    rw [Int.cast_zero]
    exact decide_eq_false h0
  refine (div_elementwise handled A s h).eq_ok fun a b => ?_
  show (if s = 0 then _ else _) = _
  rw [if_neg h0]
  rfl

/-- C149: quotients by a number other than 0. -/
theorem C149_div (handled : Option Exc) (A : Mat (Fl F) r c) (s : Fl F) (hA : MatFinite A) (hs : s.Finite) (h0 : s.val ≠ 0) :
    Enclosed (fun m => MatrixLibs.div (T := Moded m F) handled A s) (.of fun i j => (A i j).val / s.val) := by
  refine enclosed_of ?_ ?_ (fun m => Levels.div' handled (all_lower m hA) ⟨hs, rfl⟩)
    fun m => Levels.div' handled (all_upper m hA) ⟨hs, rfl⟩
  · have := Levels.div' handled (V := belowLevels F) (all_below hA) (s := s) (s' := s.val) ⟨hs, rfl⟩
    rwa [div_real _ _ _ h0] at this
  · have := Levels.div' handled (V := aboveLevels F) (all_above hA) (s := s) (s' := s.val) ⟨hs, rfl⟩
    rwa [div_real _ _ _ h0] at this

/-- C149: matrix products. -/
theorem C149_mult {p q s : Nat} (A : Mat (Fl F) p q) (B : Mat (Fl F) q s) (hA : MatFinite A) (hB : MatFinite B) :
    Enclosed (fun m => mult (T := Moded m F) A B) (A.map Fl.val * B.map Fl.val) := by
  refine enclosed_of ?_ ?_ (fun m => Levels.mult (all_lower m hA) (all_lower m hB))
    fun m => Levels.mult (all_upper m hA) (all_upper m hB)
  · have := Levels.mult (all_below hA) (all_below hB)
    rwa [mult_ok] at this
  · have := Levels.mult (all_above hA) (all_above hB)
    rwa [mult_ok] at this

/-- C149: `conv2`. -/
theorem C149_conv2 (A : Mat (Fl F) r c) (k : Mat (Fl F) 3 3) (hA : MatFinite A) (hk : MatFinite k)
    (hr : r ≤ 2 ^ 31) (hc : c ≤ 2 ^ 31) :
    Enclosed (fun m => conv2 (T := Moded m F) A k)
      (.of fun i j => correlateAt (A.map Fl.val) (k.map Fl.val) i.val j.val) := by
  refine enclosed_of ?_ ?_ (fun m => Levels.conv2 (all_lower m hA) (all_lower m hk))
    fun m => Levels.conv2 (all_upper m hA) (all_upper m hk)
  · have := Levels.conv2 (all_below hA) (all_below hk)
    rwa [conv2_ok _ _ hr hc] at this
  · have := Levels.conv2 (all_above hA) (all_above hk)
    rwa [conv2_ok _ _ hr hc] at this

/-- C149: `conv2_full`. -/
theorem C149_conv2_full (A : Mat (Fl F) r c) (k : Mat (Fl F) 3 3) (hA : MatFinite A) (hk : MatFinite k)
    (hr : r ≤ 2 ^ 31) (hc : c ≤ 2 ^ 31) :
    Enclosed (fun m => conv2_full (T := Moded m F) A k)
      (.of fun i j => correlateAt (A.map Fl.val) (k.map Fl.val) ((i.val : ℤ) - 1) ((j.val : ℤ) - 1)) := by
  refine enclosed_of ?_ ?_ (fun m => Levels.conv2_full (all_lower m hA) (all_lower m hk))
    fun m => Levels.conv2_full (all_upper m hA) (all_upper m hk)
  · have := Levels.conv2_full (all_below hA) (all_below hk)
    rwa [conv2_full_ok _ _ hr hc] at this
  · have := Levels.conv2_full (all_above hA) (all_above hk)
    rwa [conv2_full_ok _ _ hr hc] at this

/-- C149: `conv2_valid`. -/
theorem C149_conv2_valid (A : Mat (Fl F) (n + 2) (n + 2)) (k : Mat (Fl F) 3 3) (hA : MatFinite A) (hk : MatFinite k)
    (hn : n + 2 ≤ 2 ^ 31) :
    Enclosed (fun m => conv2_valid (T := Moded m F) A k) (r := n) (c := n)
      (.of fun i j => ∑ u : Fin 3, ∑ v : Fin 3, (k u v).val * (A ⟨i.val + u.val, by omega⟩ ⟨j.val + v.val, by omega⟩).val) := by
  obtain ⟨V, hV, h⟩ := C49_conv2_valid_window (A.map Fl.val) (k.map Fl.val) hn
  have e : V = .of fun (i : Fin n) (j : Fin n) => ∑ u : Fin 3, ∑ v : Fin 3,
      (k u v).val * (A ⟨i.val + u.val, by omega⟩ ⟨j.val + v.val, by omega⟩).val := by
    ext i j
    exact h i j
  refine enclosed_of (r := n) (c := n) ?_ ?_ (fun m => Levels.conv2_valid (all_lower m hA) (all_lower m hk))
    fun m => Levels.conv2_valid (all_upper m hA) (all_upper m hk)
  · have := Levels.conv2_valid (all_below hA) (all_below hk)
    rwa [hV, e] at this
  · have := Levels.conv2_valid (all_above hA) (all_above hk)
    rwa [hV, e] at this

/-- C149: `mean`, if the number of elements is a number of the format. -/
theorem C149_mean (A : Mat (Fl F) r c) (hA : MatFinite A) (h0 : r * c ≠ 0) (hn : r * c ≤ 2 ^ F.p) :
    ∃ lo hi : Fl F, mean (T := Moded .down F) A = .ok lo ∧ mean (T := Moded .up F) A = .ok hi ∧
      lo.Below ((∑ i, ∑ j, (A i j).val) / ((r * c : Nat) : ℝ)) ∧ hi.Above ((∑ i, ∑ j, (A i j).val) / ((r * c : Nat) : ℝ)) ∧
      ∀ m, ∃ μ : Fl F, mean (T := Moded m F) A = .ok μ ∧ (μ = .nan ∨ (Fl.Le lo μ ∧ Fl.Le μ hi)) := by
  have h1 := Levels.mean (all_below hA) h0 hn
  have h2 := Levels.mean (all_above hA) h0 hn
  rw [mean_ok _ h0] at h1 h2
  obtain ⟨lo, e1, b1⟩ := both_ok_right h1
  obtain ⟨hi, e2, b2⟩ := both_ok_right h2
  refine ⟨lo, hi, e1, e2, b1, b2, fun m => ?_⟩
  have h3 := Levels.mean (all_lower m hA) h0 hn
  have h4 := Levels.mean (all_upper m hA) h0 hn
  rw [e1] at h3
  obtain ⟨μ, e3, b3⟩ := both_ok_left h3
  rw [e3, e2] at h4
  refine ⟨μ, e3, ?_⟩
  have hl : Lower lo μ := b3
  have hu : Upper μ hi := h4
  by_cases hn : (show Fl F from μ) = .nan
  · exact .inl hn
  · exact .inr ⟨hl.2.2.resolve_left hn, hu.2.2.resolve_left hn⟩

/-- C149: if rounding downward and upward give the same finite number, it is the exact result. -/
theorem C149_certified {call : RMode → Res (Mat (Fl F) r c)} {X : Mat ℝ r c} (h : Enclosed call X) (lo hi : Mat (Fl F) r c)
    (e1 : call .down = .ok lo) (e2 : call .up = .ok hi) (i : Fin r) (j : Fin c) (h1 : (lo i j).Finite) (h2 : (hi i j).Finite)
    (e : (lo i j).val = (hi i j).val) : X i j = (lo i j).val := by
  obtain ⟨lo', hi', e1', e2', b1, b2, -⟩ := h
  rw [e1] at e1'
  rw [e2] at e2'
  cases e1'
  cases e2'
  rcases b1 i j with h | ⟨-, hl⟩
  · rw [h] at h1; exact h1.elim
  rcases b2 i j with h | ⟨-, hu⟩
  · rw [h] at h2; exact h2.elim
  linarith

/-! ## What directed rounding does not bound -/

/-- `1 + 2^-23`, the number after 1. -/
def afterOne : Fl binary32 := pack false (2 ^ 149 + 2 ^ 126)

/-- `-2^-23`. -/
def minusTiny : Fl binary32 := pack true (2 ^ 126)

theorem afterOne_val : afterOne.Finite ∧ afterOne.val = 1 + 1 / 2 ^ 23 := by
  have h : binary32.Rep (2 ^ 149 + 2 ^ 126) := by decide +kernel
  have e : afterOne = .fin false (2 ^ 149 + 2 ^ 126) h := by unfold afterOne pack; rw [dif_pos h]
  rw [e]
  refine ⟨trivial, ?_⟩
  rw [val_fin_false]
  norm_num [Fmt.unit, binary32]

theorem minusTiny_val : minusTiny.Finite ∧ minusTiny.val = -(1 / 2 ^ 23) := by
  have h : binary32.Rep (2 ^ 126) := by decide +kernel
  have e : minusTiny = .fin true (2 ^ 126) h := by unfold minusTiny pack; rw [dif_pos h]
  rw [e]
  refine ⟨trivial, ?_⟩
  rw [val_fin_true]
  norm_num [Fmt.unit, binary32]

/-- `-(1 + 2^-22)`. -/
def minusProduct : Fl binary32 := pack true (2 ^ 149 + 2 ^ 127)

theorem minusProduct_val : minusProduct.Finite ∧ minusProduct.val = -(1 + 1 / 2 ^ 22) := by
  have h : binary32.Rep (2 ^ 149 + 2 ^ 127) := by decide +kernel
  have e : minusProduct = .fin true (2 ^ 149 + 2 ^ 127) h := by unfold minusProduct pack; rw [dif_pos h]
  rw [e]
  refine ⟨trivial, ?_⟩
  rw [val_fin_true]
  norm_num [Fmt.unit, binary32]

/-- C149: determinants are not enclosed: computed downward, the determinant of this matrix exceeds the exact one, because
the product that is subtracted was rounded downward too. -/
theorem C149_not_det : ∃ A : Mat (Fl binary32) 2 2, MatFinite A ∧
    ∃ d : Fl binary32, det (T := Moded .down binary32) A = .ok d ∧ d.Finite ∧ (A.map Fl.val).det < d.val := by
  obtain ⟨f1, v1⟩ := afterOne_val
  obtain ⟨f2, v2⟩ := minusProduct_val
  have f0 := zero_finite (F := binary32)
  have v0 := zero_val (F := binary32)
  refine ⟨!![ofInt 0, afterOne; afterOne, ofInt 0], ?_, minusProduct, ?_, f2, ?_⟩
  · intro i j
    fin_cases i <;> fin_cases j <;> assumption
  · show det2 (T := Moded .down binary32) _ = _
    decide +kernel
  · rw [Matrix.det_fin_two]
    simp only [Matrix.map_apply, Matrix.of_apply, Matrix.cons_val_zero, Matrix.cons_val_one, Matrix.cons_val', Matrix.cons_val_fin_one]
    rw [v0, v1, v2]
    norm_num

/-- First factor of the example below. -/
def strassenLeft : Mat (Fl binary32) 2 2 := !![ofInt 0, afterOne; ofInt 0, ofInt 0]

/-- Second factor. -/
def strassenRight : Mat (Fl binary32) 2 2 := !![ofInt 0, ofInt 0; minusTiny, afterOne]

/-- C149: products by `strassen` are not enclosed: here the first element exceeds the exact one. -/
theorem C149_not_strassen : ∃ A B : Mat (Fl binary32) 2 2, MatFinite A ∧ MatFinite B ∧
    ∃ P : Mat (Fl binary32) 2 2, strassen (T := Moded .down binary32) A B = .ok P ∧ (P 0 0).Finite ∧
      (A.map Fl.val * B.map Fl.val) 0 0 < (P 0 0).val := by
  obtain ⟨f1, v1⟩ := afterOne_val
  obtain ⟨f2, v2⟩ := minusTiny_val
  have f0 := zero_finite (F := binary32)
  have v0 := zero_val (F := binary32)
  have hP : ∃ P : Mat (Fl binary32) 2 2, strassen (T := Moded .down binary32) strassenLeft strassenRight = .ok P ∧
      P 0 0 = minusTiny := by
    refine ⟨!![minusTiny, .fin false (2 ^ 149 + 2 ^ 127) (by decide +kernel); (ofInt 0).neg, (ofInt 0).neg], ?_, rfl⟩
    decide +kernel
  obtain ⟨P, e, hP⟩ := hP
  refine ⟨strassenLeft, strassenRight, ?_, ?_, P, e, hP ▸ f2, ?_⟩
  · intro i j
    fin_cases i <;> fin_cases j <;> assumption
  · intro i j
    fin_cases i <;> fin_cases j <;> assumption
  · rw [hP, v2, Matrix.mul_apply, Fin.sum_univ_two]
    simp only [strassenLeft, strassenRight, Matrix.map_apply, Matrix.of_apply, Matrix.cons_val_zero, Matrix.cons_val_one, Matrix.cons_val', Matrix.cons_val_fin_one]
    rw [v0, v1, v2]
    norm_num

/-- A case: `(1 + 2^-23)^2` computed downward and upward, which differ. -/
example : mult (T := Moded .down binary32) !![afterOne] !![afterOne] = .ok !![pack false (2 ^ 149 + 2 ^ 127)] ∧
    mult (T := Moded .up binary32) !![afterOne] !![afterOne] = .ok !![pack false (2 ^ 149 + 2 ^ 127 + 2 ^ 126)] := by
  constructor <;> decide +kernel

/-- A case: a sum that overflows is the largest number downward and infinite upward. -/
example : sum (T := Moded .down binary32) !![Fl.fin false _ (Fmt.top_rep _)] !![Fl.fin false _ (Fmt.top_rep _)] =
      .ok !![Fl.fin false _ (Fmt.top_rep _)] ∧
    sum (T := Moded .up binary32) !![Fl.fin false _ (Fmt.top_rep _)] !![Fl.fin false _ (Fmt.top_rep _)] = .ok !![.inf false] := by
  constructor <;> decide +kernel

/-! ## Variance and standard deviation -/

namespace Fl
variable {m : RMode} {a b : Fl F}

theorem addBy_ne_nan (ha : a ≠ .nan) (hb : b.Finite) : addBy m a b ≠ .nan := by
  by_cases fa : a.Finite
  · exact (addBy_rounded (m := m) fa hb).faithful.ne_nan
  · obtain ⟨s, rfl⟩ := not_finite fa ha
    rw [inf_addBy s (Finite.ne_nan hb) (by rintro rfl; exact hb.elim)]
    simp

theorem subBy_ne_nan (ha : a.Finite) (hb : b ≠ .nan) : subBy m a b ≠ .nan := by
  unfold subBy
  by_cases fb : b.Finite
  · exact (addBy_rounded (m := m) ha ((neg_finite b).mpr fb)).faithful.ne_nan
  · obtain ⟨s, rfl⟩ := not_finite fb hb
    show addBy m a (.inf !s) ≠ .nan
    rw [addBy_inf _ (Finite.ne_nan ha) (by rintro rfl; exact ha.elim)]
    simp

theorem divBy_ne_nan (ha : a ≠ .nan) (hb : b.Finite) (h0 : 0 < b.val) : divBy m a b ≠ .nan := by
  by_cases fa : a.Finite
  · exact (divBy_rounded (m := m) fa hb h0.ne').faithful.ne_nan
  · obtain ⟨s, rfl⟩ := not_finite fa ha
    rw [inf_divBy s hb h0]
    simp

theorem Faithful.nonNeg {x : ℝ} (h : Faithful x a) (hx : 0 ≤ x) : a.NonNeg := by
  have h1 := h.of_below (ofInt 0) (.inr ⟨zero_finite, by rw [zero_val]; exact hx⟩)
  by_cases fa : a.Finite
  · rw [le_iff zero_finite fa, zero_val] at h1
    exact .inl ⟨fa, h1⟩
  · obtain ⟨s, rfl⟩ := not_finite fa h.ne_nan
    cases s with
    | false => exact .inr rfl
    | true => exact absurd (show (ofInt 0 : Fl F).Finite from zero_finite) (by rw [le_inf_true h1]; exact id)

theorem square_nonNeg (ha : a ≠ .nan) : (mulBy m a a).NonNeg := by
  by_cases fa : a.Finite
  · exact (mulBy_rounded (m := m) fa fa).faithful.nonNeg (mul_self_nonneg _)
  · obtain ⟨s, rfl⟩ := not_finite fa ha
    right
    simp [mulBy]

theorem NonNeg.addBy (ha : a.NonNeg) (hb : b.NonNeg) : (addBy m a b).NonNeg := by
  rcases ha with ⟨fa, ha⟩ | rfl
  · rcases hb with ⟨fb, hb⟩ | rfl
    · exact (addBy_rounded (m := m) fa fb).faithful.nonNeg (add_nonneg ha hb)
    · rw [addBy_inf false (Finite.ne_nan fa) (by rintro rfl; exact fa.elim)]; exact .inr rfl
  · rw [inf_addBy false hb.ne_nan (by rcases hb with ⟨fb, -⟩ | rfl; · rintro rfl; exact fb.elim
                                      · simp)]
    exact .inr rfl

theorem NonNeg.divBy (ha : a.NonNeg) (hb : b.Finite) (h0 : 0 < b.val) : (divBy m a b).NonNeg := by
  rcases ha with ⟨fa, ha⟩ | rfl
  · exact (divBy_rounded (m := m) fa hb h0.ne').faithful.nonNeg (div_nonneg ha h0.le)
  · rw [inf_divBy _ hb h0]; exact .inr rfl

theorem NonNeg.sqrtBy (ha : a.NonNeg) : (sqrtBy m a).NonNeg := by
  rcases ha with ⟨fa, ha⟩ | rfl
  · exact (sqrtBy_rounded (m := m) fa ha).faithful.nonNeg (Real.sqrt_nonneg _)
  · exact .inr rfl

end Fl

/-- A double loop over all elements keeps a condition on the accumulator. -/
theorem wp_elems {S : Type} {P : S → Prop} {s : S} {body : Nat → Nat → S → Res S} (hs : P s)
    (h : ∀ i j s, i < r → j < c → P s → wp (body i j s) P fun _ => False) :
    wp (forUp 0 r s fun i s => forUp 0 c s fun j s => body i j s) P fun _ => False :=
  wp_forUp (fun _ s => P s) (Nat.zero_le _) hs (fun i _ _ hi hs => wp_forUp (fun _ s => P s) (Nat.zero_le _) hs
    (fun j _ _ hj hs => h i j _ hi hj hs) fun _ h => h) fun _ h => h

theorem mean_any_mode (m : RMode) (A : Mat (Moded m F) r c) (hA : ∀ i j, Fl.Finite (F := F) (A i j)) (h0 : r * c ≠ 0) (hn : r * c ≤ 2 ^ F.p) :
    wp (mean (T := Moded m F) A) (fun a => a ≠ (.nan : Fl F)) fun _ => False := by
  unfold mean
  have hz : (ofInt 0 : Fl F) ≠ .nan := Finite.ne_nan zero_finite
  rw [wp_bind]
  refine wp_mono (wp_elems (P := fun a : Moded m F => a ≠ (.nan : Fl F)) hz fun i j s hi hj hs => ?_) (fun s hs => ?_) fun _ h => h
  · rw [rd_eq hi hj, ok_bind]
    exact addBy_ne_nan hs (hA _ _)
  · obtain ⟨f, p, -⟩ := size_pos (F := F) (m := m) h0 hn
    exact divBy_ne_nan hs f p

theorem var_any_mode (m : RMode) (A : Mat (Moded m F) r c) (hA : ∀ i j, Fl.Finite (F := F) (A i j)) (h0 : r * c ≠ 0) (hn : r * c ≤ 2 ^ F.p) :
    wp (var (T := Moded m F) A) (fun a => Fl.NonNeg (F := F) a) fun _ => False := by
  unfold var
  have hz : (ofInt 0 : Fl F).NonNeg := .inl ⟨zero_finite, zero_val.ge⟩
  rw [wp_bind]
  refine wp_mono (mean_any_mode m A hA h0 hn) (fun μ hμ => ?_) fun _ h => h
  rw [wp_bind]
  refine wp_mono (wp_elems (P := fun a : Moded m F => Fl.NonNeg (F := F) a) hz fun i j s hi hj hs => ?_) (fun s hs => ?_) fun _ h => h
  · rw [rd_eq hi hj, ok_bind]
    exact NonNeg.addBy hs (square_nonNeg (subBy_ne_nan (hA _ _) hμ))
  · obtain ⟨f, p, -⟩ := size_pos (F := F) (m := m) h0 hn
    exact NonNeg.divBy hs f p

/-- C149: in every mode the variance and the standard deviation of finite elements are not negative, and not NaN. -/
theorem C149_stddev (m : RMode) (A : Mat (Fl F) r c) (hA : MatFinite A) (h0 : r * c ≠ 0) (hn : r * c ≤ 2 ^ F.p) :
    ∃ v s : Fl F, var (T := Moded m F) A = .ok v ∧ stddev (T := Moded m F) A = .ok s ∧
      ((v.Finite ∧ 0 ≤ v.val) ∨ v = .inf false) ∧ ((s.Finite ∧ 0 ≤ s.val) ∨ s = .inf false) := by
  obtain ⟨v, hv, h⟩ := wp_total (var_any_mode m A hA h0 hn)
  refine ⟨v, sqrtBy m v, hv, ?_, h, NonNeg.sqrtBy h⟩
  unfold stddev
  rw [hv]
  rfl

end MatrixLibs
