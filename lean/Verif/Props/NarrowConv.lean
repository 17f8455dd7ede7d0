import Verif.Props.NarrowArith
import Verif.Proof.NarrowConv
import Verif.Props.Conv

/-!
# Narrow integers: convolution
-/

namespace MatrixLibs

set_option linter.unusedSectionVars false

open Promo (load store)
open CScalar (ofInt)

variable {t : Narrow} {i j : Nat} {G : Prop} {β : ℤ}

/-! ## Cells -/

theorem wp_convTerm_narrow (hG : Guard t G β) (hβ : β + β * β ≤ 2147483647) (hβ0 : 0 ≤ β) (A : Mat (NInt t) i j)
    (k : Mat (NInt t) 3 3) (u v : Fin 3) (a b : ℤ) (hi : i ≤ 2 ^ 31) (hj : j ≤ 2 ^ 31)
    (ha : -(2 ^ 31) ≤ a) (ha' : a < 2 ^ 32) (hb : -(2 ^ 31) ≤ b) (hb' : b < 2 ^ 32) :
    wp (Promoted.convTerm A k u v (szOf a) (szOf b))
      (fun p => Bnd G p (ints k u v * padded (ints A) a b) (β * β)) (OverflowUnless G) := by
  unfold Promoted.convTerm
  by_cases h : isOutOfRange i j (szToInt (szOf a)) (szToInt (szOf b)) = 0
  · rw [if_neg (not_not.mpr h)]
    rw [isOutOfRange_eq_zero, inRange_iff i (by omega) a ha ha', inRange_iff j (by omega) b hb hb'] at h
    obtain ⟨⟨⟨h1, h2⟩, h3⟩, ⟨h4, h5⟩, h6⟩ := h
    have hM : (sizeMod : ℤ) = 2 ^ 64 := by unfold sizeMod; norm_num
    have ea : szOf a = a.toNat := by
      unfold szOf; rw [Int.emod_eq_of_lt h1 (by rw [hM]; omega)]
    have eb : szOf b = b.toNat := by
      unfold szOf; rw [Int.emod_eq_of_lt h4 (by rw [hM]; omega)]
    rw [ea, eb, rd_fin, ok_bind, rd_eq (by omega) (by omega), ok_bind]
    have := Bnd.wp_mul (Bnd.load hG (k u v)) (Bnd.load hG (A ⟨a.toNat, by omega⟩ ⟨b.toNat, by omega⟩))
      (by nlinarith)
    unfold padded
    rw [dif_pos ⟨⟨h1, h2⟩, h4, h5⟩]
    exact this
  · rw [if_pos h, wp_ok]
    rw [isOutOfRange_eq_zero, inRange_iff i (by omega) a ha ha', inRange_iff j (by omega) b hb hb'] at h
    unfold padded
    rw [dif_neg (by omega), mul_zero]
    exact ⟨int_ofInt 0 (by norm_num) (by norm_num), fun _ => by rw [abs_zero]; positivity⟩

theorem wp_accumValN (hG : Guard t G β) (hβ : β + β * β ≤ 2147483647)
    (xs : List (Res (SInt 32))) (vals : List ℤ)
    (h : List.Forall₂ (fun x k => wp x (fun p => Bnd G p k (β * β)) (OverflowUnless G)) xs vals) :
    ∀ v : NInt t, wp (accumValN xs v) (fun y => y.val ≡ v.val + vals.sum [ZMOD 2 ^ t.w]) (OverflowUnless G) := by
  induction h with
  | nil =>
    intro v
    show wp (.ok v) _ _
    rw [wp_ok, List.sum_nil, add_zero]
  | cons ht _ ih =>
    intro v
    rw [accumValN, wp_bind]
    refine wp_mono ht ?_ (fun _ h => h)
    intro x hx
    rw [wp_bind]
    refine wp_mono (Bnd.wp_add (Bnd.load hG v) hx hβ) ?_ (fun _ h => h)
    intro y hy
    refine wp_mono (ih (store y)) ?_ (fun _ h => h)
    intro z hz
    rw [List.sum_cons, ← add_assoc]
    exact hz.trans ((hy.store).add_right _)

theorem wp_convCellN (hG : Guard t G β) (hβ : β + β * β ≤ 2147483647) (hβ0 : 0 ≤ β) (A : Mat (NInt t) i j)
    (k : Mat (NInt t) 3 3) (a b : ℤ) (hi : i ≤ 2 ^ 31) (hj : j ≤ 2 ^ 31)
    (ha : -1 ≤ a) (ha' : a + 1 < 2 ^ 32) (hb : -1 ≤ b) (hb' : b + 1 < 2 ^ 32) :
    wp (convCellN A k a b)
      (fun y => y.val ≡ correlateAt (ints A) (ints k) a b [ZMOD 2 ^ t.w]) (OverflowUnless G) := by
  unfold convCellN
  set P := padded (ints A) with hP
  set κ := ints k with hκ
  have C := fun u v a b => wp_convTerm_narrow hG hβ hβ0 A k u v a b hi hj
  refine wp_mono (wp_accumValN hG hβ (convTermsN A k a b)
    [κ 0 0 * P (a - 1) (b - 1), κ 0 1 * P (a - 1) b, κ 0 2 * P (a - 1) (b + 1),
     κ 1 0 * P a (b - 1), κ 1 1 * P a b, κ 1 2 * P a (b + 1),
     κ 2 0 * P (a + 1) (b - 1), κ 2 1 * P (a + 1) b, κ 2 2 * P (a + 1) (b + 1)]
    ?_ (Promoted.lit 0)) ?_ (fun _ h => h)
  · unfold convTermsN
    refine .cons (C 0 0 _ _ ?_ ?_ ?_ ?_) (.cons (C 0 1 _ _ ?_ ?_ ?_ ?_) (.cons (C 0 2 _ _ ?_ ?_ ?_ ?_)
      (.cons (C 1 0 _ _ ?_ ?_ ?_ ?_) (.cons (C 1 1 _ _ ?_ ?_ ?_ ?_) (.cons (C 1 2 _ _ ?_ ?_ ?_ ?_)
      (.cons (C 2 0 _ _ ?_ ?_ ?_ ?_) (.cons (C 2 1 _ _ ?_ ?_ ?_ ?_)
      (.cons (C 2 2 _ _ ?_ ?_ ?_ ?_) .nil)))))))) <;> omega
  · intro y hy
    rw [lit_zero, zero_add] at hy
    refine hy.trans (congrArg (· % 2 ^ t.w) ?_)
    unfold correlateAt
    simp only [Fin.sum_univ_three, List.sum_cons, List.sum_nil, add_zero]
    have e0 : ∀ x : ℤ, x + ((0 : Fin 3).val : ℤ) - 1 = x - 1 := fun x => by simp
    have e1 : ∀ x : ℤ, x + ((1 : Fin 3).val : ℤ) - 1 = x := fun x => by simp
    have e2 : ∀ x : ℤ, x + ((2 : Fin 3).val : ℤ) - 1 = x + 1 := fun x => by
      show x + 2 - 1 = x + 1
      ring
    simp only [e0, e1, e2]
    ring

theorem wp_conv2_narrow (hG : Guard t G β) (hβ : β + β * β ≤ 2147483647) (hβ0 : 0 ≤ β) (A : Mat (NInt t) i j)
    (k : Mat (NInt t) 3 3) (hi : i ≤ 2 ^ 31) (hj : j ≤ 2 ^ 31) :
    wp (Promoted.conv2 A k) (fun S => WrapsTo S fun r c => correlateAt (ints A) (ints k) r.val c.val)
      (OverflowUnless G) := by
  rw [conv2_cellsN A k (by unfold sizeMod; omega) (by unfold sizeMod; omega)]
  refine wp_mono (wp_fill (g := fun it jt => convCellN A k it jt) _) ?_ ?_
  · intro S hS r c
    have := r.2
    have := c.2
    have h := wp_convCellN hG hβ hβ0 A k r.val c.val hi hj (by omega) (by omega) (by omega) (by omega)
    have := wp_ok_elim h (hS r c)
    exact this
  · rintro e ⟨r, c, he⟩
    have := r.2
    have := c.2
    have h := wp_convCellN hG hβ hβ0 A k r.val c.val hi hj (by omega) (by omega) (by omega) (by omega)
    exact wp_error_elim h he

theorem wp_conv2_full_narrow (hG : Guard t G β) (hβ : β + β * β ≤ 2147483647) (hβ0 : 0 ≤ β)
    (A : Mat (NInt t) i j) (k : Mat (NInt t) 3 3) (hi : i ≤ 2 ^ 31) (hj : j ≤ 2 ^ 31) :
    wp (Promoted.conv2_full A k)
      (fun S => WrapsTo S fun r c => correlateAt (ints A) (ints k) ((r.val : ℤ) - 1) ((c.val : ℤ) - 1))
      (OverflowUnless G) := by
  rw [conv2_full_cellsN A k (by unfold sizeMod; omega) (by unfold sizeMod; omega)]
  refine wp_mono (wp_fill (g := fun it jt => convCellN A k ((it : ℤ) - 1) ((jt : ℤ) - 1)) _) ?_ ?_
  · intro S hS r c
    have := r.2
    have := c.2
    have h := wp_convCellN hG hβ hβ0 A k ((r.val : ℤ) - 1) ((c.val : ℤ) - 1) hi hj
      (by omega) (by omega) (by omega) (by omega)
    have := wp_ok_elim h (hS r c)
    exact this
  · rintro e ⟨r, c, he⟩
    have := r.2
    have := c.2
    have h := wp_convCellN hG hβ hβ0 A k ((r.val : ℤ) - 1) ((c.val : ℤ) - 1) hi hj
      (by omega) (by omega) (by omega) (by omega)
    exact wp_error_elim h he

/-! ## Properties -/

/-- For 8-bit and signed 16-bit elements `conv2` always returns; every element is the exact weighted sum of its
neighbourhood, reduced modulo `2^w`. There is no saturation. -/
theorem C92_conv2 (ht : t.signed = true ∨ t.Is8) (A : Mat (NInt t) i j) (k : Mat (NInt t) 3 3)
    (hi : i ≤ 2 ^ 31) (hj : j ≤ 2 ^ 31) :
    ∃ S, Promoted.conv2 A k = .ok S ∧ WrapsTo S fun r c => ∑ u : Fin 3, ∑ v : Fin 3, (k u v).val *
      padded (ints A) ((r.val : ℤ) + u.val - 1) ((c.val : ℤ) + v.val - 1) :=
  wp_total (wp_always (wp_conv2_narrow (fun _ => guard_signed t ht) (by norm_num) (by norm_num) A k hi hj))

/-- The same for `conv2_full`. -/
theorem C92_conv2_full (ht : t.signed = true ∨ t.Is8) (A : Mat (NInt t) i j) (k : Mat (NInt t) 3 3)
    (hi : i ≤ 2 ^ 31) (hj : j ≤ 2 ^ 31) :
    ∃ S, Promoted.conv2_full A k = .ok S ∧ WrapsTo S fun r c => ∑ u : Fin 3, ∑ v : Fin 3, (k u v).val *
      padded (ints A) ((r.val : ℤ) + u.val - 2) ((c.val : ℤ) + v.val - 2) := by
  obtain ⟨S, hS, hw⟩ := wp_total (wp_always
    (wp_conv2_full_narrow (fun _ => guard_signed t ht) (by norm_num) (by norm_num) A k hi hj))
  refine ⟨S, hS, fun r c => (hw r c).trans (congrArg (· % 2 ^ t.w) ?_)⟩
  refine Finset.sum_congr rfl (fun u _ => Finset.sum_congr rfl (fun v _ => ?_))
  congr 2 <;> ring

/-- The same for `conv2_valid`. -/
theorem C92_conv2_valid (ht : t.signed = true ∨ t.Is8) {m : Nat} (A : Mat (NInt t) (m + 2) (m + 2))
    (k : Mat (NInt t) 3 3) (hm : m + 2 ≤ 2 ^ 31) :
    ∃ V : Mat (NInt t) m m, Promoted.conv2_valid A k = .ok V ∧ WrapsTo V fun r c =>
      ∑ u : Fin 3, ∑ v : Fin 3, (k u v).val * (A ⟨r.val + u.val, by omega⟩ ⟨c.val + v.val, by omega⟩).val := by
  obtain ⟨S, hS, hw⟩ := C92_conv2 ht A k hm hm
  have h1 : getminor S (m + 2 - 1) (m + 2 - 1) = _ :=
    getminor_ok (m := m + 1) S (Fin.last (m + 1)) (Fin.last (m + 1))
  refine ⟨.of fun r c => S ⟨r.val + 1, by omega⟩ ⟨c.val + 1, by omega⟩, ?_, fun r c => ?_⟩
  · unfold Promoted.conv2_valid
    rw [hS, ok_bind, h1, ok_bind]
    have h2 : getminor (S.submatrix (Fin.last (m + 1)).succAbove (Fin.last (m + 1)).succAbove) 0 0 = _ :=
      getminor_ok (m := m) _ 0 0
    rw [h2]
    congr 1
    ext r c
    simp only [Matrix.submatrix_apply, Matrix.of_apply, Fin.succAbove_last, Fin.succAbove_zero]
    rfl
  · rw [Matrix.of_apply]
    refine (hw _ _).trans (congrArg (· % 2 ^ t.w) ?_)
    refine Finset.sum_congr rfl (fun u _ => Finset.sum_congr rfl (fun v _ => ?_))
    have e : padded (ints A) ((r.val + u.val : Nat) : ℤ) ((c.val + v.val : Nat) : ℤ) =
        ints A ⟨r.val + u.val, by omega⟩ ⟨c.val + v.val, by omega⟩ := by
      unfold padded
      have := r.2
      have := c.2
      rw [dif_pos (by omega)]
      rfl
    have e' : (A ⟨r.val + u.val, by omega⟩ ⟨c.val + v.val, by omega⟩).val =
      ints A ⟨r.val + u.val, by omega⟩ ⟨c.val + v.val, by omega⟩ := rfl
    rw [e', ← e]
    congr 2
    · push_cast; ring
    · push_cast; ring

/-- For every narrow type: what the convolutions return is the exact result modulo `2^w`, and they can only fail
to return by a signed overflow. -/
theorem C92_value (A : Mat (NInt t) i j) (k : Mat (NInt t) 3 3) (hi : i ≤ 2 ^ 31) (hj : j ≤ 2 ^ 31) :
    wp (Promoted.conv2 A k) (fun S => WrapsTo S fun r c => ∑ u : Fin 3, ∑ v : Fin 3, (k u v).val *
      padded (ints A) ((r.val : ℤ) + u.val - 1) ((c.val : ℤ) + v.val - 1)) (fun e => e = .ub .signedOverflow) ∧
    wp (Promoted.conv2_full A k) (fun S => WrapsTo S fun r c => ∑ u : Fin 3, ∑ v : Fin 3, (k u v).val *
      padded (ints A) ((r.val : ℤ) + u.val - 2) ((c.val : ℤ) + v.val - 2)) (fun e => e = .ub .signedOverflow) := by
  constructor
  · exact wp_mono (wp_conv2_narrow (t := t) (G := False) (β := 0) (fun h => h.elim) (by norm_num) le_rfl A k hi hj)
      (fun _ h => h) (fun _ h => h.1)
  · refine wp_mono (wp_conv2_full_narrow (t := t) (G := False) (β := 0) (fun h => h.elim) (by norm_num) le_rfl
      A k hi hj) (fun S hw r c => (hw r c).trans (congrArg (· % 2 ^ t.w) ?_)) (fun _ h => h.1)
    refine Finset.sum_congr rfl (fun u _ => Finset.sum_congr rfl (fun v _ => ?_))
    congr 2 <;> ring

/-- If the exact result fits the type at a cell, that is the element. -/
theorem C92_exact (ht : t.signed = true ∨ t.Is8) (A : Mat (NInt t) i j) (k : Mat (NInt t) 3 3)
    (hi : i ≤ 2 ^ 31) (hj : j ≤ 2 ^ 31) (S : Mat (NInt t) i j) (hS : Promoted.conv2 A k = .ok S)
    (r : Fin i) (c : Fin j) (x : ℤ) (hx : x = ∑ u : Fin 3, ∑ v : Fin 3, (k u v).val *
      padded (ints A) ((r.val : ℤ) + u.val - 1) ((c.val : ℤ) + v.val - 1)) (hfit : t.Has x) :
    (S r c).val = x := by
  obtain ⟨S', hS', hw⟩ := C92_conv2 ht A k hi hj
  rw [hS] at hS'
  cases hS'
  subst hx
  exact hw.exact r c hfit

/-- Brightening a bright pixel wraps: an 8-bit pixel 200 under the kernel with 2 in the centre becomes 144. -/
example : Promoted.conv2 (Mat.const ⟨200, by decide⟩ : Mat (NInt .uint8) 1 1) (Mat.const ⟨2, by decide⟩) =
    .ok (Mat.const ⟨144, by decide⟩) := by decide +kernel

end MatrixLibs
