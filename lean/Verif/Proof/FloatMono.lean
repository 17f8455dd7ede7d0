import Verif.Spec.FloatOrder
import Verif.Props.FloatRange
import Verif.Props.FloatOrder

/-!
# Rounding is monotone
-/

namespace MatrixLibs

set_option linter.unusedSectionVars false

namespace Fl
variable {F : Fmt} {a b c a' b' : Fl F}

theorem le_key : Le a b ↔ ∃ x y, a.key = some x ∧ b.key = some y ∧ x ≤ y := by
  unfold Le lt eq
  cases a.key with
  | none => simp
  | some x =>
    cases b.key with
    | none => simp
    | some y =>
      simp only [decide_eq_true_eq, Option.some.injEq]
      constructor
      · intro h
        exact ⟨x, y, rfl, rfl, by omega⟩
      · rintro ⟨_, _, rfl, rfl, h⟩
        omega

theorem Le.trans (h : Le a b) (h' : Le b c) : Le a c := by
  rw [le_key] at *
  obtain ⟨x, y, h1, h2, h3⟩ := h
  obtain ⟨y', z, h4, h5, h6⟩ := h'
  rw [h2, Option.some.injEq] at h4
  exact ⟨x, z, h1, h5, by omega⟩

theorem key_ne_nan (h : a ≠ .nan) : ∃ x, a.key = some x := by
  cases a with
  | nan => exact absurd rfl h
  | inf s => exact ⟨_, rfl⟩
  | fin s N h => exact ⟨_, rfl⟩

theorem Le.refl (h : a ≠ .nan) : Le a a := by
  obtain ⟨x, hx⟩ := key_ne_nan h
  exact le_key.mpr ⟨x, x, hx, hx, le_refl _⟩

theorem le_iff (ha : a.Finite) (hb : b.Finite) : Le a b ↔ a.val ≤ b.val := by
  unfold Le
  rw [lt_iff ha hb, eq_iff ha hb, le_iff_lt_or_eq]

theorem Le.ne_nan (h : Le a b) : a ≠ .nan ∧ b ≠ .nan := by
  rw [le_key] at h
  obtain ⟨x, y, h1, h2, -⟩ := h
  constructor
  · rintro rfl; cases h1
  · rintro rfl; cases h2

theorem signed_bounds {s : Bool} {N : Nat} (h : F.Rep N) :
    signed true F.bound ≤ signed s N ∧ signed s N ≤ signed false F.bound := by
  have := signed_lt_bound (s := s) h
  simp only [signed, if_true, Bool.false_eq_true, if_false] at *
  omega

theorem le_inf (h : a ≠ .nan) : Le a (.inf false) := by
  refine le_key.mpr ?_
  cases a with
  | nan => exact absurd rfl h
  | inf s =>
    refine ⟨_, _, rfl, rfl, ?_⟩
    cases s <;> simp [signed]
  | fin s N hN => exact ⟨_, _, rfl, rfl, (signed_bounds hN).2⟩

theorem inf_le (h : a ≠ .nan) : Le (.inf true) a := by
  refine le_key.mpr ?_
  cases a with
  | nan => exact absurd rfl h
  | inf s =>
    refine ⟨_, _, rfl, rfl, ?_⟩
    cases s <;> simp [signed]
  | fin s N hN => exact ⟨_, _, rfl, rfl, (signed_bounds hN).1⟩

theorem le_inf_true (h : Le a (.inf true)) : a = .inf true := by
  rw [le_key] at h
  obtain ⟨x, y, h1, h2, h3⟩ := h
  simp only [key, Option.some.injEq] at h2
  subst h2
  have hb := bound_pos F
  cases a with
  | nan => cases h1
  | inf s =>
    cases s with
    | true => rfl
    | false =>
      simp only [key, Option.some.injEq, signed] at h1 h3
      simp at h1 h3
      omega
  | fin s N h =>
    have := signed_lt_bound (s := s) h
    simp only [key, Option.some.injEq] at h1
    subst h1
    simp only [signed, if_true] at *
    omega

theorem inf_false_le (h : Le (.inf false) a) : a = .inf false := by
  rw [le_key] at h
  obtain ⟨x, y, h1, h2, h3⟩ := h
  simp only [key, Option.some.injEq] at h1
  subst h1
  have hb := bound_pos F
  cases a with
  | nan => cases h2
  | inf s =>
    cases s with
    | false => rfl
    | true =>
      simp only [key, Option.some.injEq, signed] at h2 h3
      simp at h2 h3
      omega
  | fin s N h =>
    have := signed_lt_bound (s := s) h
    simp only [key, Option.some.injEq] at h2
    subst h2
    simp only [signed, Bool.false_eq_true, if_false] at *
    omega

/-- The position of a rounded number. -/
theorem Rounded.key_eq {x : ℝ} (h : Rounded x a) : ∃ N : Nat, Nearest F (|x| * F.unit) N ∧
    a.key = some (if x < 0 then -((min N F.bound : Nat) : Int) else ((min N F.bound : Nat) : Int)) := by
  obtain ⟨N, hN, ⟨hb, s, hr, rfl, hs⟩ | ⟨hb, s, rfl, hs⟩⟩ := h
  · refine ⟨N, hN, ?_⟩
    rw [min_eq_left hb.le]
    simp only [key, Option.some.injEq, signed]
    by_cases h0 : x = 0
    · subst h0
      rw [abs_zero, zero_mul] at hN
      have : N = 0 := hN.unique Nearest.zero
      subst this
      simp
    · simp only [hs h0]
  · refine ⟨N, hN, ?_⟩
    rw [min_eq_right hb]
    simp only [key, signed, hs]

/-- Rounding is monotone. -/
theorem Rounded.le_of_le {x y : ℝ} (ha : Rounded x a) (hb : Rounded y b) (h : x ≤ y) : Le a b := by
  obtain ⟨M, hM, e1⟩ := ha.key_eq
  obtain ⟨N, hN, e2⟩ := hb.key_eq
  refine le_key.mpr ⟨_, _, e1, e2, ?_⟩
  have hu := unit_posR F
  by_cases hx : x < 0
  · rw [if_pos hx]
    by_cases hy : y < 0
    · rw [if_pos hy]
      have : N ≤ M := hN.mono hM (mul_le_mul_of_nonneg_right (by
        rw [abs_of_neg hx, abs_of_neg hy]; linarith) hu.le)
      have := min_le_min_right F.bound this
      omega
    · rw [if_neg hy]
      omega
  · have hy : ¬ y < 0 := by linarith
    rw [if_neg hx, if_neg hy]
    have : M ≤ N := hM.mono hN (mul_le_mul_of_nonneg_right (by
      rw [abs_of_nonneg (by linarith), abs_of_nonneg (by linarith)]; exact h) hu.le)
    have := min_le_min_right F.bound this
    omega

theorem not_finite (h : ¬ a.Finite) (hn : a ≠ .nan) : ∃ s, a = .inf s := by
  cases a with
  | nan => exact absurd rfl hn
  | inf s => exact ⟨s, rfl⟩
  | fin s N hN => exact absurd trivial h

theorem inf_add (s : Bool) (h : (add (.inf s) a) ≠ .nan) : add (.inf s) a = .inf s := by
  cases a with
  | nan => exact absurd rfl h
  | inf t =>
    simp only [add] at h ⊢
    by_cases e : s = t
    · rw [if_pos e]
    · rw [if_neg e] at h
      exact absurd rfl h
  | fin s N hN => rfl

/-- Sums are monotone, as long as they are not NaN. -/
theorem Le.add (ha : Le a a') (hb : Le b b') (h : a.add b ≠ .nan) (h' : a'.add b' ≠ .nan) :
    Le (a.add b) (a'.add b') := by
  by_cases fa : a.Finite
  · by_cases fb : b.Finite
    · by_cases fa' : a'.Finite
      · by_cases fb' : b'.Finite
        · exact (add_rounded fa fb).le_of_le (add_rounded fa' fb')
            (add_le_add ((le_iff fa fa').mp ha) ((le_iff fb fb').mp hb))
        · obtain ⟨s, rfl⟩ := not_finite fb' hb.ne_nan.2
          rw [add_comm'] at h'
          cases s with
          | false => rw [add_comm' a', inf_add _ h']; exact le_inf h
          | true => rw [le_inf_true hb] at fb; exact fb.elim
      · obtain ⟨s, rfl⟩ := not_finite fa' ha.ne_nan.2
        cases s with
        | false => rw [inf_add _ h']; exact le_inf h
        | true => rw [le_inf_true ha] at fa; exact fa.elim
    · obtain ⟨s, rfl⟩ := not_finite fb hb.ne_nan.1
      rw [add_comm'] at h
      rw [add_comm' a, inf_add _ h]
      cases s with
      | true => exact inf_le h'
      | false =>
        rw [inf_false_le hb, add_comm'] at h'
        rw [inf_false_le hb, add_comm' a', inf_add _ h']
        exact Le.refl (by simp)
  · obtain ⟨s, rfl⟩ := not_finite fa ha.ne_nan.1
    rw [inf_add _ h]
    cases s with
    | true => exact inf_le h'
    | false =>
      rw [inf_false_le ha] at h' ⊢
      rw [inf_add _ h']
      exact Le.refl (by simp)

theorem Rounded.ne_nan {x : ℝ} (h : Rounded x a) : a ≠ .nan := by
  obtain ⟨N, -, ⟨-, s, hr, rfl, -⟩ | ⟨-, s, rfl, -⟩⟩ := h <;> simp

theorem foldl_nan (l : List (Fl F)) : l.foldl Fl.add .nan = .nan := by
  induction l with
  | nil => rfl
  | cons x l ih => rw [List.foldl_cons, nan_add, ih]

theorem foldl_le {l l' : List (Fl F)} (hl : List.Forall₂ Le l l') : ∀ {s s' : Fl F}, Le s s' →
    l.foldl Fl.add s ≠ .nan → l'.foldl Fl.add s' ≠ .nan → Le (l.foldl Fl.add s) (l'.foldl Fl.add s') := by
  induction hl with
  | nil => intro s s' h _ _; exact h
  | @cons x x' l l' hx hl ih =>
    intro s s' h h1 h2
    rw [List.foldl_cons] at h1 h2
    refine ih (h.add hx ?_ ?_) h1 h2
    · intro e; rw [e, foldl_nan] at h1; exact h1 rfl
    · intro e; rw [e, foldl_nan] at h2; exact h2 rfl

/-- Sums in the same order are monotone, as long as they are not NaN. -/
theorem fsum_le {l l' : List (Fl F)} (hl : List.Forall₂ Le l l') (h : fsum l ≠ .nan) (h' : fsum l' ≠ .nan) :
    Le (fsum l) (fsum l') := by
  refine foldl_le hl (Le.refl ?_) h h'
  rw [ofInt_zero']
  simp

theorem NonNeg.ne_nan (h : a.NonNeg) : a ≠ .nan := by
  rcases h with ⟨h, -⟩ | rfl
  · exact Finite.ne_nan h
  · simp

/-- Products with a number that is not negative are monotone. -/
theorem mul_le_mul_right (ha : a.Finite) (ha' : a'.Finite) (hb : b.Finite) (h : Le a a') (h0 : 0 ≤ b.val) :
    Le (a.mul b) (a'.mul b) :=
  (mul_rounded ha hb).le_of_le (mul_rounded ha' hb) (mul_le_mul_of_nonneg_right ((le_iff ha ha').mp h) h0)

/-- Products of numbers that are not negative are monotone. -/
theorem mul_le_mul_nonneg (ha : a.Finite) (ha' : a'.Finite) (hb : b.Finite) (hb' : b'.Finite) (h : Le a a')
    (h' : Le b b') (h0 : 0 ≤ a.val) (h0' : 0 ≤ b.val) : Le (a.mul b) (a'.mul b') :=
  (mul_rounded ha hb).le_of_le (mul_rounded ha' hb') (mul_le_mul ((le_iff ha ha').mp h) ((le_iff hb hb').mp h')
    h0' (h0.trans ((le_iff ha ha').mp h)))

/-- Negation reverses the order. -/
theorem Le.neg (h : Le a b) : Le b.neg a.neg := by
  rw [le_key] at *
  obtain ⟨x, y, h1, h2, h3⟩ := h
  have key_neg : ∀ (c : Fl F) z, c.key = some z → c.neg.key = some (-z) := by
    intro c z hz
    cases c with
    | nan => cases hz
    | inf s =>
      simp only [key, Option.some.injEq, Fl.neg, signed] at hz ⊢
      cases s <;> simp at hz ⊢ <;> omega
    | fin s N h =>
      simp only [key, Option.some.injEq, Fl.neg, signed] at hz ⊢
      cases s <;> simp at hz ⊢ <;> omega
  exact ⟨_, _, key_neg _ _ h2, key_neg _ _ h1, by omega⟩

theorem neg_ne_nan (h : a ≠ .nan) : a.neg ≠ .nan := by
  cases a <;> simp_all [Fl.neg]

/-- Dividing by a positive number is monotone. -/
theorem Le.div (h : Le a b) (hc : c.Finite) (h0 : 0 < c.val) : Le (a.div c) (b.div c) := by
  have hs : ∀ s, (Fl.inf s : Fl F).div c = .inf s := by
    intro s
    match c, hc with
    | .fin t N hN, _ =>
      simp only [Fl.div]
      cases t with
      | false => simp
      | true =>
        exfalso
        have : (Fl.fin true N hN : Fl F).val ≤ 0 := by
          unfold val
          refine div_nonpos_of_nonpos_of_nonneg ?_ (Nat.cast_nonneg _)
          simp [signed]
        linarith
  by_cases fa : a.Finite
  · by_cases fb : b.Finite
    · exact (div_rounded fa hc h0.ne').le_of_le (div_rounded fb hc h0.ne')
        (div_le_div_of_nonneg_right ((le_iff fa fb).mp h) h0.le)
    · obtain ⟨s, rfl⟩ := not_finite fb h.ne_nan.2
      cases s with
      | false => rw [hs]; exact le_inf (div_rounded fa hc h0.ne').ne_nan
      | true => rw [le_inf_true h] at fa; exact fa.elim
  · obtain ⟨s, rfl⟩ := not_finite fa h.ne_nan.1
    rw [hs]
    cases s with
    | true => exact inf_le (div_ne_nan h.ne_nan.2 hc h0.ne')
    | false => rw [inf_false_le h, hs]; exact Le.refl (by simp)

end Fl
end MatrixLibs
