import Verif.Proof.Mode
import Verif.Proof.Levels
import Verif.Proof.Arith

/-!
# Lower and upper bounds by directed rounding
-/

namespace MatrixLibs

set_option linter.unusedSectionVars false

namespace Fl
variable {F : Fmt} {m : RMode} {a b c d : Fl F} {x y : ℝ}

theorem inf_addBy (s : Bool) (hb : b ≠ .nan) (h : b ≠ .inf !s) : addBy m (.inf s) b = .inf s := by
  cases b with
  | nan => exact absurd rfl hb
  | inf t =>
    have : s = t := by cases s <;> cases t <;> simp_all
    subst this
    simp [addBy]
  | fin t N hN => rfl

theorem addBy_inf (s : Bool) (hb : b ≠ .nan) (h : b ≠ .inf !s) : addBy m b (.inf s) = .inf s := by
  cases b with
  | nan => exact absurd rfl hb
  | inf t =>
    have : t = s := by cases s <;> cases t <;> simp_all
    subst this
    simp [addBy]
  | fin t N hN => rfl

theorem Below.not_inf (h : a.Below x) : a ≠ .inf false := by
  rcases h with rfl | ⟨h, -⟩
  · simp
  · rintro rfl; exact h.elim

theorem Above.not_inf (h : a.Above x) : a ≠ .inf true := by
  rcases h with rfl | ⟨h, -⟩
  · simp
  · rintro rfl; exact h.elim

theorem Below.add (ha : a.Below x) (hb : b.Below y) : (addBy .down a b).Below (x + y) := by
  rcases ha with rfl | ⟨ha, hx⟩
  · rw [inf_addBy true hb.ne_nan hb.not_inf]; exact .inl rfl
  rcases hb with rfl | ⟨hb, hy⟩
  · rw [addBy_inf true (Finite.ne_nan ha) (by rintro rfl; exact ha.elim)]; exact .inl rfl
  · exact (show Downward _ _ from addBy_rounded (m := .down) ha hb).below.mono (add_le_add hx hy)

theorem Above.add (ha : a.Above x) (hb : b.Above y) : (addBy .up a b).Above (x + y) := by
  rcases ha with rfl | ⟨ha, hx⟩
  · rw [inf_addBy false hb.ne_nan hb.not_inf]; exact .inl rfl
  rcases hb with rfl | ⟨hb, hy⟩
  · rw [addBy_inf false (Finite.ne_nan ha) (by rintro rfl; exact ha.elim)]; exact .inl rfl
  · exact (show Upward _ _ from addBy_rounded (m := .up) ha hb).above.mono (add_le_add hx hy)

theorem inf_divBy (s : Bool) (hb : b.Finite) (h0 : 0 < b.val) : divBy m (.inf s) b = .inf s := by
  match b, hb with
  | .fin t N hN, _ =>
    simp only [divBy]
    cases t with
    | false => simp
    | true =>
      exfalso
      rw [val_fin_true] at h0
      have : (0 : ℝ) ≤ N / F.unit := by positivity
      linarith

theorem Below.divBy (ha : a.Below x) (hb : b.Finite) (h0 : 0 < b.val) : (divBy .down a b).Below (x / b.val) := by
  rcases ha with rfl | ⟨ha, hx⟩
  · rw [inf_divBy _ hb h0]; exact .inl rfl
  · exact (show Downward _ _ from divBy_rounded (m := .down) ha hb h0.ne').below.mono
      (div_le_div_of_nonneg_right hx h0.le)

theorem Above.divBy (ha : a.Above x) (hb : b.Finite) (h0 : 0 < b.val) : (divBy .up a b).Above (x / b.val) := by
  rcases ha with rfl | ⟨ha, hx⟩
  · rw [inf_divBy _ hb h0]; exact .inl rfl
  · exact (show Upward _ _ from divBy_rounded (m := .up) ha hb h0.ne').above.mono
      (div_le_div_of_nonneg_right hx h0.le)

theorem eq_zero_decide (ha : a.Finite) : a.eq (ofInt 0) = decide (a.val = ((0 : Int) : ℝ)) := by
  rw [Bool.eq_iff_iff, eq_iff ha zero_finite, zero_val, decide_eq_true_eq, Int.cast_zero]

theorem size_pos {n : Nat} (h0 : n ≠ 0) (hn : n ≤ 2 ^ F.p) :
    (ofIntBy m n : Fl F).Finite ∧ 0 < (ofIntBy m n : Fl F).val ∧ (ofIntBy m n : Fl F).val = n := by
  obtain ⟨h1, h2⟩ := ofIntBy_exact (F := F) (m := m) hn
  exact ⟨h1, by rw [h2]; exact_mod_cast Nat.pos_of_ne_zero h0, h2⟩

/-- A number that is not NaN or `+inf`, at most the other one unless that is NaN. -/
def Lower (a b : Fl F) : Prop := a ≠ .nan ∧ a ≠ .inf false ∧ (b = .nan ∨ Le a b)

/-- A number that is not NaN or `-inf`, at least the other one unless that is NaN. -/
def Upper (a b : Fl F) : Prop := b ≠ .nan ∧ b ≠ .inf true ∧ (a = .nan ∨ Le a b)

theorem nan_addBy (a : Fl F) : addBy m .nan a = .nan := by cases a <;> rfl
theorem addBy_nan (a : Fl F) : addBy m a .nan = .nan := by cases a <;> rfl
theorem nan_divBy (a : Fl F) : divBy m .nan a = .nan := by cases a <;> rfl

theorem Downward.ne_inf (h : Downward x a) : a ≠ .inf false := h.below.not_inf
theorem Upward.ne_inf (h : Upward x a) : a ≠ .inf true := h.above.not_inf

/-- Rounding a smaller number downward gives a lower bound of rounding a bigger one in any mode. -/
theorem lower_of (ha : Downward x a) (hb : RoundedBy m y b) (h : x ≤ y) : Lower a b :=
  ⟨ha.below.ne_nan, ha.ne_inf, .inr (hb.faithful.of_below _ (ha.below.mono h))⟩

theorem upper_of (ha : RoundedBy m x a) (hb : Upward y b) (h : x ≤ y) : Upper a b :=
  ⟨hb.above.ne_nan, hb.ne_inf, .inr (ha.faithful.of_above _ (hb.above.mono h))⟩

theorem Lower.finite (h : Lower a b) (ha : a.Finite) : b = .nan ∨ b = .inf false ∨ (b.Finite ∧ a.val ≤ b.val) := by
  rcases h.2.2 with rfl | hl
  · exact .inl rfl
  · by_cases hb : b.Finite
    · exact .inr (.inr ⟨hb, (le_iff ha hb).mp hl⟩)
    · obtain ⟨s, rfl⟩ := not_finite hb hl.ne_nan.2
      cases s with
      | false => exact .inr (.inl rfl)
      | true => rw [le_inf_true hl] at ha; exact ha.elim

theorem Upper.finite (h : Upper a b) (hb : b.Finite) : a = .nan ∨ a = .inf true ∨ (a.Finite ∧ a.val ≤ b.val) := by
  rcases h.2.2 with rfl | hl
  · exact .inl rfl
  · by_cases ha : a.Finite
    · exact .inr (.inr ⟨ha, (le_iff ha hb).mp hl⟩)
    · obtain ⟨s, rfl⟩ := not_finite ha hl.ne_nan.1
      cases s with
      | true => exact .inr (.inl rfl)
      | false => rw [inf_false_le hl] at hb; exact hb.elim

theorem Lower.cases (h : Lower a b) : a = .inf true ∨ a.Finite := by
  by_cases ha : a.Finite
  · exact .inr ha
  · obtain ⟨s, rfl⟩ := not_finite ha h.1
    cases s with
    | true => exact .inl rfl
    | false => exact absurd rfl h.2.1

theorem Upper.cases (h : Upper a b) : b = .inf false ∨ b.Finite := by
  by_cases ha : b.Finite
  · exact .inr ha
  · obtain ⟨s, rfl⟩ := not_finite ha h.1
    cases s with
    | false => exact .inl rfl
    | true => exact absurd rfl h.2.1

theorem lower_inf (b : Fl F) : Lower (.inf true) b := by
  refine ⟨by simp, by simp, ?_⟩
  by_cases hb : b = .nan
  · exact .inl hb
  · exact .inr (inf_le hb)

theorem upper_inf (a : Fl F) : Upper a (.inf false) := by
  refine ⟨by simp, by simp, ?_⟩
  by_cases hb : a = .nan
  · exact .inl hb
  · exact .inr (le_inf hb)

theorem Lower.add (h : Lower a b) (h' : Lower c d) : Lower (addBy .down a c) (addBy m b d) := by
  rcases h.cases with rfl | ha
  · rw [inf_addBy true h'.1 h'.2.1]; exact lower_inf _
  rcases h'.cases with rfl | hc
  · rw [addBy_inf true h.1 h.2.1]; exact lower_inf _
  have hd : Downward _ _ := addBy_rounded (m := .down) ha hc
  rcases h.finite ha with rfl | rfl | ⟨hb, hab⟩
  · rw [nan_addBy]; exact ⟨hd.below.ne_nan, hd.ne_inf, .inl rfl⟩
  · rcases h'.finite hc with rfl | rfl | ⟨hd', hcd⟩
    · rw [addBy_nan]; exact ⟨hd.below.ne_nan, hd.ne_inf, .inl rfl⟩
    · rw [inf_addBy false (by simp) (by simp)]; exact ⟨hd.below.ne_nan, hd.ne_inf, .inr (le_inf hd.below.ne_nan)⟩
    · rw [inf_addBy false (Finite.ne_nan hd') (by rintro rfl; exact hd'.elim)]
      exact ⟨hd.below.ne_nan, hd.ne_inf, .inr (le_inf hd.below.ne_nan)⟩
  · rcases h'.finite hc with rfl | rfl | ⟨hd', hcd⟩
    · rw [addBy_nan]; exact ⟨hd.below.ne_nan, hd.ne_inf, .inl rfl⟩
    · rw [addBy_inf false (Finite.ne_nan hb) (by rintro rfl; exact hb.elim)]
      exact ⟨hd.below.ne_nan, hd.ne_inf, .inr (le_inf hd.below.ne_nan)⟩
    · exact lower_of hd (addBy_rounded hb hd') (add_le_add hab hcd)

theorem Upper.add (h : Upper a b) (h' : Upper c d) : Upper (addBy m a c) (addBy .up b d) := by
  rcases h.cases with rfl | hb
  · rw [inf_addBy false h'.1 h'.2.1]; exact upper_inf _
  rcases h'.cases with rfl | hd'
  · rw [addBy_inf false h.1 h.2.1]; exact upper_inf _
  have hd : Upward _ _ := addBy_rounded (m := .up) hb hd'
  rcases h.finite hb with rfl | rfl | ⟨ha, hab⟩
  · rw [nan_addBy]; exact ⟨hd.above.ne_nan, hd.ne_inf, .inl rfl⟩
  · rcases h'.finite hd' with rfl | rfl | ⟨hc, hcd⟩
    · rw [addBy_nan]; exact ⟨hd.above.ne_nan, hd.ne_inf, .inl rfl⟩
    · rw [inf_addBy true (by simp) (by simp)]; exact ⟨hd.above.ne_nan, hd.ne_inf, .inr (inf_le hd.above.ne_nan)⟩
    · rw [inf_addBy true (Finite.ne_nan hc) (by rintro rfl; exact hc.elim)]
      exact ⟨hd.above.ne_nan, hd.ne_inf, .inr (inf_le hd.above.ne_nan)⟩
  · rcases h'.finite hd' with rfl | rfl | ⟨hc, hcd⟩
    · rw [addBy_nan]; exact ⟨hd.above.ne_nan, hd.ne_inf, .inl rfl⟩
    · rw [addBy_inf true (Finite.ne_nan ha) (by rintro rfl; exact ha.elim)]
      exact ⟨hd.above.ne_nan, hd.ne_inf, .inr (inf_le hd.above.ne_nan)⟩
    · exact upper_of (addBy_rounded ha hc) hd (add_le_add hab hcd)

theorem Lower.div {n : Nat} (h : Lower a b) (h0 : n ≠ 0) (hn : n ≤ 2 ^ F.p) :
    Lower (divBy .down a (ofIntBy .down n)) (divBy m b (ofIntBy m n)) := by
  obtain ⟨f1, p1, e1⟩ := size_pos (F := F) (m := .down) h0 hn
  obtain ⟨f2, p2, e2⟩ := size_pos (F := F) (m := m) h0 hn
  rcases h.cases with rfl | ha
  · rw [inf_divBy _ f1 p1]; exact lower_inf _
  have hd : Downward _ _ := divBy_rounded (m := .down) ha f1 p1.ne'
  rcases h.finite ha with rfl | rfl | ⟨hb, hab⟩
  · rw [nan_divBy]; exact ⟨hd.below.ne_nan, hd.ne_inf, .inl rfl⟩
  · rw [inf_divBy _ f2 p2]; exact ⟨hd.below.ne_nan, hd.ne_inf, .inr (le_inf hd.below.ne_nan)⟩
  · refine lower_of hd (divBy_rounded hb f2 p2.ne') ?_
    rw [e1, e2]
    rw [e1] at p1
    exact div_le_div_of_nonneg_right hab p1.le

theorem Upper.div {n : Nat} (h : Upper a b) (h0 : n ≠ 0) (hn : n ≤ 2 ^ F.p) :
    Upper (divBy m a (ofIntBy m n)) (divBy .up b (ofIntBy .up n)) := by
  obtain ⟨f1, p1, e1⟩ := size_pos (F := F) (m := .up) h0 hn
  obtain ⟨f2, p2, e2⟩ := size_pos (F := F) (m := m) h0 hn
  rcases h.cases with rfl | hb
  · rw [inf_divBy _ f1 p1]; exact upper_inf _
  have hd : Upward _ _ := divBy_rounded (m := .up) hb f1 p1.ne'
  rcases h.finite hb with rfl | rfl | ⟨ha, hab⟩
  · rw [nan_divBy]; exact ⟨hd.above.ne_nan, hd.ne_inf, .inl rfl⟩
  · rw [inf_divBy _ f2 p2]; exact ⟨hd.above.ne_nan, hd.ne_inf, .inr (inf_le hd.above.ne_nan)⟩
  · refine upper_of (divBy_rounded ha f2 p2.ne') hd ?_
    rw [e1, e2]
    rw [e1] at p1
    exact div_le_div_of_nonneg_right hab p1.le

theorem eq_zero_val (ha : a.Finite) (h : a.eq (ofInt 0) = false) : a.val ≠ 0 := by
  rw [eq_zero_decide ha, decide_eq_false_iff_not, Int.cast_zero] at h
  exact h

theorem lower_self (ha : a.Finite) : Lower a a :=
  ⟨Finite.ne_nan ha, by rintro rfl; exact ha.elim, .inr (Le.refl (Finite.ne_nan ha))⟩

theorem upper_self (ha : a.Finite) : Upper a a :=
  ⟨Finite.ne_nan ha, by rintro rfl; exact ha.elim, .inr (Le.refl (Finite.ne_nan ha))⟩

end Fl

open Fl

/-- Rounding downward against exact arithmetic. -/
noncomputable def belowLevels (F : Fmt) : Levels (Moded .down F) ℝ where
  L a x := Fl.Finite (F := F) a ∧ Fl.val (F := F) a = x
  R a x := Fl.Below (F := F) a x
  zero := .inr ⟨zero_finite, (zero_val (F := F)).trans_le (le_of_eq Int.cast_zero.symm)⟩
  init := .inr ⟨zero_finite, zero_val.le⟩
  weaken h := .inr ⟨h.1, h.2.le⟩
  add h h' := Below.add h h'
  sub {a b a' b'} h h' := by
    have := (show Downward _ _ from subBy_rounded (m := .down) h.1 h'.1).below
    rw [h.2, h'.2] at this
    exact this
  mul {a b a' b'} h h' := by
    have := (show Downward _ _ from mulBy_rounded (m := .down) h.1 h'.1).below
    rw [h.2, h'.2] at this
    exact this
  isZero {a a'} h := by
    refine (eq_zero_decide h.1).trans ?_
    rw [h.2]
    rfl
  div {a b a' b'} h h' h0 := by
    have hb := eq_zero_val h'.1 h0
    have := (show Downward _ _ from divBy_rounded (m := .down) h.1 h'.1 hb).below
    rw [h.2, h'.2] at this
    show BothDo _ (.ok _) (if b' = 0 then _ else _)
    rw [if_neg (by rw [← h'.2]; exact hb)]
    exact this
  size := 2 ^ F.p
  divSize {a a' n} h h0 hn := by
    obtain ⟨f1, p1, e1⟩ := size_pos (F := F) (m := .down) h0 hn
    have := Below.divBy h f1 p1
    rw [e1] at this
    show BothDo _ (.ok _) (if n = 0 then _ else _)
    rw [if_neg h0]
    exact this

/-- Rounding upward against exact arithmetic. -/
noncomputable def aboveLevels (F : Fmt) : Levels (Moded .up F) ℝ where
  L a x := Fl.Finite (F := F) a ∧ Fl.val (F := F) a = x
  R a x := Fl.Above (F := F) a x
  zero := .inr ⟨zero_finite, (le_of_eq Int.cast_zero).trans (zero_val (F := F)).ge⟩
  init := .inr ⟨zero_finite, zero_val.ge⟩
  weaken h := .inr ⟨h.1, h.2.ge⟩
  add h h' := Above.add h h'
  sub {a b a' b'} h h' := by
    have := (show Upward _ _ from subBy_rounded (m := .up) h.1 h'.1).above
    rw [h.2, h'.2] at this
    exact this
  mul {a b a' b'} h h' := by
    have := (show Upward _ _ from mulBy_rounded (m := .up) h.1 h'.1).above
    rw [h.2, h'.2] at this
    exact this
  isZero {a a'} h := by
    refine (eq_zero_decide h.1).trans ?_
    rw [h.2]
    rfl
  div {a b a' b'} h h' h0 := by
    have hb := eq_zero_val h'.1 h0
    have := (show Upward _ _ from divBy_rounded (m := .up) h.1 h'.1 hb).above
    rw [h.2, h'.2] at this
    show BothDo _ (.ok _) (if b' = 0 then _ else _)
    rw [if_neg (by rw [← h'.2]; exact hb)]
    exact this
  size := 2 ^ F.p
  divSize {a a' n} h h0 hn := by
    obtain ⟨f1, p1, e1⟩ := size_pos (F := F) (m := .up) h0 hn
    have := Above.divBy h f1 p1
    rw [e1] at this
    show BothDo _ (.ok _) (if n = 0 then _ else _)
    rw [if_neg h0]
    exact this

/-- Rounding downward against any mode. -/
def lowerLevels (m : RMode) (F : Fmt) : Levels (Moded .down F) (Moded m F) where
  L a b := Fl.Finite (F := F) a ∧ a = b
  R a b := Fl.Lower (F := F) a b
  zero := lower_self zero_finite
  init := lower_self zero_finite
  weaken {a a'} h := by obtain ⟨h, rfl⟩ := h; exact lower_self h
  add h h' := Lower.add h h'
  sub {a b a' b'} h h' := by
    obtain ⟨h, rfl⟩ := h; obtain ⟨h', rfl⟩ := h'
    exact lower_of (subBy_rounded (m := .down) h h') (subBy_rounded (m := m) h h') le_rfl
  mul {a b a' b'} h h' := by
    obtain ⟨h, rfl⟩ := h; obtain ⟨h', rfl⟩ := h'
    exact lower_of (mulBy_rounded (m := .down) h h') (mulBy_rounded (m := m) h h') le_rfl
  isZero {a a'} h := by obtain ⟨-, rfl⟩ := h; rfl
  div {a b a' b'} h h' h0 := by
    obtain ⟨h, rfl⟩ := h; obtain ⟨h', rfl⟩ := h'
    have hb := eq_zero_val h' h0
    exact lower_of (divBy_rounded (m := .down) h h' hb) (divBy_rounded (m := m) h h' hb) le_rfl
  size := 2 ^ F.p
  divSize h h0 hn := Lower.div h h0 hn

/-- Any mode against rounding upward. -/
def upperLevels (m : RMode) (F : Fmt) : Levels (Moded m F) (Moded .up F) where
  L a b := Fl.Finite (F := F) a ∧ a = b
  R a b := Fl.Upper (F := F) a b
  zero := upper_self zero_finite
  init := upper_self zero_finite
  weaken {a a'} h := by obtain ⟨h, rfl⟩ := h; exact upper_self h
  add h h' := Upper.add h h'
  sub {a b a' b'} h h' := by
    obtain ⟨h, rfl⟩ := h; obtain ⟨h', rfl⟩ := h'
    exact upper_of (subBy_rounded (m := m) h h') (subBy_rounded (m := .up) h h') le_rfl
  mul {a b a' b'} h h' := by
    obtain ⟨h, rfl⟩ := h; obtain ⟨h', rfl⟩ := h'
    exact upper_of (mulBy_rounded (m := m) h h') (mulBy_rounded (m := .up) h h') le_rfl
  isZero {a a'} h := by obtain ⟨-, rfl⟩ := h; rfl
  div {a b a' b'} h h' h0 := by
    obtain ⟨h, rfl⟩ := h; obtain ⟨h', rfl⟩ := h'
    have hb := eq_zero_val h' h0
    exact upper_of (divBy_rounded (m := m) h h' hb) (divBy_rounded (m := .up) h h' hb) le_rfl
  size := 2 ^ F.p
  divSize h h0 hn := Upper.div h h0 hn

end MatrixLibs
