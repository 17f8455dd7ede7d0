import Verif.Proof.Graded
import Verif.Proof.FloatTwice
import Verif.Proof.FloatLu
import Verif.Proof.Sim
import Verif.Proof.Safety
import Verif.Spec.Scale
import Mathlib.Tactic.LinearCombination

/-!
# Floating point arithmetic commutes with powers of two, within the range of the format
-/

namespace MatrixLibs

set_option linter.unusedSectionVars false

open Fl (log2_le log2_lt grid_split grid_mul grid_of_le)

variable {F : Fmt}

/-! ## Rounding -/

theorem log2_shift {N : Nat} (h : N ≠ 0) (d : Nat) : (N * 2 ^ d).log2 = N.log2 + d := by
  have h1 := log2_le h
  have h2 := log2_lt N
  have hne : N * 2 ^ d ≠ 0 := by positivity
  apply le_antisymm
  · refine Nat.lt_succ_iff.mp ((Nat.log2_lt hne).mpr ?_)
    calc N * 2 ^ d < 2 ^ (N.log2 + 1) * 2 ^ d := Nat.mul_lt_mul_of_pos_right h2 (by positivity)
      _ = 2 ^ (N.log2 + d + 1) := by rw [← pow_add]; congr 1; omega
  · refine (Nat.le_log2 hne).mpr ?_
    rw [pow_add]
    exact Nat.mul_le_mul_right _ h1

theorem grid_shift {N : Nat} (h : F.Grid N) (d : Nat) : F.Grid (N * 2 ^ d) := by
  obtain ⟨m, k, hm, rfl, -⟩ := grid_split h
  rw [mul_assoc, ← pow_add]
  exact grid_mul hm

theorem grid_unshift {M d : Nat} (h : F.Grid M) (hM : 2 ^ (F.p - 1 + d) ≤ M) : ∃ M1, M = M1 * 2 ^ d ∧ F.Grid M1 := by
  have hp := F.hp
  have h0 : M ≠ 0 := by have : 0 < 2 ^ (F.p - 1 + d) := by positivity
                        omega
  have hl : F.p - 1 + d ≤ M.log2 := (Nat.le_log2 h0).mpr hM
  unfold Fmt.Grid at h
  have hd : d ≤ F.ulpExp M := by unfold Fmt.ulpExp; omega
  obtain ⟨M1, e⟩ := (pow_dvd_pow 2 hd).trans h
  rw [mul_comm] at e
  refine ⟨M1, e, ?_⟩
  have h1 : M1 ≠ 0 := by rintro rfl; omega
  have hu : F.ulpExp M = F.ulpExp M1 + d := by
    unfold Fmt.ulpExp at hd ⊢
    rw [e, log2_shift h1] at hl hd ⊢
    omega
  rw [hu, pow_add, e] at h
  exact Nat.dvd_of_mul_dvd_mul_right (by positivity) h

theorem significand_shift {N : Nat} (hN : 2 ^ (F.p - 1) ≤ N) (d : Nat) : F.significand (N * 2 ^ d) = F.significand N := by
  have hp := F.hp
  have h0 : N ≠ 0 := by have : 0 < 2 ^ (F.p - 1) := by positivity
                        omega
  have hl : F.p - 1 ≤ N.log2 := (Nat.le_log2 h0).mpr hN
  unfold Fmt.significand
  have hu : F.ulpExp (N * 2 ^ d) = F.ulpExp N + d := by
    unfold Fmt.ulpExp
    rw [log2_shift h0]
    omega
  rw [hu, pow_add]
  exact Nat.mul_div_mul_right _ _ (by positivity)

/-- Rounding of a number that is normal, or is on the grid, commutes with multiplication by a power of two. -/
theorem nearest_scale {x : ℝ} {N : Nat} (h : Nearest F x N) (hx : 2 ^ (F.p - 1) ≤ x ∨ (N : ℝ) = x) (d : Nat) :
    Nearest F (x * 2 ^ d) (N * 2 ^ d : Nat) := by
  have hd : (0 : ℝ) < 2 ^ d := by positivity
  have dist : ∀ M : ℝ, |M * 2 ^ d - x * 2 ^ d| = |M - x| * 2 ^ d := fun M => by
    rw [← sub_mul, abs_mul, abs_of_pos hd]
  rcases hx with hx | rfl
  · have g : F.Grid (2 ^ (F.p - 1)) := grid_of_le (Nat.pow_le_pow_right (by norm_num) (by omega))
    have hN : 2 ^ (F.p - 1) ≤ N := by
      by_contra hlt
      rw [not_le] at hlt
      have hlt' : (N : ℝ) < 2 ^ (F.p - 1) := by exact_mod_cast hlt
      have := h.nearest _ g
      push_cast at this
      rw [abs_of_nonpos (by linarith), abs_of_nonpos (by linarith)] at this
      linarith
    have far : ∀ M : Nat, M < 2 ^ (F.p - 1 + d) → |(N : ℝ) - x| * 2 ^ d < |(M : ℝ) - x * 2 ^ d| := by
      intro M hM
      have hM' : (M : ℝ) < 2 ^ (F.p - 1) * 2 ^ d := by rw [← pow_add]; exact_mod_cast hM
      have h1 := h.nearest _ g
      push_cast at h1
      rw [abs_of_nonpos (show (2 : ℝ) ^ (F.p - 1) - x ≤ 0 by linarith)] at h1
      have h2 : (2 : ℝ) ^ (F.p - 1) * 2 ^ d ≤ x * 2 ^ d := mul_le_mul_of_nonneg_right hx hd.le
      rw [abs_of_nonpos (show (M : ℝ) - x * 2 ^ d ≤ 0 by linarith)]
      have h3 := mul_le_mul_of_nonneg_right h1 hd.le
      have e : -((2 : ℝ) ^ (F.p - 1) - x) * 2 ^ d = x * 2 ^ d - 2 ^ (F.p - 1) * 2 ^ d := by ring
      linarith
    refine ⟨grid_shift h.grid d, fun M hM => ?_, fun M hM he hne => ?_⟩
    · push_cast
      rw [dist]
      by_cases hb : 2 ^ (F.p - 1 + d) ≤ M
      · obtain ⟨M1, rfl, hM1⟩ := grid_unshift hM hb
        push_cast
        rw [dist]
        exact mul_le_mul_of_nonneg_right (h.nearest _ hM1) hd.le
      · exact (far M (not_le.mp hb)).le
    · push_cast at he
      rw [dist] at he
      by_cases hb : 2 ^ (F.p - 1 + d) ≤ M
      · obtain ⟨M1, rfl, hM1⟩ := grid_unshift hM hb
        push_cast at he
        rw [dist] at he
        rw [significand_shift hN]
        exact h.even _ hM1 (mul_right_cancel₀ hd.ne' he) fun e => hne (by rw [e])
      · exact absurd he (far M (not_le.mp hb)).ne'
  · refine ⟨grid_shift h.grid d, fun M hM => ?_, fun M hM he hne => ?_⟩
    · push_cast
      simp
    · push_cast at he
      rw [sub_self, abs_zero, abs_eq_zero, sub_eq_zero] at he
      exact absurd (by exact_mod_cast he) hne

theorem noUnderflow_real {a b : Nat} (hb : 0 < b) (h : F.NoUnderflow a b) :
    (2 : ℝ) ^ (F.p - 1) ≤ (a : ℝ) / b ∨ (Fl.roundQuot F a b : ℝ) = (a : ℝ) / b := by
  have hb' : (0 : ℝ) < b := by exact_mod_cast hb
  rcases h with h | h
  · left
    rw [le_div_iff₀ hb']
    exact_mod_cast h
  · right
    rw [eq_div_iff hb'.ne']
    exact_mod_cast h

/-- Two rounded magnitudes whose exact values differ by a power of two. -/
theorem nearest_pow {x x' : ℝ} {N N' : Nat} {d : ℤ} (h : Nearest F x N) (h' : Nearest F x' N')
    (hx : 2 ^ (F.p - 1) ≤ x ∨ (N : ℝ) = x) (hx' : 2 ^ (F.p - 1) ≤ x' ∨ (N' : ℝ) = x') (e : x' = 2 ^ d * x) :
    (N' : ℝ) = 2 ^ d * N := by
  have two : (2 : ℝ) ≠ 0 := by norm_num
  rcases le_total 0 d with hd | hd
  · obtain ⟨k, rfl⟩ := Int.eq_ofNat_of_zero_le hd
    rw [zpow_natCast] at e ⊢
    have := nearest_scale h hx k
    rw [mul_comm, ← e] at this
    rw [h'.unique this]
    push_cast
    ring
  · obtain ⟨k, hk⟩ := Int.eq_ofNat_of_zero_le (neg_nonneg.mpr hd)
    obtain rfl : d = -(k : ℤ) := by omega
    rw [zpow_neg, zpow_natCast] at e ⊢
    have hp : (2 : ℝ) ^ k ≠ 0 := by positivity
    have := nearest_scale h' hx' k
    rw [show x' * 2 ^ k = x by rw [e]; field_simp] at this
    rw [h.unique this]
    push_cast
    field_simp

theorem roundQuot_pow {a b a' b' : Nat} (hb : 0 < b) (hb' : 0 < b') {d : ℤ} (h : F.NoUnderflow a b) (h' : F.NoUnderflow a' b')
    (e : (a' : ℝ) / b' = 2 ^ d * ((a : ℝ) / b)) : (Fl.roundQuot F a' b' : ℝ) = 2 ^ d * Fl.roundQuot F a b :=
  nearest_pow (Fl.roundQuot_nearest hb) (Fl.roundQuot_nearest hb') (noUnderflow_real hb h) (noUnderflow_real hb' h') e

/-- A whole number of units is normal or on the grid. -/
theorem noUnderflow_one (a : Nat) : F.NoUnderflow a 1 := by
  unfold Fmt.NoUnderflow
  by_cases h : 2 ^ (F.p - 1) ≤ a
  · left
    omega
  · right
    have hg : F.Grid a := grid_of_le ((not_le.mp h).le.trans (Nat.pow_le_pow_right (by norm_num) (by omega)))
    have hn := Fl.roundQuot_nearest (F := F) (a := a) one_pos
    have := hn.nearest a hg
    simp only [Nat.cast_one, div_one, sub_self, abs_zero] at this
    have e := abs_nonpos_iff.mp this
    rw [sub_eq_zero] at e
    rw [mul_one]
    exact_mod_cast e

namespace Fl

theorem timesPow_fin {d : ℤ} {s : Bool} {N N' : Nat} {h : F.Rep N} {h' : F.Rep N'} (e : (N' : ℝ) = 2 ^ d * N) :
    TimesPow d (.fin s N h) (.fin s N' h') := by
  refine ⟨trivial, trivial, rfl, ?_⟩
  unfold val signed
  cases s
  · simp only [Bool.false_eq_true, if_false]
    push_cast
    rw [e]
    ring
  · simp only [if_true]
    push_cast
    rw [e]
    ring

theorem TimesPow.cases {d : ℤ} {a b : Fl F} (h : TimesPow d a b) : ∃ s N N' hN hN', a = .fin s N hN ∧ b = .fin s N' hN' ∧
    (N' : ℝ) = 2 ^ d * N := by
  obtain ⟨ha, hb, hs, e⟩ := h
  cases a with
  | nan => exact ha.elim
  | inf => exact ha.elim
  | fin s N hN =>
    cases b with
    | nan => exact hb.elim
    | inf => exact hb.elim
    | fin s' N' hN' =>
      obtain rfl : s = s' := hs
      refine ⟨s, N, N', hN, hN', rfl, rfl, ?_⟩
      have hu := (unit_posR F).ne'
      unfold val signed at e
      cases s
      · simp only [Bool.false_eq_true, if_false] at e
        push_cast at e
        field_simp at e
        exact e
      · simp only [if_true] at e
        push_cast at e
        field_simp at e
        linarith

theorem timesPow_pack {d : ℤ} {s : Bool} {N N' : Nat} (h : (pack s N : Fl F).Finite) (h' : (pack s N' : Fl F).Finite)
    (e : (N' : ℝ) = 2 ^ d * N) : TimesPow d (pack s N : Fl F) (pack s N') := by
  rw [pack_finite] at h h'
  unfold pack
  rw [dif_pos h, dif_pos h']
  exact timesPow_fin e

theorem timesPow_self {a : Fl F} (h : a.Finite) : TimesPow 0 a a := ⟨h, h, rfl, by simp⟩

theorem timesPow_zero (d : ℤ) : TimesPow d (ofInt 0 : Fl F) (ofInt 0) := by
  rw [ofInt_zero']
  exact timesPow_fin (by simp)

theorem signed_pow {d : ℤ} {s : Bool} {N N' : Nat} (e : (N' : ℝ) = 2 ^ d * N) : (signed s N' : ℝ) = 2 ^ d * signed s N := by
  unfold signed
  cases s
  · simpa using e
  · simp only [if_true]
    push_cast
    rw [e]
    ring

theorem pow_pos' (d : ℤ) : (0 : ℝ) < 2 ^ d := zpow_pos (by norm_num) d

theorem timesPow_roundInt {d : ℤ} {s : Bool} {z z' : ℤ} (e : (z' : ℝ) = 2 ^ d * z) (h : (roundInt s z : Fl F).Finite)
    (h' : (roundInt s z' : Fl F).Finite) : TimesPow d (roundInt s z : Fl F) (roundInt s z') := by
  have hp := pow_pos' d
  unfold roundInt at h h' ⊢
  by_cases hz : z = 0
  · have hz' : z' = 0 := by
      rw [hz, Int.cast_zero, mul_zero] at e
      exact_mod_cast e
    rw [if_pos hz] at h ⊢
    rw [if_pos hz'] at h' ⊢
    exact timesPow_pack h h' (by simp)
  · have hz' : z' ≠ 0 := by
      intro h0
      rw [h0, Int.cast_zero, eq_comm, mul_eq_zero] at e
      rcases e with e | e
      · exact hp.ne' e
      · exact hz (by exact_mod_cast e)
    rw [if_neg hz] at h ⊢
    rw [if_neg hz'] at h' ⊢
    have hs : decide (z' < 0) = decide (z < 0) := by
      apply decide_eq_decide.mpr
      rw [← Int.cast_lt (R := ℝ), ← Int.cast_lt (R := ℝ), e, Int.cast_zero]
      exact ⟨fun h => by by_contra hn; exact absurd h (not_lt.mpr (mul_nonneg hp.le (not_lt.mp hn))), mul_neg_of_pos_of_neg hp⟩
    rw [hs] at h' ⊢
    refine timesPow_pack h h' (roundQuot_pow one_pos one_pos (noUnderflow_one _) (noUnderflow_one _) ?_)
    simp only [Nat.cast_one, div_one, Nat.cast_natAbs, Int.cast_abs]
    rw [e, abs_mul, abs_of_pos hp]

theorem agree_guarded {α β : Type} {P : α → β → Prop} {p q : Prop} [Decidable p] [Decidable q] {a : α} {b : β}
    (h : p → q → P a b) : Agree P (guarded p a) (guarded q b) := by
  unfold guarded
  intro x y hx hy
  split at hx
  · split at hy
    · cases hx
      cases hy
      exact h ‹_› ‹_›
    · cases hy
  · cases hx

variable {d e : ℤ} {a b a' b' : Fl F}

theorem gAdd_pow (ha : TimesPow d a a') (hb : TimesPow d b b') : Agree (TimesPow d) (gAdd a b) (gAdd a' b') := by
  obtain ⟨s, M, M', hM, hM', rfl, rfl, e1⟩ := ha.cases
  obtain ⟨t, N, N', hN, hN', rfl, rfl, e2⟩ := hb.cases
  refine agree_guarded fun h h' => timesPow_roundInt ?_ h h'
  push_cast
  rw [signed_pow e1, signed_pow e2]
  ring

theorem neg_pow (ha : TimesPow d a a') : TimesPow d a.neg a'.neg := by
  obtain ⟨s, M, M', hM, hM', rfl, rfl, e1⟩ := ha.cases
  exact timesPow_fin e1

theorem abs_pow (ha : TimesPow d a a') : TimesPow d a.abs a'.abs := by
  obtain ⟨s, M, M', hM, hM', rfl, rfl, e1⟩ := ha.cases
  exact timesPow_fin e1

theorem gSub_pow (ha : TimesPow d a a') (hb : TimesPow d b b') : Agree (TimesPow d) (gSub a b) (gSub a' b') :=
  gAdd_pow ha (neg_pow hb)

theorem gMul_pow (ha : TimesPow d a a') (hb : TimesPow e b b') : Agree (TimesPow (d + e)) (gMul a b) (gMul a' b') := by
  obtain ⟨s, M, M', hM, hM', rfl, rfl, e1⟩ := ha.cases
  obtain ⟨t, N, N', hN, hN', rfl, rfl, e2⟩ := hb.cases
  refine agree_guarded fun h h' => ?_
  refine timesPow_pack h.1 h'.1 (roundQuot_pow (unit_pos F) (unit_pos F) h.2 h'.2 ?_)
  push_cast
  rw [e1, e2, zpow_add₀ (by norm_num)]
  ring

theorem gDiv_pow (ha : TimesPow d a a') (hb : TimesPow e b b') : Agree (TimesPow (d - e)) (gDiv a b) (gDiv a' b') := by
  obtain ⟨s, M, M', hM, hM', rfl, rfl, e1⟩ := ha.cases
  obtain ⟨t, N, N', hN, hN', rfl, rfl, e2⟩ := hb.cases
  refine agree_guarded fun h h' => ?_
  obtain ⟨h, hu⟩ := h
  obtain ⟨h', hu'⟩ := h'
  have aux : ∀ {s t : Bool} {M N : Nat} {hM : F.Rep M} {hN : F.Rep N}, (div (.fin s M hM) (.fin t N hN)).Finite → N ≠ 0 := by
    rintro s t M N hM hN h rfl
    unfold div at h
    simp only [if_true] at h
    split at h <;> exact h
  have h0 := aux h
  have h0' := aux h'
  unfold div at h h' ⊢
  simp only [if_neg h0, if_neg h0'] at h h' ⊢
  refine timesPow_pack h h' (roundQuot_pow (Nat.pos_of_ne_zero h0) (Nat.pos_of_ne_zero h0') hu hu' ?_)
  have : (N : ℝ) ≠ 0 := by exact_mod_cast h0
  have := (pow_pos' e).ne'
  push_cast
  rw [e1, e2, zpow_sub₀ (by norm_num)]
  field_simp

theorem sqrt_normal {N : Nat} (h : N ≠ 0) : (2 : ℝ) ^ (F.p - 1) ≤ Real.sqrt ((N * F.unit : Nat) : ℝ) := by
  have h1 := F.hp
  have h2 := F.he
  apply Real.le_sqrt_of_sq_le
  rw [← pow_mul]
  have : 2 ^ ((F.p - 1) * 2) ≤ N * F.unit := by
    calc 2 ^ ((F.p - 1) * 2) ≤ F.unit := Nat.pow_le_pow_right (by norm_num) (by omega)
      _ ≤ N * F.unit := Nat.le_mul_of_pos_left _ (Nat.pos_of_ne_zero h)
  exact_mod_cast this

theorem gSqrt_pow (ha : TimesPow (d + d) a a') : Agree (TimesPow d) (gSqrt a) (gSqrt a') := by
  obtain ⟨s, M, M', hM, hM', rfl, rfl, e1⟩ := ha.cases
  refine agree_guarded fun h h' => ?_
  unfold sqrt at h h' ⊢
  simp only at h h' ⊢
  have hp := pow_pos' (d + d)
  by_cases h0 : M = 0
  · have h0' : M' = 0 := by
      rw [h0, Nat.cast_zero, mul_zero] at e1
      exact_mod_cast e1
    rw [if_pos h0, if_pos h0']
    exact timesPow_fin (by rw [h0, h0']; simp)
  · have h0' : M' ≠ 0 := by
      intro hz
      rw [hz, Nat.cast_zero, eq_comm, mul_eq_zero] at e1
      rcases e1 with e | e
      · exact hp.ne' e
      · exact h0 (by exact_mod_cast e)
    rw [if_neg h0] at h ⊢
    rw [if_neg h0'] at h' ⊢
    cases s
    · simp only [Bool.false_eq_true, if_false] at h h' ⊢
      refine timesPow_pack h h' (nearest_pow (roundSqrt_nearest _) (roundSqrt_nearest _) (.inl (sqrt_normal h0))
        (.inl (sqrt_normal h0')) ?_)
      have hd := (pow_pos' d).le
      push_cast
      rw [e1, zpow_add₀ (by norm_num), show (2 : ℝ) ^ d * 2 ^ d * M * F.unit = (2 ^ d) ^ 2 * (M * F.unit) by ring,
        Real.sqrt_mul (by positivity), Real.sqrt_sq hd]
    · exact h.elim

theorem eq_pow (ha : TimesPow d a a') (hb : TimesPow d b b') : a.eq b = a'.eq b' := by
  obtain ⟨s, M, M', hM, hM', rfl, rfl, e1⟩ := ha.cases
  obtain ⟨t, N, N', hN, hN', rfl, rfl, e2⟩ := hb.cases
  unfold eq key
  simp only
  apply decide_eq_decide.mpr
  rw [← Int.cast_inj (α := ℝ), ← Int.cast_inj (α := ℝ), signed_pow e1, signed_pow e2]
  exact (mul_right_inj' (pow_pos' d).ne').symm

theorem lt_pow (ha : TimesPow d a a') (hb : TimesPow d b b') : a.lt b = a'.lt b' := by
  obtain ⟨s, M, M', hM, hM', rfl, rfl, e1⟩ := ha.cases
  obtain ⟨t, N, N', hN, hN', rfl, rfl, e2⟩ := hb.cases
  unfold lt key
  simp only
  apply decide_eq_decide.mpr
  rw [← Int.cast_lt (R := ℝ), ← Int.cast_lt (R := ℝ), signed_pow e1, signed_pow e2]
  exact (mul_lt_mul_iff_right₀ (pow_pos' d)).symm

theorem gDiv_size (ha : TimesPow d a a') (n : Nat) : Agree (TimesPow d) (gDiv a (ofInt n)) (gDiv a' (ofInt n)) := by
  by_cases h : (ofInt n : Fl F).Finite
  · have := gDiv_pow ha (timesPow_self h)
    rwa [sub_zero] at this
  · unfold gDiv guarded
    rw [if_neg]
    · exact agree_error _ _
    · intro hd
      apply h
      cases hn : (ofInt n : Fl F) with
      | nan => rw [hn] at hd; cases a <;> exact hd.elim
      | inf => rw [hn] at hd; cases a <;> exact hd.elim
      | fin => trivial

theorem minusOne_finite : (ofInt (-1) : Fl F).Finite := by
  have e : (ofInt (-1) : Fl F) = pack true (roundQuot F F.unit 1) := by
    unfold ofInt roundInt
    have := unit_pos F
    rw [if_neg (by omega), decide_eq_true (by omega)]
    simp
  have e' : (ofInt 1 : Fl F) = pack false (roundQuot F F.unit 1) := by
    unfold ofInt roundInt
    have := unit_pos F
    rw [if_neg (by omega), decide_eq_false (by omega)]
    simp
  have := one_val (F := F) |>.1
  rw [e', pack_finite] at this
  rwa [e, pack_finite]

end Fl

/-- Floating point numbers that differ by a power of two. -/
noncomputable def scaleGraded (F : Fmt) : Graded (Guarded F) (Guarded F) where
  R := Fl.TimesPow (F := F)
  zero := Fl.timesPow_zero
  init := Fl.timesPow_zero
  one := Fl.timesPow_self Fl.one_val.1
  minusOne := Fl.timesPow_self Fl.minusOne_finite
  two := Fl.timesPow_self Fl.ofInt_two.1
  add := Fl.gAdd_pow
  sub := Fl.gSub_pow
  mul := Fl.gMul_pow
  div := Fl.gDiv_pow
  neg h := agree_ok (Fl.neg_pow h)
  abs h := agree_ok (Fl.abs_pow h)
  sqrt := Fl.gSqrt_pow
  divSize n h := Fl.gDiv_size h n
  eq := Fl.eq_pow
  lt := Fl.lt_pow

/-! ## A guarded call that returns is the call -/

/-- The same number. -/
scoped instance relGuarded : Rel (Guarded F) (Fl F) := ⟨fun a b => Eq (α := Fl F) a b⟩

theorem sim_guarded {p : Prop} [Decidable p] {a b : Fl F} (h : a = b) :
    SimRes (α := Guarded F) (β := Fl F) (guarded p a) (.ok b) := by
  unfold guarded
  split
  · exact sim_ok h
  · exact sim_ub _ _

theorem sim_gMul (a b : Fl F) : SimRes (α := Guarded F) (β := Fl F) (a.gMul b) (.ok (a.mul b)) := sim_guarded rfl

theorem sim_gDiv (a b : Fl F) : SimRes (α := Guarded F) (β := Fl F) (a.gDiv b) (.ok (a.div b)) := sim_guarded rfl

scoped instance : SimRing (Guarded F) (Fl F) where
  init := rfl
  zero := rfl
  one := rfl
  minusOne := rfl
  add := by rintro a b _ _ ⟨⟩ ⟨⟩; exact sim_guarded rfl
  sub := by rintro a b _ _ ⟨⟩ ⟨⟩; exact sim_guarded rfl
  mul := by rintro a b _ _ ⟨⟩ ⟨⟩; exact sim_gMul a b

scoped instance : SimOrd (Guarded F) (Fl F) where
  eq := by rintro a b _ _ ⟨⟩ ⟨⟩; rfl
  lt := by rintro a b _ _ ⟨⟩ ⟨⟩; rfl
  abs := by rintro a _ ⟨⟩; exact sim_ok rfl

scoped instance : SimField (Guarded F) (Fl F) where
  div := by rintro a b _ _ ⟨⟩ ⟨⟩; exact sim_gDiv a b
  neg := by rintro a _ ⟨⟩; exact sim_ok rfl
  sqrt := by rintro a _ ⟨⟩; exact sim_guarded rfl

theorem sim_mat (r c : Nat) (A : Mat (Fl F) r c) : Rel.rel (α := Mat (Guarded F) r c) (β := Mat (Fl F) r c) A A :=
  fun _ _ => rfl

theorem plain_num {x : Res (Guarded F)} {y : Res (Fl F)} (h : SimRes x y) {a : Fl F} (e : x = .ok a) : y = .ok a := by
  subst e
  obtain ⟨b, e, hab⟩ := h
  rw [e]
  exact congrArg _ (Eq.symm hab)

theorem plain_mat {r c : Nat} {x : Res (Mat (Guarded F) r c)} {y : Res (Mat (Fl F) r c)} (h : SimRes x y) {A : Mat (Fl F) r c}
    (e : x = .ok A) : y = .ok A := by
  subst e
  obtain ⟨B, e, hab⟩ := h
  rw [e]
  exact congrArg _ (Matrix.ext fun i j => (hab i j).symm)

theorem plain_bool {x y : Res Bool} (h : SimRes x y) {a : Bool} (e : x = .ok a) : y = .ok a := by
  subst e
  obtain ⟨b, e, hab⟩ := h
  rw [e]
  exact congrArg _ (Eq.symm hab)

theorem plain_pair {m n : Nat} {x : Res (Mat (Guarded F) m n × Mat (Guarded F) m n)} {y : Res (Mat (Fl F) m n × Mat (Fl F) m n)}
    (h : SimRes x y) {A B : Mat (Fl F) m n} (e : x = .ok (A, B)) : y = .ok (A, B) := by
  subst e
  obtain ⟨⟨A', B'⟩, e, hA, hB⟩ := h
  rw [e]
  have e1 : A' = A := Matrix.ext fun i j => (hA i j).symm
  have e2 : B' = B := Matrix.ext fun i j => (hB i j).symm
  rw [e1, e2]

/-! ## What the guards say -/

theorem guarded_iff {α : Type} (p : Prop) [Decidable p] (a c : α) : guarded p a = .ok c ↔ c = a ∧ p := by
  unfold guarded
  constructor
  · intro h
    split at h
    · cases h
      exact ⟨rfl, ‹_›⟩
    · cases h
  · rintro ⟨rfl, h⟩
    rw [if_pos h]

namespace Fl

/-- 1 or -1. -/
def sgn (s : Bool) : ℝ := if s then -1 else 1

theorem sgn_mul_self (s : Bool) : sgn s * sgn s = 1 := by cases s <;> simp [sgn]

theorem sgn_xor (s t : Bool) : sgn (s ^^ t) = sgn s * sgn t := by cases s <;> cases t <;> simp [sgn]

theorem sgn_ne (s : Bool) : sgn s ≠ 0 := by cases s <;> simp [sgn]

theorem abs_sgn (s : Bool) : |sgn s| = 1 := by cases s <;> simp [sgn]

theorem val_fin (s : Bool) (N : Nat) (h : F.Rep N) : (Fl.fin s N h).val = sgn s * ((N : ℝ) / F.unit) := by
  unfold val signed sgn
  cases s <;> simp [neg_div]

theorem unit_minNormal : (2 : ℝ) ^ (1 - (F.emax : ℤ)) * F.unit = 2 ^ (F.p - 1) := by
  have h1 := F.hp
  have h2 := F.he
  unfold Fmt.unit
  push_cast
  rw [← zpow_natCast, ← zpow_natCast, ← zpow_add₀ (by norm_num)]
  congr 1
  omega

/-- The condition on numbers of units says what it should about real numbers. -/
theorem noUnderflow_val {a b : Nat} (hb : 0 < b) {s : Bool} {z v : ℝ} (hz : z = sgn s * ((a : ℝ) / b / F.unit))
    (hv : v = sgn s * ((roundQuot F a b : ℝ) / F.unit)) :
    F.NoUnderflow a b ↔ (2 : ℝ) ^ (1 - (F.emax : ℤ)) ≤ |z| ∨ v = z := by
  have hb' : (0 : ℝ) < b := by exact_mod_cast hb
  have hu := unit_posR F
  unfold Fmt.NoUnderflow
  refine or_congr ?_ ?_
  · rw [hz, abs_mul, abs_sgn, one_mul, abs_of_nonneg (by positivity), le_div_iff₀ hu, unit_minNormal, le_div_iff₀ hb']
    exact_mod_cast Iff.rfl
  · rw [hz, hv, mul_right_inj' (sgn_ne s), div_left_inj' hu.ne', eq_div_iff hb'.ne']
    exact_mod_cast Iff.rfl

theorem gMul_iff {a b c : Fl F} (ha : a.Finite) (hb : b.Finite) : a.gMul b = .ok c ↔
    c = a.mul b ∧ c.Finite ∧ ((2 : ℝ) ^ (1 - (F.emax : ℤ)) ≤ |a.val * b.val| ∨ c.val = a.val * b.val) := by
  unfold gMul
  rw [guarded_iff]
  refine and_congr_right ?_
  rintro rfl
  cases a with
  | nan => exact ha.elim
  | inf => exact ha.elim
  | fin s M hM =>
    cases b with
    | nan => exact hb.elim
    | inf => exact hb.elim
    | fin t N hN =>
      unfold MulInRange
      refine and_congr_right fun h => noUnderflow_val (s := s ^^ t) (unit_pos F) ?_ ?_
      · rw [val_fin, val_fin, sgn_xor]
        push_cast
        ring
      · unfold mul at h ⊢
        simp only at h ⊢
        rw [pack_finite] at h
        unfold pack
        rw [dif_pos h, val_fin]

theorem gDiv_iff {a b c : Fl F} (ha : a.Finite) (hb : b.Finite) : a.gDiv b = .ok c ↔
    c = a.div b ∧ c.Finite ∧ ((2 : ℝ) ^ (1 - (F.emax : ℤ)) ≤ |a.val / b.val| ∨ c.val = a.val / b.val) := by
  unfold gDiv
  rw [guarded_iff]
  refine and_congr_right ?_
  rintro rfl
  cases a with
  | nan => exact ha.elim
  | inf => exact ha.elim
  | fin s M hM =>
    cases b with
    | nan => exact hb.elim
    | inf => exact hb.elim
    | fin t N hN =>
      unfold DivInRange
      refine and_congr_right fun h => ?_
      have h0 : N ≠ 0 := by
        rintro rfl
        unfold div at h
        simp only [if_true] at h
        split at h <;> exact h
      have h0' : (N : ℝ) ≠ 0 := by exact_mod_cast h0
      have hu := (unit_posR F).ne'
      refine noUnderflow_val (s := s ^^ t) (Nat.pos_of_ne_zero h0) ?_ ?_
      · have hs := sgn_ne t
        rw [val_fin, val_fin, sgn_xor]
        push_cast
        have := sgn_mul_self t
        field_simp
        linear_combination (-(sgn s * M)) * this
      · unfold div at h ⊢
        simp only [if_neg h0] at h ⊢
        rw [pack_finite] at h
        unfold pack
        rw [dif_pos h, val_fin]

end Fl

theorem sim_divSize {a : Guarded F} {b : Fl F} (h : a ≈≈ b) (n : Nat) :
    SimRes (CScalar.divSize (T := Guarded F) a n) (CScalar.divSize (T := Fl F) b n) := by
  obtain rfl : Eq (α := Fl F) a b := h
  exact sim_gDiv a _

theorem sim_mean {r c : Nat} {A : Mat (Guarded F) r c} {A' : Mat (Fl F) r c} (hA : A ≈≈ A') : SimRes (mean A) (mean A') := by
  unfold mean
  refine sim_bind (sim_forUp SimRing.zero fun _ _ _ h => sim_forUp h fun _ _ _ h => ?_) fun _ _ h => sim_divSize h _
  exact sim_bind (sim_rd hA _ _) fun _ _ h' => SimRing.add h h'

theorem sim_var {r c : Nat} {A : Mat (Guarded F) r c} {A' : Mat (Fl F) r c} (hA : A ≈≈ A') : SimRes (var A) (var A') := by
  unfold var
  refine sim_bind (sim_mean hA) fun _ _ hm => ?_
  refine sim_bind (sim_forUp SimRing.zero fun _ _ _ h => sim_forUp h fun _ _ _ h => ?_) fun _ _ h => sim_divSize h _
  exact sim_bind (sim_rd hA _ _) fun _ _ x => sim_bind (SimRing.sub x hm) fun _ _ y => sim_bind (sim_rd hA _ _) fun _ _ x =>
    sim_bind (SimRing.sub x hm) fun _ _ y' => sim_bind (SimRing.mul y y') fun _ _ z => SimRing.add h z

theorem sim_stddev {r c : Nat} {A : Mat (Guarded F) r c} {A' : Mat (Fl F) r c} (hA : A ≈≈ A') : SimRes (stddev A) (stddev A') := by
  unfold stddev
  exact sim_bind (sim_var hA) fun _ _ h => SimField.sqrt h

/-! ## Exponents indexed by the rows of a matrix, and by numbers -/

/-- Any value outside. -/
def extend {n : Nat} (r : Fin n → ℤ) (i : Nat) : ℤ := if h : i < n then r ⟨i, h⟩ else 0

theorem extend_fin {n : Nat} (r : Fin n → ℤ) (i : Fin n) : extend r i = r i := by
  unfold extend
  rw [dif_pos i.2]

theorem extend_sum {n : Nat} (r : Fin n → ℤ) : ∑ i ∈ Finset.range n, extend r i = ∑ i, r i := by
  rw [Finset.sum_range]
  exact Finset.sum_congr rfl fun i _ => extend_fin r i

/-- Any value outside. -/
def extend₂ {m n : Nat} (k : Fin m → Fin n → ℤ) (i j : Nat) : ℤ := if h : i < m ∧ j < n then k ⟨i, h.1⟩ ⟨j, h.2⟩ else 0

theorem toM {r c : Nat} {k : Fin r → Fin c → ℤ} {A A' : Mat (Fl F) r c} (h : TimesPows k A A') {d : Nat → Nat → ℤ}
    (e : ∀ (i : Fin r) (j : Fin c), d i j = k i j) : (scaleGraded F).M (r := r) (c := c) d A A' := fun i j => by
  rw [e]
  exact h i j

theorem ofM {r c : Nat} {k : Fin r → Fin c → ℤ} {A A' : Mat (Fl F) r c} {d : Nat → Nat → ℤ}
    (h : (scaleGraded F).M (r := r) (c := c) d A A') (e : ∀ (i : Fin r) (j : Fin c), d i j = k i j) : TimesPows k A A' :=
  fun i j => by
    rw [← e]
    exact h i j

theorem extend₂_fin {m n : Nat} (k : Fin m → Fin n → ℤ) (i : Fin m) (j : Fin n) : extend₂ k i j = k i j := by
  unfold extend₂
  rw [dif_pos ⟨i.2, j.2⟩]

theorem timesPow_ofInt {z z' k : ℤ} (h : (Fl.ofInt z : Fl F).Finite) (h' : (Fl.ofInt z' : Fl F).Finite) (e : (z' : ℝ) = 2 ^ k * z) :
    (Fl.ofInt z : Fl F).TimesPow k (Fl.ofInt z') := by
  refine Fl.timesPow_roundInt ?_ h h'
  push_cast
  rw [e]
  ring

theorem isSymetric_returns {n : Nat} (A : Mat (Guarded F) n n) : ∃ b, isSymetric A = .ok b := by
  have h := safe_isSymetric (E := fun _ => False) A
  unfold Safe at h
  cases e : isSymetric A with
  | ok b => exact ⟨b, rfl⟩
  | error k => rw [e] at h; exact h.elim

end MatrixLibs
