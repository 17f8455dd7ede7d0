import Verif.Model.FloatConv
import Verif.Spec.FloatConv
import Verif.Proof.FloatOps
import Verif.Proof.FloatRound

/-!
# Rounding twice
-/

namespace MatrixLibs

set_option linter.unusedSectionVars false

namespace Fl
variable {F G : Fmt}

/-- Numbers between two neighbours of the grid have their spacing. -/
theorem ulpExp_between {m k n : Nat} (hm : m < 2 ^ F.p) (hk : k = 0 ∨ 2 ^ (F.p - 1) ≤ m) (h1 : m * 2 ^ k ≤ n)
    (h2 : n < (m + 1) * 2 ^ k) : F.ulpExp n = k ∧ n / 2 ^ k = m := by
  have hp := F.hp
  refine ⟨?_, Nat.div_eq_of_lt_le h1 h2⟩
  unfold Fmt.ulpExp
  rcases hk with rfl | hk
  · have e : n = m := by simp at h1 h2; omega
    subst e
    have : n.log2 < F.p := by
      by_cases h0 : n = 0
      · subst h0; simp; omega
      · exact (Nat.log2_lt h0).mpr hm
    omega
  · have h3 : 2 ^ (F.p - 1 + k) ≤ n := by
      rw [pow_add]
      exact le_trans (Nat.mul_le_mul_right _ hk) h1
    have h4 : n < 2 ^ (F.p + k) := by
      refine lt_of_lt_of_le h2 ?_
      rw [pow_add]
      exact Nat.mul_le_mul_right _ hm
    have h0 : n ≠ 0 := by
      have : 0 < 2 ^ (F.p - 1 + k) := by positivity
      omega
    have h5 : n.log2 < F.p + k := (Nat.log2_lt h0).mpr h4
    have h6 : F.p - 1 + k ≤ n.log2 := (Nat.le_log2 h0).mpr h3
    omega

/-- The place of a number between its neighbours on the grid. -/
structure Place (F : Fmt) (x : ℝ) (m k : Nat) : Prop where
  m_lt : m < 2 ^ F.p
  normal : k = 0 ∨ 2 ^ (F.p - 1) ≤ m
  le : (m : ℝ) * 2 ^ k ≤ x
  lt : x < ((m : ℝ) + 1) * 2 ^ k

theorem exists_place (F : Fmt) {x : ℝ} (hx : 0 ≤ x) : ∃ m k, Place F x m k := by
  obtain ⟨half, ha⟩ := exists_approx hx
  obtain ⟨k, m, n, hk, hm, -, h1, h2, h3, -⟩ := roundMag_cases (F := F) ha
  refine ⟨m, k, h3, ?_, h1, h2⟩
  by_cases h0 : k = 0
  · exact .inl h0
  · refine .inr ?_
    rw [hm, Nat.le_div_iff_mul_le (by positivity), ← pow_add]
    unfold Fmt.ulpExp at hk
    have hf : ⌊x⌋₊ ≠ 0 := by
      intro h
      rw [h] at hk
      simp at hk
      have := F.hp
      omega
    refine le_trans (Nat.pow_le_pow_right (by norm_num) ?_) (log2_le hf)
    have := F.hp
    omega

/-- The nearest number, from the place. -/
theorem Place.nearest {x : ℝ} {m k N : Nat} (hp : Place F x m k) (hx : 0 ≤ x) (hN : Nearest F x N) :
    (x < ((m : ℝ) + 1 / 2) * 2 ^ k → N = m * 2 ^ k) ∧ (((m : ℝ) + 1 / 2) * 2 ^ k < x → N = (m + 1) * 2 ^ k) := by
  obtain ⟨half, ha⟩ := exists_approx hx
  have e := hN.unique (roundMag_nearest ha)
  obtain ⟨k', m', n, hk, hm, hr, -, -, -, h4⟩ := roundMag_cases (F := F) ha
  have hb := ulpExp_between (F := F) (n := ⌊x⌋₊) hp.m_lt hp.normal
    (Nat.le_floor (by push_cast; exact hp.le)) ((Nat.floor_lt hx).mpr (by push_cast; exact hp.lt))
  rw [hb.1] at hk
  subst hk
  rw [hb.2] at hm
  subst hm
  rw [e, hr]
  constructor
  · intro h
    rcases h4 with ⟨rfl, -⟩ | ⟨-, h4 | ⟨h4, -⟩⟩
    · rfl
    · linarith
    · linarith
  · intro h
    rcases h4 with ⟨-, h4 | ⟨h4, -⟩⟩ | ⟨rfl, -⟩
    · linarith
    · linarith
    · rfl

/-- The number of units of the wider format in one of the narrower. -/
def shift (F G : Fmt) : Nat := G.emax + G.p - (F.emax + F.p)

section
variable (W : F.Wide G)
include W

theorem Wide.unit : G.unit = F.unit * 2 ^ shift F G := by
  have := W.prec
  have := W.range
  have := F.hp
  unfold Fmt.unit shift
  rw [← pow_add]
  congr 1
  omega

theorem Wide.shift_ge : 2 * F.p + 5 ≤ shift F G := by
  have := W.prec
  have := W.range
  unfold shift
  omega

/-- Rounding to the wider format first does no harm unless it gives the middle between two neighbours. -/
theorem nearest_twice {x : ℝ} (hx : 0 ≤ x) {Y N : Nat} (hY : Nearest G (x * 2 ^ shift F G) Y)
    (hN : Nearest F ((Y : ℝ) / 2 ^ shift F G) N)
    (hs : ∀ m k, Place F x m k → (Y : ℝ) = ((m : ℝ) + 1 / 2) * 2 ^ k * 2 ^ shift F G → x = ((m : ℝ) + 1 / 2) * 2 ^ k) :
    Nearest F x N := by
  have hprec := W.prec
  have hsh := Wide.shift_ge W
  set σ := shift F G with hσ
  have hσ0 : (0 : ℝ) < 2 ^ σ := by positivity
  obtain ⟨m, k, hp⟩ := exists_place F hx
  have hs := hs m k hp
  obtain ⟨half, ha⟩ := exists_approx hx
  have hX := roundMag_nearest (F := F) ha
  set R := roundMag F ⌊x⌋₊ half
  suffices N = R by rw [this]; exact hX
  have hpow : 2 ^ (F.p + 1) ≤ 2 ^ G.p := Nat.pow_le_pow_right (by norm_num) (by omega)
  have hm := hp.m_lt
  have hpp : 2 ^ (F.p + 1) = 2 * 2 ^ F.p := by rw [pow_succ]; ring
  -- the neighbours and the middle are numbers of the wider format
  have g1 : Nearest G (((m * 2 ^ (k + σ) : Nat) : ℝ)) (m * 2 ^ (k + σ)) := Nearest.self (grid_mul (by omega))
  have g2 : Nearest G ((((m + 1) * 2 ^ (k + σ) : Nat) : ℝ)) ((m + 1) * 2 ^ (k + σ)) :=
    Nearest.self (grid_mul (by omega))
  have g3 : Nearest G ((((2 * m + 1) * 2 ^ (k + σ - 1) : Nat) : ℝ)) ((2 * m + 1) * 2 ^ (k + σ - 1)) :=
    Nearest.self (grid_mul (by omega))
  have e3 : (((2 * m + 1) * 2 ^ (k + σ - 1) : Nat) : ℝ) = ((m : ℝ) + 1 / 2) * 2 ^ k * 2 ^ σ := by
    have : (2 : ℝ) ^ k * 2 ^ σ = 2 * 2 ^ (k + σ - 1) := by
      rw [← pow_add, ← pow_succ']
      congr 1
      omega
    rw [mul_assoc, this]
    push_cast
    ring
  have e1 : ((m * 2 ^ (k + σ) : Nat) : ℝ) = (m : ℝ) * 2 ^ k * 2 ^ σ := by push_cast; rw [pow_add]; ring
  have e2 : (((m + 1) * 2 ^ (k + σ) : Nat) : ℝ) = ((m : ℝ) + 1) * 2 ^ k * 2 ^ σ := by push_cast; rw [pow_add]; ring
  set y : ℝ := (Y : ℝ) / 2 ^ σ with hy
  have hyY : (Y : ℝ) = y * 2 ^ σ := by rw [hy]; field_simp
  have hy0 : 0 ≤ y := by positivity
  have l1 : (m : ℝ) * 2 ^ k ≤ y := by
    have h := g1.mono hY (by rw [e1]; exact mul_le_mul_of_nonneg_right hp.le hσ0.le)
    have h' : ((m * 2 ^ (k + σ) : Nat) : ℝ) ≤ Y := by exact_mod_cast h
    rw [e1, hyY] at h'
    exact le_of_mul_le_mul_right h' hσ0
  have l2 : y ≤ ((m : ℝ) + 1) * 2 ^ k := by
    have h := hY.mono g2 (by rw [e2]; exact mul_le_mul_of_nonneg_right hp.lt.le hσ0.le)
    have h' : (Y : ℝ) ≤ (((m + 1) * 2 ^ (k + σ) : Nat) : ℝ) := by exact_mod_cast h
    rw [e2, hyY] at h'
    exact le_of_mul_le_mul_right h' hσ0
  rcases lt_trichotomy x (((m : ℝ) + 1 / 2) * 2 ^ k) with hlt | heq | hgt
  · have l3 : y ≤ ((m : ℝ) + 1 / 2) * 2 ^ k := by
      have h := hY.mono g3 (by rw [e3]; exact mul_le_mul_of_nonneg_right hlt.le hσ0.le)
      have h' : (Y : ℝ) ≤ (((2 * m + 1) * 2 ^ (k + σ - 1) : Nat) : ℝ) := by exact_mod_cast h
      rw [e3, hyY] at h'
      exact le_of_mul_le_mul_right h' hσ0
    have l4 : y ≠ ((m : ℝ) + 1 / 2) * 2 ^ k := fun h => hlt.ne (hs (by rw [hyY, h]))
    have l5 := lt_of_le_of_ne l3 l4
    have hpy : Place F y m k := ⟨hp.m_lt, hp.normal, l1, by
      refine lt_trans l5 ?_
      have : (0 : ℝ) < 2 ^ k := by positivity
      nlinarith⟩
    rw [(hpy.nearest hy0 hN).1 l5, (hp.nearest hx hX).1 hlt]
  · have : x * 2 ^ σ = (((2 * m + 1) * 2 ^ (k + σ - 1) : Nat) : ℝ) := by rw [e3, heq]
    rw [this] at hY
    have e := hY.unique g3
    have : y = x := by rw [hy, e, e3, ← heq]; field_simp
    rw [this] at hN
    exact hN.unique hX
  · have l3 : ((m : ℝ) + 1 / 2) * 2 ^ k ≤ y := by
      have h := g3.mono hY (by rw [e3]; exact mul_le_mul_of_nonneg_right hgt.le hσ0.le)
      have h' : (((2 * m + 1) * 2 ^ (k + σ - 1) : Nat) : ℝ) ≤ Y := by exact_mod_cast h
      rw [e3, hyY] at h'
      exact le_of_mul_le_mul_right h' hσ0
    have l4 : y ≠ ((m : ℝ) + 1 / 2) * 2 ^ k := fun h => hgt.ne' (hs (by rw [hyY, h]))
    have l5 := lt_of_le_of_ne l3 (Ne.symm l4)
    rw [(hp.nearest hx hX).2 hgt]
    rcases lt_or_eq_of_le l2 with l6 | l6
    · exact (Place.nearest ⟨hp.m_lt, hp.normal, l1, l6⟩ hy0 hN).2 l5
    · have : y = (((m + 1) * 2 ^ k : Nat) : ℝ) := by rw [l6]; push_cast; ring
      rw [this] at hN
      exact hN.of_grid (grid_mul (by omega))

/-- If the first rounding gives the middle between two neighbours, the exact value is very close to it. -/
theorem near_mid {x : ℝ} (hx : 0 ≤ x) {Y m k : Nat} (hY : Nearest G (x * 2 ^ shift F G) Y)
    (h : (Y : ℝ) = ((m : ℝ) + 1 / 2) * 2 ^ k * 2 ^ shift F G) :
    |x - ((m : ℝ) + 1 / 2) * 2 ^ k| * 2 ^ (2 * F.p + 4) ≤ ((m : ℝ) + 1 / 2) * 2 ^ k := by
  have hprec := W.prec
  have hsh := Wide.shift_ge W
  have hσ0 : (0 : ℝ) < 2 ^ shift F G := by positivity
  set μ : ℝ := ((m : ℝ) + 1 / 2) * 2 ^ k with hμ
  have hμ1 : 1 / 2 ≤ μ := by
    have h1 : (1 : ℝ) ≤ 2 ^ k := one_le_pow₀ (by norm_num)
    have : (0 : ℝ) ≤ m := by positivity
    rw [hμ]
    nlinarith
  have e : |(Y : ℝ) - x * 2 ^ shift F G| = |x - μ| * 2 ^ shift F G := by
    rw [h, ← sub_mul, abs_mul, abs_of_pos hσ0, abs_sub_comm]
  have h5 : (2 : ℝ) ^ (2 * F.p + 5) = 2 ^ (2 * F.p + 4) * 2 := by rw [← pow_succ]
  have hP : (1 : ℝ) ≤ 2 ^ (2 * F.p + 4) := one_le_pow₀ (by norm_num)
  rcases hY.err (by positivity) with h1 | h1
  · rw [e] at h1
    have h2 : |x - μ| ≤ x * G.u := by
      refine le_of_mul_le_mul_right ?_ hσ0
      linarith
    have h3 : |x - μ| * 2 ^ (2 * F.p + 5) ≤ x := by
      have hu : G.u * 2 ^ (2 * F.p + 5) ≤ 1 := by
        unfold Fmt.u
        rw [one_div, inv_mul_le_iff₀ (by positivity), mul_one]
        exact pow_le_pow_right₀ (by norm_num) hprec
      calc |x - μ| * 2 ^ (2 * F.p + 5) ≤ x * G.u * 2 ^ (2 * F.p + 5) :=
            mul_le_mul_of_nonneg_right h2 (by positivity)
        _ = x * (G.u * 2 ^ (2 * F.p + 5)) := by ring
        _ ≤ x * 1 := mul_le_mul_of_nonneg_left hu hx
        _ = x := mul_one x
    have h4 : x ≤ 2 * μ := by
      have := le_abs_self (x - μ)
      rw [h5] at h3
      have h0 := abs_nonneg (x - μ)
      nlinarith
    rw [h5] at h3
    linarith
  · rw [e] at h1
    have h2 : |x - μ| * 2 ^ (2 * F.p + 5) ≤ 1 / 2 := by
      refine le_trans (mul_le_mul_of_nonneg_left ?_ (abs_nonneg _)) h1
      exact pow_le_pow_right₀ (by norm_num) hsh
    rw [h5] at h2
    have h0 := abs_nonneg (x - μ)
    nlinarith

end

/-! ## Exact results keep their distance -/

/-- Different multiples of two powers of two differ by at least the smaller one. -/
theorem dist_pow (a b : Int) (i j : Nat) (h : a * 2 ^ i ≠ b * 2 ^ j) : 2 ^ min i j ≤ |a * 2 ^ i - b * 2 ^ j| := by
  apply Int.le_of_dvd (abs_pos.mpr (sub_ne_zero.mpr h))
  rw [dvd_abs]
  exact dvd_sub (Dvd.dvd.mul_left (pow_dvd_pow _ (min_le_left _ _)) _)
    (Dvd.dvd.mul_left (pow_dvd_pow _ (min_le_right _ _)) _)

/-- Quotients of numbers with `p` bits. -/
theorem sep_quot {P M N i j m k : Nat} (hM : M ≤ 2 ^ P) (hN : N ≤ 2 ^ P) (hN0 : 0 < N) (hm : m < 2 ^ P)
    (h : |((M * 2 ^ i : Nat) : ℝ) / ((N * 2 ^ j : Nat) : ℝ) - ((m : ℝ) + 1 / 2) * 2 ^ k| * 2 ^ (2 * P + 4) ≤
      ((m : ℝ) + 1 / 2) * 2 ^ k) :
    ((M * 2 ^ i : Nat) : ℝ) / ((N * 2 ^ j : Nat) : ℝ) = ((m : ℝ) + 1 / 2) * 2 ^ k := by
  by_contra hne
  have hb : (0 : ℝ) < ((N * 2 ^ j : Nat) : ℝ) := by exact_mod_cast Nat.mul_pos hN0 (by positivity)
  set a : ℝ := ((M * 2 ^ i : Nat) : ℝ) with ha
  set b : ℝ := ((N * 2 ^ j : Nat) : ℝ) with hb'
  set μ : ℝ := ((m : ℝ) + 1 / 2) * 2 ^ k with hμ
  set D : Int := (M : Int) * 2 ^ (i + 1) - ((N * (2 * m + 1) : Nat) : Int) * 2 ^ (j + k) with hD
  have eD : (D : ℝ) = 2 * (a - b * μ) := by
    rw [hD, ha, hb', hμ]
    push_cast
    rw [pow_add, pow_add]
    ring
  have hD0 : (M : Int) * 2 ^ (i + 1) ≠ ((N * (2 * m + 1) : Nat) : Int) * 2 ^ (j + k) := by
    intro h0
    have : (D : ℝ) = 0 := by rw [hD, h0, sub_self, Int.cast_zero]
    rw [eD] at this
    apply hne
    rw [div_eq_iff hb.ne']
    linarith
  have hmin := dist_pow _ _ _ _ hD0
  rw [← hD] at hmin
  have hminR : (2 : ℝ) ^ min (i + 1) (j + k) ≤ |(D : ℝ)| := by exact_mod_cast hmin
  have e1 : |(D : ℝ)| = 2 * b * |a / b - μ| := by
    rw [eD, abs_mul, abs_two, mul_assoc, ← abs_of_pos hb, ← abs_mul, abs_of_pos hb, mul_sub, mul_div_cancel₀ _ hb.ne']
  have h1 : |(D : ℝ)| * 2 ^ (2 * P + 4) ≤ 2 * b * μ := by
    rw [e1, mul_assoc]
    exact mul_le_mul_of_nonneg_left h (by positivity)
  have hP : (1 : ℝ) ≤ 2 ^ P := one_le_pow₀ (by norm_num)
  have e4 : (2 : ℝ) ^ (2 * P + 4) = 2 ^ P * 2 ^ P * 16 := by rw [pow_add, two_mul, pow_add]; norm_num
  have hmR : ((m : ℝ) + 1 / 2) ≤ 2 ^ P := by
    have : (m : ℝ) + 1 ≤ 2 ^ P := by exact_mod_cast hm
    linarith
  have hNR : (N : ℝ) ≤ 2 ^ P := by exact_mod_cast hN
  have hMR : (M : ℝ) ≤ 2 ^ P := by exact_mod_cast hM
  have hNR0 : (0 : ℝ) ≤ N := by positivity
  rcases min_choice (i + 1) (j + k) with hc | hc
  · rw [hc] at hminR
    -- the middle is at most twice the quotient
    have h2 : 2 * b * μ ≤ 4 * a := by
      have h3 := neg_abs_le (D : ℝ)
      have h0 := abs_nonneg (D : ℝ)
      have : |(D : ℝ)| * 16 ≤ |(D : ℝ)| * 2 ^ (2 * P + 4) := by
        refine mul_le_mul_of_nonneg_left ?_ h0
        rw [e4]
        nlinarith [mul_le_mul hP hP zero_le_one (by positivity)]
      have hbm : 0 ≤ b * μ := by positivity
      have h4 : (D : ℝ) = 2 * a - 2 * b * μ := by rw [eD]; ring
      linarith
    have h3 : (2 : ℝ) ^ (i + 1) * 2 ^ (2 * P + 4) ≤ 4 * a :=
      (mul_le_mul_of_nonneg_right hminR (by positivity)).trans (h1.trans h2)
    have h4 : 4 * a ≤ 4 * (2 ^ P * 2 ^ i) := by
      rw [ha]
      push_cast
      have : (0 : ℝ) < 2 ^ i := by positivity
      nlinarith
    rw [e4, pow_succ] at h3
    have h5 : (0 : ℝ) < 2 ^ i := by positivity
    have h6 : (2 : ℝ) ^ P ≤ 2 ^ P * 2 ^ P := by nlinarith
    nlinarith
  · rw [hc] at hminR
    have h3 : (2 : ℝ) ^ (j + k) * 2 ^ (2 * P + 4) ≤ 2 * b * μ :=
      (mul_le_mul_of_nonneg_right hminR (by positivity)).trans h1
    have h4 : 2 * b * μ ≤ 2 * (2 ^ P * 2 ^ P) * 2 ^ (j + k) := by
      rw [hb', hμ, pow_add]
      push_cast
      have : (N : ℝ) * ((m : ℝ) + 1 / 2) ≤ 2 ^ P * 2 ^ P := mul_le_mul hNR hmR (by positivity) (by positivity)
      calc 2 * ((N : ℝ) * 2 ^ j) * (((m : ℝ) + 1 / 2) * 2 ^ k)
          = 2 * ((N : ℝ) * ((m : ℝ) + 1 / 2)) * (2 ^ j * 2 ^ k) := by ring
        _ ≤ _ := mul_le_mul_of_nonneg_right (by linarith) (by positivity)
    rw [e4] at h3
    have h5 : (0 : ℝ) < 2 ^ (j + k) := by positivity
    have h6 : (0 : ℝ) < 2 ^ P * 2 ^ P * 2 ^ (j + k) := by positivity
    nlinarith

/-- Square roots of numbers with `p` bits. -/
theorem sep_sqrt {P M i m k : Nat} (hM : M ≤ 2 ^ P) (hm : m < 2 ^ P)
    (h : |Real.sqrt ((M * 2 ^ i : Nat) : ℝ) - ((m : ℝ) + 1 / 2) * 2 ^ k| * 2 ^ (2 * P + 4) ≤
      ((m : ℝ) + 1 / 2) * 2 ^ k) :
    Real.sqrt ((M * 2 ^ i : Nat) : ℝ) = ((m : ℝ) + 1 / 2) * 2 ^ k := by
  by_contra hne
  set a : ℝ := ((M * 2 ^ i : Nat) : ℝ) with ha
  have ha0 : 0 ≤ a := by positivity
  set x : ℝ := Real.sqrt a with hx
  have hx0 : 0 ≤ x := Real.sqrt_nonneg a
  have hxx : x * x = a := Real.mul_self_sqrt ha0
  set μ : ℝ := ((m : ℝ) + 1 / 2) * 2 ^ k with hμ
  have hμ0 : 0 < μ := by positivity
  set D : Int := (M : Int) * 2 ^ (i + 2) - (((2 * m + 1) ^ 2 : Nat) : Int) * 2 ^ (2 * k) with hD
  have eD : (D : ℝ) = 4 * ((x - μ) * (x + μ)) := by
    have : (x - μ) * (x + μ) = a - μ * μ := by rw [← hxx]; ring
    rw [this, hD, ha, hμ]
    push_cast
    rw [pow_add, two_mul k, pow_add]
    ring
  have hD0 : (M : Int) * 2 ^ (i + 2) ≠ (((2 * m + 1) ^ 2 : Nat) : Int) * 2 ^ (2 * k) := by
    intro h0
    have : (D : ℝ) = 0 := by rw [hD, h0, sub_self, Int.cast_zero]
    rw [eD] at this
    have h2 : (x - μ) * (x + μ) = 0 := by linarith
    rcases mul_eq_zero.mp h2 with h2 | h2
    · exact hne (by linarith)
    · linarith
  have hmin := dist_pow _ _ _ _ hD0
  rw [← hD] at hmin
  have hminR : (2 : ℝ) ^ min (i + 2) (2 * k) ≤ |(D : ℝ)| := by exact_mod_cast hmin
  have hP : (1 : ℝ) ≤ 2 ^ P := one_le_pow₀ (by norm_num)
  have hPP : (2 : ℝ) ^ P ≤ 2 ^ P * 2 ^ P := by nlinarith
  have e4 : (2 : ℝ) ^ (2 * P + 4) = 2 ^ P * 2 ^ P * 16 := by rw [pow_add, two_mul, pow_add]; norm_num
  have h0 := abs_nonneg (x - μ)
  have h16 : |x - μ| * 16 ≤ μ := by
    refine le_trans (mul_le_mul_of_nonneg_left ?_ h0) h
    rw [e4]
    linarith
  have hx1 : x ≤ 2 * μ := by have := le_abs_self (x - μ); linarith
  have hx2 : μ ≤ 2 * x := by have := neg_abs_le (x - μ); linarith
  have h1 : |(D : ℝ)| * 2 ^ (2 * P + 4) ≤ 12 * (μ * μ) := by
    rw [eD, abs_mul, abs_mul, abs_of_nonneg (by positivity : (0 : ℝ) ≤ x + μ), abs_of_pos (by norm_num : (0 : ℝ) < 4)]
    calc 4 * (|x - μ| * (x + μ)) * 2 ^ (2 * P + 4) = 4 * (x + μ) * (|x - μ| * 2 ^ (2 * P + 4)) := by ring
      _ ≤ 4 * (x + μ) * μ := mul_le_mul_of_nonneg_left h (by positivity)
      _ ≤ 12 * (μ * μ) := by nlinarith
  have hmR : ((m : ℝ) + 1 / 2) ≤ 2 ^ P := by
    have : (m : ℝ) + 1 ≤ 2 ^ P := by exact_mod_cast hm
    linarith
  have hMR : (M : ℝ) ≤ 2 ^ P := by exact_mod_cast hM
  rcases min_choice (i + 2) (2 * k) with hc | hc
  · rw [hc] at hminR
    have h3 : (2 : ℝ) ^ (i + 2) * 2 ^ (2 * P + 4) ≤ 48 * a := by
      refine (mul_le_mul_of_nonneg_right hminR (by positivity)).trans (h1.trans ?_)
      rw [← hxx]
      nlinarith
    have h4 : 48 * a ≤ 48 * (2 ^ P * 2 ^ i) := by
      rw [ha]
      push_cast
      have : (0 : ℝ) < 2 ^ i := by positivity
      nlinarith
    rw [e4, pow_add] at h3
    have h5 : (0 : ℝ) < 2 ^ i := by positivity
    nlinarith
  · rw [hc] at hminR
    have h3 : (2 : ℝ) ^ (2 * k) * 2 ^ (2 * P + 4) ≤ 12 * (μ * μ) :=
      (mul_le_mul_of_nonneg_right hminR (by positivity)).trans h1
    have h4 : μ * μ ≤ 2 ^ P * 2 ^ P * 2 ^ (2 * k) := by
      rw [hμ, two_mul, pow_add]
      calc ((m : ℝ) + 1 / 2) * 2 ^ k * (((m : ℝ) + 1 / 2) * 2 ^ k)
          = (((m : ℝ) + 1 / 2) * ((m : ℝ) + 1 / 2)) * (2 ^ k * 2 ^ k) := by ring
        _ ≤ _ := mul_le_mul_of_nonneg_right (mul_le_mul hmR hmR (by positivity) (by positivity)) (by positivity)
    rw [e4] at h3
    have h6 : (0 : ℝ) < 2 ^ P * 2 ^ P * 2 ^ (2 * k) := by positivity
    nlinarith

theorem sep_add_aux {A z : Int} {α m k : Nat} (hA : |A| ≤ 2 ^ F.p) (hz : F.Grid z.natAbs) (hd : (2 : Int) ^ α ∣ z)
    (hp : Place F (((A * 2 ^ α + z).natAbs : Nat) : ℝ) m k)
    (h : |(((A * 2 ^ α + z).natAbs : Nat) : ℝ) - ((m : ℝ) + 1 / 2) * 2 ^ k| * 2 ^ (2 * F.p + 4) ≤
      ((m : ℝ) + 1 / 2) * 2 ^ k) :
    (((A * 2 ^ α + z).natAbs : Nat) : ℝ) = ((m : ℝ) + 1 / 2) * 2 ^ k := by
  by_contra hne
  obtain ⟨b, hb⟩ := hd
  have hp2 := F.hp
  set n : Nat := (A * 2 ^ α + z).natAbs with hn
  have hnB : (n : Int) = |A + b| * 2 ^ α := by
    rw [hn, Int.natCast_natAbs, hb, mul_comm (2 ^ α) b, ← add_mul, abs_mul]
    congr 1
    exact abs_of_nonneg (by positivity)
  set D : Int := |A + b| * 2 ^ (α + 1) - ((2 * m + 1 : Nat) : Int) * 2 ^ k with hD
  have eDn : D = 2 * (n : Int) - ((2 * m + 1 : Nat) : Int) * 2 ^ k := by rw [hD, hnB, pow_succ]; ring
  set μ : ℝ := ((m : ℝ) + 1 / 2) * 2 ^ k with hμ
  have eD : (D : ℝ) = 2 * ((n : ℝ) - μ) := by
    rw [eDn, hμ]
    push_cast
    ring
  have hD0 : |A + b| * 2 ^ (α + 1) ≠ ((2 * m + 1 : Nat) : Int) * 2 ^ k := by
    intro h0
    have : (D : ℝ) = 0 := by rw [hD, h0, sub_self, Int.cast_zero]
    rw [eD] at this
    exact hne (by linarith)
  have hmin := dist_pow _ _ _ _ hD0
  rw [← hD] at hmin
  have hminR : (2 : ℝ) ^ min (α + 1) k ≤ |(D : ℝ)| := by exact_mod_cast hmin
  have h1 : |(D : ℝ)| * 2 ^ (2 * F.p + 4) ≤ 2 * μ := by
    rw [eD, abs_mul, abs_two, mul_assoc]
    linarith
  have hmR : (m : ℝ) + 1 ≤ 2 ^ F.p := by exact_mod_cast hp.m_lt
  have h2 : 2 * μ < 2 ^ (F.p + 1 + k) := by
    rw [hμ, pow_add, pow_succ]
    have : (0 : ℝ) < 2 ^ k := by positivity
    nlinarith
  have h3 : (2 : ℝ) ^ (min (α + 1) k + (2 * F.p + 4)) < 2 ^ (F.p + 1 + k) := by
    rw [pow_add]
    exact lt_of_le_of_lt (mul_le_mul_of_nonneg_right hminR (by positivity)) (lt_of_le_of_lt h1 h2)
  have h4 := (pow_lt_pow_iff_right₀ (by norm_num : (1 : ℝ) < 2)).mp h3
  have h5 : α + F.p + 5 ≤ k := by
    rcases min_choice (α + 1) k with hc | hc <;> rw [hc] at h4 <;> omega
  have hm : 2 ^ (F.p - 1) ≤ m := by
    rcases hp.normal with h0 | h0
    · omega
    · exact h0
  -- the other operand is within a quarter of the spacing of the middle
  have h6 : |2 * (z.natAbs : ℝ) - 2 * μ| < 2 ^ k := by
    have a1 : |(z.natAbs : ℝ) - n| ≤ 2 ^ (F.p + α) := by
      have : |(z.natAbs : Int) - (n : Int)| ≤ |A| * 2 ^ α := by
        rw [hn, Int.natCast_natAbs, Int.natCast_natAbs]
        refine (abs_abs_sub_abs_le _ _).trans ?_
        rw [show z - (A * 2 ^ α + z) = -(A * 2 ^ α) by ring, abs_neg, abs_mul, abs_of_nonneg (by positivity : (0 : Int) ≤ 2 ^ α)]
      have h7 : |(z.natAbs : Int) - (n : Int)| ≤ 2 ^ (F.p + α) := by
        rw [pow_add]
        exact this.trans (mul_le_mul_of_nonneg_right hA (by positivity))
      exact_mod_cast h7
    have a2 : (2 : ℝ) ^ (F.p + α) * 32 ≤ 2 ^ k := by
      rw [show (32 : ℝ) = 2 ^ 5 by norm_num, ← pow_add]
      exact pow_le_pow_right₀ (by norm_num) (by omega)
    have a3 : |(D : ℝ)| * 8 ≤ 2 ^ k := by
      have : (2 : ℝ) ^ (F.p + 1 + k) = 2 ^ k * 2 ^ (F.p + 1) := by rw [pow_add]; ring
      have e : (2 : ℝ) ^ (2 * F.p + 4) = 2 ^ (F.p + 3) * 2 ^ (F.p + 1) := by rw [← pow_add]; congr 1; omega
      have e8 : (8 : ℝ) ≤ 2 ^ (F.p + 3) := by
        rw [show (8 : ℝ) = 2 ^ 3 by norm_num]
        exact pow_le_pow_right₀ (by norm_num) (by omega)
      have b1 : |(D : ℝ)| * 2 ^ (F.p + 3) * 2 ^ (F.p + 1) ≤ 2 ^ k * 2 ^ (F.p + 1) := by
        rw [mul_assoc, ← e, ← this]
        exact (h1.trans h2.le)
      have b2 := le_of_mul_le_mul_right b1 (by positivity)
      exact (mul_le_mul_of_nonneg_left e8 (abs_nonneg _)).trans b2
    have a4 : 2 * (z.natAbs : ℝ) - 2 * μ = 2 * ((z.natAbs : ℝ) - n) + D := by rw [eD]; ring
    have hk0 : (0 : ℝ) < 2 ^ k := by positivity
    rw [a4]
    refine lt_of_le_of_lt (abs_add_le _ _) ?_
    rw [abs_mul, abs_two]
    linarith
  have e6 : 2 * μ = (((2 * m + 1) * 2 ^ k : Nat) : ℝ) := by rw [hμ]; push_cast; ring
  rw [e6, abs_lt] at h6
  have h7 : 2 * m * 2 ^ k < 2 * z.natAbs := by
    have : (((2 * m + 1) * 2 ^ k : Nat) : ℝ) - 2 ^ k < 2 * (z.natAbs : ℝ) := by linarith [h6.1]
    push_cast at this
    have h8 : (2 * (m : ℝ)) * 2 ^ k < 2 * (z.natAbs : ℝ) := by linarith
    exact_mod_cast h8
  have h8 : 2 * z.natAbs < (2 * m + 2) * 2 ^ k := by
    have : 2 * (z.natAbs : ℝ) < (((2 * m + 1) * 2 ^ k : Nat) : ℝ) + 2 ^ k := by linarith [h6.2]
    push_cast at this
    have h8 : 2 * (z.natAbs : ℝ) < (2 * (m : ℝ) + 2) * 2 ^ k := by linarith
    exact_mod_cast h8
  have h9 : 2 ^ (F.p - 1 + k) ≤ z.natAbs := by
    rw [pow_add]
    have : 2 ^ (F.p - 1) * 2 ^ k ≤ m * 2 ^ k := Nat.mul_le_mul_right _ hm
    have e : 2 * m * 2 ^ k = 2 * (m * 2 ^ k) := by ring
    omega
  have hz0 : z.natAbs ≠ 0 := by
    have : 0 < 2 ^ (F.p - 1 + k) := by positivity
    omega
  have h10 : 2 ^ k ∣ z.natAbs := by
    refine dvd_trans (pow_dvd_pow 2 ?_) hz
    unfold Fmt.ulpExp
    have := (Nat.le_log2 hz0).mpr h9
    omega
  obtain ⟨j, hj⟩ := h10
  rw [hj] at h7 h8
  have h7' : 2 * m < 2 * j := Nat.lt_of_mul_lt_mul_right (a := 2 ^ k) (by linarith)
  have h8' : 2 * j < 2 * m + 2 := Nat.lt_of_mul_lt_mul_right (a := 2 ^ k) (by linarith)
  omega

/-- Sums of numbers with `p` bits. -/
theorem sep_add {y z : Int} {m k : Nat} (hy : F.Grid y.natAbs) (hz : F.Grid z.natAbs)
    (hp : Place F (((y + z).natAbs : Nat) : ℝ) m k)
    (h : |(((y + z).natAbs : Nat) : ℝ) - ((m : ℝ) + 1 / 2) * 2 ^ k| * 2 ^ (2 * F.p + 4) ≤
      ((m : ℝ) + 1 / 2) * 2 ^ k) :
    (((y + z).natAbs : Nat) : ℝ) = ((m : ℝ) + 1 / 2) * 2 ^ k := by
  have key : ∀ y : Int, F.Grid y.natAbs → ∃ (A : Int) (α : Nat), |A| ≤ 2 ^ F.p ∧ y = A * 2 ^ α := by
    intro y hy
    obtain ⟨a, α, ha, e, -⟩ := grid_split hy
    rcases Int.natAbs_eq y with h | h
    · exact ⟨a, α, by rw [Nat.abs_cast]; exact_mod_cast ha, by rw [h, e]; push_cast; ring⟩
    · exact ⟨-a, α, by rw [abs_neg, Nat.abs_cast]; exact_mod_cast ha, by rw [h, e]; push_cast; ring⟩
  obtain ⟨A, α, hA, eA⟩ := key y hy
  obtain ⟨B, β, hB, eB⟩ := key z hz
  rcases le_total α β with hab | hab
  · rw [eA] at hp h ⊢
    refine sep_add_aux hA hz ?_ hp h
    rw [eB]
    exact Dvd.dvd.mul_left (pow_dvd_pow _ hab) _
  · rw [add_comm, eB] at hp h ⊢
    refine sep_add_aux hB hy ?_ hp h
    rw [eA]
    exact Dvd.dvd.mul_left (pow_dvd_pow _ hab) _

/-! ## The operations -/

section
variable (W : F.Wide G)
include W

theorem rep_shift {N : Nat} (h : F.Rep N) : G.Rep (N * 2 ^ shift F G) := by
  have h1 := W.prec
  have h2 := W.range
  have h3 := F.hp
  constructor
  · refine lt_of_lt_of_le (Nat.mul_lt_mul_of_pos_right h.1 (by positivity)) ?_
    unfold Fmt.bound shift
    rw [← pow_add]
    exact Nat.pow_le_pow_right (by norm_num) (by omega)
  · obtain ⟨m, k, hm, rfl, -⟩ := grid_split h.2
    change G.Grid _
    rw [mul_assoc, ← pow_add]
    exact grid_mul (hm.trans (Nat.pow_le_pow_right (by norm_num) (by omega)))

theorem conv_up (s : Bool) {N : Nat} (h : F.Rep N) :
    conv G (.fin s N h : Fl F) = .fin s (N * 2 ^ shift F G) (rep_shift W h) := by
  have e : roundQuot G (N * G.unit) F.unit = N * 2 ^ shift F G := by
    have hn := roundQuot_nearest (F := G) (a := N * G.unit) (unit_pos F)
    have : ((N * G.unit : Nat) : ℝ) / F.unit = ((N * 2 ^ shift F G : Nat) : ℝ) := by
      rw [Wide.unit W, div_eq_iff (unit_posR F).ne']
      push_cast
      ring
    rw [this] at hn
    exact hn.of_grid (rep_shift W h).2
  unfold conv pack
  simp only [e]
  rw [dif_pos (rep_shift W h)]

theorem conv_pack {x : ℝ} (hx : 0 ≤ x) {s : Bool} {Y N : Nat} (hY : Nearest G (x * 2 ^ shift F G) Y)
    (hN : Nearest F x N) (hb : x ≤ 2 ^ (2 * F.p + 3 * F.emax))
    (hs : ∀ m k, Place F x m k → (Y : ℝ) = ((m : ℝ) + 1 / 2) * 2 ^ k * 2 ^ shift F G → x = ((m : ℝ) + 1 / 2) * 2 ^ k) :
    conv F (pack s Y : Fl G) = pack s N := by
  have h1 := W.prec
  have h2 := W.range
  have h3 := F.hp
  have hrep : G.Rep Y := by
    refine ⟨?_, hY.grid⟩
    have g : Nearest G (((1 * 2 ^ (2 * F.p + 3 * F.emax + shift F G) : Nat) : ℝ))
        (1 * 2 ^ (2 * F.p + 3 * F.emax + shift F G)) := Nearest.self (grid_mul Nat.one_le_two_pow)
    have hle := hY.mono g (by
      rw [one_mul, pow_add]
      push_cast
      exact mul_le_mul_of_nonneg_right hb (by positivity))
    rw [one_mul] at hle
    refine lt_of_le_of_lt hle ?_
    unfold Fmt.bound shift
    exact Nat.pow_lt_pow_right (by norm_num) (by omega)
  have e : (pack s Y : Fl G) = .fin s Y hrep := by unfold pack; rw [dif_pos hrep]
  rw [e]
  unfold conv
  have hn := roundQuot_nearest (F := F) (a := Y * F.unit) (unit_pos G)
  have eq : ((Y * F.unit : Nat) : ℝ) / G.unit = (Y : ℝ) / 2 ^ shift F G := by
    have := unit_posR F
    rw [Wide.unit W]
    push_cast
    field_simp
  rw [eq] at hn
  simp only []
  rw [(nearest_twice W hx hY hn hs).unique hN]

theorem conv_down (s : Bool) {N : Nat} (h : F.Rep N) :
    conv F (.fin s (N * 2 ^ shift F G) (rep_shift W h) : Fl G) = .fin s N h := by
  have e : roundQuot F (N * 2 ^ shift F G * F.unit) G.unit = N := by
    have hn := roundQuot_nearest (F := F) (a := N * 2 ^ shift F G * F.unit) (unit_pos G)
    have : ((N * 2 ^ shift F G * F.unit : Nat) : ℝ) / G.unit = (N : ℝ) := by
      have := unit_posR F
      rw [Wide.unit W]
      push_cast
      field_simp
    rw [this] at hn
    exact hn.of_grid h.2
  unfold conv pack
  simp only [e]
  rw [dif_pos h]

theorem conv_conv (a : Fl F) : conv F (conv G a) = a := by
  cases a with
  | nan => rfl
  | inf s => rfl
  | fin s N h => rw [conv_up W, conv_down W]

theorem conv_zero (s : Bool) : conv F (pack s 0 : Fl G) = pack s 0 := by
  have e : (pack s 0 : Fl F) = .fin s 0 rep_zero := by unfold pack; rw [dif_pos rep_zero]
  have e' : (pack s 0 : Fl G) = .fin s 0 rep_zero := by unfold pack; rw [dif_pos rep_zero]
  rw [e, e']
  have := conv_down W s (rep_zero (F := F))
  simpa only [Nat.zero_mul] using this

theorem conv_neg (a : Fl F) : conv F (conv G a).neg = a.neg := by
  cases a with
  | nan => rfl
  | inf s => rfl
  | fin s N h => rw [conv_up W]; exact conv_down W (!s) h

theorem conv_abs (a : Fl F) : conv F (conv G a).abs = a.abs := by
  cases a with
  | nan => rfl
  | inf s => rfl
  | fin s N h => rw [conv_up W]; exact conv_down W false h

omit W in
theorem rep_natAbs_signed {s : Bool} {N : Nat} (h : F.Rep N) : F.Grid (signed s N).natAbs := by
  have : (signed s N).natAbs = N := by unfold signed; cases s <;> simp
  rw [this]
  exact h.2

omit W in
theorem signed_shift (s : Bool) (N σ : Nat) : signed s (N * 2 ^ σ) = signed s N * 2 ^ σ := by
  unfold signed
  cases s <;> simp

theorem conv_add (a b : Fl F) : conv F ((conv G a).add (conv G b)) = a.add b := by
  match a, b with
  | .nan, b => cases b <;> rfl
  | .inf s, .nan => rfl
  | .inf s, .inf t => cases s <;> cases t <;> rfl
  | .inf s, .fin t N h => rw [conv_up W]; rfl
  | .fin s M h, .nan => rw [conv_up W]; rfl
  | .fin s M h, .inf t => rw [conv_up W]; rfl
  | .fin s M h, .fin t N h' =>
    rw [conv_up W, conv_up W]
    simp only [add]
    rw [signed_shift, signed_shift, ← add_mul]
    set y := signed s M with hy
    set z := signed t N with hz
    unfold roundInt
    by_cases h0 : y + z = 0
    · rw [if_pos h0, h0, zero_mul, if_pos rfl]
      exact conv_zero W _
    · rw [if_neg h0, if_neg (mul_ne_zero h0 (by positivity))]
      have hsg : decide ((y + z) * 2 ^ shift F G < 0) = decide (y + z < 0) := by
        apply decide_eq_decide.mpr
        have : (0 : Int) < 2 ^ shift F G := by positivity
        constructor
        · intro h
          by_contra h'
          exact absurd (mul_nonneg (not_lt.mp h') this.le) (not_le.mpr h)
        · intro h
          exact mul_neg_of_neg_of_pos h this
      rw [hsg]
      have hx : (0 : ℝ) ≤ (((y + z).natAbs : Nat) : ℝ) := by positivity
      have hY := roundQuot_nearest (F := G) (a := ((y + z) * 2 ^ shift F G).natAbs) (b := 1) one_pos
      have hN := roundQuot_nearest (F := F) (a := (y + z).natAbs) (b := 1) one_pos
      rw [Nat.cast_one, div_one] at hY hN
      have e : ((((y + z) * 2 ^ shift F G).natAbs : Nat) : ℝ) = (((y + z).natAbs : Nat) : ℝ) * 2 ^ shift F G := by
        rw [Int.natAbs_mul, Int.natAbs_pow]
        push_cast
        rfl
      rw [e] at hY
      refine conv_pack W hx hY hN ?_ ?_
      · have b1 := (signed_lt_bound (s := s) h)
        have b2 := (signed_lt_bound (s := t) h')
        rw [← hy] at b1
        rw [← hz] at b2
        have : (y + z).natAbs ≤ 2 * F.bound := by omega
        have hb : 2 * F.bound ≤ 2 ^ (2 * F.p + 3 * F.emax) := by
          unfold Fmt.bound
          rw [← pow_succ']
          exact Nat.pow_le_pow_right (by norm_num) (by have := F.hp; have := F.he; omega)
        exact_mod_cast this.trans hb
      · intro m k hp hm
        exact sep_add (rep_natAbs_signed h) (rep_natAbs_signed h') hp (near_mid W hx hY hm)

theorem conv_sub (a b : Fl F) : conv F ((conv G a).sub (conv G b)) = a.sub b := by
  have e : (conv G b).neg = conv G b.neg := by
    cases b with
    | nan => rfl
    | inf s => rfl
    | fin s N h => unfold neg; rw [conv_up W, conv_up W]
  unfold sub
  rw [e]
  exact conv_add W a b.neg

theorem conv_mul (a b : Fl F) : conv F ((conv G a).mul (conv G b)) = a.mul b := by
  have h1 := W.prec
  have h2 := W.range
  have h3 := F.hp
  have z0 : ∀ N : Nat, (N * 2 ^ shift F G = 0) = (N = 0) := fun N => by
    have : 0 < 2 ^ shift F G := by positivity
    simp
  match a, b with
  | .nan, b => cases b <;> rfl
  | .inf s, .nan => rfl
  | .inf s, .inf t => rfl
  | .inf s, .fin t N h =>
    rw [conv_up W]
    simp only [conv, mul, z0]
    split_ifs <;> rfl
  | .fin s M h, .nan => rw [conv_up W]; rfl
  | .fin s M h, .inf t =>
    rw [conv_up W]
    simp only [conv, mul, z0]
    split_ifs <;> rfl
  | .fin s M h, .fin t N h' =>
    rw [conv_up W, conv_up W]
    simp only [mul]
    have hu := unit_posR F
    set x : ℝ := ((M * N : Nat) : ℝ) / F.unit with hxd
    have hx : 0 ≤ x := by positivity
    have hY := roundQuot_nearest (F := G) (a := M * 2 ^ shift F G * (N * 2 ^ shift F G)) (unit_pos G)
    have hN := roundQuot_nearest (F := F) (a := M * N) (unit_pos F)
    have e : ((M * 2 ^ shift F G * (N * 2 ^ shift F G) : Nat) : ℝ) / G.unit = x * 2 ^ shift F G := by
      rw [Wide.unit W, hxd]
      push_cast
      field_simp
    rw [e] at hY
    refine conv_pack W hx hY hN ?_ ?_
    · rw [hxd, div_le_iff₀ hu]
      have hM := h.1.le
      have hN := h'.1.le
      have : M * N ≤ F.bound * F.bound := Nat.mul_le_mul hM hN
      have hb : F.bound * F.bound ≤ 2 ^ (2 * F.p + 3 * F.emax) * F.unit := by
        unfold Fmt.bound Fmt.unit
        rw [← pow_add, ← pow_add]
        exact Nat.pow_le_pow_right (by norm_num) (by have := F.he; omega)
      exact_mod_cast this.trans hb
    · intro m k _ hm
      -- the product is exact in the wider format
      obtain ⟨M', i, hM', rfl, -⟩ := grid_split h.2
      obtain ⟨N', j, hN', rfl, -⟩ := grid_split h'.2
      have hsh : F.emax + F.p - 2 ≤ shift F G := by unfold shift; omega
      have ex : x * 2 ^ shift F G = ((M' * N' * 2 ^ (i + j + (shift F G - (F.emax + F.p - 2))) : Nat) : ℝ) := by
        rw [hxd, div_mul_eq_mul_div, div_eq_iff hu.ne']
        have : (2 : ℝ) ^ shift F G = 2 ^ (shift F G - (F.emax + F.p - 2)) * F.unit := by
          unfold Fmt.unit
          push_cast
          rw [← pow_add]
          congr 1
          omega
        rw [this]
        push_cast
        rw [pow_add, pow_add]
        ring
      have hg : G.Grid (M' * N' * 2 ^ (i + j + (shift F G - (F.emax + F.p - 2)))) := by
        refine grid_mul ((Nat.mul_le_mul hM' hN').trans ?_)
        rw [← pow_add]
        exact Nat.pow_le_pow_right (by norm_num) (by omega)
      rw [ex] at hY
      have := hY.of_grid hg
      rw [this, ← ex] at hm
      exact mul_right_cancel₀ (by positivity) hm

theorem conv_div (a b : Fl F) : conv F ((conv G a).div (conv G b)) = a.div b := by
  have h1 := W.prec
  have h2 := W.range
  have h3 := F.hp
  have z0 : ∀ N : Nat, (N * 2 ^ shift F G = 0) = (N = 0) := fun N => by
    have : 0 < 2 ^ shift F G := by positivity
    simp
  match a, b with
  | .nan, b => cases b <;> rfl
  | .inf s, .nan => rfl
  | .inf s, .inf t => rfl
  | .inf s, .fin t N h => rw [conv_up W]; rfl
  | .fin s M h, .nan => rw [conv_up W]; rfl
  | .fin s M h, .inf t => rw [conv_up W]; exact conv_zero W _
  | .fin s M h, .fin t N h' =>
    rw [conv_up W, conv_up W]
    simp only [div, z0]
    by_cases hN0 : N = 0
    · rw [if_pos hN0, if_pos hN0]
      split <;> rfl
    rw [if_neg hN0, if_neg hN0]
    have hu := unit_posR F
    have hNp : 0 < N := Nat.pos_of_ne_zero hN0
    have hNR : (0 : ℝ) < N := by exact_mod_cast hNp
    set x : ℝ := ((M * F.unit : Nat) : ℝ) / N with hxd
    have hx : 0 ≤ x := by positivity
    have hY := roundQuot_nearest (F := G) (a := M * 2 ^ shift F G * G.unit) (b := N * 2 ^ shift F G)
      (Nat.mul_pos hNp (by positivity))
    have hN := roundQuot_nearest (F := F) (a := M * F.unit) hNp
    have e : ((M * 2 ^ shift F G * G.unit : Nat) : ℝ) / ((N * 2 ^ shift F G : Nat) : ℝ) = x * 2 ^ shift F G := by
      rw [Wide.unit W, hxd]
      push_cast
      field_simp
    rw [e] at hY
    refine conv_pack W hx hY hN ?_ ?_
    · rw [hxd, div_le_iff₀ hNR]
      have hM := h.1.le
      have : M * F.unit ≤ F.bound * F.unit := Nat.mul_le_mul_right _ hM
      have hb : F.bound * F.unit ≤ 2 ^ (2 * F.p + 3 * F.emax) := by
        unfold Fmt.bound Fmt.unit
        rw [← pow_add]
        exact Nat.pow_le_pow_right (by norm_num) (by have := F.he; omega)
      have hc : 2 ^ (2 * F.p + 3 * F.emax) ≤ 2 ^ (2 * F.p + 3 * F.emax) * N := Nat.le_mul_of_pos_right _ hNp
      exact_mod_cast (this.trans hb).trans hc
    · intro m k hp hm
      have hn := near_mid W hx hY hm
      obtain ⟨M', i, hM', rfl, -⟩ := grid_split h.2
      obtain ⟨N', j, hN', rfl, -⟩ := grid_split h'.2
      have ea : M' * 2 ^ i * F.unit = M' * 2 ^ (i + (F.emax + F.p - 2)) := by
        unfold Fmt.unit
        rw [pow_add, mul_assoc]
      rw [hxd, ea] at hn ⊢
      refine sep_quot hM' hN' ?_ hp.m_lt hn
      rcases Nat.eq_zero_or_pos N' with h0 | h0
      · rw [h0, zero_mul] at hNp
        exact absurd hNp (lt_irrefl _)
      · exact h0

theorem conv_sqrt (a : Fl F) : conv F (conv G a).sqrt = a.sqrt := by
  have h1 := W.prec
  have h2 := W.range
  have h3 := F.hp
  have z0 : ∀ N : Nat, (N * 2 ^ shift F G = 0) = (N = 0) := fun N => by
    have : 0 < 2 ^ shift F G := by positivity
    simp
  match a with
  | .nan => rfl
  | .inf s => cases s <;> rfl
  | .fin s N h =>
    rw [conv_up W]
    simp only [sqrt, z0]
    by_cases h0 : N = 0
    · rw [if_pos h0, if_pos h0]
      exact conv_down W s h
    rw [if_neg h0, if_neg h0]
    cases s with
    | true => rfl
    | false =>
      simp only [Bool.false_eq_true, if_false]
      set x : ℝ := Real.sqrt ((N * F.unit : Nat) : ℝ) with hxd
      have hx : 0 ≤ x := Real.sqrt_nonneg _
      have hY := roundSqrt_nearest (F := G) (N * 2 ^ shift F G * G.unit)
      have hN := roundSqrt_nearest (F := F) (N * F.unit)
      have e : Real.sqrt ((N * 2 ^ shift F G * G.unit : Nat) : ℝ) = x * 2 ^ shift F G := by
        have : ((N * 2 ^ shift F G * G.unit : Nat) : ℝ) = ((N * F.unit : Nat) : ℝ) * (2 ^ shift F G * 2 ^ shift F G) := by
          rw [Wide.unit W]
          push_cast
          ring
        rw [this, Real.sqrt_mul (by positivity), Real.sqrt_mul_self (by positivity)]
      rw [e] at hY
      refine conv_pack W hx hY hN ?_ ?_
      · have hb : N * F.unit ≤ 2 ^ (2 * F.p + 3 * F.emax) := by
          refine (Nat.mul_le_mul_right _ h.1.le).trans ?_
          unfold Fmt.bound Fmt.unit
          rw [← pow_add]
          exact Nat.pow_le_pow_right (by norm_num) (by have := F.he; omega)
        have h1 : (1 : ℝ) ≤ ((N * F.unit : Nat) : ℝ) := by
          exact_mod_cast Nat.mul_pos (Nat.pos_of_ne_zero h0) (unit_pos F)
        refine le_trans ?_ (show ((N * F.unit : Nat) : ℝ) ≤ 2 ^ (2 * F.p + 3 * F.emax) by exact_mod_cast hb)
        rw [hxd, Real.sqrt_le_left (by linarith)]
        nlinarith
      · intro m k hp hm
        have hn := near_mid W hx hY hm
        obtain ⟨M', i, hM', rfl, -⟩ := grid_split h.2
        have ea : M' * 2 ^ i * F.unit = M' * 2 ^ (i + (F.emax + F.p - 2)) := by
          unfold Fmt.unit
          rw [pow_add, mul_assoc]
        rw [hxd, ea] at hn ⊢
        exact sep_sqrt hM' hp.m_lt hn

/-- The order is not changed by conversion to the wider format. -/
theorem conv_key (a b : Fl F) : ((conv G a).eq (conv G b) = a.eq b) ∧ ((conv G a).lt (conv G b) = a.lt b) := by
  have hpow : (0 : Int) < 2 ^ shift F G := by positivity
  have hb : ∀ (N : Nat) (h : F.Rep N) (s t : Bool),
      ((signed s N * 2 ^ shift F G = signed t G.bound) ↔ (signed s N = signed t F.bound)) ∧
      ((signed s N * 2 ^ shift F G < signed t G.bound) ↔ (signed s N < signed t F.bound)) ∧
      ((signed t G.bound < signed s N * 2 ^ shift F G) ↔ (signed t F.bound < signed s N)) := by
    intro N h s t
    have b1 := signed_lt_bound (s := s) h
    have b2 := signed_lt_bound (s := s) (rep_shift W h)
    rw [signed_shift] at b2
    cases t <;> simp only [signed, if_true, Bool.false_eq_true, if_false] at b1 b2 ⊢ <;> omega
  have hbi : ∀ s t : Bool, ((signed s G.bound = signed t G.bound) ↔ (signed s F.bound = signed t F.bound)) ∧
      ((signed s G.bound < signed t G.bound) ↔ (signed s F.bound < signed t F.bound)) := by
    intro s t
    have := bound_pos F
    have := bound_pos G
    cases s <;> cases t <;> simp only [signed, if_true, Bool.false_eq_true, if_false] <;>
      constructor <;> constructor <;> intro h <;> first | rfl | omega
  match a, b with
  | .nan, b => exact ⟨rfl, rfl⟩
  | .inf s, .nan => exact ⟨rfl, rfl⟩
  | .inf s, .inf t =>
    simp only [conv, eq, lt, key, decide_eq_decide]
    exact hbi s t
  | .inf s, .fin t N h =>
    rw [conv_up W]
    simp only [conv, eq, lt, key, decide_eq_decide, signed_shift]
    refine ⟨?_, (hb N h t s).2.2⟩
    rw [eq_comm, (hb N h t s).1, eq_comm]
  | .fin s M h, .nan => rw [conv_up W]; exact ⟨rfl, rfl⟩
  | .fin s M h, .inf t =>
    rw [conv_up W]
    simp only [conv, eq, lt, key, decide_eq_decide, signed_shift]
    exact ⟨(hb M h s t).1, (hb M h s t).2.1⟩
  | .fin s M h, .fin t N h' =>
    rw [conv_up W, conv_up W]
    simp only [eq, lt, key, decide_eq_decide, signed_shift]
    exact ⟨mul_left_inj' hpow.ne', mul_lt_mul_iff_left₀ hpow⟩

end

end Fl

end MatrixLibs
