import Verif.Spec.Float
import Mathlib.Data.Nat.Log
import Mathlib.Tactic.Linarith
import Mathlib.Tactic.Positivity
import Mathlib.Tactic.Ring
import Mathlib.Tactic.FieldSimp
import Mathlib.Algebra.Order.Floor.Semiring

/-!
# The floating point operations of the model are correctly rounded
-/

namespace MatrixLibs

namespace Fl
variable {F : Fmt}

theorem unit_pos (F : Fmt) : 0 < F.unit := by unfold Fmt.unit; positivity

theorem unit_posR (F : Fmt) : (0 : ℝ) < F.unit := by exact_mod_cast unit_pos F

theorem log2_lt (N : Nat) : N < 2 ^ (N.log2 + 1) := Nat.lt_log2_self

theorem log2_le {N : Nat} (h : N ≠ 0) : 2 ^ N.log2 ≤ N := Nat.log2_self_le h

theorem ulpExp_mono {M N : Nat} (h : M ≤ N) : F.ulpExp M ≤ F.ulpExp N := by
  unfold Fmt.ulpExp
  have : M.log2 ≤ N.log2 := by
    rcases Nat.eq_zero_or_pos M with rfl | hM
    · simp
    · rw [Nat.le_log2 (by omega)]
      exact (log2_le (by omega)).trans h
  omega

/-- A number with at most `p` bits times a power of two is on the grid. -/
theorem grid_mul {m k : Nat} (h : m ≤ 2 ^ F.p) : F.Grid (m * 2 ^ k) := by
  unfold Fmt.Grid Fmt.ulpExp
  have hp := F.hp
  rcases Nat.eq_zero_or_pos m with rfl | hm
  · simp
  rcases Nat.lt_or_eq_of_le h with h | rfl
  · refine Dvd.dvd.mul_left (pow_dvd_pow 2 ?_) m
    have : (m * 2 ^ k).log2 < F.p + k := by
      rw [Nat.log2_lt (by positivity)]
      rw [pow_add]
      exact Nat.mul_lt_mul_of_pos_right h (by positivity)
    omega
  · rw [← pow_add, Nat.log2_two_pow]
    exact pow_dvd_pow 2 (by omega)

theorem grid_of_le {N : Nat} (h : N ≤ 2 ^ F.p) : F.Grid N := by
  have := grid_mul (F := F) (k := 0) h
  rwa [pow_zero, mul_one] at this

theorem rep_iff (N : Nat) : F.Rep N ↔ N < F.bound ∧ F.Grid N := Iff.rfl

/-- What the two arguments of `roundMag` say about the magnitude `x`. -/
structure Approx (x : ℝ) (fl : Nat) (half : Nat → Nat → Ordering) : Prop where
  le : (fl : ℝ) ≤ x
  lt : x < fl + 1
  half_lt : ∀ m k, half m k = .lt → x < ((m : ℝ) + 1 / 2) * 2 ^ k
  half_gt : ∀ m k, half m k = .gt → ((m : ℝ) + 1 / 2) * 2 ^ k < x
  half_eq : ∀ m k, half m k = .eq → x = ((m : ℝ) + 1 / 2) * 2 ^ k

section
variable {x : ℝ} {fl : Nat} {half : Nat → Nat → Ordering}

/-- Shape of the result of `roundMag`. -/
theorem roundMag_cases (h : Approx x fl half) :
    ∃ k m n : Nat, k = F.ulpExp fl ∧ m = fl / 2 ^ k ∧ roundMag F fl half = n * 2 ^ k ∧
      (m : ℝ) * 2 ^ k ≤ x ∧ x < ((m : ℝ) + 1) * 2 ^ k ∧ m < 2 ^ F.p ∧
      ((n = m ∧ (x < ((m : ℝ) + 1 / 2) * 2 ^ k ∨ x = ((m : ℝ) + 1 / 2) * 2 ^ k ∧ Even n)) ∨
       (n = m + 1 ∧ (((m : ℝ) + 1 / 2) * 2 ^ k < x ∨ x = ((m : ℝ) + 1 / 2) * 2 ^ k ∧ Even n))) := by
  have h1 : ((fl / 2 ^ F.ulpExp fl : Nat) : ℝ) * 2 ^ F.ulpExp fl ≤ x := by
    refine le_trans ?_ h.le
    have := Nat.div_mul_le_self fl (2 ^ F.ulpExp fl)
    exact_mod_cast this
  have h2 : x < (((fl / 2 ^ F.ulpExp fl : Nat) : ℝ) + 1) * 2 ^ F.ulpExp fl := by
    refine lt_of_lt_of_le h.lt ?_
    have := Nat.lt_div_mul_add (a := fl) (b := 2 ^ F.ulpExp fl) (by positivity)
    have h3 : fl + 1 ≤ (fl / 2 ^ F.ulpExp fl + 1) * 2 ^ F.ulpExp fl := by
      rw [add_mul, one_mul]; omega
    exact_mod_cast h3
  have h3 : fl / 2 ^ F.ulpExp fl < 2 ^ F.p := by
    rw [Nat.div_lt_iff_lt_mul (by positivity), ← pow_add]
    refine lt_of_lt_of_le (log2_lt fl) (Nat.pow_le_pow_right (by omega) ?_)
    unfold Fmt.ulpExp
    omega
  generalize hk : F.ulpExp fl = k at *
  generalize hm : fl / 2 ^ k = m at *
  cases hc : half m k with
  | lt =>
    refine ⟨k, m, m, rfl, hm.symm, ?_, h1, h2, h3, Or.inl ⟨rfl, Or.inl (h.half_lt _ _ hc)⟩⟩
    unfold roundMag
    simp only [hk, hm, hc]
  | gt =>
    refine ⟨k, m, m + 1, rfl, hm.symm, ?_, h1, h2, h3, Or.inr ⟨rfl, Or.inl (h.half_gt _ _ hc)⟩⟩
    unfold roundMag
    simp only [hk, hm, hc]
  | eq =>
    by_cases he : m % 2 = 0
    · refine ⟨k, m, m, rfl, hm.symm, ?_, h1, h2, h3,
        Or.inl ⟨rfl, Or.inr ⟨h.half_eq _ _ hc, Nat.even_iff.mpr he⟩⟩⟩
      unfold roundMag
      simp only [hk, hm, hc, he, if_true]
    · refine ⟨k, m, m + 1, rfl, hm.symm, ?_, h1, h2, h3,
        Or.inr ⟨rfl, Or.inr ⟨h.half_eq _ _ hc, Nat.even_iff.mpr (by omega)⟩⟩⟩
      unfold roundMag
      simp only [hk, hm, hc, he, if_false]

theorem roundMag_grid (h : Approx x fl half) : F.Grid (roundMag F fl half) := by
  obtain ⟨k, m, n, -, -, hN, -, -, h3, h4⟩ := roundMag_cases (F := F) h
  rw [hN]
  refine grid_mul ?_
  rcases h4 with ⟨rfl, -⟩ | ⟨rfl, -⟩ <;> omega

/-- The rounding error is at most half the spacing. -/
theorem roundMag_err (h : Approx x fl half) :
    |(roundMag F fl half : ℝ) - x| ≤ 2 ^ F.ulpExp fl / 2 := by
  obtain ⟨k, m, n, hk, -, hN, h1, h2, h3, h4⟩ := roundMag_cases (F := F) h
  rw [hN, ← hk, Nat.cast_mul, Nat.cast_pow, Nat.cast_ofNat, abs_le]
  have hp : (0 : ℝ) < 2 ^ k := by positivity
  rcases h4 with ⟨rfl, h4 | ⟨h4, -⟩⟩ | ⟨rfl, h4 | ⟨h4, -⟩⟩
  all_goals push_cast at *
  all_goals constructor <;> nlinarith

/-- Rounding is exact up to `2^p` units for whole numbers of units. -/
theorem roundMag_err_rel (h : Approx x fl half) :
    |(roundMag F fl half : ℝ) - x| ≤ x * F.u ∨ F.ulpExp fl = 0 := by
  rcases Nat.eq_zero_or_pos (F.ulpExp fl) with h0 | h0
  · exact Or.inr h0
  · refine Or.inl ((roundMag_err h).trans ?_)
    have hfl : fl ≠ 0 := by
      rintro rfl
      unfold Fmt.ulpExp at h0
      have := F.hp
      simp at h0
      omega
    have e : F.ulpExp fl + F.p = fl.log2 + 1 := by unfold Fmt.ulpExp at *; omega
    have h1 : ((2 ^ fl.log2 : Nat) : ℝ) ≤ x := le_trans (by exact_mod_cast log2_le hfl) h.le
    push_cast at h1
    unfold Fmt.u
    rw [mul_one_div, le_div_iff₀ (by positivity)]
    have : (2 : ℝ) ^ F.ulpExp fl / 2 * 2 ^ F.p = 2 ^ fl.log2 := by
      have : (2 : ℝ) ^ F.ulpExp fl * 2 ^ F.p = 2 ^ fl.log2 * 2 := by
        rw [← pow_add, e, pow_succ]
      linarith
    linarith

/-- Round to nearest, ties to even. -/
theorem roundMag_nearest (h : Approx x fl half) : Nearest F x (roundMag F fl half) := by
  have hgrid := roundMag_grid (F := F) h
  obtain ⟨k, m, n, hk, hm, hN, h1, h2, h3, h4⟩ := roundMag_cases (F := F) h
  have hp : (0 : ℝ) < 2 ^ k := by positivity
  -- every other number of the grid is at least as far as the two neighbours
  have key : ∀ M, F.Grid M → ((M : ℝ) ≤ m * 2 ^ k ∨ ((m : ℝ) + 1) * 2 ^ k ≤ M) := by
    intro M hM
    by_cases hlt : (M : ℝ) ≤ m * 2 ^ k
    · exact Or.inl hlt
    right
    have hlt' : m * 2 ^ k < M := by
      have := not_le.mp hlt
      exact_mod_cast this
    have hdvd : 2 ^ k ∣ M := by
      refine dvd_trans (pow_dvd_pow 2 ?_) hM
      rcases Nat.eq_zero_or_pos fl with rfl | hfl
      · rw [hk]
        unfold Fmt.ulpExp
        have := F.hp
        simp only [Nat.log2_zero]
        omega
      · rcases Nat.eq_zero_or_pos k with h0 | h0
        · omega
        · have h5 : 2 ^ fl.log2 ≤ m * 2 ^ k := by
            have hdk : 2 ^ k ∣ 2 ^ fl.log2 := by
              refine pow_dvd_pow 2 ?_
              rw [hk]; unfold Fmt.ulpExp; have := F.hp; omega
            obtain ⟨q, hq⟩ := hdk
            rw [hm, hq, mul_comm _ q]
            refine Nat.mul_le_mul_right _ ?_
            rw [Nat.le_div_iff_mul_le (by positivity), mul_comm, ← hq]
            exact log2_le (by omega)
          have h6 : fl.log2 ≤ M.log2 := by
            rw [Nat.le_log2 (by omega)]
            omega
          rw [hk]
          unfold Fmt.ulpExp
          omega
    obtain ⟨q, rfl⟩ := hdvd
    have : m < q := by
      rw [mul_comm (2 ^ k) q] at hlt'
      exact Nat.lt_of_mul_lt_mul_right hlt'
    have : m + 1 ≤ q := this
    have : ((m : ℝ) + 1) ≤ q := by exact_mod_cast this
    push_cast
    nlinarith
  have hNR : (roundMag F fl half : ℝ) = n * 2 ^ k := by rw [hN]; push_cast; ring
  have hnear : ∀ M, F.Grid M →
      |(roundMag F fl half : ℝ) - x| ≤ |(M : ℝ) - x| := by
    intro M hM
    rw [hNR]
    rcases key M hM with hM | hM
    · rw [abs_sub_comm (M : ℝ) x, abs_of_nonneg (a := x - M) (by linarith), abs_le]
      rcases h4 with ⟨rfl, h4 | ⟨h4, -⟩⟩ | ⟨rfl, h4 | ⟨h4, -⟩⟩
      all_goals push_cast at *
      all_goals constructor <;> nlinarith
    · rw [abs_of_nonneg (a := (M : ℝ) - x) (by linarith), abs_le]
      rcases h4 with ⟨rfl, h4 | ⟨h4, -⟩⟩ | ⟨rfl, h4 | ⟨h4, -⟩⟩
      all_goals push_cast at *
      all_goals constructor <;> nlinarith
  refine ⟨hgrid, hnear, ?_⟩
  intro M hM heq hne
  -- a tie: `x` is half way
  have htie : Even n := by
    rw [hNR] at heq
    have hne' : (M : ℝ) ≠ n * 2 ^ k := by
      rw [← hNR]; exact_mod_cast hne
    rcases h4 with ⟨rfl, h4 | ⟨h4, h5⟩⟩ | ⟨rfl, h4 | ⟨h4, h5⟩⟩
    · exfalso
      rw [abs_sub_comm ((n : ℝ) * 2 ^ k) x, abs_of_nonneg (a := x - n * 2 ^ k) (by linarith)] at heq
      rcases key M hM with hM | hM
      · rw [abs_sub_comm, abs_of_nonneg (by linarith)] at heq
        exact hne' (by linarith)
      · rw [abs_of_nonneg (by linarith)] at heq
        nlinarith
    · exact h5
    · exfalso
      push_cast at *
      rw [abs_of_nonneg (a := ((m : ℝ) + 1) * 2 ^ k - x) (by linarith)] at heq
      rcases key M hM with hM | hM
      · rw [abs_sub_comm, abs_of_nonneg (by linarith)] at heq
        nlinarith
      · rw [abs_of_nonneg (by linarith)] at heq
        exact hne' (by linarith)
    · exact h5
  -- the significand is `n`, or `2^(p-1)` if `n = 2^p`
  unfold Fmt.significand
  rw [hN]
  have hn : n ≤ 2 ^ F.p := by rcases h4 with ⟨rfl, -⟩ | ⟨rfl, -⟩ <;> omega
  have hp2 := F.hp
  rcases Nat.eq_zero_or_pos n with rfl | hn0
  · simp
  rcases Nat.lt_or_eq_of_le hn with hn | rfl
  · have hle : F.ulpExp (n * 2 ^ k) ≤ k := by
      unfold Fmt.ulpExp
      have : (n * 2 ^ k).log2 < F.p + k := by
        rw [Nat.log2_lt (by positivity), pow_add]
        exact Nat.mul_lt_mul_of_pos_right hn (by positivity)
      omega
    obtain ⟨d, hd⟩ := Nat.exists_eq_add_of_le hle
    have : n * 2 ^ k / 2 ^ F.ulpExp (n * 2 ^ k) = n * 2 ^ d := by
      generalize F.ulpExp (n * 2 ^ k) = e at hd
      rw [hd, pow_add, ← mul_assoc, mul_right_comm, Nat.mul_div_cancel _ (by positivity)]
    rw [this]
    exact htie.mul_right _
  · have : 2 ^ F.p * 2 ^ k / 2 ^ F.ulpExp (2 ^ F.p * 2 ^ k) = 2 ^ (F.p - 1) := by
      unfold Fmt.ulpExp
      rw [← pow_add, Nat.log2_two_pow, Nat.pow_div (by omega) (by omega)]
      congr 1
      omega
    rw [this]
    exact (Nat.even_pow.mpr ⟨even_two, by omega⟩)

end

/-- The number nearest to `x` (ties to even) is unique. -/
theorem _root_.MatrixLibs.Nearest.unique {x : ℝ} {N N' : Nat} (h : Nearest F x N) (h' : Nearest F x N') :
    N = N' := by
  have aux : ∀ {N N' : Nat}, Nearest F x N → Nearest F x N' → N < N' → False := by
    intro N N' h h' hlt
    have hd : |(N : ℝ) - x| = |(N' : ℝ) - x| := le_antisymm (h.nearest _ h'.grid) (h'.nearest _ h.grid)
    have e1 := h.even N' h'.grid hd.symm (by omega)
    have e2 := h'.even N h.grid hd (by omega)
    have hltR : (N : ℝ) < N' := by exact_mod_cast hlt
    have hx : x = ((N : ℝ) + N') / 2 := by
      rcases abs_eq_abs.mp hd with h | h <;> linarith
    -- the next number of the grid
    have hs : F.significand N < 2 ^ F.p := by
      unfold Fmt.significand
      rw [Nat.div_lt_iff_lt_mul (by positivity), ← pow_add]
      refine lt_of_lt_of_le (log2_lt N) (Nat.pow_le_pow_right (by omega) ?_)
      unfold Fmt.ulpExp
      omega
    have hN : N = F.significand N * 2 ^ F.ulpExp N := (Nat.div_mul_cancel h.grid).symm
    have hN' : N' = F.significand N' * 2 ^ F.ulpExp N' := (Nat.div_mul_cancel h'.grid).symm
    have hle : F.ulpExp N ≤ F.ulpExp N' := ulpExp_mono hlt.le
    obtain ⟨d, hd'⟩ := Nat.exists_eq_add_of_le hle
    have hnext : F.Grid ((F.significand N + 1) * 2 ^ F.ulpExp N) := grid_mul (by omega)
    have hq : N' = (F.significand N' * 2 ^ d) * 2 ^ F.ulpExp N := by
      rw [mul_assoc, ← pow_add, add_comm d, ← hd']
      exact hN'
    generalize F.ulpExp N = k at *
    generalize hn : F.significand N = n at *
    have hnq : n < F.significand N' * 2 ^ d := by
      rw [hN, hq] at hlt
      exact Nat.lt_of_mul_lt_mul_right hlt
    have hnear := h.nearest _ hnext
    have hnext_le : (n + 1) * 2 ^ k ≤ N' := by
      rw [hq]; exact Nat.mul_le_mul_right _ hnq
    have heq : (n + 1) * 2 ^ k = N' := by
      by_contra hne
      have hlt2 : (n + 1) * 2 ^ k < N' := by omega
      have hlt3 : N < (n + 1) * 2 ^ k := by
        rw [hN, add_mul, one_mul]
        have : 0 < 2 ^ k := by positivity
        omega
      have a1 : (N : ℝ) < ((n + 1) * 2 ^ k : Nat) := by exact_mod_cast hlt3
      have a2 : (((n + 1) * 2 ^ k : Nat) : ℝ) < N' := by exact_mod_cast hlt2
      generalize (((n + 1) * 2 ^ k : Nat) : ℝ) = y at *
      rw [abs_of_nonpos (by linarith)] at hnear
      rcases abs_cases (y - x) with ⟨h1, _⟩ | ⟨h1, _⟩ <;> rw [h1] at hnear <;> linarith
    rw [hq] at heq
    have h7 : n + 1 = F.significand N' * 2 ^ d := Nat.eq_of_mul_eq_mul_right (by positivity) heq
    have : Even (n + 1) := by rw [h7]; exact e2.mul_right _
    rw [Nat.even_add_one] at this
    exact this e1
  rcases Nat.lt_trichotomy N N' with hlt | heq | hlt
  · exact (aux h h' hlt).elim
  · exact heq
  · exact (aux h' h hlt).elim

/-- A number of the grid is nearest to itself. -/
theorem _root_.MatrixLibs.Nearest.self {N : Nat} (h : F.Grid N) : Nearest F (N : ℝ) N where
  grid := h
  nearest M _ := by rw [sub_self, abs_zero]; exact abs_nonneg _
  even M _ he hne := by
    rw [sub_self, abs_zero, abs_eq_zero, sub_eq_zero] at he
    exact absurd (by exact_mod_cast he) hne

theorem grid_zero : F.Grid 0 := by simp [Fmt.Grid]

theorem _root_.MatrixLibs.Nearest.zero : Nearest F 0 0 := by
  have := Nearest.self (F := F) grid_zero
  rwa [Nat.cast_zero] at this

/-! ## Quotients and square roots -/

theorem approx_quot {a b : Nat} (hb : 0 < b) : Approx ((a : ℝ) / b) (a / b)
    (fun m k => Ord.compare (2 * a) ((2 * m + 1) * 2 ^ k * b)) := by
  have hbR : (0 : ℝ) < b := by exact_mod_cast hb
  refine ⟨?_, ?_, ?_, ?_, ?_⟩
  · rw [le_div_iff₀ hbR]
    exact_mod_cast Nat.div_mul_le_self a b
  · rw [div_lt_iff₀ hbR]
    have := Nat.lt_div_mul_add (a := a) hb
    have h3 : a < (a / b + 1) * b := by rw [add_mul, one_mul]; omega
    exact_mod_cast h3
  · intro m k h
    rw [Nat.compare_eq_lt] at h
    rw [div_lt_iff₀ hbR]
    have h' : ((2 * a : Nat) : ℝ) < ((2 * m + 1) * 2 ^ k * b : Nat) := by exact_mod_cast h
    push_cast at h'
    linarith
  · intro m k h
    rw [Nat.compare_eq_gt] at h
    rw [lt_div_iff₀ hbR]
    have h' : (((2 * m + 1) * 2 ^ k * b : Nat) : ℝ) < ((2 * a : Nat) : ℝ) := by exact_mod_cast h
    push_cast at h'
    linarith
  · intro m k h
    rw [Nat.compare_eq_eq] at h
    rw [div_eq_iff hbR.ne']
    have h' : ((2 * a : Nat) : ℝ) = ((2 * m + 1) * 2 ^ k * b : Nat) := by exact_mod_cast h
    push_cast at h'
    linarith

theorem roundQuot_nearest {a b : Nat} (hb : 0 < b) :
    Nearest F ((a : ℝ) / b) (roundQuot F a b) := roundMag_nearest (approx_quot hb)

theorem approx_sqrt (a : Nat) : Approx (Real.sqrt a) a.sqrt
    (fun m k => Ord.compare (4 * a) (((2 * m + 1) * 2 ^ k) ^ 2)) := by
  have key : ∀ m k : Nat, (((m : ℝ) + 1 / 2) * 2 ^ k) = Real.sqrt ((((2 * m + 1) * 2 ^ k) ^ 2 : Nat) / 4) := by
    intro m k
    symm
    rw [Real.sqrt_eq_iff_mul_self_eq_of_pos (by positivity)]
    push_cast
    ring
  have e4 : (a : ℝ) = ((4 * a : Nat) : ℝ) / 4 := by push_cast; ring
  refine ⟨?_, ?_, ?_, ?_, ?_⟩
  · refine Real.le_sqrt_of_sq_le ?_
    exact_mod_cast Nat.sqrt_le' a
  · rw [Real.sqrt_lt' (by positivity)]
    exact_mod_cast Nat.lt_succ_sqrt' a
  · intro m k h
    rw [Nat.compare_eq_lt] at h
    rw [key, e4]
    refine Real.sqrt_lt_sqrt (by positivity) ?_
    have : ((4 * a : Nat) : ℝ) < (((2 * m + 1) * 2 ^ k) ^ 2 : Nat) := by exact_mod_cast h
    linarith
  · intro m k h
    rw [Nat.compare_eq_gt] at h
    rw [key, e4]
    refine Real.sqrt_lt_sqrt (by positivity) ?_
    have : ((((2 * m + 1) * 2 ^ k) ^ 2 : Nat) : ℝ) < ((4 * a : Nat) : ℝ) := by exact_mod_cast h
    linarith
  · intro m k h
    rw [Nat.compare_eq_eq] at h
    rw [key, e4, h]

theorem roundSqrt_nearest (a : Nat) : Nearest F (Real.sqrt a) (roundSqrt F a) :=
  roundMag_nearest (approx_sqrt a)

/-! ## The operations -/

theorem bound_pos (F : Fmt) : 0 < F.bound := by unfold Fmt.bound; positivity

theorem rounded_pack {x : ℝ} {s : Bool} {N : Nat} (h : Nearest F (|x| * F.unit) N)
    (hs : x ≠ 0 → (s = true ↔ x < 0)) : Rounded x (pack s N : Fl F) := by
  refine ⟨N, h, ?_⟩
  unfold pack
  by_cases hb : N < F.bound
  · left
    have hr : F.Rep N := ⟨hb, h.grid⟩
    exact ⟨hb, s, hr, by rw [dif_pos hr], hs⟩
  · right
    refine ⟨not_lt.mp hb, s, by rw [dif_neg (fun hr => hb hr.1)], hs ?_⟩
    rintro rfl
    rw [abs_zero, zero_mul] at h
    have := h.unique Nearest.zero
    have := bound_pos F
    omega

theorem abs_signed (s : Bool) (N : Nat) : |((signed s N : Int) : ℝ)| = N := by
  unfold signed
  cases s <;> simp

theorem signed_neg_iff (s : Bool) (N : Nat) (h : N ≠ 0) : signed s N < 0 ↔ s = true := by
  unfold signed
  cases s
  · simp
  · simp; omega

theorem val_mul_unit (s : Bool) (N : Nat) (h : F.Rep N) :
    (Fl.fin s N h).val * F.unit = signed s N := by
  unfold val
  exact div_mul_cancel₀ _ (unit_posR F).ne'

theorem rounded_roundInt (zneg : Bool) (z : Int) :
    Rounded ((z : ℝ) / F.unit) (roundInt zneg z : Fl F) := by
  have hu := unit_posR F
  unfold roundInt
  split
  · next h =>
    subst h
    refine rounded_pack ?_ (fun h => absurd (by simp) h)
    rw [Int.cast_zero, zero_div, abs_zero, zero_mul]
    exact Nearest.zero
  · next h =>
    refine rounded_pack ?_ (fun _ => ?_)
    · have := roundQuot_nearest (F := F) (a := z.natAbs) (b := 1) (by omega)
      rw [abs_div, abs_of_pos hu, div_mul_cancel₀ _ hu.ne']
      rwa [Nat.cast_one, div_one, Nat.cast_natAbs, Int.cast_abs] at this
    · rw [decide_eq_true_eq, div_neg_iff]
      constructor
      · intro h
        exact Or.inr ⟨by exact_mod_cast h, hu⟩
      · rintro (⟨_, h⟩ | ⟨h, _⟩)
        · linarith
        · exact_mod_cast h

/-- `a + b` is the exact sum, correctly rounded. -/
theorem add_rounded {a b : Fl F} (ha : a.Finite) (hb : b.Finite) :
    Rounded (a.val + b.val) (a.add b) := by
  match a, b, ha, hb with
  | .fin s M hM, .fin t N hN, _, _ =>
    have := rounded_roundInt (F := F) (s && t) (signed s M + signed t N)
    unfold add val
    rwa [Int.cast_add, add_div] at this

theorem neg_val (a : Fl F) : a.neg.val = -a.val := by
  cases a with
  | nan => simp [neg, val]
  | inf s => simp [neg, val]
  | fin s N h => cases s <;> simp [neg, val, signed, neg_div]

theorem neg_finite (a : Fl F) : a.neg.Finite ↔ a.Finite := by cases a <;> exact Iff.rfl

/-- `a - b` is the exact difference, correctly rounded. -/
theorem sub_rounded {a b : Fl F} (ha : a.Finite) (hb : b.Finite) :
    Rounded (a.val - b.val) (a.sub b) := by
  have := add_rounded ha ((neg_finite b).mpr hb)
  rwa [neg_val, ← sub_eq_add_neg] at this

theorem signed_mul_neg (s t : Bool) (M N : Nat) (h : (signed s M : ℝ) * signed t N ≠ 0) :
    ((s ^^ t) = true ↔ (signed s M : ℝ) * signed t N < 0) := by
  have hM : (0 : ℝ) < M := by
    rcases Nat.eq_zero_or_pos M with rfl | hM
    · exfalso; apply h; cases s <;> simp [signed]
    · exact_mod_cast hM
  have hN : (0 : ℝ) < N := by
    rcases Nat.eq_zero_or_pos N with rfl | hN
    · exfalso; apply h; cases t <;> simp [signed]
    · exact_mod_cast hN
  have := mul_pos hM hN
  cases s <;> cases t <;> simp [signed] <;> linarith

/-- `a * b` is the exact product, correctly rounded. -/
theorem mul_rounded {a b : Fl F} (ha : a.Finite) (hb : b.Finite) :
    Rounded (a.val * b.val) (a.mul b) := by
  match a, b, ha, hb with
  | .fin s M hM, .fin t N hN, _, _ =>
    have hu := unit_posR F
    have e : (signed s M : ℝ) / F.unit * (signed t N / F.unit) =
        (signed s M * signed t N) / (F.unit * F.unit) := by field_simp
    unfold mul val
    refine rounded_pack ?_ (fun h => ?_)
    · have := roundQuot_nearest (F := F) (a := M * N) (b := F.unit) (unit_pos F)
      rw [e, abs_div, abs_mul, abs_signed, abs_signed, abs_of_pos (mul_pos hu hu)]
      have e2 : (M : ℝ) * N / (F.unit * F.unit) * F.unit = ((M * N : Nat) : ℝ) / F.unit := by
        push_cast; field_simp
      rwa [e2]
    · rw [e] at h ⊢
      have h0 : (signed s M : ℝ) * signed t N ≠ 0 := fun h0 => h (by rw [h0, zero_div])
      rw [signed_mul_neg s t M N h0, div_neg_iff]
      have := mul_pos hu hu
      constructor
      · intro h; exact Or.inr ⟨h, this⟩
      · rintro (⟨_, h⟩ | ⟨h, _⟩)
        · linarith
        · exact h

/-- `a / b` is the exact quotient, correctly rounded. -/
theorem div_rounded {a b : Fl F} (ha : a.Finite) (hb : b.Finite) (h0 : b.val ≠ 0) :
    Rounded (a.val / b.val) (a.div b) := by
  match a, b, ha, hb with
  | .fin s M hM, .fin t N hN, _, _ =>
    have hu := unit_posR F
    have hN0 : N ≠ 0 := by
      rintro rfl
      apply h0
      unfold val
      cases t <;> simp [signed]
    have hNR : (0 : ℝ) < N := by exact_mod_cast Nat.pos_of_ne_zero hN0
    have hsN : (signed t N : ℝ) ≠ 0 := by
      intro h
      have := abs_signed t N
      rw [h, abs_zero] at this
      linarith
    have e : (signed s M : ℝ) / F.unit / (signed t N / F.unit) = signed s M / signed t N := by
      field_simp
    unfold div val
    dsimp only
    rw [if_neg hN0, e]
    refine rounded_pack ?_ (fun h => ?_)
    · have := roundQuot_nearest (F := F) (a := M * F.unit) (b := N) (Nat.pos_of_ne_zero hN0)
      rw [abs_div, abs_signed, abs_signed]
      have e2 : (M : ℝ) / N * F.unit = ((M * F.unit : Nat) : ℝ) / N := by
        push_cast; field_simp
      rwa [e2]
    · have h1 : (signed s M : ℝ) * signed t N ≠ 0 :=
        mul_ne_zero (fun h2 => h (by rw [h2, zero_div])) hsN
      rw [signed_mul_neg s t M N h1, mul_neg_iff, div_neg_iff]

/-- `sqrt(a)` of a non-negative number is the exact square root, correctly rounded. -/
theorem sqrt_rounded {a : Fl F} (ha : a.Finite) (h0 : 0 ≤ a.val) :
    Rounded (Real.sqrt a.val) a.sqrt := by
  match a, ha with
  | .fin s N hN, _ =>
    have hu := unit_posR F
    unfold sqrt
    dsimp only
    by_cases hN0 : N = 0
    · subst hN0
      rw [if_pos rfl]
      refine ⟨0, ?_, Or.inl ⟨bound_pos F, s, hN, rfl, ?_⟩⟩
      · have : (Fl.fin s 0 hN).val = 0 := by unfold val; cases s <;> simp [signed]
        rw [this, Real.sqrt_zero, abs_zero, zero_mul]
        exact Nearest.zero
      · have : (Fl.fin s 0 hN).val = 0 := by unfold val; cases s <;> simp [signed]
        rw [this, Real.sqrt_zero]
        exact fun h => absurd rfl h
    · rw [if_neg hN0]
      have hNR : (0 : ℝ) < N := by exact_mod_cast Nat.pos_of_ne_zero hN0
      have hs : s = false := by
        cases s
        · rfl
        · exfalso
          unfold val at h0
          rw [div_nonneg_iff] at h0
          simp [signed] at h0
          rcases h0 with h0 | h0
          · omega
          · have := unit_pos F; omega
      subst hs
      simp only [Bool.false_eq_true, if_false]
      refine rounded_pack ?_ (fun _ => ?_)
      · have := roundSqrt_nearest (F := F) (N * F.unit)
        rw [abs_of_nonneg (Real.sqrt_nonneg _)]
        have e : Real.sqrt (Fl.fin false N hN).val * F.unit = Real.sqrt ((N * F.unit : Nat) : ℝ) := by
          unfold val
          simp only [signed, Bool.false_eq_true, if_false]
          rw [eq_comm, Real.sqrt_eq_iff_mul_self_eq (by positivity) (by positivity)]
          push_cast
          rw [mul_mul_mul_comm, Real.mul_self_sqrt (by positivity)]
          field_simp
        rwa [e]
      · constructor
        · intro h; cases h
        · intro h
          exact absurd h (not_lt.mpr (Real.sqrt_nonneg _))

/-- The conversion of an integer is correctly rounded. -/
theorem ofInt_rounded (k : Int) : Rounded (k : ℝ) (ofInt k : Fl F) := by
  have hu := unit_posR F
  have := rounded_roundInt (F := F) false (k * F.unit)
  unfold ofInt
  have e : ((k * F.unit : Int) : ℝ) / F.unit = k := by
    push_cast
    exact mul_div_cancel_right₀ _ hu.ne'
  rwa [e] at this

/-! ## Consequences -/

open Classical in
/-- Every magnitude has a nearest number on the grid, found by `roundMag`. -/
theorem exists_approx {x : ℝ} (hx : 0 ≤ x) : ∃ half, Approx x ⌊x⌋₊ half := by
  refine ⟨fun m k => if x < ((m : ℝ) + 1 / 2) * 2 ^ k then .lt
    else if ((m : ℝ) + 1 / 2) * 2 ^ k < x then .gt else .eq, Nat.floor_le hx, Nat.lt_floor_add_one x,
    ?_, ?_, ?_⟩
  · intro m k h
    split at h
    · assumption
    · split at h <;> cases h
  · intro m k h
    split at h
    · cases h
    · split at h
      · assumption
      · cases h
  · intro m k h
    split at h
    · cases h
    · split at h
      · cases h
      · next h1 h2 => exact le_antisymm (not_lt.mp h2) (not_lt.mp h1)

theorem _root_.MatrixLibs.Nearest.err {x : ℝ} {N : Nat} (h : Nearest F x N) (hx : 0 ≤ x) :
    |(N : ℝ) - x| ≤ x * F.u ∨ |(N : ℝ) - x| ≤ 1 / 2 := by
  obtain ⟨half, ha⟩ := exists_approx hx
  rw [h.unique (roundMag_nearest ha)]
  rcases roundMag_err_rel (F := F) ha with h1 | h1
  · exact Or.inl h1
  · right
    have := roundMag_err (F := F) ha
    rwa [h1, pow_zero] at this

/-- A whole number of units is rounded with a relative error only. -/
theorem _root_.MatrixLibs.Nearest.err_nat {X N : Nat} (h : Nearest F (X : ℝ) N) :
    |(N : ℝ) - X| ≤ X * F.u := by
  obtain ⟨half, ha⟩ := exists_approx (Nat.cast_nonneg (α := ℝ) X)
  rw [h.unique (roundMag_nearest ha)]
  rcases roundMag_err_rel (F := F) ha with h1 | h1
  · exact h1
  · rw [Nat.floor_natCast] at h1
    have : F.Grid X := by unfold Fmt.Grid; rw [h1, pow_zero]; exact one_dvd _
    rw [← h.unique (roundMag_nearest ha), h.unique (Nearest.self this), sub_self, abs_zero]
    unfold Fmt.u
    positivity

/-- Rounding is monotone. -/
theorem _root_.MatrixLibs.Nearest.mono {x y : ℝ} {M N : Nat} (hM : Nearest F x M)
    (hN : Nearest F y N) (h : x ≤ y) : M ≤ N := by
  by_contra hlt
  have hlt : N < M := not_le.mp hlt
  have hltR : (N : ℝ) < M := by exact_mod_cast hlt
  have h1 : ((N : ℝ) + M) / 2 ≤ x := by
    have := hM.nearest N hN.grid
    by_contra hc
    have hc := not_le.mp hc
    rw [abs_of_nonneg (a := (M : ℝ) - x) (by linarith)] at this
    rcases abs_cases ((N : ℝ) - x) with ⟨e, _⟩ | ⟨e, _⟩ <;> rw [e] at this <;> linarith
  have h2 : y ≤ ((N : ℝ) + M) / 2 := by
    have := hN.nearest M hM.grid
    by_contra hc
    have hc := not_le.mp hc
    rw [abs_sub_comm, abs_of_nonneg (a := y - N) (by linarith)] at this
    rcases abs_cases ((M : ℝ) - y) with ⟨e, _⟩ | ⟨e, _⟩ <;> rw [e] at this <;> linarith
  have hxy : x = y := by linarith
  subst hxy
  have := hM.unique hN
  omega

theorem _root_.MatrixLibs.Nearest.of_grid {X N : Nat} (h : Nearest F (X : ℝ) N) (hX : F.Grid X) :
    N = X := h.unique (Nearest.self hX)

/-- Distance of a rounded result from the exact one, in units. -/
theorem Rounded.val_sub {x : ℝ} {a : Fl F} (h : Rounded x a) (ha : a.Finite) :
    ∃ N, Nearest F (|x| * F.unit) N ∧ N < F.bound ∧
      |a.val - x| = |(N : ℝ) - |x| * F.unit| / F.unit ∧ |a.val| = N / F.unit := by
  obtain ⟨N, hN, h | h⟩ := h
  · obtain ⟨hb, s, hr, rfl, hs⟩ := h
    refine ⟨N, hN, hb, ?_, ?_⟩
    swap
    · unfold val
      rw [abs_div, abs_signed, abs_of_pos (unit_posR F)]
    have hu := unit_posR F
    rw [eq_div_iff hu.ne', ← abs_of_pos hu, ← abs_mul, abs_of_pos hu, sub_mul, val_mul_unit]
    by_cases hx : x = 0
    · subst hx
      rw [abs_zero, zero_mul] at hN
      rw [hN.unique Nearest.zero]
      cases s <;> simp [signed]
    · have hs := hs hx
      rcases lt_or_gt_of_ne hx with hx | hx
      · rw [hs.mpr hx, abs_of_neg hx]
        simp only [signed, if_true]
        rw [← abs_neg]
        congr 1
        push_cast
        ring
      · have : s = false := by
          cases s
          · rfl
          · exact absurd (hs.mp rfl) (by linarith)
        rw [this, abs_of_pos hx]
        simp [signed]
  · obtain ⟨-, s, rfl, -⟩ := h
    exact ha.elim

theorem u_nonneg (F : Fmt) : 0 ≤ F.u := by unfold Fmt.u; positivity

theorem eta_nonneg (F : Fmt) : 0 ≤ F.eta := by unfold Fmt.eta; positivity

/-- The standard model of rounding, with the term for results in the subnormal range. -/
theorem Rounded.err {x : ℝ} {a : Fl F} (h : Rounded x a) (ha : a.Finite) :
    |a.val - x| ≤ F.u * |x| + F.eta := by
  have hu := unit_posR F
  obtain ⟨N, hN, -, e, -⟩ := h.val_sub ha
  rw [e, div_le_iff₀ hu, add_mul]
  have h1 : F.eta * F.unit = 1 / 2 := by unfold Fmt.eta; field_simp
  have h0 : 0 ≤ |x| * F.unit := by positivity
  rw [h1]
  have h2 : 0 ≤ |x| * F.unit * F.u := mul_nonneg h0 (u_nonneg F)
  rcases hN.err h0 with h | h <;> linarith

/-- ... which is not needed if the exact result is a whole number of units. -/
theorem Rounded.err_units {x : ℝ} {a : Fl F} (h : Rounded x a) (ha : a.Finite) (z : Int)
    (hz : x * F.unit = z) : |a.val - x| ≤ F.u * |x| := by
  have hu := unit_posR F
  obtain ⟨N, hN, -, e, -⟩ := h.val_sub ha
  have e2 : |x| * F.unit = (z.natAbs : ℝ) := by
    rw [Nat.cast_natAbs, Int.cast_abs, ← hz, abs_mul, abs_of_pos hu]
  rw [e2] at hN e
  have := hN.err_nat
  rw [e, div_le_iff₀ hu]
  calc _ ≤ (z.natAbs : ℝ) * F.u := this
    _ = _ := by rw [← e2]; ring

/-- A representable exact result is returned exactly. -/
theorem Rounded.exact {x : ℝ} {a : Fl F} (h : Rounded x a) (N : Nat) (hN : |x| * F.unit = N)
    (hg : F.Rep N) : a.Finite ∧ a.val = x := by
  have hu := unit_posR F
  obtain ⟨N', hN', h'⟩ := h
  have hh := hN'
  rw [hN] at hN'
  have e := hN'.of_grid hg.2
  subst e
  have hf : a.Finite := by
    rcases h' with ⟨-, s, hr, rfl, -⟩ | ⟨hb, -⟩
    · trivial
    · exact absurd hg.1 (not_lt.mpr hb)
  refine ⟨hf, ?_⟩
  obtain ⟨N2, hN2, -, e, -⟩ := Rounded.val_sub ⟨_, hh, h'⟩ hf
  rw [hN] at hN2
  rw [hN2.of_grid hg.2, hN, sub_self, abs_zero, zero_div] at e
  exact sub_eq_zero.mp (abs_eq_zero.mp e)

/-- A finite number is determined by its value, except for the sign of zero. -/
theorem val_inj {a b : Fl F} (ha : a.Finite) (hb : b.Finite) (h : a.val = b.val) (h0 : a.val ≠ 0) :
    a = b := by
  match a, b, ha, hb with
  | .fin s M hM, .fin t N hN, _, _ =>
    have hu := unit_posR F
    unfold val at h h0
    have h1 : (signed s M : ℝ) = signed t N := (div_left_inj' hu.ne').mp h
    have h2 : signed s M = signed t N := by exact_mod_cast h1
    have h3 : M = N := by
      have := congrArg (fun x : ℝ => |x|) h1
      rw [abs_signed, abs_signed] at this
      exact_mod_cast this
    subst h3
    have hM0 : M ≠ 0 := by
      rintro rfl
      apply h0
      cases s <;> simp [signed]
    have : s = t := by
      cases s <;> cases t <;> first | rfl | (simp [signed] at h2; omega)
    subst this
    rfl

end Fl

end MatrixLibs
