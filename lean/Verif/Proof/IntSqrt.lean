import Verif.Proof.FloatRound
import Mathlib.Data.Nat.Sqrt
import Mathlib.Algebra.Order.Floor.Semifield

/-!
# The square root of an integer through `double`
-/

namespace MatrixLibs

open Fl

theorem b64_unit : (binary64.unit : ℝ) = 2 ^ 1074 := by
  have : binary64.unit = 2 ^ 1074 := rfl
  rw [this]
  exact Nat.cast_pow 2 1074

theorem sqrtTrunc_fin {k : Int} {x : Fl binary64} (hx : (Fl.ofInt k : Fl binary64).sqrt = x) (hf : x.Finite) :
    sqrtTrunc k = some ⌊|x.val|⌋₊ := by
  unfold sqrtTrunc
  rw [hx]
  match x, hf with
  | .fin s N hN, _ =>
    refine congrArg some ?_
    unfold Fl.val
    rw [abs_div, abs_signed, abs_of_pos (unit_posR _), Nat.floor_div_eq_div]

/-- Numbers of at most 53 bits. -/
theorem b64_grid {r : ℝ} {m k : Nat} (hm : m ≤ 2 ^ 53) (hk : k ≤ 1074) (hr : r = m / 2 ^ k) :
    |r| * binary64.unit = ((m * 2 ^ (1074 - k) : Nat) : ℝ) ∧ binary64.Grid (m * 2 ^ (1074 - k)) := by
  refine ⟨?_, grid_mul hm⟩
  rw [hr, abs_of_nonneg (by positivity), b64_unit]
  have : (2 : ℝ) ^ 1074 = 2 ^ (1074 - k) * 2 ^ k := by rw [← pow_add]; congr 1; omega
  rw [this]
  push_cast
  field_simp

theorem pow_grid (e : Nat) : |(2 : ℝ) ^ e| * binary64.unit = ((1 * 2 ^ (1074 + e) : Nat) : ℝ) ∧
    binary64.Grid (1 * 2 ^ (1074 + e)) := by
  refine ⟨?_, grid_mul (show 1 ≤ 2 ^ 53 by norm_num)⟩
  rw [abs_of_pos (by positivity), b64_unit, one_mul, Nat.cast_pow, Nat.cast_ofNat, pow_add]
  ring

theorem pow_le_max {e : Nat} (he : e ≤ 1000) : (2 : ℝ) ^ e ≤ binary64.maxFinite := by
  have h : binary64.maxFinite = (2 ^ 53 - 1) * 2 ^ 971 := rfl
  rw [h]
  calc (2 : ℝ) ^ e ≤ 2 ^ (52 + 971) := pow_le_pow_right₀ (by norm_num) (by omega)
    _ = 2 ^ 52 * 2 ^ 971 := pow_add _ _ _
    _ ≤ (2 ^ 53 - 1) * 2 ^ 971 := mul_le_mul_of_nonneg_right (by norm_num) (by positivity)

/-- The conversion is rounded to at most the next power of two, the square root to at most a power of two. -/
theorem sqrt_bound {a : Nat} {e f : Nat} (ha : a ≤ 2 ^ e) (he : e ≤ 2 * f) (hf : f ≤ 500) :
    ∃ y x : Fl binary64, (Fl.ofInt a : Fl binary64) = y ∧ y.Finite ∧ 0 ≤ y.val ∧ y.sqrt = x ∧ x.Finite ∧
      0 ≤ x.val ∧ x.val ≤ 2 ^ f := by
  have hr := ofInt_rounded (F := binary64) a
  have haR : (((a : Nat) : Int) : ℝ) ≤ 2 ^ e := by
    rw [Int.cast_natCast]
    exact_mod_cast ha
  have h0 : (0 : ℝ) ≤ (((a : Nat) : Int) : ℝ) := by
    rw [Int.cast_natCast]
    exact Nat.cast_nonneg a
  have he1 : e ≤ 1000 := by omega
  have hf1 : f ≤ 1000 := by omega
  have hm := haR.trans (pow_le_max he1)
  rw [← abs_of_nonneg h0] at hm
  obtain ⟨y, ey⟩ : ∃ y, (Fl.ofInt a : Fl binary64) = y := ⟨_, rfl⟩
  rw [ey] at hr
  have hy := Rounded.finite hr hm
  obtain ⟨g1, g2⟩ := pow_grid e
  obtain ⟨g3, g4⟩ := pow_grid f
  have hy2 := hr.upper hy g2 g1 haR
  have hy0 := hr.lower hy grid_zero (r := 0) (by rw [abs_zero, zero_mul, Nat.cast_zero]) h0
  have hs := sqrt_rounded hy hy0
  have hsb : Real.sqrt y.val ≤ 2 ^ f := by
    apply Real.sqrt_le_iff.mpr
    refine ⟨by positivity, hy2.trans ?_⟩
    rw [← pow_mul]
    exact pow_le_pow_right₀ (by norm_num) (by omega)
  have hm2 := hsb.trans (pow_le_max hf1)
  rw [← abs_of_nonneg (Real.sqrt_nonneg _)] at hm2
  have hx := hs.finite hm2
  exact ⟨y, y.sqrt, ey, hy, hy0, rfl, hx, hs.lower hx grid_zero (r := 0) (by rw [abs_zero, zero_mul, Nat.cast_zero]) (Real.sqrt_nonneg _),
    hs.upper hx g4 g3 hsb⟩

/-- Below 2^52 the result is the integer square root. -/
theorem sqrtTrunc_eq {a : Nat} (ha : a < 2 ^ 52) : sqrtTrunc a = some a.sqrt := by
  obtain ⟨y, x, hy, hfi, h0, hx, hf, hs0, -⟩ := sqrt_bound ha.le (f := 26) (by norm_num) (by norm_num)
  rw [← hy] at hx
  rw [sqrtTrunc_fin hx hf]
  refine congrArg some ?_
  rw [abs_of_nonneg hs0, Nat.floor_eq_iff hs0]
  have hv : y.val = a := by
    have := (val_ofInt_exact (F := binary64) a (by
      show (a : Int).natAbs ≤ 2 ^ 53
      rw [Int.natAbs_natCast]
      omega)).2
    rw [← hy, this]
    rfl
  have hr := sqrt_rounded hfi h0
  rw [hv, ← hy, hx] at hr
  set s := a.sqrt with hs
  have h1 : s * s ≤ a := Nat.sqrt_le a
  have h2 : a < (s + 1) * (s + 1) := Nat.lt_succ_sqrt a
  have hs26 : s + 1 ≤ 2 ^ 26 := by
    by_contra h
    have : 2 ^ 26 ≤ s := by omega
    have := Nat.mul_le_mul this this
    omega
  constructor
  · obtain ⟨e, hg⟩ := b64_grid (r := s) (m := s) (k := 0) (by omega) (by omega) (by simp)
    refine hr.lower hf hg e ?_
    apply Real.le_sqrt_of_sq_le
    rw [sq]
    exact_mod_cast h1
  · have hpos : 1 ≤ (s + 1) * 2 ^ 27 := by nlinarith
    obtain ⟨e, hg⟩ := b64_grid (r := (((s + 1) * 2 ^ 27 - 1 : Nat) : ℝ) / 2 ^ 27) (m := (s + 1) * 2 ^ 27 - 1) (k := 27)
      (by omega) (by omega) rfl
    have hc : (((s + 1) * 2 ^ 27 - 1 : Nat) : ℝ) = (s + 1) * 2 ^ 27 - 1 := by
      rw [Nat.cast_sub hpos]
      push_cast
      norm_num
    have := hr.upper hf hg e (by
      rw [hc]
      apply Real.sqrt_le_iff.mpr
      have hsR : (0 : ℝ) ≤ s := Nat.cast_nonneg s
      constructor
      · apply div_nonneg _ (by positivity)
        nlinarith
      · have h3 : (a : ℝ) + 1 ≤ (s + 1) * (s + 1) := by exact_mod_cast h2
        have h4 : (s : ℝ) + 1 ≤ 2 ^ 26 := by exact_mod_cast hs26
        rw [div_pow, le_div_iff₀ (by positivity)]
        nlinarith)
    refine this.trans_lt ?_
    rw [hc, div_lt_iff₀ (by positivity)]
    linarith

end MatrixLibs
