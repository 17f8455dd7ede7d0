import Verif.Proof.FloatFinite

/-!
# Rounding: no number of the format lies between the exact and the rounded result
-/

namespace MatrixLibs

open CScalar (ofInt)

variable {F : Fmt}

namespace Fl

theorem grid_split {N : Nat} (h : F.Grid N) : ∃ m k, m ≤ 2 ^ F.p ∧ N = m * 2 ^ k ∧ (k = 0 → N < 2 ^ F.p) := by
  obtain ⟨m, hm⟩ := h
  have hlt := log2_lt N
  by_cases hp : F.p ≤ N.log2 + 1
  · refine ⟨m, F.ulpExp N, ?_, by rw [mul_comm]; exact hm, fun h0 => ?_⟩
    · have e : 2 ^ (N.log2 + 1) = 2 ^ F.ulpExp N * 2 ^ F.p := by
        rw [← pow_add]
        congr 1
        unfold Fmt.ulpExp
        omega
      rw [e] at hlt
      nth_rw 1 [hm] at hlt
      exact (Nat.lt_of_mul_lt_mul_left hlt).le
    · have : N.log2 + 1 = F.p := by unfold Fmt.ulpExp at h0; omega
      rwa [this] at hlt
  · have h1 : N < 2 ^ F.p := hlt.trans_le (Nat.pow_le_pow_right (by norm_num) (by omega))
    exact ⟨N, 0, h1.le, by simp, fun _ => h1⟩

theorem grid_double {N : Nat} (h : F.Grid N) : F.Grid (2 * N) := by
  obtain ⟨m, k, hm, rfl, -⟩ := grid_split h
  have := grid_mul (F := F) (k := k + 1) hm
  rwa [pow_succ, ← mul_assoc, mul_comm] at this

theorem grid_half {N : Nat} (h : F.Grid N) : F.Grid (N / 2) := by
  obtain ⟨m, k, hm, rfl, hk⟩ := grid_split h
  cases k with
  | zero => exact grid_of_le (by have := hk rfl; omega)
  | succ k =>
    rw [pow_succ, ← mul_assoc, Nat.mul_div_cancel _ (by norm_num)]
    exact grid_mul hm

/-- No number of the grid is nearer to the exact result. -/
theorem Rounded.nearest_val {z : ℝ} {a : Fl F} (h : Rounded z a) (ha : a.Finite) {r : ℝ} {M : Nat}
    (hM : F.Grid M) (hr : |r| * F.unit = M) : |a.val - z| ≤ |r - z| := by
  have hu := unit_posR F
  obtain ⟨N, hN, -, e, -⟩ := h.val_sub ha
  rw [e, div_le_iff₀ hu]
  refine (hN.nearest M hM).trans ?_
  rw [← hr, ← sub_mul, abs_mul, abs_of_pos hu]
  exact mul_le_mul_of_nonneg_right (abs_abs_sub_abs_le r z) hu.le

theorem Rounded.lower {z : ℝ} {a : Fl F} (h : Rounded z a) (ha : a.Finite) {r : ℝ} {M : Nat}
    (hM : F.Grid M) (hr : |r| * F.unit = M) (hz : r ≤ z) : r ≤ a.val := by
  by_contra hlt
  rw [not_le] at hlt
  have := h.nearest_val ha hM hr
  rw [abs_of_nonpos (by linarith), abs_of_nonpos (by linarith)] at this
  linarith

theorem Rounded.upper {z : ℝ} {a : Fl F} (h : Rounded z a) (ha : a.Finite) {r : ℝ} {M : Nat}
    (hM : F.Grid M) (hr : |r| * F.unit = M) (hz : z ≤ r) : a.val ≤ r := by
  by_contra hlt
  rw [not_le] at hlt
  have := h.nearest_val ha hM hr
  rw [abs_of_nonneg (by linarith), abs_of_nonneg (by linarith)] at this
  linarith

theorem ofInt_two : (ofInt 2 : Fl F).Finite ∧ (ofInt 2 : Fl F).val = 2 ∧
    ∃ N h, (ofInt 2 : Fl F) = .fin false N h := by
  have hp : 2 ≤ 2 ^ F.p := by
    calc 2 = 2 ^ 1 := rfl
      _ ≤ 2 ^ F.p := Nat.pow_le_pow_right (by norm_num) (by have := F.hp; omega)
  obtain ⟨h1, h2⟩ := val_ofInt_exact (F := F) 2 hp
  refine ⟨h1, by rw [h2]; norm_num, ?_⟩
  cases hx : (ofInt 2 : Fl F) with
  | nan => rw [hx] at h1; exact h1.elim
  | inf s => rw [hx] at h1; exact h1.elim
  | fin s N h =>
    cases s with
    | false => exact ⟨N, h, rfl⟩
    | true =>
      rw [hx] at h2
      unfold val signed at h2
      have : (0 : ℝ) ≤ N / F.unit := by positivity
      simp only [if_true, Int.cast_neg, Int.cast_natCast, neg_div] at h2
      norm_num at h2
      linarith

/-- Half of a finite number: off by at most half the smallest positive number. -/
theorem half_err {a : Fl F} (ha : a.Finite) :
    (a.div (ofInt 2)).Finite ∧ |(a.div (ofInt 2)).val - a.val / 2| ≤ F.eta := by
  have hu := unit_posR F
  obtain ⟨h1, h2, -⟩ := ofInt_two (F := F)
  have hr := div_rounded ha h1 (by rw [h2]; norm_num)
  rw [h2] at hr
  have hf : (a.div (ofInt 2)).Finite := by
    refine (hr.le ha ?_).1
    rw [abs_div, abs_two]
    have := abs_nonneg a.val
    linarith
  refine ⟨hf, ?_⟩
  obtain ⟨N, hN, e⟩ := fin_rep ha
  have hg := grid_half hN.2
  -- the number with magnitude `N / 2` units and the sign of `a`
  obtain ⟨σ, hσ, hσa⟩ : ∃ σ : ℝ, |σ| = 1 ∧ a.val = σ * |a.val| := by
    rcases le_total 0 a.val with h | h
    · exact ⟨1, by simp, by rw [abs_of_nonneg h, one_mul]⟩
    · exact ⟨-1, by simp, by rw [abs_of_nonpos h]; ring⟩
  have h3 := hr.nearest_val hf hg (r := σ * (((N / 2 : Nat) : ℝ) / F.unit)) (by
    rw [abs_mul, hσ, one_mul, abs_of_nonneg (by positivity), div_mul_cancel₀ _ hu.ne'])
  refine h3.trans ?_
  have e' : |a.val| = N / F.unit := by rw [eq_div_iff hu.ne', e]
  have h4 : σ * (((N / 2 : Nat) : ℝ) / F.unit) - a.val / 2 =
      σ * ((((N / 2 : Nat) : ℝ) - N / 2) / F.unit) := by
    rw [hσa, e']
    ring
  rw [h4, abs_mul, hσ, one_mul, abs_div, abs_of_pos hu]
  unfold Fmt.eta
  rw [div_le_div_iff₀ hu (by positivity)]
  have h5 : |((N / 2 : Nat) : ℝ) - N / 2| ≤ 1 / 2 := by
    have h6 : (N : ℝ) = 2 * ((N / 2 : Nat) : ℝ) + ((N % 2 : Nat) : ℝ) := by
      exact_mod_cast (Nat.div_add_mod N 2).symm
    have h7 : ((N % 2 : Nat) : ℝ) ≤ 1 := by
      exact_mod_cast Nat.le_of_lt_succ (Nat.mod_lt N (by norm_num))
    have h8 : (0 : ℝ) ≤ ((N % 2 : Nat) : ℝ) := Nat.cast_nonneg _
    rw [h6, abs_le]
    constructor <;> linarith
  nlinarith

theorem add_inf {a b : Fl F} (ha : a.Finite) (hb : b.Finite) (h : ¬ (a.add b).Finite) :
    F.maxFinite < |a.val + b.val| ∧ ∃ s, a.add b = .inf s ∧ (s = true ↔ a.val + b.val < 0) := by
  have hr := add_rounded ha hb
  refine ⟨?_, ?_⟩
  · by_contra hle
    exact h (hr.finite (not_lt.mp hle))
  · obtain ⟨N, -, ⟨-, s, h', e, -⟩ | ⟨-, s, e, hs⟩⟩ := hr
    · rw [e] at h
      exact absurd trivial h
    · exact ⟨s, e, hs⟩

/-- `(y + x) / 2` of two finite numbers `x ≤ y`. -/
theorem mid {x y : Fl F} (hx : x.Finite) (hy : y.Finite) (hxy : x.val ≤ y.val) :
    (((y.add x).div (ofInt 2)).Finite ∧ x.val ≤ ((y.add x).div (ofInt 2)).val ∧
        ((y.add x).div (ofInt 2)).val ≤ y.val ∧
        |((y.add x).div (ofInt 2)).val - (x.val + y.val) / 2| ≤ F.u * |(x.val + y.val) / 2| + F.eta) ∨
      (F.maxFinite < |x.val + y.val| ∧ ∃ s, (y.add x).div (ofInt 2) = .inf s ∧
        (s = true ↔ x.val + y.val < 0)) := by
  have hu := unit_posR F
  by_cases hs : (y.add x).Finite
  · left
    obtain ⟨hf, he⟩ := half_err hs
    obtain ⟨h1, h2, -⟩ := ofInt_two (F := F)
    have hr := add_rounded hy hx
    have hr2 := div_rounded hs h1 (by rw [h2]; norm_num)
    rw [h2] at hr2
    obtain ⟨M, hM, eM⟩ := fin_rep hx
    obtain ⟨N, hN, eN⟩ := fin_rep hy
    have l1 : 2 * x.val ≤ (y.add x).val := hr.lower hs (grid_double hM.2) (r := 2 * x.val) (by
      rw [abs_mul, abs_two, mul_assoc, eM]; push_cast; ring) (by linarith)
    have l2 : (y.add x).val ≤ 2 * y.val := hr.upper hs (grid_double hN.2) (r := 2 * y.val) (by
      rw [abs_mul, abs_two, mul_assoc, eN]; push_cast; ring) (by linarith)
    refine ⟨hf, hr2.lower hf hM.2 eM (by linarith), hr2.upper hf hN.2 eN (by linarith), ?_⟩
    have h3 := add_err hs
    have e1 : ((y.add x).div (ofInt 2)).val - (x.val + y.val) / 2 =
        (((y.add x).div (ofInt 2)).val - (y.add x).val / 2) +
          ((y.add x).val - (y.val + x.val)) / 2 := by ring
    rw [e1]
    refine (abs_add_le _ _).trans ?_
    rw [abs_div, abs_two, abs_div, abs_two, add_comm x.val]
    linarith
  · right
    obtain ⟨h1, s, h2, h3⟩ := add_inf hy hx hs
    obtain ⟨-, -, N, h, e⟩ := ofInt_two (F := F)
    refine ⟨by rw [add_comm]; exact h1, s, ?_, by rw [h3, add_comm]⟩
    rw [h2, e]
    show Fl.inf (s ^^ false) = _
    rw [Bool.xor_false]

end Fl

end MatrixLibs
