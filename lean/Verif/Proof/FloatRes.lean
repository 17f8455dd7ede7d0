import Verif.Proof.FloatTrack

/-!
# Rounding errors relative to the computed result
-/

namespace MatrixLibs

namespace Fl
variable {F : Fmt}

/-- The rounding error is at most half the spacing at the result. -/
theorem _root_.MatrixLibs.Nearest.half_ulp {X : ℝ} {N : Nat} (h : Nearest F X N) (hX : 0 ≤ X) :
    |(N : ℝ) - X| ≤ 2 ^ F.ulpExp N / 2 := by
  obtain ⟨m, hm⟩ := h.1
  have hp := F.hp
  have hpow : (1 : ℝ) ≤ 2 ^ F.ulpExp N := one_le_pow₀ (by norm_num)
  have hm2 : m < 2 ^ F.p := by
    have h1 : N < 2 ^ (N.log2 + 1) := Nat.lt_log2_self
    have h2 : 2 ^ (N.log2 + 1) ≤ 2 ^ (F.p + F.ulpExp N) := by
      refine Nat.pow_le_pow_right (by norm_num) ?_
      unfold Fmt.ulpExp
      omega
    by_contra hcon
    have : 2 ^ (F.p + F.ulpExp N) ≤ 2 ^ F.ulpExp N * m := by
      rw [pow_add, mul_comm]
      exact Nat.mul_le_mul_left _ (not_lt.mp hcon)
    rw [← hm] at this
    exact absurd (h1.trans_le (h2.trans this)) (lt_irrefl _)
  have hN : (N : ℝ) = m * 2 ^ F.ulpExp N := by
    conv_lhs => rw [hm]
    push_cast
    ring
  have hup := h.nearest ((m + 1) * 2 ^ F.ulpExp N) (grid_mul (by omega))
  rw [show (((m + 1) * 2 ^ F.ulpExp N : Nat) : ℝ) = N + 2 ^ F.ulpExp N by
    rw [hN]; push_cast; ring] at hup
  rcases le_total (N : ℝ) X with hc | hc
  · rw [abs_of_nonpos (by linarith)] at hup ⊢
    rcases abs_cases ((N : ℝ) + 2 ^ F.ulpExp N - X) with ⟨e, -⟩ | ⟨e, -⟩ <;> rw [e] at hup <;> linarith
  · rcases Nat.eq_zero_or_pos m with rfl | h0
    · have : (N : ℝ) = 0 := by rw [hN]; simp
      rw [this, show X = 0 by linarith, sub_zero, abs_zero]
      linarith
    · have hdn := h.nearest ((m - 1) * 2 ^ F.ulpExp N) (grid_mul (by omega))
      rw [show (((m - 1) * 2 ^ F.ulpExp N : Nat) : ℝ) = N - 2 ^ F.ulpExp N by
        rw [hN, Nat.cast_mul, Nat.cast_pred h0]; push_cast; ring] at hdn
      rw [abs_of_nonneg (by linarith)] at hdn ⊢
      rcases abs_cases ((N : ℝ) - 2 ^ F.ulpExp N - X) with ⟨e, -⟩ | ⟨e, -⟩ <;> rw [e] at hdn <;>
        linarith

theorem _root_.MatrixLibs.Nearest.err_res {X : ℝ} {N : Nat} (h : Nearest F X N) (hX : 0 ≤ X) :
    |(N : ℝ) - X| ≤ F.u * N ∨ (F.ulpExp N = 0 ∧ |(N : ℝ) - X| ≤ 1 / 2) := by
  have h1 := h.half_ulp hX
  rcases Nat.eq_zero_or_pos (F.ulpExp N) with hk | hk
  · rw [hk] at h1
    exact .inr ⟨hk, by simpa using h1⟩
  · refine .inl (h1.trans ?_)
    have hN0 : N ≠ 0 := by
      rintro rfl
      unfold Fmt.ulpExp at hk
      have := F.hp
      simp at hk
      omega
    have h2 : 2 ^ N.log2 ≤ N := log2_le hN0
    have h3 : N.log2 + 1 = F.ulpExp N + F.p := by
      unfold Fmt.ulpExp at hk ⊢
      omega
    have h4 : (2 : ℝ) ^ F.ulpExp N * 2 ^ F.p ≤ 2 * N := by
      rw [← pow_add, ← h3, pow_succ]
      have : ((2 ^ N.log2 : Nat) : ℝ) ≤ N := by exact_mod_cast h2
      push_cast at this
      linarith
    unfold Fmt.u
    have hpp : (0 : ℝ) < 2 ^ F.p := by positivity
    rw [div_mul_eq_mul_div, div_le_div_iff₀ (by norm_num) hpp]
    linarith

theorem _root_.MatrixLibs.Nearest.err_res_nat {X N : Nat} (h : Nearest F (X : ℝ) N) :
    |(N : ℝ) - X| ≤ F.u * N := by
  rcases h.err_res (Nat.cast_nonneg X) with h1 | ⟨-, h1⟩
  · exact h1
  · have : N = X := by
      rw [abs_le] at h1
      have h2 : (N : ℝ) < X + 1 := by linarith
      have h3 : (X : ℝ) < N + 1 := by linarith
      have h2 : N < X + 1 := by exact_mod_cast h2
      have h3 : X < N + 1 := by exact_mod_cast h3
      omega
    rw [this, sub_self, abs_zero]
    have := u_nonneg F
    positivity

/-- The rounding error relative to the result. -/
theorem Rounded.err_res {x : ℝ} {a : Fl F} (h : Rounded x a) (ha : a.Finite) :
    |a.val - x| ≤ F.u * |a.val| + F.eta := by
  have hu := unit_posR F
  obtain ⟨N, hN, -, e, e'⟩ := h.val_sub ha
  have h0 : 0 ≤ |x| * F.unit := by positivity
  have h1 : F.eta * F.unit = 1 / 2 := by unfold Fmt.eta; field_simp
  have h2 : 0 ≤ F.u * (N : ℝ) := mul_nonneg (u_nonneg F) (Nat.cast_nonneg N)
  rw [e, e', div_le_iff₀ hu, add_mul, h1]
  have h3 : F.u * (N / F.unit) * F.unit = F.u * N := by field_simp
  rw [h3]
  rcases hN.err_res h0 with h | ⟨-, h⟩ <;> linarith

theorem Rounded.err_res_units {x : ℝ} {a : Fl F} (h : Rounded x a) (ha : a.Finite) (z : Int)
    (hz : x * F.unit = z) : |a.val - x| ≤ F.u * |a.val| := by
  have hu := unit_posR F
  obtain ⟨N, hN, -, e, e'⟩ := h.val_sub ha
  have e2 : |x| * F.unit = (z.natAbs : ℝ) := by
    rw [Nat.cast_natAbs, Int.cast_abs, ← hz, abs_mul, abs_of_pos hu]
  rw [e2] at hN e
  have := hN.err_res_nat
  rw [e, e', div_le_iff₀ hu]
  have h3 : F.u * (N / F.unit) * F.unit = F.u * N := by field_simp
  rw [h3]
  exact this

/-- A result that is not subnormal has no underflow term. -/
theorem Rounded.err_res_normal {x : ℝ} {a : Fl F} (h : Rounded x a) (ha : a.Finite)
    (hx : 2 ^ (F.p - 1) ≤ |x| * F.unit) : |a.val - x| ≤ F.u * |a.val| := by
  have hu := unit_posR F
  obtain ⟨N, hN, -, e, e'⟩ := h.val_sub ha
  have h0 : 0 ≤ |x| * F.unit := by positivity
  rw [e, e', div_le_iff₀ hu]
  have h3 : F.u * (N / F.unit) * F.unit = F.u * N := by field_simp
  rw [h3]
  rcases hN.err_res h0 with h | ⟨-, h⟩
  · exact h
  · refine h.trans ?_
    have hp := F.hp
    have hg : F.Grid (2 ^ (F.p - 1)) :=
      grid_of_le (Nat.pow_le_pow_right (by norm_num) (by omega))
    have h1 : 2 ^ (F.p - 1) ≤ N := (Nearest.self hg).mono hN (by push_cast; exact hx)
    have h2 : (2 : ℝ) ^ (F.p - 1) ≤ N := by exact_mod_cast h1
    have h4 : (2 : ℝ) ^ F.p = 2 * 2 ^ (F.p - 1) := by
      rw [← pow_succ']
      congr 1
      omega
    unfold Fmt.u
    have hpp : (0 : ℝ) < 2 ^ F.p := by positivity
    rw [div_mul_eq_mul_div, div_le_div_iff₀ (by norm_num) hpp]
    linarith

theorem sub_err_res {a b : Fl F} (h : (a.sub b).Finite) :
    |(a.sub b).val - (a.val - b.val)| ≤ F.u * |(a.sub b).val| := by
  obtain ⟨ha, hb⟩ := sub_finite h
  obtain ⟨x, hx⟩ := fin_units ha
  obtain ⟨y, hy⟩ := fin_units hb
  refine (sub_rounded ha hb).err_res_units h (x - y) ?_
  rw [sub_mul, hx, hy, Int.cast_sub]

theorem div_err_res {a b : Fl F} (hb : b.Finite) (h0 : b.val ≠ 0) (h : (a.div b).Finite) :
    |(a.div b).val - a.val / b.val| ≤ F.u * |(a.div b).val| + F.eta :=
  (div_rounded (div_finite_left h) hb h0).err_res h

/-- A finite square root is that of a finite number that is not negative. -/
theorem sqrt_arg {a : Fl F} (h : a.sqrt.Finite) : a.Finite ∧ 0 ≤ a.val := by
  match a with
  | .nan => exact h.elim
  | .inf s => cases s <;> exact h.elim
  | .fin s N hN =>
    refine ⟨trivial, ?_⟩
    have hu := unit_posR F
    cases s
    · unfold val signed
      simp only [Bool.false_eq_true, if_false]
      positivity
    · rcases Nat.eq_zero_or_pos N with rfl | h0
      · simp [val, signed]
      · unfold sqrt at h
        dsimp only at h
        rw [if_neg (by omega), if_pos rfl] at h
        exact h.elim

/-- A square root is never subnormal. -/
theorem sqrt_err_res {a : Fl F} (h : a.sqrt.Finite) :
    |a.sqrt.val - Real.sqrt a.val| ≤ F.u * |a.sqrt.val| := by
  obtain ⟨ha, h0⟩ := sqrt_arg h
  have hr := sqrt_rounded ha h0
  rcases h0.eq_or_lt with h1 | h1
  · rw [← h1, Real.sqrt_zero] at hr ⊢
    have := hr.err_res_units h 0 (by simp)
    exact this
  · refine hr.err_res_normal h ?_
    have hu := unit_posR F
    obtain ⟨z, hz⟩ := fin_units ha
    have hz1 : (1 : ℝ) ≤ z := by
      have : (0 : ℝ) < z := by rw [← hz]; positivity
      exact_mod_cast this
    rw [abs_of_nonneg (Real.sqrt_nonneg _)]
    have e1 : Real.sqrt a.val * F.unit = Real.sqrt (a.val * F.unit * F.unit) := by
      rw [mul_assoc, Real.sqrt_mul h0, Real.sqrt_mul_self hu.le]
    rw [e1, hz]
    refine Real.le_sqrt_of_sq_le ?_
    have hp := F.hp
    have he := F.he
    have e2 : ((2 : ℝ) ^ (F.p - 1)) ^ 2 ≤ F.unit := by
      unfold Fmt.unit
      push_cast
      rw [← pow_mul]
      exact pow_le_pow_right₀ (by norm_num) (by omega)
    calc _ ≤ 1 * (F.unit : ℝ) := by rw [one_mul]; exact e2
      _ ≤ _ := mul_le_mul_of_nonneg_right hz1 hu.le

end Fl

end MatrixLibs
