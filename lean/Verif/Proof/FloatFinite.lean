import Verif.Proof.FloatMat

/-!
# Results that do not overflow
-/

namespace MatrixLibs

namespace Fl
variable {F : Fmt}

theorem two_pow_emax (F : Fmt) : (2 : ℝ) ^ (F.emax + 1 - F.p) * F.unit = 2 ^ (2 * F.emax - 1) := by
  unfold Fmt.unit
  rw [Nat.cast_pow, Nat.cast_ofNat, ← pow_add]
  congr 1
  have := F.hp
  have := F.he
  omega

theorem rep_max : F.Rep ((2 ^ F.p - 1) * 2 ^ (2 * F.emax - 1)) := by
  have h1 : (2 ^ F.p - 1) * 2 ^ (2 * F.emax - 1) < F.bound := by
    unfold Fmt.bound
    rw [pow_add]
    have : 0 < 2 ^ (2 * F.emax - 1) := by positivity
    have : 0 < 2 ^ F.p := by positivity
    apply Nat.mul_lt_mul_of_pos_right <;> omega
  refine ⟨h1, ?_⟩
  refine Dvd.dvd.mul_left (pow_dvd_pow 2 ?_) _
  unfold Fmt.ulpExp
  have : ((2 ^ F.p - 1) * 2 ^ (2 * F.emax - 1)).log2 < F.p + (2 * F.emax - 1) := by
    by_cases h0 : (2 ^ F.p - 1) * 2 ^ (2 * F.emax - 1) = 0
    · rw [h0, Nat.log2_zero]
      have := F.hp
      omega
    · exact (Nat.log2_lt h0).mpr h1
  omega

/-- The largest finite number. -/
def maxNum (F : Fmt) : Fl F := .fin false _ rep_max

theorem maxNum_val : (maxNum F).val = F.maxFinite := by
  unfold maxNum val signed Fmt.maxFinite
  rw [div_eq_iff (unit_posR F).ne', mul_assoc, two_pow_emax]
  simp only [Bool.false_eq_true, if_false]
  rw [Int.cast_natCast, Nat.cast_mul, Nat.cast_sub Nat.one_le_two_pow, Nat.cast_pow, Nat.cast_pow,
    Nat.cast_ofNat, Nat.cast_one]

theorem maxFinite_pos (F : Fmt) : 0 < F.maxFinite := by
  unfold Fmt.maxFinite
  have h : (1 : ℝ) < 2 ^ F.p := one_lt_pow₀ (by norm_num) (by have := F.hp; omega)
  have : (0 : ℝ) < 2 ^ (F.emax + 1 - F.p) := by positivity
  exact mul_pos (by linarith) this

/-- A result within the range is finite. -/
theorem Rounded.finite {x : ℝ} {a : Fl F} (h : Rounded x a) (hx : |x| ≤ F.maxFinite) : a.Finite := by
  refine (h.le (e := maxNum F) trivial ?_).1
  rwa [maxNum_val, abs_of_pos (maxFinite_pos F)]

theorem fsum_abs_le (l : List (Fl F)) (h : (fsum l).Finite) :
    |(fsum l).val| ≤ (1 + F.u) ^ (l.length - 1) * (l.map fun x => |x.val|).sum := by
  have h1 := fsum_err l h
  have h2 := abs_sum_le l
  have h3 := abs_sub_abs_le_abs_sub (fsum l).val (l.map val).sum
  linarith

/-- A sum does not overflow if the sum of the absolute values stays away from the limit. -/
theorem fsum_finite_of_le (l : List (Fl F)) (hf : ∀ x ∈ l, x.Finite)
    (hb : (1 + F.u) ^ (l.length - 1) * (l.map fun x => |x.val|).sum ≤ F.maxFinite) :
    (fsum l).Finite := by
  have hu := u_nonneg F
  induction l using List.reverseRecOn with
  | nil => exact zero_finite
  | append_singleton l x ih =>
    rw [fsum_concat]
    rw [List.map_append, List.sum_append, List.length_append] at hb
    simp only [List.map_cons, List.map_nil, List.sum_singleton, List.length_singleton,
      Nat.add_sub_cancel] at hb
    have hx := hf x (by simp)
    have e4 := sum_abs_nonneg l
    have hv := abs_nonneg x.val
    have hq := one_add_u_pow F (l.length - 1)
    have hle : (1 + F.u) ^ (l.length - 1) ≤ (1 + F.u) ^ l.length :=
      pow_le_pow_right₀ (by linarith) (by omega)
    have hstep : (1 + F.u) ^ (l.length - 1) * (l.map fun x => |x.val|).sum + |x.val| ≤
        (1 + F.u) ^ l.length * ((l.map fun x => |x.val|).sum + |x.val|) := by
      have := mul_le_mul_of_nonneg_right hle e4
      nlinarith
    have hl := ih (fun y hy => hf y (by simp [hy])) (by linarith)
    refine (add_rounded hl hx).finite ?_
    have := fsum_abs_le l hl
    exact (abs_add_le _ _).trans (by linarith)

theorem mul_finite_of_le {a b : Fl F} (ha : a.Finite) (hb : b.Finite)
    (h : |a.val| * |b.val| ≤ F.maxFinite) : (a.mul b).Finite :=
  (mul_rounded ha hb).finite (by rwa [abs_mul])

/-! ## Signs -/

/-- Neither NaN nor negative (`-0` is allowed). -/
def NonNeg (a : Fl F) : Prop := (a.Finite ∧ 0 ≤ a.val) ∨ a = .inf false

theorem Rounded.nonneg {x : ℝ} {a : Fl F} (h : Rounded x a) (hx : 0 ≤ x) : a.NonNeg := by
  obtain ⟨N, hN, ⟨hb, s, hr, rfl, hs⟩ | ⟨hb, s, rfl, hs⟩⟩ := h
  · left
    refine ⟨trivial, ?_⟩
    unfold val
    refine div_nonneg ?_ (Nat.cast_nonneg _)
    rcases hx.eq_or_lt with h0 | h0
    · rw [← h0, abs_zero, zero_mul] at hN
      have : N = 0 := hN.unique Nearest.zero
      subst this
      simp [signed]
    · have : s = false := by
        rw [← Bool.not_eq_true, hs h0.ne']
        exact not_lt.mpr hx
      rw [this]
      simp [signed]
  · right
    have : s = false := by
      rw [← Bool.not_eq_true, hs]
      exact not_lt.mpr hx
    rw [this]

theorem NonNeg.add {a b : Fl F} (ha : a.NonNeg) (hb : b.NonNeg) : (a.add b).NonNeg := by
  rcases ha with ⟨ha, va⟩ | rfl <;> rcases hb with ⟨hb, vb⟩ | rfl
  · exact (add_rounded ha hb).nonneg (add_nonneg va vb)
  · match a, ha with
    | .fin .., _ => exact .inr rfl
  · match b, hb with
    | .fin .., _ => exact .inr rfl
  · exact .inr rfl

theorem zero_nonNeg : (ofInt 0 : Fl F).NonNeg := .inl ⟨zero_finite, zero_val.ge⟩

theorem fsum_nonNeg (l : List (Fl F)) (h : ∀ x ∈ l, x.NonNeg) : (fsum l).NonNeg := by
  induction l using List.reverseRecOn with
  | nil => exact zero_nonNeg
  | append_singleton l x ih =>
    rw [fsum_concat]
    exact (ih fun y hy => h y (by simp [hy])).add (h x (by simp))

/-- A square is NaN or not negative. -/
theorem sq_nonNeg (a : Fl F) (h : a ≠ .nan) : (a.mul a).NonNeg := by
  cases a with
  | nan => exact absurd rfl h
  | inf s => cases s <;> exact .inr rfl
  | fin s N hN =>
    exact (mul_rounded (a := .fin s N hN) (b := .fin s N hN) trivial trivial).nonneg
      (mul_self_nonneg _)

theorem ofInt_nonNeg (k : Nat) : (ofInt k : Fl F).NonNeg :=
  (ofInt_rounded (F := F) k).nonneg (by exact_mod_cast Nat.zero_le k)

theorem ofInt_pos {k : Nat} (hk : 0 < k) : (ofInt k : Fl F) = .inf false ∨
    ((ofInt k : Fl F).Finite ∧ 0 < (ofInt k : Fl F).val) := by
  have hr := ofInt_rounded (F := F) k
  rcases ofInt_nonNeg (F := F) k with ⟨hf, -⟩ | h
  · right
    refine ⟨hf, ?_⟩
    have h1 : (1 : ℝ) ≤ k := by exact_mod_cast hk
    obtain ⟨o1, o2⟩ := val_ofInt_exact (F := F) 1 (by simpa using Nat.one_le_two_pow)
    have := hr.ge hf o1 (by rw [o2]; push_cast; rw [abs_one, Nat.abs_cast]; exact h1)
    rw [o2] at this
    push_cast at this
    rw [abs_one] at this
    have hn : 0 ≤ (ofInt (k : Int) : Fl F).val := by
      rcases ofInt_nonNeg (F := F) k with ⟨-, h⟩ | h
      · exact h
      · rw [h] at hf; exact hf.elim
    rw [abs_of_nonneg hn] at this
    linarith
  · exact .inl h

/-- Dividing by a positive count: not negative, or NaN if both are infinite. -/
theorem NonNeg.div_count {a : Fl F} (ha : a.NonNeg) {k : Nat} (hk : 0 < k) :
    (a.div (ofInt k)).NonNeg ∨ a.div (ofInt k) = .nan := by
  rcases ofInt_pos (F := F) hk with h | ⟨hf, hp⟩
  · rw [h]
    rcases ha with ⟨ha, va⟩ | rfl
    · match a, ha with
      | .fin s N hN, _ =>
        left
        left
        simp only [div]
        refine ⟨pack_finite.mpr rep_zero, ?_⟩
        unfold pack
        rw [dif_pos rep_zero]
        simp [val, signed]
    · exact .inr rfl
  · left
    rcases ha with ⟨ha, va⟩ | rfl
    · exact (div_rounded ha hf hp.ne').nonneg (div_nonneg va hp.le)
    · match h : (ofInt (k : Int) : Fl F), hf with
      | .fin s N hN, _ =>
        have : s = false := by
          by_contra hs
          rw [Bool.not_eq_false] at hs
          rw [h, hs] at hp
          simp only [val, signed, if_true] at hp
          have h1 := unit_posR F
          have h2 := (div_pos_iff_of_pos_right h1).mp hp
          have h3 : (0 : ℝ) ≤ N := Nat.cast_nonneg N
          push_cast at h2
          linarith
        rw [this]
        exact .inr rfl

end Fl

end MatrixLibs
