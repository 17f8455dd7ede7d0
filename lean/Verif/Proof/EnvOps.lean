import Verif.Proof.Env

/-!
# What the switches do
-/

namespace MatrixLibs

set_option linter.unusedSectionVars false

open Fl

namespace Fl
variable {F : Fmt}

theorem abs_val_fin (s : Bool) (N : Nat) (h : F.Rep N) : |(Fl.fin s N h).val| = N / F.unit := by
  have hu := unit_posR F
  rw [val_fin, abs_mul, abs_sgn, one_mul, abs_of_nonneg (by positivity)]

theorem lt_minNormal {N : Nat} : (N : ℝ) / F.unit < F.minNormal ↔ N < 2 ^ (F.p - 1) := by
  have hu := unit_posR F
  unfold Fmt.minNormal
  rw [div_lt_div_iff_of_pos_right hu]
  exact_mod_cast Iff.rfl

theorem subnormal_iff (s : Bool) (N : Nat) (h : F.Rep N) : (Fl.fin s N h).Subnormal ↔ N ≠ 0 ∧ N < 2 ^ (F.p - 1) := by
  have hu := unit_posR F
  unfold Subnormal
  rw [abs_val_fin, lt_minNormal, ← abs_pos, abs_val_fin]
  simp only [Finite, true_and]
  refine and_congr_left fun _ => ?_
  rw [div_pos_iff_of_pos_right hu, Nat.cast_pos, Nat.pos_iff_ne_zero]

theorem not_subnormal_flush (a : Fl F) : ¬ a.flush.Subnormal := by
  cases a with
  | nan => exact fun h => h.1
  | inf s => exact fun h => h.1
  | fin s N h =>
    rw [flush_fin]
    split
    · unfold nought; rw [subnormal_iff]; simp
    · next hn => rw [subnormal_iff]; exact fun h => hn h.2

theorem flush_eq {a : Fl F} (h : ¬ a.Subnormal) : a.flush = a := by
  cases a with
  | nan => rfl
  | inf s => rfl
  | fin s N hN =>
    rw [flush_fin]
    rw [subnormal_iff] at h
    split
    · next hlt =>
      have : N = 0 := by by_contra h0; exact h ⟨h0, hlt⟩
      subst this
      rfl
    · rfl

theorem flush_flush (a : Fl F) : a.flush.flush = a.flush := flush_eq (not_subnormal_flush a)

theorem flush_of_subnormal {a : Fl F} (h : a.Subnormal) : a.flush.Finite ∧ a.flush.val = 0 ∧ a.flush.signBit = a.signBit := by
  cases a with
  | nan => exact h.1.elim
  | inf s => exact h.1.elim
  | fin s N hN =>
    rw [flush_fin, if_pos ((subnormal_iff s N hN).mp h).2]
    exact ⟨trivial, val_nought s, rfl⟩

theorem top_normal (F : Fmt) : 2 ^ (F.p - 1) ≤ F.top := by
  have hp := F.hp
  unfold Fmt.top
  have h1 : 2 ^ F.p = 2 ^ (F.p - 1) * 2 := by rw [← pow_succ]; congr 1; omega
  have h2 : 1 ≤ 2 ^ (F.p - 1) := Nat.one_le_two_pow
  have h3 : 0 < 2 ^ (2 * F.emax - 1) := by positivity
  calc 2 ^ (F.p - 1) ≤ 2 ^ F.p - 1 := by omega
    _ ≤ _ := Nat.le_mul_of_pos_right _ h3

theorem packBy_not_subnormal {h : How} {s : Bool} {N : Nat} (hN : 2 ^ (F.p - 1) ≤ N) : ¬ (packBy h s N : Fl F).Subnormal := by
  unfold packBy
  split
  · rw [subnormal_iff]; omega
  · split
    · rw [subnormal_iff]; have := top_normal F; omega
    · exact fun h => h.1

/-- A magnitude that is not tiny after rounding is not subnormal. -/
theorem not_tiny_after {h : How} {a b : Nat} (hb : 0 < b) (ht : 2 ^ F.p ≤ roundQuotBy h F (2 * a) b) :
    2 ^ (F.p - 1) ≤ roundQuotBy h F a b := by
  have hp := F.hp
  have hbR : (0 : ℝ) < b := by exact_mod_cast hb
  have hs2 := roundQuotBy_spec (F := F) h (a := 2 * a) (b := b) hb
  have hs := roundQuotBy_spec (F := F) h (a := a) (b := b) hb
  set X := (a : ℝ) / b with hX
  have e2 : ((2 * a : Nat) : ℝ) / b = 2 * X := by rw [hX]; push_cast; ring
  rw [e2] at hs2
  set K := roundQuotBy h F a b
  set K2 := roundQuotBy h F (2 * a) b
  have h2 : 2 ^ F.p = 2 * 2 ^ (F.p - 1) := by rw [← pow_succ']; congr 1; omega
  have h2R : (2 : ℝ) ^ F.p = 2 * 2 ^ (F.p - 1) := by exact_mod_cast h2
  by_cases hX1 : 2 ^ (F.p - 1) ≤ X
  · exact hs.normal hX1
  rw [not_le] at hX1
  have h1 : 1 ≤ 2 ^ F.p := Nat.one_le_two_pow
  have g1 : F.Grid (2 ^ F.p - 1) := grid_of_le (by omega)
  have g0 : F.Grid (2 ^ (F.p - 1)) := grid_of_le (Nat.pow_le_pow_right (by norm_num) (by omega))
  have c1 : ((2 ^ F.p - 1 : Nat) : ℝ) = 2 * 2 ^ (F.p - 1) - 1 := by
    rw [Nat.cast_sub h1]; push_cast; rw [h2R]
  have ht' : (2 : ℝ) * 2 ^ (F.p - 1) ≤ K2 := by rw [← h2R]; exact_mod_cast ht
  by_contra hlt
  rw [not_le] at hlt
  have hlt' : (K : ℝ) + 1 ≤ 2 ^ (F.p - 1) := by exact_mod_cast hlt
  obtain ⟨-, hs⟩ := hs
  obtain ⟨-, hs2⟩ := hs2
  cases h with
  | near =>
    have a1 := hs2.nearest _ g1
    rw [c1] at a1
    have a2 := hs.nearest _ g0
    push_cast at a2
    rw [abs_of_nonneg (by linarith)] at a1
    rw [abs_of_nonneg (show (0 : ℝ) ≤ 2 ^ (F.p - 1) - X by linarith)] at a2
    rcases abs_cases (2 * (2 : ℝ) ^ (F.p - 1) - 1 - 2 * X) with ⟨e, -⟩ | ⟨e, -⟩ <;> rw [e] at a1
    · linarith
    · rcases abs_cases ((K : ℝ) - X) with ⟨e', h'⟩ | ⟨e', h'⟩ <;> rw [e'] at a2 <;> linarith
  | trunc =>
    have := hs2.1
    linarith
  | away =>
    have h3 := hs.1
    have h4 : ¬ (2 * X ≤ ((2 ^ F.p - 1 : Nat) : ℝ)) := by
      intro h5
      have := hs2.2 _ g1 h5
      omega
    rw [c1] at h4
    linarith

end Fl

namespace FpEnv
variable {F : Fmt} {e : FpEnv} {a b : Fl F}

/-! ## No switch -/

theorem no_flush (m : RMode) (F : Fmt) : envScalar ⟨m, false, none⟩ F = modeScalar m F := by
  have h1 : ∀ a b : Fl F, FpEnv.mul ⟨m, false, none⟩ a b = mulBy m a b := by
    intro a b
    cases a <;> cases b <;> rfl
  have h2 : ∀ a b : Fl F, FpEnv.div ⟨m, false, none⟩ a b = divBy m a b := by
    intro a b
    cases a with
    | fin s M hM =>
      cases b with
      | fin t N hN =>
        show (if N ≠ 0 ∧ false = true then _ else _) = _
        rw [if_neg (by simp)]
      | _ => rfl
    | _ => cases b <;> rfl
  unfold envScalar modeScalar
  congr 1
  · funext a b; exact congrArg _ (h1 a b)
  · funext a b; exact congrArg _ (h2 a b)
  · funext a n; exact congrArg _ (h2 a _)

/-! ## Operands -/

theorem seen_flush (h : e.daz = true) (a : Fl F) : e.seen a.flush = e.seen a := by
  unfold seen
  rw [if_pos h, if_pos h, flush_flush]

theorem seen_not_subnormal (h : ¬ a.Subnormal) : e.seen a = a := by
  unfold seen
  split
  · exact flush_eq h
  · rfl

theorem signBit_seen (e : FpEnv) (a : Fl F) : (e.seen a).signBit = a.signBit := by
  unfold seen
  split
  · cases a with
    | fin s N h => rw [flush_fin]; split <;> rfl
    | _ => rfl
  · rfl

/-! ## Results -/

theorem add_normal (h : e.ftz = none ∨ ¬ (addBy e.mode (e.seen a) (e.seen b)).Subnormal) :
    e.add a b = addBy e.mode (e.seen a) (e.seen b) := by
  unfold add
  dsimp only
  split
  · next hs =>
    refine flush_eq (h.resolve_left fun h0 => ?_)
    rw [h0] at hs
    cases hs
  · rfl

theorem not_tiny {h : How} {a b : Nat} (hb : 0 < b) (hn : (2 : ℝ) ^ (F.p - 1) ≤ (a : ℝ) / b) : e.tiny F h a b = false := by
  cases ht : e.tiny F h a b with
  | false => rfl
  | true => exact absurd hn (not_le.mpr (tiny_lt hb ht).2)

theorem mag_units {X : ℝ} : F.minNormal ≤ X / F.unit ↔ 2 ^ (F.p - 1) ≤ X := by
  have hu := unit_posR F
  unfold Fmt.minNormal
  rw [div_le_div_iff_of_pos_right hu]

theorem addBy_subnormal (ha : a.Finite) (hb : b.Finite) {m : RMode} (h : F.minNormal ≤ |a.val + b.val|) :
    ¬ (addBy m a b).Subnormal := by
  have hu := unit_posR F
  match a, b, ha, hb with
  | .fin s M hM, .fin t N hN, _, _ =>
    unfold addBy roundIntBy
    dsimp only
    set z := signed s M + signed t N with hz
    have hv : |(Fl.fin s M hM).val + (Fl.fin t N hN).val| = (z.natAbs : ℝ) / F.unit := by
      unfold Fl.val
      rw [← add_div, ← Int.cast_add, ← hz, abs_div, abs_of_pos hu, Nat.cast_natAbs, Int.cast_abs]
    rw [hv, mag_units] at h
    have hs := roundQuotBy_spec (F := F) (m.how (decide (z < 0))) (a := z.natAbs) (b := 1) (by omega)
    rw [Nat.cast_one, div_one] at hs
    split
    · next h0 =>
      rw [h0] at h
      have : (0 : ℝ) < 2 ^ (F.p - 1) := by positivity
      simp at h
      linarith
    · exact packBy_not_subnormal (hs.normal h)

theorem mul_normal (ha : a.Finite) (hb : b.Finite) (h : e.ftz = none ∨ F.minNormal ≤ |e.val a * e.val b|) :
    e.mul a b = mulBy e.mode (e.seen a) (e.seen b) := by
  have hu := unit_posR F
  rw [← finite_seen e] at ha hb
  unfold mul
  match ha' : e.seen a, hb' : e.seen b, ha, hb with
  | .fin s M hM, .fin t N hN, _, _ =>
    dsimp only
    have ht : e.tiny F (e.mode.how (s ^^ t)) (M * N) F.unit = false := by
      rcases h with h | h
      · unfold tiny; rw [h]
      · refine not_tiny (unit_pos F) ?_
        unfold FpEnv.val at h
        rw [ha', hb', abs_mul, abs_val_fin, abs_val_fin] at h
        rw [← mag_units]
        refine h.trans (le_of_eq ?_)
        push_cast
        field_simp
    rw [ht, if_neg (by simp)]

theorem div_normal (ha : a.Finite) (hb : b.Finite) (h : e.ftz = none ∨ F.minNormal ≤ |e.val a / e.val b|) :
    e.div a b = divBy e.mode (e.seen a) (e.seen b) := by
  have hu := unit_posR F
  rw [← finite_seen e] at ha hb
  unfold div
  match ha' : e.seen a, hb' : e.seen b, ha, hb with
  | .fin s M hM, .fin t N hN, _, _ =>
    dsimp only
    rw [if_neg]
    rintro ⟨h0, ht⟩
    have h0' : (0 : ℝ) < N := by exact_mod_cast Nat.pos_of_ne_zero h0
    rcases h with h | h
    · unfold tiny at ht; rw [h] at ht; cases ht
    · have := (tiny_lt (Nat.pos_of_ne_zero h0) ht).2
      unfold FpEnv.val at h
      rw [ha', hb', abs_div, abs_val_fin, abs_val_fin] at h
      have h' : (2 : ℝ) ^ (F.p - 1) ≤ ((M * F.unit : Nat) : ℝ) / N := by
        rw [← mag_units]
        refine h.trans (le_of_eq ?_)
        push_cast
        field_simp
      linarith

/-- With FTZ no operation returns a subnormal number. -/
theorem add_flushed (h : e.ftz.isSome = true) (a b : Fl F) : ¬ (e.add a b).Subnormal := by
  unfold add
  dsimp only
  rw [if_pos h]
  exact not_subnormal_flush _

theorem tiny_false {h : How} {a b : Nat} (hb : 0 < b) (hf : e.ftz.isSome = true) (ht : ¬ e.tiny F h a b = true) :
    2 ^ (F.p - 1) ≤ roundQuotBy h F a b := by
  have hbR : (0 : ℝ) < b := by exact_mod_cast hb
  unfold tiny at ht
  split at ht
  · next h0 => rw [h0] at hf; cases hf
  · rw [decide_eq_true_eq, not_lt] at ht
    refine (roundQuotBy_spec h hb).normal ?_
    rw [le_div_iff₀ hbR]
    exact_mod_cast ht
  · rw [decide_eq_true_eq, not_lt] at ht
    exact not_tiny_after hb ht

theorem nought_not_subnormal (s : Bool) : ¬ (nought s : Fl F).Subnormal := by
  unfold nought
  rw [subnormal_iff]
  simp

theorem mul_flushed (h : e.ftz.isSome = true) (a b : Fl F) : ¬ (e.mul a b).Subnormal := by
  unfold mul
  match e.seen a, e.seen b with
  | .fin s M hM, .fin t N hN =>
    dsimp only
    split
    · exact nought_not_subnormal _
    · next ht =>
      unfold mulBy
      exact packBy_not_subnormal (tiny_false (unit_pos F) h ht)
  | .nan, .nan | .nan, .inf _ | .nan, .fin _ _ _ | .inf _, .nan | .fin _ _ _, .nan => exact fun h => h.1
  | .inf _, .inf _ => exact fun h => h.1
  | .inf _, .fin _ _ _ | .fin _ _ _, .inf _ => dsimp only; unfold mulBy; dsimp only; split <;> exact fun h => h.1

theorem div_flushed (h : e.ftz.isSome = true) (a b : Fl F) : ¬ (e.div a b).Subnormal := by
  unfold div
  match e.seen a, e.seen b with
  | .fin s M hM, .fin t N hN =>
    dsimp only
    split
    · exact nought_not_subnormal _
    · next ht =>
      unfold divBy
      dsimp only
      split
      · split <;> exact fun h => h.1
      · next h0 => exact packBy_not_subnormal (tiny_false (Nat.pos_of_ne_zero h0) h fun h1 => ht ⟨h0, h1⟩)
  | .nan, .nan | .nan, .inf _ | .nan, .fin _ _ _ | .inf _, .nan | .fin _ _ _, .nan => exact fun h => h.1
  | .inf _, .inf _ => exact fun h => h.1
  | .inf _, .fin _ _ _ => exact fun h => h.1
  | .fin s _ _, .inf t =>
    show ¬ (pack (s ^^ t) 0 : Fl F).Subnormal
    unfold pack
    rw [dif_pos rep_zero, subnormal_iff]
    simp

theorem sqrt_flushed (a : Fl F) (ha : ¬ a.Subnormal) : ¬ (e.sqrt a).Subnormal := by
  unfold sqrt
  rw [seen_not_subnormal ha]
  match a with
  | .nan => exact fun h => h.1
  | .inf s => unfold sqrtBy; dsimp only; split <;> exact fun h => h.1
  | .fin s N hN =>
    unfold sqrtBy
    dsimp only
    split
    · next h0 => rw [subnormal_iff]; exact fun h => h.1 h0
    · next h0 =>
      split
      · exact fun h => h.1
      · exact packBy_not_subnormal ((roundSqrtBy_spec (F := F) _ (N * F.unit)).normal (Fl.sqrt_normal h0))

/-- Tiny before rounding: zero. -/
theorem before_zero (hf : e.ftz = some .before) (ha : a.Finite) (hb : b.Finite) :
    (|e.val a + e.val b| < F.minNormal → (e.add a b).val = 0) ∧ (|e.val a * e.val b| < F.minNormal → (e.mul a b).val = 0) ∧
      (e.val b ≠ 0 → |e.val a / e.val b| < F.minNormal → (e.div a b).val = 0) := by
  have hu := unit_posR F
  rw [← finite_seen e] at ha hb
  unfold FpEnv.val add mul div
  match ha' : e.seen a, hb' : e.seen b, ha, hb with
  | .fin s M hM, .fin t N hN, _, _ =>
    refine ⟨fun h => ?_, fun h => ?_, fun h0 h => ?_⟩
    · dsimp only
      rw [if_pos (by rw [hf]; rfl)]
      unfold addBy roundIntBy
      dsimp only
      set z := signed s M + signed t N with hz
      have hv : |(Fl.fin s M hM).val + (Fl.fin t N hN).val| = (z.natAbs : ℝ) / F.unit := by
        unfold Fl.val
        rw [← add_div, ← Int.cast_add, ← hz, abs_div, abs_of_pos hu, Nat.cast_natAbs, Int.cast_abs]
      rw [hv, lt_minNormal] at h
      split
      · unfold pack
        rw [dif_pos rep_zero, flush_fin]
        split
        · exact val_nought _
        · rw [val_fin]; simp
      · have hs := roundQuotBy_spec (F := F) (e.mode.how (decide (z < 0))) (a := z.natAbs) (b := 1) (by omega)
        rw [Nat.cast_one, div_one] at hs
        have hp := F.hp
        have hg : F.Grid z.natAbs := grid_of_le (h.le.trans (Nat.pow_le_pow_right (by norm_num) (by omega)))
        rw [hs.exact rfl hg]
        have hr : F.Rep z.natAbs := by
          refine ⟨h.trans_le ?_, hg⟩
          unfold Fmt.bound
          exact Nat.pow_le_pow_right (by norm_num) (by omega)
        rw [packBy_rep hr, flush_fin, if_pos h]
        exact val_nought _
    · dsimp only
      rw [abs_mul, abs_val_fin, abs_val_fin] at h
      rw [if_pos]
      · exact val_nought _
      · unfold tiny
        rw [hf]
        dsimp only
        rw [decide_eq_true_eq]
        have h' : ((M * N : Nat) : ℝ) / F.unit < 2 ^ (F.p - 1) := by
          rw [← not_le, ← mag_units, not_le]
          refine lt_of_le_of_lt (le_of_eq ?_) h
          push_cast
          field_simp
        rw [div_lt_iff₀ hu] at h'
        exact_mod_cast h'
    · dsimp only
      rw [← abs_pos, abs_val_fin, div_pos_iff_of_pos_right hu] at h0
      rw [abs_div, abs_val_fin, abs_val_fin] at h
      have hN0 : 0 < N := by exact_mod_cast h0
      rw [if_pos]
      · exact val_nought _
      · refine ⟨hN0.ne', ?_⟩
        unfold tiny
        rw [hf]
        dsimp only
        rw [decide_eq_true_eq]
        have h' : ((M * F.unit : Nat) : ℝ) / N < 2 ^ (F.p - 1) := by
          rw [← not_le, ← mag_units, not_le]
          refine lt_of_le_of_lt (le_of_eq ?_) h
          push_cast
          field_simp
        rw [div_lt_iff₀ h0] at h'
        exact_mod_cast h'

/-- Which results are flushed. -/
theorem tiny_iff {t : Tiny} (hf : e.ftz = some t) (h : How) {a b : Nat} (hb : 0 < b) {x : ℝ} (hx : x = (a : ℝ) / b / F.unit) :
    e.tiny F h a b = true ↔ Below t h F x := by
  have hp := F.hp
  have hu := unit_posR F
  have hbR : (0 : ℝ) < b := by exact_mod_cast hb
  have hs := roundQuotBy_spec (F := F) h (a := 2 * a) (b := b) hb
  set X := (a : ℝ) / b with hX
  have e2 : ((2 * a : Nat) : ℝ) / b = 2 * X := by rw [hX]; push_cast; ring
  rw [e2] at hs
  have h2R : (2 : ℝ) ^ F.p = 2 * 2 ^ (F.p - 1) := by rw [← pow_succ']; congr 1; omega
  have h1 : 1 ≤ 2 ^ F.p := Nat.one_le_two_pow
  have g1 : F.Grid (2 ^ F.p - 1) := grid_of_le (by omega)
  have g2 : F.Grid (2 ^ F.p) := grid_of_le le_rfl
  have c1 : ((2 ^ F.p - 1 : Nat) : ℝ) = 2 ^ F.p - 1 := by rw [Nat.cast_sub h1]; push_cast; rfl
  have c2 : ((2 ^ F.p : Nat) : ℝ) = 2 ^ F.p := by push_cast; rfl
  have lt0 : x < F.minNormal ↔ 2 * X < 2 ^ F.p := by
    rw [hx]; unfold Fmt.minNormal
    rw [div_lt_div_iff_of_pos_right hu, h2R]
    constructor <;> intro h <;> linarith
  have m1 : F.minNormal * (1 - 1 / 2 ^ F.p) = (2 ^ F.p - 1) / 2 / F.unit := by
    unfold Fmt.minNormal; rw [h2R]; field_simp
  have m2 : F.minNormal * (1 - 1 / 2 ^ (F.p + 1)) = (2 ^ F.p - 1 / 2) / 2 / F.unit := by
    unfold Fmt.minNormal; rw [pow_succ, h2R]; field_simp
  unfold tiny Below
  rw [hf]
  cases t with
  | before =>
    dsimp only
    rw [decide_eq_true_eq, lt0, h2R, hX]
    have : 2 * ((a : ℝ) / b) < 2 * 2 ^ (F.p - 1) ↔ (a : ℝ) < 2 ^ (F.p - 1) * b := by
      rw [← div_lt_iff₀ hbR]
      constructor <;> intro h <;> linarith
    rw [this]
    exact_mod_cast Iff.rfl
  | after =>
    obtain ⟨-, hs⟩ := hs
    set K := roundQuotBy h F (2 * a) b
    cases h with
    | trunc =>
      dsimp only
      rw [decide_eq_true_eq, lt0]
      constructor
      · intro h
        by_contra h3
        rw [not_lt, ← c2] at h3
        exact absurd (hs.2 _ g2 h3) (by omega)
      · intro h
        have := hs.1.trans_lt h
        exact_mod_cast this
    | away =>
      dsimp only
      rw [decide_eq_true_eq, m1, hx, div_le_div_iff_of_pos_right hu]
      constructor
      · intro h
        have h3 : (K : ℝ) ≤ ((2 ^ F.p - 1 : Nat) : ℝ) := by exact_mod_cast (by omega : K ≤ 2 ^ F.p - 1)
        have := hs.1
        rw [c1] at h3
        linarith
      · intro h
        have := hs.2 _ g1 (by rw [c1]; linarith)
        omega
    | near =>
      dsimp only
      rw [decide_eq_true_eq, m2, hx, div_lt_div_iff_of_pos_right hu]
      constructor
      · intro h
        by_contra h3
        rw [not_lt] at h3
        have h4 : (K : ℝ) ≤ 2 ^ F.p - 1 := by
          rw [← c1]; exact_mod_cast (by omega : K ≤ 2 ^ F.p - 1)
        have h5 := hs.nearest _ g2
        rw [c2, abs_sub_comm, abs_of_nonneg (by linarith : (0 : ℝ) ≤ 2 * X - K)] at h5
        have h6 : 2 * X < 2 ^ F.p := by
          by_contra h6
          rw [not_lt] at h6
          rw [abs_sub_comm, abs_of_nonneg (by linarith)] at h5
          linarith
        rw [abs_of_nonneg (by linarith)] at h5
        have h7 : (K : ℝ) = 2 ^ F.p - 1 := by linarith
        have h8 : 2 * X = 2 ^ F.p - 1 / 2 := by linarith
        have h9 : K = 2 ^ F.p - 1 := by rw [← c1] at h7; exact_mod_cast h7
        have h10 := hs.even _ g2 (by
          rw [c2, h7, h8, abs_sub_comm (_ - 1), abs_of_nonneg (by linarith), abs_of_nonneg (by linarith)]; ring) (by omega)
        have h11 : F.ulpExp K = 0 := by
          unfold Fmt.ulpExp
          have : K ≠ 0 := by
            have : 2 ^ 2 ≤ 2 ^ F.p := Nat.pow_le_pow_right (by norm_num) hp
            omega
          have := (Nat.log2_lt this).mpr (by omega : K < 2 ^ F.p)
          omega
        unfold Fmt.significand at h10
        rw [h11, pow_zero, Nat.div_one, h9] at h10
        have : 2 ^ F.p = 2 * 2 ^ (F.p - 1) := by rw [← pow_succ']; congr 1; omega
        rw [this] at h10
        obtain ⟨k, hk⟩ := h10
        have : 1 ≤ 2 ^ (F.p - 1) := Nat.one_le_two_pow
        omega
      · intro h
        by_contra h3
        rw [not_lt] at h3
        have h4 : (2 : ℝ) ^ F.p ≤ K := by exact_mod_cast h3
        have h5 := hs.nearest _ g1
        rw [c1, abs_of_nonneg (by linarith)] at h5
        rcases le_total (2 * X) (2 ^ F.p - 1) with h6 | h6
        · rw [abs_of_nonneg (by linarith)] at h5
          linarith
        · rw [abs_sub_comm, abs_of_nonneg (by linarith)] at h5
          linarith

/-- Products with FTZ. -/
theorem mul_exactly {t : Tiny} (hf : e.ftz = some t) (ha : a.Finite) (hb : b.Finite) :
    (Below t (e.mode.how (a.signBit ^^ b.signBit)) F |e.val a * e.val b| → e.mul a b = nought (a.signBit ^^ b.signBit)) ∧
    (¬ Below t (e.mode.how (a.signBit ^^ b.signBit)) F |e.val a * e.val b| → e.mul a b = mulBy e.mode (e.seen a) (e.seen b)) := by
  have hu := unit_posR F
  rw [← signBit_seen e a, ← signBit_seen e b]
  rw [← finite_seen e] at ha hb
  unfold mul FpEnv.val
  match e.seen a, e.seen b, ha, hb with
  | .fin s M hM, .fin t' N hN, _, _ =>
    dsimp only [signBit]
    rw [← tiny_iff hf (e.mode.how (s ^^ t')) (unit_pos F) (a := M * N) (by
      rw [abs_mul, abs_val_fin, abs_val_fin]; push_cast; field_simp)]
    exact ⟨fun h => if_pos h, fun h => if_neg h⟩

/-- Quotients with FTZ. -/
theorem div_exactly {t : Tiny} (hf : e.ftz = some t) (ha : a.Finite) (hb : b.Finite) (h0 : e.val b ≠ 0) :
    (Below t (e.mode.how (a.signBit ^^ b.signBit)) F |e.val a / e.val b| → e.div a b = nought (a.signBit ^^ b.signBit)) ∧
    (¬ Below t (e.mode.how (a.signBit ^^ b.signBit)) F |e.val a / e.val b| → e.div a b = divBy e.mode (e.seen a) (e.seen b)) := by
  have hu := unit_posR F
  rw [← signBit_seen e a, ← signBit_seen e b]
  rw [← finite_seen e] at ha hb
  unfold FpEnv.val at h0
  unfold div FpEnv.val
  match ea : e.seen a, eb : e.seen b, ha, hb with
  | .fin s M hM, .fin t' N hN, _, _ =>
    rw [eb, ← abs_pos, abs_val_fin, div_pos_iff_of_pos_right hu] at h0
    have hN0 : 0 < N := by exact_mod_cast h0
    dsimp only [signBit]
    rw [← tiny_iff hf (e.mode.how (s ^^ t')) hN0 (a := M * F.unit) (by
      rw [abs_div, abs_val_fin, abs_val_fin]; push_cast; field_simp)]
    exact ⟨fun h => if_pos ⟨hN0.ne', h⟩, fun h => if_neg fun h' => h h'.2⟩

end FpEnv

end MatrixLibs
