import Verif.Spec.Env
import Verif.Proof.Mode
import Verif.Proof.Scale
import Verif.Proof.StandardLu
import Verif.Proof.FloatElim
import Mathlib.Algebra.Order.Floor.Semiring

/-!
# Arithmetic in a floating point environment satisfies the standard model
-/

namespace MatrixLibs

set_option linter.unusedSectionVars false

namespace Fl
variable {F : Fmt}

/-! ## Errors of magnitudes -/

/-- Relative error. -/
noncomputable def How.u (h : How) (F : Fmt) : ℝ := if h = .near then F.u else 2 * F.u

/-- Absolute error, in units. -/
noncomputable def How.e (h : How) : ℝ := if h = .near then 1 / 2 else 1

variable {h : How} {X : ℝ} {N : Nat}

/-- Directed rounding returns one of the two neighbours. -/
theorem HowSpec.neighbours (hs : HowSpec F h X N) (hX : 0 ≤ X) (hh : h ≠ .near) :
    ∃ k n : Nat, (n : ℝ) * 2 ^ k ≤ X ∧ X < (n + 1) * 2 ^ k ∧ (n : ℝ) * 2 ^ k ≤ N ∧ (N : ℝ) ≤ (n + 1) * 2 ^ k ∧
      (X = n * 2 ^ k → (N : ℝ) = X) ∧ ((k = 0 ∧ n = ⌊X⌋₊) ∨ 2 ^ (F.p - 1) ≤ n) := by
  have hp := F.hp
  set fl := ⌊X⌋₊ with hfl
  set k := F.ulpExp fl with hk
  set n := fl / 2 ^ k with hn
  have hlt : n < 2 ^ F.p := by
    rw [hn, Nat.div_lt_iff_lt_mul (by positivity), ← pow_add]
    refine (log2_lt fl).trans_le (Nat.pow_le_pow_right (by norm_num) ?_)
    rw [hk]; unfold Fmt.ulpExp; omega
  have g1 : F.Grid (n * 2 ^ k) := grid_mul (by omega)
  have g2 : F.Grid ((n + 1) * 2 ^ k) := grid_mul (by omega)
  have h1 : n * 2 ^ k ≤ fl := Nat.div_mul_le_self _ _
  have h2 : fl + 1 ≤ (n + 1) * 2 ^ k := by
    have := Nat.lt_div_mul_add (a := fl) (b := 2 ^ k) (by positivity)
    rw [add_mul, one_mul]
    exact this
  have h1' : (n : ℝ) * 2 ^ k ≤ X := by
    have a : ((n * 2 ^ k : Nat) : ℝ) ≤ fl := by exact_mod_cast h1
    have b : (fl : ℝ) ≤ X := Nat.floor_le hX
    push_cast at a
    linarith
  have h2' : X < (n + 1) * 2 ^ k := by
    have a : ((fl + 1 : Nat) : ℝ) ≤ ((n + 1) * 2 ^ k : Nat) := by exact_mod_cast h2
    have b : X < fl + 1 := Nat.lt_floor_add_one X
    push_cast at a
    linarith
  refine ⟨k, n, h1', h2', ?_, ?_, ?_, ?_⟩
  · obtain ⟨hg, hs⟩ := hs
    cases h with
    | near => exact absurd rfl hh
    | trunc => exact_mod_cast hs.2 _ g1 (by push_cast; exact h1')
    | away => exact h1'.trans hs.1
  · obtain ⟨hg, hs⟩ := hs
    cases h with
    | near => exact absurd rfl hh
    | trunc => exact hs.1.trans h2'.le
    | away => exact_mod_cast hs.2 _ g2 (by push_cast; exact h2'.le)
  · intro e
    obtain ⟨hg, hs⟩ := hs
    have e' : X = ((n * 2 ^ k : Nat) : ℝ) := by push_cast; exact e
    cases h with
    | near => exact absurd rfl hh
    | trunc =>
      refine le_antisymm hs.1 ?_
      rw [e']
      exact_mod_cast hs.2 _ g1 (by rw [e'])
    | away =>
      refine le_antisymm ?_ hs.1
      rw [e']
      exact_mod_cast hs.2 _ g1 (by rw [e'])
  · rcases Nat.eq_zero_or_pos k with h0 | h0
    · left
      refine ⟨h0, ?_⟩
      rw [hn, h0, pow_zero, Nat.div_one]
    · right
      have hf : fl ≠ 0 := by
        intro h
        rw [h] at hk
        unfold Fmt.ulpExp at hk
        simp at hk
        omega
      rw [hn, Nat.le_div_iff_mul_le (by positivity), ← pow_add]
      refine le_trans (Nat.pow_le_pow_right (by norm_num) ?_) (log2_le hf)
      rw [hk] at h0 ⊢
      unfold Fmt.ulpExp at h0 ⊢
      omega

theorem two_u_pow (F : Fmt) : 2 * F.u * 2 ^ (F.p - 1) = 1 := by
  have hp := F.hp
  unfold Fmt.u
  have : (2 : ℝ) ^ F.p = 2 * 2 ^ (F.p - 1) := by rw [← pow_succ']; congr 1; omega
  rw [this]
  field_simp

theorem ulp_le {k n : Nat} (hn : 2 ^ (F.p - 1) ≤ n) : (2 : ℝ) ^ k ≤ 2 * F.u * (n * 2 ^ k) := by
  have h1 : ((2 ^ (F.p - 1) : Nat) : ℝ) ≤ n := by exact_mod_cast hn
  push_cast at h1
  have hu := u_nonneg F
  have := two_u_pow F
  have h2 : 2 * F.u * 2 ^ (F.p - 1) ≤ 2 * F.u * n := mul_le_mul_of_nonneg_left h1 (by linarith)
  calc (2 : ℝ) ^ k = 1 * 2 ^ k := (one_mul _).symm
    _ ≤ 2 * F.u * n * 2 ^ k := mul_le_mul_of_nonneg_right (by linarith) (by positivity)
    _ = _ := by ring

theorem HowSpec.err_cases (hs : HowSpec F h X N) (hX : 0 ≤ X) (hh : h ≠ .near)
    (hw : (∃ n : Nat, X = n) ∨ 2 ^ (F.p - 1) ≤ X) : |(N : ℝ) - X| ≤ 2 * F.u * X ∧ |(N : ℝ) - X| ≤ 2 * F.u * N := by
  have hu := u_nonneg F
  obtain ⟨k, n, h1, h2, h3, h4, h5, h6⟩ := hs.neighbours hX hh
  have hd : |(N : ℝ) - X| ≤ 2 ^ k := by
    rw [abs_le]
    constructor <;> linarith
  have fin (hn : 2 ^ (F.p - 1) ≤ n) : |(N : ℝ) - X| ≤ 2 * F.u * X ∧ |(N : ℝ) - X| ≤ 2 * F.u * N := by
    have h7 := hd.trans (ulp_le (F := F) (k := k) hn)
    exact ⟨h7.trans (mul_le_mul_of_nonneg_left h1 (by linarith)), h7.trans (mul_le_mul_of_nonneg_left h3 (by linarith))⟩
  rcases h6 with ⟨rfl, hn⟩ | hn
  · rcases hw with ⟨q, rfl⟩ | hw
    · have e : (N : ℝ) = q := h5 (by rw [hn]; simp)
      rw [e, sub_self, abs_zero]
      exact ⟨by positivity, by positivity⟩
    · refine fin ?_
      rw [hn]
      refine Nat.le_floor ?_
      push_cast
      exact hw
  · exact fin hn

theorem HowSpec.err_any (hs : HowSpec F h X N) (hX : 0 ≤ X) (hh : h ≠ .near) :
    |(N : ℝ) - X| ≤ 2 * F.u * X + 1 ∧ |(N : ℝ) - X| ≤ 2 * F.u * N + 1 := by
  have hu := u_nonneg F
  obtain ⟨k, n, h1, h2, h3, h4, h5, h6⟩ := hs.neighbours hX hh
  have hd : |(N : ℝ) - X| ≤ 2 ^ k := by
    rw [abs_le]
    constructor <;> linarith
  rcases h6 with ⟨rfl, -⟩ | hn
  · rw [pow_zero] at hd
    have a : 0 ≤ 2 * F.u * X := by positivity
    have b : 0 ≤ 2 * F.u * (N : ℝ) := by positivity
    constructor <;> linarith
  · have h7 := hd.trans (ulp_le (F := F) (k := k) hn)
    have a := h7.trans (mul_le_mul_of_nonneg_left h1 (by linarith))
    have b := h7.trans (mul_le_mul_of_nonneg_left h3 (by linarith))
    constructor <;> linarith

/-- Normal numbers stay normal. -/
theorem HowSpec.normal (hs : HowSpec F h X N) (hX : 2 ^ (F.p - 1) ≤ X) : 2 ^ (F.p - 1) ≤ N := by
  have hp := F.hp
  have g : F.Grid (2 ^ (F.p - 1)) := grid_of_le (Nat.pow_le_pow_right (by norm_num) (by omega))
  obtain ⟨hg, hs⟩ := hs
  cases h with
  | near => exact (Nearest.self g).mono hs (by push_cast; exact hX)
  | trunc => exact hs.2 _ g (by push_cast; exact hX)
  | away =>
    have : ((2 ^ (F.p - 1) : Nat) : ℝ) ≤ N := by push_cast; exact hX.trans hs.1
    exact_mod_cast this

theorem HowSpec.err (hs : HowSpec F h X N) (hX : 0 ≤ X) :
    |(N : ℝ) - X| ≤ How.u h F * X + How.e h ∧ |(N : ℝ) - X| ≤ How.u h F * N + How.e h := by
  unfold How.u How.e
  split
  · next e =>
    subst e
    have hu := u_nonneg F
    have a : 0 ≤ F.u * X := by positivity
    have b : 0 ≤ F.u * (N : ℝ) := by positivity
    constructor
    · rcases hs.2.err hX with h | h <;> linarith
    · rcases hs.2.err_res hX with h | ⟨-, h⟩ <;> linarith
  · next e => exact hs.err_any hX e

theorem HowSpec.err_whole (hs : HowSpec F h X N) (n : Nat) (hn : X = n) :
    |(N : ℝ) - X| ≤ How.u h F * X ∧ |(N : ℝ) - X| ≤ How.u h F * N := by
  unfold How.u
  split
  · next e =>
    subst e
    subst hn
    have := hs.2.err_nat
    exact ⟨by linarith, hs.2.err_res_nat⟩
  · next e => exact hs.err_cases (by rw [hn]; positivity) e (.inl ⟨n, hn⟩)

theorem HowSpec.err_normal (hs : HowSpec F h X N) (hX : 2 ^ (F.p - 1) ≤ X) :
    |(N : ℝ) - X| ≤ How.u h F * N := by
  have hX0 : 0 ≤ X := le_trans (by positivity) hX
  unfold How.u
  split
  · next e =>
    subst e
    rcases hs.2.err_res hX0 with h | ⟨-, h⟩
    · exact h
    · refine h.trans ?_
      have h1 : ((2 ^ (F.p - 1) : Nat) : ℝ) ≤ N := by exact_mod_cast hs.normal hX
      push_cast at h1
      have := two_u_pow F
      have := mul_le_mul_of_nonneg_left h1 (u_nonneg F)
      linarith
  · next e => exact (hs.err_cases hX0 e (.inr hX)).2

/-- Numbers of the format are not changed. -/
theorem HowSpec.exact {n : Nat} (hs : HowSpec F h X N) (hn : X = n) (hg : F.Grid n) : N = n := by
  subst hn
  obtain ⟨-, hs⟩ := hs
  cases h with
  | near => exact hs.of_grid hg
  | trunc =>
    have a : (N : ℝ) ≤ n := hs.1
    exact le_antisymm (by exact_mod_cast a) (hs.2 _ hg le_rfl)
  | away =>
    have a : (n : ℝ) ≤ N := hs.1
    exact le_antisymm (hs.2 _ hg le_rfl) (by exact_mod_cast a)

theorem flush_fin (s : Bool) (N : Nat) (h : F.Rep N) :
    (Fl.fin s N h : Fl F).flush = if N < 2 ^ (F.p - 1) then nought s else .fin s N h := rfl

theorem val_nought (s : Bool) : (nought s : Fl F).val = 0 := by
  unfold nought
  rw [val_fin]; simp

theorem finite_flush {a : Fl F} : a.flush.Finite ↔ a.Finite := by
  cases a with
  | nan => rfl
  | inf s => rfl
  | fin s N h => rw [flush_fin]; split <;> simp [Finite, nought]

theorem flush_neg (a : Fl F) : a.neg.flush = a.flush.neg := by
  cases a with
  | nan => rfl
  | inf s => rfl
  | fin s N h => unfold neg; dsimp only; rw [flush_fin, flush_fin]; split <;> rfl

end Fl

open Fl

namespace FpEnv
variable {F : Fmt} (e : FpEnv)

theorem finite_seen {a : Fl F} : (e.seen a).Finite ↔ a.Finite := by
  unfold seen
  split
  · exact finite_flush
  · rfl

theorem seen_neg (a : Fl F) : e.seen a.neg = (e.seen a).neg := by
  unfold seen
  split
  · exact flush_neg a
  · rfl

theorem val_neg (a : Fl F) : e.val a.neg = -e.val a := by
  unfold val
  rw [seen_neg, neg_val]

theorem minNormal_pos (F : Fmt) : 0 < F.minNormal := by
  have := unit_posR F
  unfold Fmt.minNormal
  positivity

/-- Absolute error of products and quotients. -/
noncomputable def e' (F : Fmt) : ℝ :=
  if e.flushes then F.minNormal else if e.mode = .nearest then F.eta else 2 * F.eta

/-- Absolute error of sums. -/
noncomputable def d' (F : Fmt) : ℝ := if e.flushes then F.minNormal else 0

theorem e'_nonneg : 0 ≤ e.e' F := by
  have := (minNormal_pos F).le
  have := eta_nonneg F
  unfold e'
  split
  · assumption
  · split <;> positivity

theorem d'_nonneg : 0 ≤ e.d' F := by
  have := (minNormal_pos F).le
  unfold d'
  split
  · assumption
  · exact le_rfl

theorem eta_eq : e.e' F + e.d' F = e.eta F := by
  unfold e' d' eta
  split
  · ring
  · rw [add_zero]

theorem u_nonneg : 0 ≤ e.u F := by
  have := Fl.u_nonneg F
  unfold u
  split <;> positivity

theorem u_lt_one : e.u F < 1 := by
  have hp := F.hp
  have h0 := Fl.u_nonneg F
  have h1 := two_u_pow F
  have h2 : (2 : ℝ) ≤ 2 ^ (F.p - 1) := by
    calc (2 : ℝ) = 2 ^ 1 := by norm_num
      _ ≤ 2 ^ (F.p - 1) := pow_le_pow_right₀ (by norm_num) (by omega)
  have h3 : 2 * F.u * 2 ≤ 1 := by rw [← h1]; exact mul_le_mul_of_nonneg_left h2 (by linarith)
  unfold u
  split <;> linarith

theorem how_u (b : Bool) : How.u (e.mode.how b) F = e.u F := by
  unfold How.u u
  rcases e with ⟨m, _, _⟩
  cases m <;> cases b <;> simp [RMode.how]

theorem how_e (b : Bool) : How.e (e.mode.how b) / F.unit ≤ e.e' F := by
  have hu := unit_posR F
  have hp := F.hp
  have h1 : (1 : ℝ) / F.unit ≤ F.minNormal := by
    unfold Fmt.minNormal
    gcongr
    exact one_le_pow₀ (by norm_num)
  have h2 : (1 : ℝ) / 2 / F.unit ≤ 1 / F.unit := by gcongr; norm_num
  have h3 : F.eta = 1 / 2 / F.unit := by unfold Fmt.eta; field_simp
  have h4 : 2 * F.eta = 1 / F.unit := by unfold Fmt.eta; field_simp
  unfold How.e e'
  rcases e with ⟨m, dz, fz⟩
  cases m <;> cases b <;> simp only [RMode.how, if_true, Bool.false_eq_true, if_false, reduceCtorEq] <;> split <;> linarith

/-- How a result comes about: the rounded magnitude, or zero if that is flushed. -/
def Outcome (e : FpEnv) (s : Bool) (X : ℝ) (N : Nat) (a : Fl F) : Prop :=
  (∃ hN, a = .fin s N hN) ∨ (e.flushes = true ∧ X < 2 ^ (F.p - 1) ∧ a = nought s)

variable {e}
variable {s b : Bool} {X x : ℝ} {N : Nat} {a : Fl F}

theorem Outcome.val (ho : e.Outcome s X N a) (hs : HowSpec F (e.mode.how b) X N) :
    e.val a = sgn s * (N / F.unit) ∨ (e.flushes = true ∧ X < 2 ^ (F.p - 1) ∧ e.val a = 0) := by
  rcases ho with ⟨hN, rfl⟩ | ⟨h1, h2, rfl⟩
  · unfold FpEnv.val seen
    split
    · next hd =>
      rw [flush_fin]
      split
      · next hlt =>
        right
        refine ⟨by unfold flushes; rw [hd]; rfl, ?_, val_nought _⟩
        by_contra hle
        exact absurd (hs.normal (not_lt.mp hle)) (by omega)
      · left; exact val_fin _ _ _
    · left; exact val_fin _ _ _
  · right
    refine ⟨h1, h2, ?_⟩
    unfold FpEnv.val seen
    split
    · unfold nought
      rw [flush_fin]
      split
      · exact val_nought _
      · rw [val_fin]; simp
    · exact val_nought _

theorem abs_sgn_sub (s : Bool) (a b : ℝ) (F : Fmt) : |sgn s * (a / F.unit) - sgn s * (b / F.unit)| = |a - b| / F.unit := by
  have hu := unit_posR F
  rw [← mul_sub, abs_mul, abs_sgn, one_mul, ← sub_div, abs_div, abs_of_pos hu]

theorem abs_sgn_div (s : Bool) {a : ℝ} (ha : 0 ≤ a) (F : Fmt) : |sgn s * (a / F.unit)| = a / F.unit := by
  have hu := unit_posR F
  rw [abs_mul, abs_sgn, one_mul, abs_of_nonneg (by positivity)]

theorem flushed_le (hf : e.flushes = true) (hX : 0 ≤ X) (h : X < 2 ^ (F.p - 1)) :
    |0 - sgn s * (X / F.unit)| ≤ e.e' F ∧ |0 - sgn s * (X / F.unit)| ≤ e.d' F := by
  have hu := unit_posR F
  rw [zero_sub, abs_neg, abs_sgn_div s hX]
  unfold e' d'
  rw [if_pos hf, if_pos hf]
  unfold Fmt.minNormal
  constructor <;> gcongr

theorem Outcome.near (ho : e.Outcome s X N a) (hs : HowSpec F (e.mode.how b) X N) (hX : 0 ≤ X) (hx : x = sgn s * (X / F.unit)) :
    Near (e.u F) (e.e' F) x (e.val a) := by
  have hu := unit_posR F
  have hu0 := e.u_nonneg (F := F)
  subst hx
  rcases ho.val hs with h | ⟨h1, h2, h3⟩
  · have he := e.how_e (F := F) b
    have hh := hs.err hX
    rw [how_u] at hh
    rw [h]
    refine ⟨?_, ?_⟩
    · rw [abs_sgn_sub, abs_sgn_div s hX]
      have := div_le_div_of_nonneg_right hh.1 hu.le
      rw [add_div, mul_div_assoc] at this
      linarith
    · rw [abs_sgn_sub, abs_sgn_div s (Nat.cast_nonneg N)]
      have := div_le_div_of_nonneg_right hh.2 hu.le
      rw [add_div, mul_div_assoc] at this
      linarith
  · rw [h3]
    have := (flushed_le (s := s) h1 hX h2).1
    refine ⟨?_, ?_⟩
    · have : 0 ≤ e.u F * |sgn s * (X / F.unit)| := mul_nonneg hu0 (abs_nonneg _)
      linarith
    · rw [abs_zero, mul_zero, zero_add]; exact this

theorem Outcome.near_whole (ho : e.Outcome s X N a) (hs : HowSpec F (e.mode.how b) X N) (n : Nat) (hX : X = n)
    (hx : x = sgn s * (X / F.unit)) : Near (e.u F) (e.d' F) x (e.val a) := by
  have hu := unit_posR F
  have hu0 := e.u_nonneg (F := F)
  have hd0 := e.d'_nonneg (F := F)
  have hX0 : 0 ≤ X := by rw [hX]; positivity
  subst hx
  rcases ho.val hs with h | ⟨h1, h2, h3⟩
  · have hh := hs.err_whole n hX
    rw [how_u] at hh
    rw [h]
    refine ⟨?_, ?_⟩
    · rw [abs_sgn_sub, abs_sgn_div s hX0]
      have := div_le_div_of_nonneg_right hh.1 hu.le
      rw [mul_div_assoc] at this
      linarith
    · rw [abs_sgn_sub, abs_sgn_div s (Nat.cast_nonneg N)]
      have := div_le_div_of_nonneg_right hh.2 hu.le
      rw [mul_div_assoc] at this
      linarith
  · rw [h3]
    have := (flushed_le (s := s) h1 hX0 h2).2
    refine ⟨?_, ?_⟩
    · have : 0 ≤ e.u F * |sgn s * (X / F.unit)| := mul_nonneg hu0 (abs_nonneg _)
      linarith
    · rw [abs_zero, mul_zero, zero_add]; exact this

/-! ## Operations -/

theorem signed_real (s : Bool) (N : Nat) : (signed s N : ℝ) = sgn s * N := by
  cases s <;> simp [signed, sgn]

theorem packBy_rep {h : How} {s : Bool} (hN : F.Rep N) : (packBy h s N : Fl F) = .fin s N hN := by
  unfold packBy
  rw [dif_pos hN]

/-- What the sum is. -/
theorem add_outcome {a b : Fl F} (h : e.AddOk a b) : ∃ s t M N z K, (∃ hM hN, e.seen a = .fin s M hM ∧ e.seen b = .fin t N hN) ∧
    z = signed s M + signed t N ∧ HowSpec F (e.mode.how (decide (z < 0))) (z.natAbs : ℝ) K ∧
    ∃ s', ((z : ℝ) = sgn s' * (z.natAbs : ℝ)) ∧ e.Outcome s' (z.natAbs : ℝ) K (e.add a b) := by
  unfold AddOk at h
  unfold add
  match ha : e.seen a, hb : e.seen b with
  | .fin s M hM, .fin t N hN =>
    rw [ha, hb] at h
    dsimp only at h
    set z := signed s M + signed t N with hz
    refine ⟨s, t, M, N, z, roundQuotBy (e.mode.how (decide (z < 0))) F z.natAbs 1, ⟨hM, hN, rfl, rfl⟩, hz, ?_, ?_⟩
    · have := roundQuotBy_spec (F := F) (e.mode.how (decide (z < 0))) (a := z.natAbs) (b := 1) (by omega)
      rwa [Nat.cast_one, div_one] at this
    · have hspec := roundQuotBy_spec (F := F) (e.mode.how (decide (z < 0))) (a := z.natAbs) (b := 1) (by omega)
      rw [Nat.cast_one, div_one] at hspec
      obtain ⟨s', hs', hr⟩ : ∃ s', ((z : ℝ) = sgn s' * (z.natAbs : ℝ)) ∧
          ∃ hK, addBy e.mode (.fin s M hM) (.fin t N hN) =
            (.fin s' (roundQuotBy (e.mode.how (decide (z < 0))) F z.natAbs 1) hK : Fl F) := by
        unfold addBy
        dsimp only
        rw [← hz]
        unfold roundIntBy
        by_cases h0 : z = 0
        · refine ⟨if e.mode = .down then s || t else s && t, ?_, ?_, ?_⟩
          · rw [h0]; simp
          · exact h
          · rw [if_pos h0]
            have e0 : roundQuotBy (e.mode.how (decide (z < 0))) F z.natAbs 1 = 0 := by
              rw [h0] at hspec ⊢
              simp only [Int.natAbs_zero, Nat.cast_zero] at hspec
              exact howSpec_zero hspec
            unfold pack
            rw [dif_pos rep_zero]
            congr 1
            exact e0.symm
        · refine ⟨decide (z < 0), ?_, h, ?_⟩
          · rw [Nat.cast_natAbs, Int.cast_abs]
            by_cases hlt : z < 0
            · have : (z : ℝ) < 0 := by exact_mod_cast hlt
              rw [abs_of_neg this]
              simp [sgn, hlt]
            · have : (0 : ℝ) ≤ z := by exact_mod_cast not_lt.mp hlt
              rw [abs_of_nonneg this]
              simp [sgn, hlt]
          · rw [if_neg h0, packBy_rep h]
      obtain ⟨hK, hr⟩ := hr
      refine ⟨s', hs', ?_⟩
      dsimp only
      rw [hr]
      split
      · next hf =>
        rw [flush_fin]
        split
        · next hlt =>
          right
          refine ⟨by unfold flushes; rw [hf]; simp, ?_, rfl⟩
          by_contra hle
          exact absurd (hspec.normal (not_lt.mp hle)) (by omega)
        · left; exact ⟨hK, rfl⟩
      · left; exact ⟨hK, rfl⟩
  | .nan, _ => rw [ha] at h; exact h.elim
  | .inf _, _ => rw [ha] at h; exact h.elim
  | .fin _ _ _, .nan => rw [ha, hb] at h; exact h.elim
  | .fin _ _ _, .inf _ => rw [ha, hb] at h; exact h.elim

theorem add_near {a b : Fl F} (h : e.AddOk a b) : Near (e.u F) (e.d' F) (e.val a + e.val b) (e.val (e.add a b)) := by
  have hu := unit_posR F
  obtain ⟨s, t, M, N, z, K, ⟨hM, hN, ha, hb⟩, hz, hs, s', hs', ho⟩ := add_outcome h
  refine ho.near_whole hs z.natAbs rfl ?_
  unfold val
  rw [ha, hb, val_fin, val_fin, ← mul_div_assoc (sgn s'), ← hs', hz]
  push_cast
  rw [signed_real, signed_real]
  ring

theorem val_zero' (e : FpEnv) : e.val (nought false : Fl F) = 0 := by
  unfold val seen
  split
  · unfold nought
    rw [flush_fin]
    split
    · exact val_nought _
    · rw [val_fin]; simp
  · exact val_nought _

theorem val_zero (e : FpEnv) : e.val (Fl.ofInt 0 : Fl F) = 0 := by
  rw [show (Fl.ofInt 0 : Fl F) = nought false from ofInt_zero']
  exact val_zero' e

theorem zero_add_near {a : Fl F} (h : e.AddOk (Fl.ofInt 0) a) : |e.val (e.add (Fl.ofInt 0) a) - e.val a| ≤ e.d' F := by
  have hu := unit_posR F
  obtain ⟨s, t, M, N, z, K, ⟨hM, hN, ha, hb⟩, hz, hs, s', hs', ho⟩ := add_outcome h
  have h0 : e.val (Fl.ofInt 0 : Fl F) = 0 := val_zero e
  have hM0 : (M : ℝ) = 0 := by
    unfold val at h0
    rw [ha, val_fin] at h0
    rcases mul_eq_zero.mp h0 with h | h
    · have := abs_sgn s
      rw [h, abs_zero] at this
      exact absurd this (by norm_num)
    · rcases div_eq_zero_iff.mp h with h | h
      · exact h
      · exact absurd h hu.ne'
  have hz' : (z : ℝ) = sgn t * N := by
    rw [hz]
    push_cast
    rw [signed_real, signed_real, hM0]
    ring
  have hzn : z.natAbs = N := by
    have : (z.natAbs : ℝ) = N := by
      rw [Nat.cast_natAbs, Int.cast_abs, hz', abs_mul, abs_sgn, one_mul, Nat.abs_cast]
    exact_mod_cast this
  have hK : K = N := by rw [← hzn]; exact hs.exact rfl (by rw [hzn]; exact hN.2)
  have hva : e.val a = sgn s' * ((z.natAbs : ℝ) / F.unit) := by
    rw [← mul_div_assoc, ← hs', hz']
    unfold val
    rw [hb, val_fin]
    ring
  rw [hva]
  rcases ho.val hs with h | ⟨h1, h2, h3⟩
  · rw [h, hK, hzn, sub_self, abs_zero]
    exact e.d'_nonneg
  · rw [h3]
    exact (flushed_le h1 (Nat.cast_nonneg _) h2).2

theorem sub_near {a b : Fl F} (h : e.AddOk a b.neg) : Near (e.u F) (e.d' F) (e.val a - e.val b) (e.val (e.sub a b)) := by
  have := add_near h
  rwa [val_neg, ← sub_eq_add_neg] at this

theorem tiny_lt {h : How} {a b : Nat} (hb : 0 < b) (ht : e.tiny F h a b = true) :
    e.flushes = true ∧ (a : ℝ) / b < 2 ^ (F.p - 1) := by
  have hbR : (0 : ℝ) < b := by exact_mod_cast hb
  have hp := F.hp
  unfold tiny at ht
  split at ht
  · cases ht
  · next he =>
    refine ⟨by unfold flushes; rw [he]; simp, ?_⟩
    rw [div_lt_iff₀ hbR]
    have := of_decide_eq_true ht
    exact_mod_cast this
  · next he =>
    refine ⟨by unfold flushes; rw [he]; simp, ?_⟩
    have hlt := of_decide_eq_true ht
    by_contra hle
    have hle := not_lt.mp hle
    have hs := roundQuotBy_spec (F := F) h (a := 2 * a) (b := b) hb
    have h2 : (2 : ℝ) ^ F.p = 2 * 2 ^ (F.p - 1) := by rw [← pow_succ']; congr 1; omega
    have hX : ((2 ^ F.p : Nat) : ℝ) ≤ ((2 * a : Nat) : ℝ) / b := by
      push_cast
      rw [h2, mul_div_assoc]
      linarith
    have g : F.Grid (2 ^ F.p) := grid_of_le le_rfl
    have : 2 ^ F.p ≤ roundQuotBy h F (2 * a) b := by
      obtain ⟨-, hs⟩ := hs
      cases h with
      | near => exact (Nearest.self g).mono hs hX
      | trunc => exact hs.2 _ g hX
      | away => exact_mod_cast hX.trans hs.1
    omega

theorem mul_near {a b : Fl F} (h : e.MulOk a b) : Near (e.u F) (e.e' F) (e.val a * e.val b) (e.val (e.mul a b)) := by
  have hu := unit_posR F
  unfold MulOk at h
  match ha : e.seen a, hb : e.seen b with
  | .fin s M hM, .fin t N hN =>
    rw [ha, hb] at h
    dsimp only at h
    have hs := roundQuotBy_spec (F := F) (e.mode.how (s ^^ t)) (a := M * N) (b := F.unit) (unit_pos F)
    refine Outcome.near (s := s ^^ t) ?_ hs (by positivity) ?_
    · unfold mul
      rw [ha, hb]
      dsimp only
      split
      · next ht =>
        obtain ⟨h1, h2⟩ := tiny_lt (unit_pos F) ht
        exact .inr ⟨h1, h2, rfl⟩
      · unfold mulBy
        exact .inl ⟨h, packBy_rep h⟩
    · unfold val
      rw [ha, hb, val_fin, val_fin, sgn_xor]
      push_cast
      ring
  | .nan, _ => rw [ha] at h; exact h.elim
  | .inf _, _ => rw [ha] at h; exact h.elim
  | .fin _ _ _, .nan => rw [ha, hb] at h; exact h.elim
  | .fin _ _ _, .inf _ => rw [ha, hb] at h; exact h.elim

theorem sgn_inv (s : Bool) : (sgn s)⁻¹ = sgn s := by cases s <;> simp [sgn]

theorem div_outcome {a b : Fl F} (h : e.DivOk a b) : ∃ s t M N K, (∃ hM hN, e.seen a = .fin s M hM ∧ e.seen b = .fin t N hN) ∧
    N ≠ 0 ∧ HowSpec F (e.mode.how (s ^^ t)) (((M * F.unit : Nat) : ℝ) / N) K ∧
    e.Outcome (s ^^ t) (((M * F.unit : Nat) : ℝ) / N) K (e.div a b) := by
  unfold DivOk at h
  match ha : e.seen a, hb : e.seen b with
  | .fin s M hM, .fin t N hN =>
    rw [ha, hb] at h
    dsimp only at h
    have hN0 := Nat.pos_of_ne_zero h.1
    have hs := roundQuotBy_spec (F := F) (e.mode.how (s ^^ t)) (a := M * F.unit) (b := N) hN0
    refine ⟨s, t, M, N, _, ⟨hM, hN, rfl, rfl⟩, h.1, hs, ?_⟩
    unfold div
    rw [ha, hb]
    dsimp only
    split
    · next ht =>
      obtain ⟨h1, h2⟩ := tiny_lt hN0 ht.2
      exact .inr ⟨h1, h2, rfl⟩
    · unfold divBy
      dsimp only
      rw [if_neg h.1]
      exact .inl ⟨h.2, packBy_rep h.2⟩
  | .nan, _ => rw [ha] at h; exact h.elim
  | .inf _, _ => rw [ha] at h; exact h.elim
  | .fin _ _ _, .nan => rw [ha, hb] at h; exact h.elim
  | .fin _ _ _, .inf _ => rw [ha, hb] at h; exact h.elim

theorem div_near {a b : Fl F} (h : e.DivOk a b) :
    e.val b ≠ 0 ∧ Near (e.u F) (e.e' F) (e.val a / e.val b) (e.val (e.div a b)) := by
  have hu := unit_posR F
  obtain ⟨s, t, M, N, K, ⟨hM, hN, ha, hb⟩, hN0, hs, ho⟩ := div_outcome h
  have hNR : (N : ℝ) ≠ 0 := by exact_mod_cast hN0
  have hv : e.val b = sgn t * (N / F.unit) := by unfold val; rw [hb, val_fin]
  refine ⟨?_, ho.near hs (by positivity) ?_⟩
  · rw [hv]
    exact mul_ne_zero (sgn_ne t) (div_ne_zero hNR hu.ne')
  · rw [hv, show e.val a = sgn s * (M / F.unit) by unfold val; rw [ha, val_fin], sgn_xor]
    push_cast
    rw [mul_div_mul_comm, div_eq_mul_inv (sgn s), sgn_inv]
    field_simp

theorem unit_normal (F : Fmt) : (2 : ℝ) ^ (F.p - 1) ≤ F.unit := by
  have h1 := F.hp
  have h2 := F.he
  have : 2 ^ (F.p - 1) ≤ F.unit := Nat.pow_le_pow_right (by norm_num) (by omega)
  exact_mod_cast this

theorem val_one (e : FpEnv) : e.val (Fl.ofInt 1 : Fl F) = 1 := by
  obtain ⟨n1, n2⟩ := val_ofInt_exact (F := F) 1 Nat.one_le_two_pow
  rw [Int.cast_one] at n2
  unfold val seen
  split
  · generalize (Fl.ofInt 1 : Fl F) = x at *
    cases x with
    | fin s N h =>
      rw [flush_fin, if_neg, n2]
      intro hN
      have hu := unit_posR F
      have h1 := congrArg (fun x : ℝ => |x|) n2
      rw [val_fin, abs_mul, abs_sgn, one_mul, abs_one, abs_of_nonneg (by positivity), div_eq_one_iff_eq hu.ne'] at h1
      have h2 := unit_normal F
      rw [← h1] at h2
      have h3 : (2 ^ (F.p - 1) : Nat) ≤ N := by exact_mod_cast h2
      omega
    | _ => exact n1.elim
  · exact n2

theorem div_self_one {a : Fl F} (h : e.DivOk a a) : e.val (e.div a a) = 1 := by
  have hu := unit_posR F
  obtain ⟨s, t, M, N, K, ⟨hM, hN, ha, hb⟩, hN0, hs, ho⟩ := div_outcome h
  rw [ha] at hb
  injection hb with e1 e2
  subst e1 e2
  have hMR : (M : ℝ) ≠ 0 := by exact_mod_cast hN0
  have hX : ((M * F.unit : Nat) : ℝ) / M = (F.unit : Nat) := by push_cast; field_simp
  have g : F.Grid F.unit := by
    have : F.Grid (1 * 2 ^ (F.emax + F.p - 2)) := grid_mul (by have := F.hp; exact Nat.one_le_two_pow)
    rw [one_mul] at this
    exact this
  have hK := hs.exact hX g
  rcases ho.val hs with h | ⟨-, h2, -⟩
  · rw [h, hK, Bool.xor_self, div_self hu.ne']
    simp [sgn]
  · rw [hX] at h2
    exact absurd (unit_normal F) (not_le.mpr h2)

/-- How a product comes about. -/
theorem mul_outcome {a b : Fl F} (h : e.MulOk a b) : ∃ s t M N K, (∃ hM hN, e.seen a = .fin s M hM ∧ e.seen b = .fin t N hN) ∧
    HowSpec F (e.mode.how (s ^^ t)) (((M * N : Nat) : ℝ) / F.unit) K ∧
    e.Outcome (s ^^ t) (((M * N : Nat) : ℝ) / F.unit) K (e.mul a b) := by
  unfold MulOk at h
  match ha : e.seen a, hb : e.seen b with
  | .fin s M hM, .fin t N hN =>
    rw [ha, hb] at h
    dsimp only at h
    refine ⟨s, t, M, N, _, ⟨hM, hN, rfl, rfl⟩,
      roundQuotBy_spec (F := F) (e.mode.how (s ^^ t)) (a := M * N) (b := F.unit) (unit_pos F), ?_⟩
    unfold mul
    rw [ha, hb]
    dsimp only
    split
    · next ht =>
      obtain ⟨h1, h2⟩ := tiny_lt (unit_pos F) ht
      exact .inr ⟨h1, h2, rfl⟩
    · unfold mulBy
      exact .inl ⟨h, packBy_rep h⟩
  | .nan, _ => rw [ha] at h; exact h.elim
  | .inf _, _ => rw [ha] at h; exact h.elim
  | .fin _ _ _, .nan => rw [ha, hb] at h; exact h.elim
  | .fin _ _ _, .inf _ => rw [ha, hb] at h; exact h.elim

theorem Outcome.of_zero (ho : e.Outcome s X N a) (hs : HowSpec F (e.mode.how b) X N) (h0 : X = 0) : e.val a = 0 := by
  have hN : N = 0 := hs.exact (n := 0) (by rw [h0]; simp) (grid_of_le (Nat.zero_le _))
  rcases ho.val hs with h | ⟨-, -, h⟩
  · rw [h, hN]; simp
  · exact h

theorem val_eq_zero {a : Fl F} {s : Bool} {N : Nat} {hN} (ha : e.seen a = .fin s N hN) (h : e.val a = 0) : N = 0 := by
  have hu := unit_posR F
  unfold val at h
  rw [ha, val_fin] at h
  have h1 := congrArg (fun x : ℝ => |x|) h
  rw [abs_mul, abs_sgn, one_mul, abs_zero, abs_of_nonneg (by positivity), div_eq_zero_iff] at h1
  rcases h1 with h1 | h1
  · exact_mod_cast h1
  · exact absurd h1 hu.ne'

theorem val_eq_one {a : Fl F} {s : Bool} {N : Nat} {hN} (ha : e.seen a = .fin s N hN) (h : |e.val a| = 1) : N = F.unit := by
  have hu := unit_posR F
  unfold val at h
  rw [ha, val_fin, abs_mul, abs_sgn, one_mul, abs_of_nonneg (by positivity), div_eq_one_iff_eq hu.ne'] at h
  exact_mod_cast h

theorem mul_zero_val {a b : Fl F} (h : e.MulOk a b) (h0 : e.val a = 0 ∨ e.val b = 0) : e.val (e.mul a b) = 0 := by
  obtain ⟨s, t, M, N, K, ⟨hM, hN, ha, hb⟩, hs, ho⟩ := mul_outcome h
  refine ho.of_zero hs ?_
  have : M * N = 0 := by
    rcases h0 with h0 | h0
    · rw [val_eq_zero ha h0, Nat.zero_mul]
    · rw [val_eq_zero hb h0, Nat.mul_zero]
  rw [this]
  simp

theorem zero_div_val {a b : Fl F} (h : e.DivOk a b) (h0 : e.val a = 0) : e.val (e.div a b) = 0 := by
  obtain ⟨s, t, M, N, K, ⟨hM, hN, ha, hb⟩, hN0, hs, ho⟩ := div_outcome h
  refine ho.of_zero hs ?_
  rw [val_eq_zero ha h0]
  simp

theorem mul_sign_val {a b : Fl F} (h : e.MulOk a b) (h1 : |e.val a| = 1) (h2 : |e.val b| = 1) :
    e.val (e.mul a b) = e.val a * e.val b := by
  have hu := unit_posR F
  obtain ⟨s, t, M, N, K, ⟨hM, hN, ha, hb⟩, hs, ho⟩ := mul_outcome h
  have eM := val_eq_one ha h1
  have eN := val_eq_one hb h2
  subst eM eN
  have hX : ((F.unit * F.unit : Nat) : ℝ) / F.unit = (F.unit : Nat) := by push_cast; field_simp
  have g : F.Grid F.unit := by
    have : F.Grid (1 * 2 ^ (F.emax + F.p - 2)) := grid_mul (by have := F.hp; exact Nat.one_le_two_pow)
    rw [one_mul] at this
    exact this
  have hK := hs.exact hX g
  rcases ho.val hs with h | ⟨-, h2, -⟩
  · rw [h, hK]
    unfold val
    rw [ha, hb, val_fin, val_fin, div_self hu.ne', sgn_xor]
    ring
  · rw [hX] at h2
    exact absurd (unit_normal F) (not_le.mpr h2)

theorem val_neg_one (e : FpEnv) : e.val (Fl.ofInt (-1) : Fl F) = -1 := by
  obtain ⟨n1, n2⟩ := neg_one_val (F := F)
  obtain ⟨m1, m2⟩ := val_ofInt_exact (F := F) 1 Nat.one_le_two_pow
  have h1 := val_one (F := F) e
  generalize hx : (Fl.ofInt (-1) : Fl F) = x at *
  unfold val seen
  split
  · cases x with
    | fin s N h =>
      rw [flush_fin, if_neg, n2]
      intro hN
      have hu := unit_posR F
      have h1 := congrArg (fun x : ℝ => |x|) n2
      rw [val_fin, abs_mul, abs_sgn, one_mul, abs_neg, abs_one, abs_of_nonneg (by positivity), div_eq_one_iff_eq hu.ne'] at h1
      have h2 := unit_normal F
      rw [← h1] at h2
      have h3 : (2 ^ (F.p - 1) : Nat) ≤ N := by exact_mod_cast h2
      omega
    | _ => exact n1.elim
  · exact n2

theorem eq_zero_val {a : Fl F} (h : (e.seen a).eq (e.seen (Fl.ofInt 0)) = true) : e.val a = 0 := by
  have hz : (e.seen (Fl.ofInt 0 : Fl F)) = Fl.ofInt 0 := by
    unfold seen
    split
    · rw [show (Fl.ofInt 0 : Fl F) = nought false from ofInt_zero']
      unfold nought
      rw [flush_fin]
      split <;> rfl
    · rfl
  rw [hz] at h
  exact (isZero_iff (IsZero.finite h)).mp h

theorem sqrt_lt {h : How} {N K : Nat} (hN : N < F.bound) (hs : HowSpec F h (Real.sqrt ((N * F.unit : Nat) : ℝ)) K) : K < F.bound := by
  have hp := F.hp
  have he := F.he
  have g : F.Grid (2 ^ (2 * F.emax - 1 + F.p - 1)) := by
    have : F.Grid (1 * 2 ^ (2 * F.emax - 1 + F.p - 1)) := grid_mul Nat.one_le_two_pow
    rwa [one_mul] at this
  have hX : Real.sqrt ((N * F.unit : Nat) : ℝ) ≤ ((2 ^ (2 * F.emax - 1 + F.p - 1) : Nat) : ℝ) := by
    apply Real.sqrt_le_iff.mpr
    refine ⟨by positivity, ?_⟩
    have : N * F.unit ≤ (2 ^ (2 * F.emax - 1 + F.p - 1)) ^ 2 := by
      refine (Nat.mul_le_mul_right _ hN.le).trans ?_
      unfold Fmt.bound Fmt.unit
      rw [← pow_add, ← pow_mul]
      exact Nat.pow_le_pow_right (by norm_num) (by omega)
    exact_mod_cast this
  have hle : K ≤ 2 ^ (2 * F.emax - 1 + F.p - 1) := by
    obtain ⟨-, hs⟩ := hs
    cases h with
    | near => exact hs.mono (Nearest.self g) hX
    | trunc => exact_mod_cast hs.1.trans hX
    | away => exact hs.2 _ g hX
  refine hle.trans_lt ?_
  unfold Fmt.bound
  exact Nat.pow_lt_pow_right (by norm_num) (by omega)

theorem sqrt_near {a : Fl F} (h : e.SqrtOk a) :
    0 ≤ e.val a ∧ 0 ≤ e.val (e.sqrt a) ∧ |e.val (e.sqrt a) - Real.sqrt (e.val a)| ≤ e.u F * e.val (e.sqrt a) := by
  have hu := unit_posR F
  have hu0 := e.u_nonneg (F := F)
  unfold SqrtOk at h
  match ha : e.seen a with
  | .fin s N hN =>
    rw [ha] at h
    dsimp only at h
    have hv : e.val a = sgn s * (N / F.unit) := by unfold val; rw [ha, val_fin]
    by_cases h0 : N = 0
    · subst h0
      have hr : e.val (e.sqrt a) = 0 := by
        unfold sqrt
        rw [ha]
        unfold sqrtBy
        dsimp only
        rw [if_pos rfl]
        unfold val seen
        split
        · rw [flush_fin]
          split
          · exact val_nought _
          · rw [val_fin]; simp
        · rw [val_fin]; simp
      rw [hr, hv]
      simp
    · obtain rfl : s = false := h.resolve_left h0
      have hs := roundSqrtBy_spec (F := F) (e.mode.how false) (N * F.unit)
      have hn := Fl.sqrt_normal (F := F) h0
      have hv' : e.val a = N / F.unit := by rw [hv]; simp [sgn]
      have h1 : 0 ≤ e.val a := by rw [hv']; positivity
      set K := roundSqrtBy (e.mode.how false) F (N * F.unit) with hK
      have hrep : F.Rep K := ⟨sqrt_lt hN.1 hs, hs.1⟩
      have hr : e.sqrt a = .fin false K hrep := by
        unfold sqrt
        rw [ha]
        unfold sqrtBy
        dsimp only
        rw [if_neg h0, if_neg (by simp), ← hK, packBy_rep hrep]
      have hnK := hs.normal hn
      have hvr : e.val (e.sqrt a) = K / F.unit := by
        rcases Outcome.val (e := e) (.inl ⟨hrep, hr⟩) hs with h | ⟨-, h, -⟩
        · rw [h]; simp [sgn]
        · exact absurd hn (not_le.mpr h)
      have he : Real.sqrt (e.val a) = Real.sqrt ((N * F.unit : Nat) : ℝ) / F.unit := by
        rw [hv', Real.sqrt_eq_iff_mul_self_eq (by positivity) (by positivity), div_mul_div_comm,
          Real.mul_self_sqrt (by positivity)]
        push_cast
        field_simp
      refine ⟨h1, by rw [hvr]; positivity, ?_⟩
      rw [hvr, he, ← sub_div, abs_div, abs_of_pos hu, ← mul_div_assoc]
      refine div_le_div_of_nonneg_right ?_ hu.le
      rw [← how_u e false]
      exact hs.err_normal hn
  | .nan => rw [ha] at h; exact h.elim
  | .inf _ => rw [ha] at h; exact h.elim

theorem size_val {n : Nat} (h : e.SizeOk F n) (hn : n ≠ 0) :
    e.val (ofIntBy e.mode n : Fl F) ≠ 0 ∧ |e.val (ofIntBy e.mode n : Fl F) - n| ≤ e.u F * |e.val (ofIntBy e.mode n : Fl F)| := by
  have hu := unit_posR F
  unfold SizeOk at h
  have hspec := roundQuotBy_spec (F := F) (e.mode.how false) (a := n * F.unit) (b := 1) (by omega)
  rw [Nat.cast_one, div_one] at hspec
  set K := roundQuotBy (e.mode.how false) F (n * F.unit) 1 with hK
  have hr : (ofIntBy e.mode n : Fl F) = .fin false K h := by
    unfold ofIntBy roundIntBy
    have h0 : ¬ ((n : Int) * F.unit = 0) := by
      have := unit_pos F
      exact_mod_cast (Nat.mul_pos (Nat.pos_of_ne_zero hn) this).ne'
    have hd : decide ((n : Int) * F.unit < 0) = false := by
      rw [decide_eq_false_iff_not, not_lt]
      positivity
    rw [if_neg h0, hd]
    have : ((n : Int) * F.unit).natAbs = n * F.unit := by rw [Int.natAbs_mul]; simp
    rw [this, ← hK, packBy_rep h]
  have hX : (2 : ℝ) ^ (F.p - 1) ≤ ((n * F.unit : Nat) : ℝ) := by
    refine (unit_normal F).trans ?_
    exact_mod_cast Nat.le_mul_of_pos_left _ (Nat.pos_of_ne_zero hn)
  have hv : e.val (ofIntBy e.mode n : Fl F) = K / F.unit := by
    rcases Outcome.val (e := e) (.inl ⟨h, hr⟩) hspec with h | ⟨-, h, -⟩
    · rw [h]; simp [sgn]
    · exact absurd hX (not_le.mpr h)
  have hK0 : (0 : ℝ) < K := by
    have := hspec.normal hX
    have h2 : 0 < 2 ^ (F.p - 1) := by positivity
    exact_mod_cast (by omega : 0 < K)
  rw [hv]
  refine ⟨by positivity, ?_⟩
  have he := hspec.err_normal hX
  rw [how_u] at he
  have e2 : (n : ℝ) = ((n * F.unit : Nat) : ℝ) / F.unit := by push_cast; field_simp
  rw [e2, ← sub_div, abs_div, abs_of_pos hu, abs_of_nonneg (show 0 ≤ (K : ℝ) / F.unit by positivity),
    ← mul_div_assoc]
  exact div_le_div_of_nonneg_right he hu.le

theorem divSize_near {a : Fl F} {n : Nat} (h1 : e.SizeOk F n) (h2 : e.DivOk a (ofIntBy e.mode n)) :
    |e.val (e.div a (ofIntBy e.mode n)) - e.val a / n| ≤ ((1 + e.u F) ^ 2 - 1) * |e.val a / n| + e.e' F := by
  have hu0 := e.u_nonneg (F := F)
  obtain ⟨hv, hd⟩ := div_near h2
  by_cases hn : n = 0
  · exfalso
    subst hn
    apply hv
    have : (ofIntBy e.mode ((0 : Nat) : Int) : Fl F) = nought false := by
      unfold ofIntBy roundIntBy
      rw [if_pos (by simp)]
      unfold pack nought
      rw [dif_pos rep_zero]
    rw [this]
    exact val_zero' e
  · obtain ⟨hk, hk'⟩ := size_val h1 hn
    set k := e.val (ofIntBy e.mode n : Fl F)
    have hnR : (0 : ℝ) < n := by exact_mod_cast Nat.pos_of_ne_zero hn
    -- the rounded number of elements
    have hq : |e.val a / k - e.val a / n| ≤ e.u F * |e.val a / n| := by
      have e1 : e.val a / k - e.val a / n = e.val a / n * ((n - k) / k) := by field_simp
      rw [e1, abs_mul, mul_comm]
      refine mul_le_mul_of_nonneg_right ?_ (abs_nonneg _)
      rw [abs_div, div_le_iff₀ (abs_pos.mpr hk), abs_sub_comm]
      exact hk'
    have h3 : |e.val a / k| ≤ (1 + e.u F) * |e.val a / n| := by
      have := abs_sub_abs_le_abs_sub (e.val a / k) (e.val a / n)
      linarith
    have h4 := abs_sub_le (e.val (e.div a (ofIntBy e.mode n))) (e.val a / k) (e.val a / n)
    have h5 := hd.err
    have h6 := mul_le_mul_of_nonneg_left h3 hu0
    nlinarith

end FpEnv

/-! ## The standard model -/

theorem guarded_ok {α : Type} {p : Prop} [Decidable p] {a r : α} (h : guarded p a = .ok r) : p ∧ r = a := by
  unfold guarded at h
  split at h
  · next hp => exact ⟨hp, by injection h with h; exact h.symm⟩
  · cases h

section
variable {e : FpEnv} {F : Fmt} {a b s : Fl F}

theorem trapAdd_near (h : e.trapAdd a b = .ok s) : Near (e.u F) (e.d' F) (e.val a + e.val b) (e.val s) := by
  obtain ⟨h', rfl⟩ := guarded_ok h; exact FpEnv.add_near h'

theorem trapAdd_zero (h : e.trapAdd (Fl.ofInt 0) a = .ok s) : |e.val s - e.val a| ≤ e.d' F := by
  obtain ⟨h', rfl⟩ := guarded_ok h; exact FpEnv.zero_add_near h'

theorem trapSub_near (h : e.trapSub a b = .ok s) : Near (e.u F) (e.d' F) (e.val a - e.val b) (e.val s) := by
  obtain ⟨h', rfl⟩ := guarded_ok h; exact FpEnv.sub_near h'

theorem trapMul_near (h : e.trapMul a b = .ok s) : Near (e.u F) (e.e' F) (e.val a * e.val b) (e.val s) := by
  obtain ⟨h', rfl⟩ := guarded_ok h; exact FpEnv.mul_near h'

theorem trapDiv_near (h : e.trapDiv a b = .ok s) : e.val b ≠ 0 ∧ Near (e.u F) (e.e' F) (e.val a / e.val b) (e.val s) := by
  obtain ⟨h', rfl⟩ := guarded_ok h; exact FpEnv.div_near h'

theorem trapMul_zero (h0 : e.val a = 0 ∨ e.val b = 0) (h : e.trapMul a b = .ok s) : e.val s = 0 := by
  obtain ⟨h', rfl⟩ := guarded_ok h; exact FpEnv.mul_zero_val h' h0

theorem trapMul_sign (h1 : |e.val a| = 1) (h2 : |e.val b| = 1) (h : e.trapMul a b = .ok s) : e.val s = e.val a * e.val b := by
  obtain ⟨h', rfl⟩ := guarded_ok h; exact FpEnv.mul_sign_val h' h1 h2

theorem trapDiv_zero (h0 : e.val a = 0) (h : e.trapDiv a b = .ok s) : e.val s = 0 := by
  obtain ⟨h', rfl⟩ := guarded_ok h; exact FpEnv.zero_div_val h' h0

theorem trapDiv_self (h : e.trapDiv a a = .ok s) : e.val s = 1 := by
  obtain ⟨h', rfl⟩ := guarded_ok h; exact FpEnv.div_self_one h'

theorem trapSqrt_near (h : e.trapSqrt a = .ok s) :
    0 ≤ e.val a ∧ 0 ≤ e.val s ∧ |e.val s - Real.sqrt (e.val a)| ≤ e.u F * e.val s := by
  obtain ⟨h', rfl⟩ := guarded_ok h; exact FpEnv.sqrt_near h'

theorem trapDivSize_near {n : Nat} (h : e.trapDivSize a n = .ok s) :
    |e.val s - e.val a / n| ≤ ((1 + e.u F) ^ 2 - 1) * |e.val a / n| + e.e' F := by
  obtain ⟨⟨h1, h2⟩, rfl⟩ := guarded_ok h; exact FpEnv.divSize_near h1 h2

end

noncomputable instance (e : FpEnv) (F : Fmt) : Standard (Trapped e F) where
  val a := e.val (F := F) a
  u := e.u F
  e := e.e' F
  d := e.d' F
  u_nonneg := e.u_nonneg
  u_lt_one := e.u_lt_one
  e_nonneg := e.e'_nonneg
  d_nonneg := e.d'_nonneg
  zero := FpEnv.val_zero e
  one := FpEnv.val_one e
  neg_one := FpEnv.val_neg_one e
  eq_zero h := FpEnv.eq_zero_val h
  mul_by_zero h0 h := trapMul_zero h0 h
  zero_quot h0 h := trapDiv_zero h0 h
  mul_sign h1 h2 h := trapMul_sign h1 h2 h
  neg h := by injection h with h; subst h; exact FpEnv.val_neg (e := e) _
  add h := trapAdd_near h
  zero_add h := trapAdd_zero h
  sub h := trapSub_near h
  mul h := trapMul_near h
  div h := trapDiv_near h
  div_self h := trapDiv_self h
  sqrt h := trapSqrt_near h
  divSize h := trapDivSize_near h

section
variable {e : FpEnv} {F : Fmt}

/-! ## A call without exceptions is the call in the environment -/

/-- The same number. -/
scoped instance relTrapped : Rel (Trapped e F) (InEnv e F) := ⟨fun a b => Eq (α := Fl F) a b⟩

theorem sim_trap {p : Prop} [Decidable p] {a b : Fl F} (h : a = b) :
    SimRes (α := Trapped e F) (β := InEnv e F) (guarded p a) (.ok b) := by
  unfold guarded
  split
  · exact sim_ok h
  · exact sim_ub _ _

theorem sim_tAdd (a b : Fl F) : SimRes (α := Trapped e F) (β := InEnv e F) (e.trapAdd a b) (.ok (e.add a b)) := sim_trap rfl
theorem sim_tSub (a b : Fl F) : SimRes (α := Trapped e F) (β := InEnv e F) (e.trapSub a b) (.ok (e.sub a b)) := sim_trap rfl
theorem sim_tMul (a b : Fl F) : SimRes (α := Trapped e F) (β := InEnv e F) (e.trapMul a b) (.ok (e.mul a b)) := sim_trap rfl
theorem sim_tDiv (a b : Fl F) : SimRes (α := Trapped e F) (β := InEnv e F) (e.trapDiv a b) (.ok (e.div a b)) := sim_trap rfl
theorem sim_tSqrt (a : Fl F) : SimRes (α := Trapped e F) (β := InEnv e F) (e.trapSqrt a) (.ok (e.sqrt a)) := sim_trap rfl
theorem sim_tDivSize (a : Fl F) (n : Nat) :
    SimRes (α := Trapped e F) (β := InEnv e F) (e.trapDivSize a n) (.ok (e.div a (Fl.ofIntBy e.mode n))) := sim_trap rfl

scoped instance : SimRing (Trapped e F) (InEnv e F) where
  init := rfl
  zero := rfl
  one := rfl
  minusOne := rfl
  add := by rintro a b _ _ ⟨⟩ ⟨⟩; exact sim_tAdd a b
  sub := by rintro a b _ _ ⟨⟩ ⟨⟩; exact sim_tSub a b
  mul := by rintro a b _ _ ⟨⟩ ⟨⟩; exact sim_tMul a b

scoped instance : SimOrd (Trapped e F) (InEnv e F) where
  eq := by rintro a b _ _ ⟨⟩ ⟨⟩; rfl
  lt := by rintro a b _ _ ⟨⟩ ⟨⟩; rfl
  abs := by rintro a _ ⟨⟩; exact sim_ok rfl

scoped instance : SimField (Trapped e F) (InEnv e F) where
  div := by rintro a b _ _ ⟨⟩ ⟨⟩; exact sim_tDiv a b
  neg := by rintro a _ ⟨⟩; exact sim_ok rfl
  sqrt := by rintro a _ ⟨⟩; exact sim_tSqrt a

theorem env_mat (e : FpEnv) {r c : Nat} (A : Mat (Fl F) r c) :
    Rel.rel (α := Mat (Trapped e F) r c) (β := Mat (InEnv e F) r c) A A := fun _ _ => rfl

theorem env_num {x : Res (Trapped e F)} {y : Res (InEnv e F)} (h : SimRes x y) {a : Fl F} (hx : x = .ok a) : y = .ok a := by
  subst hx
  obtain ⟨b, hy, hab⟩ := h
  rw [hy]
  exact congrArg _ (Eq.symm hab)

theorem env_res {r c : Nat} {x : Res (Mat (Trapped e F) r c)} {y : Res (Mat (InEnv e F) r c)} (h : SimRes x y)
    {A : Mat (Fl F) r c} (hx : x = .ok A) : y = .ok A := by
  subst hx
  obtain ⟨B, hy, hab⟩ := h
  rw [hy]
  exact congrArg _ (Matrix.ext fun i j => (hab i j).symm)

theorem env_pair {m n : Nat} {x : Res (Mat (Trapped e F) m n × Mat (Trapped e F) m n)}
    {y : Res (Mat (InEnv e F) m n × Mat (InEnv e F) m n)} (h : SimRes x y) {A B : Mat (Fl F) m n} (hx : x = .ok (A, B)) :
    y = .ok (A, B) := by
  subst hx
  obtain ⟨⟨A', B'⟩, hy, hA, hB⟩ := h
  rw [hy]
  have e1 : A' = A := Matrix.ext fun i j => (hA i j).symm
  have e2 : B' = B := Matrix.ext fun i j => (hB i j).symm
  rw [e1, e2]

theorem env_mean {r c : Nat} {A : Mat (Trapped e F) r c} {A' : Mat (InEnv e F) r c} (hA : A ≈≈ A') : SimRes (mean A) (mean A') := by
  unfold mean
  refine sim_bind (sim_forUp SimRing.zero fun _ _ _ h => sim_forUp h fun _ _ _ h => ?_) fun a b h => ?_
  · exact sim_bind (sim_rd hA _ _) fun _ _ h' => SimRing.add h h'
  · obtain rfl : Eq (α := Fl F) a b := h
    exact sim_tDivSize a _

theorem env_var {r c : Nat} {A : Mat (Trapped e F) r c} {A' : Mat (InEnv e F) r c} (hA : A ≈≈ A') : SimRes (var A) (var A') := by
  unfold var
  refine sim_bind (env_mean hA) fun _ _ hm => ?_
  refine sim_bind (sim_forUp SimRing.zero fun _ _ _ h => sim_forUp h fun _ _ _ h => ?_) fun a b h => ?_
  · exact sim_bind (sim_rd hA _ _) fun _ _ x => sim_bind (SimRing.sub x hm) fun _ _ y => sim_bind (sim_rd hA _ _) fun _ _ x =>
      sim_bind (SimRing.sub x hm) fun _ _ y' => sim_bind (SimRing.mul y y') fun _ _ z => SimRing.add h z
  · obtain rfl : Eq (α := Fl F) a b := h
    exact sim_tDivSize a _

theorem env_stddev {r c : Nat} {A : Mat (Trapped e F) r c} {A' : Mat (InEnv e F) r c} (hA : A ≈≈ A') :
    SimRes (stddev A) (stddev A') := by
  unfold stddev
  exact sim_bind (env_var hA) fun _ _ h => SimField.sqrt h

end

theorem trapped_h (e : FpEnv) (F : Fmt) : Standard.h (Trapped e F) = e.eta F := e.eta_eq

end MatrixLibs
