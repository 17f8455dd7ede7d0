import Verif.Spec.Range
import Verif.Proof.Env
import Verif.Proof.Silent
import Verif.Proof.StandardStats
import Verif.Proof.Pow
import Verif.Proof.Check

/-!
# Operations on bounded floating point numbers

Rounding is monotone, so a result of at most `z`, a number of the format, stays at most `z`.
-/

namespace MatrixLibs

set_option linter.unusedSectionVars false

open Fl

/-- A number of the format that is not negative. -/
def Fmt.Number (F : Fmt) (z : ℝ) : Prop := ∃ R : Nat, F.Rep R ∧ z = R / F.unit

variable {F : Fmt}

theorem Fmt.Number.nonneg {z : ℝ} (h : F.Number z) : 0 ≤ z := by
  obtain ⟨R, _, rfl⟩ := h
  positivity

theorem unit_zpow (F : Fmt) : (F.unit : ℝ) = 2 ^ ((F.emax : ℤ) + F.p - 2) := by
  have h1 := F.hp
  have h2 := F.he
  unfold Fmt.unit
  rw [Nat.cast_pow, Nat.cast_ofNat, ← zpow_natCast]
  congr 1
  omega

theorem top_real (F : Fmt) : (F.top : ℝ) = F.largest * F.unit := by
  have h1 := F.hp
  have h2 := F.he
  have h3 : 1 ≤ 2 ^ F.p := Nat.one_le_two_pow
  unfold Fmt.top Fmt.largest
  rw [unit_zpow, mul_assoc, ← zpow_add₀ (by norm_num)]
  push_cast [h3]
  congr 1
  rw [← zpow_natCast]
  congr 1
  omega

theorem Fmt.Room.number {n : Nat} {t : ℤ} (h : F.Room n t) : F.Number (n * 2 ^ t) := by
  obtain ⟨h1, h2, h3⟩ := h
  have hu := unit_posR F
  obtain ⟨k, hk⟩ : ∃ k : Nat, (k : ℤ) = t + ((F.emax : ℤ) + F.p - 2) := ⟨(t + ((F.emax : ℤ) + F.p - 2)).toNat, by omega⟩
  have e : ((n * 2 ^ k : Nat) : ℝ) = n * 2 ^ t * F.unit := by
    rw [unit_zpow, mul_assoc, ← zpow_add₀ (by norm_num), ← hk]
    push_cast
    rw [zpow_natCast]
  refine ⟨n * 2 ^ k, ⟨?_, grid_mul h1⟩, ?_⟩
  · have : ((n * 2 ^ k : Nat) : ℝ) ≤ F.top := by
      rw [e, top_real]
      exact mul_le_mul_of_nonneg_right h3 hu.le
    have h4 := top_lt F
    have h5 : n * 2 ^ k ≤ F.top := by exact_mod_cast this
    omega
  · rw [e]
    field_simp

theorem Fmt.Room.mono {n m : Nat} {t : ℤ} (h : F.Room n t) (hm : m ≤ n) : F.Room m t :=
  ⟨hm.trans h.1, h.2.1, le_trans (mul_le_mul_of_nonneg_right (by exact_mod_cast hm) (by positivity)) h.2.2⟩

theorem two_pow_le_largest (F : Fmt) : (2 : ℝ) ^ F.p ≤ F.largest := by
  have h1 := F.hp
  have h2 := F.he
  unfold Fmt.largest
  have h3 : (2 : ℝ) ^ (1 : ℤ) ≤ 2 ^ ((F.emax : ℤ) + 1 - F.p) := zpow_le_zpow_right₀ (by norm_num) (by omega)
  have h4 : (2 : ℝ) ≤ 2 ^ F.p := by
    calc (2 : ℝ) = 2 ^ 1 := by norm_num
      _ ≤ 2 ^ F.p := pow_le_pow_right₀ (by norm_num) (by omega)
  rw [zpow_one] at h3
  nlinarith

/-- If there is room for a power of a number, there is room for the number. -/
theorem Fmt.Room.root {n : Nat} {s t : ℤ} (h : F.Room n t) (h1 : 0 ≤ s → s ≤ t) (h2 : 2 - (F.emax : ℤ) - F.p ≤ s) : F.Room n s := by
  refine ⟨h.1, h2, ?_⟩
  by_cases hs : 0 ≤ s
  · exact le_trans (mul_le_mul_of_nonneg_left (zpow_le_zpow_right₀ (by norm_num) (h1 hs)) (by positivity)) h.2.2
  · have h3 : (2 : ℝ) ^ s ≤ 1 := zpow_le_one_of_nonpos₀ (by norm_num) (by omega)
    have h4 : (n : ℝ) ≤ 2 ^ F.p := by exact_mod_cast h.1
    have h5 := two_pow_le_largest F
    have h6 : (n : ℝ) * 2 ^ s ≤ n := mul_le_of_le_one_right (by positivity) h3
    linarith

theorem _root_.MatrixLibs.Fl.HowSpec.le_grid {h : How} {X : ℝ} {K R : Nat} (hs : HowSpec F h X K) (hX : X ≤ R) (hR : F.Grid R) : K ≤ R := by
  cases h with
  | near => exact Nearest.mono hs.2 (Nearest.self hR) hX
  | trunc => exact_mod_cast hs.2.1.trans hX
  | away => exact hs.2.2 R hR hX

namespace Fl

theorem AtMost.mono {a : Fl F} {x y : ℝ} (h : AtMost x a) (hxy : x ≤ y) : AtMost y a := ⟨h.1, h.2.trans hxy⟩

theorem atMost_zero {x : ℝ} (hx : 0 ≤ x) : AtMost x (Fl.ofInt 0 : Fl F) := by
  have h := FpEnv.val_zero (F := F) FpEnv.default
  have h' : (Fl.ofInt 0 : Fl F).val = 0 := h
  exact ⟨zero_finite, by rw [h', abs_zero]; exact hx⟩

theorem AtMost.neg {a : Fl F} {x : ℝ} (h : AtMost x a) : AtMost x a.neg := by
  obtain ⟨s, N, hN, rfl⟩ := Silent.finite_fin h.1
  have h2 := h.2
  rw [abs_val_fin] at h2
  refine ⟨trivial, ?_⟩
  show |(Fl.fin (!s) N hN).val| ≤ x
  rw [abs_val_fin]
  exact h2

end Fl

namespace FpEnv
variable {e : FpEnv} {a b : Fl F} {x y z : ℝ}

/-- What is read of a bounded number. -/
theorem seen_atMost (h : AtMost x a) : ∃ s N hN, e.seen a = .fin s N hN ∧ (N : ℝ) / F.unit ≤ x := by
  obtain ⟨s, N, hN, rfl⟩ := Silent.finite_fin h.1
  have h2 := h.2
  rw [abs_val_fin] at h2
  have h0 : 0 ≤ x := (by positivity : (0 : ℝ) ≤ (N : ℝ) / F.unit).trans h2
  unfold seen
  split
  · rw [flush_fin]
    split
    · exact ⟨s, 0, rep_nought, rfl, by simpa using h0⟩
    · exact ⟨s, N, hN, rfl, h2⟩
  · exact ⟨s, N, hN, rfl, h2⟩

theorem Outcome.atMost {s : Bool} {X : ℝ} {K R : Nat} (ho : e.Outcome s X K a) (h : K ≤ R) : AtMost ((R : ℝ) / F.unit) a := by
  have hu := unit_posR F
  rcases ho with ⟨hK, rfl⟩ | ⟨_, _, rfl⟩
  · refine ⟨trivial, ?_⟩
    rw [abs_val_fin]
    gcongr
  · refine ⟨trivial, ?_⟩
    rw [val_nought, abs_zero]
    positivity

theorem Outcome.nonneg {s t : Bool} {X : ℝ} {K : Nat} (ho : e.Outcome s X K a) (hs : HowSpec F (e.mode.how t) X K)
    (hX : 0 ≤ X) (h : 0 ≤ sgn s * X) : 0 ≤ a.val := by
  rcases ho with ⟨hK, rfl⟩ | ⟨_, _, rfl⟩
  · rcases hX.eq_or_lt with rfl | hX
    · obtain rfl := howSpec_zero hs
      rw [val_fin]
      simp
    · cases s with
      | true => simp only [sgn, if_true] at h; linarith
      | false =>
        rw [val_fin]
        simp only [sgn, Bool.false_eq_true, if_false]
        positivity
  · rw [val_nought]

theorem guarded_pos {α : Type} {p : Prop} [Decidable p] {a : α} (h : p) : guarded p a = .ok a := by
  unfold guarded
  rw [if_pos h]

theorem trapAdd_atMost (ha : AtMost x a) (hb : AtMost y b) (hz : x + y ≤ z) (hr : F.Number z) :
    ∃ r, e.trapAdd a b = .ok r ∧ AtMost z r ∧ (0 ≤ e.val a → 0 ≤ e.val b → 0 ≤ r.val) := by
  have hu := unit_posR F
  obtain ⟨R, hR, rfl⟩ := hr
  obtain ⟨s, M, hM, h1, h2⟩ := seen_atMost (e := e) ha
  obtain ⟨t, N, hN, h3, h4⟩ := seen_atMost (e := e) hb
  have key : ∀ w : Int, w = Fl.signed s M + Fl.signed t N → (w.natAbs : ℝ) ≤ R := by
    intro w hw
    have : w.natAbs ≤ M + N := by
      rw [hw]
      cases s <;> cases t <;> simp [Fl.signed] <;> omega
    have h5 : (M : ℝ) / F.unit + N / F.unit ≤ R / F.unit := by linarith
    rw [← add_div, div_le_div_iff_of_pos_right hu] at h5
    exact le_trans (by exact_mod_cast this) h5
  have hok : e.AddOk a b := by
    unfold AddOk
    rw [h1, h3]
    dsimp only
    have hs := roundQuotBy_spec (F := F) (e.mode.how (decide (Fl.signed s M + Fl.signed t N < 0)))
      (a := (Fl.signed s M + Fl.signed t N).natAbs) (b := 1) (by omega)
    rw [Nat.cast_one, div_one] at hs
    have := hs.le_grid (key _ rfl) hR.2
    exact ⟨lt_of_le_of_lt this hR.1, hs.1⟩
  refine ⟨e.add a b, guarded_pos hok, ?_⟩
  obtain ⟨s1, t1, M1, N1, w, K, ⟨hM1, hN1, g1, g2⟩, hw, hs, s', hs', ho⟩ := add_outcome hok
  rw [h1] at g1
  rw [h3] at g2
  cases g1
  cases g2
  refine ⟨ho.atMost (hs.le_grid (key w hw) hR.2), fun p q => ho.nonneg hs (by positivity) ?_⟩
  rw [← hs', hw]
  unfold val at p q
  rw [h1, val_fin] at p
  rw [h3, val_fin] at q
  push_cast
  rw [signed_real, signed_real]
  have e1 : sgn s * (M : ℝ) + sgn t * N = (sgn s * (M / F.unit) + sgn t * (N / F.unit)) * F.unit := by field_simp
  rw [e1]
  positivity

theorem trapSub_atMost (ha : AtMost x a) (hb : AtMost y b) (hz : x + y ≤ z) (hr : F.Number z) :
    ∃ r, e.trapSub a b = .ok r ∧ AtMost z r := by
  obtain ⟨r, h1, h2, _⟩ := trapAdd_atMost (e := e) ha hb.neg hz hr
  exact ⟨r, h1, h2⟩

theorem trapMul_atMost (ha : AtMost x a) (hb : AtMost y b) (hz : x * y ≤ z) (hr : F.Number z) :
    ∃ r, e.trapMul a b = .ok r ∧ AtMost z r ∧ (a = b → 0 ≤ r.val) := by
  have hu := unit_posR F
  obtain ⟨R, hR, rfl⟩ := hr
  obtain ⟨s, M, hM, h1, h2⟩ := seen_atMost (e := e) ha
  obtain ⟨t, N, hN, h3, h4⟩ := seen_atMost (e := e) hb
  have key : ((M * N : Nat) : ℝ) / F.unit ≤ R := by
    have h5 : (M : ℝ) / F.unit * (N / F.unit) ≤ R / F.unit :=
      (mul_le_mul h2 h4 (by positivity) ((by positivity : (0 : ℝ) ≤ (M : ℝ) / F.unit).trans h2)).trans hz
    have h6 : (M : ℝ) / F.unit * (N / F.unit) = ((M * N : Nat) : ℝ) / F.unit / F.unit := by push_cast; field_simp
    rw [h6, div_le_div_iff_of_pos_right hu] at h5
    exact h5
  have hok : e.MulOk a b := by
    unfold MulOk
    rw [h1, h3]
    dsimp only
    have hs := roundQuotBy_spec (F := F) (e.mode.how (s ^^ t)) (a := M * N) (b := F.unit) (unit_pos F)
    have := hs.le_grid key hR.2
    exact ⟨lt_of_le_of_lt this hR.1, hs.1⟩
  refine ⟨e.mul a b, guarded_pos hok, ?_⟩
  obtain ⟨s1, t1, M1, N1, K, ⟨hM1, hN1, g1, g2⟩, hs, ho⟩ := mul_outcome hok
  rw [h1] at g1
  rw [h3] at g2
  cases g1
  cases g2
  refine ⟨ho.atMost (hs.le_grid key hR.2), ?_⟩
  rintro rfl
  rw [h1] at h3
  cases h3
  refine ho.nonneg hs (by positivity) ?_
  rw [Bool.xor_self]
  simp only [sgn, Bool.false_eq_true, if_false]
  positivity

theorem trapDiv_atMost (ha : AtMost x a) (hb : b.Finite) (h0 : 0 < y) (hy : y ≤ |e.val b|) (hz : x ≤ z * y) (hr : F.Number z) :
    ∃ r, e.trapDiv a b = .ok r ∧ AtMost z r ∧ (0 ≤ e.val a → 0 < e.val b → 0 ≤ r.val) ∧ e.DivOk a b ∧ r = e.div a b := by
  have hu := unit_posR F
  obtain ⟨R, hR, rfl⟩ := hr
  obtain ⟨s, M, hM, h1, h2⟩ := seen_atMost (e := e) ha
  obtain ⟨t, N, hN, h3⟩ := Silent.finite_fin (finite_seen (e := e).mpr hb)
  unfold val at hy
  rw [h3, abs_val_fin] at hy
  have hN0 : N ≠ 0 := by
    rintro rfl
    simp at hy
    linarith
  have hN' : (0 : ℝ) < N := by exact_mod_cast Nat.pos_of_ne_zero hN0
  have key : ((M * F.unit : Nat) : ℝ) / N ≤ R := by
    rw [div_le_iff₀ hN']
    push_cast
    have h5 : (M : ℝ) / F.unit ≤ R / F.unit * (N / F.unit) :=
      h2.trans (hz.trans (mul_le_mul_of_nonneg_left hy (by positivity)))
    have h6 : (R : ℝ) / F.unit * (N / F.unit) = (R * N / F.unit) / F.unit := by field_simp
    rw [h6, div_le_div_iff_of_pos_right hu, le_div_iff₀ hu] at h5
    exact h5
  have hok : e.DivOk a b := by
    unfold DivOk
    rw [h1, h3]
    dsimp only
    have hs := roundQuotBy_spec (F := F) (e.mode.how (s ^^ t)) (a := M * F.unit) (b := N) (Nat.pos_of_ne_zero hN0)
    have := hs.le_grid key hR.2
    exact ⟨hN0, lt_of_le_of_lt this hR.1, hs.1⟩
  refine ⟨e.div a b, guarded_pos hok, ?_⟩
  obtain ⟨s1, t1, M1, N1, K, ⟨hM1, hN1, g1, g2⟩, _, hs, ho⟩ := div_outcome hok
  rw [h1] at g1
  rw [h3] at g2
  cases g1
  cases g2
  refine ⟨ho.atMost (hs.le_grid key hR.2), fun p q => ho.nonneg hs (by positivity) ?_, hok, rfl⟩
  unfold val at p q
  rw [h1, val_fin] at p
  rw [h3, val_fin] at q
  have ht : t = false := by
    cases t with
    | false => rfl
    | true =>
      exfalso
      simp only [sgn, if_true] at q
      have : 0 < (N : ℝ) / F.unit := by positivity
      linarith
  subst ht
  rw [Bool.xor_false]
  have : sgn s * (((M * F.unit : Nat) : ℝ) / N) = sgn s * (M / F.unit) * (F.unit * F.unit / N) := by push_cast; field_simp
  rw [this]
  positivity

theorem val_nonneg (h : 0 ≤ a.val) : 0 ≤ e.val a := by
  unfold val seen
  split
  · match a, h with
    | .fin s N hN, h =>
      rw [flush_fin]
      split
      · rw [val_nought]
      · exact h
    | .nan, h => exact h
    | .inf _, h => exact h
  · exact h

theorem trapDivSize_atMost {n : Nat} (ha : AtMost (n * z) a) (h0 : n ≠ 0) (hn : n ≤ 2 ^ F.p) (hr : F.Number z) :
    ∃ r, e.trapDivSize a n = .ok r ∧ AtMost z r ∧ (0 ≤ a.val → 0 ≤ r.val) := by
  have hN : (0 : ℝ) < n := by exact_mod_cast Nat.pos_of_ne_zero h0
  have hx := ofIntBy_exact (F := F) (m := e.mode) hn
  have hrep := rep_int (F := F) hn
  have hs := roundQuotBy_spec (F := F) (e.mode.how false) (a := n * F.unit) (b := 1) (by omega)
  rw [Nat.cast_one, div_one] at hs
  have hsz : e.SizeOk F n := by
    unfold SizeOk
    rw [hs.exact rfl hrep.2]
    exact hrep
  have hv : e.val (Fl.ofIntBy e.mode n : Fl F) = n := by
    have hns : ¬ (Fl.ofIntBy e.mode n : Fl F).Subnormal := by
      rintro ⟨_, _, h3⟩
      rw [hx.2, abs_of_pos hN] at h3
      have h4 : F.minNormal ≤ 1 := by
        unfold Fmt.minNormal
        rw [div_le_one (unit_posR F)]
        exact unit_normal F
      have h5 : (1 : ℝ) ≤ n := by exact_mod_cast Nat.pos_of_ne_zero h0
      linarith
    unfold val
    rw [seen_not_subnormal hns, hx.2]
  obtain ⟨r, _, h2, h3, h4, h5⟩ := trapDiv_atMost (e := e) ha hx.1 hN (by rw [hv, abs_of_pos hN]) (le_of_eq (mul_comm _ _)) hr
  refine ⟨r, ?_, h2, fun h => h3 (val_nonneg h) (by rw [hv]; exact hN)⟩
  rw [h5]
  exact guarded_pos ⟨hsz, h4⟩

theorem trapSqrt_returns (hf : a.Finite) (h0 : 0 ≤ a.val) : ∃ r, e.trapSqrt a = .ok r := by
  refine ⟨_, guarded_pos ?_⟩
  obtain ⟨s, N, hN, hs⟩ := Silent.finite_fin (finite_seen (e := e).mpr hf)
  have h1 := val_nonneg (e := e) h0
  unfold SqrtOk
  unfold val at h1
  rw [hs] at h1 ⊢
  rw [val_fin] at h1
  show N = 0 ∨ s = false
  by_contra h
  obtain ⟨h2, h3⟩ := not_or.mp h
  have hs : s = true := by simpa using h3
  subst hs
  have : 0 < (N : ℝ) / F.unit := div_pos (by exact_mod_cast Nat.pos_of_ne_zero h2) (unit_posR F)
  simp only [sgn, if_true] at h1
  linarith

end FpEnv

/-! ## Functions -/

namespace Range
open FpEnv

variable {e : FpEnv} {n m p i j : Nat} {x y z : ℝ} {t : ℤ}

theorem elements {T : Type} {r c : Nat} {f : Fin r → Fin c → Res T} {x : Res (Mat T r c)} (hx : ElementwiseOf f x)
    {Q : T → Prop} (h : ∀ a b, ∃ v, f a b = .ok v ∧ Q v) : ∃ R, x = .ok R ∧ ∀ a b, Q (R a b) := by
  choose R h1 h2 using h
  exact ⟨R, (hx.1 R).mpr h1, h2⟩

/-- `AtMost` for operands of operations that trap. -/
abbrev Le (x : ℝ) (a : Trapped e F) : Prop := AtMost (F := F) x a

theorem tAdd {a b : Trapped e F} (ha : Le x a) (hb : Le y b) (hz : x + y ≤ z) (hr : F.Number z) :
    ∃ r : Trapped e F, CScalar.add a b = .ok r ∧ Le z r ∧ (0 ≤ Fl.val (F := F) a → 0 ≤ Fl.val (F := F) b → 0 ≤ Fl.val (F := F) r) := by
  obtain ⟨r, h1, h2, h3⟩ := trapAdd_atMost (e := e) ha hb hz hr
  exact ⟨r, h1, h2, fun p q => h3 (val_nonneg p) (val_nonneg q)⟩

theorem tSub {a b : Trapped e F} (ha : Le x a) (hb : Le y b) (hz : x + y ≤ z) (hr : F.Number z) :
    ∃ r : Trapped e F, CScalar.sub a b = .ok r ∧ Le z r := trapSub_atMost (e := e) ha hb hz hr

theorem tMul {a b : Trapped e F} (ha : Le x a) (hb : Le y b) (hz : x * y ≤ z) (hr : F.Number z) :
    ∃ r : Trapped e F, CScalar.mul a b = .ok r ∧ Le z r := by
  obtain ⟨r, h1, h2, _⟩ := trapMul_atMost (e := e) ha hb hz hr
  exact ⟨r, h1, h2⟩

theorem tSquare {a : Trapped e F} (ha : Le x a) (hz : x * x ≤ z) (hr : F.Number z) :
    ∃ r : Trapped e F, CScalar.mul a a = .ok r ∧ Le z r ∧ 0 ≤ Fl.val (F := F) r := by
  obtain ⟨r, h1, h2, h3⟩ := trapMul_atMost (e := e) ha ha hz hr
  exact ⟨r, h1, h2, h3 rfl⟩

theorem tDivSize {a : Trapped e F} (ha : Le (n * z) a) (h0 : n ≠ 0) (hn : n ≤ 2 ^ F.p) (hr : F.Number z) :
    ∃ r : Trapped e F, CScalar.divSize a n = .ok r ∧ Le z r ∧ (0 ≤ Fl.val (F := F) a → 0 ≤ Fl.val (F := F) r) :=
  trapDivSize_atMost (e := e) ha h0 hn hr

theorem step (t : ℤ) (k : Nat) : (k : ℝ) * 2 ^ t + 2 ^ t = ((k + 1 : Nat) : ℝ) * 2 ^ t := by push_cast; ring

/-- One more term. -/
theorem accum {k l : Nat} (hr : F.Room l t) (hk : k < l) {s v : Trapped e F} (hs : Le (k * 2 ^ t) s) (hv : Le (2 ^ t) v) :
    ∃ r : Trapped e F, CScalar.add s v = .ok r ∧ Le (((k + 1 : Nat) : ℝ) * 2 ^ t) r ∧
      (0 ≤ Fl.val (F := F) s → 0 ≤ Fl.val (F := F) v → 0 ≤ Fl.val (F := F) r) :=
  tAdd hs hv (step t k).le (hr.mono hk).number

theorem one_room (hr : F.Room n t) (h : 0 < n) : F.Number (2 ^ t) := by
  have := (hr.mono h).number
  simpa using this

theorem mult_range {A : Mat (Trapped e F) n m} {B : Mat (Trapped e F) m p} (hA : ElementsAtMost (F := F) x A) (hB : ElementsAtMost (F := F) y B)
    (hxy : x * y ≤ 2 ^ t) (hr : F.Room m t) :
    ∃ P : Mat (Fl F) n p, mult (T := Trapped e F) A B = .ok P ∧ ElementsAtMost (m * 2 ^ t) P := by
  refine elements (Q := fun v : Fl F => AtMost (m * 2 ^ t) v) (mult_elementwise (T := Trapped e F) A B) fun a b => ?_
  refine wp_total (Q := fun v : Trapped e F => AtMost (F := F) (m * 2 ^ t) v) ?_
  unfold dotFrom
  refine wp_forUp (fun k (s : Trapped e F) => AtMost (F := F) (k * 2 ^ t) s) (Nat.zero_le _) ?_ ?_ fun _ h => h
  · exact atMost_zero (by simp)
  intro k s _ hk hs
  rw [rd_eq a.2 hk, ok_bind, rd_eq hk b.2, ok_bind]
  obtain ⟨v, h1, h2⟩ := tMul (hA a ⟨k, hk⟩) (hB ⟨k, hk⟩ b) hxy (one_room hr (by omega))
  obtain ⟨r, h3, h4, _⟩ := accum hr hk hs h2
  rw [h1, ok_bind, h3]
  exact h4

theorem sum_range {A B : Mat (Trapped e F) i j} (hA : ElementsAtMost (F := F) x A) (hB : ElementsAtMost (F := F) y B) (hz : x + y ≤ z) (hr : F.Number z) :
    ∃ S : Mat (Fl F) i j, sum (T := Trapped e F) A B = .ok S ∧ ElementsAtMost z S :=
  elements (Q := fun v : Fl F => AtMost z v) (sum_elementwise (T := Trapped e F) A B) fun a b => by
    obtain ⟨r, h1, h2, _⟩ := trapAdd_atMost (e := e) (hA a b) (hB a b) hz hr
    exact ⟨r, h1, h2⟩

theorem sub_range {A B : Mat (Trapped e F) i j} (hA : ElementsAtMost (F := F) x A) (hB : ElementsAtMost (F := F) y B) (hz : x + y ≤ z) (hr : F.Number z) :
    ∃ S : Mat (Fl F) i j, sub (T := Trapped e F) A B = .ok S ∧ ElementsAtMost z S :=
  elements (Q := fun v : Fl F => AtMost z v) (sub_elementwise (T := Trapped e F) A B) fun a b =>
    trapSub_atMost (e := e) (hA a b) (hB a b) hz hr

theorem sumScalar_range {A : Mat (Trapped e F) i j} {s : Trapped e F} (hA : ElementsAtMost (F := F) x A) (hs : AtMost (F := F) y s) (hz : x + y ≤ z) (hr : F.Number z) :
    ∃ S : Mat (Fl F) i j, sumScalar (T := Trapped e F) A s = .ok S ∧ ElementsAtMost z S :=
  elements (Q := fun v : Fl F => AtMost z v) (sumScalar_elementwise (T := Trapped e F) A s) fun a b => by
    obtain ⟨r, h1, h2, _⟩ := trapAdd_atMost (e := e) (hA a b) hs hz hr
    exact ⟨r, h1, h2⟩

theorem subScalar_range {A : Mat (Trapped e F) i j} {s : Trapped e F} (hA : ElementsAtMost (F := F) x A) (hs : AtMost (F := F) y s) (hz : x + y ≤ z) (hr : F.Number z) :
    ∃ S : Mat (Fl F) i j, subScalar (T := Trapped e F) A s = .ok S ∧ ElementsAtMost z S :=
  elements (Q := fun v : Fl F => AtMost z v) (subScalar_elementwise (T := Trapped e F) A s) fun a b =>
    trapSub_atMost (e := e) (hA a b) hs hz hr

theorem multScalar_range {A : Mat (Trapped e F) i j} {s : Trapped e F} (hA : ElementsAtMost (F := F) x A) (hs : AtMost (F := F) y s) (hz : x * y ≤ z) (hr : F.Number z) :
    ∃ S : Mat (Fl F) i j, multScalar (T := Trapped e F) A s = .ok S ∧ ElementsAtMost z S :=
  elements (Q := fun v : Fl F => AtMost z v) (multScalar_elementwise (T := Trapped e F) A s) fun a b => by
    exact tMul (hA a b) hs hz hr

/-- Numbers that are not near zero do not compare equal to zero. -/
theorem ne_zero {s : Trapped e F} (hs : Fl.Finite (F := F) s) (h0 : 0 < y) (hy : y ≤ |e.val (F := F) s|) :
    CScalar.eq (T := Trapped e F) s (CScalar.ofInt 0) = false := by
  show Fl.eq (F := F) (e.seen (F := F) s) (e.seen (F := F) (Fl.ofInt 0)) = false
  rw [← Bool.not_eq_true, Fl.eq_iff ((finite_seen e).mpr hs) ((finite_seen e).mpr zero_finite)]
  intro h
  have h1 : e.val (F := F) s = 0 := h.trans (val_zero e)
  rw [h1, abs_zero] at hy
  linarith

theorem div_range (handled : Option Exc) {A : Mat (Trapped e F) i j} {s : Trapped e F} (hA : ElementsAtMost (F := F) x A)
    (hs : Fl.Finite (F := F) s) (h0 : 0 < y) (hy : y ≤ |e.val (F := F) s|) (hz : x ≤ z * y) (hr : F.Number z) :
    ∃ S : Mat (Fl F) i j, div (T := Trapped e F) handled A s = .ok S ∧ ElementsAtMost z S := by
  have hne := ne_zero hs h0 hy
  refine elements (Q := fun v : Fl F => AtMost z v) (div_elementwise (T := Trapped e F) handled A s hne) fun a b => ?_
  obtain ⟨r, h1, h2, _⟩ := trapDiv_atMost (e := e) (hA a b) hs h0 hy hz hr
  exact ⟨r, h1, h2⟩

theorem compare_range {A B : Mat (Fl F) i j} (eps : Fl F) (hA : ElementsAtMost x A) (hB : ElementsAtMost y B) (hz : x + y ≤ z) (hr : F.Number z) :
    ∃ b, compare (T := Trapped e F) A B eps = .ok b ∧
      (b = true ↔ ∀ i j, (e.seen eps).lt (e.seen (e.sub (A i j) (B i j)).abs) = false) := by
  have hs : ∀ a b, CScalar.sub (T := Trapped e F) (A a b) (B a b) = .ok (e.sub (A a b) (B a b)) := by
    intro a b
    obtain ⟨r, h1, _⟩ := trapSub_atMost (e := e) (hA a b) (hB a b) hz hr
    obtain ⟨_, h2⟩ := guarded_ok h1
    rw [← h2]
    exact h1
  unfold compare compareLoop
  refine scan_ok (fun it jt => do
      let d ← CScalar.abs (T := Trapped e F) (← CScalar.sub (T := Trapped e F) (← rd A it jt) (← rd B it jt))
      if CScalar.lt (T := Trapped e F) eps d then .ok (.ret false)
      else .ok (.cont ())) (fun i j => (e.seen eps).lt (e.seen (e.sub (A i j) (B i j)).abs) = false) ?_ ?_
  · intro a b h
    rw [rd_fin, ok_bind, rd_fin, ok_bind, hs]
    show (if (e.seen eps).lt (e.seen (e.sub (A a b) (B a b)).abs) = true then _ else _) = _
    rw [h]
    rfl
  · intro a b h
    rw [rd_fin, ok_bind, rd_fin, ok_bind, hs]
    show (if (e.seen eps).lt (e.seen (e.sub (A a b) (B a b)).abs) = true then _ else _) = _
    rw [(Bool.not_eq_false _).mp h]
    rfl

/-! ### Convolution -/

theorem convTerm_range {A : Mat (Trapped e F) i j} {k : Mat (Trapped e F) 3 3} (hA : ElementsAtMost (F := F) x A) (hk : ElementsAtMost (F := F) y k)
    (hxy : y * x ≤ 2 ^ t) (hz : F.Number (2 ^ t)) (a' b' : Fin 3) (a b : ℤ)
    (hi : i ≤ 2 ^ 31) (hj : j ≤ 2 ^ 31)
    (ha : -(2 ^ 31) ≤ a) (ha' : a < 2 ^ 32) (hb : -(2 ^ 31) ≤ b) (hb' : b < 2 ^ 32) :
    ∃ v : Fl F, convTerm (T := Trapped e F) A k a' b' (szOf a) (szOf b) = .ok v ∧ AtMost (2 ^ t) v := by
  unfold convTerm
  by_cases hr : isOutOfRange i j (szToInt (szOf a)) (szToInt (szOf b)) = 0
  · rw [if_neg (not_not.mpr hr)]
    rw [isOutOfRange_eq_zero, inRange_iff i (by omega) a ha ha',
      inRange_iff j (by omega) b hb hb'] at hr
    obtain ⟨⟨⟨h1, h2⟩, h3⟩, ⟨h4, h5⟩, h6⟩ := hr
    have hM : (sizeMod : ℤ) = 2 ^ 64 := by unfold sizeMod; norm_num
    have ea : szOf a = a.toNat := by
      unfold szOf; rw [Int.emod_eq_of_lt h1 (by rw [hM]; omega)]
    have eb : szOf b = b.toNat := by
      unfold szOf; rw [Int.emod_eq_of_lt h4 (by rw [hM]; omega)]
    rw [ea, eb, rd_fin, ok_bind, rd_eq (by omega) (by omega), ok_bind]
    obtain ⟨v, q1, q2, _⟩ := trapMul_atMost (e := e) (hk a' b') (hA ⟨a.toNat, by omega⟩ ⟨b.toNat, by omega⟩) hxy hz
    exact ⟨v, q1, q2⟩
  · rw [if_pos hr]
    exact ⟨_, rfl, atMost_zero hz.nonneg⟩

theorem accumVal_range {l : Nat} (hr : F.Room l t) : ∀ (ts : List (Res (Trapped e F))) (k : Nat) (v : Trapped e F), k + ts.length ≤ l →
    Le (k * 2 ^ t) v → (∀ q ∈ ts, ∃ w : Trapped e F, q = .ok w ∧ Le (2 ^ t) w) →
    ∃ r : Trapped e F, accumVal ts v = .ok r ∧ Le (((k + ts.length : Nat) : ℝ) * 2 ^ t) r
  | [], k, v, _, hv, _ => ⟨v, rfl, by simpa using hv⟩
  | q :: ts, k, v, hl, hv, hq => by
    obtain ⟨w, h1, h2⟩ := hq q (List.mem_cons_self ..)
    rw [List.length_cons] at hl
    obtain ⟨r, h3, h4, _⟩ := accum (e := e) hr (show k < l by omega) hv h2
    obtain ⟨r', h5, h6⟩ := accumVal_range hr ts (k + 1) r (by omega) h4 fun q h => hq q (List.mem_cons_of_mem _ h)
    refine ⟨r', ?_, ?_⟩
    · show (q >>= fun t => CScalar.add (T := Trapped e F) v t >>= fun v => accumVal (T := Trapped e F) ts v) = _
      rw [h1, ok_bind, h3, ok_bind]
      exact h5
    · rw [List.length_cons, show k + (ts.length + 1) = k + 1 + ts.length by omega]
      exact h6

theorem convCell_range {A : Mat (Trapped e F) i j} {k : Mat (Trapped e F) 3 3} (hA : ElementsAtMost (F := F) x A) (hk : ElementsAtMost (F := F) y k)
    (hxy : y * x ≤ 2 ^ t) (hr : F.Room 9 t) (a b : ℤ)
    (hi : i ≤ 2 ^ 31) (hj : j ≤ 2 ^ 31)
    (ha : -1 ≤ a) (ha' : a + 1 < 2 ^ 32) (hb : -1 ≤ b) (hb' : b + 1 < 2 ^ 32) :
    ∃ v : Fl F, convCell (T := Trapped e F) A k a b = .ok v ∧ AtMost (9 * 2 ^ t) v := by
  have h := accumVal_range (e := e) hr [
    convTerm (T := Trapped e F) A k 0 0 (szOf (a - 1)) (szOf (b - 1)),
    convTerm (T := Trapped e F) A k 0 1 (szOf (a - 1)) (szOf b),
    convTerm (T := Trapped e F) A k 0 2 (szOf (a - 1)) (szOf (b + 1)),
    convTerm (T := Trapped e F) A k 1 0 (szOf a) (szOf (b - 1)),
    convTerm (T := Trapped e F) A k 1 1 (szOf a) (szOf b),
    convTerm (T := Trapped e F) A k 1 2 (szOf a) (szOf (b + 1)),
    convTerm (T := Trapped e F) A k 2 0 (szOf (a + 1)) (szOf (b - 1)),
    convTerm (T := Trapped e F) A k 2 1 (szOf (a + 1)) (szOf b),
    convTerm (T := Trapped e F) A k 2 2 (szOf (a + 1)) (szOf (b + 1))] 0 (Fl.ofInt 0) (by simp) (atMost_zero (by simp)) (by
      have hz := one_room hr (by omega)
      intro q hq
      simp only [List.mem_cons, List.not_mem_nil, or_false] at hq
      rcases hq with rfl | rfl | rfl | rfl | rfl | rfl | rfl | rfl | rfl
      · exact convTerm_range hA hk hxy hz 0 0 (a - 1) (b - 1) hi hj (by omega) (by omega) (by omega) (by omega)
      · exact convTerm_range hA hk hxy hz 0 1 (a - 1) b hi hj (by omega) (by omega) (by omega) (by omega)
      · exact convTerm_range hA hk hxy hz 0 2 (a - 1) (b + 1) hi hj (by omega) (by omega) (by omega) (by omega)
      · exact convTerm_range hA hk hxy hz 1 0 a (b - 1) hi hj (by omega) (by omega) (by omega) (by omega)
      · exact convTerm_range hA hk hxy hz 1 1 a b hi hj (by omega) (by omega) (by omega) (by omega)
      · exact convTerm_range hA hk hxy hz 1 2 a (b + 1) hi hj (by omega) (by omega) (by omega) (by omega)
      · exact convTerm_range hA hk hxy hz 2 0 (a + 1) (b - 1) hi hj (by omega) (by omega) (by omega) (by omega)
      · exact convTerm_range hA hk hxy hz 2 1 (a + 1) b hi hj (by omega) (by omega) (by omega) (by omega)
      · exact convTerm_range hA hk hxy hz 2 2 (a + 1) (b + 1) hi hj (by omega) (by omega) (by omega) (by omega))
  obtain ⟨v, h1, h2⟩ := h
  exact ⟨v, h1, AtMost.mono h2 (by norm_num)⟩

theorem conv2_range {A : Mat (Trapped e F) i j} {k : Mat (Trapped e F) 3 3} (hA : ElementsAtMost (F := F) x A) (hk : ElementsAtMost (F := F) y k)
    (hxy : y * x ≤ 2 ^ t) (hr : F.Room 9 t) (hi : i ≤ 2 ^ 31) (hj : j ≤ 2 ^ 31) :
    ∃ S : Mat (Fl F) i j, conv2 (T := Trapped e F) A k = .ok S ∧ ElementsAtMost (9 * 2 ^ t) S := by
  rw [conv2_cells (T := Trapped e F) A k (by unfold sizeMod; omega) (by unfold sizeMod; omega)]
  refine elements (Q := fun v : Fl F => AtMost (9 * 2 ^ t) v) (elementwise_loop (T := Trapped e F) (valueInit i j)
    (g := fun it jt => convCell (T := Trapped e F) A k it jt)
    (f := fun a b => convCell (T := Trapped e F) A k a.val b.val) fun a b => rfl) fun a b => ?_
  have := a.2
  have := b.2
  exact convCell_range hA hk hxy hr a.val b.val hi hj (by omega) (by omega) (by omega) (by omega)

theorem conv2_full_range {A : Mat (Trapped e F) i j} {k : Mat (Trapped e F) 3 3} (hA : ElementsAtMost (F := F) x A) (hk : ElementsAtMost (F := F) y k)
    (hxy : y * x ≤ 2 ^ t) (hr : F.Room 9 t) (hi : i ≤ 2 ^ 31) (hj : j ≤ 2 ^ 31) :
    ∃ S : Mat (Fl F) (i + 2) (j + 2), conv2_full (T := Trapped e F) A k = .ok S ∧ ElementsAtMost (9 * 2 ^ t) S := by
  rw [conv2_full_cells (T := Trapped e F) A k (by unfold sizeMod; omega) (by unfold sizeMod; omega)]
  refine elements (Q := fun v : Fl F => AtMost (9 * 2 ^ t) v) (elementwise_loop (T := Trapped e F) (valueInit (i + 2) (j + 2))
    (g := fun it jt => convCell (T := Trapped e F) A k ((it : ℤ) - 1) ((jt : ℤ) - 1))
    (f := fun a b => convCell (T := Trapped e F) A k ((a.val : ℤ) - 1) ((b.val : ℤ) - 1)) fun a b => rfl) fun a b => ?_
  have := a.2
  have := b.2
  exact convCell_range hA hk hxy hr _ _ hi hj (by omega) (by omega) (by omega) (by omega)

theorem conv2_valid_range {A : Mat (Trapped e F) (m + 2) (m + 2)} {k : Mat (Trapped e F) 3 3} (hA : ElementsAtMost (F := F) x A) (hk : ElementsAtMost (F := F) y k)
    (hxy : y * x ≤ 2 ^ t) (hr : F.Room 9 t) (hm : m + 2 ≤ 2 ^ 31) :
    ∃ V : Mat (Fl F) m m, conv2_valid (T := Trapped e F) A k = .ok V ∧ ElementsAtMost (9 * 2 ^ t) V := by
  obtain ⟨S, hS, h⟩ := conv2_range (e := e) hA hk hxy hr hm hm
  obtain ⟨V, hV, hVS⟩ := (C49_conv2_valid_any (T := Trapped e F) A k).2 S hS
  refine ⟨V, hV, fun a b => ?_⟩
  rw [show V a b = _ from hVS a b]
  exact h _ _

/-! ### Determinants -/

theorem det2_range {A : Mat (Trapped e F) 2 2} (hA : ElementsAtMost (F := F) x A) (hx : x * x ≤ 2 ^ t) (hr : F.Room 2 t) :
    ∃ D : Fl F, det (T := Trapped e F) A = .ok D ∧ AtMost (2 * 2 ^ t) D := by
  have hz := one_room hr (by omega)
  obtain ⟨p1, h1, k1⟩ := tMul (hA 0 0) (hA 1 1) hx hz
  obtain ⟨p2, h2, k2⟩ := tMul (hA 0 1) (hA 1 0) hx hz
  obtain ⟨D, h3, k3⟩ := tSub k1 k2 (le_of_eq (two_mul _).symm) (by simpa using hr.number)
  refine ⟨D, ?_, k3⟩
  show det2 A = _
  unfold det2
  rw [rd_eq (by omega) (by omega), rd_eq (by omega) (by omega), rd_eq (by omega) (by omega), rd_eq (by omega) (by omega)]
  simp only [ok_bind]
  show (CScalar.mul (A 0 0) (A 1 1) >>= fun p => CScalar.mul (A 0 1) (A 1 0) >>= fun q => CScalar.sub p q) = _
  rw [h1, ok_bind, h2, ok_bind]
  exact h3

theorem det3_range {A : Mat (Trapped e F) 3 3} (hA : ElementsAtMost (F := F) x A) (hx : x * x ≤ z) (hz : F.Number z)
    (hzx : z * x ≤ 2 ^ t) (hr : F.Room 6 t) :
    ∃ D : Trapped e F, det A = .ok D ∧ Le (6 * 2 ^ t) D := by
  have h1 := one_room hr (by omega)
  have triple : ∀ a b c a' b' c', ∃ v w : Trapped e F, CScalar.mul (A a a') (A b b') = .ok v ∧ CScalar.mul v (A c c') = .ok w ∧
      Le (2 ^ t) w := by
    intro a b c a' b' c'
    obtain ⟨v, p1, p2⟩ := tMul (hA a a') (hA b b') hx hz
    obtain ⟨w, p3, p4⟩ := tMul p2 (hA c c') hzx h1
    exact ⟨v, w, p1, p3, p4⟩
  have plus : ∀ k : Nat, k < 6 → ∀ s v : Trapped e F, Le (k * 2 ^ t) s → Le (2 ^ t) v →
      ∃ r : Trapped e F, CScalar.add s v = .ok r ∧ Le (((k + 1 : Nat) : ℝ) * 2 ^ t) r := by
    intro k hk s v hs hv
    obtain ⟨r, p1, p2, _⟩ := accum hr hk hs hv
    exact ⟨r, p1, p2⟩
  have minus : ∀ k : Nat, k < 6 → ∀ s v : Trapped e F, Le (k * 2 ^ t) s → Le (2 ^ t) v →
      ∃ r : Trapped e F, CScalar.sub s v = .ok r ∧ Le (((k + 1 : Nat) : ℝ) * 2 ^ t) r := fun k hk s v hs hv =>
    tSub hs hv (step t k).le (hr.mono hk).number
  obtain ⟨v1, w1, a1, b1, c1⟩ := triple 0 1 2 0 1 2
  obtain ⟨v2, w2, a2, b2, c2⟩ := triple 0 1 2 1 2 0
  obtain ⟨v3, w3, a3, b3, c3⟩ := triple 0 1 2 2 0 1
  obtain ⟨v4, w4, a4, b4, c4⟩ := triple 0 1 2 2 1 0
  obtain ⟨v5, w5, a5, b5, c5⟩ := triple 0 1 2 1 0 2
  obtain ⟨v6, w6, a6, b6, c6⟩ := triple 0 1 2 0 2 1
  obtain ⟨s2, d2, f2⟩ := plus 1 (by omega) w1 w2 (by simpa using c1) c2
  obtain ⟨s3, d3, f3⟩ := plus 2 (by omega) s2 w3 f2 c3
  obtain ⟨s4, d4, f4⟩ := minus 3 (by omega) s3 w4 f3 c4
  obtain ⟨s5, d5, f5⟩ := minus 4 (by omega) s4 w5 f4 c5
  obtain ⟨s6, d6, f6⟩ := minus 5 (by omega) s5 w6 f5 c6
  refine ⟨s6, ?_, f6.mono (by norm_num)⟩
  show det3 A = _
  unfold det3
  iterate 9 rw [rd_eq (by omega) (by omega), ok_bind]
  simp only [Fin.mk_zero, Fin.mk_one] at *
  have e2 : (⟨2, by omega⟩ : Fin 3) = 2 := rfl
  simp only [e2, a1, b1, a2, b2, a3, b3, a4, b4, a5, b5, a6, b6, d2, d3, d4, d5, d6, ok_bind]

/-! ### Inverses -/

theorem inv1_range (handled : Option Exc) {A : Mat (Trapped e F) 1 1} (hf : Fl.Finite (F := F) (A 0 0)) (h0 : 0 < y)
    (hy : y ≤ |e.val (F := F) (A 0 0)|) (hz : 1 ≤ z * y) (hr : F.Number z) :
    ∃ B : Mat (Trapped e F) 1 1, inv handled A = .ok B ∧ ElementsAtMost (F := F) z B := by
  have h1 : AtMost (F := F) 1 (Fl.ofInt 1) := by
    have := val_ofInt_exact (F := F) 1 (by simpa using Nat.one_le_two_pow)
    exact ⟨this.1, by rw [this.2]; norm_num⟩
  obtain ⟨v, h2, h3, _⟩ := trapDiv_atMost (e := e) h1 hf h0 hy hz hr
  refine ⟨Mat.const v, ?_, fun _ _ => h3⟩
  show inv1 A = _
  unfold inv1 det1
  rw [rd_eq (by omega) (by omega), ok_bind]
  show ((e.trapDiv (F := F) (Fl.ofInt 1) (A 0 0)) >>= _) = _
  rw [h2]
  rfl

theorem inv2_range (handled : Option Exc) {A : Mat (Trapped e F) 2 2} (hA : ElementsAtMost (F := F) x A) (hx : x * x ≤ 2 ^ t)
    (hr : F.Room 2 t) (h0 : 0 < y) (hy : ∀ D : Fl F, det A = .ok D → y ≤ |e.val D|) (hz : x ≤ z * y) (hn : F.Number z) :
    ∃ B : Mat (Trapped e F) 2 2, inv handled A = .ok B ∧ ElementsAtMost (F := F) z B := by
  obtain ⟨(D : Trapped e F), h1, h2⟩ := det2_range (e := e) hA hx hr
  have hD := hy D h1
  have hne := ne_zero (e := e) (s := D) h2.1 h0 hD
  have hb : ElementsAtMost (F := F) x (brace2 (T := Trapped e F) (A 1 1) (Fl.neg (F := F) (A 0 1)) (Fl.neg (F := F) (A 1 0)) (A 0 0)) := by
    intro a b
    unfold brace2
    fin_cases a <;> fin_cases b
    · exact hA 1 1
    · exact (hA 0 1).neg
    · exact (hA 1 0).neg
    · exact hA 0 0
  obtain ⟨B, h3, h4⟩ := div_range (e := e) handled hb h2.1 h0 hD hz hn
  refine ⟨B, ?_, h4⟩
  show inv2 handled A = _
  unfold inv2
  have h1' : det2 A = .ok D := h1
  rw [h1', ok_bind, if_neg (by rw [hne]; simp)]
  iterate 4 rw [rd_eq (by omega) (by omega)]
  exact h3

theorem cross_range {p q r s : Trapped e F} (hp : Le x p) (hq : Le x q) (hr : Le x r) (hs : Le x s) (hx : x * x ≤ 2 ^ t)
    (hm : F.Room 2 t) : ∃ v : Trapped e F, cross p q r s = .ok v ∧ Le (2 * 2 ^ t) v := by
  have hz := one_room hm (by omega)
  obtain ⟨p1, h1, k1⟩ := tMul hp hq hx hz
  obtain ⟨p2, h2, k2⟩ := tMul hr hs hx hz
  obtain ⟨v, h3, k3⟩ := tSub k1 k2 (le_of_eq (two_mul _).symm) (by simpa using hm.number)
  refine ⟨v, ?_, k3⟩
  unfold cross
  rw [h1, ok_bind, h2, ok_bind]
  exact h3

theorem inv3_range (handled : Option Exc) {A : Mat (Trapped e F) 3 3} (hA : ElementsAtMost (F := F) x A) {s : ℤ} (hx : x * x ≤ 2 ^ s)
    (hs : F.Room 2 s) (hzx : 2 ^ s * x ≤ 2 ^ t) (hr : F.Room 6 t) (h0 : 0 < y)
    (hy : ∀ D : Fl F, det A = .ok D → y ≤ |e.val D|) (hz : 2 * 2 ^ s ≤ z * y) (hn : F.Number z) :
    ∃ B : Mat (Trapped e F) 3 3, inv handled A = .ok B ∧ ElementsAtMost (F := F) z B := by
  obtain ⟨D, h1, h2⟩ := det3_range (e := e) hA hx (one_room hs (by omega)) hzx hr
  have hD := hy D h1
  have hne := ne_zero (e := e) (s := D) h2.1 h0 hD
  have cr : ∀ a a' b b' c c' d d', ∃ v : Trapped e F, cross (A a a') (A b b') (A c c') (A d d') = .ok v ∧ Le (2 * 2 ^ s) v :=
    fun a a' b b' c c' d d' => cross_range (hA a a') (hA b b') (hA c c') (hA d d') hx hs
  obtain ⟨x00, p00, q00⟩ := cr 1 1 2 2 1 2 2 1
  obtain ⟨x01, p01, q01⟩ := cr 0 2 2 1 0 1 2 2
  obtain ⟨x02, p02, q02⟩ := cr 0 1 1 2 0 2 1 1
  obtain ⟨x10, p10, q10⟩ := cr 1 2 2 0 1 0 2 2
  obtain ⟨x11, p11, q11⟩ := cr 0 0 2 2 0 2 2 0
  obtain ⟨x12, p12, q12⟩ := cr 0 2 1 0 0 0 1 2
  obtain ⟨x20, p20, q20⟩ := cr 1 0 2 1 1 1 2 0
  obtain ⟨x21, p21, q21⟩ := cr 0 1 2 0 0 0 2 1
  obtain ⟨x22, p22, q22⟩ := cr 0 0 1 1 0 1 1 0
  have hb : ElementsAtMost (F := F) (2 * 2 ^ s) (brace3 x00 x01 x02 x10 x11 x12 x20 x21 x22) := by
    intro a b
    unfold brace3
    fin_cases a <;> fin_cases b <;> assumption
  obtain ⟨B, h3, h4⟩ := div_range (e := e) handled hb h2.1 h0 hD hz hn
  refine ⟨B, ?_, h4⟩
  show inv3 handled A = _
  unfold inv3
  have h1' : det3 A = .ok D := h1
  rw [h1', ok_bind, if_neg (by rw [hne]; simp)]
  iterate 9 rw [rd_eq (by omega) (by omega), ok_bind]
  simp only [Fin.mk_zero, Fin.mk_one] at *
  have e2 : (⟨2, by omega⟩ : Fin 3) = 2 := rfl
  simp only [e2, p00, p01, p02, p10, p11, p12, p20, p21, p22, ok_bind]
  exact h3

/-! ### Strassen products and powers -/

theorem strassen_range {A B : Mat (Trapped e F) 2 2} {u v : ℤ} (hA : ElementsAtMost (F := F) (2 ^ u) A)
    (hB : ElementsAtMost (F := F) (2 ^ v) B) (hu : F.Room 2 u) (hv : F.Room 2 v) (hr : F.Room 12 (u + v)) :
    ∃ P : Mat (Trapped e F) 2 2, strassen A B = .ok P ∧ ElementsAtMost (F := F) (12 * 2 ^ (u + v)) P := by
  have e1 : (2 : ℝ) ^ (u + v) = 2 ^ u * 2 ^ v := zpow_add₀ (by norm_num) _ _
  have hu2 : F.Number (2 * 2 ^ u) := by simpa using hu.number
  have hv2 : F.Number (2 * 2 ^ v) := by simpa using hv.number
  have num : ∀ k : Nat, k ≤ 12 → F.Number (k * 2 ^ (u + v)) := fun k hk => (hr.mono hk).number
  have n2 : F.Number (2 * 2 ^ (u + v)) := by simpa using num 2 (by omega)
  have n4 : F.Number (4 * 2 ^ (u + v)) := by simpa using num 4 (by omega)
  have n6 : F.Number (6 * 2 ^ (u + v)) := by simpa using num 6 (by omega)
  have n8 : F.Number (8 * 2 ^ (u + v)) := by simpa using num 8 (by omega)
  have n12 : F.Number (12 * 2 ^ (u + v)) := by simpa using num 12 (by omega)
  have hp : (0 : ℝ) < 2 ^ (u + v) := by positivity
  obtain ⟨s1, h1, q1⟩ := tSub (hB 0 1) (hB 1 1) (two_mul _).symm.le hv2
  obtain ⟨M1, k1, l1⟩ := tMul (hA 0 0) q1 (z := 2 * 2 ^ (u + v)) (by rw [e1]; linarith) n2
  obtain ⟨s2, h2, q2, _⟩ := tAdd (hA 0 0) (hA 0 1) (two_mul _).symm.le hu2
  obtain ⟨M2, k2, l2⟩ := tMul q2 (hB 1 1) (z := 2 * 2 ^ (u + v)) (by rw [e1]; linarith) n2
  obtain ⟨s3, h3, q3, _⟩ := tAdd (hA 1 0) (hA 1 1) (two_mul _).symm.le hu2
  obtain ⟨M3, k3, l3⟩ := tMul q3 (hB 0 0) (z := 2 * 2 ^ (u + v)) (by rw [e1]; linarith) n2
  obtain ⟨s4, h4, q4⟩ := tSub (hB 1 0) (hB 0 0) (two_mul _).symm.le hv2
  obtain ⟨M4, k4, l4⟩ := tMul (hA 1 1) q4 (z := 2 * 2 ^ (u + v)) (by rw [e1]; linarith) n2
  obtain ⟨s5, h5, q5, _⟩ := tAdd (hA 0 0) (hA 1 1) (two_mul _).symm.le hu2
  obtain ⟨t5, g5, r5, _⟩ := tAdd (hB 0 0) (hB 1 1) (two_mul _).symm.le hv2
  obtain ⟨M5, k5, l5⟩ := tMul q5 r5 (z := 4 * 2 ^ (u + v)) (by rw [e1]; linarith) n4
  obtain ⟨s6, h6, q6⟩ := tSub (hA 0 1) (hA 1 1) (two_mul _).symm.le hu2
  obtain ⟨t6, g6, r6, _⟩ := tAdd (hB 1 0) (hB 1 1) (two_mul _).symm.le hv2
  obtain ⟨M6, k6, l6⟩ := tMul q6 r6 (z := 4 * 2 ^ (u + v)) (by rw [e1]; linarith) n4
  obtain ⟨s7, h7, q7⟩ := tSub (hA 0 0) (hA 1 0) (two_mul _).symm.le hu2
  obtain ⟨t7, g7, r7, _⟩ := tAdd (hB 0 0) (hB 0 1) (two_mul _).symm.le hv2
  obtain ⟨M7, k7, l7⟩ := tMul q7 r7 (z := 4 * 2 ^ (u + v)) (by rw [e1]; linarith) n4
  obtain ⟨c1, b1, f1, _⟩ := tAdd l5 l4 (z := 6 * 2 ^ (u + v)) (by linarith) n6
  obtain ⟨c2, b2, f2⟩ := tSub f1 l2 (z := 8 * 2 ^ (u + v)) (by linarith) n8
  obtain ⟨p00, b3, f3, _⟩ := tAdd f2 l6 (z := 12 * 2 ^ (u + v)) (by linarith) n12
  obtain ⟨p01, b4, f4, _⟩ := tAdd l1 l2 (z := 4 * 2 ^ (u + v)) (by linarith) n4
  obtain ⟨p10, b5, f5, _⟩ := tAdd l3 l4 (z := 4 * 2 ^ (u + v)) (by linarith) n4
  obtain ⟨c6, b6, f6, _⟩ := tAdd l1 l5 (z := 6 * 2 ^ (u + v)) (by linarith) n6
  obtain ⟨c7, b7, f7, _⟩ := tAdd l3 l7 (z := 6 * 2 ^ (u + v)) (by linarith) n6
  obtain ⟨p11, b8, f8⟩ := tSub f6 f7 (z := 12 * 2 ^ (u + v)) (by linarith) n12
  unfold strassen
  rw [rd_eq (show 0 < 2 by omega) (show 0 < 2 by omega), ok_bind, rd_eq (show 0 < 2 by omega) (show 1 < 2 by omega), ok_bind,
    rd_eq (show 1 < 2 by omega) (show 0 < 2 by omega), ok_bind, rd_eq (show 1 < 2 by omega) (show 1 < 2 by omega), ok_bind]
  rw [rd_eq (show 0 < 2 by omega) (show 0 < 2 by omega), ok_bind, rd_eq (show 0 < 2 by omega) (show 1 < 2 by omega), ok_bind,
    rd_eq (show 1 < 2 by omega) (show 0 < 2 by omega), ok_bind, rd_eq (show 1 < 2 by omega) (show 1 < 2 by omega), ok_bind]
  simp only [Fin.mk_zero, Fin.mk_one, h1, k1, h2, k2, h3, k3, h4, k4, h5, g5, k5, h6, g6, k6, h7, g7, k7, b1, b2, b3, b4,
    b5, b6, b7, b8, ok_bind, wr_eq (show 0 < 2 by omega) (show 0 < 2 by omega), wr_eq (show 0 < 2 by omega) (show 1 < 2 by omega),
    wr_eq (show 1 < 2 by omega) (show 0 < 2 by omega), wr_eq (show 1 < 2 by omega) (show 1 < 2 by omega)]
  refine ⟨_, rfl, fun a b => ?_⟩
  fin_cases a <;> fin_cases b
  · exact f3
  · exact AtMost.mono f4 (by linarith)
  · exact AtMost.mono f5 (by linarith)
  · exact f8

/-- The exponent that bounds a `q`-th power of a matrix of at most `2^s` rows with elements of at most `2^t`. -/
def powExp (s t q : Nat) : Nat := s * (q - 1) + t * q

theorem powExp_add {s t q r : Nat} (hq : 1 ≤ q) (hr : 1 ≤ r) : powExp s t (q + r) = powExp s t q + powExp s t r + s := by
  obtain ⟨q, rfl⟩ := Nat.exists_eq_add_of_le hq
  obtain ⟨r, rfl⟩ := Nat.exists_eq_add_of_le hr
  unfold powExp
  rw [show 1 + q - 1 = q by omega, show 1 + r - 1 = r by omega, show 1 + q + (1 + r) - 1 = 1 + q + r by omega]
  ring

theorem powExp_mono {s t q r : Nat} (h : q ≤ r) : powExp s t q ≤ powExp s t r := by
  unfold powExp
  exact Nat.add_le_add (Nat.mul_le_mul_left s (by omega)) (Nat.mul_le_mul_left t h)

theorem pow_prod {A B : Mat (Trapped e F) n n} {s t q r : Nat} (hn : n ≤ 2 ^ s) (hs : s ≤ F.p) (hq : 1 ≤ q) (hr : 1 ≤ r)
    (hA : ElementsAtMost (F := F) (2 ^ powExp s t q) A) (hB : ElementsAtMost (F := F) (2 ^ powExp s t r) B)
    (hm : (2 : ℝ) ^ powExp s t (q + r) ≤ F.largest) :
    ∃ P : Mat (Trapped e F) n n, mult A B = .ok P ∧ ElementsAtMost (F := F) (2 ^ powExp s t (q + r)) P := by
  have h1 := F.hp
  have h2 := F.he
  have key : (n : ℝ) * 2 ^ ((powExp s t q + powExp s t r : Nat) : ℤ) ≤ 2 ^ powExp s t (q + r) := by
    rw [powExp_add hq hr, pow_add _ _ s, mul_comm ((2 : ℝ) ^ _), zpow_natCast]
    exact mul_le_mul_of_nonneg_right (by exact_mod_cast hn) (by positivity)
  obtain ⟨P, h3, h4⟩ := mult_range (e := e) (t := ((powExp s t q + powExp s t r : Nat) : ℤ)) hA hB
    (by rw [zpow_natCast, pow_add]) ⟨hn.trans (Nat.pow_le_pow_right (by omega) hs), by omega, key.trans hm⟩
  exact ⟨P, h3, fun a b => (h4 a b).mono key⟩

theorem powFuel_range {A : Mat (Trapped e F) n n} {s t : Nat} (hn : n ≤ 2 ^ s) (hs : s ≤ F.p)
    (hA : ElementsAtMost (F := F) (2 ^ t) A) (handled : Option Exc) (w : Nat) :
    ∀ q d : Nat, 1 ≤ q → q.log2 + 1 ≤ d → (2 : ℝ) ^ powExp s t q ≤ F.largest →
      ∃ P : Mat (Trapped e F) n n, powFuel handled w d A (q : Int) = .ok P ∧ ElementsAtMost (F := F) (2 ^ powExp s t q) P := by
  have hA1 : ElementsAtMost (F := F) (2 ^ powExp s t 1) A := by
    unfold powExp
    simpa using hA
  intro q
  induction q using Nat.strong_induction_on with
  | _ q ih =>
    intro d h1 hd hm
    obtain ⟨d, rfl⟩ : ∃ k, d = k + 1 := ⟨d - 1, by omega⟩
    rcases (show q = 1 ∨ 2 ≤ q by omega) with rfl | hq
    · rw [Nat.cast_one, powFuel_one]
      exact ⟨A, rfl, hA1⟩
    · rw [powFuel_step _ _ _ _ _ hq]
      have hlog : q.log2 = (q / 2).log2 + 1 := by rw [Nat.log2_def, if_pos hq]
      have low : ∀ r, r ≤ q → (2 : ℝ) ^ powExp s t r ≤ F.largest := fun r hr =>
        (pow_le_pow_right₀ (by norm_num) (powExp_mono hr)).trans hm
      obtain ⟨Q, h2, h3⟩ := ih (q / 2) (by omega) d (by omega) (by omega) (low _ (by omega))
      obtain ⟨S, h4, h5⟩ := pow_prod hn hs (by omega) (by omega) h3 h3 (low _ (by omega))
      unfold powStep
      rw [h2, ok_bind]
      split
      · refine ⟨S, h4, ?_⟩
        rwa [show q / 2 + q / 2 = q by omega] at h5
      · obtain ⟨P, h6, h7⟩ := pow_prod hn hs (by omega) le_rfl h5 hA1 (low _ (by omega))
        have h4' : opMul Q Q = .ok S := h4
        rw [h4', ok_bind]
        refine ⟨P, h6, ?_⟩
        rwa [show q / 2 + q / 2 + 1 = q by omega] at h7

/-! ### Statistics -/

theorem sumAll_range {A : Mat (Trapped e F) i j} (hA : ElementsAtMost (F := F) (2 ^ t) A) (hr : F.Room (i * j) t) :
    ∃ s : Trapped e F, (forUp 0 i (CScalar.ofInt 0 : Trapped e F) fun it result => forUp 0 j result fun jt result => do
      CScalar.add result (← rd A it jt)) = .ok s ∧ Le (((i * j : Nat) : ℝ) * 2 ^ t) s := by
  refine wp_total ?_
  refine wp_forUp (fun a s => Le (((a * j : Nat) : ℝ) * 2 ^ t) s) (Nat.zero_le _) ?_ ?_ fun _ h => h
  · exact atMost_zero (by simp)
  intro a s _ ha hs
  refine wp_forUp (fun b s => Le (((a * j + b : Nat) : ℝ) * 2 ^ t) s) (Nat.zero_le _) (by simpa using hs) ?_ ?_
  · intro b s _ hb hs
    rw [rd_eq ha hb, ok_bind]
    have hk : a * j + b < i * j := by
      calc a * j + b < a * j + j := by omega
        _ = (a + 1) * j := by ring
        _ ≤ i * j := Nat.mul_le_mul_right j ha
    obtain ⟨r, h1, h2, _⟩ := accum hr hk hs (hA ⟨a, ha⟩ ⟨b, hb⟩)
    rw [h1]
    exact h2
  · intro s hs
    rw [Nat.succ_mul]
    exact hs

theorem mean_range {A : Mat (Trapped e F) i j} (hA : ElementsAtMost (F := F) (2 ^ t) A) (h0 : i * j ≠ 0) (hr : F.Room (i * j) t) :
    ∃ μ : Trapped e F, mean A = .ok μ ∧ Le (2 ^ t) μ := by
  obtain ⟨s, h1, h2⟩ := sumAll_range hA hr
  obtain ⟨μ, h3, h4, _⟩ := tDivSize h2 h0 hr.1 (one_room hr (by omega))
  refine ⟨μ, ?_, h4⟩
  unfold mean
  rw [h1, ok_bind, h3]

theorem var_range {A : Mat (Trapped e F) i j} (hA : ElementsAtMost (F := F) (2 ^ t) A) (h0 : i * j ≠ 0) (hr : F.Room (i * j) t)
    (hr2 : F.Room (i * j) (2 * t + 2)) (hr1 : F.Room 1 (t + 1)) :
    ∃ v : Trapped e F, var A = .ok v ∧ Le (2 ^ (2 * t + 2)) v ∧ 0 ≤ Fl.val (F := F) v := by
  obtain ⟨μ, h1, h2⟩ := mean_range hA h0 hr
  have e1 : (2 : ℝ) ^ (t + 1) = 2 ^ t + 2 ^ t := by rw [zpow_add₀ (by norm_num), zpow_one]; ring
  have e2 : (2 : ℝ) ^ (2 * t + 2) = 2 ^ (t + 1) * 2 ^ (t + 1) := by rw [← zpow_add₀ (by norm_num)]; congr 1; ring
  have n1 := one_room hr1 (by omega)
  have n2 := one_room hr2 (by omega)
  unfold var
  rw [h1, ok_bind]
  obtain ⟨s, h3, h4, h5⟩ := wp_total (x := forUp 0 i (CScalar.ofInt 0 : Trapped e F) fun it result => forUp 0 j result fun jt result => do
        let d ← CScalar.sub (← rd A it jt) μ
        let e ← CScalar.sub (← rd A it jt) μ
        CScalar.add result (← CScalar.mul d e))
      (Q := fun s => Le (((i * j : Nat) : ℝ) * 2 ^ (2 * t + 2)) s ∧ 0 ≤ Fl.val (F := F) s) (by
    refine wp_forUp (fun a s => Le (((a * j : Nat) : ℝ) * 2 ^ (2 * t + 2)) s ∧ 0 ≤ Fl.val (F := F) s) (Nat.zero_le _) ?_ ?_ fun _ h => h
    · refine ⟨atMost_zero (by simp), ?_⟩
      exact le_of_eq (FpEnv.val_zero (F := F) FpEnv.default).symm
    intro a s _ ha hs
    refine wp_forUp (fun b s => Le (((a * j + b : Nat) : ℝ) * 2 ^ (2 * t + 2)) s ∧ 0 ≤ Fl.val (F := F) s) (Nat.zero_le _)
      (by simpa using hs) ?_ ?_
    · intro b s _ hb hs
      have hk : a * j + b < i * j := by
        calc a * j + b < a * j + j := by omega
          _ = (a + 1) * j := by ring
          _ ≤ i * j := Nat.mul_le_mul_right j ha
      obtain ⟨d, p1, p2⟩ := tSub (hA ⟨a, ha⟩ ⟨b, hb⟩) h2 e1.symm.le n1
      obtain ⟨q, p3, p4, p5⟩ := tSquare p2 e2.symm.le n2
      obtain ⟨r, p6, p7, p8⟩ := accum hr2 hk hs.1 p4
      simp only [rd_eq ha hb, ok_bind, p1, p3, p6]
      exact ⟨p7, p8 hs.2 p5⟩
    · intro s hs
      rw [Nat.succ_mul]
      exact hs)
  obtain ⟨v, h6, h7, h8⟩ := tDivSize h4 h0 hr2.1 n2
  refine ⟨v, ?_, h7, h8 h5⟩
  rw [h3, ok_bind, h6]

theorem stddev_range {A : Mat (Trapped e F) i j} (hA : ElementsAtMost (F := F) (2 ^ t) A) (h0 : i * j ≠ 0) (hr : F.Room (i * j) t)
    (hr2 : F.Room (i * j) (2 * t + 2)) (hr1 : F.Room 1 (t + 1)) : ∃ d : Trapped e F, stddev A = .ok d := by
  obtain ⟨v, h1, h2, h3⟩ := var_range hA h0 hr hr2 hr1
  obtain ⟨d, h4⟩ := trapSqrt_returns (e := e) h2.1 h3
  refine ⟨d, ?_⟩
  unfold stddev
  rw [h1, ok_bind]
  exact h4

end Range
end MatrixLibs
