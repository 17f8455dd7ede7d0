import Verif.Props.NarrowFactor
import Verif.Proof.NarrowPow
import Verif.Props.Pow

/-!
# Powers: narrow elements and narrow exponents
-/

namespace MatrixLibs

set_option linter.unusedSectionVars false

open Promo (load store sqrtTo)
open CScalar (ofInt)

variable {t : Narrow} {G : Prop} {β : ℤ} {n : Nat}

/-! ## C99: powers of matrices of narrow integers -/

namespace Promoted

/-- `eye()` is 1 modulo `2^w`. -/
theorem eye1_wraps : ∃ E : Mat (NInt t) n n, eye1 n = .ok E ∧ WrapsTo E (fun a b => (1 : Matrix (Fin n) (Fin n) ℤ) a b) := by
  refine ⟨_, eye1_eq, fun a b => ?_⟩
  rw [Matrix.of_apply]
  by_cases hab : a = b
  · subst hab
    rw [if_pos rfl]
    dsimp only
    rw [Matrix.one_apply_eq]
    exact lit_modEq 1 (by norm_num) (by norm_num)
  · rw [if_neg hab]
    dsimp only
    rw [Matrix.one_apply_ne hab]
    exact congrArg (· % 2 ^ t.w) lit_zero

end Promoted

/-- Products of congruent matrices are congruent. -/
theorem WrapsTo.mul {P Q : Mat (NInt t) n n} {X Y : Matrix (Fin n) (Fin n) ℤ} (hP : WrapsTo P fun a b => X a b)
    (hQ : WrapsTo Q fun a b => Y a b) (a b : Fin n) :
    (ints P * ints Q) a b ≡ (X * Y) a b [ZMOD 2 ^ t.w] := by
  rw [Matrix.mul_apply, Matrix.mul_apply]
  rw [Int.modEq_iff_dvd, ← Finset.sum_sub_distrib]
  exact Finset.dvd_sum fun k _ => ((hP a k).mul (hQ k b)).dvd

section
variable (hG : Guard t G β) (hβ0 : 0 ≤ β) (hβ : β + β * β ≤ 2147483647)
include hG hβ0 hβ

theorem wp_mult_wraps {P Q : Mat (NInt t) n n} {X Y : Matrix (Fin n) (Fin n) ℤ} (hP : WrapsTo P fun a b => X a b)
    (hQ : WrapsTo Q fun a b => Y a b) :
    wp (Promoted.mult P Q) (fun R => WrapsTo R fun a b => (X * Y) a b) (OverflowUnless G) :=
  wp_mono (wp_mult_narrow hG hβ hβ0 P Q) (fun _ hR a b => (hR a b).trans (hP.mul hQ a b)) (fun _ h => h)

theorem wp_narrow_powStep (handled : Option Exc) (w : Nat) (A : Mat (NInt t) n n) (p d : Nat)
    (ih : wp (Promoted.powFuel handled w d A ((p / 2 : Nat) : Int))
      (fun P => WrapsTo P fun a b => (ints A ^ (p / 2)) a b) (OverflowUnless G)) :
    wp (Promoted.powStep handled w d A p) (fun P => WrapsTo P fun a b => (ints A ^ p) a b) (OverflowUnless G) := by
  unfold Promoted.powStep
  rw [wp_bind]
  refine wp_mono ih ?_ (fun _ h => h)
  intro P hP
  have hA : WrapsTo A fun a b => ints A a b := fun a b => rfl
  split
  · next h2 =>
    refine wp_mono (wp_mult_wraps hG hβ0 hβ hP hP) ?_ (fun _ h => h)
    intro Q hQ
    rw [← pow_add, show p / 2 + p / 2 = p by omega] at hQ
    exact hQ
  · next h2 =>
    rw [wp_bind]
    refine wp_mono (wp_mult_wraps hG hβ0 hβ hP hP) ?_ (fun _ h => h)
    intro Q hQ
    refine wp_mono (wp_mult_wraps hG hβ0 hβ hQ hA) ?_ (fun _ h => h)
    intro S hS
    rw [← pow_add, ← pow_succ, show p / 2 + p / 2 + 1 = p by omega] at hS
    exact hS

theorem wp_narrow_powFuel (handled : Option Exc) (w : Nat) (A : Mat (NInt t) n n) :
    ∀ (p d : Nat), p.log2 + 1 ≤ d →
      wp (Promoted.powFuel handled w d A (p : Int)) (fun P => WrapsTo P fun a b => (ints A ^ p) a b)
        (OverflowUnless G) := by
  intro p
  induction p using Nat.strong_induction_on with
  | _ p ih =>
    intro d hd
    obtain ⟨d, rfl⟩ : ∃ k, d = k + 1 := ⟨d - 1, by omega⟩
    rcases (show p = 0 ∨ p = 1 ∨ 2 ≤ p by omega) with rfl | rfl | hp
    · rw [Promoted.powFuel, if_pos Nat.cast_zero]
      obtain ⟨E, hE, hW⟩ := Promoted.eye1_wraps (t := t) (n := n)
      rw [hE, wp_ok, pow_zero]
      exact hW
    · rw [Promoted.powFuel, if_neg (by omega), if_pos Nat.cast_one, wp_ok, pow_one]
      exact fun a b => rfl
    · have hlog : p.log2 = (p / 2).log2 + 1 := by
        rw [Nat.log2_def, if_pos hp]
      rw [Promoted.powFuel_step _ _ _ _ _ hp]
      exact wp_narrow_powStep hG hβ0 hβ handled w A p d (ih (p / 2) (by omega) d (by omega))

theorem wp_narrow_pow_neg (handled : Option Exc) (w : Nat) (A B : Mat (NInt t) n n) (p : Int) (hp : p < 0)
    (hmin : p ≠ expMin w) (hB : Promoted.invN handled A = .ok B) :
    wp (Promoted.pow handled w A p) (fun P => WrapsTo P fun a b => (ints B ^ p.natAbs) a b) (OverflowUnless G) := by
  unfold Promoted.pow
  rw [Promoted.powFuel_neg _ _ _ _ _ hp hmin, hB, ok_bind]
  have hlog : (p.natAbs / 2).log2 ≤ p.natAbs.log2 := by
    rcases (show p.natAbs < 2 ∨ 2 ≤ p.natAbs by omega) with hp | hp
    · rw [show p.natAbs / 2 = 0 by omega, Nat.log2_zero]; omega
    · rw [Nat.log2_def p.natAbs, if_pos hp]; omega
  exact wp_narrow_powStep hG hβ0 hβ handled w B p.natAbs _
    (wp_narrow_powFuel hG hβ0 hβ handled w B _ _ (by omega))

end

/-- C99: for 8-bit and signed 16-bit elements `pow(A, p)` with `p ≥ 0` always returns the exact power modulo
`2^w`. -/
theorem C99_pow (ht : t.signed = true ∨ t.Is8) (handled : Option Exc) (w : Nat) (A : Mat (NInt t) n n) (p : Nat) :
    ∃ P, Promoted.pow handled w A (p : Int) = .ok P ∧ WrapsTo P fun a b => (ints A ^ p) a b := by
  unfold Promoted.pow
  rw [Int.natAbs_natCast]
  exact wp_total (wp_always (wp_narrow_powFuel (fun _ => guard_signed t ht) (by norm_num) (by norm_num) handled w A p
    _ (by omega)))

/-- C99: for every narrow type: it is that power, or there is a signed overflow. -/
theorem C99_pow_value (handled : Option Exc) (w : Nat) (A : Mat (NInt t) n n) (p : Nat) :
    (∀ P, Promoted.pow handled w A (p : Int) = .ok P → WrapsTo P fun a b => (ints A ^ p) a b) ∧
    (∀ e, Promoted.pow handled w A (p : Int) = .error e → e = .ub .signedOverflow) := by
  have h := wp_narrow_powFuel (t := t) (G := False) (β := 0) (fun h => h.elim) le_rfl (by norm_num) handled w A p
    ((p : Int).natAbs.log2 + 2) (by rw [Int.natAbs_natCast]; omega)
  refine ⟨fun P hP => ?_, fun e he => ?_⟩
  · have := wp_ok_elim h hP; exact this
  · have := wp_error_elim h he; exact this.1

/-- C99: a negative exponent: the power of what `inv` returns; a failure of `inv` is the failure of the call; the
smallest exponent overflows in `std::abs`. -/
theorem C99_pow_negative (ht : t.signed = true ∨ t.Is8) (handled : Option Exc) (w : Nat) (A : Mat (NInt t) n n)
    (p : Int) (hp : p < 0) :
    (∀ B, Promoted.invN handled A = .ok B → p ≠ -(2 ^ (w - 1)) →
      ∃ P, Promoted.pow handled w A p = .ok P ∧ WrapsTo P fun a b => (ints B ^ p.natAbs) a b) ∧
    (∀ B, Promoted.invN handled A = .ok B → p = -(2 ^ (w - 1)) →
      Promoted.pow handled w A p = .error (.ub .signedOverflow)) ∧
    (∀ e, Promoted.invN handled A = .error e → Promoted.pow handled w A p = .error e) := by
  refine ⟨fun B hB hmin => ?_, fun B hB hmin => ?_, fun e he => ?_⟩
  · exact wp_total (wp_always (wp_narrow_pow_neg (fun _ => guard_signed t ht) (by norm_num) (by norm_num) handled w A
      B p hp hmin hB))
  · show Promoted.pow handled w A p = _
    rw [show p = expMin w from hmin]
    unfold Promoted.pow
    rw [Promoted.powFuel_min, hB, ok_bind]
  · unfold Promoted.pow
    by_cases hmin : p = expMin w
    · rw [hmin, Promoted.powFuel_min, he, error_bind]
    · rw [Promoted.powFuel_neg _ _ _ _ _ hp hmin, he, error_bind]

example : Promoted.pow none 32 (Matrix.of fun i j => if i ≤ j then ⟨1, by decide⟩ else ⟨0, by decide⟩ :
    Mat (NInt .int8) 4 4) 13 = .ok (Matrix.of fun i j => if i = j then ⟨1, by decide⟩ else if i < j then
      (if j.val = i.val + 1 then ⟨13, by decide⟩ else if j.val = i.val + 2 then ⟨91, by decide⟩
        else ⟨-57, by decide⟩) else ⟨0, by decide⟩) := by
  decide +kernel

/-! ## C100: exponents of a narrow type -/

section
variable {T : Type} [Inhabited T] [CScalar T] {e : Narrow}

/-- C100 (partial): an exponent of a narrow type gives what the `int` of the same value gives, except for the
smallest value of a signed type. -/
theorem C100_pow_narrow_exponent_partial (handled : Option Exc) (A : Mat T n n) (p : NInt e)
    (hp : e.signed = true → p.val ≠ e.min) : powNarrow handled A p = pow handled 32 A p.val := by
  have hb := e.has_bounds p.has
  have habs : p.val < 0 → (NInt.ofInt |p.val| : NInt e).val = |p.val| := by
    intro h0
    refine NInt.ofInt_val ?_
    have hs : e.signed = true := by
      by_contra hc
      have := e.unsigned_bounds (by simpa using hc) p.has
      omega
    have h1 := p.has
    have h2 := hp hs
    rw [abs_of_neg h0]
    unfold Narrow.Has Narrow.min Narrow.max at *
    rw [if_pos hs] at *
    rw [if_pos hs] at *
    omega
  have hlog : ∀ k : Nat, (k / 2).log2 + 2 ≤ k.log2 + 2 := by
    intro k
    rcases (show k < 2 ∨ 2 ≤ k by omega) with hp | hp
    · rw [show k / 2 = 0 by omega, Nat.log2_zero]; omega
    · rw [Nat.log2_def k, if_pos hp]; omega
  have hhalf : ∀ (B : Mat T n n) (k : Nat), powFuel handled 32 (k.log2 + 1) B ((k / 2 : Nat) : Int) =
      pow handled 32 B ((k / 2 : Nat) : Int) := by
    intro B k
    unfold pow
    rw [Int.natAbs_natCast]
    have : (k / 2).log2 + 1 ≤ k.log2 + 1 := by have := hlog k; omega
    exact powFuel_fuel handled 32 B (k / 2) _ _ this (by omega)
  have hstep : ∀ (B : Mat T n n) (k : Nat), (do
      let _ ← ones (T := T) n n
      let powA ← pow handled 32 B ((k : Int).tdiv 2)
      if (k : Int).tmod 2 = 0 then opMul powA powA
      else opMul (← opMul powA powA) B) = powStep handled 32 (k.log2 + 1) B k := by
    intro B k
    rw [ones_ok, ok_bind]
    have h1 : (k : Int).tdiv 2 = ((k / 2 : Nat) : Int) := by
      rw [Int.tdiv_eq_ediv_of_nonneg (by omega)]; rfl
    have h2 : (k : Int).tmod 2 = ((k % 2 : Nat) : Int) := by
      rw [Int.tmod_eq_emod_of_nonneg (by omega)]; rfl
    have h3 : ((k % 2 : Nat) : Int) = 0 ↔ k % 2 = 0 := by omega
    rw [h1, h2]
    unfold powStep
    rw [hhalf]
    simp only [h3]
  change powNarrow handled A p = powFuel handled 32 (p.val.natAbs.log2 + 1 + 1) A p.val
  unfold powNarrow
  rcases lt_trichotomy p.val 0 with h0 | h0 | h0
  · have hmin : p.val ≠ expMin 32 := by
      unfold expMin
      omega
    rw [if_neg (by omega), if_neg (by omega), if_pos h0, powFuel_neg _ _ _ _ _ h0 hmin]
    congr 1
    funext B
    have h := hstep B p.val.natAbs
    rw [← Int.abs_eq_natAbs, ← habs h0] at h
    exact h
  · rw [if_pos h0, h0]
    exact (powFuel_zero _ _ _ _).symm
  · by_cases h1 : p.val = 1
    · rw [if_neg (by omega), if_pos h1, h1]
      exact (powFuel_one _ _ _ _).symm
    · rw [if_neg (by omega), if_neg h1, if_neg (by omega)]
      have hk : p.val = (p.val.natAbs : Int) := by omega
      have h := hstep A p.val.natAbs
      rw [← hk] at h
      have h' := powFuel_step handled 32 (p.val.natAbs.log2 + 1) A p.val.natAbs (by omega)
      rw [← hk] at h'
      rw [h']
      exact h

end

/-- C100: in particular, all non-negative exponents and all exponents of an unsigned type are right. -/
theorem C100_pow_nonneg {K : Type} [Ring K] [Inhabited K] [CScalar K] [ExactRing K] {e : Narrow}
    (handled : Option Exc) (A : Mat K n n) (p : NInt e) (hp : 0 ≤ p.val) :
    powNarrow handled A p = .ok (A ^ p.val.toNat) := by
  rw [C100_pow_narrow_exponent_partial handled A p]
  · have := C43_pow handled 32 A p.val.toNat
    rwa [Int.toNat_of_nonneg hp] at this
  · intro hs h
    unfold Narrow.min at h
    rw [if_pos hs] at h
    have : (0 : ℤ) < 2 ^ (e.w - 1) := by positivity
    omega

/-- C100, finding: for the smallest exponent of a signed type narrower than `int`, -128 or -32768, whose absolute
value is converted back to itself, `pow` inverts twice: it returns `A^128` or `A^32768` instead of the inverse. -/
theorem C100_pow_min {K : Type} [Field K] [Inhabited K] [CScalar K] [ExactField K] {e : Narrow}
    (handled : Option Exc) (hn : 1 ≤ n) (A : Mat K n n) (hA : A.det ≠ 0) (he : e.signed = true) (h2 : 2 ≤ e.w)
    (p : NInt e) (hp : p.val = e.min) :
    powNarrow handled A p = .ok (A ^ (2 ^ (e.w - 1))) := by
  have hmin : e.min = -(2 ^ (e.w - 1)) := if_pos he
  obtain ⟨v, hv⟩ : ∃ v, e.w = v + 2 := ⟨e.w - 2, by omega⟩
  have hw : (2 : ℤ) ^ (e.w - 1) = 2 * 2 ^ v := by rw [hv, ← pow_succ']; rfl
  have hpos : (0 : ℤ) < 2 ^ v := by positivity
  have hle : (2 : ℤ) ^ v ≤ 2 ^ 14 := pow_le_pow_right₀ (by norm_num) (by have := e.le; omega)
  have hconv : (NInt.ofInt |p.val| : NInt e) = p := by
    refine NInt.ofInt_of_modEq ?_
    rw [hp, hmin, abs_neg, abs_of_pos (by positivity), Int.modEq_iff_dvd]
    refine ⟨1, ?_⟩
    rw [hw, hv]
    ring
  have hneg : p.val < 0 := by rw [hp, hmin]; omega
  unfold powNarrow
  rw [if_neg (by omega), if_neg (by omega), if_pos hneg, inv_ok handled hn A hA]
  show (do
    let _ ← ones (T := K) n n
    let powA ← pow handled 32 A⁻¹ ((NInt.ofInt |p.val| : NInt e).val.tdiv 2)
    if (NInt.ofInt |p.val| : NInt e).val.tmod 2 = 0 then opMul powA powA
    else opMul (← opMul powA powA) A⁻¹) = _
  rw [hconv, ones_ok, ok_bind, hp, hmin, hw]
  have h3 : (-(2 * (2 : ℤ) ^ v)).tdiv 2 = -((2 ^ v : ℕ) : ℤ) := by
    push_cast
    rw [Int.neg_tdiv, Int.mul_tdiv_cancel_left _ (by norm_num)]
  have h4 : (-(2 * (2 : ℤ) ^ v)).tmod 2 = 0 := by
    rw [Int.neg_tmod, Int.mul_tmod_right, neg_zero]
  have hdet : (A⁻¹).det ≠ 0 := by
    rw [Matrix.det_nonsing_inv, Ring.inverse_eq_inv']
    exact inv_ne_zero hA
  have hP := C43_pow_negative handled 32 hn A⁻¹ hdet (2 ^ v) Nat.one_le_two_pow (by
    exact Nat.pow_lt_pow_right (by norm_num) (by have := e.le; omega))
  rw [Matrix.nonsing_inv_nonsing_inv A hA.isUnit] at hP
  rw [h3, h4, hP, ok_bind, if_pos rfl]
  refine (mult_ok _ _).trans ?_
  rw [← pow_add]
  congr 2
  rw [hv, show v + 2 - 1 = v + 1 by omega, pow_succ]
  ring

/-- C100: so the statement fails for `signed char`: `pow([2], -128)` is `2^128`, not `2^-128`. -/
theorem C100_pow_narrow_exponent_false :
    ∃ (A : Mat ℚ 1 1) (p : NInt .int8), powNarrow none A p ≠ pow none 32 A p.val := by
  refine ⟨!![2], ⟨-128, by decide⟩, ?_⟩
  decide +kernel

example : powNarrow none (!![2] : Mat ℚ 1 1) (⟨-127, by decide⟩ : NInt .int8) = .ok !![1 / 2 ^ 127] := by
  decide +kernel
example : powNarrow none (!![1, 1; 1, 0] : Mat ℚ 2 2) (⟨10, by decide⟩ : NInt .uint8) = .ok !![89, 55; 55, 34] := by
  decide +kernel

end MatrixLibs
