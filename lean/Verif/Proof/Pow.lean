import Verif.Proof.Inv
import Mathlib.LinearAlgebra.Matrix.ZPow

/-!
# Matrix powers
-/

namespace MatrixLibs

set_option linter.unusedSectionVars false

open CScalar (ofInt)

section
variable {T : Type} [Inhabited T] [CScalar T] {n : Nat}

/-- `pow` for exponents 0 and 1. -/
theorem powFuel_zero (handled : Option Exc) (w d : Nat) (A : Mat T n n) :
    powFuel handled w (d + 1) A 0 = eye1 n := by
  rw [powFuel, if_pos rfl]

theorem powFuel_one (handled : Option Exc) (w d : Nat) (A : Mat T n n) :
    powFuel handled w (d + 1) A 1 = .ok A := by
  rw [powFuel, if_neg (by omega), if_pos rfl]

/-- The halving step. -/
def powStep (handled : Option Exc) (w d : Nat) (A : Mat T n n) (p : Nat) : Res (Mat T n n) := do
  let powA ← powFuel handled w d A ((p / 2 : Nat) : Int)
  if p % 2 = 0 then opMul powA powA
  else opMul (← opMul powA powA) A

theorem powFuel_step (handled : Option Exc) (w d : Nat) (A : Mat T n n) (p : Nat) (hp : 2 ≤ p) :
    powFuel handled w (d + 1) A (p : Int) = powStep handled w d A p := by
  rw [powFuel, if_neg (by omega), if_neg (by omega), if_neg (by omega)]
  show (do
    let _ ← ones (T := T) n n
    let powA ← powFuel handled w d A ((p : Int).tdiv 2)
    if (p : Int).tmod 2 = 0 then opMul powA powA
    else opMul (← opMul powA powA) A) = _
  rw [ones_ok, ok_bind]
  have h1 : (p : Int).tdiv 2 = ((p / 2 : Nat) : Int) := by
    rw [Int.tdiv_eq_ediv_of_nonneg (by omega)]; rfl
  have h2 : (p : Int).tmod 2 = ((p % 2 : Nat) : Int) := by
    rw [Int.tmod_eq_emod_of_nonneg (by omega)]; rfl
  have h3 : ((p % 2 : Nat) : Int) = 0 ↔ p % 2 = 0 := by omega
  rw [h1, h2]
  unfold powStep
  simp only [h3]

/-- A negative exponent: `A` is inverted first, then the halving step runs on `|p|`. -/
theorem powFuel_neg (handled : Option Exc) (w d : Nat) (A : Mat T n n) (p : Int) (hp : p < 0)
    (hmin : p ≠ expMin w) :
    powFuel handled w (d + 1) A p = (do
      let B ← inv handled A
      powStep handled w d B p.natAbs) := by
  rw [powFuel, if_neg (by omega), if_neg (by omega), if_pos hp]
  congr 1
  funext B
  rw [if_neg hmin]
  show (do
    let _ ← ones (T := T) n n
    let powA ← powFuel handled w d B (|p|.tdiv 2)
    if |p|.tmod 2 = 0 then opMul powA powA
    else opMul (← opMul powA powA) B) = _
  rw [ones_ok, ok_bind]
  have h0 : |p| = (p.natAbs : Int) := Int.abs_eq_natAbs p
  have h1 : |p|.tdiv 2 = ((p.natAbs / 2 : Nat) : Int) := by
    rw [h0, Int.tdiv_eq_ediv_of_nonneg (by omega)]; rfl
  have h2 : |p|.tmod 2 = ((p.natAbs % 2 : Nat) : Int) := by
    rw [h0, Int.tmod_eq_emod_of_nonneg (by omega)]; rfl
  have h3 : ((p.natAbs % 2 : Nat) : Int) = 0 ↔ p.natAbs % 2 = 0 := by omega
  rw [h1, h2]
  unfold powStep
  simp only [h3]

theorem powFuel_min (handled : Option Exc) (w d : Nat) (A : Mat T n n) :
    powFuel handled w (d + 1) A (expMin w) = (do
      let _ ← inv handled A
      .error (.ub .signedOverflow)) := by
  have hneg : expMin w < 0 := by
    unfold expMin
    have : (0 : Int) < 2 ^ (w - 1) := by positivity
    omega
  rw [powFuel, if_neg (by omega), if_neg (by omega), if_pos hneg]
  congr 1
  funext B
  rw [if_pos rfl, error_bind]

/-- Enough fuel is enough: for `p ≥ 0`. -/
theorem powFuel_fuel (handled : Option Exc) (w : Nat) (A : Mat T n n) :
    ∀ (p d d' : Nat), p.log2 + 1 ≤ d → p.log2 + 1 ≤ d' →
      powFuel handled w d A (p : Int) = powFuel handled w d' A (p : Int) := by
  intro p
  induction p using Nat.strong_induction_on with
  | _ p ih =>
    intro d d' hd hd'
    obtain ⟨d, rfl⟩ : ∃ k, d = k + 1 := ⟨d - 1, by omega⟩
    obtain ⟨d', rfl⟩ : ∃ k, d' = k + 1 := ⟨d' - 1, by omega⟩
    rcases (show p = 0 ∨ p = 1 ∨ 2 ≤ p by omega) with rfl | rfl | hp
    · rw [Nat.cast_zero, powFuel_zero, powFuel_zero]
    · rw [Nat.cast_one, powFuel_one, powFuel_one]
    · rw [powFuel_step _ _ _ _ _ hp, powFuel_step _ _ _ _ _ hp]
      have hlog : p.log2 = (p / 2).log2 + 1 := by
        rw [Nat.log2_def, if_pos hp]
      unfold powStep
      rw [ih (p / 2) (by omega) d d' (by omega) (by omega)]

theorem powStep_fuel (handled : Option Exc) (w : Nat) (A : Mat T n n) (p d d' : Nat)
    (hd : p.log2 + 1 ≤ d) (hd' : p.log2 + 1 ≤ d') :
    powStep handled w d A p = powStep handled w d' A p := by
  have hlog : (p / 2).log2 ≤ p.log2 := by
    rcases (show p < 2 ∨ 2 ≤ p by omega) with hp | hp
    · rw [show p / 2 = 0 by omega, Nat.log2_zero]; omega
    · rw [Nat.log2_def p, if_pos hp]; omega
  unfold powStep
  rw [powFuel_fuel handled w A (p / 2) d d' (by omega) (by omega)]

/-- The fuel of `pow` is enough for every exponent. -/
theorem powFuel_enough (handled : Option Exc) (w : Nat) (A : Mat T n n) (p : Int) (d : Nat)
    (hd : p.natAbs.log2 + 2 ≤ d) : powFuel handled w d A p = pow handled w A p := by
  unfold pow
  rcases lt_or_ge p 0 with hp | hp
  · obtain ⟨d, rfl⟩ : ∃ k, d = k + 1 := ⟨d - 1, by omega⟩
    by_cases hmin : p = expMin w
    · rw [hmin, powFuel_min, powFuel_min]
    · rw [powFuel_neg _ _ _ _ _ hp hmin, powFuel_neg _ _ _ _ _ hp hmin]
      congr 1
      funext B
      exact powStep_fuel handled w B _ _ _ (by omega) (by omega)
  · obtain ⟨k, rfl⟩ : ∃ k : Nat, p = k := ⟨p.toNat, by omega⟩
    rw [Int.natAbs_natCast] at *
    exact powFuel_fuel handled w A k _ _ (by omega) (by omega)

end

section
variable {T R : Type} [Inhabited T] [CScalar T] [Ring R] {n : Nat}

theorem eye1_map (H : RingSem T R) :
    wp (eye1 (T := T) n) (fun E => E.map H.val = 1) H.Bad := by
  unfold eye1
  rw [eye_ok, wp_ok]
  ext i j
  rw [Matrix.map_apply, Matrix.of_apply, Matrix.one_apply]
  split
  · rw [H.ofInt 1 (by omega) (by omega), Int.cast_one]
  · rw [H.ofInt 0 (by omega) (by omega), Int.cast_zero]

/-- `pow(A, p)`, `p ≥ 0`, in any ring interpretation of the element type. -/
theorem wp_powFuel (H : RingSem T R) (handled : Option Exc) (w : Nat) (A : Mat T n n) :
    ∀ (p d : Nat), p.log2 + 1 ≤ d →
      wp (powFuel handled w d A (p : Int)) (fun P => P.map H.val = A.map H.val ^ p) H.Bad := by
  intro p
  induction p using Nat.strong_induction_on with
  | _ p ih =>
    intro d hd
    obtain ⟨d, rfl⟩ : ∃ k, d = k + 1 := ⟨d - 1, by omega⟩
    rcases (show p = 0 ∨ p = 1 ∨ 2 ≤ p by omega) with rfl | rfl | hp
    · rw [Nat.cast_zero, powFuel_zero]
      simp only [pow_zero]
      exact eye1_map H
    · rw [Nat.cast_one, powFuel_one, wp_ok, pow_one]
    · have hlog : p.log2 = (p / 2).log2 + 1 := by
        rw [Nat.log2_def, if_pos hp]
      rw [powFuel_step _ _ _ _ _ hp]
      unfold powStep
      rw [wp_bind]
      refine wp_mono (ih (p / 2) (by omega) d (by omega)) ?_ (fun _ h => h)
      intro P hP
      split
      · next h2 =>
        refine wp_mono (wp_mult H P P) ?_ (fun _ h => h)
        intro Q hQ
        rw [hQ, hP, ← pow_add]
        congr 1
        omega
      · next h2 =>
        rw [wp_bind]
        refine wp_mono (wp_mult H P P) ?_ (fun _ h => h)
        intro Q hQ
        refine wp_mono (wp_mult H Q A) ?_ (fun _ h => h)
        intro S hS
        rw [hS, hQ, hP, ← pow_add, ← pow_succ]
        congr 1
        omega

theorem wp_powStep (H : RingSem T R) (handled : Option Exc) (w : Nat) (A : Mat T n n)
    (p d : Nat) (hp : 1 ≤ p) (hd : p.log2 + 1 ≤ d) :
    wp (powStep handled w d A p) (fun P => P.map H.val = A.map H.val ^ p) H.Bad := by
  have hlog : (p / 2).log2 ≤ p.log2 := by
    rcases (show p < 2 ∨ 2 ≤ p by omega) with hp | hp
    · rw [show p / 2 = 0 by omega, Nat.log2_zero]; omega
    · rw [Nat.log2_def p, if_pos hp]; omega
  unfold powStep
  rw [wp_bind]
  refine wp_mono (wp_powFuel H handled w A (p / 2) d (by omega)) ?_ (fun _ h => h)
  intro P hP
  split
  · next h2 =>
    refine wp_mono (wp_mult H P P) ?_ (fun _ h => h)
    intro Q hQ
    rw [hQ, hP, ← pow_add]
    congr 1
    omega
  · next h2 =>
    rw [wp_bind]
    refine wp_mono (wp_mult H P P) ?_ (fun _ h => h)
    intro Q hQ
    refine wp_mono (wp_mult H Q A) ?_ (fun _ h => h)
    intro S hS
    rw [hS, hQ, hP, ← pow_add, ← pow_succ]
    congr 1
    omega

end

section
variable {K : Type} [Ring K] [Inhabited K] [CScalar K] [ExactRing K] {n : Nat}

theorem pow_nonneg_ok (handled : Option Exc) (w : Nat) (A : Mat K n n) (p : Nat) :
    pow handled w A (p : Int) = .ok (A ^ p) := by
  apply wp_eq
  unfold pow
  refine wp_mono (wp_powFuel (RingSem.exact K) handled w A p _ (by rw [Int.natAbs_natCast]; omega))
    ?_ (fun _ h => h)
  intro P hP
  simpa only [RingSem.exact_map] using hP

end

section
variable {K : Type} [Field K] [Inhabited K] [CScalar K] [ExactField K] {n : Nat}

theorem pow_neg_ok (handled : Option Exc) (w : Nat) (hn : 1 ≤ n) (A : Mat K n n)
    (hA : A.det ≠ 0) (p : Int) (hp : p < 0) (hmin : p ≠ expMin w) :
    pow handled w A p = .ok (A⁻¹ ^ p.natAbs) := by
  unfold pow
  rw [powFuel_neg _ _ _ _ _ hp hmin, inv_ok handled hn A hA, ok_bind]
  apply wp_eq
  refine wp_mono (wp_powStep (RingSem.exact K) handled w A⁻¹ p.natAbs _ (by omega) (by omega))
    ?_ (fun _ h => h)
  intro P hP
  simpa only [RingSem.exact_map] using hP

/-- All exponents at once, in terms of Mathlib's integer powers. -/
theorem pow_zpow (handled : Option Exc) (w : Nat) (hn : 1 ≤ n) (A : Mat K n n)
    (hA : A.det ≠ 0) (p : Int) (hmin : expMin w < p) :
    pow handled w A p = .ok (A ^ p) := by
  rcases lt_or_ge p 0 with hp | hp
  · rw [pow_neg_ok handled w hn A hA p hp (by omega)]
    congr 1
    obtain ⟨k, rfl⟩ : ∃ k : Nat, p = -(k : Int) := ⟨p.natAbs, by omega⟩
    rw [Matrix.zpow_neg_natCast, Matrix.inv_pow', Int.natAbs_neg, Int.natAbs_natCast]
  · obtain ⟨k, rfl⟩ : ∃ k : Nat, p = k := ⟨p.toNat, by omega⟩
    rw [pow_nonneg_ok, zpow_natCast]

end

end MatrixLibs
