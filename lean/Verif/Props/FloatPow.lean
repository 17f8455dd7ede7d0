import Verif.Proof.FloatPow
import Verif.Props.Pow

/-!
# Property C110: rounding errors of powers
-/

namespace MatrixLibs

set_option linter.unusedSectionVars false

variable {F : Fmt} {n : Nat}

/-- C110: `pow(A, p)`, `p ≥ 1`, returns; if the result is finite, each element is that of the exact power up to
`(1+u)^(n(p-1)) - 1` times the element of the power of the absolute values, and an amount due to underflow. `g` is any
bound, not below 1, of the sums of absolute values of the rows and columns. -/
theorem C110_pow_error (handled : Option Exc) (w : Nat) (hn : 1 ≤ n) (A : Mat (Fl F) n n) (g : ℝ) (hg : 1 ≤ g)
    (hrow : ∀ i, ∑ j, |(A i j).val| ≤ g) (hcol : ∀ j, ∑ i, |(A i j).val| ≤ g) (p : Nat) (hp : 1 ≤ p) :
    ∃ P, pow handled w A (p : Int) = .ok P ∧ ((∀ i j, (P i j).Finite) → ∀ i j,
      |(P i j).val - (A.map Fl.val ^ p) i j| ≤
        ((1 + F.u) ^ (n * (p - 1)) - 1) * ((A.map fun x => |x.val|) ^ p) i j +
          (1 + F.u) ^ (n * (p - 1)) * ((1 + (n : ℝ) ^ 2 * F.eta) ^ (p - 1) - 1) * g ^ p / n) := by
  obtain ⟨P, h1, h2⟩ := Fl.powFuel_tracks (A := A) hn hg hrow hcol handled w p (p.log2 + 2) hp (by omega)
  exact ⟨P, h1, fun hf => (h2 hf).err⟩

/-- C110: the result is finite if that bound stays within the range of the format. -/
theorem C110_pow_finite (handled : Option Exc) (w : Nat) (hn : 1 ≤ n) (A : Mat (Fl F) n n) (hA : ∀ i j, (A i j).Finite)
    (g : ℝ) (hg : 1 ≤ g) (hrow : ∀ i, ∑ j, |(A i j).val| ≤ g) (hcol : ∀ j, ∑ i, |(A i j).val| ≤ g) (p : Nat)
    (hp : 1 ≤ p)
    (hmax : (1 + F.u) ^ (n * (p - 1)) * (1 + (n : ℝ) ^ 2 * F.eta) ^ (p - 1) * g ^ p ≤ F.maxFinite) :
    ∃ P, pow handled w A (p : Int) = .ok P ∧ ∀ i j, (P i j).Finite := by
  obtain ⟨P, h1, h2⟩ := Fl.powFuel_finite hn hg hrow hcol hA handled w p (p.log2 + 2) hp (by omega) hmax
  exact ⟨P, h1, h2.finite⟩

/-- C110: `pow(A, 0)` is exactly the identity. -/
theorem C110_pow_zero (handled : Option Exc) (w : Nat) (A : Mat (Fl F) n n) :
    ∃ P, pow handled w A 0 = .ok P ∧ (∀ i j, (P i j).Finite) ∧ P.map Fl.val = 1 := by
  obtain ⟨o1, o2⟩ := Fl.val_ofInt_exact (F := F) 1 (by simpa using Nat.one_le_two_pow)
  refine ⟨_, by unfold pow; rw [powFuel_zero]; exact eye_ok n _, fun i j => ?_, ?_⟩
  · rw [Matrix.of_apply]
    split
    · exact o1
    · exact Fl.zero_finite
  · ext i j
    rw [Matrix.map_apply, Matrix.of_apply, Matrix.one_apply]
    split
    · rw [show (CScalar.ofInt 1 : Fl F) = Fl.ofInt 1 from rfl, o2, Int.cast_one]
    · exact Fl.zero_val

namespace Fl

/-- A matrix with the values of the identity is neutral. -/
theorem one_mul_val (E B : Mat (Fl F) n n) (hE : ∀ i j, (E i j).Finite) (hv : E.map val = 1)
    (hB : ∀ i j, (B i j).Finite) (i j : Fin n) :
    (fsum (terms E B i j)).Finite ∧ (fsum (terms E B i j)).val = (B i j).val := by
  have hE' : ∀ i k, (E i k).val = if i = k then 1 else 0 := fun i k => by
    rw [← Matrix.one_apply, ← hv, Matrix.map_apply]
  have key : ∀ k, ((E i k).mul (B k j)).Finite ∧ ((E i k).mul (B k j)).val = if k = i then (B i j).val else 0 := by
    intro k
    have hr := mul_rounded (hE i k) (hB k j)
    rw [hE'] at hr
    by_cases h : i = k
    · subst h
      rw [if_pos rfl, one_mul] at hr
      rw [if_pos rfl]
      obtain ⟨N, hN, e⟩ := fin_rep (hB i j)
      exact hr.exact N e hN
    · rw [if_neg h, zero_mul] at hr
      rw [if_neg (Ne.symm h)]
      exact hr.exact 0 (by simp) rep_zero
  exact fsum_single _ i (B i j) (hB i j) (fun k => (key k).1) (fun k => (key k).2)

end Fl

/-- C110: `pow(A, -1)` has the values of a finite `inv(A)`, without further rounding. -/
theorem C110_pow_minus_one (handled : Option Exc) (w : Nat) (hw : 2 ≤ w) (A B : Mat (Fl F) n n)
    (hB : inv handled A = .ok B) (hf : ∀ i j, (B i j).Finite) :
    ∃ P, pow handled w A (-1) = .ok P ∧ ∀ i j, (P i j).Finite ∧ (P i j).val = (B i j).val := by
  have hmin : (-1 : Int) ≠ expMin w := by
    unfold expMin
    have h1 : (2 : Int) ^ 1 ≤ 2 ^ (w - 1) := pow_le_pow_right₀ (by omega) (by omega)
    omega
  obtain ⟨E, h0, h1, h2⟩ := C110_pow_zero (F := F) handled w B
  unfold pow at h0 ⊢
  rw [powFuel_zero] at h0
  rw [powFuel_neg _ _ _ _ _ (by omega) hmin, hB, ok_bind]
  unfold powStep
  rw [show ((((-1 : Int).natAbs / 2 : Nat) : Int)) = 0 from rfl, powFuel_zero, h0, ok_bind, if_neg (by decide)]
  refine ⟨_, Fl.mult_mult_eq E B, fun i j => ?_⟩
  have hEE := Fl.one_mul_val E E h1 h2 h1
  refine Fl.one_mul_val _ B (fun i j => (hEE i j).1) ?_ hf i j
  rw [← h2]
  ext i j
  exact (hEE i j).2

/-- C110: from -2 down (to the smallest exponent, exclusively) the same bound holds relative to the powers of the
computed inverse. -/
theorem C110_pow_negative (handled : Option Exc) (w : Nat) (hn : 1 ≤ n) (A B : Mat (Fl F) n n)
    (hB : inv handled A = .ok B) (g : ℝ) (hg : 1 ≤ g)
    (hrow : ∀ i, ∑ j, |(B i j).val| ≤ g) (hcol : ∀ j, ∑ i, |(B i j).val| ≤ g) (p : Nat) (hp : 2 ≤ p)
    (hw : p < 2 ^ (w - 1)) :
    ∃ P, pow handled w A (-(p : Int)) = .ok P ∧ ((∀ i j, (P i j).Finite) → ∀ i j,
      |(P i j).val - (B.map Fl.val ^ p) i j| ≤
        ((1 + F.u) ^ (n * (p - 1)) - 1) * ((B.map fun x => |x.val|) ^ p) i j +
          (1 + F.u) ^ (n * (p - 1)) * ((1 + (n : ℝ) ^ 2 * F.eta) ^ (p - 1) - 1) * g ^ p / n) := by
  rw [C45_pow_of_inv handled w A B p hp hw hB]
  exact C110_pow_error handled w hn B g hg hrow hcol p (by omega)

/-- Met, with rounding: 4097^2 = 16785409 rounds to 16785408. -/
example : pow none 32 (!![Fl.ofInt 4097, Fl.ofInt 0; Fl.ofInt 1, Fl.ofInt 3] : Mat (Fl binary32) 2 2) 2 =
    .ok !![Fl.ofInt 16785408, Fl.ofInt 0; Fl.ofInt 4100, Fl.ofInt 9] := by decide +kernel
/-- Rounding is repeated: the exact cube is 68769820673. -/
example : pow none 32 (!![Fl.ofInt 4097] : Mat (Fl binary32) 1 1) 3 = .ok !![Fl.ofInt 68769816576] := by
  decide +kernel
/-- The hypotheses of `C110_pow_finite` are met. -/
example : ∃ P, pow none 32 (!![Fl.ofInt 4097] : Mat (Fl binary32) 1 1) (3 : Nat) = .ok P ∧ ∀ i j, (P i j).Finite := by
  have hv : (Fl.ofInt 4097 : Fl binary32).val = 4097 := by
    have := (Fl.val_ofInt_exact (F := binary32) 4097 (by decide)).2
    rw [this]; norm_num
  refine C110_pow_finite none 32 le_rfl _ ?_ 4097 (by norm_num) ?_ ?_ 3 (by norm_num) ?_
  · intro i j
    fin_cases i; fin_cases j
    exact (Fl.val_ofInt_exact (F := binary32) 4097 (by decide)).1
  · intro i
    fin_cases i
    simp [hv]
  · intro i
    fin_cases i
    simp [hv]
  · have hu : binary32.u ≤ 1 := by norm_num [Fmt.u, binary32]
    have hu0 := Fl.u_nonneg binary32
    have he : binary32.eta ≤ 1 := by norm_num [Fmt.eta, Fmt.unit, binary32]
    have he0 := Fl.eta_nonneg binary32
    have hm : (16 * 4097 ^ 3 : ℝ) ≤ binary32.maxFinite := by norm_num [Fmt.maxFinite, binary32]
    have h1 : (1 + binary32.u) ^ (1 * (3 - 1)) ≤ 2 ^ 2 := pow_le_pow_left₀ (by linarith) (by linarith) 2
    have h2 : (1 + ((1 : ℕ) : ℝ) ^ 2 * binary32.eta) ^ (3 - 1) ≤ 2 ^ 2 := by
      refine pow_le_pow_left₀ ?_ ?_ 2 <;> norm_num <;> linarith
    refine le_trans (mul_le_mul_of_nonneg_right (mul_le_mul h1 h2 (by positivity) (by positivity)) (by positivity)) ?_
    linarith
/-- Without the hypothesis the result is infinite. -/
example : pow none 32 (!![Fl.ofInt (2 ^ 100)] : Mat (Fl binary32) 1 1) 2 = .ok !![.inf false] := by decide +kernel
/-- Negative powers of 3: the inverse is rounded first. -/
example : (match pow none 32 (!![Fl.ofInt 3] : Mat (Fl binary32) 1 1) (-2) with
    | .ok P => decide (P 0 0).Finite
    | .error _ => false) = true := by decide +kernel

end MatrixLibs
