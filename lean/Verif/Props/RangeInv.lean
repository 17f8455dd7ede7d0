import Verif.Proof.Range
import Verif.Props.StandardStats
import Verif.Props.Check
import Verif.Props.Range
import Verif.Props.Pow

/-!
# Property C165: inverses of regular matrices up to 3x3 exist in every floating point environment
-/

namespace MatrixLibs

set_option linter.unusedSectionVars false
set_option exponentiation.threshold 300

open Fl Range FpEnv Standard

variable {F : Fmt} {x y : ℝ} {s t : ℤ} (e : FpEnv) (handled : Option Exc)

theorem det2Bound_env (A : Mat (Fl F) 2 2) : det2Bound (Trapped e F) (A.map e.val) =
    ((1 + e.u F) ^ 2 - 1) * (|e.val (A 0 0)| * |e.val (A 1 1)| + |e.val (A 0 1)| * |e.val (A 1 0)|) + 2 * (1 + e.u F) * e.eta F := by
  unfold det2Bound
  rw [trapped_h]
  rfl

theorem det3Bound_env (A : Mat (Fl F) 3 3) : det3Bound (Trapped e F) (A.map e.val) =
    ((1 + e.u F) ^ 7 - 1) * Standard.perm3 (A.map e.val) +
        6 * (1 + e.u F) ^ 6 * (1 + |e.val (A 2 0)| + |e.val (A 2 1)| + |e.val (A 2 2)|) * e.eta F := by
  unfold det3Bound
  rw [trapped_h]
  rfl

theorem far {D d E : ℝ} (h : |D - d| ≤ E) (hy : E + y ≤ |d|) : y ≤ |D| := by
  have := abs_sub_abs_le_abs_sub d D
  rw [abs_sub_comm] at this
  linarith

/-- C165: a 1x1 matrix whose element has at least the size `y` is inverted, accurately. -/
theorem C165_inv1 (A : Mat (Fl F) 1 1) (k : Nat) (hf : (A 0 0).Finite) (h0 : 0 < y) (hy : y ≤ |e.val (A 0 0)|)
    (hk : 1 ≤ k * 2 ^ s * y) (hr : F.Room k s) :
    ∃ B : Mat (Fl F) 1 1, inv (T := Trapped e F) handled A = .ok B ∧ inv (T := InEnv e F) handled A = .ok B ∧
      ElementsAtMost (k * 2 ^ s) B ∧
      |e.val (B 0 0) - (A.map e.val)⁻¹ 0 0| ≤ e.u F * |(A.map e.val)⁻¹ 0 0| + Standard.e (Trapped e F) := by
  obtain ⟨B, h1, h2⟩ := inv1_range (e := e) handled hf h0 hy hk hr.number
  exact ⟨B, h1, (C158_env e handled A A B (A 0 0)).2.2.2 h1, h2, (C158_inv1 (T := Trapped e F) handled A B h1).2⟩

/-- C165: a 2x2 matrix whose determinant exceeds the bound of the error of the computed determinant by `y` is inverted,
accurately. -/
theorem C165_inv2 (A : Mat (Fl F) 2 2) (k : Nat) (hA : ElementsAtMost x A) (hx : x * x ≤ 2 ^ t) (hr : F.Room 2 t) (h0 : 0 < y)
    (hy : ((1 + e.u F) ^ 2 - 1) * (|e.val (A 0 0)| * |e.val (A 1 1)| + |e.val (A 0 1)| * |e.val (A 1 0)|) +
      2 * (1 + e.u F) * e.eta F + y ≤ |(A.map e.val).det|)
    (hk : x ≤ k * 2 ^ s * y) (hs : F.Room k s) :
    ∃ B : Mat (Fl F) 2 2, inv (T := Trapped e F) handled A = .ok B ∧ inv (T := InEnv e F) handled A = .ok B ∧
      ElementsAtMost (k * 2 ^ s) B ∧
      ∀ i j, |e.val (B i j) - (A.map e.val)⁻¹ i j| ≤
        quotBound (Trapped e F) ((A.map e.val)⁻¹ i j) (A.map e.val).det 0 (det2Bound (Trapped e F) (A.map e.val)) := by
  obtain ⟨B, h1, h2⟩ := inv2_range (e := e) handled hA hx hr h0 (fun D hD => far (C151_det2 e A D hD).2 hy) hk hs.number
  refine ⟨B, h1, (C158_env e handled A A B (A 0 0)).2.2.2 h1, h2, fun i j => ?_⟩
  have hlt : det2Bound (Trapped e F) (A.map e.val) < |(A.map e.val).det| := by rw [det2Bound_env]; linarith
  exact C158_inv2 (T := Trapped e F) handled A B h1 hlt i j

/-- C165: the same for 3x3 matrices. -/
theorem C165_inv3 (A : Mat (Fl F) 3 3) (k : Nat) (hA : ElementsAtMost (2 ^ t) A) (hr : F.Room 6 (3 * t)) (h0 : 0 < y)
    (hy : ((1 + e.u F) ^ 7 - 1) * Standard.perm3 (A.map e.val) +
      6 * (1 + e.u F) ^ 6 * (1 + |e.val (A 2 0)| + |e.val (A 2 1)| + |e.val (A 2 2)|) * e.eta F + y ≤ |(A.map e.val).det|)
    (hk : 2 * 2 ^ (2 * t) ≤ k * 2 ^ s * y) (hs : F.Room k s) :
    ∃ B : Mat (Fl F) 3 3, inv (T := Trapped e F) handled A = .ok B ∧ inv (T := InEnv e F) handled A = .ok B ∧
      ElementsAtMost (k * 2 ^ s) B ∧
      ∀ i j, |e.val (B i j) - (A.map e.val)⁻¹ i j| ≤ quotBound (Trapped e F) ((A.map e.val)⁻¹ i j) (A.map e.val).det
        (det2Bound (Trapped e F) ((A.map e.val).submatrix j.succAbove i.succAbove)) (det3Bound (Trapped e F) (A.map e.val)) := by
  have q1 := F.hp
  have q2 := F.he
  have q3 := hr.2.1
  have hz : F.Room 2 (2 * t) := (hr.root (s := 2 * t) (by omega) (by omega)).mono (by omega)
  obtain ⟨B, h1, h2⟩ := inv3_range (e := e) handled (t := 3 * t) (s := 2 * t) hA
    (le_of_eq (by rw [← zpow_add₀ (by norm_num), two_mul])) hz
    (le_of_eq (by rw [← zpow_add₀ (by norm_num)]; congr 1; ring)) hr h0 (fun D hD => far (C151_det3 e A D hD).2 hy) hk hs.number
  refine ⟨B, h1, (C158_env e handled A A B (A 0 0)).2.2.2 h1, h2, fun i j => ?_⟩
  have hlt : det3Bound (Trapped e F) (A.map e.val) < |(A.map e.val).det| := by rw [det3Bound_env]; linarith
  exact C158_inv3 (T := Trapped e F) handled A B h1 hlt i j

/-- C165: a program that inverts such a 2x2 matrix, multiplies the matrix by the inverse and compares the product with the
identity finds them equal within a tolerance that depends only on the matrix. -/
theorem C165_check2 (A I : Mat (Fl F) 2 2) (eps : Fl F) (k : Nat) (w : ℤ) (hA : ElementsAtMost x A) (hx : x * x ≤ 2 ^ t)
    (hr : F.Room 2 t) (h0 : 0 < y)
    (hy : ((1 + e.u F) ^ 2 - 1) * (|e.val (A 0 0)| * |e.val (A 1 1)| + |e.val (A 0 1)| * |e.val (A 1 0)|) +
      2 * (1 + e.u F) * e.eta F + y ≤ |(A.map e.val).det|)
    (hk : x ≤ k * 2 ^ s * y) (hs : F.Room k s) (hw : x * (k * 2 ^ s) ≤ 2 ^ w) (hr' : F.Room 2 w)
    (hI : eye1 (T := InEnv e F) 2 = .ok I) (he : eps.Finite)
    (hb : ∀ i j, (∑ l, |e.val (A i l)| * quotBound (Trapped e F) ((A.map e.val)⁻¹ l j) (A.map e.val).det 0
        (det2Bound (Trapped e F) (A.map e.val))) +
      ((1 + e.u F) ^ 2 - 1) * (2 * (x * (k * 2 ^ s))) + 2 * (1 + e.u F) * e.eta F ≤ e.val eps) :
    ∃ B P : Mat (Fl F) 2 2, inv (T := InEnv e F) handled A = .ok B ∧ mult (T := InEnv e F) A B = .ok P ∧
      compare (T := InEnv e F) P I eps = .ok true := by
  obtain ⟨B, h1, _, h2, _⟩ := C165_inv2 e handled A k hA hx hr h0 hy hk hs
  obtain ⟨P, h3, _⟩ := mult_range (e := e) hA h2 hw hr'
  have hlt : det2Bound (Trapped e F) (A.map e.val) < |(A.map e.val).det| := by rw [det2Bound_env]; linarith
  obtain ⟨c1, c2, c3⟩ := C159_inverse2_check (e := e) handled A B P I eps h1 h3 hI he hlt fun i j => by
    refine le_trans ?_ (hb i j)
    have hu : 0 ≤ e.u F := e.u_nonneg
    have hp : 0 ≤ (1 + e.u F) ^ 2 - 1 := by nlinarith
    have each : ∀ l, |e.val (A i l)| * |e.val (B l j)| ≤ x * (k * 2 ^ s) := fun l =>
      mul_le_mul ((FpEnv.abs_seen_le (e := e) _).trans (hA i l).2) ((FpEnv.abs_seen_le (e := e) _).trans (h2 l j).2)
        (abs_nonneg _) ((abs_nonneg _).trans (hA i l).2)
    have hsum : ∑ l, |e.val (A i l)| * |e.val (B l j)| ≤ 2 * (x * (k * 2 ^ s)) := by
      rw [Fin.sum_univ_two, two_mul]
      exact add_le_add (each 0) (each 1)
    have := mul_le_mul_of_nonneg_left hsum hp
    linarith
  exact ⟨B, P, c1, c2, c3⟩

theorem det2Bound_nonneg (A : Mat (Fl F) 2 2) : 0 ≤ det2Bound (Trapped e F) (A.map e.val) := by
  rw [det2Bound_env]
  have hu : 0 ≤ e.u F := e.u_nonneg
  have hh : 0 ≤ e.eta F := by rw [← trapped_h]; exact Standard.h_nonneg (T := Trapped e F)
  have : (1 : ℝ) ≤ (1 + e.u F) ^ 2 := one_le_pow₀ (by linarith)
  have : 0 ≤ (1 + e.u F) ^ 2 - 1 := by linarith
  positivity

theorem det3Bound_nonneg (A : Mat (Fl F) 3 3) : 0 ≤ det3Bound (Trapped e F) (A.map e.val) := by
  rw [det3Bound_env]
  have hu : 0 ≤ e.u F := e.u_nonneg
  have hh : 0 ≤ e.eta F := by rw [← trapped_h]; exact Standard.h_nonneg (T := Trapped e F)
  have : (1 : ℝ) ≤ (1 + e.u F) ^ 7 := one_le_pow₀ (by linarith)
  have : 0 ≤ (1 + e.u F) ^ 7 - 1 := by linarith
  unfold Standard.perm3
  positivity

/-- C165: linear systems with a regular 2x2 matrix: the computed product of the inverse and the right hand sides is near the
solutions. -/
theorem C165_solve2 {p : Nat} (A : Mat (Fl F) 2 2) (R : Mat (Fl F) 2 p) (z : ℝ) (k : Nat) (w : ℤ) (hA : ElementsAtMost x A) (hx : x * x ≤ 2 ^ t)
    (hr : F.Room 2 t) (h0 : 0 < y)
    (hy : ((1 + e.u F) ^ 2 - 1) * (|e.val (A 0 0)| * |e.val (A 1 1)| + |e.val (A 0 1)| * |e.val (A 1 0)|) +
      2 * (1 + e.u F) * e.eta F + y ≤ |(A.map e.val).det|) (hk : x ≤ k * 2 ^ s * y)
    (hs : F.Room k s) (hR : ElementsAtMost z R) (hw : k * 2 ^ s * z ≤ 2 ^ w) (hr' : F.Room 2 w) :
    ∃ (B : Mat (Fl F) 2 2) (S : Mat (Fl F) 2 p), inv (T := InEnv e F) handled A = .ok B ∧ mult (T := InEnv e F) B R = .ok S ∧
      ∀ X : Matrix (Fin 2) (Fin p) ℝ, A.map e.val * X = R.map e.val → ∀ i j, |e.val (S i j) - X i j| ≤
        (∑ l, quotBound (Trapped e F) ((A.map e.val)⁻¹ i l) (A.map e.val).det 0 (det2Bound (Trapped e F) (A.map e.val)) * |e.val (R l j)|) +
          ((1 + e.u F) ^ 2 - 1) * (2 * (k * 2 ^ s * z)) + 2 * (1 + e.u F) ^ (2 - 1) * e.eta F := by
  obtain ⟨B, h1, h2, h3, h4⟩ := C165_inv2 e handled A k hA hx hr h0 hy hk hs
  obtain ⟨S, h5, h6, _⟩ := C164_mult e B R h3 hR hw hr'
  refine ⟨B, S, h2, h6, fun X hX i j => ?_⟩
  have hu : 0 ≤ e.u F := e.u_nonneg
  have hdet : (A.map e.val).det ≠ 0 := by
    intro h
    rw [h, abs_zero] at hy
    have := det2Bound_nonneg e A
    rw [det2Bound_env] at this
    linarith
  have key := C159_solve (T := Trapped e F) A B R S _ h4 h5 X hdet hX i j
  rw [trapped_h] at key
  refine key.trans ?_
  have each : ∀ l, |e.val (B i l)| * |e.val (R l j)| ≤ k * 2 ^ s * z := fun l =>
    mul_le_mul ((FpEnv.abs_seen_le (e := e) _).trans (h3 i l).2) ((FpEnv.abs_seen_le (e := e) _).trans (hR l j).2)
      (abs_nonneg _) ((abs_nonneg _).trans (h3 i l).2)
  have hsum : ∑ l, |e.val (B i l)| * |e.val (R l j)| ≤ 2 * (k * 2 ^ s * z) := by
    calc _ ≤ ∑ _l : Fin 2, (k : ℝ) * 2 ^ s * z := Finset.sum_le_sum fun l _ => each l
      _ = _ := by simp
  have hp : 0 ≤ (1 + e.u F) ^ 2 - 1 := by
    have : (1 : ℝ) ≤ (1 + e.u F) ^ 2 := one_le_pow₀ (by linarith)
    linarith
  have := mul_le_mul_of_nonneg_left hsum hp
  push_cast
  exact add_le_add (add_le_add le_rfl this) le_rfl

/-- C165: linear systems with a regular 3x3 matrix: the computed product of the inverse and the right hand sides is near the
solutions. -/
theorem C165_solve3 {p : Nat} (A : Mat (Fl F) 3 3) (R : Mat (Fl F) 3 p) (z : ℝ) (k : Nat) (w : ℤ) (hA : ElementsAtMost (2 ^ t) A)
    (hr : F.Room 6 (3 * t)) (h0 : 0 < y)
    (hy : ((1 + e.u F) ^ 7 - 1) * Standard.perm3 (A.map e.val) +
      6 * (1 + e.u F) ^ 6 * (1 + |e.val (A 2 0)| + |e.val (A 2 1)| + |e.val (A 2 2)|) * e.eta F + y ≤ |(A.map e.val).det|)
    (hk : 2 * 2 ^ (2 * t) ≤ k * 2 ^ s * y)
    (hs : F.Room k s) (hR : ElementsAtMost z R) (hw : k * 2 ^ s * z ≤ 2 ^ w) (hr' : F.Room 3 w) :
    ∃ (B : Mat (Fl F) 3 3) (S : Mat (Fl F) 3 p), inv (T := InEnv e F) handled A = .ok B ∧ mult (T := InEnv e F) B R = .ok S ∧
      ∀ X : Matrix (Fin 3) (Fin p) ℝ, A.map e.val * X = R.map e.val → ∀ i j, |e.val (S i j) - X i j| ≤
        (∑ l, quotBound (Trapped e F) ((A.map e.val)⁻¹ i l) (A.map e.val).det (det2Bound (Trapped e F) ((A.map e.val).submatrix l.succAbove i.succAbove))
          (det3Bound (Trapped e F) (A.map e.val)) * |e.val (R l j)|) +
          ((1 + e.u F) ^ 3 - 1) * (3 * (k * 2 ^ s * z)) + 3 * (1 + e.u F) ^ (3 - 1) * e.eta F := by
  obtain ⟨B, h1, h2, h3, h4⟩ := C165_inv3 e handled A k hA hr h0 hy hk hs
  obtain ⟨S, h5, h6, _⟩ := C164_mult e B R h3 hR hw hr'
  refine ⟨B, S, h2, h6, fun X hX i j => ?_⟩
  have hu : 0 ≤ e.u F := e.u_nonneg
  have hdet : (A.map e.val).det ≠ 0 := by
    intro h
    rw [h, abs_zero] at hy
    have := det3Bound_nonneg e A
    rw [det3Bound_env] at this
    linarith
  have key := C159_solve (T := Trapped e F) A B R S _ h4 h5 X hdet hX i j
  rw [trapped_h] at key
  refine key.trans ?_
  have each : ∀ l, |e.val (B i l)| * |e.val (R l j)| ≤ k * 2 ^ s * z := fun l =>
    mul_le_mul ((FpEnv.abs_seen_le (e := e) _).trans (h3 i l).2) ((FpEnv.abs_seen_le (e := e) _).trans (hR l j).2)
      (abs_nonneg _) ((abs_nonneg _).trans (h3 i l).2)
  have hsum : ∑ l, |e.val (B i l)| * |e.val (R l j)| ≤ 3 * (k * 2 ^ s * z) := by
    calc _ ≤ ∑ _l : Fin 3, (k : ℝ) * 2 ^ s * z := Finset.sum_le_sum fun l _ => each l
      _ = _ := by simp
  have hp : 0 ≤ (1 + e.u F) ^ 3 - 1 := by
    have : (1 : ℝ) ≤ (1 + e.u F) ^ 3 := one_le_pow₀ (by linarith)
    linarith
  have := mul_le_mul_of_nonneg_left hsum hp
  push_cast
  exact add_le_add (add_le_add le_rfl this) le_rfl

/-- C165: negative powers of a matrix whose computed inverse is bounded. -/
theorem C165_pow_negative {n : Nat} (w : Nat) (A B : Mat (Fl F) n n) (l t q : Nat) (hB : inv (T := Trapped e F) handled A = .ok B)
    (hb : ElementsAtMost (2 ^ t) B) (hn : n ≤ 2 ^ l) (hl : l ≤ F.p) (hq : 2 ≤ q) (hw : q < 2 ^ (w - 1))
    (hr : (2 : ℝ) ^ (l * (q - 1) + t * q) ≤ F.largest) :
    ∃ P : Mat (Fl F) n n, pow (T := Trapped e F) handled w A (-(q : Int)) = .ok P ∧
      pow (T := InEnv e F) handled w A (-(q : Int)) = .ok P ∧ ElementsAtMost (2 ^ (l * (q - 1) + t * q)) P := by
  obtain ⟨P, h1, h2, h3⟩ := C164_pow e handled w B l t q hn hl hb (by omega) hr
  refine ⟨P, ?_, ?_, h3⟩
  · exact (C45_pow_of_inv (T := Trapped e F) handled w A B q hq hw hB).trans h1
  · exact (C45_pow_of_inv (T := InEnv e F) handled w A B q hq hw ((C158_env e handled A A B (Fl.ofInt 0)).2.2.2 hB)).trans h2

/-- C165: negative powers of regular 2x2 matrices. -/
theorem C165_pow2 (w : Nat) (A : Mat (Fl F) 2 2) (k q t' : Nat) (hA : ElementsAtMost x A) (hx : x * x ≤ 2 ^ t) (hr : F.Room 2 t)
    (h0 : 0 < y)
    (hy : ((1 + e.u F) ^ 2 - 1) * (|e.val (A 0 0)| * |e.val (A 1 1)| + |e.val (A 0 1)| * |e.val (A 1 0)|) +
      2 * (1 + e.u F) * e.eta F + y ≤ |(A.map e.val).det|)
    (hk : x ≤ k * 2 ^ s * y) (hs : F.Room k s) (ht : (k : ℝ) * 2 ^ s ≤ 2 ^ t') (hq : 2 ≤ q) (hw : q < 2 ^ (w - 1))
    (hr' : (2 : ℝ) ^ (q - 1 + t' * q) ≤ F.largest) :
    ∃ P : Mat (Fl F) 2 2, pow (T := Trapped e F) handled w A (-(q : Int)) = .ok P ∧
      pow (T := InEnv e F) handled w A (-(q : Int)) = .ok P ∧ ElementsAtMost (2 ^ (q - 1 + t' * q)) P := by
  obtain ⟨B, h1, _, h2, _⟩ := C165_inv2 e handled A k hA hx hr h0 hy hk hs
  have hp := F.hp
  have := C165_pow_negative e handled w A B 1 t' q h1 (fun i j => (h2 i j).mono ht) (by norm_num) (by omega) hq hw
    (by rwa [one_mul])
  rwa [one_mul] at this

/-- C165: negative powers of regular 3x3 matrices. -/
theorem C165_pow3 (w : Nat) (A : Mat (Fl F) 3 3) (k q t' : Nat) (hA : ElementsAtMost (2 ^ t) A) (hr : F.Room 6 (3 * t)) (h0 : 0 < y)
    (hy : ((1 + e.u F) ^ 7 - 1) * Standard.perm3 (A.map e.val) +
      6 * (1 + e.u F) ^ 6 * (1 + |e.val (A 2 0)| + |e.val (A 2 1)| + |e.val (A 2 2)|) * e.eta F + y ≤ |(A.map e.val).det|)
    (hk : 2 * 2 ^ (2 * t) ≤ k * 2 ^ s * y) (hs : F.Room k s) (ht : (k : ℝ) * 2 ^ s ≤ 2 ^ t') (hq : 2 ≤ q) (hw : q < 2 ^ (w - 1))
    (hr' : (2 : ℝ) ^ (2 * (q - 1) + t' * q) ≤ F.largest) :
    ∃ P : Mat (Fl F) 3 3, pow (T := Trapped e F) handled w A (-(q : Int)) = .ok P ∧
      pow (T := InEnv e F) handled w A (-(q : Int)) = .ok P ∧ ElementsAtMost (2 ^ (2 * (q - 1) + t' * q)) P := by
  obtain ⟨B, h1, _, h2, _⟩ := C165_inv3 e handled A k hA hr h0 hy hk hs
  have hp := F.hp
  exact C165_pow_negative e handled w A B 2 t' q h1 (fun i j => (h2 i j).mono ht) (by norm_num) (by omega) hq hw hr'

/-- Divisions by what does not compare equal to zero are carried out. -/
theorem env_div_returns {r c : Nat} {A : Mat (InEnv e F) r c} {d : InEnv e F} (h : CScalar.eq d (CScalar.ofInt 0) = false) :
    ∃ S, div handled A d = .ok S := by
  obtain ⟨S, hS, _⟩ := elements (Q := fun _ => True) (div_elementwise handled A d h) fun a b => ⟨_, rfl, trivial⟩
  exact ⟨S, hS⟩

theorem env_inv2_returns {A : Mat (InEnv e F) 2 2} {D : InEnv e F} (hd : det2 A = .ok D)
    (h : CScalar.eq D (CScalar.ofInt 0) = false) : ∃ S, inv2 handled A = .ok S := by
  unfold inv2
  rw [hd, ok_bind, if_neg (by rw [h]; simp)]
  iterate 4 rw [rd_eq (by omega) (by omega)]
  exact env_div_returns e handled h

theorem env_inv3_returns {A : Mat (InEnv e F) 3 3} {D : InEnv e F} (hd : det3 A = .ok D)
    (h : CScalar.eq D (CScalar.ofInt 0) = false) : ∃ S, inv3 handled A = .ok S := by
  have cr : ∀ p q r s : InEnv e F, ∃ v, cross p q r s = .ok v := fun _ _ _ _ => ⟨_, rfl⟩
  choose v hv using cr
  unfold inv3
  rw [hd, ok_bind, if_neg (by rw [h]; simp)]
  iterate 9 rw [rd_eq (by omega) (by omega), ok_bind]
  iterate 9 rw [hv, ok_bind]
  exact env_div_returns e handled h

/-- C165: `inv` of a 2x2 matrix that throws, whatever the reason: its determinant is within the bound of the error. -/
theorem C165_throws2 (A : Mat (Fl F) 2 2) (hA : ElementsAtMost x A) (hx : x * x ≤ 2 ^ t) (hr : F.Room 2 t) (why : Stop)
    (h : inv (T := InEnv e F) handled A = .error why) :
    |(A.map e.val).det| ≤ ((1 + e.u F) ^ 2 - 1) * (|e.val (A 0 0)| * |e.val (A 1 1)| + |e.val (A 0 1)| * |e.val (A 1 0)|) +
      2 * (1 + e.u F) * e.eta F := by
  obtain ⟨D, h1, _⟩ := det2_range (e := e) hA hx hr
  obtain ⟨h2, h3⟩ := C151_det2 e A D h1
  have hz : (e.seen D).eq (e.seen (Fl.ofInt 0)) = true := by
    by_contra hne
    have hne' : CScalar.eq (T := InEnv e F) D (CScalar.ofInt 0) = false := (Bool.not_eq_true _).mp hne
    obtain ⟨S, hS⟩ := env_inv2_returns e handled (A := A) (D := D) h2 hne'
    have h' : inv2 (T := InEnv e F) handled A = .error why := h
    rw [hS] at h'
    cases h'
  rw [FpEnv.eq_zero_val hz, zero_sub, abs_neg] at h3
  exact h3

/-- C165: the same for 3x3 matrices. -/
theorem C165_throws3 (A : Mat (Fl F) 3 3) (hA : ElementsAtMost (2 ^ t) A) (hr : F.Room 6 (3 * t)) (why : Stop)
    (h : inv (T := InEnv e F) handled A = .error why) :
    |(A.map e.val).det| ≤ ((1 + e.u F) ^ 7 - 1) * Standard.perm3 (A.map e.val) +
      6 * (1 + e.u F) ^ 6 * (1 + |e.val (A 2 0)| + |e.val (A 2 1)| + |e.val (A 2 2)|) * e.eta F := by
  have q1 := F.hp
  have q2 := F.he
  have q3 := hr.2.1
  have hz := one_room (hr.root (s := 2 * t) (by omega) (by omega)) (by omega)
  obtain ⟨D, h1, _⟩ := det3_range (e := e) (x := 2 ^ t) (t := 3 * t) hA
    (le_of_eq (by rw [← zpow_add₀ (by norm_num), two_mul])) hz
    (le_of_eq (by rw [← zpow_add₀ (by norm_num)]; congr 1; ring)) hr
  obtain ⟨h2, h3⟩ := C151_det3 e A D h1
  have hz : (e.seen (F := F) D).eq (e.seen (Fl.ofInt 0)) = true := by
    by_contra hne
    have hne' : CScalar.eq (T := InEnv e F) D (CScalar.ofInt 0) = false := (Bool.not_eq_true _).mp hne
    obtain ⟨S, hS⟩ := env_inv3_returns e handled (A := A) (D := D) h2 hne'
    have h' : inv3 (T := InEnv e F) handled A = .error why := h
    rw [hS] at h'
    cases h'
  rw [FpEnv.eq_zero_val hz, zero_sub, abs_neg] at h3
  exact h3

/-- Determinant 1, with products of 25 digits. -/
def nearSingular : Mat (Fl binary32) 2 2 := .of ![![Fl.ofInt 4097, Fl.ofInt 4098], ![Fl.ofInt 4096, Fl.ofInt 4097]]

/-- C165: the bound cannot be dropped: a `float` matrix of determinant 1 for which `inv` throws. -/
theorem C165_near_singular : inv (T := InEnv .default binary32) handled nearSingular = .error (.throws divideByZeroException) ∧
    (nearSingular.map (FpEnv.val .default)).det = 1 := by
  constructor
  · have h : ∀ o : Option Exc, inv2 (T := InEnv .default binary32) o nearSingular = .error (.throws divideByZeroException) := by
      have hd : det2 (T := InEnv .default binary32) nearSingular = .ok (Fl.ofInt 0 : Fl binary32) := by decide +kernel
      intro o
      unfold inv2
      rw [hd]
      rfl
    exact h handled
  · have e1 : (Fl.ofInt 4097 : Fl binary32).val = 4097 := (Fl.val_ofInt_exact (F := binary32) 4097 (by decide)).2.trans (by norm_num)
    have e2 : (Fl.ofInt 4098 : Fl binary32).val = 4098 := (Fl.val_ofInt_exact (F := binary32) 4098 (by decide)).2.trans (by norm_num)
    have e3 : (Fl.ofInt 4096 : Fl binary32).val = 4096 := (Fl.val_ofInt_exact (F := binary32) 4096 (by decide)).2.trans (by norm_num)
    have e4 : nearSingular.map (FpEnv.val .default) = !![4097, 4098; 4096, 4097] := by
      ext i j
      fin_cases i <;> fin_cases j <;> first | exact e1 | exact e2 | exact e3
    rw [e4, Matrix.det_fin_two]
    norm_num

/-- The hypotheses are met by the matrix with 2 on the diagonal and 1 beside it. -/
example : ElementsAtMost 2 c158Two ∧ binary32.Room 2 2 ∧ binary32.Room 1 1 ∧
    ((1 + c158Env.u binary32) ^ 2 - 1) * (|c158Env.val (c158Two 0 0)| * |c158Env.val (c158Two 1 1)| +
      |c158Env.val (c158Two 0 1)| * |c158Env.val (c158Two 1 0)|) + 2 * (1 + c158Env.u binary32) * c158Env.eta binary32 + 1 ≤
      |(c158Two.map c158Env.val).det| ∧ (2 : ℝ) ≤ (1 : Nat) * 2 ^ (1 : ℤ) * 1 := by
  have hη := binary32_eta_le
  have hη0 := Fl.eta_nonneg binary32
  have hu : c158Env.u binary32 = 1 / 2 ^ 24 := binary32_u
  have hh : c158Env.eta binary32 = binary32.eta := rfl
  have f1 := Fl.val_ofInt_exact (F := binary32) 1 (by decide)
  have f2 := Fl.val_ofInt_exact (F := binary32) 2 (by decide)
  have v1 : (Fl.ofInt 1 : Fl binary32).val = 1 := f1.2.trans (by norm_num)
  have v2 : (Fl.ofInt 2 : Fl binary32).val = 2 := f2.2.trans (by norm_num)
  have e2 : c158Two.map c158Env.val = !![2, 1; 1, 2] := by
    ext i j
    fin_cases i <;> fin_cases j <;> first | exact v1 | exact v2
  have a1 : Fl.AtMost 2 (Fl.ofInt 1 : Fl binary32) := ⟨f1.1, by rw [v1]; norm_num⟩
  have a2 : Fl.AtMost 2 (Fl.ofInt 2 : Fl binary32) := ⟨f2.1, by rw [v2]; norm_num⟩
  have c1 : c158Env.val (c158Two 0 1) = 1 := v1
  have c2 : c158Env.val (c158Two 1 0) = 1 := v1
  have c3 : c158Env.val (c158Two 0 0) = 2 := v2
  have c4 : c158Env.val (c158Two 1 1) = 2 := v2
  refine ⟨fun i j => ?_, ?_, ?_, ?_, by norm_num⟩
  · fin_cases i <;> fin_cases j <;> first | exact a1 | exact a2
  · unfold Fmt.Room Fmt.largest
    norm_num [binary32]
  · unfold Fmt.Room Fmt.largest
    norm_num [binary32]
  · rw [e2, c1, c2, c3, c4, hu, hh, Matrix.det_fin_two]
    generalize binary32.eta = η at *
    norm_num at *
    linarith

end MatrixLibs
