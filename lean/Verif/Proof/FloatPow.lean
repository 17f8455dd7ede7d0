import Verif.Props.Float
import Verif.Props.FloatRange
import Verif.Proof.Pow

/-!
# Rounding errors of powers by repeated squaring
-/

namespace MatrixLibs

set_option linter.unusedSectionVars false

namespace Fl
variable {F : Fmt} {n : Nat}

/-- The absolute values of the elements. -/
noncomputable def absMat (A : Mat (Fl F) n n) : Matrix (Fin n) (Fin n) ℝ := .of fun i j => |(A i j).val|

/-- The part of the error of a `q`-th power that is due to underflow; `g` bounds the row and column sums. -/
noncomputable def powUnder (F : Fmt) (n q : Nat) (g : ℝ) : ℝ :=
  (1 + F.u) ^ (n * (q - 1)) * ((1 + (n : ℝ) ^ 2 * F.eta) ^ (q - 1) - 1) * g ^ q / n

theorem powUnder_nonneg {q : Nat} {g : ℝ} (hg : 1 ≤ g) : 0 ≤ powUnder F n q g := by
  have hu := u_nonneg F
  have he := eta_nonneg F
  have h1 : (1 : ℝ) ≤ (1 + (n : ℝ) ^ 2 * F.eta) ^ (q - 1) :=
    one_le_pow₀ (by have : 0 ≤ (n : ℝ) ^ 2 * F.eta := by positivity
                    linarith)
  unfold powUnder
  have h2 : 0 ≤ (1 + (n : ℝ) ^ 2 * F.eta) ^ (q - 1) - 1 := by linarith
  positivity

theorem absMat_pow_nonneg (A : Mat (Fl F) n n) (q : Nat) (a b : Fin n) : 0 ≤ (absMat A ^ q) a b := by
  induction q generalizing a b with
  | zero => rw [pow_zero, Matrix.one_apply]; split <;> norm_num
  | succ q ih =>
    rw [pow_succ, Matrix.mul_apply]
    exact Finset.sum_nonneg fun k _ => mul_nonneg (ih a k) (abs_nonneg _)

theorem abs_pow_le (A : Mat (Fl F) n n) (q : Nat) (a b : Fin n) :
    |(A.map val ^ q) a b| ≤ (absMat A ^ q) a b := by
  induction q generalizing a b with
  | zero => rw [pow_zero, pow_zero, Matrix.one_apply]; split <;> simp
  | succ q ih =>
    rw [pow_succ, pow_succ, Matrix.mul_apply, Matrix.mul_apply]
    refine (Finset.abs_sum_le_sum_abs _ _).trans (Finset.sum_le_sum fun k _ => ?_)
    rw [abs_mul]
    exact mul_le_mul_of_nonneg_right (ih a k) (abs_nonneg _)

theorem row_pow_le (A : Mat (Fl F) n n) {g : ℝ} (hg : 0 ≤ g) (hrow : ∀ i, ∑ j, |(A i j).val| ≤ g) (q : Nat)
    (a : Fin n) : ∑ b, (absMat A ^ q) a b ≤ g ^ q := by
  induction q generalizing a with
  | zero => simp [Matrix.one_apply]
  | succ q ih =>
    simp only [pow_succ, Matrix.mul_apply]
    rw [Finset.sum_comm]
    calc ∑ k, ∑ b, (absMat A ^ q) a k * absMat A k b
        = ∑ k, (absMat A ^ q) a k * ∑ b, absMat A k b := by simp only [Finset.mul_sum]
      _ ≤ ∑ k, (absMat A ^ q) a k * g :=
          Finset.sum_le_sum fun k _ => mul_le_mul_of_nonneg_left (hrow k) (absMat_pow_nonneg A q a k)
      _ = (∑ k, (absMat A ^ q) a k) * g := by rw [Finset.sum_mul]
      _ ≤ _ := mul_le_mul_of_nonneg_right (ih a) hg

theorem col_pow_le (A : Mat (Fl F) n n) {g : ℝ} (hg : 0 ≤ g) (hcol : ∀ j, ∑ i, |(A i j).val| ≤ g) (q : Nat)
    (b : Fin n) : ∑ a, (absMat A ^ q) a b ≤ g ^ q := by
  induction q generalizing b with
  | zero => simp [Matrix.one_apply]
  | succ q ih =>
    simp only [pow_succ, Matrix.mul_apply]
    rw [Finset.sum_comm]
    calc ∑ k, ∑ a, (absMat A ^ q) a k * absMat A k b
        = ∑ k, (∑ a, (absMat A ^ q) a k) * absMat A k b := by simp only [Finset.sum_mul]
      _ ≤ ∑ k, g ^ q * absMat A k b :=
          Finset.sum_le_sum fun k _ => mul_le_mul_of_nonneg_right (ih k) (abs_nonneg _)
      _ = g ^ q * ∑ k, absMat A k b := by rw [Finset.mul_sum]
      _ ≤ _ := mul_le_mul_of_nonneg_left (hcol b) (pow_nonneg hg q)

/-- `P` is finite and is the `q`-th power of `A` up to the error of repeated squaring. -/
structure PowTracks (A : Mat (Fl F) n n) (g : ℝ) (q : Nat) (P : Mat (Fl F) n n) : Prop where
  finite : ∀ a b, (P a b).Finite
  err : ∀ a b, |(P a b).val - (A.map val ^ q) a b| ≤
    ((1 + F.u) ^ (n * (q - 1)) - 1) * (absMat A ^ q) a b + powUnder F n q g

/-- The recurrence of the bounds. -/
theorem powBound_mul {N s t dq dr gq gr hq hr l η S rX cY : ℝ} (hN : 0 < N) (hs : 1 ≤ s) (ht : 1 ≤ t)
    (hdq : 1 ≤ dq) (hdr : 1 ≤ dr) (hgq : 1 ≤ gq) (hgr : 1 ≤ gr) (hη : 0 ≤ η) (hl : 0 ≤ l) {l' : ℝ} (hl' : l' ≤ l)
    (eq : hq = s * (dq - 1) * gq / N) (er : hr = t * (dr - 1) * gr / N) (hrX : rX ≤ gq) (hcY : cY ≤ gr) :
    l * (s * t * S + s * hr * rX + t * hq * cY + N * hq * hr) + N * l' * η ≤
      l * s * t * S + (l * s * t) * (dq * dr * (1 + N ^ 2 * η) - 1) * (gq * gr) / N := by
  have hq0 : 0 ≤ hq := by rw [eq]; have : 0 ≤ dq - 1 := by linarith
                          positivity
  have hr0 : 0 ≤ hr := by rw [er]; have : 0 ≤ dr - 1 := by linarith
                          positivity
  have h1 : s * hr * rX ≤ s * hr * gq := mul_le_mul_of_nonneg_left hrX (by positivity)
  have h2 : t * hq * cY ≤ t * hq * gr := mul_le_mul_of_nonneg_left hcY (by positivity)
  have h3 : s * hr * gq + t * hq * gr + N * hq * hr = s * t * (dq * dr - 1) * (gq * gr) / N := by
    rw [eq, er]
    field_simp
    ring
  have h4 : N * l' * η ≤ l * s * t * (dq * dr) * (gq * gr) * (N * η) := by
    have a1 : N * l' * η ≤ l * (N * η) := by nlinarith [mul_nonneg hN.le hη]
    have a2 : (1 : ℝ) ≤ s * t * (dq * dr) * (gq * gr) := by
      have b1 : 1 ≤ s * t := one_le_mul_of_one_le_of_one_le hs ht
      have b2 : 1 ≤ dq * dr := one_le_mul_of_one_le_of_one_le hdq hdr
      have b3 : 1 ≤ gq * gr := one_le_mul_of_one_le_of_one_le hgq hgr
      exact one_le_mul_of_one_le_of_one_le (one_le_mul_of_one_le_of_one_le b1 b2) b3
    have a3 : 0 ≤ l * (N * η) := by positivity
    calc N * l' * η ≤ l * (N * η) := a1
      _ ≤ l * (N * η) * (s * t * (dq * dr) * (gq * gr)) := le_mul_of_one_le_right a3 a2
      _ = _ := by ring
  have h5 : (l * s * t) * (dq * dr * (1 + N ^ 2 * η) - 1) * (gq * gr) / N =
      l * (s * t * (dq * dr - 1) * (gq * gr) / N) + l * s * t * (dq * dr) * (gq * gr) * (N * η) := by
    field_simp
    ring
  rw [h5, ← h3]
  have h6 := mul_le_mul_of_nonneg_left (add_le_add h1 h2) hl
  nlinarith

variable {A P Q : Mat (Fl F) n n} {g : ℝ} {q r : Nat}

theorem pow_terms_le (hn : 0 < n) (hg : 1 ≤ g) (hrow : ∀ i, ∑ j, |(A i j).val| ≤ g)
    (hcol : ∀ j, ∑ i, |(A i j).val| ≤ g) (hq : 1 ≤ q) (hr : 1 ≤ r) (hP : PowTracks A g q P)
    (hQ : PowTracks A g r Q) (a b : Fin n) :
    (1 + F.u) ^ n * (∑ k, ((1 + F.u) ^ (n * (q - 1)) * (absMat A ^ q) a k + powUnder F n q g) *
      ((1 + F.u) ^ (n * (r - 1)) * (absMat A ^ r) k b + powUnder F n r g)) + n * (1 + F.u) ^ (n - 1) * F.eta ≤
      (1 + F.u) ^ (n * (q + r - 1)) * (absMat A ^ (q + r)) a b + powUnder F n (q + r) g := by
  have hg0 : 0 ≤ g := by linarith
  have hu := u_nonneg F
  have he := eta_nonneg F
  have hN : (0 : ℝ) < n := by exact_mod_cast hn
  have hD : (1 : ℝ) ≤ 1 + (n : ℝ) ^ 2 * F.eta := by
    have : 0 ≤ (n : ℝ) ^ 2 * F.eta := by positivity
    linarith
  have key := powBound_mul (N := n) (S := (absMat A ^ (q + r)) a b) (l := (1 + F.u) ^ n) (l' := (1 + F.u) ^ (n - 1))
    hN (one_add_u_pow F (n * (q - 1))) (one_add_u_pow F (n * (r - 1)))
    (one_le_pow₀ (n := q - 1) hD) (one_le_pow₀ (n := r - 1) hD) (one_le_pow₀ (n := q) hg) (one_le_pow₀ (n := r) hg)
    he (by positivity) (pow_le_pow_right₀ (by linarith) (Nat.sub_le n 1)) (rfl : powUnder F n q g = _)
    (rfl : powUnder F n r g = _) (row_pow_le A hg0 hrow q a) (col_pow_le A hg0 hcol r b)
  have e1 : (1 + F.u) ^ n * (1 + F.u) ^ (n * (q - 1)) * (1 + F.u) ^ (n * (r - 1)) = (1 + F.u) ^ (n * (q + r - 1)) := by
    rw [← pow_add, ← pow_add]
    congr 1
    obtain ⟨q, rfl⟩ := Nat.exists_eq_add_of_le hq
    obtain ⟨r, rfl⟩ := Nat.exists_eq_add_of_le hr
    rw [show 1 + q - 1 = q by omega, show 1 + r - 1 = r by omega, show 1 + q + (1 + r) - 1 = 1 + q + r by omega]
    ring
  have e2 : (1 + (n : ℝ) ^ 2 * F.eta) ^ (q - 1) * (1 + (n : ℝ) ^ 2 * F.eta) ^ (r - 1) * (1 + (n : ℝ) ^ 2 * F.eta) =
      (1 + (n : ℝ) ^ 2 * F.eta) ^ (q + r - 1) := by
    rw [← pow_add, ← pow_succ]
    congr 1
    omega
  rw [e1, e2, ← pow_add g] at key
  refine le_trans (le_of_eq ?_) key
  congr 2
  rw [pow_add (absMat A) q r, Matrix.mul_apply, Finset.mul_sum, Finset.mul_sum, Finset.mul_sum,
    ← Finset.sum_add_distrib, ← Finset.sum_add_distrib]
  have : (n : ℝ) * powUnder F n q g * powUnder F n r g = ∑ _k : Fin n, powUnder F n q g * powUnder F n r g := by
    rw [Finset.sum_const, Finset.card_univ, Fintype.card_fin, nsmul_eq_mul, mul_assoc]
  rw [this, ← Finset.sum_add_distrib]
  refine Finset.sum_congr rfl fun k _ => ?_
  ring

theorem PowTracks.abs_le (hP : PowTracks A g q P) (a b : Fin n) :
    |(P a b).val| ≤ (1 + F.u) ^ (n * (q - 1)) * (absMat A ^ q) a b + powUnder F n q g := by
  have h1 := abs_sub_abs_le_abs_sub (P a b).val ((A.map val ^ q) a b)
  have h2 := hP.err a b
  have h3 := abs_pow_le A q a b
  linarith

/-- The bound of an element of a product of two powers. -/
theorem pow_mul_bound (hn : 0 < n) (hg : 1 ≤ g) (hrow : ∀ i, ∑ j, |(A i j).val| ≤ g)
    (hcol : ∀ j, ∑ i, |(A i j).val| ≤ g) (hq : 1 ≤ q) (hr : 1 ≤ r) (hP : PowTracks A g q P)
    (hQ : PowTracks A g r Q) (a b : Fin n) :
    (1 + F.u) ^ n * (∑ k, |(P a k).val| * |(Q k b).val|) + n * (1 + F.u) ^ (n - 1) * F.eta ≤
      (1 + F.u) ^ (n * (q + r - 1)) * (absMat A ^ (q + r)) a b + powUnder F n (q + r) g := by
  refine le_trans ?_ (pow_terms_le hn hg hrow hcol hq hr hP hQ a b)
  have hl := one_add_u_pow F n
  have : ∑ k, |(P a k).val| * |(Q k b).val| ≤
      ∑ k, ((1 + F.u) ^ (n * (q - 1)) * (absMat A ^ q) a k + powUnder F n q g) *
        ((1 + F.u) ^ (n * (r - 1)) * (absMat A ^ r) k b + powUnder F n r g) :=
    Finset.sum_le_sum fun k _ => mul_le_mul (hP.abs_le a k) (hQ.abs_le k b) (abs_nonneg _)
      ((abs_nonneg _).trans (hP.abs_le a k))
  have := mul_le_mul_of_nonneg_left this (by linarith : 0 ≤ (1 + F.u) ^ n)
  linarith

theorem PowTracks.mul (hn : 0 < n) (hg : 1 ≤ g) (hrow : ∀ i, ∑ j, |(A i j).val| ≤ g)
    (hcol : ∀ j, ∑ i, |(A i j).val| ≤ g) (hq : 1 ≤ q) (hr : 1 ≤ r) (hP : PowTracks A g q P)
    (hQ : PowTracks A g r Q) (hf : ∀ a b, (fsum (terms P Q a b)).Finite) :
    PowTracks A g (q + r) (.of fun a b => fsum (terms P Q a b)) := by
  refine ⟨hf, fun a b => ?_⟩
  have h1 := terms_err P Q a b (hf a b)
  have h2 := pow_terms_le hn hg hrow hcol hq hr hP hQ a b
  set X := fun k => (1 + F.u) ^ (n * (q - 1)) * (absMat A ^ q) a k + powUnder F n q g with hX
  set Y := fun k => (1 + F.u) ^ (n * (r - 1)) * (absMat A ^ r) k b + powUnder F n r g with hY
  have h3 : |∑ k, (P a k).val * (Q k b).val - (A.map val ^ (q + r)) a b| ≤
      ∑ k, X k * Y k - (absMat A ^ (q + r)) a b := by
    rw [pow_add, Matrix.mul_apply, pow_add, Matrix.mul_apply, ← Finset.sum_sub_distrib, ← Finset.sum_sub_distrib]
    refine (Finset.abs_sum_le_sum_abs _ _).trans (Finset.sum_le_sum fun k _ => ?_)
    have e1 : (P a k).val * (Q k b).val - (A.map val ^ q) a k * (A.map val ^ r) k b =
        ((P a k).val - (A.map val ^ q) a k) * (Q k b).val +
          (A.map val ^ q) a k * ((Q k b).val - (A.map val ^ r) k b) := by ring
    rw [e1]
    refine (abs_add_le _ _).trans ?_
    rw [abs_mul, abs_mul]
    have p1 : |(P a k).val - (A.map val ^ q) a k| ≤ X k - (absMat A ^ q) a k := by
      have := hP.err a k
      rw [hX]; linarith
    have p2 : |(Q k b).val - (A.map val ^ r) k b| ≤ Y k - (absMat A ^ r) k b := by
      have := hQ.err k b
      rw [hY]; linarith
    have m1 := mul_le_mul p1 (hQ.abs_le k b) (abs_nonneg _) ((abs_nonneg _).trans p1)
    have m2 := mul_le_mul (abs_pow_le A q a k) p2 (abs_nonneg _) (absMat_pow_nonneg A q a k)
    have m3 : (X k - (absMat A ^ q) a k) * Y k + (absMat A ^ q) a k * (Y k - (absMat A ^ r) k b) =
        X k * Y k - (absMat A ^ q) a k * (absMat A ^ r) k b := by ring
    rw [← m3]
    exact add_le_add m1 m2
  have h4 : ∑ k, |(P a k).val| * |(Q k b).val| ≤ ∑ k, X k * Y k :=
    Finset.sum_le_sum fun k _ => mul_le_mul (hP.abs_le a k) (hQ.abs_le k b) (abs_nonneg _)
      ((abs_nonneg _).trans (hP.abs_le a k))
  have hl : 0 ≤ (1 + F.u) ^ n - 1 := by have := one_add_u_pow F n; linarith
  have h5 := mul_le_mul_of_nonneg_left h4 hl
  have h6 := abs_sub_le (fsum (terms P Q a b)).val (∑ k, (P a k).val * (Q k b).val) ((A.map val ^ (q + r)) a b)
  show |(fsum (terms P Q a b)).val - _| ≤ _
  linarith

theorem PowTracks.self (hf : ∀ a b, (A a b).Finite) : PowTracks A g 1 A := by
  refine ⟨hf, fun a b => ?_⟩
  rw [pow_one, pow_one]
  simp [powUnder]

/-- A finite product has finite factors. -/
theorem factors_finite (hn : 0 < n) (hf : ∀ a b, (fsum (terms P Q a b)).Finite) :
    (∀ a b, (P a b).Finite) ∧ ∀ a b, (Q a b).Finite := by
  have h : ∀ a k b, ((P a k).mul (Q k b)).Finite := fun a k b =>
    fsum_finite _ (hf a b) _ (List.mem_map.mpr ⟨k, List.mem_finRange k, rfl⟩)
  exact ⟨fun a b => (mul_finite (h a b ⟨0, hn⟩)).1, fun a b => (mul_finite (h ⟨0, hn⟩ a b)).2⟩

theorem mult_mult_eq (P A : Mat (Fl F) n n) : (do opMul (← opMul P P) A) =
    .ok (.of fun a b => fsum (terms (.of fun a b => fsum (terms P P a b)) A a b)) := by
  rw [show opMul P P = .ok _ from mult_eq P P, ok_bind]
  exact mult_eq _ A

/-- If a power is finite, its error is bounded. -/
theorem powFuel_tracks (hn : 0 < n) (hg : 1 ≤ g) (hrow : ∀ i, ∑ j, |(A i j).val| ≤ g)
    (hcol : ∀ j, ∑ i, |(A i j).val| ≤ g) (handled : Option Exc) (w : Nat) :
    ∀ (p d : Nat), 1 ≤ p → p.log2 + 1 ≤ d → ∃ P, powFuel handled w d A (p : Int) = .ok P ∧
      ((∀ a b, (P a b).Finite) → PowTracks A g p P) := by
  intro p
  induction p using Nat.strong_induction_on with
  | _ p ih =>
    intro d h1 hd
    obtain ⟨d, rfl⟩ : ∃ k, d = k + 1 := ⟨d - 1, by omega⟩
    rcases (show p = 1 ∨ 2 ≤ p by omega) with rfl | hp
    · exact ⟨A, by rw [Nat.cast_one, powFuel_one], PowTracks.self⟩
    · have hlog : p.log2 = (p / 2).log2 + 1 := by rw [Nat.log2_def, if_pos hp]
      obtain ⟨P, hP, tP⟩ := ih (p / 2) (by omega) d (by omega) (by omega)
      rw [powFuel_step _ _ _ _ _ hp]
      unfold powStep
      rw [hP, ok_bind]
      have hsq : (∀ a b, (fsum (terms P P a b)).Finite) →
          PowTracks A g (p / 2 + p / 2) (.of fun a b => fsum (terms P P a b)) := fun hf => by
        have t := tP (factors_finite hn hf).1
        exact t.mul hn hg hrow hcol (by omega) (by omega) t hf
      split
      · next h2 =>
        refine ⟨_, mult_eq P P, fun hf => ?_⟩
        have := hsq hf
        rwa [show p / 2 + p / 2 = p by omega] at this
      · next h2 =>
        refine ⟨_, mult_mult_eq P A, ?_⟩
        · intro hf
          obtain ⟨f1, f2⟩ := factors_finite hn hf
          have := (hsq f1).mul hn hg hrow hcol (by omega) le_rfl (PowTracks.self f2) hf
          rwa [show p / 2 + p / 2 + 1 = p by omega] at this

/-- The largest element a `p`-th power can have. -/
noncomputable def powMax (F : Fmt) (n p : Nat) (g : ℝ) : ℝ :=
  (1 + F.u) ^ (n * (p - 1)) * (1 + (n : ℝ) ^ 2 * F.eta) ^ (p - 1) * g ^ p

theorem powMax_mono {p p' : Nat} (hg : 1 ≤ g) (h : p ≤ p') : powMax F n p g ≤ powMax F n p' g := by
  have hu := u_nonneg F
  have he := eta_nonneg F
  have hD : (1 : ℝ) ≤ 1 + (n : ℝ) ^ 2 * F.eta := by
    have : 0 ≤ (n : ℝ) ^ 2 * F.eta := by positivity
    linarith
  unfold powMax
  have h1 : (1 + F.u) ^ (n * (p - 1)) ≤ (1 + F.u) ^ (n * (p' - 1)) :=
    pow_le_pow_right₀ (by linarith) (Nat.mul_le_mul_left n (by omega))
  have h2 := pow_le_pow_right₀ hD (show p - 1 ≤ p' - 1 by omega)
  have h3 := pow_le_pow_right₀ hg h
  have h0 : 0 ≤ g := by linarith
  gcongr

theorem powBound_le_max (hn : 0 < n) (hg : 1 ≤ g) (hrow : ∀ i, ∑ j, |(A i j).val| ≤ g) (a b : Fin n) :
    (1 + F.u) ^ (n * (q - 1)) * (absMat A ^ q) a b + powUnder F n q g ≤ powMax F n q g := by
  have hg0 : 0 ≤ g := by linarith
  have hu := u_nonneg F
  have he := eta_nonneg F
  have hN : (1 : ℝ) ≤ n := by exact_mod_cast hn
  have h1 : (absMat A ^ q) a b ≤ g ^ q :=
    (Finset.single_le_sum (f := fun k => (absMat A ^ q) a k) (fun k _ => absMat_pow_nonneg A q a k)
      (Finset.mem_univ b)).trans (row_pow_le A hg0 hrow q a)
  have hD : (1 : ℝ) ≤ (1 + (n : ℝ) ^ 2 * F.eta) ^ (q - 1) := one_le_pow₀ (by
    have : 0 ≤ (n : ℝ) ^ 2 * F.eta := by positivity
    linarith)
  have h2 : powUnder F n q g ≤
      (1 + F.u) ^ (n * (q - 1)) * ((1 + (n : ℝ) ^ 2 * F.eta) ^ (q - 1) - 1) * g ^ q := by
    unfold powUnder
    have : 0 ≤ (1 + (n : ℝ) ^ 2 * F.eta) ^ (q - 1) - 1 := by linarith
    exact div_le_self (by positivity) hN
  have h3 := mul_le_mul_of_nonneg_left h1 (by positivity : 0 ≤ (1 + F.u) ^ (n * (q - 1)))
  unfold powMax
  linarith

theorem terms_finite (hP : ∀ a b, (P a b).Finite) (hQ : ∀ a b, (Q a b).Finite)
    (h : ∀ a b, (1 + F.u) ^ n * (∑ k, |(P a k).val| * |(Q k b).val|) + n * (1 + F.u) ^ (n - 1) * F.eta ≤ F.maxFinite)
    (a b : Fin n) : (fsum (terms P Q a b)).Finite := by
  obtain ⟨R, hR, hf⟩ := C66_mul_finite P Q hP hQ
  have e := Except.ok.inj ((show opMul P Q = .ok _ from mult_eq P Q).symm.trans hR)
  have := hf a b (h a b)
  rw [← e] at this
  exact this

/-- A power that stays within the range is finite. -/
theorem powFuel_finite (hn : 0 < n) (hg : 1 ≤ g) (hrow : ∀ i, ∑ j, |(A i j).val| ≤ g)
    (hcol : ∀ j, ∑ i, |(A i j).val| ≤ g) (hA : ∀ a b, (A a b).Finite) (handled : Option Exc) (w : Nat) :
    ∀ (p d : Nat), 1 ≤ p → p.log2 + 1 ≤ d → powMax F n p g ≤ F.maxFinite →
      ∃ P, powFuel handled w d A (p : Int) = .ok P ∧ PowTracks A g p P := by
  intro p
  induction p using Nat.strong_induction_on with
  | _ p ih =>
    intro d h1 hd hmax
    obtain ⟨d, rfl⟩ : ∃ k, d = k + 1 := ⟨d - 1, by omega⟩
    rcases (show p = 1 ∨ 2 ≤ p by omega) with rfl | hp
    · exact ⟨A, by rw [Nat.cast_one, powFuel_one], PowTracks.self hA⟩
    · have hlog : p.log2 = (p / 2).log2 + 1 := by rw [Nat.log2_def, if_pos hp]
      obtain ⟨P, hP, tP⟩ := ih (p / 2) (by omega) d (by omega) (by omega)
        ((powMax_mono hg (by omega)).trans hmax)
      rw [powFuel_step _ _ _ _ _ hp]
      unfold powStep
      rw [hP, ok_bind]
      have f2 := terms_finite tP.finite tP.finite fun a b =>
        ((pow_mul_bound hn hg hrow hcol (by omega) (by omega) tP tP a b).trans
          (powBound_le_max hn hg hrow a b)).trans ((powMax_mono hg (by omega)).trans hmax)
      have t2 := tP.mul hn hg hrow hcol (by omega) (by omega) tP f2
      split
      · next h2 =>
        refine ⟨_, mult_eq P P, ?_⟩
        rwa [show p / 2 + p / 2 = p by omega] at t2
      · next h2 =>
        have f3 := terms_finite t2.finite hA fun a b =>
          ((pow_mul_bound hn hg hrow hcol (by omega) le_rfl t2 (PowTracks.self hA) a b).trans
            (powBound_le_max hn hg hrow a b)).trans ((powMax_mono hg (by omega)).trans hmax)
        have t3 := t2.mul hn hg hrow hcol (by omega) le_rfl (PowTracks.self hA) f3
        rw [show p / 2 + p / 2 + 1 = p by omega] at t3
        exact ⟨_, mult_mult_eq P A, t3⟩

end Fl

end MatrixLibs
