import Verif.Props.FloatInvN
import Mathlib.LinearAlgebra.Matrix.Determinant.Basic

/-!
# Property C126: forward error of the general floating point determinant and inverse
-/

namespace MatrixLibs

set_option linter.unusedSectionVars false

variable {F : Fmt} {n : Nat}

/-! ## Perturbation of a determinant -/

/-- The determinant with all signs positive, of the absolute values increased by `ε`: the largest absolute value that
the determinant can take if every element changes by at most `ε`. -/
def permAbs (A : Matrix (Fin n) (Fin n) ℝ) (ε : ℝ) : ℝ :=
  ∑ σ : Equiv.Perm (Fin n), ∏ i, (|A (σ i) i| + ε)

theorem prod_perturb {ι : Type} [DecidableEq ι] (s : Finset ι) (a e : ι → ℝ) {ε : ℝ} (he : ∀ i, |e i| ≤ ε) :
    |∏ i ∈ s, (a i + e i) - ∏ i ∈ s, a i| ≤ ∏ i ∈ s, (|a i| + ε) - ∏ i ∈ s, |a i| ∧
      |∏ i ∈ s, (a i + e i)| ≤ ∏ i ∈ s, (|a i| + ε) := by
  have hab : ∀ i, |a i + e i| ≤ |a i| + ε := fun i => (abs_add_le _ _).trans (by linarith [he i])
  induction s using Finset.induction_on with
  | empty => simp
  | insert x s hx ih =>
    obtain ⟨i1, i2⟩ := ih
    rw [Finset.prod_insert hx, Finset.prod_insert hx, Finset.prod_insert hx, Finset.prod_insert hx]
    set P := ∏ i ∈ s, (a i + e i)
    set Q := ∏ i ∈ s, a i
    set R := ∏ i ∈ s, (|a i| + ε)
    set S := ∏ i ∈ s, |a i|
    constructor
    · have e1 : (a x + e x) * P - a x * Q = a x * (P - Q) + e x * P := by ring
      rw [e1]
      refine (abs_add_le _ _).trans ?_
      rw [abs_mul, abs_mul]
      have h1 := mul_le_mul_of_nonneg_left i1 (abs_nonneg (a x))
      have h2 := mul_le_mul (he x) i2 (abs_nonneg _) ((abs_nonneg _).trans (he x))
      linarith
    · rw [abs_mul]
      exact mul_le_mul (hab x) i2 (abs_nonneg _) ((abs_nonneg _).trans (hab x))

theorem det_perturb (A E : Matrix (Fin n) (Fin n) ℝ) {ε : ℝ} (hE : ∀ i j, |E i j| ≤ ε) :
    |(A + E).det - A.det| ≤ permAbs A ε - permAbs A 0 ∧ |(A + E).det| ≤ permAbs A ε := by
  have hs : ∀ (σ : Equiv.Perm (Fin n)) (x : ℝ), |((Equiv.Perm.sign σ : ℤ) : ℝ) * x| = |x| := by
    intro σ x
    rcases Int.units_eq_one_or (Equiv.Perm.sign σ) with h | h <;> simp [h]
  unfold permAbs
  constructor
  · rw [Matrix.det_apply', Matrix.det_apply', ← Finset.sum_sub_distrib, ← Finset.sum_sub_distrib]
    refine (Finset.abs_sum_le_sum_abs _ _).trans (Finset.sum_le_sum fun σ _ => ?_)
    rw [← mul_sub, hs]
    simp only [add_zero]
    exact (prod_perturb Finset.univ (fun i => A (σ i) i) (fun i => E (σ i) i) fun i => hE _ _).1
  · rw [Matrix.det_apply']
    refine (Finset.abs_sum_le_sum_abs _ _).trans (Finset.sum_le_sum fun σ _ => ?_)
    rw [hs]
    exact (prod_perturb Finset.univ (fun i => A (σ i) i) (fun i => E (σ i) i) fun i => hE _ _).2

/-! ## The determinant -/

/-- How much every element may be changed by the rounding errors of the elimination (C101): `G` bounds the elements,
`m` the pivots from below. -/
noncomputable def elimEps (F : Fmt) (n : Nat) (G m : ℝ) : ℝ := n * (7 * F.u * G + (2 + 1 / m) * F.eta)

/-- Bound of the error of the computed determinant. -/
noncomputable def detErrN (A : Mat (Fl F) n n) (G m : ℝ) : ℝ :=
  permAbs (A.map Fl.val) (elimEps F n G m) - permAbs (A.map Fl.val) 0 +
    ((1 + F.u) ^ n - 1) * permAbs (A.map Fl.val) (elimEps F n G m) + n * ((1 + F.u) ^ n * (max 1 G) ^ n * F.eta)

/-- During the elimination no element exceeds `G` in magnitude and no pivot is below `m`. -/
def ElimBounded (A : Mat (Fl F) n n) (G m : ℝ) : Prop :=
  ∀ k σ S, ElimSteps A k σ S → (∀ i j, (S i j).Finite ∧ |(S i j).val| ≤ G) ∧
    ∀ i : Fin n, i.val < k → m ≤ |(S i i).val|

/-- C126: from 4x4 on, a finite computed determinant differs from the exact one by at most `detErrN`. -/
theorem C126_det_error (hn : 4 ≤ n) (A : Mat (Fl F) n n) (G m : ℝ) (hm : 0 < m) (h : ElimBounded A G m) :
    ∃ d, det A = .ok d ∧ (d.Finite → |d.val - (A.map Fl.val).det| ≤ detErrN A G m) := by
  obtain ⟨d, hd, hb⟩ := C101_det_backward hn A G m hm (fun k σ S hS => (h k σ S hS).1) fun k σ S hS => (h k σ S hS).2
  refine ⟨d, hd, fun hf => ?_⟩
  obtain ⟨E, h1, h2⟩ := hb hf
  obtain ⟨p1, p2⟩ := det_perturb (A.map Fl.val) E h1
  have h3 := abs_sub_le d.val (A.map Fl.val + E).det (A.map Fl.val).det
  have hu : 0 ≤ (1 + F.u) ^ n - 1 := by have := Fl.one_add_u_pow F n; linarith
  have h4 := mul_le_mul_of_nonneg_left p2 hu
  unfold detErrN elimEps
  linarith

/-- C126: if the exact determinant is larger than the error, the computed determinant has its sign. -/
theorem C126_det_sign (hn : 4 ≤ n) (A : Mat (Fl F) n n) (G m : ℝ) (hm : 0 < m) (h : ElimBounded A G m)
    (hlt : detErrN A G m < |(A.map Fl.val).det|) :
    ∃ d, det A = .ok d ∧ (d.Finite → 0 < d.val * (A.map Fl.val).det ∧ d.eq (Fl.ofInt 0) = false) := by
  obtain ⟨d, hd, hb⟩ := C126_det_error hn A G m hm h
  refine ⟨d, hd, fun hf => ?_⟩
  have h1 := (hb hf).trans_lt hlt
  refine ⟨?_, Fl.ne_zero_of_err hf (hb hf) hlt⟩
  rw [abs_lt] at h1
  rcases lt_trichotomy (A.map Fl.val).det 0 with h2 | h2 | h2
  · rw [abs_of_neg h2] at h1
    exact mul_pos_of_neg_of_neg (by linarith) h2
  · rw [h2, abs_zero] at h1
    linarith
  · rw [abs_of_pos h2] at h1
    exact mul_pos (by linarith) h2

/-! ## The inverse -/

/-- C126: if moreover the eliminations of all the minors are bounded, and the computed determinant is finite, then `inv`
returns, whatever the context, and every finite element is that of the exact inverse up to the error of the quotient of
the two determinants. -/
theorem C126_inv_error {m : Nat} (handled : Option Exc) (A : Mat (Fl F) (m + 5) (m + 5)) (G p : ℝ) (hp : 0 < p)
    (h : ElimBounded A G p) (G' p' : Fin (m + 5) → Fin (m + 5) → ℝ) (hp' : ∀ i j, 0 < p' i j)
    (h' : ∀ i j : Fin (m + 5), ElimBounded (A.submatrix i.succAbove j.succAbove) (G' i j) (p' i j))
    (hf : ∀ d, det A = .ok d → d.Finite) (hlt : detErrN A G p < |(A.map Fl.val).det|) :
    ∃ R, inv handled A = .ok R ∧ ∀ i j, (R i j).Finite → |(R i j).val - (A.map Fl.val)⁻¹ i j| ≤
      quotErr F ((A.map Fl.val)⁻¹ i j) (A.map Fl.val).det
        (detErrN (A.submatrix j.succAbove i.succAbove) (G' j i) (p' j i)) (detErrN A G p) := by
  obtain ⟨d, hd, hb⟩ := C126_det_error (by omega) A G p hp h
  obtain ⟨R, h1, h2⟩ := C111_inv_error (m := m + 1) handled A d hd (hf d hd) _ (hb (hf d hd)) hlt
    (fun i j => detErrN (A.submatrix i.succAbove j.succAbove) (G' i j) (p' i j)) (fun i j x hx hxf => by
      obtain ⟨y, hy, he⟩ := C126_det_error (by omega) (A.submatrix (Fin.succAbove i) (Fin.succAbove j)) (G' i j) (p' i j)
        (hp' i j) (h' i j)
      obtain rfl : x = y := Except.ok.inj (hx.symm.trans hy)
      exact he hxf)
  exact ⟨R, h1, fun i j hf => (h2 i j hf).2⟩

/-- C126: the same for 4x4 matrices, whose minors are 3x3. -/
theorem C126_inv4_error (handled : Option Exc) (A : Mat (Fl F) 4 4) (G p : ℝ) (hp : 0 < p)
    (h : ElimBounded A G p) (hf : ∀ d, det A = .ok d → d.Finite) (hlt : detErrN A G p < |(A.map Fl.val).det|) :
    ∃ R, inv handled A = .ok R ∧ ∀ i j, (R i j).Finite → |(R i j).val - (A.map Fl.val)⁻¹ i j| ≤
      quotErr F ((A.map Fl.val)⁻¹ i j) (A.map Fl.val).det (detErr3 (A.submatrix j.succAbove i.succAbove))
        (detErrN A G p) := by
  obtain ⟨d, hd, hb⟩ := C126_det_error le_rfl A G p hp h
  exact C111_inv4_error handled A d hd (hf d hd) _ (hb (hf d hd)) hlt

/-! ## A closed bound -/

theorem permAbs_le (A : Matrix (Fin n) (Fin n) ℝ) {G ε : ℝ} (hA : ∀ i j, |A i j| ≤ G) (hε : 0 ≤ ε) :
    permAbs A ε ≤ n.factorial * (G + ε) ^ n := by
  have h : ∀ σ : Equiv.Perm (Fin n), ∏ i, (|A (σ i) i| + ε) ≤ (G + ε) ^ n := fun σ => by
    refine (Finset.prod_le_prod (fun i _ => by positivity) fun i _ => add_le_add_left (hA _ _) ε).trans ?_
    simp
  refine (Finset.sum_le_sum fun σ _ => h σ).trans ?_
  simp [Fintype.card_perm]

theorem prod_growth {ι : Type} [DecidableEq ι] (s : Finset ι) (a : ι → ℝ) {G ε : ℝ} (h0 : ∀ i, 0 ≤ a i)
    (hG : ∀ i, a i ≤ G) (hε : 0 ≤ ε) :
    ∏ i ∈ s, (a i + ε) - ∏ i ∈ s, a i ≤ (G + ε) ^ s.card - G ^ s.card := by
  induction s using Finset.induction_on with
  | empty => simp
  | insert x s hx ih =>
    rw [Finset.prod_insert hx, Finset.prod_insert hx, Finset.card_insert_of_notMem hx, pow_succ, pow_succ]
    have hG0 : 0 ≤ G := (h0 x).trans (hG x)
    have hP : ∏ i ∈ s, (a i + ε) ≤ (G + ε) ^ s.card := by
      refine (Finset.prod_le_prod (fun i _ => add_nonneg (h0 i) hε) fun i _ => add_le_add_left (hG i) ε).trans ?_
      simp
    have hd : 0 ≤ (G + ε) ^ s.card - G ^ s.card := by
      have := pow_le_pow_left₀ hG0 (by linarith : G ≤ G + ε) s.card
      linarith
    have h1 := mul_le_mul_of_nonneg_left ih (h0 x)
    have h2 := mul_le_mul_of_nonneg_right (hG x) hd
    have h3 := mul_le_mul_of_nonneg_left hP hε
    nlinarith

theorem permAbs_growth (A : Matrix (Fin n) (Fin n) ℝ) {G ε : ℝ} (hA : ∀ i j, |A i j| ≤ G) (hε : 0 ≤ ε) :
    permAbs A ε - permAbs A 0 ≤ n.factorial * ((G + ε) ^ n - G ^ n) := by
  unfold permAbs
  rw [← Finset.sum_sub_distrib]
  simp only [add_zero]
  have h : ∀ σ : Equiv.Perm (Fin n), ∏ i, (|A (σ i) i| + ε) - ∏ i, |A (σ i) i| ≤ (G + ε) ^ n - G ^ n := fun σ => by
    have := prod_growth Finset.univ (fun i => |A (σ i) i|) (fun i => abs_nonneg _) (fun i => hA _ _) hε
    simpa using this
  refine (Finset.sum_le_sum fun σ _ => h σ).trans ?_
  rw [Finset.sum_const, Finset.card_univ, Fintype.card_perm, Fintype.card_fin, nsmul_eq_mul]

/-- C126: the error in terms of the format, the size and the two bounds alone. -/
theorem C126_det_error_closed (hn : 4 ≤ n) (A : Mat (Fl F) n n) (G m : ℝ) (hm : 0 < m) (h : ElimBounded A G m) :
    detErrN A G m ≤ n.factorial * ((1 + F.u) ^ n * (G + elimEps F n G m) ^ n - G ^ n) +
      n * ((1 + F.u) ^ n * (max 1 G) ^ n * F.eta) := by
  have hA : ∀ i j, |(A.map Fl.val) i j| ≤ G := fun i j => ((h 0 _ _ ElimSteps.start).1 i j).2
  have hG : 0 ≤ G := (abs_nonneg _).trans (hA ⟨0, by omega⟩ ⟨0, by omega⟩)
  have hε : 0 ≤ elimEps F n G m := by
    have := Fl.u_nonneg F
    have := Fl.eta_nonneg F
    unfold elimEps
    positivity
  have hu : 0 ≤ (1 + F.u) ^ n - 1 := by have := Fl.one_add_u_pow F n; linarith
  have h1 := permAbs_growth (A.map Fl.val) hA hε
  have h2 := mul_le_mul_of_nonneg_left (permAbs_le (A.map Fl.val) hA hε) hu
  unfold detErrN
  linarith

/-- The example of C101 meets the hypotheses: its determinant is -16 and the error bound is below 2. -/
theorem c126_example : ElimBounded c101Example 9 1 ∧ detErrN c101Example 9 1 < |(c101Example.map Fl.val).det| := by
  refine ⟨c101Example_bounds, ?_⟩
  have hz : ∀ z : Int, z.natAbs ≤ 2 ^ 24 → (Fl.ofInt z : Fl binary32).Finite ∧ (Fl.ofInt z : Fl binary32).val = z :=
    fun z h => Fl.val_ofInt_exact (F := binary32) z h
  have he : c101Example = c111Int.map Fl.ofInt := by
    ext i j
    fin_cases i <;> fin_cases j <;> rfl
  have hs : ∀ i j, (c111Int i j).natAbs ≤ 2 ^ 24 := by decide +kernel
  have hm : c101Example.map Fl.val = c111Int.map (Int.castRingHom ℝ) := by
    ext i j
    rw [he]
    exact (hz _ (hs i j)).2
  have hdet : (c101Example.map Fl.val).det = -16 := by
    rw [hm, ← RingHom.mapMatrix_apply, ← RingHom.map_det, show c111Int.det = -16 by decide +kernel]
    norm_num
  have hη := binary32_eta_le
  have hη0 := Fl.eta_nonneg binary32
  have hε : elimEps binary32 4 9 1 ≤ 2 / 10 ^ 5 := by
    unfold elimEps
    rw [binary32_u]
    norm_num at hη ⊢
    linarith
  have hε0 : 0 ≤ elimEps binary32 4 9 1 := by
    unfold elimEps
    rw [binary32_u]
    positivity
  have h1 := C126_det_error_closed le_rfl c101Example 9 1 one_pos c101Example_bounds
  have h2 : (9 + elimEps binary32 4 9 1) ^ 4 ≤ (9 + 2 / 10 ^ 5) ^ 4 := pow_le_pow_left₀ (by linarith) (by linarith) 4
  rw [hdet]
  rw [binary32_u] at h1
  have h3 : (24 : ℝ) * ((1 + 1 / 2 ^ 24) ^ 4 * (9 + elimEps binary32 4 9 1) ^ 4 - 9 ^ 4) ≤
      24 * ((1 + 1 / 2 ^ 24) ^ 4 * (9 + 2 / 10 ^ 5) ^ 4 - 9 ^ 4) := by gcongr
  have h4 : (4 : ℝ) * ((1 + 1 / 2 ^ 24) ^ 4 * (max 1 9) ^ 4 * binary32.eta) ≤
      4 * ((1 + 1 / 2 ^ 24) ^ 4 * (max 1 9) ^ 4 * (1 / 2 ^ 24)) := by gcongr
  have hmax : max (1 : ℝ) 9 = 9 := by norm_num
  rw [hmax] at h1 h4
  have h5 : (Nat.factorial 4 : ℝ) = 24 := by norm_num [Nat.factorial]
  rw [h5] at h1
  push_cast at h1
  refine (h1.trans (add_le_add h3 h4)).trans_lt ?_
  norm_num

/-- The theorems about the determinant and the inverse apply to it. -/
example : ∃ d, det c101Example = .ok d ∧ (d.Finite → 0 < d.val * (c101Example.map Fl.val).det ∧
    d.eq (Fl.ofInt 0) = false) :=
  C126_det_sign le_rfl c101Example 9 1 one_pos c126_example.1 c126_example.2

example : ∃ R, inv none c101Example = .ok R ∧ ∀ i j, (R i j).Finite →
    |(R i j).val - (c101Example.map Fl.val)⁻¹ i j| ≤ quotErr binary32 ((c101Example.map Fl.val)⁻¹ i j)
      (c101Example.map Fl.val).det (detErr3 (c101Example.submatrix j.succAbove i.succAbove))
      (detErrN c101Example 9 1) :=
  C126_inv4_error none c101Example 9 1 one_pos c126_example.1 (fun d hd => by
    have h : det c101Example = .ok (Fl.ofInt (-16)) := by decide +kernel
    obtain rfl : d = Fl.ofInt (-16) := Except.ok.inj (hd.symm.trans h)
    exact (Fl.val_ofInt_exact (F := binary32) (-16) (by decide)).1) c126_example.2

/-! ## A 5x5 example, with all its minors -/

def c126Int : Matrix (Fin 5) (Fin 5) ℤ :=
  !![0, 1, 0, 0, 1; 1, 0, 1, 0, 0; 0, 0, 1, 1, 0; 0, 0, 0, 1, 2; 1, 0, 0, 0, 1]

def c126Example : Mat (Fl binary32) 5 5 := c126Int.map Fl.ofInt

/-- A run of the elimination with small integers only is bounded. -/
theorem elimBounded_of_run {A : Mat (Fl binary32) n n}
    (hrun : ∀ k : Fin (n + 1), ∀ x ∈ elimRun A k.val,
      (∀ i j, ∃ z ∈ Finset.Icc (-2 : Int) 2, x.2 i j = Fl.ofInt z) ∧
      ∀ i : Fin n, i.val < k.val → ∃ z ∈ Finset.Icc (-2 : Int) 2, z ≠ 0 ∧ x.2 i i = Fl.ofInt z) :
    ElimBounded A 2 1 := by
  have hv : ∀ z : Int, z.natAbs ≤ 2 → (Fl.ofInt z : Fl binary32).Finite ∧ (Fl.ofInt z : Fl binary32).val = z := by
    intro z hz
    exact Fl.val_ofInt_exact (F := binary32) z (hz.trans (by decide))
  intro k σ S hS
  have hk := hS.le
  obtain ⟨h1, h2⟩ := hrun ⟨k, by omega⟩ (σ, S) hS.run
  refine ⟨fun i j => ?_, fun i hi => ?_⟩
  · obtain ⟨z, hz, e⟩ := h1 i j
    rw [Finset.mem_Icc] at hz
    dsimp only at e
    rw [e, (hv z (by omega)).2]
    refine ⟨(hv z (by omega)).1, ?_⟩
    rw [abs_le]
    exact ⟨by exact_mod_cast hz.1, by exact_mod_cast hz.2⟩
  · obtain ⟨z, hz, h0, e⟩ := h2 i hi
    rw [Finset.mem_Icc] at hz
    dsimp only at e
    rw [e, (hv z (by omega)).2]
    have : (1 : Int) ≤ |z| := Int.one_le_abs h0
    exact_mod_cast this

theorem c126Example_bounded : ElimBounded c126Example 2 1 := elimBounded_of_run (by decide +kernel)

theorem c126Example_minors (i j : Fin 5) :
    ElimBounded (c126Example.submatrix i.succAbove j.succAbove) 2 1 :=
  elimBounded_of_run ((by decide +kernel : ∀ i j : Fin 5, ∀ k : Fin (4 + 1),
      ∀ x ∈ elimRun (c126Example.submatrix i.succAbove j.succAbove) k.val,
      (∀ i j, ∃ z ∈ Finset.Icc (-2 : Int) 2, x.2 i j = Fl.ofInt z) ∧
      ∀ i : Fin 4, i.val < k.val → ∃ z ∈ Finset.Icc (-2 : Int) 2, z ≠ 0 ∧ x.2 i i = Fl.ofInt z) i j)

theorem c126Example_error : detErrN c126Example 2 1 < |(c126Example.map Fl.val).det| := by
  have hs : ∀ i j, (c126Int i j).natAbs ≤ 2 ^ 24 := by decide +kernel
  have hm : c126Example.map Fl.val = c126Int.map (Int.castRingHom ℝ) := by
    ext i j
    exact (Fl.val_ofInt_exact (F := binary32) _ (hs i j)).2
  have hdet : (c126Example.map Fl.val).det = 1 := by
    rw [hm, ← RingHom.mapMatrix_apply, ← RingHom.map_det, show c126Int.det = 1 by decide +kernel]
    norm_num
  have hη := binary32_eta_le
  have hη0 := Fl.eta_nonneg binary32
  have hε : elimEps binary32 5 2 1 ≤ 1 / 10 ^ 5 := by
    unfold elimEps
    rw [binary32_u]
    norm_num at hη ⊢
    linarith
  have hε0 : 0 ≤ elimEps binary32 5 2 1 := by
    unfold elimEps
    rw [binary32_u]
    positivity
  have h1 := C126_det_error_closed (by decide) c126Example 2 1 one_pos c126Example_bounded
  have h2 : (2 + elimEps binary32 5 2 1) ^ 5 ≤ (2 + 1 / 10 ^ 5) ^ 5 := pow_le_pow_left₀ (by linarith) (by linarith) 5
  rw [hdet]
  rw [binary32_u] at h1
  have h3 : (120 : ℝ) * ((1 + 1 / 2 ^ 24) ^ 5 * (2 + elimEps binary32 5 2 1) ^ 5 - 2 ^ 5) ≤
      120 * ((1 + 1 / 2 ^ 24) ^ 5 * (2 + 1 / 10 ^ 5) ^ 5 - 2 ^ 5) := by gcongr
  have h4 : (5 : ℝ) * ((1 + 1 / 2 ^ 24) ^ 5 * (max 1 2) ^ 5 * binary32.eta) ≤
      5 * ((1 + 1 / 2 ^ 24) ^ 5 * (max 1 2) ^ 5 * (1 / 2 ^ 24)) := by gcongr
  have hmax : max (1 : ℝ) 2 = 2 := by norm_num
  rw [hmax] at h1 h4
  have h5 : (Nat.factorial 5 : ℝ) = 120 := by norm_num [Nat.factorial]
  rw [h5] at h1
  push_cast at h1
  refine (h1.trans (add_le_add h3 h4)).trans_lt ?_
  norm_num

example : ∃ R, inv none c126Example = .ok R ∧ ∀ i j, (R i j).Finite → |(R i j).val - (c126Example.map Fl.val)⁻¹ i j| ≤
    quotErr binary32 ((c126Example.map Fl.val)⁻¹ i j) (c126Example.map Fl.val).det
      (detErrN (c126Example.submatrix j.succAbove i.succAbove) 2 1) (detErrN c126Example 2 1) :=
  C126_inv_error (m := 0) none c126Example 2 1 one_pos c126Example_bounded (fun _ _ => 2) (fun _ _ => 1)
    (fun _ _ => one_pos) c126Example_minors (fun d hd => by
      have h : det c126Example = .ok (Fl.ofInt 1) := by decide +kernel
      obtain rfl : d = Fl.ofInt 1 := Except.ok.inj (hd.symm.trans h)
      exact (Fl.val_ofInt_exact (F := binary32) 1 (by decide)).1) c126Example_error

end MatrixLibs
