import Verif.Proof.Standard
import Verif.Proof.Inv
import Mathlib.LinearAlgebra.Matrix.NonsingularInverse
import Mathlib.LinearAlgebra.Matrix.Adjugate

/-!
# Error analysis in the standard model: variance, standard deviation, closed-form inverses
-/

namespace MatrixLibs

set_option linter.unusedSectionVars false

open CScalar (ofInt)

namespace Standard

variable {T : Type} [Inhabited T] [CScalar T] [Standard T] {i j : Nat}

/-! ## Variance -/

/-- The square of a number near `y`. -/
theorem sq_near {u δ y z : ℝ} (hu : 0 ≤ u) (hδ : 0 ≤ δ) (h : |z - y| ≤ u * |y| + δ) :
    |z * z - y ^ 2| ≤ (1 + δ) * ((1 + u) ^ 2 * y ^ 2 + δ) - y ^ 2 := by
  have a1 : |z + y| ≤ (2 + u) * |y| + δ := by
    rw [show z + y = (z - y) + 2 * y by ring]
    refine (abs_add_le _ _).trans ?_
    rw [abs_mul, abs_two]
    linarith
  have hy := abs_nonneg y
  have a2 : |z * z - y ^ 2| ≤ (u * |y| + δ) * ((2 + u) * |y| + δ) := by
    rw [show z * z - y ^ 2 = (z - y) * (z + y) by ring, abs_mul]
    exact mul_le_mul h a1 (abs_nonneg _) (by positivity)
  have a3 : 2 * ((1 + u) * |y|) ≤ 1 + ((1 + u) * |y|) ^ 2 := by nlinarith [sq_nonneg ((1 + u) * |y| - 1)]
  have a4 := mul_le_mul_of_nonneg_left a3 hδ
  have a5 : |y| ^ 2 = y ^ 2 := sq_abs y
  rw [mul_pow, a5] at a4
  calc _ ≤ _ := a2
    _ = (1 + u) ^ 2 * |y| ^ 2 + δ * (2 * ((1 + u) * |y|)) + δ ^ 2 - |y| ^ 2 := by ring
    _ ≤ _ := by rw [a5]; nlinarith

/-- A running sum of rounded squares; `Y` is the sum of the exact ones. -/
def SqSum (N : Nat) (Y : ℝ) (s : T) : Prop :=
  0 ≤ Y ∧ ∃ l, Sums l s ∧ l.length = N ∧ (∀ x ∈ l, 0 ≤ x) ∧
    |l.sum - Y| ≤ (1 + d T) * ((1 + u T) ^ 2 * Y + N * d T) - Y

theorem SqSum.add {N : Nat} {Y y : ℝ} {s z t r : T} (hs : SqSum N Y s) (hz : |val z - y| ≤ u T * |y| + d T)
    (ht : CScalar.mul z z = .ok t) (hr : CScalar.add s t = .ok r) : SqSum (N + 1) (Y + y ^ 2) r := by
  obtain ⟨h0, l, h1, h2, h3, h4⟩ := hs
  refine ⟨by positivity, l ++ [val z * val z], h1.snoc (mul ht).err hr, by simp [h2], ?_, ?_⟩
  · intro x hx
    rcases List.mem_append.mp hx with hx | hx
    · exact h3 x hx
    · rw [List.mem_singleton.mp hx]
      exact mul_self_nonneg _
  · have h5 := sq_near u_nonneg d_nonneg hz
    rw [List.sum_append, List.sum_singleton, add_sub_add_comm]
    refine (abs_add_le _ _).trans ((add_le_add h4 h5).trans (le_of_eq ?_))
    push_cast
    ring

theorem wp_sqAll (A : Mat T i j) (m : T) :
    wp (forUp 0 i (ofInt 0 : T) fun it result => forUp 0 j result fun jt result => do
        let d ← CScalar.sub (← rd A it jt) m
        let e ← CScalar.sub (← rd A it jt) m
        CScalar.add result (← CScalar.mul d e))
      (SqSum (i * j) (∑ a, ∑ b, (val (A a b) - val m) ^ 2)) (fun _ => True) := by
  set g : Nat → Nat → ℝ := fun a b => if hab : a < i ∧ b < j then val (A ⟨a, hab.1⟩ ⟨b, hab.2⟩) - val m else 0 with hg
  have eg : ∀ (a : Fin i) (b : Fin j), val (A a b) - val m = g a b := fun a b => by
    rw [hg]
    dsimp only
    rw [dif_pos (show a.val < i ∧ b.val < j from ⟨a.2, b.2⟩)]
  have e1 : ∑ a, ∑ b, (val (A a b) - val m) ^ 2 = ∑ a ∈ Finset.range i, ∑ b ∈ Finset.range j, g a b ^ 2 := by
    rw [Finset.sum_range]
    refine Finset.sum_congr rfl fun a _ => ?_
    rw [Finset.sum_range]
    exact Finset.sum_congr rfl fun b _ => by rw [eg a b]
  rw [e1]
  refine wp_forUp (fun a s => SqSum (a * j) (∑ a ∈ Finset.range a, ∑ b ∈ Finset.range j, g a b ^ 2) s) (Nat.zero_le _) ?_ ?_
    fun _ h => h
  · exact ⟨by simp, [], Sums.nil, by simp, by simp, by simp⟩
  intro a s _ ha hs
  refine wp_forUp (fun b s => SqSum (a * j + b)
    ((∑ a ∈ Finset.range a, ∑ b ∈ Finset.range j, g a b ^ 2) + ∑ b ∈ Finset.range b, g a b ^ 2) s) (Nat.zero_le _) ?_ ?_ ?_
  · simpa using hs
  · intro b s _ hb hs
    simp only [rd_eq ha hb, ok_bind]
    cases hz : CScalar.sub (A ⟨a, ha⟩ ⟨b, hb⟩) m with
    | error _ => trivial
    | ok z =>
      simp only [ok_bind]
      cases ht : CScalar.mul z z with
      | error _ => trivial
      | ok t =>
        rw [ok_bind]
        cases hr : CScalar.add s t with
        | error _ => trivial
        | ok r =>
          rw [wp_ok]
          have := hs.add (Standard.sub hz).err ht hr
          rw [Finset.sum_range_succ, ← add_assoc, ← add_assoc]
          rw [← show _ = g a b from eg ⟨a, ha⟩ ⟨b, hb⟩]
          exact this
  · intro s hs
    rw [Finset.sum_range_succ, Nat.succ_mul]
    exact hs

/-- The mean squared distance from any number is the variance and the squared distance of that number from the mean. -/
theorem sq_about (A : Mat T i j) (h0 : i * j ≠ 0) (m : ℝ) :
    (∑ a, ∑ b, (val (A a b) - m) ^ 2) / ((i * j : Nat) : ℝ) = trueVar A + (m - trueMean A) ^ 2 := by
  have hN : ((i * j : Nat) : ℝ) ≠ 0 := by exact_mod_cast h0
  have hS : ∑ a, ∑ b, val (A a b) = trueMean A * ((i * j : Nat) : ℝ) := by
    unfold trueMean
    rw [div_mul_cancel₀ _ hN]
  have key : ∑ a, ∑ b, (val (A a b) - m) ^ 2 = ∑ a, ∑ b, (val (A a b) - trueMean A) ^ 2 +
      ((i * j : Nat) : ℝ) * (m - trueMean A) ^ 2 := by
    have h1 : ∀ a b, (val (A a b) - m) ^ 2 = (val (A a b) - trueMean A) ^ 2 +
        ((2 * (trueMean A - m)) * val (A a b) + ((m - trueMean A) * (m + trueMean A))) := by
      intro a b; ring
    simp only [h1, Finset.sum_add_distrib, ← Finset.mul_sum, hS, Finset.sum_const, Finset.card_univ, Fintype.card_fin,
      nsmul_eq_mul]
    push_cast
    ring
  rw [key, add_div, mul_div_cancel_left₀ _ hN]
  rfl

theorem trueVar_nonneg (A : Mat T i j) : 0 ≤ trueVar A := by
  unfold trueVar
  positivity

theorem var_err {A : Mat T i j} {v : T} (hv : var A = .ok v) (h0 : i * j ≠ 0) : |val v - trueVar A| ≤ varBound A := by
  have hu := u_nonneg (T := T)
  have hd := d_nonneg (T := T)
  unfold var at hv
  obtain ⟨m, hm, hv⟩ := bind_ok hv
  obtain ⟨s, hs, hv⟩ := bind_ok hv
  have hm' : |val m - trueMean A| ≤ meanBound A := mean_err hm h0
  obtain ⟨hY, l, h1, h2, h3, h4⟩ := wp_ok_elim (wp_sqAll A m) hs
  have h5 := h1.err
  have h6 : (l.map fun x => |x|) = l := by
    conv_rhs => rw [← List.map_id l]
    exact List.map_congr_left fun x hx => abs_of_nonneg (h3 x hx)
  rw [h6, h2] at h5
  have h7 := divSize hv
  have h8 := sq_about A h0 (val m)
  have hM : (val m - trueMean A) ^ 2 ≤ meanBound A ^ 2 := by
    rw [← sq_abs]
    exact pow_le_pow_left₀ (abs_nonneg _) hm' 2
  have hD := sq_nonneg (val m - trueMean A)
  have hV := trueVar_nonneg A
  unfold varBound
  generalize (∑ a, ∑ b, (val (A a b) - val m) ^ 2) = Y at *
  generalize (val m - trueMean A) ^ 2 = Δ at *
  generalize meanBound A ^ 2 = M at *
  generalize trueVar A = V at *
  generalize hN : i * j = N at *
  have hN' : (0 : ℝ) < (N : ℝ) := by exact_mod_cast Nat.pos_of_ne_zero h0
  obtain ⟨k, rfl⟩ : ∃ k, N = k + 1 := ⟨N - 1, by omega⟩
  rw [Nat.add_sub_cancel] at h5
  have hh := h_nonneg (T := T)
  have p0 := one_le_pow (T := T) k
  have eY : Y = (V + Δ) * ((k + 1 : Nat) : ℝ) := by rw [← h8, div_mul_cancel₀ _ hN'.ne']
  set W : ℝ := (1 + u T) ^ (k + 1) * ((1 + d T) * ((1 + u T) ^ 2 * (V + Δ) + d T)) + (1 + u T) ^ k * h T with hW
  -- the sum
  have b1 : |val s - Y| ≤ ((k + 1 : Nat) : ℝ) * (W - (V + Δ)) := by
    have c1 := abs_sub_le (val s) l.sum Y
    have c2 : l.sum ≤ (1 + d T) * ((1 + u T) ^ 2 * Y + ((k + 1 : Nat) : ℝ) * d T) := by linarith [(abs_le.mp h4).2]
    have c3 : 0 ≤ (1 + u T) ^ (k + 1) - 1 := by linarith [one_le_pow (T := T) (k + 1)]
    have c4 := mul_le_mul_of_nonneg_left c2 c3
    rw [hW]
    rw [eY] at c1 c4 h4 ⊢
    linarith
  have b2 : |val s / ((k + 1 : Nat) : ℝ) - (V + Δ)| ≤ W - (V + Δ) := by
    rw [← h8, ← sub_div, abs_div, abs_of_pos hN', div_le_iff₀ hN', h8, mul_comm]
    exact b1
  generalize val s / ((k + 1 : Nat) : ℝ) = t at *
  have b3 : |t| ≤ W := by
    have := abs_sub_abs_le_abs_sub t (V + Δ)
    rw [abs_of_nonneg (add_nonneg hV hD)] at this
    linarith
  have b4 := abs_sub_le (val v) t V
  have b5 : |t - V| ≤ W - V := by
    have := abs_sub_le t (V + Δ) V
    rw [add_sub_cancel_left, abs_of_nonneg hD] at this
    linarith
  have b6 := mul_le_mul_of_nonneg_left b3 (by nlinarith : 0 ≤ (1 + u T) ^ 2 - 1)
  have b7 : (1 + u T) ^ (k + 1 + 4) * (1 + d T) * Δ ≤ (1 + u T) ^ (k + 1 + 4) * (1 + d T) * M :=
    mul_le_mul_of_nonneg_left hM (by positivity)
  calc |val v - V| ≤ (1 + u T) ^ 2 * W - V + e T := by linarith
    _ = ((1 + u T) ^ (k + 1 + 4) * (1 + d T) - 1) * V + (1 + u T) ^ (k + 1 + 4) * (1 + d T) * Δ +
        ((1 + u T) ^ (k + 1 + 2) * (1 + d T) * d T + (1 + u T) ^ (k + 2) * h T + e T) := by rw [hW]; ring
    _ ≤ _ := by linarith

theorem stddev_err {A : Mat T i j} {s : T} (hs : stddev A = .ok s) (h0 : i * j ≠ 0) :
    |val s - Real.sqrt (trueVar A)| ≤ u T * val s + Real.sqrt (varBound A) ∧
    (0 < trueVar A → |val s - Real.sqrt (trueVar A)| ≤ u T * val s + varBound A / Real.sqrt (trueVar A)) := by
  unfold stddev at hs
  obtain ⟨v, hv, hs⟩ := bind_ok hs
  obtain ⟨hv0, hs0, e1⟩ := sqrt hs
  have e2 := var_err hv h0
  have hV := trueVar_nonneg A
  have hs := Real.sq_sqrt hv0
  have hS := Real.sq_sqrt hV
  have hp := Real.sqrt_nonneg (val v)
  have hP := Real.sqrt_nonneg (trueVar A)
  have key : ∀ d : ℝ, |Real.sqrt (val v) - Real.sqrt (trueVar A)| ≤ d → |val s - Real.sqrt (trueVar A)| ≤ u T * val s + d := by
    intro d hd
    have a1 := abs_sub_le (val s) (Real.sqrt (val v)) (Real.sqrt (trueVar A))
    linarith
  have fac : |val v - trueVar A| = |Real.sqrt (val v) - Real.sqrt (trueVar A)| *
      (Real.sqrt (val v) + Real.sqrt (trueVar A)) := by
    rw [← abs_of_nonneg (add_nonneg hp hP), ← abs_mul]
    congr 1
    nlinarith [hS, hs]
  refine ⟨key _ ?_, fun hpos => key _ ?_⟩
  · refine Real.le_sqrt_of_sq_le (le_trans ?_ e2)
    rw [fac, sq]
    refine mul_le_mul_of_nonneg_left ?_ (abs_nonneg _)
    rw [abs_le]
    constructor <;> linarith
  · have hpos' := Real.sqrt_pos.mpr hpos
    rw [le_div_iff₀ hpos']
    refine le_trans ?_ e2
    rw [fac]
    exact mul_le_mul_of_nonneg_left (by linarith) (abs_nonneg _)

/-! ## Inverses -/

theorem quot_err {a D q : T} {a' D' ε E : ℝ} (ha : |val a - a'| ≤ ε) (hE : |val D - D'| ≤ E) (hlt : E < |D'|)
    (hq : CScalar.div a D = .ok q) : |val q - a' / D'| ≤ quotBound T (a' / D') D' ε E := by
  have hu := u_nonneg (T := T)
  have hE0 : 0 ≤ E := (abs_nonneg _).trans hE
  have hd' : 0 < |D'| := lt_of_le_of_lt hE0 hlt
  have hd0 : D' ≠ 0 := abs_pos.mp hd'
  have hlow : |D'| - E ≤ |val D| := by
    have := abs_sub_abs_le_abs_sub D' (val D)
    rw [abs_sub_comm] at this
    linarith
  have hpos : 0 < |D'| - E := by linarith
  obtain ⟨hdv0, e1⟩ := div hq
  have e1 := e1.err
  have e2 : |val a / val D - a' / D'| ≤ (ε + |a' / D'| * E) / (|D'| - E) := by
    have : val a / val D - a' / D' = ((val a - a') - (a' / D') * (val D - D')) / val D := by
      field_simp
      ring
    rw [this, abs_div]
    have h1 : |val a - a' - a' / D' * (val D - D')| ≤ ε + |a' / D'| * E := by
      refine (abs_sub _ _).trans ?_
      rw [abs_mul]
      have := mul_le_mul_of_nonneg_left hE (abs_nonneg (a' / D'))
      linarith
    exact div_le_div₀ ((abs_nonneg _).trans h1) h1 hpos hlow
  unfold quotBound
  generalize (ε + |a' / D'| * E) / (|D'| - E) = q' at *
  generalize val a / val D = t at *
  generalize a' / D' = x at *
  have a1 := abs_sub_le (val q) t x
  have a2 : |t| ≤ |x| + q' := by
    have := abs_sub_abs_le_abs_sub t x
    linarith
  have a3 := mul_le_mul_of_nonneg_left a2 hu
  linarith

/-- The division that ends `inv`: the divisor is not 0, or it throws. -/
theorem opDiv_elem {handled : Option Exc} {A B : Mat T i j} {s : T} (hs : CScalar.eq s (ofInt 0) = false)
    (hB : opDiv handled A s = .ok B) (a : Fin i) (b : Fin j) : CScalar.div (A a b) s = .ok (B a b) :=
  ((div_elementwise handled A s hs).1 B).mp hB a b

theorem inv_adjugate {n : Nat} (M : Matrix (Fin n) (Fin n) ℝ) (a b : Fin n) : M⁻¹ a b = M.adjugate a b / M.det := by
  rw [Matrix.inv_def, Matrix.smul_apply, smul_eq_mul, Ring.inverse_eq_inv', div_eq_inv_mul]

theorem inv1_err {handled : Option Exc} {A B : Mat T 1 1} (hB : inv handled A = .ok B) :
    val (A 0 0) ≠ 0 ∧ |val (B 0 0) - (A.map val)⁻¹ 0 0| ≤ u T * |(A.map val)⁻¹ 0 0| + e T := by
  change inv1 A = .ok B at hB
  unfold inv1 det1 at hB
  rw [rd_eq (by omega) (by omega), ok_bind] at hB
  obtain ⟨q, hq, hB⟩ := bind_ok hB
  injection hB with hB
  subst hB
  obtain ⟨h1, h2⟩ := div hq
  refine ⟨h1, ?_⟩
  have h3 := h2.err
  rw [one] at h3
  have h4 : (A.map val)⁻¹ 0 0 = 1 / val (A 0 0) := by
    rw [inv_adjugate, Matrix.adjugate_fin_one, Matrix.det_fin_one]
    rfl
  rw [h4]
  exact h3

theorem inv2_err {handled : Option Exc} {A B : Mat T 2 2} (hB : inv handled A = .ok B)
    (hlt : det2Bound T (A.map val) < |(A.map val).det|) (a b : Fin 2) :
    |val (B a b) - (A.map val)⁻¹ a b| ≤ quotBound T ((A.map val)⁻¹ a b) (A.map val).det 0 (det2Bound T (A.map val)) := by
  change inv2 handled A = .ok B at hB
  unfold inv2 at hB
  obtain ⟨D, hD, hB⟩ := bind_ok hB
  have hE : |val D - (A.map val).det| ≤ det2Bound T (A.map val) := by
    rw [Matrix.det_fin_two]
    exact det2_err (show det A = .ok D from hD)
  split at hB
  · cases hB
  next hne =>
  rw [rd_eq (by omega) (by omega), rd_eq (by omega) (by omega), rd_eq (by omega) (by omega), rd_eq (by omega) (by omega)] at hB
  simp only [ok_bind] at hB
  obtain ⟨y, hy, hB⟩ := bind_ok hB
  obtain ⟨z, hz, hB⟩ := bind_ok hB
  have hq := opDiv_elem (by simpa using hne) hB a b
  rw [inv_adjugate]
  refine quot_err (le_of_eq (abs_eq_zero.mpr (sub_eq_zero.mpr ?_))) hE hlt hq
  rw [Matrix.adjugate_fin_two]
  fin_cases a <;> fin_cases b
  · rfl
  · exact neg hy
  · exact neg hz
  · rfl

theorem cross_err {p q r s x : T} (hx : cross p q r s = .ok x) {t X : ℝ} (ht : t = val p * val q - val r * val s)
    (hX : X = |val p| * |val q| + |val r| * |val s|) :
    |val x - t| ≤ ((1 + u T) ^ 2 - 1) * X + 2 * (1 + u T) * h T := by
  have hu := u_nonneg (T := T)
  unfold cross at hx
  obtain ⟨p1, hp1, hx⟩ := bind_ok hx
  obtain ⟨p2, hp2, hx⟩ := bind_ok hx
  rw [ht, hX]
  have := ((Tr.mul2 hp1).sub (Tr.mul2 hp2) hx).err
  refine this.trans (add_le_add le_rfl ?_)
  have hd := d_nonneg (T := T)
  have he := e_nonneg (T := T)
  unfold h
  nlinarith [mul_nonneg hu hd]

theorem inv3_err {handled : Option Exc} {A B : Mat T 3 3} (hB : inv handled A = .ok B)
    (hlt : det3Bound T (A.map val) < |(A.map val).det|) (a b : Fin 3) :
    |val (B a b) - (A.map val)⁻¹ a b| ≤ quotBound T ((A.map val)⁻¹ a b) (A.map val).det
      (det2Bound T ((A.map val).submatrix b.succAbove a.succAbove)) (det3Bound T (A.map val)) := by
  change inv3 handled A = .ok B at hB
  unfold inv3 at hB
  obtain ⟨D, hD, hB⟩ := bind_ok hB
  have hE : |val D - (A.map val).det| ≤ det3Bound T (A.map val) := det3_err (show det A = .ok D from hD)
  split at hB
  · cases hB
  next hne =>
  iterate 9 rw [rd_eq (by omega) (by omega), ok_bind] at hB
  obtain ⟨x00, h00, hB⟩ := bind_ok hB
  obtain ⟨x01, h01, hB⟩ := bind_ok hB
  obtain ⟨x02, h02, hB⟩ := bind_ok hB
  obtain ⟨x10, h10, hB⟩ := bind_ok hB
  obtain ⟨x11, h11, hB⟩ := bind_ok hB
  obtain ⟨x12, h12, hB⟩ := bind_ok hB
  obtain ⟨x20, h20, hB⟩ := bind_ok hB
  obtain ⟨x21, h21, hB⟩ := bind_ok hB
  obtain ⟨x22, h22, hB⟩ := bind_ok hB
  have hq := opDiv_elem (by simpa using hne) hB a b
  rw [inv_adjugate]
  refine quot_err ?_ hE hlt hq
  rw [Matrix.adjugate_fin_three]
  fin_cases a <;> fin_cases b
  · refine cross_err h00 ?_ ?_ <;> simp
  · refine cross_err h01 ?_ ?_ <;> simp [Fin.succAbove] <;> try ring
  · refine cross_err h02 ?_ ?_ <;> simp [Fin.succAbove]
  · refine cross_err h10 ?_ ?_ <;> simp [Fin.succAbove] <;> try ring
  · refine cross_err h11 ?_ ?_ <;> simp [Fin.succAbove]
  · refine cross_err h12 ?_ ?_ <;> simp [Fin.succAbove] <;> try ring
  · refine cross_err h20 ?_ ?_ <;> simp [Fin.succAbove]
  · refine cross_err h21 ?_ ?_ <;> simp [Fin.succAbove] <;> try ring
  · refine cross_err h22 ?_ ?_ <;> simp [Fin.succAbove]

end Standard
end MatrixLibs
