import Verif.Props.FloatRange
import Verif.Proof.Arith
import Mathlib.LinearAlgebra.Matrix.NonsingularInverse
import Mathlib.LinearAlgebra.Matrix.Adjugate

/-!
# Property C86: accuracy of the closed-form floating point inverses
-/

namespace MatrixLibs

set_option linter.unusedSectionVars false

variable {F : Fmt}

/-- The bound of the error of a 2x2 determinant (C73). -/
noncomputable def detErr2 (F : Fmt) (M : Matrix (Fin 2) (Fin 2) ℝ) : ℝ :=
  ((1 + F.u) ^ 2 - 1) * (|M 0 0| * |M 1 1| + |M 0 1| * |M 1 0|) + 2 * (1 + F.u) * F.eta

/-- The bound of the error of a 3x3 determinant (C73). -/
noncomputable def detErr3 (A : Mat (Fl F) 3 3) : ℝ :=
  ((1 + F.u) ^ 7 - 1) * perm3 A +
    6 * (1 + F.u) ^ 6 * (1 + |(A 2 0).val| + |(A 2 1).val| + |(A 2 2).val|) * F.eta

/-- The bound of the error of an element of the inverse: `x` is the exact element, `d` the exact
determinant, `e` and `E` bound the errors of the numerator and of the determinant. -/
noncomputable def quotErr (F : Fmt) (x d e E : ℝ) : ℝ :=
  F.u * |x| + (1 + F.u) * ((e + |x| * E) / (|d| - E)) + F.eta

namespace Fl

theorem quot_err {a d : Fl F} {a' d' e E : ℝ} (hd : d.Finite) (ha : |a.val - a'| ≤ e)
    (hE : |d.val - d'| ≤ E) (hlt : E < |d'|) (hf : (a.div d).Finite) :
    |(a.div d).val - a' / d'| ≤ quotErr F (a' / d') d' e E := by
  have hu := u_nonneg F
  have hE0 : 0 ≤ E := (abs_nonneg _).trans hE
  have hd' : 0 < |d'| := lt_of_le_of_lt hE0 hlt
  have hd0 : d' ≠ 0 := abs_pos.mp hd'
  have hlow : |d'| - E ≤ |d.val| := by
    have := abs_sub_abs_le_abs_sub d' d.val
    rw [abs_sub_comm] at this
    linarith
  have hpos : 0 < |d'| - E := by linarith
  have hdv : 0 < |d.val| := lt_of_lt_of_le hpos hlow
  have hdv0 : d.val ≠ 0 := abs_pos.mp hdv
  have e1 := (div_rounded (div_finite_left hf) hd hdv0).err hf
  have e2 : |a.val / d.val - a' / d'| ≤ (e + |a' / d'| * E) / (|d'| - E) := by
    have : a.val / d.val - a' / d' = ((a.val - a') - (a' / d') * (d.val - d')) / d.val := by
      field_simp
      ring
    rw [this, abs_div]
    have h1 : |a.val - a' - a' / d' * (d.val - d')| ≤ e + |a' / d'| * E := by
      refine (abs_sub _ _).trans ?_
      rw [abs_mul]
      have := mul_le_mul_of_nonneg_left hE (abs_nonneg (a' / d'))
      linarith
    exact div_le_div₀ ((abs_nonneg _).trans h1) h1 hpos hlow
  unfold quotErr
  generalize (e + |a' / d'| * E) / (|d'| - E) = q at *
  generalize a.val / d.val = t at *
  generalize a' / d' = x at *
  have a1 := abs_sub_le (a.div d).val t x
  have a2 : |t| ≤ |x| + q := by
    have := abs_sub_abs_le_abs_sub t x
    linarith
  have a3 := mul_le_mul_of_nonneg_left a2 hu
  linarith

theorem ne_zero_of_err {d : Fl F} {d' E : ℝ} (hd : d.Finite) (hE : |d.val - d'| ≤ E)
    (hlt : E < |d'|) : d.eq (ofInt 0) = false := by
  by_contra h
  have h := (eq_iff hd zero_finite).mp (by simpa using h)
  rw [zero_val] at h
  rw [h, zero_sub, abs_neg] at hE
  linarith

theorem cross_err {p q r s : Fl F} (h : ((p.mul q).sub (r.mul s)).Finite) :
    |((p.mul q).sub (r.mul s)).val - (p.val * q.val - r.val * s.val)| ≤
      ((1 + F.u) ^ 2 - 1) * (|p.val| * |q.val| + |r.val| * |s.val|) + 2 * (1 + F.u) * F.eta := by
  obtain ⟨h1, h2⟩ := sub_finite h
  have t1 := (Tracks.exact (mul_finite h1).1).mul_exact h1
  have t2 := (Tracks.exact (mul_finite h2).1).mul_exact h2
  have := (t1.sub t2 h).err
  refine this.trans (le_of_eq ?_)
  ring

/-- Two roundings of a number have the same value. -/
theorem Rounded.val_unique {x : ℝ} {a b : Fl F} (ha : Rounded x a) (hb : Rounded x b) :
    a.val = b.val := by
  by_cases hx : x = 0
  · subst hx
    rw [(ha.exact 0 (by simp) rep_zero).2, (hb.exact 0 (by simp) rep_zero).2]
  · obtain ⟨N, hN, ha⟩ := ha
    obtain ⟨M, hM, hb⟩ := hb
    obtain rfl := hN.unique hM
    rcases ha with ⟨l, s, h, rfl, hs⟩ | ⟨l, s, rfl, hs⟩
    · rcases hb with ⟨-, t, h', rfl, ht⟩ | ⟨l', -⟩
      · have : s = t := Bool.eq_iff_iff.mpr ((hs hx).trans (ht hx).symm)
        subst this
        rfl
      · omega
    · rcases hb with ⟨l', -⟩ | ⟨-, t, rfl, -⟩
      · omega
      · rfl

theorem cross_bound {p q r s : Fl F} {t X : ℝ} (h : ((p.mul q).sub (r.mul s)).Finite)
    (ht : t = p.val * q.val - r.val * s.val) (hX : X = |p.val| * |q.val| + |r.val| * |s.val|) :
    |((p.mul q).sub (r.mul s)).val - t| ≤ ((1 + F.u) ^ 2 - 1) * X + 2 * (1 + F.u) * F.eta := by
  rw [ht, hX]
  exact cross_err h

end Fl

theorem opDiv_float (handled : Option Exc) {r c : Nat} (A : Mat (Fl F) r c) {d : Fl F}
    (h : d.eq (Fl.ofInt 0) = false) :
    opDiv handled A d = .ok (.of fun i j => (A i j).div d) :=
  (div_elementwise handled A d h).eq_ok fun _ _ => rfl

/-- C86: the inverse of a 1x1 matrix with a finite nonzero element is the correctly rounded
reciprocal. -/
theorem C86_inv1 (handled : Option Exc) (A : Mat (Fl F) 1 1) (hA : (A 0 0).Finite)
    (h0 : (A 0 0).val ≠ 0) :
    ∃ B, inv handled A = .ok B ∧ Fl.Rounded (1 / (A 0 0).val) (B 0 0) := by
  refine ⟨Mat.const ((Fl.ofInt 1).div (A 0 0)), rfl, ?_⟩
  obtain ⟨n1, n2⟩ := Fl.val_ofInt_exact (F := F) 1 (Nat.one_le_two_pow)
  have := Fl.div_rounded n1 hA h0
  rw [n2, Int.cast_one] at this
  exact this

/-- C86: if the determinant of a 2x2 matrix is larger than the bound of its rounding error, `inv`
returns a matrix, and its finite elements are accurate. -/
theorem C86_inv2 (handled : Option Exc) (A : Mat (Fl F) 2 2)
    (hdet : ∃ d, det A = .ok d ∧ d.Finite)
    (hlt : detErr2 F (A.map Fl.val) < |(A.map Fl.val).det|) :
    ∃ B, inv handled A = .ok B ∧ ∀ i j, (B i j).Finite →
      |(B i j).val - (A.map Fl.val)⁻¹ i j| ≤
        quotErr F ((A.map Fl.val)⁻¹ i j) (A.map Fl.val).det 0 (detErr2 F (A.map Fl.val)) := by
  obtain ⟨d, hd, hdf⟩ := hdet
  obtain ⟨d', hd', herr⟩ := C73_det2 A
  obtain rfl : d = d' := Except.ok.inj (hd.symm.trans hd')
  have hE : |d.val - (A.map Fl.val).det| ≤ detErr2 F (A.map Fl.val) := by
    rw [Matrix.det_fin_two]
    exact herr hdf
  have hne := Fl.ne_zero_of_err hdf hE hlt
  have key : inv handled A =
      opDiv handled (brace2 (A 1 1) (A 0 1).neg (A 1 0).neg (A 0 0)) d := by
    show inv2 handled A = _
    unfold inv2
    rw [show det2 A = .ok d from hd, ok_bind,
      if_neg (by rw [show CScalar.eq d (CScalar.ofInt 0) = false from hne]; decide)]
    rfl
  rw [key, opDiv_float handled _ hne]
  refine ⟨_, rfl, fun i j hf => ?_⟩
  have hinv : (A.map Fl.val)⁻¹ i j = (A.map Fl.val).adjugate i j / (A.map Fl.val).det := by
    rw [Matrix.inv_def, Matrix.smul_apply, smul_eq_mul, Ring.inverse_eq_inv', div_eq_inv_mul]
  rw [hinv]
  refine Fl.quot_err hdf (le_of_eq (abs_eq_zero.mpr (sub_eq_zero.mpr ?_))) hE hlt hf
  rw [Matrix.adjugate_fin_two]
  fin_cases i <;> fin_cases j
  · rfl
  · exact Fl.neg_val _
  · exact Fl.neg_val _
  · rfl

/-- C86: every singular 2x2 matrix is recognised, unless a product overflows: equal products round
equally. -/
theorem C86_inv2_singular (handled : Option Exc) (A : Mat (Fl F) 2 2)
    (hdet : ∃ d, det A = .ok d ∧ d.Finite) (h0 : (A.map Fl.val).det = 0) :
    inv handled A = .error (.throws (.overflow_error "Divide by zero exception")) := by
  obtain ⟨d, hd, hdf⟩ := hdet
  have hd2 : d = ((A 0 0).mul (A 1 1)).sub ((A 0 1).mul (A 1 0)) :=
    (Except.ok.inj (show (.ok _ : Res (Fl F)) = .ok d from hd)).symm
  have hdf' := hdf
  rw [hd2] at hdf'
  obtain ⟨h1, h2⟩ := Fl.sub_finite hdf'
  rw [Matrix.det_fin_two] at h0
  have r1 := Fl.mul_rounded (Fl.mul_finite h1).1 (Fl.mul_finite h1).2
  have r2 := Fl.mul_rounded (Fl.mul_finite h2).1 (Fl.mul_finite h2).2
  have e : (A 0 0).val * (A 1 1).val = (A 0 1).val * (A 1 0).val := sub_eq_zero.mp h0
  rw [← e] at r2
  have hv : ((A 0 0).mul (A 1 1)).val = ((A 0 1).mul (A 1 0)).val := by
    exact r1.val_unique r2
  have hz : d.eq (Fl.ofInt 0) = true := by
    rw [Fl.eq_iff hdf Fl.zero_finite, Fl.zero_val, hd2]
    have := Fl.sub_rounded h1 h2
    rw [hv, sub_self] at this
    exact (this.exact 0 (by simp) Fl.rep_zero).2
  show inv2 handled A = _
  unfold inv2
  rw [show det2 A = .ok d from hd, ok_bind, if_pos (show CScalar.eq d (CScalar.ofInt 0) = true from hz)]
  rfl

/-- C86: if the determinant of a 3x3 matrix is larger than the bound of its rounding error, `inv`
returns a matrix, and its finite elements are accurate. The error of each numerator is that of the
2x2 determinant it is. -/
theorem C86_inv3 (handled : Option Exc) (A : Mat (Fl F) 3 3)
    (hdet : ∃ d, det A = .ok d ∧ d.Finite) (hlt : detErr3 A < |(A.map Fl.val).det|) :
    ∃ B, inv handled A = .ok B ∧ ∀ i j, (B i j).Finite →
      |(B i j).val - (A.map Fl.val)⁻¹ i j| ≤
        quotErr F ((A.map Fl.val)⁻¹ i j) (A.map Fl.val).det
          (detErr2 F ((A.map Fl.val).submatrix j.succAbove i.succAbove)) (detErr3 A) := by
  obtain ⟨d, hd, hdf⟩ := hdet
  obtain ⟨d', hd', herr⟩ := C73_det3 A
  obtain rfl : d = d' := Except.ok.inj (hd.symm.trans hd')
  have hE : |d.val - (A.map Fl.val).det| ≤ detErr3 A := herr hdf
  have hne := Fl.ne_zero_of_err hdf hE hlt
  have key : inv handled A = opDiv handled (brace3
      (((A 1 1).mul (A 2 2)).sub ((A 1 2).mul (A 2 1)))
      (((A 0 2).mul (A 2 1)).sub ((A 0 1).mul (A 2 2)))
      (((A 0 1).mul (A 1 2)).sub ((A 0 2).mul (A 1 1)))
      (((A 1 2).mul (A 2 0)).sub ((A 1 0).mul (A 2 2)))
      (((A 0 0).mul (A 2 2)).sub ((A 0 2).mul (A 2 0)))
      (((A 0 2).mul (A 1 0)).sub ((A 0 0).mul (A 1 2)))
      (((A 1 0).mul (A 2 1)).sub ((A 1 1).mul (A 2 0)))
      (((A 0 1).mul (A 2 0)).sub ((A 0 0).mul (A 2 1)))
      (((A 0 0).mul (A 1 1)).sub ((A 0 1).mul (A 1 0)))) d := by
    show inv3 handled A = _
    unfold inv3
    rw [show det3 A = .ok d from hd, ok_bind,
      if_neg (by rw [show CScalar.eq d (CScalar.ofInt 0) = false from hne]; decide)]
    rfl
  rw [key, opDiv_float handled _ hne]
  refine ⟨_, rfl, fun i j hf => ?_⟩
  have hinv : (A.map Fl.val)⁻¹ i j = (A.map Fl.val).adjugate i j / (A.map Fl.val).det := by
    rw [Matrix.inv_def, Matrix.smul_apply, smul_eq_mul, Ring.inverse_eq_inv', div_eq_inv_mul]
  rw [hinv]
  refine Fl.quot_err hdf ?_ hE hlt hf
  have hnum := Fl.div_finite_left hf
  rw [Matrix.adjugate_fin_three]
  fin_cases i <;> fin_cases j <;>
  · refine Fl.cross_bound hnum ?_ ?_
    · simp
      try ring
    · simp [Fin.succAbove]
      try ring

/-- Unit roundoff and smallest rounding error of `float`. -/
theorem binary32_u : binary32.u = 1 / 2 ^ 24 := rfl

theorem binary32_eta_le : binary32.eta ≤ 1 / 2 ^ 24 := by
  unfold Fmt.eta
  refine one_div_le_one_div_of_le (by positivity) ?_
  have : (2 : ℝ) ^ 24 ≤ (binary32.unit : ℝ) := by
    have : 2 ^ 24 ≤ binary32.unit := by decide +kernel
    exact_mod_cast this
  exact this.trans (le_mul_of_one_le_left (Fl.unit_posR binary32).le one_le_two)

/-- The hypotheses are met by a 2x2 matrix with determinant -2. -/
example : (∃ d, det (!![Fl.ofInt 1, Fl.ofInt 2; Fl.ofInt 3, Fl.ofInt 4] : Mat (Fl binary32) 2 2) =
      .ok d ∧ d.Finite) ∧
    detErr2 binary32 ((!![Fl.ofInt 1, Fl.ofInt 2; Fl.ofInt 3, Fl.ofInt 4] :
      Mat (Fl binary32) 2 2).map Fl.val) <
      |((!![Fl.ofInt 1, Fl.ofInt 2; Fl.ofInt 3, Fl.ofInt 4] :
        Mat (Fl binary32) 2 2).map Fl.val).det| := by
  refine ⟨⟨Fl.ofInt (-2), by decide +kernel, by decide +kernel⟩, ?_⟩
  have h := fun k hk => (Fl.val_ofInt_exact (F := binary32) k hk).2
  have h1 := h 1 (by decide)
  have h2 := h 2 (by decide)
  have h3 := h 3 (by decide)
  have h4 := h 4 (by decide)
  have hη := binary32_eta_le
  rw [Matrix.det_fin_two]
  unfold detErr2
  generalize (Fl.ofInt 1 : Fl binary32) = x1 at *
  generalize (Fl.ofInt 2 : Fl binary32) = x2 at *
  generalize (Fl.ofInt 3 : Fl binary32) = x3 at *
  generalize (Fl.ofInt 4 : Fl binary32) = x4 at *
  simp only [Matrix.map_apply, Matrix.of_apply, Matrix.cons_val', Matrix.cons_val_zero,
    Matrix.cons_val_one, Matrix.cons_val_fin_one]
  rw [h1, h2, h3, h4, binary32_u]
  norm_num at hη ⊢
  linarith

/-- ... and by a 3x3 matrix with determinant -1. -/
example : (∃ d, det (!![Fl.ofInt 1, Fl.ofInt 0, Fl.ofInt 0; Fl.ofInt 0, Fl.ofInt 0, Fl.ofInt 1;
      Fl.ofInt 0, Fl.ofInt 1, Fl.ofInt 0] : Mat (Fl binary32) 3 3) = .ok d ∧ d.Finite) ∧
    detErr3 (!![Fl.ofInt 1, Fl.ofInt 0, Fl.ofInt 0; Fl.ofInt 0, Fl.ofInt 0, Fl.ofInt 1;
      Fl.ofInt 0, Fl.ofInt 1, Fl.ofInt 0] : Mat (Fl binary32) 3 3) <
      |((!![Fl.ofInt 1, Fl.ofInt 0, Fl.ofInt 0; Fl.ofInt 0, Fl.ofInt 0, Fl.ofInt 1;
      Fl.ofInt 0, Fl.ofInt 1, Fl.ofInt 0] : Mat (Fl binary32) 3 3).map Fl.val).det| := by
  refine ⟨⟨Fl.ofInt (-1), by decide +kernel, by decide +kernel⟩, ?_⟩
  have h := fun k hk => (Fl.val_ofInt_exact (F := binary32) k hk).2
  have h0 := h 0 (by decide)
  have h1 := h 1 (by decide)
  have hη := binary32_eta_le
  rw [Matrix.det_fin_three]
  unfold detErr3 perm3
  generalize (Fl.ofInt 0 : Fl binary32) = x0 at *
  generalize (Fl.ofInt 1 : Fl binary32) = x1 at *
  simp only [Matrix.map_apply, Matrix.of_apply, Matrix.cons_val', Matrix.cons_val_zero,
    Matrix.cons_val_one, Matrix.cons_val, Matrix.cons_val_fin_one]
  rw [h0, h1, binary32_u]
  norm_num at hη ⊢
  linarith

/-- A singular 2x2 matrix is recognised although its products are rounded. -/
example : (∃ d, det (!![Fl.ofInt 4097, Fl.ofInt 4099; Fl.ofInt 8194, Fl.ofInt 8198] :
      Mat (Fl binary32) 2 2) = .ok d ∧ d.Finite) ∧
    ((!![Fl.ofInt 4097, Fl.ofInt 4099; Fl.ofInt 8194, Fl.ofInt 8198] :
      Mat (Fl binary32) 2 2).map Fl.val).det = 0 := by
  refine ⟨⟨Fl.ofInt 0, by decide +kernel, by decide +kernel⟩, ?_⟩
  have h := fun k hk => (Fl.val_ofInt_exact (F := binary32) k hk).2
  have h1 := h 4097 (by decide)
  have h2 := h 4099 (by decide)
  have h3 := h 8194 (by decide)
  have h4 := h 8198 (by decide)
  rw [Matrix.det_fin_two]
  generalize (Fl.ofInt 4097 : Fl binary32) = x1 at *
  generalize (Fl.ofInt 4099 : Fl binary32) = x2 at *
  generalize (Fl.ofInt 8194 : Fl binary32) = x3 at *
  generalize (Fl.ofInt 8198 : Fl binary32) = x4 at *
  simp only [Matrix.map_apply, Matrix.of_apply, Matrix.cons_val', Matrix.cons_val_zero,
    Matrix.cons_val_one, Matrix.cons_val_fin_one]
  rw [h1, h2, h3, h4]
  norm_num

/-- The condition on the determinant is needed: this matrix has determinant
`4097 * 4097 - 4096 * 4098 = 1`, but `float` computes 0 and `inv` throws. -/
example : inv none (!![Fl.ofInt 4097, Fl.ofInt 4096; Fl.ofInt 4098, Fl.ofInt 4097] :
    Mat (Fl binary32) 2 2) = .error (.throws divideByZeroException) := by decide +kernel

/-- A singular 3x3 matrix need not be recognised: this one has two equal rows, but `float` computes
the determinant -4, and `inv` returns a matrix. -/
example : det (!![Fl.ofInt 4097, Fl.ofInt 0, Fl.ofInt 0; Fl.ofInt 0, Fl.ofInt 4097, Fl.ofInt 3;
    Fl.ofInt 0, Fl.ofInt 4097, Fl.ofInt 3] : Mat (Fl binary32) 3 3) = .ok (Fl.ofInt (-4)) := by
  decide +kernel
example : (inv none (!![Fl.ofInt 4097, Fl.ofInt 0, Fl.ofInt 0; Fl.ofInt 0, Fl.ofInt 4097,
    Fl.ofInt 3; Fl.ofInt 0, Fl.ofInt 4097, Fl.ofInt 3] : Mat (Fl binary32) 3 3)).isOk := by
  decide +kernel

end MatrixLibs
