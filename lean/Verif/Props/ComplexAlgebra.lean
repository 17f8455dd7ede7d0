import Verif.Proof.SimHom
import Verif.Model.Complex
import Verif.Props.Arith
import Verif.Props.Det
import Verif.Props.Conv
import Verif.Props.Preds

/-!
# Property C141: matrix algebra with complex elements in exact arithmetic
-/

namespace MatrixLibs

set_option linter.unusedSectionVars false

open Matrix

attribute [local instance] complexScalar

local instance complexExact : ExactRing ℂ where
  add_eq _ _ := rfl
  sub_eq _ _ := rfl
  mul_eq _ _ := rfl
  neg_eq _ := rfl
  ofInt_eq _ := rfl
  eq_iff a b := by simp [CScalar.eq]

theorem homRing_conj : HomRing (starRingEnd ℂ) where
  init := (map_zero _).symm
  zero := by simp [CScalar.ofInt]
  one := by simp [CScalar.ofInt]
  minusOne := by simp [CScalar.ofInt]
  add a b _ := by simp [CScalar.add, Except.map]
  sub a b _ := by simp [CScalar.sub, Except.map]
  mul a b _ := by simp [CScalar.mul, Except.map]

theorem homRing_ofReal : HomRing (Complex.ofReal : ℝ → ℂ) where
  init := by change (0 : ℂ) = ((0 : ℝ) : ℂ); simp
  zero := by simp [CScalar.ofInt]
  one := by simp [CScalar.ofInt]
  minusOne := by simp [CScalar.ofInt]
  add a b _ := by simp [CScalar.add, Except.map]
  sub a b _ := by simp [CScalar.sub, Except.map]
  mul a b _ := by simp [CScalar.mul, Except.map]

variable {r c n m p : Nat}

/-! ## Results -/

/-- C141: sums, differences and products of complex matrices are those of mathematics. -/
theorem C141_complex_arith (A B : Mat ℂ r c) (C : Mat ℂ n m) (D : Mat ℂ m p) (E F : Mat ℂ 2 2) (s : ℂ) :
    opAdd A B = .ok (A + B) ∧ opSub A B = .ok (A - B) ∧ opMulScalar A s = .ok (s • A) ∧ opMul C D = .ok (C * D) ∧
    strassen E F = .ok (E * F) := by
  refine ⟨sum_ok A B, sub_ok A B, multScalar_ok A s, mult_ok C D, ?_⟩
  obtain ⟨R, h1, h2⟩ := C21_strassen E F
  have h3 : opMul E F = .ok (E * F) := mult_ok E F
  rw [h1, ← h2, h3]

/-- C141: `det` of the sizes that compile for every complex type is the determinant. -/
theorem C141_complex_det (h1 : 1 ≤ n) (h3 : n ≤ 3) (A : Mat ℂ n n) : det A = .ok A.det := C25_det_small h1 h3 A

/-- C141: `conv2` of complex matrices does not conjugate the kernel. -/
theorem C141_complex_conv2 (A : Mat ℂ r c) (k : Mat ℂ 3 3) (hr : r ≤ 2 ^ 31) (hc : c ≤ 2 ^ 31) :
    ∃ S, conv2 A k = .ok S ∧ ∀ (a : Fin r) (b : Fin c),
      S a b = ∑ u : Fin 3, ∑ v : Fin 3,
        k u v * padded A ((a.val : ℤ) + u.val - 1) ((b.val : ℤ) + v.val - 1) :=
  C46_conv2 A k hr hc

/-- C141: `trans` does not conjugate: it gives the conjugate transpose only of real matrices. -/
theorem C141_complex_trans (A : Mat ℂ r c) : trans A = .ok A.conjTranspose ↔ ∀ i j, (A i j).im = 0 := by
  rw [trans_ok]
  constructor
  · intro h i j
    have := congrFun (congrFun (Except.ok.inj h) j) i
    exact Complex.conj_eq_iff_im.mp (show star (A i j) = A i j from this.symm)
  · intro h
    congr 1
    ext j i
    exact (Complex.conj_eq_iff_im.mpr (h i j)).symm

/-- C141: `abs` of a complex matrix holds the moduli. -/
theorem C141_complex_abs (A : Mat ℂ r c) :
    ∃ R, abs A = .ok R ∧ ∀ i j, R i j = (‖A i j‖ : ℂ) :=
  ⟨_, (abs_elementwise A).eq_ok (R := .of fun i j => ((‖A i j‖ : ℝ) : ℂ)) fun _ _ => rfl, fun _ _ => rfl⟩

/-- C141: `compare` of complex matrices is true iff the modulus of every difference is at most the tolerance. -/
theorem C141_complex_compare (A B : Mat ℂ r c) (eps : ℝ) :
    ∃ b, compareCplx A B eps = .ok b ∧ (b = true ↔ ∀ i j, ‖A i j - B i j‖ ≤ eps) := by
  unfold compareCplx compareLoop
  refine scan_ok (fun it jt => do
      let d ← CScalar.abs (← CScalar.sub (← rd A it jt) (← rd B it jt))
      if decide (eps < d.re) then .ok (.ret false)
      else .ok (.cont ())) (fun i j => ‖A i j - B i j‖ ≤ eps) ?_ ?_
  · intro a b h
    rw [rd_fin, ok_bind, rd_fin, ok_bind, ExactRing.sub_eq, ok_bind]
    exact if_neg (by simpa [Complex.ofReal_re] using h)
  · intro a b h
    rw [rd_fin, ok_bind, rd_fin, ok_bind, ExactRing.sub_eq, ok_bind]
    exact if_pos (by simpa [Complex.ofReal_re] using h)

/-! ## Conjugation -/

/-- C141: conjugating the elements of the operands conjugates those of the result. -/
theorem C141_conj (A B : Mat ℂ r c) (C : Mat ℂ n m) (D : Mat ℂ m p) (s : ℂ) :
    opAdd (A.map star) (B.map star) = (opAdd A B).map (·.map star) ∧
    opSub (A.map star) (B.map star) = (opSub A B).map (·.map star) ∧
    opMulScalar (A.map star) (star s) = (opMulScalar A s).map (·.map star) ∧
    opMul (C.map star) (D.map star) = (opMul C D).map (·.map star) := by
  have H := homRing_conj.commutes
  exact ⟨H.add A B (by rw [sum_ok]; rintro k ⟨⟩), H.sub A B (by rw [sub_ok]; rintro k ⟨⟩),
    H.mulScalar A s (by rw [multScalar_ok]; rintro k ⟨⟩), H.mul C D (by rw [mult_ok]; rintro k ⟨⟩)⟩

/-- C141: ... and so for `conv2` and small determinants. -/
theorem C141_conj_conv2_det (A : Mat ℂ r c) (k : Mat ℂ 3 3) (hr : r ≤ 2 ^ 31) (hc : c ≤ 2 ^ 31) (C : Mat ℂ n n)
    (h1 : 1 ≤ n) (h3 : n ≤ 3) :
    conv2 (A.map star) (k.map star) = (conv2 A k).map (·.map star) ∧ det (C.map star) = (det C).map star := by
  have H := homRing_conj.commutes
  exact ⟨H.conv2 A k (by rw [conv2_ok A k hr hc]; rintro k ⟨⟩),
    H.det h1 h3 C (by rw [C25_det_small h1 h3]; rintro k ⟨⟩)⟩

/-! ## Real matrices -/

/-- C141: real matrices stored in a complex type give the results of the real type. -/
theorem C141_real (A B : Mat ℝ r c) (C : Mat ℝ n m) (D : Mat ℝ m p) (s : ℝ) :
    opAdd (A.map Complex.ofReal) (B.map Complex.ofReal) = (opAdd A B).map (·.map Complex.ofReal) ∧
    opSub (A.map Complex.ofReal) (B.map Complex.ofReal) = (opSub A B).map (·.map Complex.ofReal) ∧
    opMulScalar (A.map Complex.ofReal) (s : ℂ) = (opMulScalar A s).map (·.map Complex.ofReal) ∧
    opMul (C.map Complex.ofReal) (D.map Complex.ofReal) = (opMul C D).map (·.map Complex.ofReal) := by
  have H := homRing_ofReal.commutes
  exact ⟨H.add A B (by rw [sum_ok]; rintro k ⟨⟩), H.sub A B (by rw [sub_ok]; rintro k ⟨⟩),
    H.mulScalar A s (by rw [multScalar_ok]; rintro k ⟨⟩), H.mul C D (by rw [mult_ok]; rintro k ⟨⟩)⟩

/-- C141: ... and so for `conv2`, small determinants and `compare`. -/
theorem C141_real_conv2_det (A B : Mat ℝ r c) (k : Mat ℝ 3 3) (hr : r ≤ 2 ^ 31) (hc : c ≤ 2 ^ 31) (C : Mat ℝ n n)
    (h1 : 1 ≤ n) (h3 : n ≤ 3) (eps : ℝ) :
    conv2 (A.map Complex.ofReal) (k.map Complex.ofReal) = (conv2 A k).map (·.map Complex.ofReal) ∧
    det (C.map Complex.ofReal) = (det C).map Complex.ofReal ∧
    compareCplx (A.map Complex.ofReal) (B.map Complex.ofReal) eps = compare A B eps := by
  have H := homRing_ofReal.commutes
  refine ⟨H.conv2 A k (by rw [conv2_ok A k hr hc]; rintro k ⟨⟩),
    H.det h1 h3 C (by rw [C25_det_small h1 h3]; rintro k ⟨⟩), ?_⟩
  obtain ⟨b, hb, h⟩ := C141_complex_compare (A.map Complex.ofReal) (B.map Complex.ofReal) eps
  obtain ⟨b', hb', h'⟩ := C41_compare A B eps
  rw [hb, hb']
  congr 1
  rw [Bool.eq_iff_iff, h, h']
  simp only [Matrix.map_apply, ← Complex.ofReal_sub, Complex.norm_real, Real.norm_eq_abs]

/-! ## Cases -/

example : opMul (!![Complex.I] : Mat ℂ 1 1) !![Complex.I] = .ok !![-1] := by
  rw [(C141_complex_arith (0 : Mat ℂ 1 1) 0 _ _ 0 0 0).2.2.2.1]
  congr 1
  ext i j
  fin_cases i; fin_cases j
  simp [Matrix.mul_apply]

/-- The modulus of `3 + 4i` is `5`. -/
example : compareCplx (!![⟨3, 4⟩] : Mat ℂ 1 1) !![0] 5 = .ok true := by
  obtain ⟨b, hb, h⟩ := C141_complex_compare (!![⟨3, 4⟩] : Mat ℂ 1 1) !![0] 5
  rw [hb, h.mpr]
  intro i j
  fin_cases i; fin_cases j
  have : ‖(⟨3, 4⟩ : ℂ)‖ = 5 := by
    rw [Complex.norm_def, Complex.normSq_mk]
    rw [show (3 : ℝ) * 3 + 4 * 4 = 5 ^ 2 by norm_num]
    exact Real.sqrt_sq (by norm_num)
  simp [this]

example : compareCplx (!![⟨3, 4⟩] : Mat ℂ 1 1) !![0] 4.9 = .ok false := by
  obtain ⟨b, hb, h⟩ := C141_complex_compare (!![⟨3, 4⟩] : Mat ℂ 1 1) !![0] 4.9
  rw [hb]
  cases b with
  | false => rfl
  | true =>
    have := h.mp rfl 0 0
    have e : ‖(⟨3, 4⟩ : ℂ)‖ = 5 := by
      rw [Complex.norm_def, Complex.normSq_mk]
      rw [show (3 : ℝ) * 3 + 4 * 4 = 5 ^ 2 by norm_num]
      exact Real.sqrt_sq (by norm_num)
    simp [e] at this
    norm_num at this

example : trans (!![Complex.I] : Mat ℂ 1 1) ≠ .ok (!![Complex.I] : Mat ℂ 1 1).conjTranspose := by
  rw [Ne, C141_complex_trans]
  intro h
  simpa using h 0 0

end MatrixLibs
