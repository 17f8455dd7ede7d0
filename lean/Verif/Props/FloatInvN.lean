import Verif.Props.FloatInv
import Verif.Props.Float
import Verif.Props.FloatElim

/-!
# Property C111: floating point inverses from 4x4 on
-/

namespace MatrixLibs

set_option linter.unusedSectionVars false

variable {F : Fmt} {m : Nat}

open CScalar (ofInt)

namespace Fl

/-- Multiplication by a sign is exact. -/
theorem sign_mul {x : Fl F} (hx : x.Finite) (k : Nat) :
    ((ofInt (if k % 2 ≠ 0 then -1 else 1) : Fl F).mul x).Finite ∧
      ((ofInt (if k % 2 ≠ 0 then -1 else 1) : Fl F).mul x).val = (-1) ^ k * x.val := by
  have h1 : (1 : Nat) ≤ 2 ^ F.p := Nat.one_le_two_pow
  have hs : (ofInt (if k % 2 ≠ 0 then -1 else 1) : Fl F).Finite ∧
      (ofInt (if k % 2 ≠ 0 then -1 else 1) : Fl F).val = (-1) ^ k := by
    split
    · next h =>
      obtain ⟨o1, o2⟩ := val_ofInt_exact (F := F) (-1) (by simpa using h1)
      exact ⟨o1, by rw [o2, (Nat.odd_iff.mpr (by omega)).neg_one_pow]; norm_num⟩
    · next h =>
      obtain ⟨o1, o2⟩ := val_ofInt_exact (F := F) 1 h1
      exact ⟨o1, by rw [o2, (Nat.even_iff.mpr (by omega)).neg_one_pow]; norm_num⟩
  have hr := mul_rounded hs.1 hx
  rw [hs.2] at hr
  obtain ⟨N, hN, e⟩ := fin_rep hx
  refine hr.exact N ?_ hN
  rcases neg_one_pow_eq_or ℝ k with h | h <;> rw [h]
  · rwa [one_mul]
  · rwa [neg_one_mul, abs_neg]

end Fl

/-- The general inverse, in terms of the computed determinants. -/
theorem inv_float_eq (handled : Option Exc) (A : Mat (Fl F) (m + 4) (m + 4)) (d : Fl F)
    (M : Fin (m + 4) → Fin (m + 4) → Fl F) (hd : det A = .ok d)
    (hM : ∀ i j, det (A.submatrix i.succAbove j.succAbove) = .ok (M i j)) :
    inv handled A =
      opDiv handled (.of fun i j => (Fl.ofInt (if (j.val + i.val) % 2 ≠ 0 then -1 else 1) : Fl F).mul (M j i)) d := by
  show invN handled A = _
  unfold invN
  rw [hd, ok_bind]
  have hfill : forUp 0 (m + 4) (valueInit (m + 4) (m + 4) : Mat (Fl F) (m + 4) (m + 4)) (fun i invA =>
      forUp 0 (m + 4) invA fun j invA => do
        let d ← det (← getminor A i j)
        wr invA i j (← CScalar.mul (ofInt (if (i + j) % 2 ≠ 0 then -1 else 1)) d)) =
      .ok (.of fun i j => (Fl.ofInt (if (i.val + j.val) % 2 ≠ 0 then -1 else 1) : Fl F).mul (M i j)) := by
    have h := fill_eq (T := Fl F) (g := fun i j => do
      let d ← det (← getminor A i j)
      CScalar.mul (ofInt (if (i + j) % 2 ≠ 0 then -1 else 1)) d)
      (F := .of fun i j => (Fl.ofInt (if (i.val + j.val) % 2 ≠ 0 then -1 else 1) : Fl F).mul (M i j))
      (valueInit (m + 4) (m + 4)) ?_
    · simpa only [bind_assoc] using h
    · intro a b
      rw [getminor_ok, ok_bind]
      have := hM a b
      rw [show det (A.submatrix a.succAbove b.succAbove) = .ok (M a b) from this, ok_bind]
      rfl
  rw [hfill, ok_bind, trans_ok, ok_bind]
  rfl

/-- C111: from 4x4 on, if the computed determinant `d` of `A` does not compare equal to zero, `inv(A)` returns, and
each element is the correctly rounded quotient of the computed determinant of the minor (exactly negated where the
cofactor sign is negative) and `d`. Otherwise the exception being handled is rethrown, and without one the program
terminates. -/
theorem C111_inv_value (handled : Option Exc) (A : Mat (Fl F) (m + 4) (m + 4)) :
    ∃ (d : Fl F) (M : Fin (m + 4) → Fin (m + 4) → Fl F), det A = .ok d ∧
      (∀ i j, det (A.submatrix i.succAbove j.succAbove) = .ok (M i j)) ∧
      (d.eq (Fl.ofInt 0) = false → ∃ R, inv handled A = .ok R ∧ ∀ i j, (M j i).Finite → d.Finite →
        Fl.Rounded ((-1) ^ (i.val + j.val) * (M j i).val / d.val) (R i j)) ∧
      (d.eq (Fl.ofInt 0) = true → inv none A = .error .terminates ∧
        ∀ e, inv (some e) A = .error (.throws e)) := by
  obtain ⟨d, hd⟩ := C64_det A
  choose M hM using fun i j => C64_det (A.submatrix (Fin.succAbove i) (Fin.succAbove j))
  refine ⟨d, M, hd, hM, fun h0 => ?_, fun h0 => ?_⟩
  · rw [inv_float_eq handled A d M hd hM, opDiv_float handled _ h0]
    refine ⟨_, rfl, fun i j hf hdf => ?_⟩
    obtain ⟨s1, s2⟩ := Fl.sign_mul hf (j.val + i.val)
    have hdv : d.val ≠ 0 := fun h => by
      have := (Fl.eq_iff hdf Fl.zero_finite).mpr (by rw [h, Fl.zero_val])
      rw [this] at h0
      cases h0
    have := Fl.div_rounded s1 hdf hdv
    rw [s2, show ((-1 : ℝ)) ^ (j.val + i.val) = (-1) ^ (i.val + j.val) by rw [add_comm]] at this
    exact this
  · have hz : ∀ handled, inv handled A = bareThrow handled := fun handled => by
      rw [inv_float_eq handled A d M hd hM]
      show MatrixLibs.div handled _ d = _
      unfold MatrixLibs.div
      rw [if_pos (show CScalar.eq d (ofInt 0) = true from h0)]
    exact ⟨hz none, fun e => hz (some e)⟩

/-- C111: the error of an element of the inverse, from the errors of the two determinants it is the quotient of. -/
theorem C111_inv_error (handled : Option Exc) (A : Mat (Fl F) (m + 4) (m + 4)) (d : Fl F) (hd : det A = .ok d)
    (hdf : d.Finite) (E : ℝ) (hE : |d.val - (A.map Fl.val).det| ≤ E) (hlt : E < |(A.map Fl.val).det|)
    (e : Fin (m + 4) → Fin (m + 4) → ℝ)
    (he : ∀ i j x, det (A.submatrix i.succAbove j.succAbove) = .ok x → x.Finite →
      |x.val - ((A.map Fl.val).submatrix i.succAbove j.succAbove).det| ≤ e i j) :
    ∃ R, inv handled A = .ok R ∧ ∀ i j, (R i j).Finite →
      (∃ x, det (A.submatrix j.succAbove i.succAbove) = .ok x ∧ x.Finite) ∧
      |(R i j).val - (A.map Fl.val)⁻¹ i j| ≤
        quotErr F ((A.map Fl.val)⁻¹ i j) (A.map Fl.val).det (e j i) E := by
  have hne := Fl.ne_zero_of_err hdf hE hlt
  choose M hM using fun i j => C64_det (A.submatrix (Fin.succAbove i) (Fin.succAbove j))
  rw [inv_float_eq handled A d M hd hM, opDiv_float handled _ hne]
  refine ⟨_, rfl, fun i j hf => ?_⟩
  have hmf : (M j i).Finite := (Fl.mul_finite (Fl.div_finite_left hf)).2
  refine ⟨⟨M j i, hM j i, hmf⟩, ?_⟩
  have hinv : (A.map Fl.val)⁻¹ i j = (A.map Fl.val).adjugate i j / (A.map Fl.val).det := by
    rw [Matrix.inv_def, Matrix.smul_apply, smul_eq_mul, Ring.inverse_eq_inv', div_eq_inv_mul]
  rw [hinv]
  refine Fl.quot_err hdf ?_ hE hlt hf
  rw [Matrix.of_apply, (Fl.sign_mul hmf _).2, Matrix.adjugate_fin_succ_eq_det_submatrix, ← mul_sub, abs_mul, abs_pow, abs_neg, abs_one,
    one_pow, one_mul]
  exact he j i (M j i) (hM j i) hmf

/-- C111: for 4x4 matrices the errors of the minors are those of 3x3 determinants (C73). -/
theorem C111_inv4_error (handled : Option Exc) (A : Mat (Fl F) 4 4) (d : Fl F) (hd : det A = .ok d) (hdf : d.Finite)
    (E : ℝ) (hE : |d.val - (A.map Fl.val).det| ≤ E) (hlt : E < |(A.map Fl.val).det|) :
    ∃ R, inv handled A = .ok R ∧ ∀ i j, (R i j).Finite →
      |(R i j).val - (A.map Fl.val)⁻¹ i j| ≤ quotErr F ((A.map Fl.val)⁻¹ i j) (A.map Fl.val).det
        (detErr3 (A.submatrix j.succAbove i.succAbove)) E := by
  obtain ⟨R, h1, h2⟩ := C111_inv_error (m := 0) handled A d hd hdf E hE hlt
    (fun i j => detErr3 (A.submatrix i.succAbove j.succAbove)) (fun i j x hx hxf => by
      obtain ⟨y, hy, he⟩ := C73_det3 (A.submatrix (Fin.succAbove i) (Fin.succAbove j))
      obtain rfl : x = y := Except.ok.inj (hx.symm.trans hy)
      exact he hxf)
  exact ⟨R, h1, fun i j hf => (h2 i j hf).2⟩

/-- The elements of the example of C101, as integers. -/
def c111Int : Matrix (Fin 4) (Fin 4) ℤ := !![0, 2, 1, 3; 2, 1, 0, 1; 4, 4, 5, -1; 2, 5, 2, 8]

/-- The hypotheses are met by the example of C101, whose determinant is computed without error. -/
example : ∃ R, inv none c101Example = .ok R ∧ ∀ i j, (R i j).Finite →
    |(R i j).val - (c101Example.map Fl.val)⁻¹ i j| ≤ quotErr binary32 ((c101Example.map Fl.val)⁻¹ i j)
      (c101Example.map Fl.val).det (detErr3 (c101Example.submatrix j.succAbove i.succAbove)) 0 := by
  have hz : ∀ z : Int, z.natAbs ≤ 2 ^ 24 → (Fl.ofInt z : Fl binary32).Finite ∧ (Fl.ofInt z : Fl binary32).val = z :=
    fun z h => Fl.val_ofInt_exact (F := binary32) z h
  have he : c101Example = c111Int.map Fl.ofInt := by
    ext i j
    fin_cases i <;> fin_cases j <;> rfl
  have hs : ∀ i j, (c111Int i j).natAbs ≤ 2 ^ 24 := by decide +kernel
  have hm : c101Example.map Fl.val = c111Int.map (Int.castRingHom ℝ) := by
    ext i j
    rw [he]
    exact (hz _ (hs i j)).2
  have hdet : (c101Example.map Fl.val).det = -16 := by
    rw [hm, ← RingHom.mapMatrix_apply, ← RingHom.map_det, show c111Int.det = -16 by decide +kernel]
    norm_num
  obtain ⟨f1, f2⟩ := hz (-16) (by decide)
  refine C111_inv4_error none c101Example (Fl.ofInt (-16)) (by decide +kernel) f1 0 ?_ ?_
  · rw [hdet, f2]; norm_num
  · rw [hdet]; norm_num

/-- A matrix with determinant -1 that is computed as 0, because 4097^2 = 16785409 is rounded to 16785408. -/
def c111Lost : Mat (Fl binary32) 4 4 :=
  !![Fl.ofInt 1, Fl.ofInt 4097, Fl.ofInt 0, Fl.ofInt 0;
     Fl.ofInt 4097, Fl.ofInt 16785408, Fl.ofInt 0, Fl.ofInt 0;
     Fl.ofInt 0, Fl.ofInt 0, Fl.ofInt 1, Fl.ofInt 0;
     Fl.ofInt 0, Fl.ofInt 0, Fl.ofInt 0, Fl.ofInt 1]

/-- C111: so an invertible matrix can be rejected, which without an exception being handled ends the program. -/
theorem C111_inv_rejects_invertible :
    ∃ A : Mat (Fl binary32) 4 4, (∀ i j, (A i j).Finite) ∧ (A.map Fl.val).det = -1 ∧
      inv none A = .error .terminates := by
  have hz : ∀ z : Int, z.natAbs ≤ 2 ^ 24 → (Fl.ofInt z : Fl binary32).Finite ∧ (Fl.ofInt z : Fl binary32).val = z :=
    fun z h => Fl.val_ofInt_exact (F := binary32) z h
  have h4097 := hz 4097 (by decide)
  have h0 := hz 0 (by decide)
  have h1 := hz 1 (by decide)
  have hbig : (Fl.ofInt 16785408 : Fl binary32).Finite ∧ (Fl.ofInt 16785408 : Fl binary32).val = 16785408 := by
    have h := (Fl.ofInt_rounded (F := binary32) 16785408).exact (16785408 * binary32.unit)
      (by push_cast; rw [abs_of_nonneg (by norm_num)]) (by decide +kernel)
    exact ⟨h.1, h.2.trans (by norm_num)⟩
  refine ⟨c111Lost, ?_, ?_, by decide +kernel⟩
  · intro i j
    fin_cases i <;> fin_cases j <;> exact trivial
  · have : c111Lost.map Fl.val = !![1, 4097, 0, 0; 4097, 16785408, 0, 0; 0, 0, 1, 0; 0, 0, 0, 1] := by
      ext i j
      fin_cases i <;> fin_cases j <;> first
        | exact h0.2.trans (by norm_num) | exact h1.2.trans (by norm_num) | exact h4097.2.trans (by norm_num)
        | exact hbig.2
    rw [this]
    simp [Matrix.det_succ_row_zero, Fin.sum_univ_succ, Fin.succAbove]
    norm_num

end MatrixLibs
