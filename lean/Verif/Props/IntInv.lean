import Verif.Proof.Inv
import Verif.Props.IntElem
import Verif.Props.Det
import Mathlib.LinearAlgebra.Matrix.Notation

/-!
# Property C82: inverses of integer matrices
-/

namespace MatrixLibs

set_option linter.unusedSectionVars false

open CScalar (ofInt)

section
variable {w n : Nat}

theorem wp_opDiv_signed (handled : Option Exc) (A : Mat (SInt w) n n) (d : SInt w)
    (hd : d.val ≠ 0) :
    wp (opDiv handled A d) (fun B => ∀ a b, (B a b).val = (A a b).val.tdiv d.val)
      (fun e => e = .ub .signedOverflow) := by
  obtain ⟨h1, h2⟩ := C78_signed_div handled A d hd
  cases h : opDiv handled A d with
  | ok B => exact (h1 B).mp h
  | error e =>
    show e = _
    by_contra he
    have hz : CScalar.eq d (ofInt 0) = false := by
      have : (ofInt 0 : SInt w).val = 0 := by
        show Int.bmod 0 (2 ^ w) = 0
        simp
      show decide (d.val = (ofInt 0 : SInt w).val) = false
      rw [this]
      exact decide_eq_false hd
    obtain ⟨a, b, hab, -⟩ := ((C22_div handled A d hz).1.2 e).mp h
    have hab' : (SInt.checked ((A a b).val.tdiv d.val) : Res (SInt w)) = .error e := by
      rw [← hab]
      show _ = if d.val = 0 then _ else _
      rw [if_neg hd]
    have := wp_error_elim (checked_wp w _) hab'
    exact he this

theorem signed_eq_zero (hw : 2 ≤ w) (d : SInt w) :
    CScalar.eq d (ofInt 0) = true ↔ d.val = 0 := by
  have : (ofInt 0 : SInt w).val = 0 := (RingSem.signed w hw).ofInt 0 (by norm_num) (by norm_num)
  show decide (d.val = (ofInt 0 : SInt w).val) = true ↔ _
  rw [this, decide_eq_true_iff]

/-- What `inv` of an integer matrix returns: the exact inverse truncated toward zero. -/
def TruncInverse (A : Mat (SInt w) n n) (B : Mat (SInt w) n n) : Prop :=
  (A.map SInt.val).det ≠ 0 ∧
    ∀ a b, (B a b).val = ((A.map SInt.val).adjugate a b).tdiv (A.map SInt.val).det

/-- How `inv` of an integer matrix stops. -/
def IntInvStop (A : Mat (SInt w) n n) (e : Stop) : Prop :=
  e = .ub .signedOverflow ∨
    (A.map SInt.val).det = 0 ∧ e = if n = 1 then .ub .divisionByZero else .throws divideByZeroException

theorem wp_inv1_signed (hw : 2 ≤ w) (A : Mat (SInt w) 1 1) :
    wp (inv1 A) (TruncInverse A) (IntInvStop A) := by
  unfold inv1
  rw [wp_bind]
  refine wp_mono (wp_det1 (RingSem.signed w hw) A) ?_ (fun _ h => Or.inl h)
  intro d hd
  have hd' : d.val = (A.map SInt.val).det := hd
  rw [wp_bind]
  show wp (if d.val = 0 then _ else SInt.checked ((ofInt 1 : SInt w).val.tdiv d.val)) _ _
  have h1 : (ofInt 1 : SInt w).val = 1 := (RingSem.signed w hw).ofInt 1 (by norm_num) (by norm_num)
  by_cases h0 : d.val = 0
  · rw [if_pos h0]
    exact Or.inr ⟨hd' ▸ h0, rfl⟩
  · rw [if_neg h0, h1]
    refine wp_mono (checked_wp w _) ?_ (fun _ h => Or.inl h)
    intro x hx
    refine ⟨hd' ▸ h0, fun a b => ?_⟩
    rw [← hd', Matrix.adjugate_subsingleton, Subsingleton.elim a b, Matrix.one_apply_eq]
    exact hx

theorem wp_inv2_signed (hw : 2 ≤ w) (handled : Option Exc) (A : Mat (SInt w) 2 2) :
    wp (inv2 handled A) (TruncInverse A) (IntInvStop A) := by
  have l0 : (0 : Nat) < 2 := by norm_num
  have l1 : (1 : Nat) < 2 := by norm_num
  unfold inv2
  rw [wp_bind]
  refine wp_mono (wp_det2 (RingSem.signed w hw) A) ?_ (fun _ h => Or.inl h)
  intro d hd
  have hd' : d.val = (A.map SInt.val).det := hd
  by_cases h0 : d.val = 0
  · rw [if_pos ((signed_eq_zero hw d).mpr h0)]
    exact Or.inr ⟨hd' ▸ h0, rfl⟩
  · rw [if_neg (fun h => h0 ((signed_eq_zero hw d).mp h))]
    rw [rd_eq l1 l1, ok_bind, rd_eq l0 l1, ok_bind, wp_bind]
    refine wp_mono ((RingSem.signed w hw).neg _) ?_ (fun _ h => Or.inl h)
    intro y hy
    rw [rd_eq l1 l0, ok_bind, wp_bind]
    refine wp_mono ((RingSem.signed w hw).neg _) ?_ (fun _ h => Or.inl h)
    intro z hz
    rw [rd_eq l0 l0, ok_bind]
    refine wp_mono (wp_opDiv_signed handled _ d h0) ?_ (fun _ h => Or.inl h)
    intro B hB
    refine ⟨hd' ▸ h0, fun a b => ?_⟩
    rw [hB, ← hd']
    congr 1
    rw [Matrix.adjugate_fin_two]
    fin_cases a <;> fin_cases b
    · rfl
    · exact hy
    · exact hz
    · rfl

theorem wp_cross {T R : Type} [CScalar T] [CommRing R] (S : RingSem T R) (p q r s : T) :
    wp (cross p q r s) (fun v => S.val v = S.val p * S.val q - S.val r * S.val s) S.Bad := by
  unfold cross
  rw [wp_bind]
  refine wp_mono (S.mul _ _) ?_ (fun _ h => h)
  intro x hx
  rw [wp_bind]
  refine wp_mono (S.mul _ _) ?_ (fun _ h => h)
  intro y hy
  refine wp_mono (S.sub _ _) ?_ (fun _ h => h)
  intro v hv
  rw [hv, hx, hy]

theorem wp_inv3_signed (hw : 2 ≤ w) (handled : Option Exc) (A : Mat (SInt w) 3 3) :
    wp (inv3 handled A) (TruncInverse A) (IntInvStop A) := by
  have l0 : (0 : Nat) < 3 := by norm_num
  have l1 : (1 : Nat) < 3 := by norm_num
  have l2 : (2 : Nat) < 3 := by norm_num
  unfold inv3
  rw [wp_bind]
  refine wp_mono (wp_det3 (RingSem.signed w hw) A) ?_ (fun _ h => Or.inl h)
  intro d hd
  have hd' : d.val = (A.map SInt.val).det := hd
  by_cases h0 : d.val = 0
  · rw [if_pos ((signed_eq_zero hw d).mpr h0)]
    exact Or.inr ⟨hd' ▸ h0, rfl⟩
  · rw [if_neg (fun h => h0 ((signed_eq_zero hw d).mp h))]
    rw [rd_eq l0 l0, ok_bind, rd_eq l0 l1, ok_bind, rd_eq l0 l2, ok_bind,
      rd_eq l1 l0, ok_bind, rd_eq l1 l1, ok_bind, rd_eq l1 l2, ok_bind,
      rd_eq l2 l0, ok_bind, rd_eq l2 l1, ok_bind, rd_eq l2 l2, ok_bind]
    have key : ∀ (p q r s : SInt w) (k : SInt w → Res (Mat (SInt w) 3 3)),
        (∀ v : SInt w, v.val = p.val * q.val - r.val * s.val →
          wp (k v) (TruncInverse A) (IntInvStop A)) →
        wp (cross p q r s >>= k) (TruncInverse A) (IntInvStop A) := by
      intro p q r s k hk
      rw [wp_bind]
      exact wp_mono (wp_cross (RingSem.signed w hw) p q r s) hk (fun _ h => Or.inl h)
    refine key _ _ _ _ _ fun x00 h00 => key _ _ _ _ _ fun x01 h01 => key _ _ _ _ _ fun x02 h02 =>
      key _ _ _ _ _ fun x10 h10 => key _ _ _ _ _ fun x11 h11 => key _ _ _ _ _ fun x12 h12 =>
      key _ _ _ _ _ fun x20 h20 => key _ _ _ _ _ fun x21 h21 => key _ _ _ _ _ fun x22 h22 => ?_
    refine wp_mono (wp_opDiv_signed handled _ d h0) ?_ (fun _ h => Or.inl h)
    intro B hB
    refine ⟨hd' ▸ h0, fun a b => ?_⟩
    rw [hB, ← hd']
    congr 1
    have z0 : (⟨0, l0⟩ : Fin 3) = 0 := rfl
    have z1 : (⟨1, l1⟩ : Fin 3) = 1 := rfl
    have z2 : (⟨2, l2⟩ : Fin 3) = 2 := rfl
    rw [z0, z1, z2] at *
    rw [Matrix.adjugate_fin_three]
    fin_cases a <;> fin_cases b <;> simp [brace3, *] <;> ring

end

/-! ## C82 -/

section
variable {w n : Nat}

theorem wp_inv_signed (hw : 2 ≤ w) (hn : 1 ≤ n) (hn3 : n ≤ 3) (handled : Option Exc)
    (A : Mat (SInt w) n n) : wp (inv handled A) (TruncInverse A) (IntInvStop A) := by
  match n, A, hn, hn3 with
  | 1, A, _, _ => exact wp_inv1_signed hw A
  | 2, A, _, _ => exact wp_inv2_signed hw handled A
  | 3, A, _, _ => exact wp_inv3_signed hw handled A

/-- C82: whatever `inv` of a signed integer matrix of at most three rows returns is the adjugate
divided by the determinant, each element truncated toward zero. -/
theorem C82_inv (hw : 2 ≤ w) (hn : 1 ≤ n) (hn3 : n ≤ 3) (handled : Option Exc)
    (A B : Mat (SInt w) n n) (h : inv handled A = .ok B) :
    (A.map SInt.val).det ≠ 0 ∧
      ∀ a b, (B a b).val = ((A.map SInt.val).adjugate a b).tdiv (A.map SInt.val).det := by
  have := wp_ok_elim (wp_inv_signed hw hn hn3 handled A) h
  exact this

/-- C82: otherwise some intermediate overflowed, or the determinant is `0`. -/
theorem C82_stops (hw : 2 ≤ w) (hn : 1 ≤ n) (hn3 : n ≤ 3) (handled : Option Exc)
    (A : Mat (SInt w) n n) (e : Stop) (h : inv handled A = .error e) :
    e = .ub .signedOverflow ∨ (A.map SInt.val).det = 0 ∧
      e = if n = 1 then .ub .divisionByZero
        else .throws (.overflow_error "Divide by zero exception") := by
  have := wp_error_elim (wp_inv_signed hw hn hn3 handled A) h
  exact this

/-- C82: the result is the inverse exactly if the determinant is `1` or `-1`. -/
theorem C82_exact_iff (hw : 2 ≤ w) (hn : 1 ≤ n) (hn3 : n ≤ 3) (handled : Option Exc)
    (A B : Mat (SInt w) n n) (h : inv handled A = .ok B) :
    (A.map SInt.val * B.map SInt.val = 1 ↔
      (A.map SInt.val).det = 1 ∨ (A.map SInt.val).det = -1) ∧
    (B.map SInt.val * A.map SInt.val = 1 ↔
      (A.map SInt.val).det = 1 ∨ (A.map SInt.val).det = -1) := by
  obtain ⟨h0, hB⟩ := C82_inv hw hn hn3 handled A B h
  have key : A.map SInt.val * B.map SInt.val = 1 ↔
      (A.map SInt.val).det = 1 ∨ (A.map SInt.val).det = -1 := by
    constructor
    · intro hm
      have := congrArg Matrix.det hm
      rw [Matrix.det_mul, Matrix.det_one] at this
      exact Int.isUnit_iff.mp (IsUnit.of_mul_eq_one _ this)
    · intro hd
      have e : B.map SInt.val = (A.map SInt.val).det • (A.map SInt.val).adjugate := by
        ext a b
        rw [Matrix.map_apply, hB, Matrix.smul_apply, smul_eq_mul]
        rcases hd with hd | hd <;> rw [hd]
        · rw [Int.tdiv_one, one_mul]
        · rw [Int.tdiv_neg, Int.tdiv_one, neg_one_mul]
      rw [e, Matrix.mul_smul, Matrix.mul_adjugate, smul_smul]
      have : (A.map SInt.val).det * (A.map SInt.val).det = 1 := by
        rcases hd with hd | hd <;> rw [hd] <;> norm_num
      rw [this, one_smul]
  exact ⟨key, ⟨fun hm => key.mp (mul_eq_one_comm.mp hm), fun hd => mul_eq_one_comm.mp (key.mpr hd)⟩⟩

end

/-- A matrix of determinant `-1`, one of determinant `5` whose computed inverse is zero, and one
that is not invertible. -/
example : inv none (!![mkInt 2, mkInt 1, mkInt 1; mkInt 1, mkInt 1, mkInt 0; mkInt 1, mkInt 1, mkInt (-1)] :
    Mat (SInt 32) 3 3) = .ok !![mkInt 1, mkInt (-2), mkInt 1; mkInt (-1), mkInt 3, mkInt (-1);
      mkInt 0, mkInt 1, mkInt (-1)] := by decide +kernel
example : inv none (!![mkInt 3, mkInt 1; mkInt 1, mkInt 2] : Mat (SInt 32) 2 2) =
    .ok !![mkInt 0, mkInt 0; mkInt 0, mkInt 0] := by decide +kernel
example : inv none (!![mkInt 3, mkInt 6; mkInt 1, mkInt 2] : Mat (SInt 32) 2 2) =
    .error (.throws divideByZeroException) := by decide +kernel

section
variable {w m : Nat}

/-- C82, four rows and more: if `det(A)` returns `d ≠ 0` and `det` returns the determinants of the
minors (it does for four rows, see `C82_inv_four`; for more rows see C28), what `inv` returns is the
adjugate divided by `d`, truncated toward zero. -/
theorem C82_inv_large (hw : 2 ≤ w) (hm : 3 ≤ m) (handled : Option Exc)
    (A B : Mat (SInt w) (m + 1) (m + 1)) (d : SInt w) (hd : det A = .ok d) (h0 : d.val ≠ 0)
    (hmin : ∀ (a b : Fin (m + 1)) (v : SInt w), det (A.submatrix a.succAbove b.succAbove) = .ok v →
      v.val = ((A.map SInt.val).submatrix a.succAbove b.succAbove).det)
    (h : inv handled A = .ok B) :
    ∀ a b, (B a b).val = ((A.map SInt.val).adjugate a b).tdiv d.val := by
  obtain ⟨k, rfl⟩ : ∃ k, m = k + 3 := ⟨m - 3, by omega⟩
  have h' : invN handled A = .ok B := h
  unfold invN at h'
  rw [hd, ok_bind] at h'
  have hassoc : (fun (i : Nat) (invA : Mat (SInt w) (k + 3 + 1) (k + 3 + 1)) =>
      forUp 0 (k + 3 + 1) invA fun j invA => do
        let d ← det (← getminor A i j)
        wr invA i j (← CScalar.mul (ofInt (if (i + j) % 2 ≠ 0 then -1 else 1)) d)) =
      (fun (i : Nat) (invA : Mat (SInt w) (k + 3 + 1) (k + 3 + 1)) =>
      forUp 0 (k + 3 + 1) invA fun j invA => do
        wr invA i j (← (do
          let d ← det (← getminor A i j)
          CScalar.mul (ofInt (if (i + j) % 2 ≠ 0 then -1 else 1)) d))) := by
    funext i invA
    congr 1
    funext j invA
    simp only [bind_assoc]
  rw [hassoc] at h'
  have hfill := wp_fill (g := fun i j => (do
          let d ← det (← getminor A i j)
          CScalar.mul (ofInt (if (i + j) % 2 ≠ 0 then -1 else 1)) d))
          (valueInit (T := SInt w) (k + 3 + 1) (k + 3 + 1))
  revert h' hfill
  generalize (forUp 0 (k + 3 + 1) (valueInit (T := SInt w) (k + 3 + 1) (k + 3 + 1)) _) = R
  intro h' hfill
  cases R with
  | error e => cases h'
  | ok C =>
    rw [ok_bind, trans_ok, ok_bind] at h'
    have hB := wp_ok_elim (wp_opDiv_signed handled C.transpose d h0) h'
    have hC : ∀ a b, (C a b).val = (A.map SInt.val).adjugate b a := by
      intro a b
      have h1 : (do
          let d ← det (← getminor A a.val b.val)
          CScalar.mul (ofInt (if (a.val + b.val) % 2 ≠ 0 then -1 else 1)) d) = .ok (C a b) :=
        hfill a b
      rw [getminor_ok, ok_bind] at h1
      cases hx : det (A.submatrix a.succAbove b.succAbove) with
      | error e => rw [hx] at h1; cases h1
      | ok v =>
        rw [hx, ok_bind] at h1
        have h2 := wp_ok_elim ((RingSem.signed w hw).mul _ _) h1
        have h3 : (C a b).val = (ofInt (if (a.val + b.val) % 2 ≠ 0 then -1 else 1) : SInt w).val *
          v.val := h2
        have h4 : (ofInt (if (a.val + b.val) % 2 ≠ 0 then -1 else 1) : SInt w).val =
            (if (a.val + b.val) % 2 ≠ 0 then -1 else 1) :=
          (RingSem.signed w hw).ofInt _ (by split <;> norm_num) (by split <;> norm_num)
        rw [h3, h4, hmin a b v hx, Matrix.adjugate_fin_succ_eq_det_submatrix]
        congr 1
        rcases Nat.mod_two_eq_zero_or_one (a.val + b.val) with h | h
        · rw [if_neg (by omega), (Nat.even_iff.mpr h).neg_one_pow]
        · rw [if_pos (by omega), (Nat.odd_iff.mpr h).neg_one_pow]
    intro a b
    rw [hB a b, Matrix.transpose_apply, hC]

/-- C82, four rows: the numerators are exact; the only thing that can go wrong is `det(A)`. -/
theorem C82_inv_four (hw : 2 ≤ w) (handled : Option Exc) (A B : Mat (SInt w) 4 4) (d : SInt w)
    (hd : det A = .ok d) (h0 : d.val ≠ 0) (h : inv handled A = .ok B) :
    ∀ a b, (B a b).val = ((A.map SInt.val).adjugate a b).tdiv d.val := by
  refine C82_inv_large hw le_rfl handled A B d hd h0 ?_ h
  intro a b v hv
  have := wp_ok_elim (wp_det3 (RingSem.signed w hw) (A.submatrix a.succAbove b.succAbove)) hv
  exact this

end

/-- The determinant of this matrix is `1`, `det` returns `2` (see C28). -/
def c82Witness : Mat (SInt 32) 4 4 :=
  !![mkInt 2, mkInt 3, mkInt 0, mkInt 0; mkInt 1, mkInt 2, mkInt 0, mkInt 0;
     mkInt 0, mkInt 0, mkInt 1, mkInt 0; mkInt 0, mkInt 0, mkInt 0, mkInt 1]

/-- C82: from four rows on, `inv` of an integer matrix that has an integer inverse can return
something else. -/
theorem C82_four_rows_false :
    ∃ A B : Mat (SInt 32) 4 4, (A.map SInt.val).det = 1 ∧ inv none A = .ok B ∧
      A.map SInt.val * B.map SInt.val ≠ 1 := by
  refine ⟨c82Witness, !![mkInt 1, mkInt (-1), mkInt 0, mkInt 0; mkInt 0, mkInt 1, mkInt 0, mkInt 0;
    mkInt 0, mkInt 0, mkInt 0, mkInt 0; mkInt 0, mkInt 0, mkInt 0, mkInt 0], ?_, ?_, ?_⟩
  · have : c82Witness.map SInt.val = !![2, 3, 0, 0; 1, 2, 0, 0; 0, 0, 1, 0; 0, 0, 0, 1] := by
      decide +kernel
    rw [this]
    simp [Matrix.det_succ_row_zero, Fin.sum_univ_succ]
    try decide
  · decide +kernel
  · intro h
    have := congrFun (congrFun h 2) 2
    revert this
    decide +kernel

/-- With four rows where the divisions come out even the result is the truncated inverse. -/
example : inv none (!![mkInt 1, mkInt 3, mkInt 0, mkInt 0; mkInt 1, mkInt 2, mkInt 0, mkInt 0;
     mkInt 0, mkInt 0, mkInt 1, mkInt 0; mkInt 0, mkInt 0, mkInt 0, mkInt 1] : Mat (SInt 32) 4 4) =
   .ok !![mkInt (-2), mkInt 3, mkInt 0, mkInt 0; mkInt 1, mkInt (-1), mkInt 0, mkInt 0;
     mkInt 0, mkInt 0, mkInt 1, mkInt 0; mkInt 0, mkInt 0, mkInt 0, mkInt 1] := by decide +kernel

end MatrixLibs
