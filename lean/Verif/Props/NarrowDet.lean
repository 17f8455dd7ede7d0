import Verif.Props.NarrowArith
import Mathlib.LinearAlgebra.Matrix.Determinant.Basic

/-!
# Narrow integers: determinants
-/

namespace MatrixLibs

set_option linter.unusedSectionVars false

open Promo (load store)
open CScalar (ofInt)

variable {t : Narrow} {G : Prop} {β : ℤ}

/-- `det` of a 1x1 matrix is its element. -/
theorem C91_det1 (A : Mat (NInt t) 1 1) : Promoted.det A = .ok (A 0 0) := rd_fin A 0 0

theorem det2_read (A : Mat (NInt t) 2 2) : Promoted.det A = (do
    let u ← CScalar.mul (load (A 0 0)) (load (A 1 1))
    let v ← CScalar.mul (load (A 0 1)) (load (A 1 0))
    .ok (store (← CScalar.sub u v))) := by
  show Promoted.det2 A = _
  unfold Promoted.det2
  have h := fun a b => rd_fin A a b
  have e00 := h 0 0
  have e01 := h 0 1
  have e10 := h 1 0
  have e11 := h 1 1
  simp only [Fin.val_zero, Fin.val_one] at e00 e01 e10 e11
  rw [e00, e01, e10, e11]
  rfl

/-- The determinant of a 2x2 matrix, whatever the type: the exact one modulo `2^w`, unless an `int` overflows. -/
theorem C91_det2_value (A : Mat (NInt t) 2 2) :
    wp (Promoted.det A) (fun d => d.val ≡ (ints A).det [ZMOD 2 ^ t.w]) (fun e => e = .ub .signedOverflow) := by
  rw [det2_read]
  have hG : Guard t False 0 := fun h => h.elim
  rw [wp_bind]
  refine wp_mono (Bnd.wp_mul (Bnd.load hG _) (Bnd.load hG _) (by norm_num)) (fun u hu => ?_) (fun _ h => h.1)
  rw [wp_bind]
  refine wp_mono (Bnd.wp_mul (Bnd.load hG _) (Bnd.load hG _) (by norm_num)) (fun v hv => ?_) (fun _ h => h.1)
  refine wp_mono (wp_store (Bnd.wp_sub hu hv (by norm_num))) (fun d hd => ?_) (fun _ h => h.1)
  rw [Matrix.det_fin_two]
  exact hd

/-- For 8-bit and signed 16-bit elements the determinant of a 2x2 matrix always returns. -/
theorem C91_det2 (ht : t.signed = true ∨ t.Is8) (A : Mat (NInt t) 2 2) :
    ∃ d, Promoted.det A = .ok d ∧ d.val ≡ (ints A).det [ZMOD 2 ^ t.w] := by
  suffices h : ∃ d, Promoted.det A = .ok d by
    obtain ⟨d, hd⟩ := h
    have := wp_ok_elim (C91_det2_value A) hd
    exact ⟨d, hd, this⟩
  have hb : ∀ z : NInt t, -32768 ≤ z.val ∧ z.val ≤ 32767 := by
    intro z
    rcases ht with h | h
    · exact t.signed_bounds h z.has
    · have := t.is8_bounds h z.has
      omega
  have hm : ∀ x y : NInt t, -1073709056 ≤ x.val * y.val ∧ x.val * y.val ≤ 1073741824 := by
    intro x y
    have := hb x
    have := hb y
    constructor <;> nlinarith
  rw [det2_read]
  have h1 := hm (A 0 0) (A 1 1)
  have h2 := hm (A 0 1) (A 1 0)
  have e : ∀ x y : NInt t, (CScalar.mul (load x : SInt 32) (load y) : Res (SInt 32)) =
      .ok ⟨x.val * y.val, inRange32 (by have := hm x y; omega) (by have := hm x y; omega)⟩ := by
    intro x y
    exact checked_ok (k := x.val * y.val) _
  rw [e, e, ok_bind, ok_bind]
  refine ⟨store ⟨(A 0 0).val * (A 1 1).val - (A 0 1).val * (A 1 0).val,
    inRange32 (by omega) (by omega)⟩, ?_⟩
  have e' := checked_ok (k := (A 0 0).val * (A 1 1).val - (A 0 1).val * (A 1 0).val)
    (inRange32 (by omega) (by omega))
  show (SInt.checked ((A 0 0).val * (A 1 1).val - (A 0 1).val * (A 1 0).val) >>= _) = _
  rw [e', ok_bind]

theorem wp_det3_narrow (hG : Guard t G β) (hβ0 : 0 ≤ β) (hβ : β * β * β * 6 ≤ 2147483647)
    (hβ2 : β * β ≤ 2147483647) (A : Mat (NInt t) 3 3) :
    wp (Promoted.det A) (fun d => d.val ≡ (ints A).det [ZMOD 2 ^ t.w]) (OverflowUnless G) := by
  show wp (Promoted.det3 A) _ _
  unfold Promoted.det3
  have hc : 0 ≤ β * β * β := by positivity
  have h := fun a b => rd_fin A a b
  have e00 := h 0 0
  have e01 := h 0 1
  have e02 := h 0 2
  have e10 := h 1 0
  have e11 := h 1 1
  have e12 := h 1 2
  have e20 := h 2 0
  have e21 := h 2 1
  have e22 := h 2 2
  simp only [Fin.val_zero, Fin.val_one, Fin.val_two] at e00 e01 e02 e10 e11 e12 e20 e21 e22
  rw [e00, e01, e02, e10, e11, e12, e20, e21, e22]
  simp only [ok_bind]
  have L := fun z : NInt t => Bnd.load hG z
  rw [wp_bind]
  refine wp_mono ((L _).wp_mul (L _) hβ2) (fun p1 q1 => ?_) (fun _ h => h)
  rw [wp_bind]
  refine wp_mono (q1.wp_mul (L _) (by omega)) (fun s1 r1 => ?_) (fun _ h => h)
  rw [wp_bind]
  refine wp_mono ((L _).wp_mul (L _) hβ2) (fun p2 q2 => ?_) (fun _ h => h)
  rw [wp_bind]
  refine wp_mono (q2.wp_mul (L _) (by omega)) (fun s2 r2 => ?_) (fun _ h => h)
  rw [wp_bind]
  refine wp_mono (r1.wp_add r2 (by omega)) (fun t2 u2 => ?_) (fun _ h => h)
  rw [wp_bind]
  refine wp_mono ((L _).wp_mul (L _) hβ2) (fun p3 q3 => ?_) (fun _ h => h)
  rw [wp_bind]
  refine wp_mono (q3.wp_mul (L _) (by omega)) (fun s3 r3 => ?_) (fun _ h => h)
  rw [wp_bind]
  refine wp_mono (u2.wp_add r3 (by omega)) (fun t3 u3 => ?_) (fun _ h => h)
  rw [wp_bind]
  refine wp_mono ((L _).wp_mul (L _) hβ2) (fun p4 q4 => ?_) (fun _ h => h)
  rw [wp_bind]
  refine wp_mono (q4.wp_mul (L _) (by omega)) (fun s4 r4 => ?_) (fun _ h => h)
  rw [wp_bind]
  refine wp_mono (u3.wp_sub r4 (by omega)) (fun t4 u4 => ?_) (fun _ h => h)
  rw [wp_bind]
  refine wp_mono ((L _).wp_mul (L _) hβ2) (fun p5 q5 => ?_) (fun _ h => h)
  rw [wp_bind]
  refine wp_mono (q5.wp_mul (L _) (by omega)) (fun s5 r5 => ?_) (fun _ h => h)
  rw [wp_bind]
  refine wp_mono (u4.wp_sub r5 (by omega)) (fun t5 u5 => ?_) (fun _ h => h)
  rw [wp_bind]
  refine wp_mono ((L _).wp_mul (L _) hβ2) (fun p6 q6 => ?_) (fun _ h => h)
  rw [wp_bind]
  refine wp_mono (q6.wp_mul (L _) (by omega)) (fun s6 r6 => ?_) (fun _ h => h)
  rw [wp_bind]
  refine wp_mono (u5.wp_sub r6 (by omega)) (fun t6 u6 => ?_) (fun _ h => h)
  rw [wp_ok]
  refine u6.store.trans (congrArg (· % 2 ^ t.w) ?_)
  rw [Matrix.det_fin_three]
  simp only [ints, Matrix.map_apply]
  ring

/-- The determinant of a 3x3 matrix, whatever the type: the exact one modulo `2^w`, unless an `int` overflows. -/
theorem C91_det3_value (A : Mat (NInt t) 3 3) :
    wp (Promoted.det A) (fun d => d.val ≡ (ints A).det [ZMOD 2 ^ t.w]) (fun e => e = .ub .signedOverflow) :=
  wp_mono (wp_det3_narrow (G := False) (β := 0) (fun h => h.elim) le_rfl (by norm_num) (by norm_num) A)
    (fun _ h => h) (fun _ h => h.1)

/-- For 8-bit elements the determinant of a 3x3 matrix always returns. -/
theorem C91_det3 (h8 : t.Is8) (A : Mat (NInt t) 3 3) :
    ∃ d, Promoted.det A = .ok d ∧ d.val ≡ (ints A).det [ZMOD 2 ^ t.w] :=
  wp_total (wp_always (wp_det3_narrow (fun _ => guard8 t h8) (by norm_num) (by norm_num) (by norm_num) A))

/-- Not so for 16-bit elements, where an intermediate product of three is beyond `int`. -/
theorem C91_det3_int16 :
    Promoted.det (Mat.const ⟨32767, by decide⟩ : Mat (NInt .int16) 3 3) = .error (.ub .signedOverflow) := by
  decide +kernel

/-- Nor for `unsigned short` elements and 2x2 matrices. -/
theorem C91_det2_uint16 :
    Promoted.det (Mat.const ⟨65535, by decide⟩ : Mat (NInt .uint16) 2 2) = .error (.ub .signedOverflow) := by
  decide +kernel

/-- The general code, used from 4x4 on, divides. Over the integers modulo `2^w` its result is not the
determinant, since the quotients of the elimination are truncated. -/
theorem C91_det4_false :
    ∃ A : Mat (NInt .int8) 4 4, (ints A).det = 5 ∧ ∃ d, Promoted.det A = .ok d ∧ d.val = 6 := by
  refine ⟨(!![2, 1, 0, 0; 1, 3, 0, 0; 0, 0, 1, 0; 0, 0, 0, 1] : Matrix (Fin 4) (Fin 4) ℤ).map NInt.ofInt, ?_,
    ⟨6, by decide⟩, ?_, rfl⟩
  · decide +kernel
  · decide +kernel

/-- A 2x2 determinant that wraps: the exact one is -200. -/
example : Promoted.det ((!![10, 20; 20, 20] : Matrix (Fin 2) (Fin 2) ℤ).map NInt.ofInt : Mat (NInt .int8) 2 2) =
    .ok ⟨56, by decide⟩ := by decide +kernel

end MatrixLibs
