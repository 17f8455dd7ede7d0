import Verif.Spec.Widen
import Verif.Proof.SimHom
import Verif.Props.Arith
import Verif.Props.Chol
import Verif.Props.Stats
import Mathlib.LinearAlgebra.Matrix.Notation

/-!
# The same computation in a wider type (C104)
-/

namespace MatrixLibs

set_option linter.unusedSectionVars false

open CScalar (ofInt)

section
variable {w w' : Nat}

/-- Equal values. -/
local instance relWiden : Rel (SInt w) (SInt w') := ⟨fun a b => b.val = a.val⟩

theorem SInt.val_inj' {a b : SInt w} (h : a.val = b.val) : a = b := by
  cases a; cases b; simpa using h

theorem sim_checked (h : w ≤ w') {k k' : Int} (e : k' = k) :
    SimRes (SInt.checked k : Res (SInt w)) (SInt.checked k' : Res (SInt w')) := by
  subst e
  unfold SInt.checked
  by_cases hk : InRange w k'
  · rw [dif_pos hk, dif_pos (hk.mono h)]
    exact sim_ok rfl
  · rw [dif_neg hk]
    exact sim_ub _ _

theorem wrap_small (hw : 2 ≤ w) {k : Int} (h1 : -2 ≤ k) (h2 : k < 2) : (SInt.wrap k : SInt w).val = k := by
  obtain ⟨n, rfl⟩ : ∃ n, w = n + 2 := ⟨w - 2, by omega⟩
  show Int.bmod k (2 ^ (n + 2)) = k
  have : (2 ^ n : Nat) ≥ 1 := Nat.one_le_two_pow
  have e : ((2 ^ (n + 2) : Nat) : Int) = 4 * (2 ^ n : Nat) := by push_cast; ring
  refine Int.bmod_eq_of_le ?_ ?_ <;> rw [e] <;> omega

theorem simRing_widen (hw : 2 ≤ w) (h : w ≤ w') : SimRing (SInt w) (SInt w') where
  init := by
    show (SInt.wrap 0 : SInt w').val = (SInt.wrap 0 : SInt w).val
    rw [wrap_small hw (by decide) (by decide), wrap_small (hw.trans h) (by decide) (by decide)]
  zero := by
    show (SInt.wrap 0 : SInt w').val = (SInt.wrap 0 : SInt w).val
    rw [wrap_small hw (by decide) (by decide), wrap_small (hw.trans h) (by decide) (by decide)]
  one := by
    show (SInt.wrap 1 : SInt w').val = (SInt.wrap 1 : SInt w).val
    rw [wrap_small hw (by decide) (by decide), wrap_small (hw.trans h) (by decide) (by decide)]
  minusOne := by
    show (SInt.wrap (-1) : SInt w').val = (SInt.wrap (-1) : SInt w).val
    rw [wrap_small hw (by decide) (by decide), wrap_small (hw.trans h) (by decide) (by decide)]
  add h1 h2 := sim_checked h (by rw [show _ = _ from h1, show _ = _ from h2])
  sub h1 h2 := sim_checked h (by rw [show _ = _ from h1, show _ = _ from h2])
  mul h1 h2 := sim_checked h (by rw [show _ = _ from h1, show _ = _ from h2])

theorem simOrd_widen (h : w ≤ w') : SimOrd (SInt w) (SInt w') where
  eq {a b a' b'} h1 h2 := by
    show decide (a.val = b.val) = decide (a'.val = b'.val)
    rw [show a'.val = a.val from h1, show b'.val = b.val from h2]
  lt {a b a' b'} h1 h2 := by
    show decide (a.val < b.val) = decide (a'.val < b'.val)
    rw [show a'.val = a.val from h1, show b'.val = b.val from h2]
  abs h1 := sim_checked h (by rw [show _ = _ from h1])

theorem simField_widen (h : w ≤ w') : SimField (SInt w) (SInt w') where
  div {a b a' b'} h1 h2 := by
    show SimRes (if b.val = 0 then _ else _) (if b'.val = 0 then _ else _)
    rw [show b'.val = b.val from h2, show a'.val = a.val from h1]
    exact sim_ite (fun _ => sim_error _) (fun _ => sim_checked h rfl)
  neg h1 := sim_checked h (by rw [show _ = _ from h1])
  sqrt {a a'} h1 := by
    show SimRes (SInt.ofTrunc (sqrtTrunc a.val)) (SInt.ofTrunc (sqrtTrunc a'.val))
    rw [show a'.val = a.val from h1]
    cases sqrtTrunc a.val with
    | none => exact sim_error _
    | some k =>
      unfold SInt.ofTrunc
      dsimp only
      by_cases hk : InRange w k
      · rw [dif_pos hk, dif_pos (hk.mono h)]
        exact sim_ok rfl
      · rw [dif_neg hk]
        exact sim_ub _ _

theorem rel_widen (h : w ≤ w') {r c : Nat} (A : Mat (SInt w) r c) : A ≈≈ (A.map (SInt.widen h)) := fun _ _ => rfl

theorem eq_of_rel (h : w ≤ w') {r c : Nat} {A : Mat (SInt w) r c} {B : Mat (SInt w') r c} (hAB : A ≈≈ B) :
    B = A.map (SInt.widen h) := by
  funext a b
  exact SInt.val_inj' (hAB a b)

end

section
variable {w w' : Nat} (hw : 2 ≤ w) (h : w ≤ w') {r c n m p : Nat} (handled : Option Exc)
include hw

attribute [local instance] relWiden

/-- C104: sums and differences. -/
theorem C104_add_sub (A B : Mat (SInt w) r c) :
    (Defined (opAdd A B) → opAdd (A.map (SInt.widen h)) (B.map (SInt.widen h)) = (opAdd A B).map (·.map (SInt.widen h))) ∧
    (Defined (opSub A B) → opSub (A.map (SInt.widen h)) (B.map (SInt.widen h)) = (opSub A B).map (·.map (SInt.widen h))) :=
  haveI := simRing_widen hw h
  ⟨(sim_sum (rel_widen h A) (rel_widen h B)).map_eq (eq_of_rel h),
    (sim_sub (rel_widen h A) (rel_widen h B)).map_eq (eq_of_rel h)⟩

/-- C104: sums, differences, products and quotients with a scalar. -/
theorem C104_scalar (A : Mat (SInt w) r c) (s : SInt w) :
    (Defined (opAddScalar A s) →
      opAddScalar (A.map (SInt.widen h)) (s.widen h) = (opAddScalar A s).map (·.map (SInt.widen h))) ∧
    (Defined (opSubScalar A s) →
      opSubScalar (A.map (SInt.widen h)) (s.widen h) = (opSubScalar A s).map (·.map (SInt.widen h))) ∧
    (Defined (opMulScalar A s) →
      opMulScalar (A.map (SInt.widen h)) (s.widen h) = (opMulScalar A s).map (·.map (SInt.widen h))) ∧
    (Defined (opDiv handled A s) →
      opDiv handled (A.map (SInt.widen h)) (s.widen h) = (opDiv handled A s).map (·.map (SInt.widen h))) :=
  haveI := simRing_widen hw h
  haveI := simOrd_widen h
  haveI := simField_widen h
  ⟨(sim_sumScalar (rel_widen h A) rfl).map_eq (eq_of_rel h), (sim_subScalar (rel_widen h A) rfl).map_eq (eq_of_rel h),
    (sim_multScalar (rel_widen h A) rfl).map_eq (eq_of_rel h), (sim_div handled (rel_widen h A) rfl).map_eq (eq_of_rel h)⟩

/-- C104: products. -/
theorem C104_mul (A : Mat (SInt w) n m) (B : Mat (SInt w) m p) (hd : Defined (opMul A B)) :
    opMul (A.map (SInt.widen h)) (B.map (SInt.widen h)) = (opMul A B).map (·.map (SInt.widen h)) :=
  haveI := simRing_widen hw h
  (sim_mult (rel_widen h A) (rel_widen h B)).map_eq (eq_of_rel h) hd

/-- C104: the Strassen product. -/
theorem C104_strassen (A B : Mat (SInt w) 2 2) (hd : Defined (strassen A B)) :
    strassen (A.map (SInt.widen h)) (B.map (SInt.widen h)) = (strassen A B).map (·.map (SInt.widen h)) :=
  haveI := simRing_widen hw h
  (sim_strassen (rel_widen h A) (rel_widen h B)).map_eq (eq_of_rel h) hd

/-- C104: powers, with positive and negative exponents. -/
theorem C104_pow (we : Nat) (A : Mat (SInt w) n n) (q : Int) (hd : Defined (pow handled we A q)) :
    pow handled we (A.map (SInt.widen h)) q = (pow handled we A q).map (·.map (SInt.widen h)) :=
  haveI := simRing_widen hw h
  haveI := simOrd_widen h
  haveI := simField_widen h
  (sim_pow handled we (rel_widen h A) q).map_eq (eq_of_rel h) hd

/-- C104: `A++` and `A--`: the value returned and the new value of `A`. -/
theorem C104_inc_dec (A : Mat (SInt w) r c) :
    (Defined (opPostInc A) → opPostInc (A.map (SInt.widen h)) =
      (opPostInc A).map (fun x => (x.1.map (SInt.widen h), x.2.map (SInt.widen h)))) ∧
    (Defined (opPostDec A) → opPostDec (A.map (SInt.widen h)) =
      (opPostDec A).map (fun x => (x.1.map (SInt.widen h), x.2.map (SInt.widen h)))) :=
  haveI := simRing_widen hw h
  ⟨(sim_opPostInc (rel_widen h A)).map_eq (g := fun x => (x.1.map (SInt.widen h), x.2.map (SInt.widen h)))
      (fun {a b} (hab : a.1 ≈≈ b.1 ∧ a.2 ≈≈ b.2) => Prod.ext (eq_of_rel h hab.1) (eq_of_rel h hab.2)),
    (sim_opPostDec (rel_widen h A)).map_eq (g := fun x => (x.1.map (SInt.widen h), x.2.map (SInt.widen h)))
      (fun {a b} (hab : a.1 ≈≈ b.1 ∧ a.2 ≈≈ b.2) => Prod.ext (eq_of_rel h hab.1) (eq_of_rel h hab.2))⟩

/-- C104: absolute values. -/
theorem C104_abs (A : Mat (SInt w) r c) (hd : Defined (abs A)) :
    abs (A.map (SInt.widen h)) = (abs A).map (·.map (SInt.widen h)) :=
  haveI := simRing_widen hw h
  haveI := simOrd_widen h
  (sim_abs (rel_widen h A)).map_eq (eq_of_rel h) hd

/-- C104: determinants. -/
theorem C104_det (A : Mat (SInt w) n n) (hd : Defined (det A)) :
    det (A.map (SInt.widen h)) = (det A).map (SInt.widen h) :=
  haveI := simRing_widen hw h
  haveI := simOrd_widen h
  haveI := simField_widen h
  (sim_det (rel_widen h A)).map_eq (fun hab => SInt.val_inj' hab) hd

/-- C104: inverses; an exception in the narrow type is the same exception in the wide one. -/
theorem C104_inv (A : Mat (SInt w) n n) (hd : Defined (inv handled A)) :
    inv handled (A.map (SInt.widen h)) = (inv handled A).map (·.map (SInt.widen h)) :=
  haveI := simRing_widen hw h
  haveI := simOrd_widen h
  haveI := simField_widen h
  (sim_inv handled (rel_widen h A)).map_eq (eq_of_rel h) hd

/-- C104: LU factors. -/
theorem C104_lu (A : Mat (SInt w) n n) (hd : Defined (lu A)) :
    lu (A.map (SInt.widen h)) = (lu A).map (fun x => (x.1.map (SInt.widen h), x.2.map (SInt.widen h))) :=
  haveI := simRing_widen hw h
  haveI := simOrd_widen h
  haveI := simField_widen h
  (sim_lu (rel_widen h A)).map_eq (g := fun x => (x.1.map (SInt.widen h), x.2.map (SInt.widen h)))
    (fun {a b} (hab : a.1 ≈≈ b.1 ∧ a.2 ≈≈ b.2) => Prod.ext (eq_of_rel h hab.1) (eq_of_rel h hab.2)) hd

/-- C104: Cholesky factors. -/
theorem C104_chol (A : Mat (SInt w) n n) (hd : Defined (chol A)) :
    chol (A.map (SInt.widen h)) = (chol A).map (·.map (SInt.widen h)) :=
  haveI := simRing_widen hw h
  haveI := simOrd_widen h
  haveI := simField_widen h
  (sim_chol (rel_widen h A)).map_eq (eq_of_rel h) hd

/-- C104: convolutions. -/
theorem C104_conv2 (A : Mat (SInt w) r c) (K : Mat (SInt w) 3 3) :
    (Defined (conv2 A K) → conv2 (A.map (SInt.widen h)) (K.map (SInt.widen h)) = (conv2 A K).map (·.map (SInt.widen h))) ∧
    (Defined (conv2_full A K) →
      conv2_full (A.map (SInt.widen h)) (K.map (SInt.widen h)) = (conv2_full A K).map (·.map (SInt.widen h))) :=
  haveI := simRing_widen hw h
  ⟨(sim_conv2 (rel_widen h A) (rel_widen h K)).map_eq (eq_of_rel h),
    (sim_conv2_full (rel_widen h A) (rel_widen h K)).map_eq (eq_of_rel h)⟩

/-- C104: the valid part of a convolution. -/
theorem C104_conv2_valid (A : Mat (SInt w) n n) (K : Mat (SInt w) 3 3) (hd : Defined (conv2_valid A K)) :
    conv2_valid (A.map (SInt.widen h)) (K.map (SInt.widen h)) = (conv2_valid A K).map (·.map (SInt.widen h)) :=
  haveI := simRing_widen hw h
  (sim_conv2_valid (rel_widen h A) (rel_widen h K)).map_eq (eq_of_rel h) hd

/-- C104: `compare` and `isSymetric`. -/
theorem C104_predicates (A B : Mat (SInt w) r c) (S : Mat (SInt w) n n) (eps : Fl binary32) :
    (Defined (compareInt A B eps) →
      compareInt (A.map (SInt.widen h)) (B.map (SInt.widen h)) eps = compareInt A B eps) ∧
    isSymetric (S.map (SInt.widen h)) = isSymetric S := by
  have := simRing_widen hw h
  have := simOrd_widen h
  refine ⟨fun hd => ?_, ?_⟩
  · have h1 : SimRes (compareInt A B eps) (compareInt (A.map (SInt.widen h)) (B.map (SInt.widen h)) eps) :=
      sim_compareLoop (rel_widen h A) (rel_widen h B) (fun d d' hdd => by
        rw [show d'.val = d.val from hdd])
    rw [h1.map_eq (g := id) (fun {a b} (hab : a = b) => hab.symm) hd]
    cases compareInt A B eps <;> rfl
  · have h1 := sim_isSymetric (rel_widen h S)
    obtain ⟨b, hb, -⟩ := C36_isSymetric_pairs S
    rw [h1.map_eq (g := id) (fun {a b} (hab : a = b) => hab.symm) (by rw [hb]; intro k hk; cases hk), hb]
    rfl

/-- C104: the mean of elements whose sum is not negative. -/
theorem C104_mean_nonneg (hw' : w' ≤ 64) (A : Mat (SInt w) r c) (h0 : r * c ≠ 0) (hs : 0 ≤ ∑ a, ∑ b, (A a b).val)
    (hd : Defined (mean A)) : mean (A.map (SInt.widen h)) = (mean A).map (SInt.widen h) := by
  have hr : ∀ k, k ≤ r * c → InRange w (prefixSum A k) := by
    intro k hk
    by_contra hn
    exact hd _ ((C56_mean_overflow_iff A h0).mpr ⟨k, hk, hn⟩)
  obtain ⟨x, hx, vx⟩ := C56_mean_nonneg_partial hw (h.trans hw') A h0 hs hr
  obtain ⟨y, hy, vy⟩ := C56_mean_nonneg_partial (hw.trans h) hw' (A.map (SInt.widen h)) h0 hs
    (fun k hk => (hr k hk).mono h)
  rw [hx, hy]
  show Except.ok y = Except.ok (x.widen h)
  congr 1
  exact SInt.val_inj' (vy.trans vx.symm)

end

/-- C104: the mean of elements with a negative sum depends on the width: of -1, -1, -1 it is 1431655764 in
`int` and 6148914691236517204 in `long`. -/
theorem C104_mean_differs :
    mean (Mat.const (SInt.wrap (-1)) : Mat (SInt 32) 1 3) = .ok (SInt.wrap 1431655764) ∧
    mean (Mat.const (SInt.wrap (-1)) : Mat (SInt 64) 1 3) = .ok (SInt.wrap 6148914691236517204) := by
  decide +kernel

/-! Concrete cases: the values of `A` fit into 8 bits and so do those of its square; the determinant of a matrix
with larger elements overflows in 8 bits, where the theorems say nothing, and not in 16. -/

/-- A matrix of 8-bit integers. -/
private def A8 : Mat (SInt 8) 2 2 := !![SInt.wrap 3, SInt.wrap (-2); SInt.wrap 4, SInt.wrap 5]

example : opMul A8 A8 = .ok !![SInt.wrap 1, SInt.wrap (-16); SInt.wrap 32, SInt.wrap 17] := by decide +kernel
example : Defined (opMul A8 A8) ∧ Defined (det A8) ∧ Defined (lu A8) ∧ Defined (inv none A8) := by
  refine ⟨fun k => ?_, fun k => ?_, fun k => ?_, fun k => ?_⟩ <;> cases k <;> decide +kernel
example : opMul (A8.map (SInt.widen (by decide : 8 ≤ 32))) (A8.map (SInt.widen (by decide : 8 ≤ 32))) =
    .ok !![SInt.wrap 1, SInt.wrap (-16); SInt.wrap 32, SInt.wrap 17] := by
  rw [C104_mul (by decide) _ _ _ (fun k => by cases k <;> decide +kernel)]
  decide +kernel
example : det (Mat.const (SInt.wrap 100) : Mat (SInt 8) 2 2) = .error (.ub .signedOverflow) ∧
    det (Mat.const (SInt.wrap 100) : Mat (SInt 16) 2 2) = .ok (SInt.wrap 0) := by decide +kernel

end MatrixLibs
