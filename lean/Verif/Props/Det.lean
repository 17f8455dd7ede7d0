import Verif.Proof.Det
import Verif.Proof.DetSafe
import Verif.Props.Arith
import Verif.Proof.Overload
import Mathlib.LinearAlgebra.Matrix.Notation
import Mathlib.Algebra.Field.ZMod
import Mathlib.LinearAlgebra.Matrix.ToLinearEquiv

/-!
# Properties C25–C29: determinants
-/

namespace MatrixLibs

set_option linter.unusedSectionVars false

/-! ## C25: closed forms -/

section C25

/-- C25: over a commutative ring with exact arithmetic, `det` of a matrix of size 1, 2 or 3 is the
determinant. -/
theorem C25_det_small {R : Type} [CommRing R] [Inhabited R] [CScalar R] [ExactRing R] {n : Nat}
    (h1 : 1 ≤ n) (h3 : n ≤ 3) (A : Mat R n n) : det A = .ok A.det := by
  apply wp_eq
  match n, A with
  | 0, _ => omega
  | 1, A => exact wp_mono (wp_det1 (RingSem.exact R) A) (fun v hv => hv) (fun _ h => h)
  | 2, A => exact wp_mono (wp_det2 (RingSem.exact R) A) (fun v hv => hv) (fun _ h => h)
  | 3, A => exact wp_mono (wp_det3 (RingSem.exact R) A) (fun v hv => hv) (fun _ h => h)
  | _ + 4, _ => omega

/-- C25, unsigned: the result is the integer determinant modulo `2^w`. -/
theorem C25_det_small_unsigned {w n : Nat} (h1 : 1 ≤ n) (h3 : n ≤ 3)
    (A : Matrix (Fin n) (Fin n) ℤ) :
    det (A.map (fun k => BitVec.ofInt w k)) = .ok (BitVec.ofInt w A.det) := by
  rw [C25_det_small h1 h3]
  congr 1
  exact ((Int.castRingHom (BitVec w)).map_det A).symm

theorem wp_det_small_signed {w n : Nat} (hw : 2 ≤ w) (h1 : 1 ≤ n) (h3 : n ≤ 3)
    (A : Mat (SInt w) n n) :
    wp (det A) (fun v => v.val = (A.map SInt.val).det) (fun e => e = .ub .signedOverflow) := by
  match n, A with
  | 0, _ => omega
  | 1, A => exact wp_det1 (RingSem.signed w hw) A
  | 2, A => exact wp_det2 (RingSem.signed w hw) A
  | 3, A => exact wp_det3 (RingSem.signed w hw) A
  | _ + 4, _ => omega

/-- C25, signed: a returned value is the integer determinant. -/
theorem C25_det_small_signed {w n : Nat} (hw : 2 ≤ w) (h1 : 1 ≤ n) (h3 : n ≤ 3)
    (A : Mat (SInt w) n n) (v : SInt w) (h : det A = .ok v) : v.val = (A.map SInt.val).det := by
  have := wp_ok_elim (wp_det_small_signed hw h1 h3 A) h
  exact this

/-- C25, signed: the only failure is signed overflow. -/
theorem C25_det_small_signed_fault {w n : Nat} (hw : 2 ≤ w) (h1 : 1 ≤ n) (h3 : n ≤ 3)
    (A : Mat (SInt w) n n) (e : Stop) (h : det A = .error e) : e = .ub .signedOverflow := by
  have := wp_error_elim (wp_det_small_signed hw h1 h3 A) h
  exact this

example : det (!![mkInt 2, mkInt 0, mkInt 1; mkInt 1, mkInt 3, mkInt 2; mkInt 1, mkInt 1, mkInt 4] :
    Mat (SInt 32) 3 3) = .ok (mkInt 18) := by decide +kernel
example : det (!![mkInt 65536, mkInt 0; mkInt 0, mkInt 65536] : Mat (SInt 32) 2 2) =
    .error (.ub .signedOverflow) := by decide +kernel
example : det (!![1, 2; 3, 4] : Mat (BitVec 8) 2 2) = .ok 254 := by decide +kernel

end C25

/-! ## C26, C29: fields -/

section field
variable {K : Type} [Field K] [Inhabited K] [CScalar K] [ExactField K] {n : Nat}

/-- C26: `det(A)` over a field is the determinant of `A`, for every `n`. -/
theorem C26_det (A : Mat K n n) : det A = .ok A.det := det_ok A

/-- C26: in particular `det(A)` is `0` exactly for matrices with a non-trivial kernel. -/
theorem C26_det_zero_iff (A : Mat K n n) :
    det A = .ok 0 ↔ ∃ v : Fin n → K, v ≠ 0 ∧ A.mulVec v = 0 := by
  rw [det_ok, Matrix.exists_mulVec_eq_zero_iff]
  exact ⟨fun h => Except.ok.inj h, fun h => by rw [h]⟩

example : det (!![0, 2, 1, 1; 1, 0, 3, 0; 2, 1, 0, 1; 1, 1, 1, 5] : Mat ℚ 4 4) = .ok 56 := by
  decide +kernel
/-- A singular matrix on which the pivot search moves to another column. -/
example : det (!![1, 2, 1, 1; 1, 2, 3, 0; 2, 4, 0, 1; 1, 2, 1, 5] : Mat ℚ 4 4) = .ok 0 := by
  decide +kernel
example : det (!![] : Mat ℚ 0 0) = .ok 1 := by decide +kernel
/-- The field theorems are not limited to `ℚ` and `ℝ`. -/
example {p : Nat} [Fact p.Prime] {n : Nat} (A : Mat (ZMod p) n n) :
    letI := fieldScalar (ZMod p)
    det A = .ok A.det :=
  @C26_det (ZMod p) _ _ (fieldScalar (ZMod p)) (fieldScalar_exact (ZMod p)) _ A

/-- C29: `det(A * B) == det(A) * det(B)`. -/
theorem C29_det_mul (A B : Mat K n n) :
    ∃ P a b, opMul A B = .ok P ∧ det A = .ok a ∧ det B = .ok b ∧ det P = .ok (a * b) :=
  ⟨A * B, A.det, B.det, mult_ok A B, det_ok A, det_ok B, by rw [det_ok, Matrix.det_mul]⟩

/-- C29: `det(trans(A)) == det(A)`. -/
theorem C29_det_trans (A : Mat K n n) :
    ∃ P a, trans A = .ok P ∧ det A = .ok a ∧ det P = .ok a :=
  ⟨A.transpose, A.det, trans_ok A, det_ok A, by rw [det_ok, Matrix.det_transpose]⟩

/-- C29: `det(eye<n>()) == 1`. -/
theorem C29_det_eye : ∃ P : Mat K n n, eye1 n = .ok P ∧ det P = .ok 1 :=
  ⟨1, eye1_exact n, by rw [det_ok, Matrix.det_one]⟩

/-- C29: exchanging two distinct rows negates `det`. -/
theorem C29_det_swap_rows (A : Mat K n n) (r1 r2 : Fin n) (h : r1 ≠ r2) :
    ∃ P a, swap_rows A r1 r2 = .ok P ∧ det A = .ok a ∧ det P = .ok (-a) := by
  refine ⟨_, A.det, swap_rows_ok A r1 r2, det_ok A, ?_⟩
  rw [det_ok]
  have := Matrix.det_permute (Equiv.swap r1 r2) A
  rw [Equiv.Perm.sign_swap h] at this
  have hm : (Matrix.of fun a b => A (Equiv.swap r1 r2 a) b) =
    A.submatrix (Equiv.swap r1 r2) id := rfl
  rw [hm, this]
  congr 1
  simp

/-- C29: exchanging two distinct columns negates `det`. -/
theorem C29_det_swap_cols (A : Mat K n n) (c1 c2 : Fin n) (h : c1 ≠ c2) :
    ∃ P a, swap_cols A c1 c2 = .ok P ∧ det A = .ok a ∧ det P = .ok (-a) := by
  refine ⟨_, A.det, swap_cols_ok A c1 c2, det_ok A, ?_⟩
  rw [det_ok]
  have := Matrix.det_permute' (Equiv.swap c1 c2) A
  rw [Equiv.Perm.sign_swap h] at this
  have hm : (Matrix.of fun a b => A a (Equiv.swap c1 c2 b)) =
    A.submatrix id (Equiv.swap c1 c2) := rfl
  rw [hm, this]
  congr 1
  simp

/-- Determinants `-2` and `3`; their product's is `-6`, and a swap of rows changes the sign. -/
example : det (!![1, 2; 3, 4] : Mat ℚ 2 2) = .ok (-2) ∧ det (!![1, 1; 0, 3] : Mat ℚ 2 2) = .ok 3 ∧
    (do det (← opMul (!![1, 2; 3, 4] : Mat ℚ 2 2) !![1, 1; 0, 3])) = .ok (-6) ∧
    (do det (← swap_rows (!![1, 2; 3, 4] : Mat ℚ 2 2) 0 1)) = .ok 2 := by
  refine ⟨?_, ?_, ?_, ?_⟩ <;> decide +kernel

end field

/-! ## C27: safety and termination for every element type -/

section C27
variable {T : Type} [Inhabited T] [CScalar T] {n : Nat}

/-- C27: if the element operations return, `det` returns, whatever they return: it terminates and
stays inside the matrix. -/
theorem C27_det_returns (hsub : ∀ a b : T, ∃ c, CScalar.sub a b = .ok c)
    (hadd : ∀ a b : T, ∃ c, CScalar.add a b = .ok c)
    (hmul : ∀ a b : T, ∃ c, CScalar.mul a b = .ok c)
    (hdiv : ∀ a b : T, ∃ c, CScalar.div a b = .ok c) (A : Mat T n n) : ∃ v, det A = .ok v := by
  have tot : ∀ {x : Res T}, (∃ c, x = .ok c) → wp x (fun _ => True) (fun _ => False) := by
    rintro x ⟨c, rfl⟩; trivial
  have H : DetOps T (fun _ => False) :=
    { sub := fun a b => tot (hsub a b), add := fun a b => tot (hadd a b),
      mul := fun a b => tot (hmul a b), div := fun a b _ => tot (hdiv a b),
      Factor := fun _ => True, one := trivial,
      neg := fun f _ => tot (hmul _ _), divFactor := fun a f _ => tot (hdiv a f) }
  have h := safe_det H A
  cases hd : det A with
  | ok v => exact ⟨v, rfl⟩
  | error e => exact (wp_error_elim h hd).elim

/-- C27: if `det` stops, then because an element operation stopped (never because of an
out-of-bounds access, an exception or non-termination). -/
theorem C27_det_stops [ScalarStops T] (A : Mat T n n) (e : Stop) (h : det A = .error e) :
    ScalarStop e := wp_error_elim (safe_det (DetOps.stops T) A) h

/-- A three-valued element type: `0`, `1` and a NaN that is not equal to itself. -/
inductive Tri | zero | one | nan deriving DecidableEq

instance : Inhabited Tri := ⟨.zero⟩

/-- Arithmetic where nearly everything is NaN. -/
instance : CScalar Tri where
  add _ _ := .ok .nan
  sub _ _ := .ok .nan
  mul _ _ := .ok .nan
  div _ _ := .ok .nan
  neg _ := .ok .nan
  ofInt k := if k = 0 then .zero else .one
  eq a b := a = b ∧ a ≠ .nan
  lt _ _ := false
  abs _ := .ok .nan
  sqrt _ := .ok .nan
  divSize _ _ := .ok .nan

example : ∃ v, det (!![.nan, .zero, .one, .zero; .zero, .zero, .nan, .one;
    .zero, .zero, .zero, .one; .nan, .nan, .one, .zero] : Mat Tri 4 4) = .ok v :=
  C27_det_returns (fun _ _ => ⟨_, rfl⟩) (fun _ _ => ⟨_, rfl⟩) (fun _ _ => ⟨_, rfl⟩)
    (fun _ _ => ⟨_, rfl⟩) _

end C27

/-! ## C28: integers, n ≥ 4 -/

/-- C28 as one would expect it to hold for `int`. -/
def C28_claim : Prop :=
  ∀ (n : Nat), 4 ≤ n → ∀ (A : Mat (SInt 32) n n) (v : SInt 32), det A = .ok v →
    v.val = (A.map SInt.val).det

/-- `det` returns 4 for this matrix of determinant 3. -/
def c28Witness : Mat (SInt 32) 4 4 :=
  !![mkInt 2, mkInt 1, mkInt 0, mkInt 0; mkInt 1, mkInt 2, mkInt 0, mkInt 0;
     mkInt 0, mkInt 0, mkInt 1, mkInt 0; mkInt 0, mkInt 0, mkInt 0, mkInt 1]

theorem c28Witness_det : (c28Witness.map SInt.val).det = 3 := by
  have : c28Witness.map SInt.val = !![2, 1, 0, 0; 1, 2, 0, 0; 0, 0, 1, 0; 0, 0, 0, 1] := by
    decide +kernel
  rw [this]
  simp [Matrix.det_succ_row_zero, Fin.sum_univ_succ]
  try decide

/-- C28 is false: the elimination rounds. -/
theorem C28_false : ¬ C28_claim := by
  intro h
  have h1 : det c28Witness = .ok (mkInt 4) := by decide +kernel
  have h2 := h 4 le_rfl c28Witness (mkInt 4) h1
  rw [c28Witness_det] at h2
  exact absurd h2 (by decide)

/-- C28 for unsigned elements. -/
def C28_unsigned_claim : Prop :=
  ∀ (n : Nat), 4 ≤ n → ∀ (A : Matrix (Fin n) (Fin n) ℤ),
    det (A.map (fun k => BitVec.ofInt 32 k)) = .ok (BitVec.ofInt 32 A.det)

/-- It is false as well, even for permutation matrices: after one exchange of rows `factor` is
`2^32 - 1` and the final division gives `0`. -/
theorem C28_unsigned_false : ¬ C28_unsigned_claim := by
  intro h
  have h1 := h 4 le_rfl !![0, 1, 0, 0; 1, 0, 0, 0; 0, 0, 1, 0; 0, 0, 0, 1]
  have h2 : det ((!![0, 1, 0, 0; 1, 0, 0, 0; 0, 0, 1, 0; 0, 0, 0, 1] :
      Matrix (Fin 4) (Fin 4) ℤ).map (fun k => BitVec.ofInt 32 k)) = .ok 0#32 := by decide +kernel
  have h3 : (!![0, 1, 0, 0; 1, 0, 0, 0; 0, 0, 1, 0; 0, 0, 0, 1] :
      Matrix (Fin 4) (Fin 4) ℤ).det = -1 := by
    simp [Matrix.det_succ_row_zero, Fin.sum_univ_succ]
    try decide
  rw [h2, h3] at h1
  exact absurd h1 (by decide +kernel)

/-- C28, what holds: if no division of the elimination has a remainder (the same call on the
division-checking type `ExInt` returns), `det` returns the determinant, for every `n`. -/
theorem C28_det_exact_partial {w n : Nat} (hw : 2 ≤ w) (hn : 4 ≤ n) (A : Mat (SInt w) n n)
    (v : ExInt w) (h : det (A.map ExInt.mk) = .ok v) :
    det A = .ok v.toInt ∧ v.toInt.val = (A.map SInt.val).det := by
  obtain ⟨m, rfl⟩ : ∃ m, n = m + 4 := ⟨n - 4, by omega⟩
  constructor
  · exact Sim.detN (exInt_sim w) (A.map ExInt.mk) v h
  · have h1 := wp_ok_elim (wp_det (FieldSem.exInt w hw) (A.map ExInt.mk)) h
    have h2 := (Int.castRingHom ℚ).map_det (A.map SInt.val)
    have h3 : (v.toInt.val : ℚ) = ((A.map SInt.val).det : ℚ) := h1.trans h2.symm
    exact_mod_cast h3

/-- C28, what holds: the only failure is signed overflow; there is never a division by zero. -/
theorem C28_det_fault_partial {w n : Nat} (hw : 2 ≤ w) (A : Mat (SInt w) n n) (e : Stop)
    (h : det A = .error e) : e = .ub .signedOverflow := by
  have := wp_error_elim (safe_det (DetOps.signed w hw) A) h
  exact this

/-- C28, what holds for unsigned elements: `det` always returns. -/
theorem C28_det_unsigned_returns_partial {w n : Nat} (hw : 1 ≤ w) (A : Mat (BitVec w) n n) :
    ∃ v, det A = .ok v := by
  have h := safe_det (DetOps.unsigned w hw) A
  cases hd : det A with
  | ok v => exact ⟨v, rfl⟩
  | error e => exact (wp_error_elim h hd).elim

/-- A matrix on which all divisions come out even, with an exchange of rows. -/
example : det ((!![mkInt 0, mkInt 1, mkInt 2, mkInt 0; mkInt 2, mkInt 0, mkInt 4, mkInt 6;
    mkInt 4, mkInt 2, mkInt 11, mkInt 1; mkInt 2, mkInt 0, mkInt 1, mkInt 1] :
    Mat (SInt 32) 4 4).map ExInt.mk) = .ok ⟨mkInt 56⟩ := by decide +kernel

/-! ## C62: the dispatch used by the model is the one overload resolution makes -/

open Overload in
/-- C62: whenever overload resolution selects the general template, `det` is the general
algorithm. -/
theorem C62_det_dispatch {T : Type} [Inhabited T] [CScalar T] {n : Nat} (A : Mat T n n)
    (h : resolve squareCands [n, n] = .selected .general) : det A = detN A := by
  rw [resolve_square] at h
  match n, A, h with
  | 0, A, _ => rfl
  | 1, A, h => cases h
  | 2, A, h => cases h
  | 3, A, h => cases h
  | _ + 4, A, _ => rfl

end MatrixLibs
