import Verif.Proof.Arith
import Verif.Proof.Strassen
import Mathlib.Algebra.Order.Field.Basic
import Mathlib.LinearAlgebra.Matrix.Notation

/-!
# Properties C02 (identity law), C04, C14–C24: arithmetic
-/

namespace MatrixLibs

set_option linter.unusedSectionVars false

open CScalar (ofInt)

/-- A 32-bit `int` for the examples. -/
def mkInt (k : Int) (h : InRange 32 k := by decide) : SInt 32 := ⟨k, h⟩

instance (w : Nat) : Inhabited (SInt w) := ⟨SInt.wrap 0⟩

section anyType
variable {T : Type} [Inhabited T] [CScalar T] {i j : Nat}

/-! ## C14: elementwise, for every element type -/

/-- C14: `A + B` is exactly one `T`-addition per element, in row-major order. -/
theorem C14_add (A B : Mat T i j) :
    ElementwiseOf (fun a b => CScalar.add (A a b) (B a b)) (opAdd A B) := sum_elementwise A B

/-- C14: `sum(A, B)`. -/
theorem C14_sum (A B : Mat T i j) :
    ElementwiseOf (fun a b => CScalar.add (A a b) (B a b)) (sum A B) := sum_elementwise A B

/-- C14: `A + s` (and `sum(A, s)`). -/
theorem C14_add_scalar (A : Mat T i j) (s : T) :
    ElementwiseOf (fun a b => CScalar.add (A a b) s) (opAddScalar A s) ∧
    ElementwiseOf (fun a b => CScalar.add (A a b) s) (sumScalar A s) :=
  ⟨sumScalar_elementwise A s, sumScalar_elementwise A s⟩

/-- C14: `s + A` computes `A[i][j] + s`. -/
theorem C14_scalar_add (A : Mat T i j) (s : T) :
    ElementwiseOf (fun a b => CScalar.add (A a b) s) (opScalarAdd s A) := sumScalar_elementwise A s

/-- C14: `A - B` and `sub(A, B)`. -/
theorem C14_sub (A B : Mat T i j) :
    ElementwiseOf (fun a b => CScalar.sub (A a b) (B a b)) (opSub A B) ∧
    ElementwiseOf (fun a b => CScalar.sub (A a b) (B a b)) (sub A B) :=
  ⟨sub_elementwise A B, sub_elementwise A B⟩

/-- C14: `A - s` and `sub(A, s)`. -/
theorem C14_sub_scalar (A : Mat T i j) (s : T) :
    ElementwiseOf (fun a b => CScalar.sub (A a b) s) (opSubScalar A s) ∧
    ElementwiseOf (fun a b => CScalar.sub (A a b) s) (subScalar A s) :=
  ⟨subScalar_elementwise A s, subScalar_elementwise A s⟩

/-- C14: if some element addition does not return, neither does `A + B`. -/
theorem C14_add_stops (A B : Mat T i j) (a : Fin i) (b : Fin j) (e : Stop)
    (h : CScalar.add (A a b) (B a b) = .error e) : ∃ e', opAdd A B = .error e' := by
  cases hx : opAdd A B with
  | ok R =>
    have := ((C14_add A B).1 R).mp hx a b
    dsimp only at this
    rw [h] at this; cases this
  | error e' => exact ⟨e', rfl⟩

/-- C14: likewise `A - B`. -/
theorem C14_sub_stops (A B : Mat T i j) (a : Fin i) (b : Fin j) (e : Stop)
    (h : CScalar.sub (A a b) (B a b) = .error e) : ∃ e', opSub A B = .error e' := by
  cases hx : opSub A B with
  | ok R =>
    have := ((C14_sub A B).1.1 R).mp hx a b
    dsimp only at this
    rw [h] at this; cases this
  | error e' => exact ⟨e', rfl⟩

/-- An elementwise sum, and one whose second element overflows: the call does not return. -/
example : opAdd (!![1, 2; 3, 4] : Mat ℚ 2 2) !![5, 6; 7, 8] = .ok !![6, 8; 10, 12] ∧
    CScalar.add (⟨2147483647, by decide⟩ : SInt 32) ⟨1, by decide⟩ = .error (.ub .signedOverflow) ∧
    opAdd (!![⟨0, by decide⟩, ⟨2147483647, by decide⟩] : Mat (SInt 32) 1 2)
      !![⟨5, by decide⟩, ⟨1, by decide⟩] = .error (.ub .signedOverflow) := by
  refine ⟨?_, ?_, ?_⟩ <;> decide +kernel

/-! ## C17: postfix `++`, `--` -/

/-- `A++` leaves `A` alone and returns what `A + T(1)` returns. -/
theorem postInc_eq (A : Mat T i j) :
    opPostInc A = (do let v ← opAddScalar A (ofInt 1); .ok (A, v)) := rfl

/-- C17: the operand after `A++` is the operand before; the value is elementwise `A[i][j] + 1`. -/
theorem C17_postInc_spec (A A' V : Mat T i j) (h : opPostInc A = .ok (A', V)) :
    A' = A ∧ ∀ a b, CScalar.add (A a b) (ofInt 1) = .ok (V a b) := by
  unfold opPostInc at h
  cases hv : opAddScalar A (ofInt 1) with
  | error e => rw [hv] at h; cases h
  | ok v =>
    rw [hv] at h
    cases h
    exact ⟨rfl, ((C14_add_scalar A _).1.1 _).mp hv⟩

/-- C17: the operand after `A--` is the operand before; the value is elementwise `A[i][j] - 1`. -/
theorem C17_postDec_spec (A A' V : Mat T i j) (h : opPostDec A = .ok (A', V)) :
    A' = A ∧ ∀ a b, CScalar.sub (A a b) (ofInt 1) = .ok (V a b) := by
  unfold opPostDec at h
  cases hv : opSubScalar A (ofInt 1) with
  | error e => rw [hv] at h; cases h
  | ok v =>
    rw [hv] at h
    cases h
    exact ⟨rfl, ((C14_sub_scalar A _).1.1 _).mp hv⟩

/-! ## C22, C24 for every element type -/

/-- C22: division by a scalar that does not compare equal to 0 divides every element. -/
theorem C22_div (handled : Option Exc) (A : Mat T i j) (s : T)
    (hs : CScalar.eq s (ofInt 0) = false) :
    ElementwiseOf (fun a b => CScalar.div (A a b) s) (opDiv handled A s) ∧
    ElementwiseOf (fun a b => CScalar.div (A a b) s) (div handled A s) :=
  ⟨div_elementwise handled A s hs, div_elementwise handled A s hs⟩

/-- C22: division by zero outside any handler terminates the program. -/
theorem C22_div_zero_terminates (A : Mat T i j) (s : T) (hs : CScalar.eq s (ofInt 0) = true) :
    opDiv none A s = .error .terminates ∧ div none A s = .error .terminates := by
  simp [opDiv, div, hs, bareThrow]

/-- C22: division by zero inside a handler rethrows the exception being handled. -/
theorem C22_div_zero_rethrows (e : Exc) (A : Mat T i j) (s : T)
    (hs : CScalar.eq s (ofInt 0) = true) :
    opDiv (some e) A s = .error (.throws e) ∧ div (some e) A s = .error (.throws e) := by
  simp [opDiv, div, hs, bareThrow]

/-- C24: `abs(A)` is `std::abs` of every element; in particular every element of the result has
been written before it is returned (no `uninitialised` stop of its own). -/
theorem C24_abs (A : Mat T i j) : ElementwiseOf (fun a b => CScalar.abs (A a b)) (abs A) :=
  abs_elementwise A

end anyType

/-! ## C15: signed integers -/

section signed
variable {w i j : Nat}

/-- C15: `A + B` of signed integers returns iff every sum is representable... -/
theorem C15_add_defined_iff (A B : Mat (SInt w) i j) :
    (∃ R, opAdd A B = .ok R) ↔ ∀ a b, InRange w ((A a b).val + (B a b).val) := by
  constructor
  · rintro ⟨R, hR⟩ a b
    exact (wp_ok_elim (checked_iff _) (((C14_add A B).1 R).mp hR a b)).2
  · intro h
    refine ⟨.of fun a b => ⟨_, h a b⟩, ((C14_add A B).1 _).mpr fun a b => ?_⟩
    show SInt.checked _ = _
    unfold SInt.checked
    rw [dif_pos (h a b)]; rfl

/-- C15: ... then every element is the integer sum ... -/
theorem C15_add_value (A B R : Mat (SInt w) i j) (h : opAdd A B = .ok R) (a : Fin i) (b : Fin j) :
    (R a b).val = (A a b).val + (B a b).val :=
  (wp_ok_elim (checked_iff _) (((C14_add A B).1 R).mp h a b)).1

/-- C15: ... and the only possible fault is signed overflow. -/
theorem C15_add_fault (A B : Mat (SInt w) i j) (e : Stop) (h : opAdd A B = .error e) :
    e = .ub .signedOverflow := by
  obtain ⟨a, b, hab, -⟩ := ((C14_add A B).2 e).mp h
  exact (wp_error_elim (checked_iff _) hab).1

/-- C15: `A - B` returns iff every difference is representable... -/
theorem C15_sub_defined_iff (A B : Mat (SInt w) i j) :
    (∃ R, opSub A B = .ok R) ↔ ∀ a b, InRange w ((A a b).val - (B a b).val) := by
  constructor
  · rintro ⟨R, hR⟩ a b
    exact (wp_ok_elim (checked_iff _) (((C14_sub A B).1.1 R).mp hR a b)).2
  · intro h
    refine ⟨.of fun a b => ⟨_, h a b⟩, ((C14_sub A B).1.1 _).mpr fun a b => ?_⟩
    show SInt.checked _ = _
    unfold SInt.checked
    rw [dif_pos (h a b)]; rfl

/-- C15: ... then every element is the integer difference ... -/
theorem C15_sub_value (A B R : Mat (SInt w) i j) (h : opSub A B = .ok R) (a : Fin i) (b : Fin j) :
    (R a b).val = (A a b).val - (B a b).val :=
  (wp_ok_elim (checked_iff _) (((C14_sub A B).1.1 R).mp h a b)).1

/-- C15: ... and the only possible fault is signed overflow. -/
theorem C15_sub_fault (A B : Mat (SInt w) i j) (e : Stop) (h : opSub A B = .error e) :
    e = .ub .signedOverflow := by
  obtain ⟨a, b, hab, -⟩ := ((C14_sub A B).1.2 e).mp h
  exact (wp_error_elim (checked_iff _) hab).1

example : opAdd (!![mkInt 1, mkInt 2] : Mat (SInt 32) 1 2) !![mkInt 3, mkInt (-7)] =
    .ok !![mkInt 4, mkInt (-5)] := by decide +kernel
example : opAdd (!![mkInt 1, mkInt 2147483647] : Mat (SInt 32) 1 2) !![mkInt 3, mkInt 1] =
    .error (.ub .signedOverflow) := by decide +kernel

end signed

/-! ## C16, C17, C18, C19, C02, C04: exact arithmetic -/

section exact
variable {K : Type} [Ring K] [CScalar K] [ExactRing K] [Inhabited K] {i j : Nat}

/-- C16: commutativity. -/
theorem C16_add_comm (A B : Mat K i j) :
    ∃ R, opAdd A B = .ok R ∧ opAdd B A = .ok R :=
  ⟨_, sum_ok A B, by rw [add_comm]; exact sum_ok B A⟩

/-- C16: associativity. -/
theorem C16_add_assoc (A B C : Mat K i j) :
    ∃ R, (do opAdd (← opAdd A B) C) = .ok R ∧ (do opAdd A (← opAdd B C)) = .ok R := by
  refine ⟨A + B + C, ?_, ?_⟩
  · unfold opAdd; rw [sum_ok, ok_bind, sum_ok]
  · unfold opAdd; rw [sum_ok, ok_bind, sum_ok, add_assoc]

/-- C16: `zeros` is neutral. -/
theorem C16_add_zeros (A : Mat K i j) : (do opAdd A (← zeros i j)) = .ok A := by
  rw [zeros_exact, ok_bind]; unfold opAdd; rw [sum_ok, add_zero]

/-- C16: `(A + B) - B == A`. -/
theorem C16_add_sub_cancel (A B : Mat K i j) : (do opSub (← opAdd A B) B) = .ok A := by
  unfold opAdd opSub; rw [sum_ok, ok_bind, sub_ok, add_sub_cancel_right]

/-- C16: `A - A == zeros`. -/
theorem C16_sub_self (A : Mat K i j) :
    ∃ R, opSub A A = .ok R ∧ zeros i j = .ok R := by
  refine ⟨0, ?_, zeros_exact⟩
  unfold opSub; rw [sub_ok, sub_self]

/-- C16: `s + A == A + s` (for every element type, bit for bit). -/
theorem C16_scalar_add_comm {T : Type} [Inhabited T] [CScalar T] (A : Mat T i j) (s : T) :
    opScalarAdd s A = opAddScalar A s := rfl

/-- C17: `(A++)--` gives back `A`. -/
theorem C17_postInc_postDec (A : Mat K i j) :
    (do let x ← opPostInc A; opPostDec x.2) = .ok (A + Mat.const 1, A) := by
  unfold opPostInc opPostDec opAddScalar opSubScalar
  rw [sumScalar_ok, ok_bind, ok_bind, ExactRing.ofInt_eq, Int.cast_one, subScalar_ok, ok_bind,
    add_sub_cancel_right]

/-- The call returns: the object keeps its value, the expression has the incremented one. -/
example : opPostInc (!![1, 2; 3, 4] : Mat ℚ 2 2) = .ok (!![1, 2; 3, 4], !![2, 3; 4, 5]) := by
  decide +kernel

/-- C18: `A * B` has element `(a,b)` = sum over `k` of `A[a][k] * B[k][b]`. -/
theorem C18_mul {n m p : Nat} (A : Mat K n m) (B : Mat K m p) :
    ∃ R, opMul A B = .ok R ∧ mult A B = .ok R ∧ ∀ a b, R a b = ∑ k, A a k * B k b :=
  ⟨_, mult_ok A B, mult_ok A B, fun _ _ => Matrix.mul_apply⟩

/-- C18: in particular modulo `2^w` for unsigned integers of any width. -/
theorem C18_mul_unsigned (w : Nat) {n m p : Nat} (A : Mat (BitVec w) n m) (B : Mat (BitVec w) m p) :
    ∃ R, opMul A B = .ok R ∧ ∀ a b, (R a b).toNat =
      (∑ k, (A a k).toNat * (B k b).toNat) % 2 ^ w := by
  obtain ⟨R, h, -, hR⟩ := C18_mul A B
  refine ⟨R, h, fun a b => ?_⟩
  rw [hR]
  generalize (Finset.univ : Finset (Fin m)) = s
  induction s using Finset.induction_on with
  | empty => simp
  | insert x s hx ih =>
    rw [Finset.sum_insert hx, Finset.sum_insert hx, BitVec.toNat_add, ih, BitVec.toNat_mul,
      ← Nat.add_mod]

/-- C18: `A * s` and `s * A` multiply every element by `s` (from the right). -/
theorem C18_mul_scalar (A : Mat K i j) (s : K) :
    ∃ R, opMulScalar A s = .ok R ∧ opScalarMul s A = .ok R ∧ ∀ a b, R a b = A a b * s :=
  ⟨_, multScalar_ok' A s, multScalar_ok' A s, fun _ _ => rfl⟩

/-- A `1 × 2` by `2 × 2` product, and one that wraps modulo `2 ^ 8`. -/
example : opMul (!![1, 2] : Mat ℚ 1 2) !![3, 4; 5, 6] = .ok !![13, 16] ∧
    opMul (!![200#8, 100#8] : Mat (BitVec 8) 1 2) !![2#8; 3#8] = .ok !![188#8] := by
  constructor <;> decide +kernel

/-- C19: associativity. -/
theorem C19_mul_assoc {n m p q : Nat} (A : Mat K n m) (B : Mat K m p) (C : Mat K p q) :
    ∃ R, (do opMul (← opMul A B) C) = .ok R ∧ (do opMul A (← opMul B C)) = .ok R := by
  unfold opMul
  refine ⟨A * B * C, ?_, ?_⟩
  · rw [mult_ok, ok_bind, mult_ok]
  · rw [mult_ok, ok_bind, mult_ok, Matrix.mul_assoc]

/-- C19: left distributivity. -/
theorem C19_mul_add {n m p : Nat} (A : Mat K n m) (B C : Mat K m p) :
    ∃ R, (do opMul A (← opAdd B C)) = .ok R ∧
      (do opAdd (← opMul A B) (← opMul A C)) = .ok R := by
  unfold opMul opAdd
  refine ⟨A * B + A * C, ?_, ?_⟩
  · rw [sum_ok, ok_bind, mult_ok, Matrix.mul_add]
  · rw [mult_ok, ok_bind, mult_ok, ok_bind, sum_ok]

/-- C19: right distributivity. -/
theorem C19_add_mul {n m p : Nat} (A B : Mat K n m) (C : Mat K m p) :
    ∃ R, (do opMul (← opAdd A B) C) = .ok R ∧
      (do opAdd (← opMul A C) (← opMul B C)) = .ok R := by
  unfold opMul opAdd
  refine ⟨A * C + B * C, ?_, ?_⟩
  · rw [sum_ok, ok_bind, mult_ok, Matrix.add_mul]
  · rw [mult_ok, ok_bind, mult_ok, ok_bind, sum_ok]

/-- C19: `s * A == A * s` (for every element type, bit for bit: both compute `A[i][j] * s`). -/
theorem C19_scalar_mul_comm {T : Type} [Inhabited T] [CScalar T] (A : Mat T i j) (s : T) :
    opScalarMul s A = opMulScalar A s := rfl

/-- C02: `eye()` is a left and right identity of `*`. -/
theorem C02_eye_mul {n m : Nat} (A : Mat K n m) :
    (do opMul (← eye1 n) A) = .ok A ∧ (do opMul A (← eye1 m)) = .ok A := by
  unfold opMul
  constructor
  · rw [eye1_exact, ok_bind, mult_ok, Matrix.one_mul]
  · rw [eye1_exact, ok_bind, mult_ok, Matrix.mul_one]

end exact

section comm
variable {K : Type} [CommRing K] [CScalar K] [ExactRing K] [Inhabited K] {i j : Nat}

/-- C19: `(s * A) * B == s * (A * B)`. -/
theorem C19_scalar_mul_assoc {n m p : Nat} (A : Mat K n m) (B : Mat K m p) (s : K) :
    ∃ R, (do opMul (← opScalarMul s A) B) = .ok R ∧
      (do opScalarMul s (← opMul A B)) = .ok R := by
  unfold opMul opScalarMul
  refine ⟨s • (A * B), ?_, ?_⟩
  · rw [multScalar_ok, ok_bind, mult_ok, Matrix.smul_mul]
  · rw [mult_ok, ok_bind, multScalar_ok]

/-- C04: `trans(A * B) == trans(B) * trans(A)`. -/
theorem C04_trans_mul {n m p : Nat} (A : Mat K n m) (B : Mat K m p) :
    ∃ R, (do trans (← opMul A B)) = .ok R ∧
      (do opMul (← trans B) (← trans A)) = .ok R := by
  unfold opMul
  refine ⟨(A * B).transpose, ?_, ?_⟩
  · rw [mult_ok, ok_bind, trans_ok]
  · rw [trans_ok, trans_ok, ok_bind, ok_bind, mult_ok, Matrix.transpose_mul]

end comm

example : opMul (!![1, 2; 3, 4] : Mat ℚ 2 2) !![5; 6] = .ok !![17; 39] := by decide +kernel
example : opMul (!![4294967295#32, 2#32] : Mat (BitVec 32) 1 2) !![2#32; 1#32] =
    .ok !![0#32] := by decide +kernel

/-! ## C20: signed integer products -/

section signedMul
variable {w n m p : Nat}

/-- C20: whenever `A * B` returns, every element is the exact integer dot product. -/
theorem C20_mul_value (hw : 2 ≤ w) (A : Mat (SInt w) n m) (B : Mat (SInt w) m p)
    (R : Mat (SInt w) n p) (h : opMul A B = .ok R) (a : Fin n) (b : Fin p) :
    (R a b).val = ∑ k, (A a k).val * (B k b).val :=
  (wp_ok_elim (wp_dot_signed hw A B a b) (((mult_elementwise A B).1 R).mp h a b)).1

/-- C20: `A * B` returns iff every product and every left-to-right partial sum fits. -/
theorem C20_mul_defined_iff (hw : 2 ≤ w) (A : Mat (SInt w) n m) (B : Mat (SInt w) m p) :
    (∃ R, opMul A B = .ok R) ↔ ∀ a b k,
      InRange w ((A a k).val * (B k b).val) ∧
      InRange w (∑ k' ∈ Finset.Iic k, (A a k').val * (B k' b).val) := by
  constructor
  · rintro ⟨R, hR⟩ a b
    exact (wp_ok_elim (wp_dot_signed hw A B a b) (((mult_elementwise A B).1 R).mp hR a b)).2
  · intro h
    cases hx : opMul A B with
    | ok R => exact ⟨R, rfl⟩
    | error e =>
      obtain ⟨a, b, hab, -⟩ := ((mult_elementwise A B).2 e).mp hx
      obtain ⟨-, k, hk⟩ := wp_error_elim (wp_dot_signed hw A B a b) hab
      exact absurd (h a b k) hk

/-- C20: the only possible fault is signed overflow. -/
theorem C20_mul_fault (hw : 2 ≤ w) (A : Mat (SInt w) n m) (B : Mat (SInt w) m p) (e : Stop)
    (h : opMul A B = .error e) : e = .ub .signedOverflow := by
  obtain ⟨a, b, hab, -⟩ := ((mult_elementwise A B).2 e).mp h
  exact (wp_error_elim (wp_dot_signed hw A B a b) hab).1

example : opMul (!![mkInt 2, mkInt (-3)] : Mat (SInt 32) 1 2) !![mkInt 5; mkInt 7] =
    .ok !![mkInt (-11)] := by decide +kernel
/-- Overflow of a partial sum although the full sum fits. -/
example : opMul (!![mkInt 2147483647, mkInt 1, mkInt (-1)] : Mat (SInt 32) 1 3)
    !![mkInt 1; mkInt 1; mkInt 1] = .error (.ub .signedOverflow) := by decide +kernel

end signedMul

/-! ## C21: Strassen -/

/-- C21: over any ring, commutative or not, `strassen(A,B) == A * B`. -/
theorem C21_strassen {K : Type} [Ring K] [CScalar K] [ExactRing K] [Inhabited K]
    (A B : Mat K 2 2) : ∃ R, strassen A B = .ok R ∧ opMul A B = .ok R := by
  refine ⟨A * B, ?_, mult_ok A B⟩
  apply wp_eq
  refine wp_mono (wp_strassen (RingSem.exact K) A B) ?_ (fun _ h => h)
  intro P hP
  simpa only [RingSem.exact_map] using hP

/-- C21: for signed integers, whenever both return, they agree. -/
theorem C21_strassen_signed {w : Nat} (hw : 2 ≤ w) (A B R S : Mat (SInt w) 2 2)
    (h1 : strassen A B = .ok R) (h2 : opMul A B = .ok S) : R = S := by
  have e1 := wp_ok_elim (wp_strassen (RingSem.signed w hw) A B) h1
  have e2 := wp_ok_elim (wp_mult (RingSem.signed w hw) A B) h2
  ext a b
  apply SInt.ext_val
  have := congrFun (congrFun (e1.trans e2.symm) a) b
  exact this

/-- C21: for signed integers `strassen` stops only with signed overflow. -/
theorem C21_strassen_signed_fault {w : Nat} (hw : 2 ≤ w) (A B : Mat (SInt w) 2 2) (e : Stop)
    (h : strassen A B = .error e) : e = .ub .signedOverflow := by
  have := wp_error_elim (wp_strassen (RingSem.signed w hw) A B) h
  exact this

/-- C21: `strassen` can overflow where `A * B` does not. -/
theorem C21_strassen_overflows :
    ∃ A B : Mat (SInt 32) 2 2, (∃ R, opMul A B = .ok R) ∧
      strassen A B = .error (.ub .signedOverflow) :=
  ⟨!![mkInt 2147483647, mkInt 1; mkInt 0, mkInt 0], !![mkInt 1, mkInt 0; mkInt 0, mkInt 0],
    ⟨!![mkInt 2147483647, mkInt 0; mkInt 0, mkInt 0], by decide +kernel⟩, by decide +kernel⟩

/-- Both products return, and agree, on small signed elements. -/
example : ∃ R : Mat (SInt 32) 2 2,
    strassen (.of fun a b => SInt.wrap (a.val + 2 * b.val))
      (.of fun a b => SInt.wrap (3 * a.val - b.val)) = .ok R ∧
    opMul (.of fun a b => SInt.wrap (a.val + 2 * b.val) : Mat (SInt 32) 2 2)
      (.of fun a b => SInt.wrap (3 * a.val - b.val)) = .ok R :=
  ⟨!![SInt.wrap 6, SInt.wrap 4; SInt.wrap 9, SInt.wrap 5], by decide +kernel, by decide +kernel⟩

/-! ## C22, C23: division in exact arithmetic -/

section field
variable {K : Type} [Field K] [CScalar K] [ExactField K] [Inhabited K] {i j : Nat}

theorem eq_zero_iff (s : K) : CScalar.eq s (ofInt 0) = true ↔ s = 0 := by
  rw [ExactRing.eq_iff, ExactRing.ofInt_eq, Int.cast_zero]

theorem div_ok (handled : Option Exc) (A : Mat K i j) {s : K} (hs : s ≠ 0) :
    div handled A s = .ok (.of fun a b => A a b / s) :=
  (div_elementwise handled A s (by
    rw [Bool.eq_false_iff]; exact fun h => hs ((eq_zero_iff s).mp h))).eq_ok
    fun _ _ => ExactField.div_eq _ _ hs

/-- C22 over a field: `A / s` for `s ≠ 0`. -/
theorem C22_div_field (handled : Option Exc) (A : Mat K i j) (s : K) (hs : s ≠ 0) :
    ∃ R, opDiv handled A s = .ok R ∧ ∀ a b, R a b = A a b / s :=
  ⟨_, div_ok handled A hs, fun _ _ => rfl⟩

/-- C22 over a field: `A / 0` never returns. -/
theorem C22_div_zero_field (handled : Option Exc) (A : Mat K i j) :
    opDiv handled A 0 = (match handled with
      | none => .error .terminates
      | some e => .error (.throws e)) := by
  have h : CScalar.eq (0 : K) (ofInt 0) = true := (eq_zero_iff 0).mpr rfl
  cases handled with
  | none => exact (C22_div_zero_terminates A 0 h).1
  | some e => exact (C22_div_zero_rethrows e A 0 h).1

/-- A divisor that is not zero and one that is. -/
example : CScalar.eq (2 : ℚ) (ofInt 0) = false ∧ CScalar.eq (0 : ℚ) (ofInt 0) = true ∧
    opDiv none (!![1, 2; 3, 4] : Mat ℚ 2 2) 2 = .ok !![1 / 2, 1; 3 / 2, 2] ∧
    opDiv none (!![1, 2; 3, 4] : Mat ℚ 2 2) 0 = .error .terminates := by
  refine ⟨?_, ?_, ?_, ?_⟩ <;> decide +kernel

/-- C23: `(A * s) / s == A` for `s ≠ 0`. -/
theorem C23_mul_div (handled : Option Exc) (A : Mat K i j) (s : K) (hs : s ≠ 0) :
    (do opDiv handled (← opMulScalar A s) s) = .ok A := by
  unfold opDiv opMulScalar
  rw [multScalar_ok', ok_bind, div_ok handled _ hs]
  congr 1
  ext a b
  simp only [Matrix.of_apply]
  exact mul_div_cancel_right₀ _ hs

/-- C23: `(A / s) * s == A` for `s ≠ 0`. -/
theorem C23_div_mul (handled : Option Exc) (A : Mat K i j) (s : K) (hs : s ≠ 0) :
    (do opMulScalar (← opDiv handled A s) s) = .ok A := by
  unfold opDiv opMulScalar
  rw [div_ok handled _ hs, ok_bind, multScalar_ok']
  congr 1
  ext a b
  simp only [Matrix.of_apply]
  exact div_mul_cancel₀ _ hs

end field

example : opDiv none (!![2, 4] : Mat ℚ 1 2) 2 = .ok !![1, 2] := by decide +kernel
example : opDiv none (!![2, 4] : Mat ℚ 1 2) 0 = .error .terminates := by decide +kernel
example : opDiv (some (.other 3)) (!![2, 4] : Mat ℚ 1 2) 0 = .error (.throws (.other 3)) := by
  decide +kernel

/-! ## C24: absolute values -/

section ordered
variable {K : Type} [Field K] [LinearOrder K] [IsStrictOrderedRing K] [CScalar K] [ExactOrdered K]
  [Inhabited K] {i j : Nat}

theorem abs_ok (A : Mat K i j) : abs A = .ok (A.map fun x => |x|) :=
  (abs_elementwise A).eq_ok fun _ _ => ExactOrdered.abs_eq _

/-- C24: over an ordered field `abs(A)` is elementwise `|x|`, so non-negative. -/
theorem C24_abs_ordered (A : Mat K i j) :
    ∃ R, abs A = .ok R ∧ (∀ a b, R a b = |A a b|) ∧ ∀ a b, 0 ≤ R a b :=
  ⟨_, abs_ok A, fun _ _ => rfl, fun _ _ => abs_nonneg _⟩

/-- C24: `abs` is idempotent. -/
theorem C24_abs_idem (A : Mat K i j) : (do abs (← abs A)) = abs A := by
  rw [abs_ok, ok_bind, abs_ok]
  congr 1
  ext a b
  simp

/-- C24: triangle inequality. -/
theorem C24_abs_triangle (A B : Mat K i j) :
    ∃ R S, (do abs (← opAdd A B)) = .ok R ∧ (do opAdd (← abs A) (← abs B)) = .ok S ∧
      ∀ a b, R a b ≤ S a b := by
  refine ⟨(A + B).map fun x => |x|, A.map (fun x => |x|) + B.map (fun x => |x|), ?_, ?_, ?_⟩
  · unfold opAdd; rw [sum_ok, ok_bind, abs_ok]
  · rw [abs_ok, abs_ok, ok_bind, ok_bind]; exact sum_ok _ _
  · intro a b; exact abs_add_le _ _

end ordered

/-- C24: for signed integers `abs(A)` returns iff no element is the minimum value. -/
theorem C24_abs_signed {w : Nat} {i j : Nat} (A : Mat (SInt w) i j) :
    (∃ R, abs A = .ok R) ↔ ∀ a b, (A a b).val ≠ -(2 ^ (w - 1) : Int) := by
  have key : ∀ x : SInt w, InRange w |x.val| ↔ x.val ≠ -(2 ^ (w - 1) : Int) := by
    intro x
    have hx := x.inRange
    have hp : (0 : Int) < 2 ^ (w - 1) := by positivity
    unfold InRange at *
    generalize (2 : Int) ^ (w - 1) = p at *
    rcases abs_cases x.val with ⟨h, h'⟩ | ⟨h, h'⟩ <;> omega
  constructor
  · rintro ⟨R, hR⟩ a b
    exact (key _).mp (wp_ok_elim (checked_iff _) (((C24_abs A).1 R).mp hR a b)).2
  · intro h
    refine ⟨.of fun a b => ⟨_, (key _).mpr (h a b)⟩, ((C24_abs A).1 _).mpr fun a b => ?_⟩
    show SInt.checked _ = _
    unfold SInt.checked
    rw [dif_pos ((key _).mpr (h a b))]; rfl

/-- C24: and stops only with signed overflow. -/
theorem C24_abs_signed_fault {w : Nat} {i j : Nat} (A : Mat (SInt w) i j) (e : Stop)
    (h : abs A = .error e) : e = .ub .signedOverflow := by
  obtain ⟨a, b, hab, -⟩ := ((C24_abs A).2 e).mp h
  exact (wp_error_elim (checked_iff _) hab).1

example : abs (!![-2, 4] : Mat ℚ 1 2) = .ok !![2, 4] := by decide +kernel
example : abs (!![mkInt (-2147483648)] : Mat (SInt 32) 1 1) = .error (.ub .signedOverflow) := by
  decide +kernel

end MatrixLibs
