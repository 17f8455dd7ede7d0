import Verif.Model.Bool
import Verif.Spec.Bool
import Verif.Proof.Narrow
import Verif.Proof.Det
import Verif.Proof.Inv
import Mathlib.Algebra.Field.ZMod
import Mathlib.Algebra.Field.TransferInstance
import Mathlib.Data.ZMod.Basic

/-!
# `bool` elements
-/

namespace MatrixLibs

set_option linter.unusedSectionVars false

open Promo (load store sqrtTo)
open CScalar (ofInt)

/-! ## Single operations -/

@[simp] theorem bool_lit_zero : (Promoted.lit 0 : Bool) = false := by decide
@[simp] theorem bool_lit_one : (Promoted.lit 1 : Bool) = true := by decide

theorem bool_load (b : Bool) : (load b : SInt 32).val = if b then 1 else 0 := by cases b <;> rfl

theorem bool_add (x y : Bool) :
    (do .ok (store (← CScalar.add (load x : SInt 32) (load y))) : Res Bool) = .ok (x || y) := by
  cases x <;> cases y <;> decide +kernel

theorem bool_sub (x y : Bool) :
    (do .ok (store (← CScalar.sub (load x : SInt 32) (load y))) : Res Bool) = .ok (x ^^ y) := by
  cases x <;> cases y <;> decide +kernel

theorem bool_mul (x y : Bool) :
    (do .ok (store (← CScalar.mul (load x : SInt 32) (load y))) : Res Bool) = .ok (x && y) := by
  cases x <;> cases y <;> decide +kernel

theorem bool_abs (x : Bool) :
    (do .ok (store (← CScalar.abs (load x : SInt 32))) : Res Bool) = .ok x := by
  cases x <;> decide +kernel

theorem bool_div_true (x : Bool) :
    (do .ok (store (← CScalar.div (load x : SInt 32) (load true))) : Res Bool) = .ok x := by
  cases x <;> decide +kernel

theorem bool_mulAdd (s x y : Bool) :
    (do
      let t ← CScalar.mul (load x : SInt 32) (load y)
      .ok (store (← CScalar.add (load s : SInt 32) t)) : Res Bool) = .ok (s || (x && y)) := by
  cases s <;> cases x <;> cases y <;> decide +kernel

/-! ## Product -/

theorem bool_dot {n m p : Nat} (A : Mat Bool n m) (B : Mat Bool m p) (a : Fin n) (b : Fin p) :
    Promoted.dotFrom A B (Promoted.lit 0) a b = .ok (decide (∃ k, A a k = true ∧ B k b = true)) := by
  apply wp_eq
  unfold Promoted.dotFrom
  refine wp_forUp (fun K acc => acc = decide (∃ k : Fin m, k.val < K ∧ A a k = true ∧ B k b = true))
    (Nat.zero_le m) ?_ ?_ ?_
  · simp
  · intro K acc _ hK hacc
    rw [show K = (⟨K, hK⟩ : Fin m).val from rfl, rd_fin, rd_fin, ok_bind, ok_bind, bool_mulAdd, wp_ok, hacc]
    rw [Bool.eq_iff_iff]
    simp only [Bool.or_eq_true, Bool.and_eq_true, decide_eq_true_eq]
    constructor
    · rintro (⟨k, hk, h⟩ | h)
      · exact ⟨k, by omega, h⟩
      · exact ⟨⟨K, hK⟩, by simp, h⟩
    · rintro ⟨k, hk, h⟩
      rcases Nat.lt_succ_iff_lt_or_eq.mp hk with hk | hk
      · exact .inl ⟨k, hk, h⟩
      · obtain rfl : k = ⟨K, hK⟩ := Fin.ext hk
        exact .inr h
  · intro acc hacc
    rw [hacc]
    simp

/-- The Boolean matrix product. -/
def boolMul {n m p : Nat} (A : Mat Bool n m) (B : Mat Bool m p) : Mat Bool n p :=
  .of fun a b => decide (∃ k, A a k = true ∧ B k b = true)

theorem boolMul_iff {n m p : Nat} (A : Mat Bool n m) (B : Mat Bool m p) (a : Fin n) (b : Fin p) :
    boolMul A B a b = true ↔ ∃ k, A a k = true ∧ B k b = true := by
  simp [boolMul]

theorem bool_mult {n m p : Nat} (A : Mat Bool n m) (B : Mat Bool m p) :
    Promoted.mult A B = .ok (boolMul A B) :=
  ((Promoted.mult_elementwise A B).1 _).mpr fun a b => bool_dot A B a b

theorem boolMul_assoc {n m p q : Nat} (A : Mat Bool n m) (B : Mat Bool m p) (C : Mat Bool p q) :
    boolMul (boolMul A B) C = boolMul A (boolMul B C) := by
  ext a b
  rw [Bool.eq_iff_iff]
  simp only [boolMul_iff]
  constructor
  · rintro ⟨k, ⟨l, h1, h2⟩, h3⟩
    exact ⟨l, h1, k, h2, h3⟩
  · rintro ⟨l, h1, k, h2, h3⟩
    exact ⟨k, ⟨l, h1, h2⟩, h3⟩

/-! ## Determinant: the field with two elements on `bool` -/

/-- `false` is 0, `true` is 1. -/
def boolEquiv : Bool ≃ ZMod 2 where
  toFun b := if b then 1 else 0
  invFun x := decide (x = 1)
  left_inv b := by cases b <;> decide
  right_inv x := by revert x; decide

instance : Fact (Nat.Prime 2) := ⟨Nat.prime_two⟩

/-- `bool` as the field with two elements. -/
@[reducible] noncomputable def boolField : Field Bool := boolEquiv.field

attribute [local instance] boolField

/-- Its operations. -/
@[reducible] noncomputable def boolScalar : CScalar Bool := fieldScalar Bool

theorem bf_add (x y : Bool) : (x + y : Bool) = (x ^^ y) := by
  show boolEquiv.symm (boolEquiv x + boolEquiv y) = _
  cases x <;> cases y <;> decide +kernel

theorem bf_mul (x y : Bool) : (x * y : Bool) = (x && y) := by
  show boolEquiv.symm (boolEquiv x * boolEquiv y) = _
  cases x <;> cases y <;> decide +kernel

theorem bf_sub (x y : Bool) : (x - y : Bool) = (x ^^ y) := by
  show boolEquiv.symm (boolEquiv x - boolEquiv y) = _
  cases x <;> cases y <;> decide +kernel

theorem bf_zero : (0 : Bool) = false := by
  show boolEquiv.symm 0 = _
  decide +kernel

theorem bf_one : (1 : Bool) = true := by
  show boolEquiv.symm 1 = _
  decide +kernel

theorem bf_div_true (x : Bool) : (x / true : Bool) = x := by
  rw [← bf_one, div_one]

section
attribute [local instance] boolScalar
variable {n : Nat}

theorem gf_sub (x y : Bool) : CScalar.sub x y = .ok (x ^^ y) := by
  show Except.ok (x - y) = _
  rw [bf_sub]

theorem gf_mul (x y : Bool) : CScalar.mul x y = .ok (x && y) := by
  show Except.ok (x * y) = _
  rw [bf_mul]

theorem gf_div_true (x : Bool) : CScalar.div x true = .ok x := by
  show (if true = (0 : Bool) then _ else _) = _
  rw [bf_zero, if_neg (by decide), bf_div_true]

theorem gf_div_false (x : Bool) : CScalar.div x false = .error (.ub .divisionByZero) := by
  show (if false = (0 : Bool) then _ else _) = _
  rw [bf_zero, if_pos rfl]

theorem gf_one : (ofInt 1 : Bool) = true := by
  show ((1 : ℤ) : Bool) = true
  rw [Int.cast_one, bf_one]

theorem gf_zero : (ofInt 0 : Bool) = false := by
  show ((0 : ℤ) : Bool) = false
  rw [Int.cast_zero, bf_zero]

theorem gf_neg_one : (ofInt (-1) : Bool) = true := by
  show ((-1 : ℤ) : Bool) = true
  rw [Int.cast_neg, Int.cast_one]
  have h : (-1 : Bool) = 0 - 1 := by ring
  rw [h, bf_sub, bf_zero, bf_one]
  rfl

theorem gf_eq_zero (x : Bool) : CScalar.eq x (ofInt 0) = !x := by
  rw [gf_zero]
  cases x <;> rfl

theorem bool_eq_zero (x : Bool) : CScalar.eq (load x : SInt 32) (ofInt 0) = !x := by
  cases x <;> decide +kernel

theorem bool_detProd (A : Mat Bool n n) (f : Bool) : Promoted.detProd A f = MatrixLibs.detProd A f := by
  unfold Promoted.detProd MatrixLibs.detProd
  have h : ∀ i (prod : Bool), (do .ok (store (← CScalar.mul (load prod : SInt 32) (load (← rd A i i)))) : Res Bool) =
      (do CScalar.mul prod (← rd A i i)) := by
    intro i prod
    cases rd A i i with
    | error e => rfl
    | ok x => rw [ok_bind, ok_bind, bool_mul, gf_mul]
  simp only [h, bool_lit_one, gf_one]
  congr 1
  funext x
  cases f
  · rw [gf_div_false]
    cases x <;> decide +kernel
  · rw [gf_div_true, bool_div_true]

theorem bool_detSearch (A : Mat Bool n n) (r : Nat) (fuel : Nat) :
    ∀ i pivot, Promoted.detSearch A r fuel i pivot = MatrixLibs.detSearch A r fuel i pivot := by
  induction fuel with
  | zero => intro i pivot; rfl
  | succ k ih =>
    intro i pivot
    simp only [Promoted.detSearch, MatrixLibs.detSearch, ih, bool_eq_zero, gf_eq_zero]

theorem bool_elim (v x y a : Bool) :
    (do
      let q ← CScalar.div (← CScalar.mul (load v : SInt 32) (load x)) (load y)
      .ok (store (← CScalar.sub (load a) q)) : Res Bool) = (do
      let q ← CScalar.div (← CScalar.mul v x) y
      CScalar.sub a q) := by
  rw [gf_mul, ok_bind]
  cases y
  · rw [gf_div_false, error_bind]
    cases v <;> cases x <;> cases a <;> decide +kernel
  · rw [gf_div_true, ok_bind, gf_sub]
    cases v <;> cases x <;> cases a <;> decide +kernel

theorem bool_detEliminate (A : Mat Bool n n) (r pivot : Nat) :
    Promoted.detEliminate A r pivot = MatrixLibs.detEliminate A r pivot := by
  unfold Promoted.detEliminate MatrixLibs.detEliminate
  refine forUp_congr (fun i S _ _ => ?_)
  split
  · congr 1
    funext v
    refine forUp_congr (fun j S _ _ => ?_)
    cases h1 : rd S r j with
    | error e => rfl
    | ok x =>
      cases h2 : rd S r pivot with
      | error e =>
        simp only [ok_bind, error_bind, gf_mul]
        cases v <;> cases x <;> rfl
      | ok y =>
        cases h3 : rd S i j with
        | error e =>
          simp only [ok_bind, error_bind, gf_mul]
          cases y
          · rw [gf_div_false, error_bind]
            cases v <;> cases x <;> rfl
          · rw [gf_div_true, ok_bind]
            cases v <;> cases x <;> rfl
        | ok a =>
          have := congrArg (fun z => z >>= fun b => wr S i j b) (bool_elim v x y a)
          simp only [bind_assoc, ok_bind] at this ⊢
          exact this
  · rfl

theorem bool_detSwap (A : Mat Bool n n) (f : Bool) (i r : Nat) :
    Promoted.detSwap A f i r = MatrixLibs.detSwap A f i r := by
  unfold Promoted.detSwap MatrixLibs.detSwap
  split
  · congr 1
    funext B
    rw [gf_neg_one, gf_mul, ok_bind]
    cases f <;> rfl
  · rfl

theorem bool_detStep (r : Nat) (s : DetState Bool n) : Promoted.detStep r s = MatrixLibs.detStep r s := by
  simp only [Promoted.detStep, MatrixLibs.detStep, bool_detProd, bool_detSearch, bool_detSwap, bool_detEliminate]
  rfl

theorem bool_detN (A : Mat Bool n n) : Promoted.detN A = MatrixLibs.detN A := by
  have h : (Promoted.detStep : Nat → DetState Bool n → _) = MatrixLibs.detStep := by
    funext r s; exact bool_detStep r s
  simp only [Promoted.detN, MatrixLibs.detN, bool_detProd, h, bool_lit_one, gf_one]
  rfl

end

end MatrixLibs
