import Verif.Props.BoolArith
import Mathlib.LinearAlgebra.Matrix.Determinant.Basic
import Mathlib.LinearAlgebra.Matrix.NonsingularInverse

/-!
# Properties C117 and C118: determinants and inverses of `bool` matrices
-/

namespace MatrixLibs

set_option linter.unusedSectionVars false

open Promo (load store)
open CScalar (ofInt)

variable {n : Nat}

/-! ## C117 -/

theorem bits_apply {r c : Nat} (A : Mat Bool r c) (a : Fin r) (b : Fin c) : bits A a b = if A a b then 1 else 0 := rfl

section field
attribute [local instance] boolField boolScalar

/-- `bool` with exclusive or and conjunction is the field with two elements. -/
noncomputable def boolRing : Bool ≃+* ZMod 2 := boolEquiv.ringEquiv

theorem boolRing_apply (x : Bool) : boolRing x = ((if x then 1 else 0 : ℤ) : ZMod 2) := by
  show boolEquiv x = _
  cases x <;> rfl

theorem bits_zmod {r c : Nat} (A : Mat Bool r c) : (bits A).map (Int.cast : ℤ → ZMod 2) = A.map boolRing := by
  ext a b
  rw [Matrix.map_apply, Matrix.map_apply, boolRing_apply]
  rfl

theorem odd_iff_zmod (z : ℤ) : Odd z ↔ (z : ZMod 2) ≠ 0 := by
  rw [← Int.not_even_iff_odd, even_iff_two_dvd, ne_eq, ZMod.intCast_zmod_eq_zero_iff_dvd]
  rfl

theorem det_zmod (A : Mat Bool n n) : (((bits A).det : ℤ) : ZMod 2) = boolRing A.det := by
  have h := RingHom.map_det (Int.castRingHom (ZMod 2)) (bits A)
  have h' := RingHom.map_det (boolRing : Bool →+* ZMod 2) A
  have e : (Int.castRingHom (ZMod 2)).mapMatrix (bits A) = (boolRing : Bool →+* ZMod 2).mapMatrix A := bits_zmod A
  rw [e] at h
  exact h.trans h'.symm

theorem boolRing_ne_zero (x : Bool) : boolRing x ≠ 0 ↔ x = true := by
  rw [Ne, map_eq_zero_iff boolRing boolRing.injective, bf_zero]
  simp

theorem det_odd (A : Mat Bool n n) : Odd (bits A).det ↔ A.det = true := by
  rw [odd_iff_zmod, det_zmod, boolRing_ne_zero]

/-- The elimination works in the field with two elements. -/
theorem bool_detN_value (A : Mat Bool n n) : Promoted.detN A = .ok (decide (Odd (bits A).det)) := by
  have := fieldScalar_exact Bool
  rw [bool_detN, detN_ok]
  congr 1
  rw [Bool.eq_iff_iff, decide_eq_true_iff, det_odd]

end field

/-- C117: for `n ≥ 4` (and `n = 0`) `det(A)` is true exactly if the determinant of the matrix of zeros and ones is
odd. -/
theorem C117_det_large (A : Mat Bool n n) (hn : n = 0 ∨ 4 ≤ n) :
    Promoted.det A = .ok (decide (Odd (bits A).det)) := by
  match n, A, hn with
  | 0, A, _ => exact bool_detN_value A
  | 1, _, h => omega
  | 2, _, h => omega
  | 3, _, h => omega
  | _ + 4, A, _ => exact bool_detN_value A

/-- C117: for `1 ≤ n ≤ 3` it is true exactly if that determinant is not zero. -/
theorem C117_det_small (A : Mat Bool n n) (h1 : 1 ≤ n) (h3 : n ≤ 3) :
    Promoted.det A = .ok (decide ((bits A).det ≠ 0)) := by
  match n, A, h1, h3 with
  | 1, A, _, _ =>
    show rd A 0 0 = _
    rw [rd_eq (by omega) (by omega), Matrix.det_fin_one, bits_apply]
    congr 1
    show A 0 0 = _
    cases A 0 0 <;> decide
  | 2, A, _, _ =>
    show Promoted.det2 A = _
    have key : ∀ a b c d : Bool, (do
        let t ← CScalar.sub (← CScalar.mul (load a : SInt 32) (load d)) (← CScalar.mul (load b : SInt 32) (load c))
        .ok (store t) : Res Bool) = .ok (decide ((if a then 1 else 0 : ℤ) * (if d then 1 else 0) -
          (if b then 1 else 0) * (if c then 1 else 0) ≠ 0)) := by decide +kernel
    have h := key (A 0 0) (A 0 1) (A 1 0) (A 1 1)
    rw [Matrix.det_fin_two]
    exact h
  | 3, A, _, _ =>
    show Promoted.det3 A = _
    have key : ∀ a b c d e f g h i : Bool, (do
        let t ← CScalar.mul (← CScalar.mul (load a : SInt 32) (load e)) (load i)
        let t ← CScalar.add t (← CScalar.mul (← CScalar.mul (load b : SInt 32) (load f)) (load g))
        let t ← CScalar.add t (← CScalar.mul (← CScalar.mul (load c : SInt 32) (load d)) (load h))
        let t ← CScalar.sub t (← CScalar.mul (← CScalar.mul (load c : SInt 32) (load e)) (load g))
        let t ← CScalar.sub t (← CScalar.mul (← CScalar.mul (load b : SInt 32) (load d)) (load i))
        let t ← CScalar.sub t (← CScalar.mul (← CScalar.mul (load a : SInt 32) (load f)) (load h))
        .ok (store t) : Res Bool) = .ok (decide ((if a then 1 else 0 : ℤ) * (if e then 1 else 0) * (if i then 1 else 0)
          - (if a then 1 else 0) * (if f then 1 else 0) * (if h then 1 else 0)
          - (if b then 1 else 0) * (if d then 1 else 0) * (if i then 1 else 0)
          + (if b then 1 else 0) * (if f then 1 else 0) * (if g then 1 else 0)
          + (if c then 1 else 0) * (if d then 1 else 0) * (if h then 1 else 0)
          - (if c then 1 else 0) * (if e then 1 else 0) * (if g then 1 else 0) ≠ 0)) := by decide +kernel
    have h := key (A 0 0) (A 0 1) (A 0 2) (A 1 0) (A 1 1) (A 1 2) (A 2 0) (A 2 1) (A 2 2)
    rw [Matrix.det_fin_three]
    exact h

/-- C117: `det` of `bool` matrices always returns. -/
theorem C117_det_returns (A : Mat Bool n n) : ∃ d, Promoted.det A = .ok d := by
  rcases (show (n = 0 ∨ 4 ≤ n) ∨ 1 ≤ n ∧ n ≤ 3 by omega) with h | h
  · exact ⟨_, C117_det_large A h⟩
  · exact ⟨_, C117_det_small A h.1 h.2⟩

/-- C117: the two rules differ: adding a row and a column of the identity changes the answer. -/
theorem C117_rules_differ : ∃ (A : Mat Bool 3 3) (B : Mat Bool 4 4), (bits B).det = (bits A).det ∧
    (∀ a b : Fin 3, B a.castSucc b.castSucc = A a b) ∧ Promoted.det A = .ok true ∧ Promoted.det B = .ok false := by
  refine ⟨!![true, true, false; false, true, true; true, false, true],
    !![true, true, false, false; false, true, true, false; true, false, true, false; false, false, false, true],
    ?_, ?_, ?_, ?_⟩
  · decide +kernel
  · intro a b
    fin_cases a <;> fin_cases b <;> rfl
  · decide +kernel
  · decide +kernel

/-! ## C118 -/

theorem bits_submatrix {r c r' c' : Nat} (A : Mat Bool r c) (f : Fin r' → Fin r) (g : Fin c' → Fin c) :
    bits (A.submatrix f g) = (bits A).submatrix f g := rfl

/-- The general `inv` returns, where the rule for minors is `ψ`, the adjugate tested with `ψ`. -/
theorem bool_invN {m : Nat} (handled : Option Exc) (A : Mat Bool (m + 1) (m + 1)) (ψ : ℤ → Prop) [DecidablePred ψ]
    (hψ : ∀ x, ψ (-x) ↔ ψ x) (hm : ∀ M : Mat Bool m m, Promoted.det M = .ok (decide (ψ (bits M).det)))
    (d : Bool) (hd : Promoted.det A = .ok d) :
    Promoted.invN handled A = if d then .ok (.of fun a b => decide (ψ ((bits A).adjugate a b)))
      else bareThrow handled := by
  unfold Promoted.invN
  rw [hd, ok_bind]
  have hloop : (forUp 0 (m + 1) (valueInit (m + 1) (m + 1)) fun i invA =>
      forUp 0 (m + 1) invA fun j invA => do
        let d ← Promoted.det (← getminor A i j)
        wr invA i j (store (← CScalar.mul (ofInt (if (i + j) % 2 ≠ 0 then -1 else 1)) (load d : SInt 32)))) =
      .ok (.of fun a b => decide (ψ ((bits A).adjugate b a))) := by
    have hassoc : (fun (i : Nat) (invA : Mat Bool (m + 1) (m + 1)) =>
      forUp 0 (m + 1) invA fun j invA => do
        let d ← Promoted.det (← getminor A i j)
        wr invA i j (store (← CScalar.mul (ofInt (if (i + j) % 2 ≠ 0 then -1 else 1)) (load d : SInt 32)))) =
      (fun (i : Nat) (invA : Mat Bool (m + 1) (m + 1)) =>
      forUp 0 (m + 1) invA fun j invA => do
        wr invA i j (← (do
          let d ← Promoted.det (← getminor A i j)
          .ok (store (← CScalar.mul (ofInt (if (i + j) % 2 ≠ 0 then -1 else 1)) (load d : SInt 32)))))) := by
      funext i invA
      congr 1
      funext j invA
      simp only [bind_assoc, ok_bind]
    rw [hassoc]
    refine fill_eq (g := fun i j => (do
          let d ← Promoted.det (← getminor A i j)
          .ok (store (← CScalar.mul (ofInt (if (i + j) % 2 ≠ 0 then -1 else 1)) (load d : SInt 32))))) _ ?_
    intro a b
    rw [getminor_ok, ok_bind, hm, ok_bind, Matrix.of_apply, Matrix.adjugate_fin_succ_eq_det_submatrix, bits_submatrix]
    generalize ((bits A).submatrix a.succAbove b.succAbove).det = D
    have e : ∀ (c : Prop) [Decidable c] (x : Bool),
        (do .ok (store (← CScalar.mul (ofInt (if c then -1 else 1)) (load x : SInt 32))) : Res Bool) = .ok x := by
      intro c _ x
      by_cases h : c
      · rw [if_pos h]; cases x <;> decide +kernel
      · rw [if_neg h]; cases x <;> decide +kernel
    rw [e]
    congr 1
    rw [Bool.eq_iff_iff, decide_eq_true_iff, decide_eq_true_iff]
    rcases Nat.even_or_odd (a.val + b.val) with h | h
    · rw [h.neg_one_pow, one_mul]
    · rw [h.neg_one_pow, neg_one_mul, hψ]
  rw [hloop, ok_bind, trans_ok, ok_bind]
  cases d with
  | false =>
    rw [if_neg (by decide)]
    unfold Promoted.div
    rw [if_pos (by decide +kernel)]
  | true =>
    rw [if_pos rfl, (C115_div handled _).1]
    rfl

theorem odd_neg_iff (x : ℤ) : Odd (-x) ↔ Odd x := by rw [← Int.not_even_iff_odd, even_neg, Int.not_even_iff_odd]

theorem ne_neg_iff (x : ℤ) : -x ≠ 0 ↔ x ≠ 0 := by rw [Ne, neg_eq_zero]

/-- What `inv` does with a `4 × 4` matrix. -/
theorem C118_inv4 (handled : Option Exc) (A : Mat Bool 4 4) :
    Promoted.invN handled A = if Odd (bits A).det then .ok (.of fun a b => decide ((bits A).adjugate a b ≠ 0))
      else bareThrow handled := by
  rw [bool_invN (m := 3) handled A (fun x => x ≠ 0) ne_neg_iff (fun M => C117_det_small M (by omega) le_rfl) _
    (C117_det_large A (.inr le_rfl))]
  simp only [decide_eq_true_eq]

/-- What `inv` does with a larger matrix. -/
theorem C118_inv_adjugate (handled : Option Exc) (hn : 5 ≤ n) (A : Mat Bool n n) :
    Promoted.invN handled A = if Odd (bits A).det then .ok (.of fun a b => decide (Odd ((bits A).adjugate a b)))
      else bareThrow handled := by
  obtain ⟨m, rfl⟩ : ∃ m, n = m + 1 := ⟨n - 1, by omega⟩
  rw [bool_invN handled A Odd odd_neg_iff (fun M => C117_det_large M (.inr (by omega))) _
    (C117_det_large A (.inr (by omega)))]
  simp only [decide_eq_true_eq]

theorem odd_cast_eq (z : ℤ) : ((if decide (Odd z) then 1 else 0 : ℤ) : ZMod 2) = (z : ZMod 2) := by
  by_cases h : Odd z
  · rw [decide_eq_true h, if_pos rfl, Int.cast_one]
    have h1 := (odd_iff_zmod z).mp h
    generalize (z : ZMod 2) = x at h1 ⊢
    revert x
    decide
  · rw [decide_eq_false h, if_neg (by decide), Int.cast_zero]
    have h1 := mt (odd_iff_zmod z).mpr h
    rw [not_not] at h1
    exact h1.symm

/-- C118 (partial: `n ≥ 5`): `inv(A)` is the inverse modulo 2: if the determinant of the matrix of zeros and ones is odd,
the elements of both products are odd exactly on the diagonal. -/
theorem C118_inv_partial (handled : Option Exc) (hn : 5 ≤ n) (A : Mat Bool n n) (hd : Odd (bits A).det) :
    ∃ B, Promoted.invN handled A = .ok B ∧ ∀ a b, (Odd ((bits A * bits B) a b) ↔ a = b) ∧
      (Odd ((bits B * bits A) a b) ↔ a = b) := by
  refine ⟨_, (C118_inv_adjugate handled hn A).trans (if_pos hd), fun a b => ?_⟩
  set B : Mat Bool n n := .of fun a b => decide (Odd ((bits A).adjugate a b)) with hB
  have hmap : (bits B).map (Int.cast : ℤ → ZMod 2) = (bits A).adjugate.map (Int.cast : ℤ → ZMod 2) := by
    ext a b
    exact odd_cast_eq _
  have hdet : (((bits A).det : ℤ) : ZMod 2) = 1 := by
    have h1 := (odd_iff_zmod _).mp hd
    generalize (((bits A).det : ℤ) : ZMod 2) = x at h1 ⊢
    revert x
    decide
  have hcast : ∀ X Y : Matrix (Fin n) (Fin n) ℤ, (X * Y).map (Int.cast : ℤ → ZMod 2) =
      X.map Int.cast * Y.map Int.cast := fun X Y => Matrix.map_mul (f := Int.castRingHom (ZMod 2))
  have hone : ∀ a b : Fin n, (((((bits A).det • (1 : Matrix (Fin n) (Fin n) ℤ)) a b : ℤ) : ZMod 2) ≠ 0) ↔ a = b := by
    intro a b
    rw [Matrix.smul_apply, smul_eq_mul, Int.cast_mul, hdet, one_mul]
    by_cases h : a = b
    · rw [h, Matrix.one_apply_eq]
      simp
    · rw [Matrix.one_apply_ne h]
      simp [h]
  have h1 : ((bits A * bits B).map (Int.cast : ℤ → ZMod 2)) =
      ((bits A).det • (1 : Matrix (Fin n) (Fin n) ℤ)).map Int.cast := by
    rw [hcast, hmap, ← hcast, Matrix.mul_adjugate]
  have h2 : ((bits B * bits A).map (Int.cast : ℤ → ZMod 2)) =
      ((bits A).det • (1 : Matrix (Fin n) (Fin n) ℤ)).map Int.cast := by
    rw [hcast, hmap, ← hcast, Matrix.adjugate_mul]
  rw [odd_iff_zmod, odd_iff_zmod]
  have e1 := congrFun (congrFun h1 a) b
  have e2 := congrFun (congrFun h2 a) b
  rw [Matrix.map_apply, Matrix.map_apply] at e1 e2
  rw [e1, e2]
  exact ⟨hone a b, hone a b⟩

/-- C118: if that determinant is even, `inv` ends in the bare `throw`. -/
theorem C118_inv_even (handled : Option Exc) (hn : 4 ≤ n) (A : Mat Bool n n) (hd : Even (bits A).det) :
    Promoted.invN handled A = match handled with
      | some e => .error (.throws e)
      | none => .error .terminates := by
  have h0 : ¬ Odd (bits A).det := Int.not_odd_iff_even.mpr hd
  have hb : bareThrow handled = (match handled with
      | some e => .error (.throws e)
      | none => .error .terminates : Res (Mat Bool n n)) := by cases handled <;> rfl
  rw [← hb]
  rcases Nat.lt_or_ge 4 n with h | h
  · rw [C118_inv_adjugate handled h A, if_neg h0]
  · obtain rfl : n = 4 := by omega
    rw [C118_inv4, if_neg h0]

/-- C118 is false for `n = 4`: the minors are tested for zero, the determinant for oddness, and the product with what
`inv` returns is not the identity, neither modulo 2 nor with the library's `*`. -/
theorem C118_inv4_wrong : ∃ A B : Mat Bool 4 4, Odd (bits A).det ∧ Promoted.invN none A = .ok B ∧
    Odd ((bits A * bits B) 3 0) ∧ Promoted.mult A B ≠ Promoted.eye1 4 := by
  refine ⟨!![false, false, false, true; false, false, true, true; false, true, false, true; true, true, true, false],
    !![true, true, true, true; true, false, true, false; true, true, false, false; true, false, false, false],
    ?_, ?_, ?_, ?_⟩
  · decide +kernel
  · decide +kernel
  · decide +kernel
  · decide +kernel

/-- C118: with the library's own `*`, the result of `inv` is an inverse for permutation matrices only. -/
theorem C118_product (handled : Option Exc) (hn : 4 ≤ n) (A : Mat Bool n n) :
    (∃ B, Promoted.invN handled A = .ok B ∧ Promoted.mult A B = Promoted.eye1 n) ↔ IsPermutation A := by
  constructor
  · rintro ⟨B, -, h⟩
    exact (C116_units A).mp ⟨B, h⟩
  · rintro ⟨σ, hσ⟩
    have hA : ∀ a b, bits A a b = if b = σ a then 1 else 0 := by
      intro a b
      rw [bits_apply]
      by_cases h : b = σ a
      · rw [(hσ a b).mpr h, if_pos rfl, if_pos h]
      · rw [if_neg (mt (hσ a b).mp h), if_neg h]
    have hmul : bits A * (bits A).transpose = 1 := by
      ext a b
      rw [Matrix.mul_apply, Finset.sum_eq_single (σ a)]
      · rw [Matrix.transpose_apply, hA, hA, if_pos rfl, one_mul]
        by_cases h : a = b
        · rw [h, if_pos rfl, Matrix.one_apply_eq]
        · rw [if_neg (fun h' => h (σ.injective h')), Matrix.one_apply_ne h]
      · intro k _ hk
        rw [hA, if_neg hk, zero_mul]
      · simp
    have hadj : (bits A).adjugate = (bits A).det • (bits A).transpose := by
      have := congrArg ((bits A).adjugate * ·) hmul
      simp only [← Matrix.mul_assoc, Matrix.adjugate_mul, Matrix.mul_one, Matrix.smul_mul, Matrix.one_mul] at this
      exact this.symm
    have hdet : (bits A).det * (bits A).det = 1 := by
      have := congrArg Matrix.det hmul
      rwa [Matrix.det_mul, Matrix.det_transpose, Matrix.det_one] at this
    have hsign : (bits A).det = 1 ∨ (bits A).det = -1 := Int.eq_one_or_neg_one_of_mul_eq_one hdet
    have hodd : Odd (bits A).det := by
      rcases hsign with h | h <;> rw [h] <;> decide
    have hval : ∀ a b, (bits A).adjugate a b = (bits A).det * (if A b a then 1 else 0) := by
      intro a b
      rw [hadj]
      rfl
    have hinv : Promoted.invN handled A = .ok A.transpose := by
      rcases Nat.lt_or_ge 4 n with h | h
      · rw [C118_inv_adjugate handled h A, if_pos hodd]
        congr 1
        ext a b
        rw [Bool.eq_iff_iff, Matrix.of_apply, decide_eq_true_iff, hval, Matrix.transpose_apply]
        cases A b a with
        | false => simp
        | true => simp [hodd]
      · obtain rfl : n = 4 := by omega
        rw [C118_inv4, if_pos hodd]
        congr 1
        ext a b
        rw [Bool.eq_iff_iff, Matrix.of_apply, decide_eq_true_iff, hval, Matrix.transpose_apply]
        cases A b a with
        | false => simp
        | true => rcases hsign with h | h <;> simp [h]
    refine ⟨_, hinv, ?_⟩
    rw [bool_mult, (C115_contents (i := n) (j := n)).2.2]
    congr 1
    ext a b
    rw [Bool.eq_iff_iff, boolMul_iff, Matrix.of_apply, decide_eq_true_iff]
    simp only [Matrix.transpose_apply, hσ]
    constructor
    · rintro ⟨k, rfl, h⟩
      exact σ.injective h
    · rintro rfl
      exact ⟨_, rfl, rfl⟩

/-- A triangular matrix: the determinant is 1, the inverse modulo 2 is found, and it is not the inverse for `*`. -/
example : Odd (bits (.of fun a b => decide (a ≤ b) : Mat Bool 5 5)).det ∧
    Promoted.invN none (.of fun a b => decide (a ≤ b) : Mat Bool 5 5) =
      .ok (.of fun a b => decide (a = b) || decide (b.val = a.val + 1)) := by
  constructor
  · decide +kernel
  · decide +kernel

end MatrixLibs
