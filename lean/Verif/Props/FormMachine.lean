import Verif.Proof.TriInst
import Verif.Proof.IntSqrt
import Verif.Spec.FormEnv
import Verif.Spec.Form
import Verif.Props.Env
import Mathlib.Algebra.BigOperators.Fin
import Mathlib.Algebra.Order.BigOperators.Ring.Finset

/-!
# Property C153: matrices of special form in machine arithmetic

Triangular, diagonal and permutation matrices whose elements are integers or floating point numbers.
-/

namespace MatrixLibs

set_option linter.unusedSectionVars false
set_option exponentiation.threshold 300

open CScalar (ofInt)

variable {n m : Nat}

/-! ## Signed integers -/

section signed
variable {w : Nat} (hw : 2 ≤ w)
include hw

theorem kept_signed {a b : SInt w} (h : Kept a b) : b = a := by
  rcases h with h | ⟨h1, h2⟩
  · exact h
  · exact SInt.ext_val (by rw [sint_zeroish.mp h1, sint_zeroish.mp h2])

omit hw in
theorem checked_ok_val {k : ℤ} {d : SInt w} (h : (SInt.checked k : Res (SInt w)) = .ok d) : d.val = k := by
  unfold SInt.checked at h
  split at h
  · injection h with h; rw [← h]
  · cases h

omit hw in
theorem checked_ok' {k : ℤ} (h : InRange w k) : (SInt.checked k : Res (SInt w)) = .ok ⟨k, h⟩ := by
  unfold SInt.checked
  rw [dif_pos h]

omit hw in
theorem inRange_of_abs {k : ℤ} (h : |k| < 2 ^ (w - 1)) : InRange w k := by
  rw [abs_lt] at h
  exact ⟨h.1.le, h.2⟩

omit hw in
/-- The diagonal, with ones after its end. -/
theorem diag_range (d : Fin n → ℤ) : ∏ i ∈ Finset.range n, (if h : i < n then d ⟨i, h⟩ else 1) = ∏ i, d i := by
  rw [Finset.prod_range]
  exact Finset.prod_congr rfl fun i _ => dif_pos i.isLt

/-- C153: the determinant of an upper triangular matrix of signed integers, without zeros on the diagonal: if a value is
returned, it is the product of the diagonal; it is returned if the product fits (in magnitude); signed overflow is the only other
outcome, and the outcome if the product does not fit. -/
theorem C153_det_signed (hn : 4 ≤ n) (A : Mat (SInt w) n n) (hA : ∀ i j, j < i → (A i j).val = 0) (hd : ∀ i, (A i i).val ≠ 0) :
    (∀ d, det A = .ok d → d.val = ∏ i, (A i i).val) ∧
    (|∏ i, (A i i).val| < 2 ^ (w - 1) → ∃ d, det A = .ok d) ∧
    (∀ s, det A = .error s → s = .ub .signedOverflow) ∧
    (¬ InRange w (∏ i, (A i i).val) → det A = .error (.ub .signedOverflow)) := by
  have Z := zeroArith_signed hw
  have e1 : det A = detN A := by
    match n, hn with
    | n + 4, _ => rfl
  have e2 : detN A = detProd A (ofInt 1) := detN_tri Z (.inl fun i j h => sint_zeroish.mpr (hA i j h)) (fun _ _ => trivial)
    fun i h => hd i (sint_zeroish.mp h)
  set f : ℕ → ℤ := fun i => if h : i < n then (A ⟨i, h⟩ ⟨i, h⟩).val else 1 with hf
  have hP : ∏ i, (A i i).val = ∏ i ∈ Finset.range n, f i := (diag_range fun i => (A i i).val).symm
  have hf0 : ∀ i, 1 ≤ |f i| := fun i => by
    rw [hf]
    dsimp only
    split
    · next h => exact Int.one_le_abs (hd ⟨i, h⟩)
    · simp
  have hmono : ∀ k N, k ≤ N → |∏ i ∈ Finset.range k, f i| ≤ |∏ i ∈ Finset.range N, f i| := fun k N hk => by
    induction N, hk using Nat.le_induction with
    | base => exact le_rfl
    | succ q _ ih =>
      refine ih.trans ?_
      rw [Finset.prod_range_succ, abs_mul]
      exact le_mul_of_one_le_right (abs_nonneg _) (hf0 q)
  have hdiv : ∀ a : SInt w, CScalar.div a (ofInt 1) = .ok a := fun a => by
    obtain ⟨q, hq, hk⟩ := Z.div_one (a := a)
    rw [hq, kept_signed hw hk]
  have hall : wp (det A) (fun d => d.val = ∏ i ∈ Finset.range n, f i) (fun s => s = .ub .signedOverflow ∧
      ¬ |∏ i ∈ Finset.range n, f i| < 2 ^ (w - 1)) := by
    rw [e1, e2]
    unfold detProd
    rw [wp_bind]
    refine wp_forUp (fun k (p : SInt w) => p.val = ∏ i ∈ Finset.range k, f i) (Nat.zero_le n) ?_ ?_ ?_
    · rw [Finset.range_zero, Finset.prod_empty]; exact sint_one hw
    · intro k p _ hk hp
      rw [rd_eq hk hk, ok_bind]
      show wp (SInt.checked (p.val * (A ⟨k, hk⟩ ⟨k, hk⟩).val)) _ _
      have e3 : p.val * (A ⟨k, hk⟩ ⟨k, hk⟩).val = ∏ i ∈ Finset.range (k + 1), f i := by
        rw [Finset.prod_range_succ, ← hp, hf]
        dsimp only
        rw [dif_pos hk]
      rw [e3]
      by_cases hr : InRange w (∏ i ∈ Finset.range (k + 1), f i)
      · rw [checked_ok' hr, wp_ok]
      · unfold SInt.checked
        rw [dif_neg hr]
        refine ⟨rfl, fun hlt => hr (inRange_of_abs (lt_of_le_of_lt (hmono _ _ hk) hlt))⟩
    · intro p hp
      rw [hdiv, wp_ok]
      exact hp
  rw [hP]
  refine ⟨fun d h => wp_ok_elim (Q := fun d => d.val = _) hall h, fun h => ?_, fun s h => (wp_error_elim hall h).1, fun h => ?_⟩
  · cases hx : det A with
    | ok d => exact ⟨d, rfl⟩
    | error s => exact absurd h (wp_error_elim hall hx).2
  · cases hx : det A with
    | ok d => exact absurd (wp_ok_elim hall hx ▸ d.inRange) h
    | error s => rw [(wp_error_elim hall hx).1]

theorem isOne {a : SInt w} (h : a.val = 1) : a = ofInt 1 := SInt.ext_val (by rw [h]; exact (sint_one hw).symm)

/-- C153: products with a permutation matrix of signed integers only move rows or columns; they never overflow. -/
theorem C153_permutation_signed (σ : Equiv.Perm (Fin n)) (P : Mat (SInt w) n n)
    (hP : ∀ i j, (P i j).val = if σ i = j then 1 else 0) (A : Mat (SInt w) n m) (B : Mat (SInt w) m n) :
    mult P A = .ok (fun i j => A (σ i) j) ∧ mult B P = .ok (fun i j => B i (σ.symm j)) := by
  have Z := zeroArith_signed hw
  have h1 : ∀ i, P i (σ i) = ofInt 1 := fun i => isOne hw (by rw [hP, if_pos rfl])
  have h0 : ∀ i k, k ≠ σ i → Zeroish (P i k) := fun i k h => sint_zeroish.mpr (by rw [hP, if_neg (Ne.symm h)])
  constructor
  · obtain ⟨R, hR, hk⟩ := mult_perm_left Z σ h1 h0 (A := A) fun _ _ => trivial
    rw [hR]
    congr 1
    ext i j
    exact kept_signed hw (hk i j)
  · obtain ⟨R, hR, hk⟩ := mult_perm_right Z σ h1 h0 (A := B) fun _ _ => trivial
    rw [hR]
    congr 1
    ext i j
    exact kept_signed hw (hk i j)

/-- C153: products with a diagonal matrix of signed integers are formed element by element, one multiplication each: they
overflow only if one of these multiplications does. -/
theorem C153_diagonal_signed (D : Mat (SInt w) n n) (hD : ∀ i j, i ≠ j → (D i j).val = 0) (A : Mat (SInt w) n m)
    (B : Mat (SInt w) m n) :
    ElementwiseOf (fun i j => CScalar.mul (D i i) (A i j)) (mult D A) ∧
    ElementwiseOf (fun i j => CScalar.mul (B i j) (D j j)) (mult B D) := by
  have Z := zeroArith_signed hw
  have hz : ∀ i j, i ≠ j → Zeroish (D i j) := fun i j h => sint_zeroish.mpr (hD i j h)
  constructor
  · have : (fun (i : Fin n) (j : Fin m) => dotFrom D A (ofInt 0) i j) = fun i j => CScalar.mul (D i i) (A i j) := by
      funext i j
      have h : ∀ k, k ≠ i → Zeroish (D i k) ∨ Zeroish (A k j) := fun k hk => .inl (hz i k hk.symm)
      cases hx : CScalar.mul (D i i) (A i j) with
      | error e => exact dot_single_error Z (fun _ => trivial) (fun _ => trivial) i h hx
      | ok t =>
        obtain ⟨s, hs, hk⟩ := dot_single Z (A := D) (B := A) (fun _ => trivial) (fun _ => trivial) i h hx
        rw [hs, kept_signed hw hk]
    rw [← this]
    exact mult_elementwise D A
  · have : (fun (i : Fin m) (j : Fin n) => dotFrom B D (ofInt 0) i j) = fun i j => CScalar.mul (B i j) (D j j) := by
      funext i j
      have h : ∀ k, k ≠ j → Zeroish (B i k) ∨ Zeroish (D k j) := fun k hk => .inr (hz k j hk)
      cases hx : CScalar.mul (B i j) (D j j) with
      | error e => exact dot_single_error Z (fun _ => trivial) (fun _ => trivial) j h hx
      | ok t =>
        obtain ⟨s, hs, hk⟩ := dot_single Z (A := B) (B := D) (fun _ => trivial) (fun _ => trivial) j h hx
        rw [hs, kept_signed hw hk]
    rw [← this]
    exact mult_elementwise B D

/-- C153: upper triangular matrices of signed integers without zeros on the diagonal, and lower triangular ones with ones on the
diagonal, are their own factors, although `lu` divides integers. -/
theorem C153_lu_signed (A I : Mat (SInt w) n n) (hI : ∀ i j, (I i j).val = if i = j then 1 else 0) :
    ((∀ i j, j < i → (A i j).val = 0) → (∀ i, (A i i).val ≠ 0) → lu A = .ok (I, A)) ∧
    ((∀ i j, i < j → (A i j).val = 0) → (∀ i, (A i i).val = 1) → lu A = .ok (A, I)) := by
  have Z := zeroArith_signed hw
  have eqI : ∀ L : Mat (SInt w) n n, (∀ i, L i i = ofInt 1) → (∀ i j, i ≠ j → Zeroish (L i j)) → L = I := fun L h1 h0 => by
    ext i j
    refine SInt.ext_val ?_
    rw [hI]
    by_cases h : i = j
    · subst h
      rw [if_pos rfl, h1]
      exact sint_one hw
    · rw [if_neg h]
      exact sint_zeroish.mp (h0 i j h)
  constructor
  · intro hA hd
    obtain ⟨L, U, h, h1, h0, hk⟩ := lu_of_upper Z (A := A) (fun _ _ => trivial) (fun i j h => sint_zeroish.mpr (hA i j h))
      fun i h => hd i (sint_zeroish.mp h)
    rw [h, eqI L h1 h0, show U = A from Matrix.ext fun i j => kept_signed hw (hk i j)]
  · intro hA hd
    obtain ⟨L, U, h, h1, h0, hk⟩ := lu_of_lower Z (A := A) (fun _ _ => trivial) (fun i j h => sint_zeroish.mpr (hA i j h))
      fun i => isOne hw (hd i)
    rw [h, eqI U h1 h0, show L = A from Matrix.ext fun i j => kept_signed hw (hk i j)]

/-- C153: the Cholesky factor of a diagonal matrix of positive integers holds the integer parts of the square roots. -/
theorem C153_chol_signed (A : Mat (SInt w) n n) (hA : ∀ i j, i ≠ j → (A i j).val = 0) (hd : ∀ i, 0 < (A i i).val)
    (hs : ∀ i, (A i i).val < 2 ^ 52) :
    ∃ L, chol A = .ok L ∧ ∀ i j, (L i j).val = if i = j then (((A i i).val.toNat.sqrt : ℕ) : ℤ) else 0 := by
  have Z := zeroArith_signed hw
  have key : ∀ i, ∃ q : SInt w, CScalar.sqrt (A i i) = .ok q ∧ q.val = (((A i i).val.toNat.sqrt : ℕ) : ℤ) ∧ q.val ≠ 0 := fun i => by
    have h0 := hd i
    have e1 : (((A i i).val.toNat : ℕ) : ℤ) = (A i i).val := Int.toNat_of_nonneg h0.le
    have e2 : sqrtTrunc (A i i).val = some (A i i).val.toNat.sqrt := by
      rw [← e1]
      refine (sqrtTrunc_eq ?_).trans (by rw [Int.toNat_natCast])
      have := hs i
      zify
      rw [e1]
      exact this
    have hle : (((A i i).val.toNat.sqrt : ℕ) : ℤ) ≤ (A i i).val := by
      rw [← e1]
      simp only [Int.toNat_natCast]
      exact_mod_cast Nat.sqrt_le_self _
    have hr : InRange w (((A i i).val.toNat.sqrt : ℕ) : ℤ) := by
      have := (A i i).inRange
      have hp : (0 : ℤ) < 2 ^ (w - 1) := by positivity
      exact ⟨by omega, lt_of_le_of_lt hle this.2⟩
    refine ⟨⟨_, hr⟩, ?_, rfl, ?_⟩
    · show SInt.ofTrunc (sqrtTrunc (A i i).val) = _
      rw [e2]
      unfold SInt.ofTrunc
      dsimp only
      rw [dif_pos hr]
    · have : 0 < (A i i).val.toNat.sqrt := Nat.sqrt_pos.mpr (by omega)
      show (((A i i).val.toNat.sqrt : ℕ) : ℤ) ≠ 0
      omega
  choose q hq hv h0 using key
  obtain ⟨L, hL, h1, h2⟩ := chol_of_diagonal Z (A := A) (fun i j h => sint_zeroish.mpr (hA i j h))
    (fun i h => (hd i).ne' (sint_zeroish.mp h)) hq (fun _ => trivial) fun i h => h0 i (sint_zeroish.mp h)
  refine ⟨L, hL, fun i j => ?_⟩
  by_cases h : i = j
  · subst h
    rw [if_pos rfl, h1, hv]
  · rw [if_neg h]
    exact sint_zeroish.mp (h2 i j h)

end signed

/-! ## Unsigned integers -/

section unsigned
variable {w : Nat} (hw : 1 ≤ w)
include hw

theorem kept_unsigned {a b : BitVec w} (h : Kept a b) : b = a := by
  rcases h with h | ⟨h1, h2⟩
  · exact h
  · rw [bv_zeroish.mp h1, bv_zeroish.mp h2]

/-- C153: the determinant of a triangular matrix of unsigned integers, without zeros on the diagonal, is the product of the
diagonal modulo `2^w`. -/
theorem C153_det_unsigned (hn : 4 ≤ n) (A : Mat (BitVec w) n n) (hA : (∀ i j, j < i → A i j = 0#w) ∨ ∀ i j, i < j → A i j = 0#w)
    (hd : ∀ i, A i i ≠ 0#w) : ∃ d, det A = .ok d ∧ d.toNat = (∏ i, (A i i).toNat) % 2 ^ w := by
  have Z := zeroArith_unsigned hw
  have e1 : det A = detN A := by
    match n, hn with
    | n + 4, _ => rfl
  have e2 : detN A = detProd A (ofInt 1) := detN_tri Z
    (hA.imp (fun hA i j h => bv_zeroish.mpr (hA i j h)) fun hA => ⟨fun i j h => bv_zeroish.mpr (hA i j h), totalSteps_unsigned w⟩)
    (fun _ _ => trivial) fun i h => hd i (bv_zeroish.mp h)
  set f : ℕ → ℕ := fun i => if h : i < n then (A ⟨i, h⟩ ⟨i, h⟩).toNat else 1 with hf
  have hP : ∏ i, (A i i).toNat = ∏ i ∈ Finset.range n, f i := by
    rw [Finset.prod_range]
    exact (Finset.prod_congr rfl fun i _ => dif_pos i.isLt).symm
  rw [e1, e2, hP]
  unfold detProd
  refine wp_total ?_
  rw [wp_bind]
  refine wp_forUp (fun k (p : BitVec w) => p.toNat = (∏ i ∈ Finset.range k, f i) % 2 ^ w) (Nat.zero_le n) ?_ ?_ ?_
  · rw [Finset.range_zero, Finset.prod_empty]
    show (1#w).toNat = _
    rw [BitVec.toNat_ofNat]
  · intro k p _ hk hp
    rw [rd_eq hk hk, ok_bind]
    show wp (Except.ok (p * A ⟨k, hk⟩ ⟨k, hk⟩)) _ _
    rw [wp_ok, BitVec.toNat_mul, Finset.prod_range_succ, hp, hf]
    dsimp only
    rw [dif_pos hk, Nat.mod_mul_mod]
  · intro p hp
    obtain ⟨q, hq, hk⟩ := Z.div_one (a := p)
    rw [hq, kept_unsigned hw hk, wp_ok]
    exact hp

/-- C153: products with a permutation matrix of unsigned integers only move rows or columns. -/
theorem C153_permutation_unsigned (σ : Equiv.Perm (Fin n)) (P : Mat (BitVec w) n n)
    (hP : ∀ i j, P i j = if σ i = j then 1#w else 0#w) (A : Mat (BitVec w) n m) (B : Mat (BitVec w) m n) :
    mult P A = .ok (fun i j => A (σ i) j) ∧ mult B P = .ok (fun i j => B i (σ.symm j)) := by
  have Z := zeroArith_unsigned hw
  have h1 : ∀ i, P i (σ i) = ofInt 1 := fun i => by rw [hP, if_pos rfl]; rfl
  have h0 : ∀ i k, k ≠ σ i → Zeroish (P i k) := fun i k h => bv_zeroish.mpr (by rw [hP, if_neg (Ne.symm h)])
  constructor
  · obtain ⟨R, hR, hk⟩ := mult_perm_left Z σ h1 h0 (A := A) fun _ _ => trivial
    rw [hR]
    congr 1
    refine Matrix.ext fun i j => ?_
    exact kept_unsigned hw (hk i j)
  · obtain ⟨R, hR, hk⟩ := mult_perm_right Z σ h1 h0 (A := B) fun _ _ => trivial
    rw [hR]
    congr 1
    refine Matrix.ext fun i j => ?_
    exact kept_unsigned hw (hk i j)

/-- C153: triangular matrices of unsigned integers are their own factors. -/
theorem C153_lu_unsigned (A I : Mat (BitVec w) n n) (hI : ∀ i j, I i j = if i = j then 1#w else 0#w) :
    ((∀ i j, j < i → A i j = 0#w) → (∀ i, A i i ≠ 0#w) → lu A = .ok (I, A)) ∧
    ((∀ i j, i < j → A i j = 0#w) → (∀ i, A i i = 1#w) → lu A = .ok (A, I)) := by
  have Z := zeroArith_unsigned hw
  have eqI : ∀ L : Mat (BitVec w) n n, (∀ i, L i i = ofInt 1) → (∀ i j, i ≠ j → Zeroish (L i j)) → L = I := fun L h1 h0 => by
    refine Matrix.ext fun i j => ?_
    rw [hI]
    by_cases h : i = j
    · subst h
      rw [if_pos rfl, h1]
      rfl
    · rw [if_neg h]
      exact bv_zeroish.mp (h0 i j h)
  constructor
  · intro hA hd
    obtain ⟨L, U, h, h1, h0, hk⟩ := lu_of_upper Z (A := A) (fun _ _ => trivial) (fun i j h => bv_zeroish.mpr (hA i j h))
      fun i h => hd i (bv_zeroish.mp h)
    rw [h, eqI L h1 h0, show U = A from Matrix.ext fun i j => kept_unsigned hw (hk i j)]
  · intro hA hd
    obtain ⟨L, U, h, h1, h0, hk⟩ := lu_of_lower Z (A := A) (fun _ _ => trivial) (fun i j h => bv_zeroish.mpr (hA i j h))
      fun i => hd i
    rw [h, eqI U h1 h0, show L = A from Matrix.ext fun i j => kept_unsigned hw (hk i j)]

end unsigned

/-! ## Floating point -/

namespace FpEnv
open Fl
variable {F : Fmt} {e : FpEnv}

theorem zeroish_val {a : Fl F} : Zeroish (T := InEnv e F) a ↔ a.Finite ∧ e.val a = 0 := by
  constructor
  · intro h
    obtain ⟨s, hs⟩ := zeroish_iff.mp h
    refine ⟨(finite_seen (e := e)).mp (by rw [hs]; trivial), ?_⟩
    unfold FpEnv.val
    rw [hs, val_nought]
  · rintro ⟨hf, h⟩
    refine (C151_less e a (Fl.ofInt 0) hf (by rw [ofInt_zero_nought]; trivial)).2.mpr ?_
    rw [h, val_zero]

theorem kept_same {a b : Fl F} (h : Kept (T := InEnv e F) a b) : e.Same a b := by
  rcases h with h | ⟨h1, h2⟩
  · exact .inl h
  · have a1 := zeroish_val.mp h1
    have a2 := zeroish_val.mp h2
    exact .inr ⟨a1.1, a2.1, a1.2, a2.2⟩

theorem Same.val_eq {a b : Fl F} (h : e.Same a b) : e.val b = e.val a := by
  rcases h with h | ⟨-, -, h1, h2⟩
  · rw [h]
  · rw [h1, h2]

theorem consistent_both (h : e.Consistent) : e.Both := fun hf => h fun e => by rw [e] at hf; exact absurd hf (by decide)

/-- Products in the normal range have a small relative error. -/
theorem mul_rel {a b : Fl F} (h : e.MulOk a b) (hn : F.minNormal ≤ |e.val a * e.val b|) :
    |e.val (e.mul a b) - e.val a * e.val b| ≤ e.u F * |e.val a * e.val b| ∧ (e.mul a b).Finite := by
  have hu := unit_posR F
  have hok := h
  unfold MulOk at h
  match ha : e.seen a, hb : e.seen b with
  | .fin s M hM, .fin t N hN =>
    rw [ha, hb] at h
    dsimp only at h
    have ha' : a.Finite := (finite_seen (e := e)).mp (by rw [ha]; trivial)
    have hb' : b.Finite := (finite_seen (e := e)).mp (by rw [hb]; trivial)
    have hs := roundQuotBy_spec (F := F) (e.mode.how (s ^^ t)) (a := M * N) (b := F.unit) (unit_pos F)
    set K := roundQuotBy (e.mode.how (s ^^ t)) F (M * N) F.unit with hK
    set X : ℝ := ((M * N : ℕ) : ℝ) / F.unit with hXd
    have hx : e.val a * e.val b = sgn (s ^^ t) * (X / F.unit) := by
      unfold FpEnv.val
      rw [ha, hb, val_fin, val_fin, sgn_xor, hXd]
      push_cast
      ring
    have hX0 : 0 ≤ X := by positivity
    have hX : (2 : ℝ) ^ (F.p - 1) ≤ X := by
      rw [hx, abs_sgn_div _ hX0] at hn
      exact mag_units.mp hn
    have hm : e.mul a b = .fin (s ^^ t) K h := by
      rw [mul_normal ha' hb' (.inr hn), ha, hb]
      exact packBy_rep h
    refine ⟨?_, by rw [hm]; trivial⟩
    have hKn := hs.normal hX
    have hv : e.val (e.mul a b) = sgn (s ^^ t) * (K / F.unit) := by
      unfold FpEnv.val
      rw [hm, seen_not_subnormal (by rw [subnormal_iff]; omega), val_fin]
    rw [hv, hx, abs_sgn_sub, abs_sgn_div _ hX0, ← mul_div_assoc]
    refine div_le_div_of_nonneg_right ?_ hu.le
    rw [← how_u (e := e) (F := F) (s ^^ t)]
    unfold How.u
    split
    · next he =>
      rw [he] at hs
      rcases hs.2.err hX0 with h | h
      · rwa [mul_comm]
      · refine h.trans ?_
        have := two_u_pow F
        have := mul_le_mul_of_nonneg_left hX (Fl.u_nonneg F)
        linarith
    · next he => exact (hs.err_cases hX0 he (.inr hX)).1
  | .nan, _ => rw [ha] at h; exact h.elim
  | .inf _, _ => rw [ha] at h; exact h.elim
  | .fin _ _ _, .nan => rw [ha, hb] at h; exact h.elim
  | .fin _ _ _, .inf _ => rw [ha, hb] at h; exact h.elim

theorem sqrt_pos {a : Fl F} (hf : a.Finite) (h : 0 < e.val a) : (e.sqrt a).Finite ∧ e.val (e.sqrt a) ≠ 0 := by
  have hu := unit_posR F
  have hf' := (finite_seen (e := e)).mpr hf
  match ha : e.seen a, hf' with
  | .fin s N hN, _ =>
    have hv : e.val a = sgn s * (N / F.unit) := by unfold FpEnv.val; rw [ha, val_fin]
    have h0 : N ≠ 0 := by
      rintro rfl
      rw [hv] at h
      simp at h
    have hs : s = false := by
      cases s with
      | false => rfl
      | true =>
        rw [hv] at h
        have : (0 : ℝ) ≤ N / F.unit := by positivity
        simp only [sgn] at h
        norm_num at h
        linarith
    subst hs
    have hok : e.SqrtOk a := by unfold SqrtOk; rw [ha]; exact .inr rfl
    have hspec := roundSqrtBy_spec (F := F) (e.mode.how false) (N * F.unit)
    have hrep : F.Rep (roundSqrtBy (e.mode.how false) F (N * F.unit)) := ⟨sqrt_lt hN.1 hspec, hspec.1⟩
    have hr : e.sqrt a = .fin false _ hrep := by
      unfold sqrt
      rw [ha]
      unfold sqrtBy
      dsimp only
      rw [if_neg h0, if_neg (by simp), packBy_rep hrep]
    refine ⟨by rw [hr]; trivial, fun hz => ?_⟩
    have := (sqrt_near hok).2.2
    rw [hz, zero_sub, abs_neg, mul_zero, abs_of_nonneg (Real.sqrt_nonneg _)] at this
    exact absurd this (not_le.mpr (Real.sqrt_pos.mpr h))

end FpEnv

section float
open FpEnv
variable {F : Fmt} (e : FpEnv)

theorem detProd_env (A : Mat (InEnv e F) n n) : detProd A (ofInt 1) =
    .ok (e.div (F := F) (e.diagProd (F := F) A n le_rfl) (Fl.ofInt 1)) := by
  unfold detProd
  have h : wp (forUp 0 n (ofInt 1 : InEnv e F) fun i prod => do CScalar.mul prod (← rd A i i))
      (fun p => p = e.diagProd (F := F) A n le_rfl) (fun _ => False) := by
    refine wp_forUp (fun k (p : InEnv e F) => ∀ hk : k ≤ n, p = e.diagProd (F := F) A k hk) (Nat.zero_le n)
      (fun _ => rfl) (fun k p _ hk hp => ?_) fun p hp => hp le_rfl
    rw [rd_eq hk hk, ok_bind]
    show ∀ hk' : k + 1 ≤ n, e.mul (F := F) p (A ⟨k, hk⟩ ⟨k, hk⟩) = e.diagProd (F := F) A (k + 1) hk'
    intro hk'
    rw [hp (by omega)]
    rfl
  obtain ⟨v, hv, hk⟩ := wp_total h
  rw [hv, ok_bind, hk]
  rfl

/-- C153: the determinant of a triangular matrix of floating point numbers, in every rounding mode and environment that does not
flush results only: the product of the diagonal, one rounding per multiplication. If no multiplication overflows or leaves the
normal range, its relative error is at most `(1 + u)^n - 1`. -/
theorem C153_det_float (he : e.Consistent) (hn : 4 ≤ n) (A : Mat (Fl F) n n) (hf : ∀ i j, (A i j).Finite)
    (hA : (∀ i j, j < i → e.val (A i j) = 0) ∨ ∀ i j, i < j → e.val (A i j) = 0) (hd : ∀ i, e.val (A i i) ≠ 0) :
    ∃ D : Fl F, det (T := InEnv e F) A = .ok D ∧ e.Same (e.diagProd A n le_rfl) D ∧
      ((∀ k (hk : k < n), e.MulOk (e.diagProd A k hk.le) (A ⟨k, hk⟩ ⟨k, hk⟩) ∧
          F.minNormal ≤ |e.val (e.diagProd A k hk.le) * e.val (A ⟨k, hk⟩ ⟨k, hk⟩)|) →
        |e.val D - ∏ i, e.val (A i i)| ≤ ((1 + e.u F) ^ n - 1) * |∏ i, e.val (A i i)|) := by
  have hb := consistent_both he
  have Z := zeroArith_env (F := F) hb
  have e1 : det (T := InEnv e F) A = detN (T := InEnv e F) A := by
    match n, hn with
    | n + 4, _ => rfl
  have e2 : detN (T := InEnv e F) A = detProd (T := InEnv e F) A (ofInt 1) := detN_tri Z
    (hA.imp (fun hA i j h => zeroish_val.mpr ⟨hf i j, hA i j h⟩)
      fun hA => ⟨fun i j h => zeroish_val.mpr ⟨hf i j, hA i j h⟩, totalSteps_env e F⟩)
    hf fun i h => hd i (zeroish_val.mp h).2
  have hs := kept_same (div_one_kept hb (e.diagProd A n le_rfl))
  refine ⟨_, (e1.trans e2).trans (detProd_env e A), hs, fun hok => ?_⟩
  rw [hs.val_eq]
  have hu := e.u_nonneg (F := F)
  set f : ℕ → ℝ := fun i => if h : i < n then e.val (A ⟨i, h⟩ ⟨i, h⟩) else 1 with hfd
  have hP : ∏ i, e.val (A i i) = ∏ i ∈ Finset.range n, f i := by
    rw [Finset.prod_range]
    exact (Finset.prod_congr rfl fun i _ => dif_pos i.isLt).symm
  rw [hP]
  have main : ∀ k (hk : k ≤ n), |e.val (e.diagProd A k hk) - ∏ i ∈ Finset.range k, f i| ≤
      ((1 + e.u F) ^ k - 1) * |∏ i ∈ Finset.range k, f i| := by
    intro k
    induction k with
    | zero =>
      intro _
      rw [show e.diagProd A 0 (Nat.zero_le n) = Fl.ofInt 1 from rfl, val_one, Finset.range_zero, Finset.prod_empty, pow_zero, sub_self,
        abs_zero, zero_mul]
    | succ k ih =>
      intro hk
      have ih := ih (by omega)
      obtain ⟨h1, h2⟩ := hok k hk
      have h3 := (mul_rel h1 h2).1
      have e3 : f k = e.val (A ⟨k, hk⟩ ⟨k, hk⟩) := dif_pos hk
      rw [← e3] at h3
      show |e.val (e.mul (e.diagProd A k _) (A ⟨k, hk⟩ ⟨k, hk⟩)) - _| ≤ _
      rw [Finset.prod_range_succ]
      set P := ∏ i ∈ Finset.range k, f i
      set Q := e.val (e.diagProd A k (Nat.le_of_succ_le hk))
      set R := e.val (e.mul (e.diagProd A k (Nat.le_of_succ_le hk)) (A ⟨k, hk⟩ ⟨k, hk⟩))
      have h4 : |Q| ≤ (1 + e.u F) ^ k * |P| := by
        have := abs_sub_abs_le_abs_sub Q P
        linarith
      have h5 : |R - P * f k| ≤ |R - Q * f k| + |Q - P| * |f k| := by
        rw [← abs_mul]
        refine le_trans (le_of_eq ?_) (abs_add_le _ _)
        congr 1
        ring
      refine h5.trans ?_
      rw [abs_mul] at h3 ⊢
      have h6 : |Q - P| * |f k| ≤ ((1 + e.u F) ^ k - 1) * |P| * |f k| := mul_le_mul_of_nonneg_right ih (abs_nonneg _)
      have h7 : e.u F * (|Q| * |f k|) ≤ e.u F * ((1 + e.u F) ^ k * |P| * |f k|) :=
        mul_le_mul_of_nonneg_left (mul_le_mul_of_nonneg_right h4 (abs_nonneg _)) hu
      calc _ ≤ _ := add_le_add (h3.trans h7) h6
        _ = _ := by rw [pow_succ]; ring
  exact main n le_rfl

/-- C153: products with a permutation matrix of floating point numbers only move rows or columns: no rounding. -/
theorem C153_permutation_float (he : e.Consistent) (σ : Equiv.Perm (Fin n)) (P : Mat (Fl F) n n)
    (hP : ∀ i j, P i j = if σ i = j then Fl.ofInt 1 else Fl.ofInt 0) (A : Mat (Fl F) n m) (B : Mat (Fl F) m n)
    (hA : ∀ i j, (A i j).Finite) (hB : ∀ i j, (B i j).Finite) :
    (∃ R : Mat (Fl F) n m, mult (T := InEnv e F) P A = .ok R ∧ ∀ i j, e.Same (A (σ i) j) (R i j)) ∧
    ∃ R : Mat (Fl F) m n, mult (T := InEnv e F) B P = .ok R ∧ ∀ i j, e.Same (B i (σ.symm j)) (R i j) := by
  have Z := zeroArith_env (F := F) (consistent_both he)
  have h1 : ∀ i, P i (σ i) = (ofInt 1 : InEnv e F) := fun i => by rw [hP, if_pos rfl]; rfl
  have h0 : ∀ i k, k ≠ σ i → Zeroish (T := InEnv e F) (P i k) := fun i k h => by
    rw [hP, if_neg (Ne.symm h)]
    exact Z.lit
  constructor
  · obtain ⟨R, hR, hk⟩ := mult_perm_left (T := InEnv e F) Z σ h1 h0 (A := A) hA
    exact ⟨R, hR, fun i j => kept_same (hk i j)⟩
  · obtain ⟨R, hR, hk⟩ := mult_perm_right (T := InEnv e F) Z σ h1 h0 (A := B) hB
    exact ⟨R, hR, fun i j => kept_same (hk i j)⟩

/-- C153: products with a diagonal matrix of floating point numbers: one rounded multiplication per element. -/
theorem C153_diagonal_float (he : e.Consistent) (D : Mat (Fl F) n n) (hD : ∀ i j, i ≠ j → e.val (D i j) = 0) (A : Mat (Fl F) n m)
    (B : Mat (Fl F) m n) (hf : ∀ i j, (D i j).Finite) (hA : ∀ i j, (A i j).Finite) (hB : ∀ i j, (B i j).Finite) :
    (∃ R : Mat (Fl F) n m, mult (T := InEnv e F) D A = .ok R ∧ ∀ i j, e.Same (e.mul (D i i) (A i j)) (R i j)) ∧
    ∃ R : Mat (Fl F) m n, mult (T := InEnv e F) B D = .ok R ∧ ∀ i j, e.Same (e.mul (B i j) (D j j)) (R i j) := by
  have Z := zeroArith_env (F := F) (consistent_both he)
  have hz : ∀ i j, i ≠ j → Zeroish (T := InEnv e F) (D i j) := fun i j h => zeroish_val.mpr ⟨hf i j, hD i j h⟩
  constructor
  · have key : ∀ (i : Fin n) (j : Fin m), ∃ s : Fl F, dotFrom (T := InEnv e F) D A (ofInt 0) i j = .ok s ∧
        Kept (T := InEnv e F) (e.mul (D i i) (A i j)) s := fun i j =>
      dot_single Z (A := D) (B := A) (hf i) (fun k => hA k j) i (fun k hk => .inl (hz i k hk.symm)) rfl
    choose R hR hk using key
    exact ⟨fun i j => R i j, ((mult_elementwise (T := InEnv e F) D A).1 _).mpr hR, fun i j => kept_same (hk i j)⟩
  · have key : ∀ (i : Fin m) (j : Fin n), ∃ s : Fl F, dotFrom (T := InEnv e F) B D (ofInt 0) i j = .ok s ∧
        Kept (T := InEnv e F) (e.mul (B i j) (D j j)) s := fun i j =>
      dot_single Z (A := B) (B := D) (hB i) (fun k => hf k j) j (fun k hk => .inr (hz k j hk)) rfl
    choose R hR hk using key
    exact ⟨fun i j => R i j, ((mult_elementwise (T := InEnv e F) B D).1 _).mpr hR, fun i j => kept_same (hk i j)⟩

theorem mult_env_total {p q : Nat} (A : Mat (InEnv e F) n p) (B : Mat (InEnv e F) p q) : ∃ R, mult A B = .ok R := by
  cases h : mult A B with
  | ok R => exact ⟨R, rfl⟩
  | error s =>
    obtain ⟨i, j, h1, -⟩ := ((mult_elementwise A B).2 s).mp h
    have : ∃ v, dotFrom A B (ofInt 0) i j = .ok v ∧ True := by
      unfold dotFrom
      refine wp_total (wp_forUp (fun _ _ => True) (Nat.zero_le p) trivial (fun k s _ hk _ => ?_) fun _ _ => trivial)
      rw [rd_eq i.isLt hk, ok_bind, rd_eq hk j.isLt, ok_bind]
      exact trivial
    obtain ⟨v, hv, -⟩ := this
    dsimp only at h1
    rw [hv] at h1
    cases h1

/-- C153: products of upper triangular matrices of floating point numbers are upper triangular, with the rounded products of the
diagonals on the diagonal. -/
theorem C153_upper_float (he : e.Consistent) (A B : Mat (Fl F) n n) (hA : ∀ i j, (A i j).Finite) (hB : ∀ i j, (B i j).Finite)
    (uA : ∀ i j, j < i → e.val (A i j) = 0) (uB : ∀ i j, j < i → e.val (B i j) = 0) :
    ∃ R : Mat (Fl F) n n, mult (T := InEnv e F) A B = .ok R ∧ (∀ i j, j < i → (R i j).Finite ∧ e.val (R i j) = 0) ∧
      ∀ i, e.Same (e.mul (A i i) (B i i)) (R i i) := by
  have Z := zeroArith_env (F := F) (consistent_both he)
  obtain ⟨R, hR⟩ := mult_env_total e (n := n) A B
  obtain ⟨h1, h2⟩ := mult_upper (T := InEnv e F) Z hA hB (fun i j h => zeroish_val.mpr ⟨hA i j, uA i j h⟩)
    (fun i j h => zeroish_val.mpr ⟨hB i j, uB i j h⟩) hR
  refine ⟨R, hR, fun i j h => zeroish_val.mp (h1 i j h), fun i => ?_⟩
  obtain ⟨t, ht, hk⟩ := h2 i
  have : t = e.mul (A i i) (B i i) := by
    injection ht with ht
    exact ht.symm
  rw [this] at hk
  exact kept_same hk

/-- C153: upper triangular matrices of floating point numbers without zeros on the diagonal, and lower triangular ones with ones
on the diagonal, are their own factors: no rounding. -/
theorem C153_lu_float (he : e.Consistent) (A : Mat (Fl F) n n) (hf : ∀ i j, (A i j).Finite) :
    ((∀ i j, j < i → e.val (A i j) = 0) → (∀ i, e.val (A i i) ≠ 0) →
      ∃ L U : Mat (Fl F) n n, lu (T := InEnv e F) A = .ok (L, U) ∧ (∀ i, L i i = Fl.ofInt 1) ∧
        (∀ i j, i ≠ j → (L i j).Finite ∧ e.val (L i j) = 0) ∧ ∀ i j, e.Same (A i j) (U i j)) ∧
    ((∀ i j, i < j → e.val (A i j) = 0) → (∀ i, A i i = Fl.ofInt 1) →
      ∃ L U : Mat (Fl F) n n, lu (T := InEnv e F) A = .ok (L, U) ∧ (∀ i, U i i = Fl.ofInt 1) ∧
        (∀ i j, i ≠ j → (U i j).Finite ∧ e.val (U i j) = 0) ∧ ∀ i j, e.Same (A i j) (L i j)) := by
  have Z := zeroArith_env (F := F) (consistent_both he)
  constructor
  · intro hA hd
    obtain ⟨L, U, h, h1, h0, hk⟩ := lu_of_upper (T := InEnv e F) Z (A := A) hf (fun i j h => zeroish_val.mpr ⟨hf i j, hA i j h⟩)
      fun i h => hd i (zeroish_val.mp h).2
    exact ⟨L, U, h, h1, fun i j h => zeroish_val.mp (h0 i j h), fun i j => kept_same (hk i j)⟩
  · intro hA hd
    obtain ⟨L, U, h, h1, h0, hk⟩ := lu_of_lower (T := InEnv e F) Z (A := A) hf (fun i j h => zeroish_val.mpr ⟨hf i j, hA i j h⟩) hd
    exact ⟨L, U, h, h1, fun i j h => zeroish_val.mp (h0 i j h), fun i j => kept_same (hk i j)⟩

/-- C153: the Cholesky factor of a diagonal matrix of positive floating point numbers: the rounded square roots. -/
theorem C153_chol_float (he : e.Consistent) (A : Mat (Fl F) n n) (hf : ∀ i j, (A i j).Finite)
    (hA : ∀ i j, i ≠ j → e.val (A i j) = 0) (hd : ∀ i, 0 < e.val (A i i)) :
    ∃ L : Mat (Fl F) n n, chol (T := InEnv e F) A = .ok L ∧ (∀ i, L i i = e.sqrt (A i i)) ∧
      ∀ i j, i ≠ j → (L i j).Finite ∧ e.val (L i j) = 0 := by
  have Z := zeroArith_env (F := F) (consistent_both he)
  have hq : ∀ i, (e.sqrt (A i i)).Finite ∧ e.val (e.sqrt (A i i)) ≠ 0 := fun i => sqrt_pos (hf i i) (hd i)
  obtain ⟨L, hL, h1, h2⟩ := chol_of_diagonal (T := InEnv e F) Z (A := A) (q := fun i => e.sqrt (A i i))
    (fun i j h => zeroish_val.mpr ⟨hf i j, hA i j h⟩) (fun i h => (hd i).ne' (zeroish_val.mp h).2) (fun _ => rfl) (fun i => (hq i).1)
    fun i h => (hq i).2 (zeroish_val.mp h).2
  exact ⟨L, hL, h1, fun i j h => zeroish_val.mp (h2 i j h)⟩

end float

/-! ## Cases that meet the hypotheses -/

def formS : Mat (SInt 32) 4 4 := fun i j => SInt.wrap (if j < i then 0 else (i.val : ℤ) + j.val - 7)

example : (∀ i j, j < i → (formS i j).val = 0) ∧ (∀ i, (formS i i).val ≠ 0) ∧ |∏ i, (formS i i).val| < 2 ^ 31 := by decide +kernel
example : (det formS).isOk ∧ (lu formS).isOk := by decide +kernel

/-- Products that do not fit. -/
def formBig : Mat (SInt 32) 4 4 := fun i j => SInt.wrap (if j < i then 0 else 1000)

example : (∀ i j, j < i → (formBig i j).val = 0) ∧ (∀ i, (formBig i i).val ≠ 0) ∧ ¬ InRange 32 (∏ i, (formBig i i).val) := by
  decide +kernel

def formP : Mat (SInt 32) 3 3 := fun i j => SInt.wrap (if i + 1 = j then 1 else 0)

example : ∀ i j, (formP i j).val = if (finRotate 3) i = j then 1 else 0 := by decide +kernel

def formD : Mat (SInt 32) 3 3 := fun i j => SInt.wrap (if i = j then (i.val : ℤ) + 5 else 0)

example : (∀ i j, i ≠ j → (formD i j).val = 0) ∧ (∀ i, 0 < (formD i i).val) ∧ ∀ i, (formD i i).val < 2 ^ 52 := by decide +kernel

def formU : Mat (BitVec 32) 4 4 := fun i j => if j < i then 0#32 else BitVec.ofNat 32 (70000 * i + j + 1)

example : (∀ i j : Fin 4, j < i → formU i j = 0#32) ∧ ∀ i : Fin 4, formU i i ≠ 0#32 := ⟨fun _ _ h => if_pos h, by decide +kernel⟩
example : (∀ i j, i < j → formU j i = 0#32) ∧ ∀ i, formU i i ≠ 0#32 := by decide +kernel

def formF : Mat (Fl binary32) 4 4 := fun i j => if j < i then Fl.ofInt 0 else Fl.ofInt ((i.val : ℤ) + j.val - 7)

example : (FpEnv.default).Consistent := fun h => absurd rfl h
example : envFast.Consistent := fun _ => rfl
theorem formF_finite : ∀ i j, (formF i j).Finite := fun i j => by fin_cases i <;> fin_cases j <;> decide +kernel
example : ∀ i j, j < i → envFast.val (formF i j) = 0 := fun i j h => by
  rw [formF, if_pos h]
  exact FpEnv.val_zero _
example : ∀ i, envFast.val (formF i i) ≠ 0 := fun i => by
  have : Fl.eq (envFast.seen (formF i i)) (envFast.seen (Fl.ofInt 0)) = false := by revert i; decide +kernel
  intro h
  have h' := (C151_less envFast (formF i i) (Fl.ofInt 0) (formF_finite i i) (by decide +kernel)).2.mpr
    (h.trans (FpEnv.val_zero _).symm)
  rw [show CScalar.eq (T := InEnv envFast binary32) (formF i i) (Fl.ofInt 0 : Fl binary32) =
    Fl.eq (envFast.seen (formF i i)) (envFast.seen (Fl.ofInt 0)) from rfl, this] at h'
  exact absurd h' (by decide)
example : ∀ k (hk : k < 4), envFast.MulOk (envFast.diagProd formF k hk.le) (formF ⟨k, hk⟩ ⟨k, hk⟩) := by decide +kernel

/-- The products of the example stay in the normal range. -/
example : ∀ k (hk : k < 4), binary32.minNormal ≤ |envFast.val (envFast.diagProd formF k hk.le) * envFast.val (formF ⟨k, hk⟩ ⟨k, hk⟩)| := by
  have hv : ∀ c : ℤ, c.natAbs ≤ 2 ^ binary32.p → envFast.seen (Fl.ofInt c : Fl binary32) = Fl.ofInt c →
      envFast.val (Fl.ofInt c : Fl binary32) = c := fun c h1 h2 => by
    unfold FpEnv.val
    rw [h2]
    exact (Fl.val_ofInt_exact c h1).2
  have hm : binary32.minNormal ≤ 1 := by
    unfold Fmt.minNormal
    rw [div_le_one (Fl.unit_posR _)]
    exact FpEnv.unit_normal _
  intro k hk
  have key : ∃ c d : ℤ, c ≠ 0 ∧ d ≠ 0 ∧ c.natAbs ≤ 2 ^ binary32.p ∧ d.natAbs ≤ 2 ^ binary32.p ∧
      envFast.diagProd formF k hk.le = Fl.ofInt c ∧ formF ⟨k, hk⟩ ⟨k, hk⟩ = Fl.ofInt d ∧
      envFast.seen (Fl.ofInt c : Fl binary32) = Fl.ofInt c ∧ envFast.seen (Fl.ofInt d : Fl binary32) = Fl.ofInt d := by
    match k, hk with
    | 0, h => exact ⟨1, -7, by decide +kernel +revert⟩
    | 1, h => exact ⟨-7, -5, by decide +kernel +revert⟩
    | 2, h => exact ⟨35, -3, by decide +kernel +revert⟩
    | 3, h => exact ⟨-105, -1, by decide +kernel +revert⟩
  obtain ⟨c, d, hc, hd, c1, d1, e1, e2, e3, e4⟩ := key
  rw [e1, e2, hv c c1 e3, hv d d1 e4]
  refine hm.trans ?_
  rw [← Int.cast_mul, ← Int.cast_abs]
  exact_mod_cast Int.one_le_abs (mul_ne_zero hc hd)

end MatrixLibs
