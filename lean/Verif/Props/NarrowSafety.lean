import Verif.Proof.Safety
import Verif.Props.Safety
import Verif.Props.NarrowConv
import Verif.Props.NarrowFactor
import Verif.Props.NarrowPow
import Verif.Props.NarrowHist

/-!
# Property C109: memory safety for elements narrower than `int`
-/

namespace MatrixLibs

set_option linter.unusedSectionVars false

open Promo (load store sqrtTo)

variable {t : Narrow} {i j n m p : Nat}

theorem noFault_throws (x : Exc) : NoFault (.throws x) := ThrowsIn.throws x
theorem noFault_terminates : NoFault .terminates := ThrowsIn.terminates
theorem noFault_domain : NoFault (.ub .domain) := by rintro (h | h | h | h) <;> cases h
theorem noFault_division : NoFault (.ub .divisionByZero) := by rintro (h | h | h | h) <;> cases h

theorem memSafe_of_ok {α : Type} {x : Res α} (h : ∃ a, x = .ok a) : MemSafe x := by
  obtain ⟨a, rfl⟩ := h
  intro e he
  cases he

theorem memSafe_of_overflow {α : Type} {x : Res α} (h : ∀ e, x = .error e → e = .ub .signedOverflow) : MemSafe x :=
  fun e he => h e he ▸ noFault_overflow

namespace Promoted

theorem safe_zeros' : Safe NoFault (Promoted.zeros i j : Res (Mat (NInt t) i j)) := safe_fill _

theorem safe_eye' (d : NInt t) : Safe NoFault (Promoted.eye n d : Res (Mat (NInt t) n n)) := by
  unfold Promoted.eye
  exact safe_bind (safe_fill _) (fun _ => by safe)

theorem safe_det' (A : Mat (NInt t) n n) : Safe NoFault (Promoted.det A) := by
  cases h : Promoted.det A with
  | ok d => trivial
  | error e => rw [C96_det_stops A e h]; exact noFault_overflow

theorem safe_divScalar (handled : Option Exc) (A : Mat (NInt t) i j) (s : NInt t) :
    Safe NoFault (Promoted.div handled A s) := by
  unfold Promoted.div
  refine safe_ite (fun _ => safe_bareThrow _) (fun _ => ?_)
  safe

theorem safe_invN' (handled : Option Exc) (A : Mat (NInt t) n n) : Safe NoFault (Promoted.invN handled A) := by
  unfold Promoted.invN
  refine safe_bind (safe_det' A) (fun d => safe_bind ?_ (fun B => ?_))
  · refine safe_forUp (fun i S _ hi => safe_forUp (fun j S _ hj => ?_))
    refine safe_bind (safe_getminor A hi hj) (fun M => safe_bind (safe_det' M) (fun d => ?_))
    exact safe_bind (safe_mul _ _) (fun x => safe_wr hi hj)
  · exact safe_bind (safe_trans B) (fun C => safe_divScalar handled C d)

theorem safe_sqrtTo (q : SInt 32) : Safe NoFault (sqrtTo q : Res (NInt t)) := by
  simp only [sqrtTo]
  split
  · split
    · exact safe_ok _
    · exact noFault_domain
  · exact noFault_domain

theorem safe_mean' (A : Mat (NInt t) i j) : Safe NoFault (Promoted.mean A) := by
  unfold Promoted.mean; safe

theorem safe_var' (A : Mat (NInt t) i j) : Safe NoFault (Promoted.var A) := by
  unfold Promoted.var
  refine safe_bind (safe_mean' A) (fun _ => ?_)
  safe

end Promoted

open Promoted in
/-- C109: the functions that build a matrix. -/
theorem C109_contents (d : NInt t) :
    MemSafe (Promoted.zeros i j : Res (Mat (NInt t) i j)) ∧ MemSafe (Promoted.ones i j : Res (Mat (NInt t) i i)) ∧
    MemSafe (Promoted.eye n d) ∧ MemSafe (Promoted.eye1 n : Res (Mat (NInt t) n n)) := by
  refine ⟨safe_zeros'.memSafe, Safe.memSafe ?_, (safe_eye' d).memSafe, (safe_eye' _).memSafe⟩
  unfold Promoted.ones
  exact safe_ite (fun _ => safe_fill _) (fun _ => noFault_illFormed)

open Promoted in
/-- C109: the operators, `strassen` and `abs`. -/
theorem C109_arith (handled : Option Exc) (A B : Mat (NInt t) i j) (C : Mat (NInt t) n m) (D : Mat (NInt t) m p)
    (S V : Mat (NInt t) 2 2) (s : NInt t) :
    MemSafe (Promoted.sum A B) ∧ MemSafe (Promoted.sub A B) ∧ MemSafe (Promoted.sumScalar A s) ∧
    MemSafe (Promoted.subScalar A s) ∧ MemSafe (Promoted.opPostInc A) ∧ MemSafe (Promoted.opPostDec A) ∧
    MemSafe (Promoted.mult C D) ∧ MemSafe (Promoted.multScalar A s) ∧ MemSafe (Promoted.div handled A s) ∧
    MemSafe (Promoted.abs A) ∧ MemSafe (Promoted.strassen S V) := by
  refine ⟨memSafe_of_ok ((C88_add_sub A B).1.imp fun _ h => h.1), memSafe_of_ok ((C88_add_sub A B).2.imp fun _ h => h.1),
    memSafe_of_ok ((C88_add_sub_scalar A s).1.imp fun _ h => h.1),
    memSafe_of_ok ((C88_add_sub_scalar A s).2.imp fun _ h => h.1), ?_, ?_, memSafe_of_overflow (C89_mul_value C D).2,
    memSafe_of_overflow (C88_mul_scalar A s).2, (safe_divScalar handled A s).memSafe,
    memSafe_of_ok ((C90_abs A).imp fun _ h => h.1), memSafe_of_overflow (C89_strassen_value S V).2⟩
  · obtain ⟨R, hR, -⟩ := (C88_inc_dec A).1
    exact memSafe_of_ok ⟨_, hR⟩
  · obtain ⟨R, hR, -⟩ := (C88_inc_dec A).2
    exact memSafe_of_ok ⟨_, hR⟩

open Promoted in
/-- C109: determinant, inverse, factorisations. -/
theorem C109_linear (handled : Option Exc) (A : Mat (NInt t) n n) :
    MemSafe (Promoted.det A) ∧ MemSafe (Promoted.invN handled A) ∧ MemSafe (Promoted.lu A) ∧
    MemSafe (Promoted.isSymetric A) ∧ MemSafe (Promoted.chol A) := by
  refine ⟨(safe_det' A).memSafe, (safe_invN' handled A).memSafe, fun e he => ?_, Safe.memSafe ?_, Safe.memSafe ?_⟩
  · rcases C97_lu_stops A e he with rfl | rfl
    · exact noFault_overflow
    · exact noFault_throws _
  · unfold Promoted.isSymetric
    refine safe_bind ?_ (fun x => ?_)
    · safe
    · cases x <;> safe
  · unfold Promoted.chol Promoted.cholStep Promoted.cholSum
    repeat' first | exact safe_sqrtTo _ | safe_step

open Promoted in
/-- C109: powers, for every exponent. -/
theorem C109_pow (handled : Option Exc) (w : Nat) (A : Mat (NInt t) n n) (p : Int) :
    MemSafe (Promoted.pow handled w A p) := by
  have h0 : Guard t False 0 := fun h => h.elim
  have hover : ∀ e, OverflowUnless False e → NoFault e := fun e h => h.1 ▸ noFault_overflow
  refine Safe.memSafe (Safe.of_wp (Q := fun _ => True) ?_)
  rcases lt_or_ge p 0 with hp | hp
  · by_cases hmin : p = expMin w
    · unfold Promoted.pow
      rw [hmin, Promoted.powFuel_min]
      exact safe_bind (safe_invN' _ _) (fun _ => noFault_overflow)
    · cases hB : Promoted.invN handled A with
      | error e =>
        unfold Promoted.pow
        rw [Promoted.powFuel_neg _ _ _ _ _ hp hmin, hB]
        have := wp_error_elim (safe_invN' handled A) hB
        exact this
      | ok B =>
        exact wp_mono (wp_narrow_pow_neg h0 le_rfl (by norm_num) handled w A B p hp hmin hB) (fun _ _ => trivial) hover
  · obtain ⟨k, rfl⟩ := Int.eq_ofNat_of_zero_le hp
    unfold Promoted.pow
    exact wp_mono (wp_narrow_powFuel h0 le_rfl (by norm_num) handled w A k _ (by rw [Int.natAbs_natCast]; omega))
      (fun _ _ => trivial) hover

/-- C109: convolutions, for dimensions up to 2^31. -/
theorem C109_conv (A : Mat (NInt t) i j) (B : Mat (NInt t) n n) (k : Mat (NInt t) 3 3) (hi : i ≤ 2 ^ 31)
    (hj : j ≤ 2 ^ 31) (hn : 2 ≤ n) (hn' : n ≤ 2 ^ 31) :
    MemSafe (Promoted.conv2 A k) ∧ MemSafe (Promoted.conv2_full A k) ∧ MemSafe (Promoted.conv2_valid B k) := by
  have h := C92_value A k hi hj
  refine ⟨memSafe_of_overflow fun e he => ?_, memSafe_of_overflow fun e he => ?_, Safe.memSafe ?_⟩
  · have := wp_error_elim h.1 he; exact this
  · have := wp_error_elim h.2 he; exact this
  · unfold Promoted.conv2_valid
    refine safe_bind (wp_mono (C92_value B k hn' hn').1 (fun _ _ => trivial) (fun _ h => h ▸ noFault_overflow))
      (fun C => ?_)
    exact safe_bind (safe_getminor C (by omega) (by omega)) (fun D => safe_getminor D (by omega) (by omega))

open Promoted in
/-- C109: statistics; of the sorting algorithm only that it keeps the number of elements. -/
theorem C109_statistics (A : Mat (NInt t) i j) (sort : List (NInt t) → List (NInt t))
    (hsort : ∀ l, (sort l).length = l.length) (hij : i * j < 2 ^ 64) :
    MemSafe (Promoted.mean A) ∧ MemSafe (Promoted.var A) ∧ MemSafe (Promoted.stddev A) ∧
    (i * j ≠ 0 → MemSafe (Promoted.median sort A)) ∧ MemSafe (Promoted.histogram A) ∧
    MemSafe (Promoted.cumulative_histogram A) := by
  obtain ⟨h, c, hh, hc, -⟩ := C108_cumulative A hij
  refine ⟨(safe_mean' A).memSafe, (safe_var' A).memSafe, Safe.memSafe ?_, fun h0 => Safe.memSafe ?_,
    memSafe_of_ok ⟨h, hh⟩, memSafe_of_ok ⟨c, hc⟩⟩
  · unfold Promoted.stddev
    exact safe_bind (safe_var' A) (fun _ => safe_sqrtTo _)
  · have hvec : ∀ k, k < i * j → Safe NoFault (vecRd (sort (rowMajor A)) k) := by
      intro k hk
      unfold vecRd
      rw [List.getElem?_eq_getElem (by rw [hsort, rowMajor_length]; exact hk)]
      exact safe_ok _
    unfold Promoted.median
    rw [median_elems, ok_bind]
    dsimp only
    refine safe_ite (fun h => ?_) (fun h => hvec _ (by omega))
    have hsz : szSub (i * j / 2) 1 = i * j / 2 - 1 := by
      unfold szSub sizeMod
      omega
    rw [hsz]
    refine safe_bind (hvec _ (by omega)) (fun x => safe_bind (hvec _ (by omega)) (fun y => ?_))
    safe

/-- C109: `compare`. -/
theorem C109_compare (A B : Mat (NInt t) i j) (eps : Fl binary32) : MemSafe (Promoted.compare A B eps) := by
  refine Safe.memSafe ?_
  unfold Promoted.compare Promoted.compareLoop
  refine safe_bind ?_ (fun x => ?_)
  · safe
  · cases x <;> safe

/-! ## No undefined behaviour for 8-bit elements -/

/-- C109: for `signed char` and `unsigned char` elements the operators, `strassen`, `abs`, determinants, convolutions
and powers with an exponent that is not negative return for all contents. Division, `lu` and the inverse return or throw. -/
theorem C109_defined8 (h8 : t.Is8) (e : Exc) (A B : Mat (NInt t) i j) (C : Mat (NInt t) n m) (D : Mat (NInt t) m p)
    (S V : Mat (NInt t) 2 2) (Q : Mat (NInt t) n n) (W : Mat (NInt t) (m + 1) (m + 1)) (s : NInt t) (w k : Nat)
    (K : Mat (NInt t) 3 3) (hi : i ≤ 2 ^ 31) (hj : j ≤ 2 ^ 31) :
    (∃ R, Promoted.sum A B = .ok R) ∧ (∃ R, Promoted.sub A B = .ok R) ∧ (∃ R, Promoted.sumScalar A s = .ok R) ∧
    (∃ R, Promoted.subScalar A s = .ok R) ∧ (∃ R, Promoted.mult C D = .ok R) ∧
    (∃ R, Promoted.multScalar A s = .ok R) ∧ (∃ R, Promoted.abs A = .ok R) ∧ (∃ R, Promoted.strassen S V = .ok R) ∧
    (∃ d, Promoted.det Q = .ok d) ∧ (∃ R, Promoted.pow (some e) w Q (k : Int) = .ok R) ∧
    (∃ R, Promoted.conv2 A K = .ok R) ∧ (∃ R, Promoted.conv2_full A K = .ok R) ∧
    ((∃ R, Promoted.div (some e) A s = .ok R) ∨ Promoted.div (some e) A s = .error (.throws e)) ∧
    ((∃ R, Promoted.lu Q = .ok R) ∨
      Promoted.lu Q = .error (.throws (.overflow_error "Divide by zero exception"))) ∧
    ((∃ R, Promoted.invN (some e) W = .ok R) ∨ Promoted.invN (some e) W = .error (.throws e)) := by
  refine ⟨(C88_add_sub A B).1.imp fun _ h => h.1, (C88_add_sub A B).2.imp fun _ h => h.1,
    (C88_add_sub_scalar A s).1.imp fun _ h => h.1, (C88_add_sub_scalar A s).2.imp fun _ h => h.1,
    (C89_mul (.inr h8) C D).imp fun _ h => h.1, (C88_mul_scalar_returns (.inr h8) A s).imp fun _ h => h.1,
    (C90_abs A).imp fun _ h => h.1, ?_, C96_det8 h8 Q, (C99_pow (.inr h8) _ w Q k).imp fun _ h => h.1,
    (C92_conv2 (.inr h8) A K hi hj).imp fun _ h => h.1, (C92_conv2_full (.inr h8) A K hi hj).imp fun _ h => h.1,
    ?_, ?_, C96_inv_defined (.inl h8) e W⟩
  · rw [C89_strassen h8]
    exact (C89_mul (.inr h8) S V).imp fun _ h => h.1
  · by_cases hs : s.val = 0
    · exact .inr ((C90_div_zero A s hs).2 e)
    · exact .inl ((C90_div (some e) A s hs).imp fun _ h => h.1)
  · rcases C97_lu_defined (.inr h8) Q with ⟨L, U, h⟩ | h
    · exact .inl ⟨_, h⟩
    · exact .inr h.1

/-- The largest elements: 255 * 255 + 255 * 255 wraps, nothing overflows. -/
example : Promoted.mult (Mat.const ⟨255, by decide⟩ : Mat (NInt .uint8) 1 2)
    (Mat.const ⟨255, by decide⟩ : Mat (NInt .uint8) 2 1) = .ok (Mat.const ⟨2, by decide⟩) := by decide +kernel
/-- `chol` is not among these functions: the root of a negative number. -/
example : Promoted.chol (Mat.const ⟨-1, by decide⟩ : Mat (NInt .int8) 1 1) = .error (.ub .domain) := by
  decide +kernel

end MatrixLibs
