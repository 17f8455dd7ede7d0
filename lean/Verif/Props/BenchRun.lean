import Verif.Props.Bench
import Verif.Props.Float

/-!
# Property C79: the determinant, inverse and multiplication benchmarks

The draws of the random engine are arbitrary sequences `draw`; for the `int` benchmarks they lie in
`[0, INT_MAX]`, the range of `std::uniform_int_distribution<int>`.
-/

namespace MatrixLibs

set_option linter.unusedSectionVars false

open CScalar (ofInt)

section
variable {T : Type} [Inhabited T] [CScalar T]

theorem randMatrix_eq (draw : Nat → T) (r c : Nat) :
    randMatrix draw r c = .ok (.of fun a b => draw (a.val * c + b.val)) := by
  unfold randMatrix
  rw [C61_setRand, ok_bind]
  have h := elementwise_loop (valueInit r c)
    (g := fun it jt => rdInit (.of fun (a : Fin r) (b : Fin c) => some (draw (a.val * c + b.val))) it jt)
    (f := fun a b => .ok (draw (a.val * c + b.val))) (fun a b => by unfold rdInit; rw [rd_fin]; rfl)
  exact h.eq_ok fun a b => rfl

theorem benchLoop_ok {α : Type} (iters : Nat) {call : Res α} (h : ∃ a, call = .ok a) :
    benchLoop iters call = .ok () := by
  obtain ⟨a, rfl⟩ := h
  apply wp_eq
  unfold benchLoop
  exact wp_forUp (fun _ _ => True) (Nat.zero_le _) trivial (fun _ _ _ _ _ => trivial)
    (fun _ _ => rfl)

theorem benchLoop_zero {α : Type} (call : Res α) : benchLoop 0 call = .ok () := rfl

theorem benchLoop_error {α : Type} {iters : Nat} (hi : iters ≠ 0) (e : Stop) :
    benchLoop iters (.error e : Res α) = .error e :=
  eq_error_of_wp (wp_forUp_stops 0 (Nat.zero_le _) (by omega) (fun _ _ _ h => by omega)
    (fun _ => rfl))

end

section floats
variable {F : Fmt} {n : Nat}

/-- C64, the exact behaviour of `inv` on floating point elements: a 1x1 matrix always has an inverse; for
`n = 2, 3` the divide-by-zero exception is thrown iff `det(A)` compares equal to zero; for `n ≥ 4` that case
terminates the program, or rethrows the exception being handled. -/
theorem C64_inv_iff (handled : Option Exc) (A : Mat (Fl F) n n) (hn : n ≠ 0) :
    ∃ d, det A = .ok d ∧
      (n = 1 ∨ Fl.eq d (Fl.ofInt 0) = false → Returns (inv handled A)) ∧
      (Fl.eq d (Fl.ofInt 0) = true → n = 2 ∨ n = 3 →
        inv handled A = .error (.throws (.overflow_error "Divide by zero exception"))) ∧
      (Fl.eq d (Fl.ofInt 0) = true → 4 ≤ n → inv handled A = match handled with
        | none => .error .terminates
        | some e => .error (.throws e)) := by
  match n, A with
  | 0, _ => exact absurd rfl hn
  | 1, A =>
    refine ⟨A 0 0, rfl, fun _ => ⟨_, rfl⟩, fun _ h => by omega, fun _ h => by omega⟩
  | 2, A =>
    obtain ⟨d, hd⟩ := C64_det A
    have hd' : det2 A = .ok d := hd
    refine ⟨d, hd, fun h => ?_, fun h _ => ?_, fun _ h => by omega⟩
    · have h : Fl.eq d (Fl.ofInt 0) = false := h.resolve_left (by omega)
      show Returns (inv2 handled A)
      unfold inv2
      rw [hd', ok_bind, if_neg (by rw [show CScalar.eq d (ofInt 0) = false from h]; decide)]
      exact (C64_div handled _ d).1 h
    · show inv2 handled A = _
      unfold inv2
      rw [hd', ok_bind, if_pos (show CScalar.eq d (ofInt 0) = true from h)]
      rfl
  | 3, A =>
    obtain ⟨d, hd⟩ := C64_det A
    have hd' : det3 A = .ok d := hd
    refine ⟨d, hd, fun h => ?_, fun h _ => ?_, fun _ h => by omega⟩
    · have h : Fl.eq d (Fl.ofInt 0) = false := h.resolve_left (by omega)
      show Returns (inv3 handled A)
      unfold inv3
      rw [hd', ok_bind, if_neg (by rw [show CScalar.eq d (ofInt 0) = false from h]; decide)]
      exact (C64_div handled _ d).1 h
    · show inv3 handled A = _
      unfold inv3
      rw [hd', ok_bind, if_pos (show CScalar.eq d (ofInt 0) = true from h)]
      rfl
  | m + 4, A =>
    obtain ⟨d, hd⟩ := C64_det A
    have key : ∃ C, inv handled A = opDiv handled C d := by
      show ∃ C, invN handled A = opDiv handled C d
      unfold invN
      rw [hd, ok_bind]
      obtain ⟨B, hB⟩ : Returns (forUp 0 (m + 4) (valueInit (m + 4) (m + 4)) fun i invA =>
          forUp 0 (m + 4) invA fun j invA => do
            let d ← det (← getminor A i j)
            wr invA i j (← CScalar.mul (ofInt (if (i + j) % 2 ≠ 0 then -1 else 1)) d)) := by
        apply Safe.returns
        refine safe_forUp (fun i S _ hi => safe_forUp (fun j S _ hj => ?_))
        refine safe_bind (safe_getminor A hi hj) (fun M => safe_bind (safe_detA M) (fun d => ?_))
        exact safe_bind (safe_mul _ _) (fun x => safe_wr hi hj)
      rw [hB, ok_bind]
      obtain ⟨C, hC⟩ : Returns (trans B) := (safe_trans B).returns
      exact ⟨C, by rw [hC, ok_bind]⟩
    obtain ⟨C, hC⟩ := key
    refine ⟨d, hd, fun h => ?_, fun _ h => by omega, fun h _ => ?_⟩
    · rw [hC]
      exact (C64_div handled C d).1 (h.resolve_left (by omega))
    · rw [hC]
      cases handled with
      | none => exact (C22_div_zero_terminates C d h).1
      | some e => exact (C22_div_zero_rethrows e C d h).1

/-- C79: the `det` benchmark completes, whatever is drawn. -/
theorem C79_det (draw : Nat → Fl F) (n iters : Nat) : benchDet draw n iters = .ok () := by
  unfold benchDet
  rw [randMatrix_eq, ok_bind]
  exact benchLoop_ok iters (C64_det _)

/-- C79: the `inv` benchmark (the sizes used are at least 10) completes, unless the determinant of the matrix
drawn compares equal to zero: then the first iteration terminates the program. -/
theorem C79_inv (draw : Nat → Fl F) (n iters : Nat) (hn : 4 ≤ n) (hi : iters ≠ 0) :
    ∃ d, det (Matrix.of fun (a b : Fin n) => draw (a.val * n + b.val)) = .ok d ∧
      benchInv draw n iters =
        if Fl.eq d (Fl.ofInt 0) = true then .error .terminates else .ok () := by
  obtain ⟨d, hd, h1, -, h3⟩ := C64_inv_iff none
    (Matrix.of fun (a b : Fin n) => draw (a.val * n + b.val)) (by omega)
  refine ⟨d, hd, ?_⟩
  unfold benchInv
  rw [randMatrix_eq, ok_bind]
  split_ifs with h
  · rw [h3 h hn]
    exact benchLoop_error hi _
  · exact benchLoop_ok iters (h1 (.inr (by simpa using h)))

/-- The draws may all be zero. -/
example : benchInv (fun _ => (Fl.ofInt 0 : Fl binary32)) 10 1 = .error .terminates := by
  obtain ⟨d, hd, h⟩ := C79_inv (fun _ => (Fl.ofInt 0 : Fl binary32)) 10 1 (by norm_num) (by norm_num)
  have e : det (Matrix.of fun (_ _ : Fin 10) => (Fl.ofInt 0 : Fl binary32)) = .ok (Fl.ofInt 0) := by
    decide +kernel
  rw [e] at hd
  rw [h, ← Except.ok.inj hd]
  rfl

end floats

section ints
variable {w : Nat}

theorem partial_le {n : Nat} {f : Fin n → Int} (hf : ∀ k, 0 ≤ f k) (k : Fin n) :
    f k ≤ ∑ k', f k' ∧ ∑ k' ∈ Finset.Iic k, f k' ≤ ∑ k', f k' ∧ 0 ≤ ∑ k' ∈ Finset.Iic k, f k' :=
  ⟨Finset.single_le_sum (fun i _ => hf i) (Finset.mem_univ k),
    Finset.sum_le_sum_of_subset_of_nonneg (Finset.subset_univ _) (fun i _ _ => hf i),
    Finset.sum_nonneg fun i _ => hf i⟩

theorem benchMultiply_eq (draw draw' : Nat → SInt w) (n iters : Nat) :
    benchMultiply draw draw' n iters = benchLoop iters
      (opMul (Matrix.of fun (a b : Fin n) => draw (a.val * n + b.val))
        (Matrix.of fun (a b : Fin n) => draw' (a.val * n + b.val))) := by
  unfold benchMultiply
  rw [randMatrix_eq, ok_bind, randMatrix_eq, ok_bind]
  rfl

/-- C79: the `multiply` benchmark, for draws that are not negative, completes iff every element of the
product fits; otherwise the first iteration overflows. -/
theorem C79_multiply (hw : 2 ≤ w) (draw draw' : Nat → SInt w) (n iters : Nat) (hi : iters ≠ 0)
    (h0 : ∀ k, 0 ≤ (draw k).val) (h0' : ∀ k, 0 ≤ (draw' k).val) :
    ((∀ a b : Fin n, ∑ k : Fin n, (draw (a.val * n + k.val)).val * (draw' (k.val * n + b.val)).val <
        2 ^ (w - 1)) → benchMultiply draw draw' n iters = .ok ()) ∧
    (¬ (∀ a b : Fin n, ∑ k : Fin n, (draw (a.val * n + k.val)).val * (draw' (k.val * n + b.val)).val <
        2 ^ (w - 1)) → benchMultiply draw draw' n iters = .error (.ub .signedOverflow)) := by
  rw [benchMultiply_eq]
  have hdef := C20_mul_defined_iff hw (Matrix.of fun (a b : Fin n) => draw (a.val * n + b.val))
    (Matrix.of fun (a b : Fin n) => draw' (a.val * n + b.val))
  simp only [Matrix.of_apply] at hdef
  have hp : (0 : Int) < 2 ^ (w - 1) := by positivity
  constructor
  · intro h
    refine benchLoop_ok iters (hdef.mpr fun a b k => ?_)
    have hnn : ∀ k : Fin n, 0 ≤ (draw (a.val * n + k.val)).val * (draw' (k.val * n + b.val)).val :=
      fun k => mul_nonneg (h0 _) (h0' _)
    obtain ⟨h1, h2, h3⟩ := partial_le hnn k
    have h4 := h a b
    have h5 := hnn k
    unfold InRange
    exact ⟨⟨by omega, by omega⟩, ⟨by omega, by omega⟩⟩
  · intro h
    cases hx : opMul (Matrix.of fun (a b : Fin n) => draw (a.val * n + b.val))
        (Matrix.of fun (a b : Fin n) => draw' (a.val * n + b.val)) with
    | ok R =>
      refine absurd (fun a b => ?_) h
      have hr := C20_mul_value hw _ _ R hx a b
      simp only [Matrix.of_apply] at hr
      rw [← hr]
      exact (R a b).inRange.2
    | error e =>
      rw [C20_mul_fault hw _ _ e hx]
      exact benchLoop_error hi _

/-- C79: two draws of at least `2^16` suffice. -/
theorem C79_multiply_overflows (draw draw' : Nat → SInt 32) (n iters : Nat) (hn : n ≠ 0) (hi : iters ≠ 0)
    (h0 : ∀ k, 0 ≤ (draw k).val) (h0' : ∀ k, 0 ≤ (draw' k).val)
    (h : 2 ^ 16 ≤ (draw 0).val) (h' : 2 ^ 16 ≤ (draw' 0).val) :
    benchMultiply draw draw' n iters = .error (.ub .signedOverflow) := by
  refine (C79_multiply (by norm_num) draw draw' n iters hi h0 h0').2 fun hall => ?_
  have hpos : 0 < n := Nat.pos_of_ne_zero hn
  have h1 := hall ⟨0, hpos⟩ ⟨0, hpos⟩
  have h2 := (partial_le (f := fun k : Fin n => (draw ((0 : Nat) * n + k.val)).val *
    (draw' (k.val * n + 0)).val) (fun k => mul_nonneg (h0 _) (h0' _)) ⟨0, hpos⟩).1
  simp only [zero_mul, zero_add, add_zero] at h1 h2
  have h3 : (2 ^ 16 * 2 ^ 16 : Int) ≤ (draw 0).val * (draw' 0).val :=
    mul_le_mul h h' (by norm_num) (h0 0)
  norm_num at h1 h3
  omega

example : benchMultiply (fun _ => (SInt.wrap 3 : SInt 32)) (fun _ => SInt.wrap 5) 100 7 = .ok () := by
  have e3 : (SInt.wrap 3 : SInt 32).val = 3 := by decide +kernel
  have e5 : (SInt.wrap 5 : SInt 32).val = 5 := by decide +kernel
  refine (C79_multiply (by norm_num) _ _ 100 7 (by norm_num) (fun _ => by rw [e3]; norm_num)
    (fun _ => by rw [e5]; norm_num)).1 fun a b => ?_
  simp only [e3, e5]
  simp

/-- Every integer computed by `strassen`, `matrix_strassen.hpp:39-50`: ten sums and differences of elements,
seven products, four partial sums and the four results. -/
def strassenSteps (a00 a01 a10 a11 b00 b01 b10 b11 : Int) : List Int :=
  let M1 := a00 * (b01 - b11)
  let M2 := (a00 + a01) * b11
  let M3 := (a10 + a11) * b00
  let M4 := a11 * (b10 - b00)
  let M5 := (a00 + a11) * (b00 + b11)
  let M6 := (a01 - a11) * (b10 + b11)
  let M7 := (a00 - a10) * (b00 + b01)
  [b01 - b11, a00 + a01, a10 + a11, b10 - b00, a00 + a11, b00 + b11, a01 - a11, b10 + b11, a00 - a10,
    b00 + b01, M1, M2, M3, M4, M5, M6, M7, M5 + M4, M5 + M4 - M2, M1 + M5, M3 + M7,
    M5 + M4 - M2 + M6, M1 + M2, M3 + M4, (M1 + M5) - (M3 + M7)]

theorem mk_bind_iff {α : Type} {k : Int} {f : SInt w → Res α} :
    (∃ R, (SInt.checked k >>= f) = .ok R) ↔ ∃ h : InRange w k, ∃ R, f ⟨k, h⟩ = .ok R := by
  unfold SInt.checked
  by_cases h : InRange w k
  · rw [dif_pos h, ok_bind]
    exact ⟨fun hr => ⟨h, hr⟩, fun ⟨_, hr⟩ => hr⟩
  · rw [dif_neg h, error_bind]
    exact ⟨fun ⟨_, hr⟩ => (by cases hr), fun ⟨h', _⟩ => absurd h' h⟩

/-- C21: `strassen` returns iff every intermediate result fits. -/
theorem C21_strassen_defined_iff (A B : Mat (SInt w) 2 2) :
    (∃ R, strassen A B = .ok R) ↔
      ∀ k ∈ strassenSteps (A 0 0).val (A 0 1).val (A 1 0).val (A 1 1).val
        (B 0 0).val (B 0 1).val (B 1 0).val (B 1 1).val, InRange w k := by
  have l0 : (0 : Nat) < 2 := by norm_num
  have l1 : (1 : Nat) < 2 := by norm_num
  unfold strassen
  rw [rd_eq l0 l0, ok_bind, rd_eq l0 l1, ok_bind, rd_eq l1 l0, ok_bind, rd_eq l1 l1, ok_bind,
    rd_eq l0 l0, ok_bind, rd_eq l0 l1, ok_bind, rd_eq l1 l0, ok_bind, rd_eq l1 l1, ok_bind]
  simp only [CScalar.add, CScalar.sub, CScalar.mul, mk_bind_iff, wr_eq l0 l0, wr_eq l0 l1, wr_eq l1 l0,
    wr_eq l1 l1, ok_bind, strassenSteps, List.forall_mem_cons]
  simp only [Except.ok.injEq, exists_eq', exists_prop, and_true, List.not_mem_nil, false_imp_iff,
    implies_true]
  constructor <;> intro h <;> obtain ⟨h1, h2, h3, h4, h5, h6, h7, h8, h9, h10, h11, h12, h13, h14, h15,
    h16, h17, h18, h19, h20, h21, h22, h23, h24, h25⟩ := h <;> refine ⟨?_, ?_, ?_, ?_, ?_, ?_, ?_, ?_, ?_,
      ?_, ?_, ?_, ?_, ?_, ?_, ?_, ?_, ?_, ?_, ?_, ?_, ?_, ?_, ?_, ?_⟩ <;> assumption

/-- C79: `multiply_2_2_strassen` completes iff every intermediate result fits; otherwise it overflows. -/
theorem C79_strassen (hw : 2 ≤ w) (draw draw' : Nat → SInt w) (iters : Nat) (hi : iters ≠ 0) :
    multiply_2_2_strassen draw draw' iters =
      if ∀ k ∈ strassenSteps (draw 0).val (draw 1).val (draw 2).val (draw 3).val
        (draw' 0).val (draw' 1).val (draw' 2).val (draw' 3).val, InRange w k
      then .ok () else .error (.ub .signedOverflow) := by
  unfold multiply_2_2_strassen
  rw [randMatrix_eq, ok_bind, randMatrix_eq, ok_bind]
  have hdef := C21_strassen_defined_iff (Matrix.of fun (a b : Fin 2) => draw (a.val * 2 + b.val))
    (Matrix.of fun (a b : Fin 2) => draw' (a.val * 2 + b.val))
  split_ifs with h
  · exact benchLoop_ok iters (hdef.mpr h)
  · cases hx : strassen (Matrix.of fun (a b : Fin 2) => draw (a.val * 2 + b.val))
        (Matrix.of fun (a b : Fin 2) => draw' (a.val * 2 + b.val)) with
    | ok R => exact absurd (hdef.mp ⟨R, hx⟩) h
    | error e =>
      rw [C21_strassen_signed_fault hw _ _ e hx]
      exact benchLoop_error hi _

example : multiply_2_2_strassen (fun k => (SInt.wrap k : SInt 32)) (fun k => SInt.wrap (k + 5)) 3 = .ok () := by
  rw [C79_strassen (by norm_num) _ _ 3 (by norm_num)]
  decide +kernel

end ints

end MatrixLibs
