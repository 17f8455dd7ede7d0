import Verif.Proof.Safety

/-!
# Property C63: memory safety of the whole API

One theorem per header. The element type is arbitrary: its operations may return anything and may
stop in any of the ways listed in `ScalarStop`.
-/

namespace MatrixLibs

set_option linter.unusedSectionVars false

open CScalar (ofInt)

theorem noFault_illFormed : NoFault .illFormed := by rintro (h | h | h | h) <;> cases h

theorem noFault_overflow : NoFault (.ub .signedOverflow) := by rintro (h | h | h | h) <;> cases h

section
variable {T : Type} [Inhabited T] [CScalar T] [ScalarStops T] {i j n : Nat}

/-- C63: `matrix_fill.hpp`, `matrix_zeros.hpp`, `matrix_ones.hpp`, `matrix_eye.hpp`. -/
theorem C63_contents (d : T) (k : Nat) :
    MemSafe (fill i j d) ∧ MemSafe (zeros (T := T) i j) ∧ MemSafe (ones (T := T) i j) ∧
      MemSafe (onesUInt k i j) ∧ MemSafe (eye n d) ∧ MemSafe (eye1 (T := T) n) :=
  ⟨(safe_fill d).memSafe, safe_zeros.memSafe, (safe_ones fun _ => noFault_illFormed).memSafe, (safe_fill _).memSafe,
    (safe_eye d).memSafe, (safe_eye _).memSafe⟩

/-- C63: `matrix_trans.hpp`. -/
theorem C63_trans (A : Mat T i j) : MemSafe (trans A) := (safe_trans A).memSafe

/-- C63: `matrix_swap.hpp`, for indices in range. -/
theorem C63_swap (A : Mat T i j) (r1 r2 c1 c2 : Nat) (hr1 : r1 < i) (hr2 : r2 < i) (hc1 : c1 < j)
    (hc2 : c2 < j) : MemSafe (swap_rows A r1 r2) ∧ MemSafe (swap_cols A c1 c2) :=
  ⟨(safe_swap_rows A hr1 hr2).memSafe, (safe_swap_cols A hc1 hc2).memSafe⟩

/-- C63: `matrix_concatenate.hpp`. -/
theorem C63_concatenate {i2 j2 : Nat} (A B : Mat T n n) (C : Mat T i j) (D : Mat T i2 j)
    (E : Mat T i j2) :
    MemSafe (concatenateSquare A B) ∧ MemSafe (concatenateRows C D) ∧
      MemSafe (concatenateCols C E) ∧ MemSafe (concatenateV A B) ∧ MemSafe (concatenateH A B) :=
  ⟨(safe_concatenateSquare A B).memSafe, (safe_concatenateRows C D).memSafe,
    (safe_concatenateCols C E).memSafe, (safe_concatenateV A B).memSafe,
    (safe_concatenateH A B).memSafe⟩

/-- C63: `getminor`, for indices in range. -/
theorem C63_getminor (A : Mat T n n) (a b : Nat) (ha : a < n) (hb : b < n) :
    MemSafe (getminor A a b) := (safe_getminor A ha hb).memSafe

/-- C63: `matrix_sum.hpp`. -/
theorem C63_sum (A B : Mat T i j) (s : T) :
    MemSafe (opAdd A B) ∧ MemSafe (opAddScalar A s) ∧ MemSafe (opScalarAdd s A) ∧
      MemSafe (opPostInc A) :=
  ⟨(safe_sum A B).memSafe, (safe_sumScalar A s).memSafe, (safe_sumScalar A s).memSafe,
    (safe_opPostInc A).memSafe⟩

/-- C63: `matrix_sub.hpp`. -/
theorem C63_sub (A B : Mat T i j) (s : T) :
    MemSafe (opSub A B) ∧ MemSafe (opSubScalar A s) ∧ MemSafe (opPostDec A) :=
  ⟨(safe_sub A B).memSafe, (safe_subScalar A s).memSafe, (safe_opPostDec A).memSafe⟩

/-- C63: `matrix_mult.hpp`, `matrix_strassen.hpp`. -/
theorem C63_mult {m p : Nat} (A : Mat T n m) (B : Mat T m p) (C D : Mat T 2 2) (s : T) :
    MemSafe (opMul A B) ∧ MemSafe (opMulScalar A s) ∧ MemSafe (opScalarMul s A) ∧
      MemSafe (strassen C D) :=
  ⟨(safe_mult A B).memSafe, (safe_multScalar A s).memSafe, (safe_multScalar A s).memSafe,
    (safe_strassen C D).memSafe⟩

/-- C63: `matrix_div.hpp`, `matrix_abs.hpp`. -/
theorem C63_div_abs (handled : Option Exc) (A : Mat T i j) (s : T) :
    MemSafe (opDiv handled A s) ∧ MemSafe (abs A) :=
  ⟨(safe_div handled A s).memSafe, (safe_abs A).memSafe⟩

/-- C63: `matrix_det.hpp`, `matrix_inv.hpp`. -/
theorem C63_det_inv (handled : Option Exc) (A : Mat T n n) :
    MemSafe (det A) ∧ MemSafe (inv handled A) :=
  ⟨(safe_detA A).memSafe, (safe_inv handled A fun _ => noFault_illFormed).memSafe⟩

/-- C63: `matrix_lu.hpp`, `matrix_cholesky.hpp`. -/
theorem C63_decompositions (A : Mat T n n) :
    MemSafe (lu A) ∧ MemSafe (chol A) ∧ MemSafe (isSymetric A) :=
  ⟨(safe_lu A).memSafe, (safe_chol A).memSafe, (safe_isSymetric A).memSafe⟩

/-- C63: `matrix_pow.hpp`, for every exponent. -/
theorem C63_pow (handled : Option Exc) (w : Nat) (A : Mat T n n) (p : Int) :
    MemSafe (pow handled w A p) := 
  (safe_pow handled w A p (fun _ => noFault_illFormed) (fun _ => noFault_overflow)).memSafe

/-- C63: `matrix_conv2.hpp`, for dimensions up to 2^31 (in fact below 2^32 - 1). -/
theorem C63_conv2 (A : Mat T i j) (B : Mat T n n) (kernel : Mat T 3 3) (hi : i + 1 < 2 ^ 32)
    (hj : j + 1 < 2 ^ 32) (hn : 2 ≤ n) (hn' : n < 2 ^ 32) :
    MemSafe (conv2 A kernel) ∧ MemSafe (conv2_full A kernel) ∧ MemSafe (conv2_valid B kernel) :=
  ⟨(safe_conv2 A kernel (by omega) (by omega)).memSafe, (safe_conv2_full A kernel hi hj).memSafe,
    (safe_conv2_valid B kernel hn hn').memSafe⟩

/-- C63: `matrix_histogram.hpp`, if `<` orders the elements. -/
theorem C63_histogram (A : Mat T i j) (hw : StrictWeak A) :
    MemSafe (histogram A) ∧ MemSafe (cumulative_histogram A) :=
  ⟨(safe_histogram A hw).memSafe, (safe_cumulative A hw).memSafe⟩

/-- C63: `matrix_mean.hpp`, `matrix_var.hpp`, `matrix_stddev.hpp`. -/
theorem C63_statistics (A : Mat T i j) : MemSafe (mean A) ∧ MemSafe (var A) ∧ MemSafe (stddev A) :=
  ⟨(safe_mean A).memSafe, (safe_var A).memSafe, (safe_stddev A).memSafe⟩

/-- C63: `matrix_median.hpp`, for a non-empty matrix whose elements are ordered by `<`; of the sorting
algorithm only that it keeps the number of elements. -/
theorem C63_median (sort : List T → List T) (hsort : ∀ l, (sort l).length = l.length)
    (A : Mat T i j) (hw : StrictWeak A) (h0 : i * j ≠ 0) (hij : i * j < 2 ^ 64) :
    MemSafe (median sort A) :=
  (safe_median sort hsort A hw h0 hij).memSafe

/-- C63: `matrix_utils.hpp`. -/
theorem C63_utils (A B : Mat T i j) (C : Mat (BitVec 32) n n) (e : T) :
    MemSafe (arrayEq A B) ∧ MemSafe (compare A B e) ∧ MemSafe (isIdentity C) := by
  refine ⟨(safe_arrayEq A B).memSafe, (safe_compare A B e).memSafe, Safe.memSafe ?_⟩
  unfold isIdentity
  exact safe_bind (safe_eye _) (fun I => safe_arrayEq C I)

/-- C63: `matrix_print.hpp`. -/
theorem C63_print (fmt : T → List Char) (out : List Char) (A : Mat T i j) :
    MemSafe (print fmt out A) := (safe_print fmt out A).memSafe

end

/-- The claim is not about every conceivable program: an out-of-range `swap_rows` is not safe. -/
example : ¬ MemSafe (swap_rows (!![1, 2; 3, 4] : Mat ℚ 2 2) 0 2) := by
  intro h
  refine h (.ub .outOfBounds) ?_ (.inl rfl)
  decide +kernel

/-- `int` is one of the element types covered. -/
example [Inhabited (SInt 32)] (A : Mat (SInt 32) 5 5) : MemSafe (det A) := (C63_det_inv none A).1

end MatrixLibs
