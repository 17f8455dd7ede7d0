import Verif.Proof.Nested
import Verif.Proof.NestedNarrow
import Verif.Props.FloatFactor
import Verif.Props.IntLu
import Mathlib.LinearAlgebra.Matrix.Notation

/-!
# Factors of leading blocks (C107)
-/

namespace MatrixLibs

set_option linter.unusedSectionVars false

variable {T : Type} [Inhabited T] [CScalar T] {F : Fmt} {n k : Nat}

/-- C107: if `lu` of the whole matrix returns, `lu` of a leading block returns the leading blocks of
the factors. -/
theorem C107_lu (h : k ≤ n) (A L U : Mat T n n) (hlu : lu A = .ok (L, U)) :
    lu (leading h A) = .ok (leading h L, leading h U) := lu_leading h A _ hlu

/-- C107: in particular the factors of the block do not depend on the rest of the matrix. -/
theorem C107_lu_independent (h : k ≤ n) (A B L U L' U' : Mat T n n) (hAB : leading h A = leading h B)
    (hA : lu A = .ok (L, U)) (hB : lu B = .ok (L', U')) : leading h L = leading h L' ∧ leading h U = leading h U' := by
  have h1 := C107_lu h A L U hA
  rw [hAB, C107_lu h B L' U' hB] at h1
  have h2 := Prod.mk.inj (Except.ok.inj h1)
  exact ⟨h2.1.symm, h2.2.symm⟩

/-- C107: for floating point elements, if `lu` of a leading block throws, so does `lu` of the whole. -/
theorem C107_lu_throws (h : k ≤ n) (A : Mat (Fl F) n n)
    (ht : lu (leading h A) = .error (.throws (.overflow_error "Divide by zero exception"))) :
    lu A = .error (.throws (.overflow_error "Divide by zero exception")) := by
  rcases C74_lu_stops A with ⟨L, U, hA⟩ | hA
  · rw [C107_lu h A L U hA] at ht
    cases ht
  · exact hA

/-- C107: `chol` of a leading block is the leading block of `chol` of the whole matrix. -/
theorem C107_chol (h : k ≤ n) (A L : Mat T n n) (hc : chol A = .ok L) : chol (leading h A) = .ok (leading h L) :=
  chol_leading h A _ hc

/-- C107: whatever stops `chol` of a leading block stops `chol` of the whole matrix in the same way. -/
theorem C107_chol_stops (h : k ≤ n) (A : Mat T n n) (e : Stop) (he : chol (leading h A) = .error e) :
    chol A = .error e := chol_leading_error h A he

/-! Elements narrower than `int`. -/

/-- C107: `lu` of elements narrower than `int`. -/
theorem C107_lu_narrow {t : Narrow} (h : k ≤ n) (A L U : Mat (NInt t) n n) (hlu : Promoted.lu A = .ok (L, U)) :
    Promoted.lu (leading h A) = .ok (leading h L, leading h U) := Promoted.lu_leading h A _ hlu

/-- C107: `chol` of elements narrower than `int`. -/
theorem C107_chol_narrow {t : Narrow} (h : k ≤ n) (A : Mat (NInt t) n n) :
    (∀ L, Promoted.chol A = .ok L → Promoted.chol (leading h A) = .ok (leading h L)) ∧
    (∀ e, Promoted.chol (leading h A) = .error e → Promoted.chol A = .error e) :=
  ⟨Promoted.chol_leading h A, fun _ => Promoted.chol_leading_error h A⟩

/-! The block of order 2 of a matrix of order 3, with rounding; and a singular block. -/

example : leading (by decide) (!![1, 2, 3; 4, 5, 6; 7, 8, 9] : Mat ℤ 3 3) = (!![1, 2; 4, 5] : Mat ℤ 2 2) := by
  decide +kernel
example : ∃ L U, lu (!![Fl.ofInt 3, Fl.ofInt 1, Fl.ofInt 0; Fl.ofInt 1, Fl.ofInt 1, Fl.ofInt 0;
    Fl.ofInt 0, Fl.ofInt 0, Fl.ofInt 7] : Mat (Fl binary32) 3 3) = .ok (L, U) := by
  refine ⟨!![Fl.ofInt 1, Fl.ofInt 0, Fl.ofInt 0; (Fl.ofInt 11184811).div (Fl.ofInt 33554432), Fl.ofInt 1, Fl.ofInt 0;
    Fl.ofInt 0, Fl.ofInt 0, Fl.ofInt 1],
    !![Fl.ofInt 3, Fl.ofInt 1, Fl.ofInt 0; Fl.ofInt 0, (Fl.ofInt 11184810).div (Fl.ofInt 16777216), Fl.ofInt 0;
      Fl.ofInt 0, Fl.ofInt 0, Fl.ofInt 7], by decide +kernel⟩
/-- A zero in the corner: both throw, although the matrix is regular. -/
example : lu (!![Fl.ofInt 0, Fl.ofInt 1; Fl.ofInt 1, Fl.ofInt 0] : Mat (Fl binary32) 2 2) =
    .error (.throws (.overflow_error "Divide by zero exception")) :=
  C107_lu_throws (k := 1) (by decide) _ (by decide +kernel)
/-- The square root of -1 in `chol` of 1x1, of type `int`. -/
example : chol (leading (k := 1) (by decide) (!![SInt.wrap (-1), SInt.wrap 2; SInt.wrap 2, SInt.wrap 5] :
    Mat (SInt 32) 2 2)) = .error (.ub .domain) := by decide +kernel

end MatrixLibs
