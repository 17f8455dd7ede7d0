import Verif.Model.Stats
import Verif.Proof.Arith
import Verif.Proof.Scan
import Mathlib.LinearAlgebra.Matrix.Notation

/-!
# Properties C40, C41: isIdentity, compare
-/

namespace MatrixLibs

set_option linter.unusedSectionVars false

/-! ## C40 -/

section
variable {T : Type} [Inhabited T] [CScalar T] {r c : Nat}

/-- `A == B` compares every pair of elements with `==`. -/
theorem arrayEq_ok (A B : Mat T r c) :
    ∃ b, arrayEq A B = .ok b ∧ (b = true ↔ ∀ i j, CScalar.eq (A i j) (B i j) = true) := by
  unfold arrayEq
  refine scan_ok (fun it jt => do
      if CScalar.eq (← rd A it jt) (← rd B it jt) then .ok (.cont ())
      else .ok (.ret false)) (fun i j => CScalar.eq (A i j) (B i j) = true) ?_ ?_
  · intro a b h
    rw [rd_fin, ok_bind, rd_fin, ok_bind, if_pos h]
  · intro a b h
    rw [rd_fin, ok_bind, rd_fin, ok_bind, if_neg h]

/-- C40: `A == B` of two matrices is true iff they are equal, for every element type whose `==`
is equality. -/
theorem C40_array_eq (A B : Mat T r c) (heq : ∀ a b : T, CScalar.eq a b = true ↔ a = b) :
    ∃ b, arrayEq A B = .ok b ∧ (b = true ↔ A = B) := by
  obtain ⟨b, hb, h⟩ := arrayEq_ok A B
  refine ⟨b, hb, h.trans ⟨fun h => ?_, fun h i j => ?_⟩⟩
  · ext i j
    exact (heq _ _).mp (h i j)
  · rw [heq, h]

end

/-- C40: `isIdentity(A)` is true iff `A` is the identity matrix: ones on the diagonal and zeros
elsewhere. -/
theorem C40_isIdentity {n : Nat} (A : Mat (BitVec 32) n n) :
    ∃ b, isIdentity A = .ok b ∧
      (b = true ↔ ∀ i j, A i j = if i = j then 1 else 0) := by
  unfold isIdentity
  rw [eye1_exact, ok_bind]
  obtain ⟨b, hb, h⟩ := C40_array_eq A 1 (fun a b => ExactRing.eq_iff a b)
  refine ⟨b, hb, h.trans ⟨fun h i j => ?_, fun h => ?_⟩⟩
  · rw [h, Matrix.one_apply]
  · ext i j
    rw [h, Matrix.one_apply]

example : isIdentity (!![1, 0; 0, 1] : Mat (BitVec 32) 2 2) = .ok true := by decide +kernel
example : isIdentity (!![1, 0; 2, 1] : Mat (BitVec 32) 2 2) = .ok false := by decide +kernel
example : isIdentity (!![1, 0; 0, 3] : Mat (BitVec 32) 2 2) = .ok false := by decide +kernel

/-! ## C41 -/

section
variable {K : Type} [Field K] [LinearOrder K] [IsStrictOrderedRing K] [Inhabited K] [CScalar K]
  [ExactOrdered K] {r c : Nat}

/-- C41: `compare(A, B, eps)` is true iff all differences are at most `eps`. -/
theorem C41_compare (A B : Mat K r c) (eps : K) :
    ∃ b, compare A B eps = .ok b ∧ (b = true ↔ ∀ i j, |A i j - B i j| ≤ eps) := by
  unfold compare compareLoop
  refine scan_ok (fun it jt => do
      let d ← CScalar.abs (← CScalar.sub (← rd A it jt) (← rd B it jt))
      if CScalar.lt eps d then .ok (.ret false)
      else .ok (.cont ())) (fun i j => |A i j - B i j| ≤ eps) ?_ ?_
  · intro a b h
    rw [rd_fin, ok_bind, rd_fin, ok_bind, ExactRing.sub_eq, ok_bind, ExactOrdered.abs_eq, ok_bind,
      if_neg (fun h' => absurd ((ExactOrdered.lt_iff _ _).mp h') (not_lt.mpr h))]
  · intro a b h
    rw [rd_fin, ok_bind, rd_fin, ok_bind, ExactRing.sub_eq, ok_bind, ExactOrdered.abs_eq, ok_bind,
      if_pos ((ExactOrdered.lt_iff _ _).mpr (not_le.mp h))]

theorem compare_true (A B : Mat K r c) (eps : K) :
    compare A B eps = .ok true ↔ ∀ i j, |A i j - B i j| ≤ eps := by
  obtain ⟨b, hb, h⟩ := C41_compare A B eps
  rw [hb, ← h]
  exact ⟨Except.ok.inj, congrArg _⟩

/-- C41: symmetric in the two matrices. -/
theorem C41_compare_symm (A B : Mat K r c) (eps : K) : compare A B eps = compare B A eps := by
  obtain ⟨b, hb, h⟩ := C41_compare A B eps
  obtain ⟨b', hb', h'⟩ := C41_compare B A eps
  rw [hb, hb']
  congr 1
  rw [Bool.eq_iff_iff, h, h']
  simp only [abs_sub_comm]

/-- C41: a matrix compares equal to itself iff the tolerance is not negative (or there is no
element). -/
theorem C41_compare_refl (A : Mat K r c) (eps : K) :
    compare A A eps = .ok true ↔ 0 ≤ eps ∨ r = 0 ∨ c = 0 := by
  rw [compare_true]
  simp only [sub_self, abs_zero]
  constructor
  · intro h
    rcases Nat.eq_zero_or_pos r with hr | hr
    · exact Or.inr (Or.inl hr)
    · rcases Nat.eq_zero_or_pos c with hc | hc
      · exact Or.inr (Or.inr hc)
      · exact Or.inl (h ⟨0, hr⟩ ⟨0, hc⟩)
  · rintro (h | rfl | rfl) i j
    · exact h
    · exact i.elim0
    · exact j.elim0

/-- C41: with tolerance 0 it is equality. -/
theorem C41_compare_zero (A B : Mat K r c) : compare A B 0 = .ok true ↔ A = B := by
  rw [compare_true]
  constructor
  · intro h
    ext i j
    exact sub_eq_zero.mp (abs_nonpos_iff.mp (h i j))
  · rintro rfl i j
    rw [sub_self, abs_zero]

/-- C41: monotone in the tolerance. -/
theorem C41_compare_mono (A B : Mat K r c) (eps eps' : K) (h : eps ≤ eps')
    (hc : compare A B eps = .ok true) : compare A B eps' = .ok true := by
  rw [compare_true] at *
  exact fun i j => (hc i j).trans h

/-- C41: tolerances add up along a chain. -/
theorem C41_compare_triangle (A B C : Mat K r c) (e1 e2 : K) (h1 : compare A B e1 = .ok true)
    (h2 : compare B C e2 = .ok true) : compare A C (e1 + e2) = .ok true := by
  rw [compare_true] at *
  intro i j
  calc |A i j - C i j| ≤ |A i j - B i j| + |B i j - C i j| := abs_sub_le _ _ _
    _ ≤ e1 + e2 := add_le_add (h1 i j) (h2 i j)

end

example : compare (!![1, 2; 3, 4] : Mat ℚ 2 2) !![1, 2; 3, 5] 1 = .ok true := by decide +kernel
example : compare (!![1, 2; 3, 4] : Mat ℚ 2 2) !![1, 2; 3, 5] (1/2) = .ok false := by
  decide +kernel
example : compare (!![1, 2; 3, 4] : Mat ℚ 2 2) !![1, 2; 3, 4] (-1) = .ok false := by
  decide +kernel

end MatrixLibs
