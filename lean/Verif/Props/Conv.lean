import Verif.Proof.Conv
import Mathlib.LinearAlgebra.Matrix.Notation

/-!
# Properties C46–C51: convolution
-/

namespace MatrixLibs

set_option linter.unusedSectionVars false

section
variable {K : Type} [Ring K] [Inhabited K] [CScalar K] [ExactRing K] {i j : Nat}

/-! ## C46 -/

/-- C46: `conv2(A, kernel)` is the zero-padded correlation with the kernel. -/
theorem C46_conv2 (A : Mat K i j) (k : Mat K 3 3) (hi : i ≤ 2 ^ 31) (hj : j ≤ 2 ^ 31) :
    ∃ S, conv2 A k = .ok S ∧ ∀ (r : Fin i) (c : Fin j),
      S r c = ∑ u : Fin 3, ∑ v : Fin 3,
        k u v * padded A ((r.val : ℤ) + u.val - 1) ((c.val : ℤ) + v.val - 1) :=
  ⟨_, conv2_ok A k hi hj, fun _ _ => rfl⟩

/-- C46: at a cell that is not on the border no padding is involved. -/
theorem C46_conv2_interior (A : Mat K (i + 2) (j + 2)) (k : Mat K 3 3) (hi : i + 2 ≤ 2 ^ 31)
    (hj : j + 2 ≤ 2 ^ 31) (r : Fin i) (c : Fin j) :
    ∃ S, conv2 A k = .ok S ∧
      S ⟨r.val + 1, by omega⟩ ⟨c.val + 1, by omega⟩ = ∑ u : Fin 3, ∑ v : Fin 3,
        k u v * A ⟨r.val + u.val, by omega⟩ ⟨c.val + v.val, by omega⟩ := by
  refine ⟨_, conv2_ok A k hi hj, ?_⟩
  rw [Matrix.of_apply]
  refine Finset.sum_congr rfl (fun u _ => Finset.sum_congr rfl (fun v _ => ?_))
  have e := padded_fin A ⟨r.val + u.val, by omega⟩ ⟨c.val + v.val, by omega⟩
  rw [← e]
  congr 2
  · push_cast; ring
  · push_cast; ring

/-- C46, signed elements: every element is the exact sum over the integers, or the call has signed
overflow. -/
theorem C46_conv2_signed (w : Nat) (hw : 2 ≤ w) [Inhabited (SInt w)] (A : Mat (SInt w) i j)
    (k : Mat (SInt w) 3 3) (hi : i ≤ 2 ^ 31) (hj : j ≤ 2 ^ 31) :
    (∃ S, conv2 A k = .ok S ∧ ∀ (r : Fin i) (c : Fin j),
      (S r c).val = ∑ u : Fin 3, ∑ v : Fin 3, (k u v).val *
        padded (A.map SInt.val) ((r.val : ℤ) + u.val - 1) ((c.val : ℤ) + v.val - 1)) ∨
    conv2 A k = .error (.ub .signedOverflow) := by
  have h := wp_conv2 (RingSem.signed w hw) A k (by omega) (by omega)
  rw [seen_eq _ hi hj] at h
  cases hr : conv2 A k with
  | ok S => exact Or.inl ⟨S, rfl, by have := wp_ok_elim h hr; exact this⟩
  | error e =>
    have he := wp_error_elim h hr
    exact Or.inr (by rw [show e = _ from he])

example : conv2 (!![1, 2; 3, 4] : Mat ℚ 2 2) !![1, 2, 3; 4, 5, 6; 7, 8, 9] =
    .ok !![77, 67; 47, 37] := by decide +kernel
example : conv2 (!![1, 2, 3] : Mat (BitVec 32) 1 3) !![0, 0, 0; 1, 10, 100; 0, 0, 0] =
    .ok !![210, 321, 32] := by decide +kernel

/-! ## C47 -/

/-- The kernel turned by 180 degrees. -/
def turned (k : Mat K 3 3) : Mat K 3 3 := .of fun u v => k u.rev v.rev

theorem octave_eq (A : Mat K i j) (k : Mat K 3 3) (r c : ℤ) :
    octaveSameAt A k r c = correlateAt A (turned k) r c := by
  unfold octaveSameAt correlateAt turned
  rw [← Equiv.sum_comp Fin.revPerm]
  refine Finset.sum_congr rfl (fun u _ => ?_)
  rw [← Equiv.sum_comp Fin.revPerm]
  refine Finset.sum_congr rfl (fun v _ => ?_)
  rw [Matrix.of_apply]
  congr 2
  · rw [Fin.revPerm_apply, Fin.val_rev]; omega
  · rw [Fin.revPerm_apply, Fin.val_rev]; omega

/-- C47, what holds for every kernel: `conv2(A, K)` is Octave's `conv2(A, K', 'same')` with `K'`
the kernel turned by 180 degrees. -/
theorem C47_conv2_octave_turned_partial (A : Mat K i j) (k : Mat K 3 3) (hi : i ≤ 2 ^ 31)
    (hj : j ≤ 2 ^ 31) :
    conv2 A (turned k) = .ok (.of fun r c => octaveSameAt A k r.val c.val) := by
  rw [conv2_ok A (turned k) hi hj]
  congr 1
  ext r c
  rw [Matrix.of_apply, Matrix.of_apply, octave_eq]

/-- The matrix with a single 1. -/
def unitAt (p : Fin i) (q : Fin j) : Mat K i j := .of fun a b => if a = p ∧ b = q then 1 else 0

theorem padded_unitAt (p : Fin i) (q : Fin j) (a b : ℤ) :
    padded (unitAt p q : Mat K i j) a b = if a = p.val ∧ b = q.val then 1 else 0 := by
  unfold padded
  have hp := p.2
  have hq := q.2
  split
  · next h =>
    unfold unitAt
    rw [Matrix.of_apply]
    congr 1
    rw [Fin.ext_iff, Fin.ext_iff]
    simp only [eq_iff_iff]
    omega
  · rw [if_neg (by omega)]

/-- Correlating a unit matrix picks one kernel element. -/
theorem correlate_unitAt (k : Mat K 3 3) (p : Fin i) (q : Fin j) (r c : ℤ) (u v : Fin 3)
    (hr : r + u.val - 1 = p.val) (hc : c + v.val - 1 = q.val) :
    correlateAt (unitAt p q : Mat K i j) k r c = k u v := by
  unfold correlateAt
  rw [Finset.sum_eq_single u]
  · rw [Finset.sum_eq_single v]
    · rw [padded_unitAt, if_pos ⟨hr, hc⟩, mul_one]
    · intro v' _ hv
      rw [padded_unitAt, if_neg, mul_zero]
      rintro ⟨-, h⟩
      exact hv (Fin.ext (by omega))
    · intro h; exact absurd (Finset.mem_univ v) h
  · intro u' _ hu
    refine Finset.sum_eq_zero (fun v' _ => ?_)
    rw [padded_unitAt, if_neg, mul_zero]
    rintro ⟨h, -⟩
    exact hu (Fin.ext (by omega))
  · intro h; exact absurd (Finset.mem_univ u) h

/-- C47: on matrices with at least two rows and columns the result is Octave's for all contents
exactly when the kernel is invariant under turning by 180 degrees. -/
theorem C47_conv2_octave_iff_partial (k : Mat K 3 3) (hi2 : 2 ≤ i) (hj2 : 2 ≤ j) (hi : i ≤ 2 ^ 31)
    (hj : j ≤ 2 ^ 31) :
    (∀ A : Mat K i j, conv2 A k = .ok (.of fun r c => octaveSameAt A k r.val c.val)) ↔
      ∀ u v : Fin 3, k u.rev v.rev = k u v := by
  constructor
  · intro h u v
    -- a row `r` and a target `p` with `r + u - 1 = p`
    have pick : ∀ (m : Nat), 2 ≤ m → ∀ x : Fin 3, ∃ r p : Fin m, (r.val : ℤ) + x.val - 1 = p.val := by
      intro m hm x
      fin_cases x
      · exact ⟨⟨1, by omega⟩, ⟨0, by omega⟩, by simp⟩
      · exact ⟨⟨0, by omega⟩, ⟨0, by omega⟩, by simp⟩
      · exact ⟨⟨0, by omega⟩, ⟨1, by omega⟩, by simp⟩
    obtain ⟨r, p, hr⟩ := pick i hi2 u
    obtain ⟨c, q, hc⟩ := pick j hj2 v
    have h1 := h (unitAt p q)
    rw [conv2_ok _ _ hi hj] at h1
    have h2 := congrFun (congrFun (Except.ok.inj h1) r) c
    rw [Matrix.of_apply, Matrix.of_apply, octave_eq, correlate_unitAt k p q _ _ u v hr hc,
      correlate_unitAt (turned k) p q _ _ u v hr hc] at h2
    exact h2.symm
  · intro h A
    have ht : turned k = k := by
      ext u v
      exact h u v
    have := C47_conv2_octave_turned_partial A k hi hj
    rwa [ht] at this

/-- C47 is false of the code: a kernel with a single 1 off the centre shifts the other way. -/
theorem C47_false : ¬ ∀ (A : Mat ℚ 2 2) (k : Mat ℚ 3 3),
    conv2 A k = .ok (.of fun r c => octaveSameAt A k r.val c.val) := by
  intro h
  have h' := (C47_conv2_octave_iff_partial (i := 2) (j := 2)
    (!![0, 0, 0; 0, 0, 1; 0, 0, 0] : Mat ℚ 3 3) le_rfl le_rfl (by norm_num) (by norm_num)).mp
    (fun A => h A _) 1 0
  revert h'
  decide +kernel

/-- A kernel that is invariant. -/
example : ∀ u v : Fin 3, (!![1, 2, 3; 4, 5, 4; 3, 2, 1] : Mat ℚ 3 3) u.rev v.rev =
    (!![1, 2, 3; 4, 5, 4; 3, 2, 1] : Mat ℚ 3 3) u v := by
  intro u v
  fin_cases u <;> fin_cases v <;> rfl

/-! ## C48 -/

/-- C48: `conv2_full(A, kernel)` is the correlation at every position from `-1` to `i`, `j`. -/
theorem C48_conv2_full (A : Mat K i j) (k : Mat K 3 3) (hi : i ≤ 2 ^ 31) (hj : j ≤ 2 ^ 31) :
    ∃ S, conv2_full A k = .ok S ∧ ∀ (r : Fin (i + 2)) (c : Fin (j + 2)),
      S r c = ∑ u : Fin 3, ∑ v : Fin 3,
        k u v * padded A ((r.val : ℤ) + u.val - 2) ((c.val : ℤ) + v.val - 2) := by
  refine ⟨_, conv2_full_ok A k hi hj, fun r c => ?_⟩
  rw [Matrix.of_apply]
  refine Finset.sum_congr rfl (fun u _ => Finset.sum_congr rfl (fun v _ => ?_))
  congr 2 <;> ring

/-- C48: `conv2(A, kernel)` is the central part of `conv2_full(A, kernel)`. -/
theorem C48_conv2_central (A : Mat K i j) (k : Mat K 3 3) (hi : i ≤ 2 ^ 31) (hj : j ≤ 2 ^ 31) :
    ∃ S F, conv2 A k = .ok S ∧ conv2_full A k = .ok F ∧ ∀ (r : Fin i) (c : Fin j),
      S r c = F ⟨r.val + 1, by omega⟩ ⟨c.val + 1, by omega⟩ := by
  refine ⟨_, _, conv2_ok A k hi hj, conv2_full_ok A k hi hj, fun r c => ?_⟩
  rw [Matrix.of_apply, Matrix.of_apply]
  congr 1 <;> (push_cast; ring)

example : conv2_full (!![1, 2] : Mat ℚ 1 2) !![1, 2, 3; 4, 5, 6; 7, 8, 9] =
    .ok !![9, 26, 23, 14; 6, 17, 14, 8; 3, 8, 5, 2] := by decide +kernel

/-! ## C49 -/

/-- C49: `conv2_valid(A, kernel)` is `conv2(A, kernel)` without its first and last row and
column. -/
theorem C49_conv2_valid {m : Nat} (A : Mat K (m + 2) (m + 2)) (k : Mat K 3 3)
    (hm : m + 2 ≤ 2 ^ 31) :
    ∃ S V, conv2 A k = .ok S ∧ conv2_valid A k = .ok V ∧ ∀ r c : Fin m,
      V r c = S ⟨r.val + 1, by omega⟩ ⟨c.val + 1, by omega⟩ := by
  refine ⟨_, (.of fun r c : Fin m => correlateAt A k ((r.val : ℤ) + 1) ((c.val : ℤ) + 1) :
    Mat K m m), conv2_ok A k hm hm, ?_, ?_⟩
  · unfold conv2_valid
    rw [conv2_ok A k hm hm, ok_bind]
    have h1 := getminor_ok (m := m + 1)
      (.of fun r c => correlateAt A k r.val c.val : Mat K (m + 2) (m + 2))
      (Fin.last (m + 1)) (Fin.last (m + 1))
    have h2 := getminor_ok (m := m)
      ((.of fun r c => correlateAt A k r.val c.val : Mat K (m + 2) (m + 2)).submatrix
        (Fin.last (m + 1)).succAbove (Fin.last (m + 1)).succAbove) 0 0
    have h1' : getminor (.of fun r c => correlateAt A k r.val c.val : Mat K (m + 2) (m + 2))
        (m + 2 - 1) (m + 2 - 1) = _ := h1
    rw [h1', ok_bind]
    refine h2.trans ?_
    congr 1
    ext r c
    rw [Matrix.submatrix_apply, Matrix.submatrix_apply, Matrix.of_apply, Matrix.of_apply,
      Fin.succAbove_zero, Fin.succAbove_last]
    congr 1 <;> simp
  · intro r c
    rw [Matrix.of_apply, Matrix.of_apply]
    congr 1 <;> simp

/-- C49 for every element type: `conv2_valid` stops iff `conv2` does, with the same stop, and
otherwise returns its inner elements. -/
theorem C49_conv2_valid_any {T : Type} [Inhabited T] [CScalar T] {m : Nat}
    (A : Mat T (m + 2) (m + 2)) (k : Mat T 3 3) :
    (∀ e, conv2 A k = .error e → conv2_valid A k = .error e) ∧
      ∀ S, conv2 A k = .ok S → ∃ V, conv2_valid A k = .ok V ∧ ∀ r c : Fin m,
        V r c = S ⟨r.val + 1, by omega⟩ ⟨c.val + 1, by omega⟩ := by
  constructor
  · intro e h
    unfold conv2_valid
    rw [h, error_bind]
  · intro S h
    unfold conv2_valid
    rw [h, ok_bind]
    have h1 : getminor S (m + 2 - 1) (m + 2 - 1) = _ :=
      getminor_ok (m := m + 1) S (Fin.last (m + 1)) (Fin.last (m + 1))
    rw [h1, ok_bind]
    refine ⟨_, getminor_ok (m := m) (S.submatrix (Fin.last (m + 1)).succAbove
      (Fin.last (m + 1)).succAbove) 0 0, fun r c => ?_⟩
    rw [Matrix.submatrix_apply, Matrix.submatrix_apply, Fin.succAbove_zero, Fin.succAbove_last]
    rfl

/-- C49: each of its elements is the sum over a full 3x3 window of `A`. -/
theorem C49_conv2_valid_window {m : Nat} (A : Mat K (m + 2) (m + 2)) (k : Mat K 3 3)
    (hm : m + 2 ≤ 2 ^ 31) :
    ∃ V, conv2_valid A k = .ok V ∧ ∀ r c : Fin m,
      V r c = ∑ u : Fin 3, ∑ v : Fin 3,
        k u v * A ⟨r.val + u.val, by omega⟩ ⟨c.val + v.val, by omega⟩ := by
  obtain ⟨S, V, hS, hV, h⟩ := C49_conv2_valid A k hm
  refine ⟨V, hV, fun r c => ?_⟩
  obtain ⟨S', hS', h'⟩ := C46_conv2_interior A k hm hm r c
  rw [hS] at hS'
  cases hS'
  rw [h r c, h']

example : conv2_valid (!![1, 2, 3; 4, 5, 6; 7, 8, 9] : Mat ℚ 3 3) !![1, 0, 0; 0, 10, 0; 0, 0, 100] =
    .ok !![951] := by decide +kernel
/-- For a 2x2 matrix the result has no element. -/
example : ∃ V, conv2_valid (!![1, 2; 3, 4] : Mat ℚ 2 2) !![1, 0, 0; 0, 10, 0; 0, 0, 100] = .ok V :=
  let ⟨_, V, _, h, _⟩ := C49_conv2_valid (m := 0) (!![1, 2; 3, 4] : Mat ℚ 2 2) _ (by norm_num)
  ⟨V, h⟩

/-! ## C50 -/

theorem padded_add (A B : Mat K i j) (a b : ℤ) :
    padded (A + B) a b = padded A a b + padded B a b := by
  unfold padded
  split
  · rfl
  · rw [add_zero]

/-- C50: additive in the matrix. -/
theorem C50_conv2_add (A B : Mat K i j) (k : Mat K 3 3) (hi : i ≤ 2 ^ 31) (hj : j ≤ 2 ^ 31)
    (S X Y : Mat K i j) (hS : opAdd A B = .ok S) (hX : conv2 A k = .ok X)
    (hY : conv2 B k = .ok Y) : conv2 S k = opAdd X Y := by
  have hs : S = A + B := by
    rw [show opAdd A B = .ok (A + B) from sum_ok A B] at hS
    exact (Except.ok.inj hS).symm
  rw [conv2_ok _ k hi hj] at hX hY
  cases hX
  cases hY
  rw [conv2_ok S k hi hj, hs, show opAdd (_ : Mat K i j) _ = .ok (_ + _) from sum_ok _ _]
  congr 1
  ext r c
  rw [Matrix.add_apply, Matrix.of_apply, Matrix.of_apply, Matrix.of_apply]
  unfold correlateAt
  rw [← Finset.sum_add_distrib]
  refine Finset.sum_congr rfl (fun u _ => ?_)
  rw [← Finset.sum_add_distrib]
  refine Finset.sum_congr rfl (fun v _ => ?_)
  rw [padded_add, mul_add]

/-- C50: additive in the kernel. -/
theorem C50_conv2_add_kernel (A : Mat K i j) (k l : Mat K 3 3) (hi : i ≤ 2 ^ 31) (hj : j ≤ 2 ^ 31)
    (m : Mat K 3 3) (X Y : Mat K i j) (hm : opAdd k l = .ok m) (hX : conv2 A k = .ok X)
    (hY : conv2 A l = .ok Y) : conv2 A m = opAdd X Y := by
  have hs : m = k + l := by
    rw [show opAdd k l = .ok (k + l) from sum_ok k l] at hm
    exact (Except.ok.inj hm).symm
  rw [conv2_ok _ _ hi hj] at hX hY
  cases hX
  cases hY
  rw [conv2_ok A m hi hj, hs, show opAdd (_ : Mat K i j) _ = .ok (_ + _) from sum_ok _ _]
  congr 1
  ext r c
  rw [Matrix.add_apply, Matrix.of_apply, Matrix.of_apply, Matrix.of_apply]
  unfold correlateAt
  rw [← Finset.sum_add_distrib]
  refine Finset.sum_congr rfl (fun u _ => ?_)
  rw [← Finset.sum_add_distrib]
  refine Finset.sum_congr rfl (fun v _ => ?_)
  rw [Matrix.add_apply, add_mul]

/-- C50: the kernel with a single 1 in the centre is the identity. -/
theorem C50_conv2_unit (A : Mat K i j) (hi : i ≤ 2 ^ 31) (hj : j ≤ 2 ^ 31) :
    conv2 A (!![0, 0, 0; 0, 1, 0; 0, 0, 0]) = .ok A := by
  rw [conv2_ok A _ hi hj]
  congr 1
  ext r c
  rw [Matrix.of_apply]
  unfold correlateAt
  simp only [Fin.sum_univ_three]
  simp [padded_fin]

end

section
variable {K : Type} [CommRing K] [Inhabited K] [CScalar K] [ExactRing K] {i j : Nat}

/-- C50: scaling the matrix or the kernel scales the result. -/
theorem C50_conv2_smul (A : Mat K i j) (k : Mat K 3 3) (s : K) (hi : i ≤ 2 ^ 31) (hj : j ≤ 2 ^ 31)
    (B X : Mat K i j) (l : Mat K 3 3) (hB : opMulScalar A s = .ok B) (hl : opMulScalar k s = .ok l)
    (hX : conv2 A k = .ok X) :
    conv2 B k = opMulScalar X s ∧ conv2 A l = opMulScalar X s := by
  have hms : ∀ {r c : Nat} (M : Mat K r c), opMulScalar M s = .ok (s • M) := fun M => by
    refine (multScalar_ok' M s).trans ?_
    congr 1
    ext a b
    rw [Matrix.of_apply, Matrix.smul_apply, smul_eq_mul, mul_comm]
  rw [hms] at hB hl
  cases hB
  cases hl
  rw [conv2_ok _ _ hi hj] at hX
  cases hX
  rw [conv2_ok _ _ hi hj, conv2_ok _ _ hi hj, hms]
  have hp : ∀ a b, padded (s • A) a b = s * padded A a b := by
    intro a b
    unfold padded
    split
    · rw [Matrix.smul_apply, smul_eq_mul]
    · rw [mul_zero]
  constructor
  · congr 1
    ext r c
    rw [Matrix.smul_apply, Matrix.of_apply, Matrix.of_apply, smul_eq_mul]
    unfold correlateAt
    rw [Finset.mul_sum]
    refine Finset.sum_congr rfl (fun u _ => ?_)
    rw [Finset.mul_sum]
    refine Finset.sum_congr rfl (fun v _ => ?_)
    rw [hp]
    ring
  · congr 1
    ext r c
    rw [Matrix.smul_apply, Matrix.of_apply, Matrix.of_apply, smul_eq_mul]
    unfold correlateAt
    rw [Finset.mul_sum]
    refine Finset.sum_congr rfl (fun u _ => ?_)
    rw [Finset.mul_sum]
    refine Finset.sum_congr rfl (fun v _ => ?_)
    rw [Matrix.smul_apply, smul_eq_mul]
    ring

end

example : conv2 (!![5, 6, 7; 8, 9, 1] : Mat ℚ 2 3) !![0, 0, 0; 0, 1, 0; 0, 0, 0] =
    .ok !![5, 6, 7; 8, 9, 1] := by decide +kernel

/-! ## C51 -/

section
variable {K : Type} [Ring K] [Inhabited K] [CScalar K] [ExactRing K] {i j : Nat}

/-- C51, what holds below 2^32 rows and columns: rows and columns from 2^31 on count as zero. -/
theorem C51_conv2_partial (A : Mat K i j) (k : Mat K 3 3) (hi : i < 2 ^ 32) (hj : j < 2 ^ 32) :
    ∃ S, conv2 A k = .ok S ∧ ∀ (r : Fin i) (c : Fin j),
      S r c = ∑ u : Fin 3, ∑ v : Fin 3, k u v *
        padded (.of fun a b => if a.val < 2 ^ 31 ∧ b.val < 2 ^ 31 then A a b else 0 : Mat K i j)
          ((r.val : ℤ) + u.val - 1) ((c.val : ℤ) + v.val - 1) :=
  ⟨_, conv2_seen A k hi hj, fun _ _ => rfl⟩

/-- C51: with exactly 2^32 rows (or any larger number that is less than 2^31 modulo 2^32) the row
below the last one is read. -/
theorem C51_conv2_out_of_bounds (hi : 2 ^ 32 ≤ i) (hi' : i + 1 < 2 ^ 64) (him : i % 2 ^ 32 < 2 ^ 31)
    (hj1 : 1 ≤ j) (hj : j ≤ 2 ^ 31) (A : Mat K i j) (k : Mat K 3 3) :
    conv2 A k = .error (.ub .outOfBounds) := by
  have hS : sizeMod = 2 ^ 64 := rfl
  rw [conv2_cells A k (by omega) (by omega)]
  -- every term either has a value or is out of bounds
  have hterm : ∀ u v a b, (∃ x, convTerm A k u v a b = .ok x) ∨
      convTerm A k u v a b = .error (.ub .outOfBounds) := by
    intro u v a b
    unfold convTerm
    split
    · exact Or.inl ⟨_, rfl⟩
    · unfold rd
      split
      · split
        · left; rw [ok_bind, ok_bind, ExactRing.mul_eq]; exact ⟨_, rfl⟩
        · right; rfl
      · right; rfl
  have hacc : ∀ ts : List (Res K),
      (∀ t ∈ ts, (∃ x, t = .ok x) ∨ t = .error (.ub .outOfBounds)) → ∀ v,
      ((∃ x, accumVal ts v = .ok x) ∧ ∀ t ∈ ts, ∃ x, t = .ok x) ∨
        accumVal ts v = .error (.ub .outOfBounds) := by
    intro ts
    induction ts with
    | nil => intro _ v; exact Or.inl ⟨⟨v, rfl⟩, fun t ht => by simp at ht⟩
    | cons t ts ih =>
      intro h v
      rw [accumVal]
      rcases h t (by simp) with ⟨x, rfl⟩ | rfl
      · rw [ok_bind, ExactRing.add_eq, ok_bind]
        rcases ih (fun t ht => h t (by simp [ht])) (v + x) with ⟨h1, h2⟩ | h1
        · left
          refine ⟨h1, fun t ht => ?_⟩
          rcases List.mem_cons.mp ht with rfl | ht
          · exact ⟨x, rfl⟩
          · exact h2 t ht
        · exact Or.inr h1
      · right; rfl
  have hcell : ∀ a b : ℤ, ((∃ x, convCell A k a b = .ok x) ∧
      ∀ t ∈ convTerms A k a b, ∃ x, t = .ok x) ∨
      convCell A k a b = .error (.ub .outOfBounds) := by
    intro a b
    refine hacc _ ?_ _
    intro t ht
    simp only [convTerms, List.mem_cons, List.not_mem_nil, or_false] at ht
    rcases ht with rfl | rfl | rfl | rfl | rfl | rfl | rfl | rfl | rfl <;> exact hterm _ _ _ _
  -- the cell in the last row and first column
  have hlast : convCell A k ((i - 1 : Nat) : ℤ) ((0 : Nat) : ℤ) = .error (.ub .outOfBounds) := by
    rcases hcell ((i - 1 : Nat) : ℤ) ((0 : Nat) : ℤ) with ⟨-, h⟩ | h
    · exfalso
      obtain ⟨x, hx⟩ := h (convTerm A k 2 1 (szOf (((i - 1 : Nat) : ℤ) + 1)) (szOf ((0 : Nat) : ℤ)))
        (by simp [convTerms])
      have e1 : szOf (((i - 1 : Nat) : ℤ) + 1) = i := by
        rw [show ((i - 1 : Nat) : ℤ) + 1 = (i : ℤ) by omega, szOf_nat i (by omega)]
      have e2 : szOf ((0 : Nat) : ℤ) = 0 := szOf_nat 0 (by omega)
      rw [e1, e2] at hx
      unfold convTerm at hx
      have hin : isOutOfRange i j (szToInt i) (szToInt 0) = 0 := by
        rw [isOutOfRange_eq_zero]
        have h1 : szToInt i = ((i % 2 ^ 32 : Nat) : ℤ) := by
          unfold szToInt
          rw [Int.bmod_def]
          norm_num
          omega
        have h2 : szToInt 0 = 0 := by unfold szToInt; rfl
        rw [h1, h2]
        unfold intToUInt
        norm_num
        omega
      rw [if_neg (not_not.mpr hin), rd_oob (A := A) (i := i) (j := 0) (by omega)] at hx
      rw [show rd k 2 1 = .ok (k 2 1) from rfl, ok_bind] at hx
      cases hx
    · exact h
  cases hr : (forUp 0 i (valueInit i j) fun it S =>
      forUp 0 j S fun jt S => do wr S it jt (← convCell A k it jt)) with
  | ok S =>
    have := (fill_iff (g := fun it jt => convCell A k it jt) (valueInit i j)).mp hr
      ⟨i - 1, by omega⟩ ⟨0, by omega⟩
    rw [hlast] at this
    cases this
  | error e =>
    obtain ⟨a, b, hab⟩ := fill_error (g := fun it jt => convCell A k it jt) (valueInit i j) hr
    rcases hcell a.val b.val with ⟨⟨x, hx⟩, -⟩ | h
    · rw [hx] at hab; cases hab
    · rw [h] at hab; cases hab; rfl

/-- C51 is false of the code: from 2^31 + 1 rows on, the identity kernel does not return `A`. -/
theorem C51_false (hi : 2 ^ 31 < i) (hi' : i < 2 ^ 32) :
    ∃ A : Mat ℚ i 1, conv2 A (!![0, 0, 0; 0, 1, 0; 0, 0, 0]) ≠ .ok A := by
  refine ⟨.of fun _ _ => 1, fun h => ?_⟩
  rw [conv2_seen _ _ hi' (by norm_num)] at h
  have h' := congrFun (congrFun (Except.ok.inj h) ⟨2 ^ 31, hi⟩) 0
  rw [Matrix.of_apply, Matrix.of_apply] at h'
  unfold correlateAt at h'
  simp only [Fin.sum_univ_three] at h'
  have hp : padded (seen (.of fun _ _ => 1 : Mat ℚ i 1)) 2147483648 0 = 0 := by
    unfold padded
    split
    · unfold seen
      rw [Matrix.of_apply, if_neg]
      dsimp only
      omega
    · rfl
  simp [hp] at h'

end

example : (2 : Nat) ^ 32 % 2 ^ 32 < 2 ^ 31 := by norm_num

end MatrixLibs
