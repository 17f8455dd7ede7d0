import Verif.Proof.Stats
import Mathlib.LinearAlgebra.Matrix.Notation
import Mathlib.Algebra.Order.BigOperators.Group.Finset
import Mathlib.Data.List.Sort
import Mathlib.Data.Fintype.Lattice
import Mathlib.Tactic.FieldSimp
import Mathlib.Tactic.LinearCombination

/-!
# Properties C55–C58: mean, median, variance and standard deviation
-/

namespace MatrixLibs

set_option linter.unusedSectionVars false

open CScalar (ofInt)

section
variable {K : Type} [Field K] [LinearOrder K] [IsStrictOrderedRing K] [Inhabited K] [CScalar K]
  [ExactOrdered K] {i j : Nat}

/-! ## C55 -/

/-- C55: `mean(A)` is the sum of the elements divided by their number. -/
theorem C55_mean (A : Mat K i j) (h : i * j ≠ 0) :
    mean A = .ok ((∑ a, ∑ b, A a b) / ((i : K) * (j : K))) := by
  rw [mean_ok A h, Nat.cast_mul]

/-- C55: the mean lies between any lower and any upper bound of the elements. -/
theorem C55_mean_bounds (A : Mat K i j) (h : i * j ≠ 0) (lo hi : K)
    (hlo : ∀ a b, lo ≤ A a b) (hhi : ∀ a b, A a b ≤ hi) :
    ∃ m, mean A = .ok m ∧ lo ≤ m ∧ m ≤ hi := by
  refine ⟨_, mean_ok A h, ?_⟩
  have hn : (0 : K) < ((i * j : Nat) : K) := by exact_mod_cast Nat.pos_of_ne_zero h
  have hc : ∀ x : K, (∑ _a : Fin i, ∑ _b : Fin j, x) = x * ((i * j : Nat) : K) := by
    intro x
    simp only [Finset.sum_const, Finset.card_univ, Fintype.card_fin, nsmul_eq_mul, Nat.cast_mul]
    ring
  constructor
  · rw [le_div_iff₀ hn, ← hc]
    exact Finset.sum_le_sum fun a _ => Finset.sum_le_sum fun b _ => hlo a b
  · rw [div_le_iff₀ hn, ← hc]
    exact Finset.sum_le_sum fun a _ => Finset.sum_le_sum fun b _ => hhi a b

/-- C55: in particular some element is at most, and some at least, the mean. -/
theorem C55_mean_between (A : Mat K i j) (h : i * j ≠ 0) :
    ∃ m, mean A = .ok m ∧ (∃ a b, A a b ≤ m) ∧ ∃ a b, m ≤ A a b := by
  have hi : Nonempty (Fin i × Fin j) :=
    ⟨⟨⟨0, Nat.pos_of_ne_zero (fun h' => h (by simp [h']))⟩,
      ⟨0, Nat.pos_of_ne_zero (fun h' => h (by simp [h']))⟩⟩⟩
  obtain ⟨p, hp⟩ := Finite.exists_min (fun q : Fin i × Fin j => A q.1 q.2)
  obtain ⟨q, hq⟩ := Finite.exists_max (fun q : Fin i × Fin j => A q.1 q.2)
  obtain ⟨m, hm, h1, h2⟩ := C55_mean_bounds A h _ _ (fun a b => hp (a, b)) (fun a b => hq (a, b))
  exact ⟨m, hm, ⟨_, _, h1⟩, ⟨_, _, h2⟩⟩

/-- C55: `mean(A + s) == mean(A) + s`. -/
theorem C55_mean_add (A B : Mat K i j) (s : K) (h : i * j ≠ 0) (hB : opAddScalar A s = .ok B) :
    ∃ m, mean A = .ok m ∧ mean B = .ok (m + s) := by
  refine ⟨_, mean_ok A h, ?_⟩
  have hn : ((i * j : Nat) : K) ≠ 0 := by exact_mod_cast h
  unfold opAddScalar at hB
  rw [sumScalar_ok] at hB
  cases hB
  rw [mean_ok _ h]
  congr 1
  have : (∑ a, ∑ b, (A + Mat.const s : Mat K i j) a b) = (∑ a, ∑ b, A a b) + ((i * j : Nat) : K) * s := by
    simp only [Matrix.add_apply, Mat.const, Matrix.of_apply, Finset.sum_add_distrib,
      Finset.sum_const, Finset.card_univ, Fintype.card_fin, nsmul_eq_mul, Nat.cast_mul]
    ring
  rw [this]
  field_simp

/-- C55: `mean(A * s) == mean(A) * s`. -/
theorem C55_mean_mul (A B : Mat K i j) (s : K) (h : i * j ≠ 0) (hB : opMulScalar A s = .ok B) :
    ∃ m, mean A = .ok m ∧ mean B = .ok (m * s) := by
  refine ⟨_, mean_ok A h, ?_⟩
  unfold opMulScalar at hB
  rw [multScalar_ok'] at hB
  cases hB
  rw [mean_ok _ h]
  congr 1
  simp only [Matrix.of_apply, ← Finset.sum_mul]
  ring

/-- C55: for an empty matrix `mean` divides by zero. -/
theorem C55_mean_empty (A : Mat K i j) (h : i * j = 0) :
    mean A = .error (.ub .divisionByZero) := mean_empty A h

/-- A `2 × 3` matrix, and an empty one. -/
example : mean (!![1, 2, 3; 4, 5, 9] : Mat ℚ 2 3) = .ok 4 ∧
    mean (Mat.const 1 : Mat ℚ 0 3) = .error (.ub .divisionByZero) := by
  constructor <;> decide +kernel

/-! ## C58 -/

/-- C58: `var(A)` is the mean of the squared deviations from `mean(A)`. -/
theorem C58_var (A : Mat K i j) (h : i * j ≠ 0) :
    ∃ μ, mean A = .ok μ ∧
      var A = .ok ((∑ a, ∑ b, (A a b - μ) ^ 2) / ((i : K) * (j : K))) := by
  refine ⟨_, mean_ok A h, ?_⟩
  rw [var_ok A h]
  simp only [sq, Nat.cast_mul]

/-- C58: ... and the mean of the squares minus the square of the mean. -/
theorem C58_var_squares (A : Mat K i j) (h : i * j ≠ 0) :
    ∃ μ σ, mean A = .ok μ ∧ mean (.of fun a b => A a b ^ 2) = .ok σ ∧
      var A = .ok (σ - μ ^ 2) := by
  refine ⟨_, _, mean_ok A h, mean_ok _ h, ?_⟩
  rw [var_ok A h]
  congr 1
  have hn : ((i * j : Nat) : K) ≠ 0 := by exact_mod_cast h
  set n : K := ((i * j : Nat) : K) with hndef
  set S : K := ∑ a, ∑ b, A a b with hS
  have hexp : (∑ a, ∑ b, (A a b - S / n) * (A a b - S / n)) =
      (∑ a, ∑ b, A a b ^ 2) - 2 * (S / n) * S + n * (S / n) ^ 2 := by
    have e : ∀ a b, (A a b - S / n) * (A a b - S / n) =
        A a b ^ 2 - 2 * (S / n) * A a b + (S / n) ^ 2 := fun a b => by ring
    simp only [e, Finset.sum_add_distrib, Finset.sum_sub_distrib, ← Finset.mul_sum,
      Finset.sum_const, Finset.card_univ, Fintype.card_fin, nsmul_eq_mul]
    rw [← hS, hndef, Nat.cast_mul]
    ring
  rw [hexp]
  simp only [Matrix.of_apply]
  field_simp
  ring

/-- C58: the variance is not negative. -/
theorem C58_var_nonneg (A : Mat K i j) (h : i * j ≠ 0) : ∃ v, var A = .ok v ∧ 0 ≤ v := by
  refine ⟨_, var_ok A h, div_nonneg ?_ (Nat.cast_nonneg _)⟩
  exact Finset.sum_nonneg fun a _ => Finset.sum_nonneg fun b _ => mul_self_nonneg _

/-- C58: the variance is 0 exactly if all elements are equal. -/
theorem C58_var_zero_iff (A : Mat K i j) (h : i * j ≠ 0) :
    var A = .ok 0 ↔ ∀ a b a' b', A a b = A a' b' := by
  have hn : ((i * j : Nat) : K) ≠ 0 := by exact_mod_cast h
  rw [var_ok A h]
  set μ := (∑ a, ∑ b, A a b) / ((i * j : Nat) : K) with hμ
  rw [Except.ok.injEq, div_eq_zero_iff, or_iff_left hn]
  rw [Finset.sum_eq_zero_iff_of_nonneg
    (fun a _ => Finset.sum_nonneg fun b _ => mul_self_nonneg _)]
  have hrow : ∀ a, (∑ b, (A a b - μ) * (A a b - μ) = 0) ↔ ∀ b, A a b = μ := by
    intro a
    rw [Finset.sum_eq_zero_iff_of_nonneg (fun b _ => mul_self_nonneg _)]
    simp only [Finset.mem_univ, true_implies, mul_self_eq_zero, sub_eq_zero]
  simp only [Finset.mem_univ, true_implies, hrow]
  constructor
  · intro hall a b a' b'
    rw [hall, hall]
  · intro hall a b
    have hs : (∑ a', ∑ b', A a' b') = ((i * j : Nat) : K) * A a b := by
      rw [Finset.sum_congr rfl fun a' _ => Finset.sum_congr rfl fun b' _ => hall a' b' a b]
      simp only [Finset.sum_const, Finset.card_univ, Fintype.card_fin, nsmul_eq_mul, Nat.cast_mul]
      ring
    rw [hμ, hs, mul_div_cancel_left₀ _ hn]

/-- C58: `var(A + s) == var(A)`. -/
theorem C58_var_add (A B : Mat K i j) (s : K) (h : i * j ≠ 0) (hB : opAddScalar A s = .ok B) :
    var B = var A := by
  obtain ⟨m, hm, hmB⟩ := C55_mean_add A B s h hB
  obtain ⟨m1, hm1, hv1⟩ := C58_var A h
  obtain ⟨m2, hm2, hv2⟩ := C58_var B h
  rw [hm] at hm1
  rw [hmB] at hm2
  cases hm1
  cases hm2
  unfold opAddScalar at hB
  rw [sumScalar_ok] at hB
  cases hB
  rw [hv1, hv2]
  simp only [Matrix.add_apply, Mat.const, Matrix.of_apply, add_sub_add_right_eq_sub]

/-- C58: `var(A * s) == var(A) * s * s`. -/
theorem C58_var_mul (A B : Mat K i j) (s : K) (h : i * j ≠ 0) (hB : opMulScalar A s = .ok B) :
    ∃ v, var A = .ok v ∧ var B = .ok (v * s * s) := by
  obtain ⟨m, hm, hmB⟩ := C55_mean_mul A B s h hB
  obtain ⟨m1, hm1, hv1⟩ := C58_var A h
  obtain ⟨m2, hm2, hv2⟩ := C58_var B h
  rw [hm] at hm1
  rw [hmB] at hm2
  cases hm1
  cases hm2
  unfold opMulScalar at hB
  rw [multScalar_ok'] at hB
  cases hB
  refine ⟨_, hv1, ?_⟩
  rw [hv2]
  congr 1
  simp only [Matrix.of_apply, ← sub_mul, mul_pow, ← Finset.sum_mul]
  ring

/-- C58: for an empty matrix `var` divides by zero. -/
theorem C58_var_empty (A : Mat K i j) (h : i * j = 0) :
    var A = .error (.ub .divisionByZero) := by
  unfold var
  rw [mean_empty A h, error_bind]

end

/-- C58: `stddev(A)` is the non-negative square root of `var(A)`. -/
theorem C58_stddev {i j : Nat} (A : Mat ℝ i j) (h : i * j ≠ 0) :
    ∃ v s, var A = .ok v ∧ stddev A = .ok s ∧ 0 ≤ s ∧ s ^ 2 = v := by
  obtain ⟨v, hv, h0⟩ := C58_var_nonneg A h
  refine ⟨v, Real.sqrt v, hv, ?_, Real.sqrt_nonneg v, Real.sq_sqrt h0⟩
  unfold stddev
  rw [hv, ok_bind, real_sqrt_total v h0]

/-- C58: the same over any exact arithmetic whose square root may fail (the rationals, for
example): the result of `stddev`, if there is one. -/
theorem C58_stddev_exact {K : Type} [Field K] [LinearOrder K] [IsStrictOrderedRing K] [Inhabited K]
    [CScalar K] [ExactSqrt K] {i j : Nat} (A : Mat K i j) (s : K) (hs : stddev A = .ok s) :
    ∃ v, var A = .ok v ∧ 0 ≤ s ∧ s ^ 2 = v := by
  unfold stddev at hs
  cases hv : var A with
  | error e => rw [hv, error_bind] at hs; cases hs
  | ok v =>
    rw [hv, ok_bind] at hs
    obtain ⟨h1, h2⟩ := ExactSqrt.sqrt_sound v s hs
    exact ⟨v, rfl, h1, by rw [sq, h2]⟩

/-! ## C57 -/

section
variable {T : Type} [Inhabited T] [CScalar T] [LinearOrder T] [OrderedScalar T] {i j : Nat}

/-- C57: with an odd number of elements the median is the middle one in the order of size. -/
theorem C57_median_odd (sort : List T → List T) (hsort : Sorts sort) (A : Mat T i j)
    (h : i * j % 2 = 1) : ∃ m, median sort A = .ok m ∧ IsKth A (i * j / 2) m :=
  median_odd sort hsort A h

/-- C57: with an even number of elements, whatever the arithmetic, half the sum of the two middle
elements is computed. -/
theorem C57_median_even (sort : List T → List T) (hsort : Sorts sort) (A : Mat T i j)
    (h : i * j % 2 = 0) (h0 : i * j ≠ 0) (hij : i * j < 2 ^ 64) :
    ∃ x y, IsKth A (i * j / 2 - 1) x ∧ IsKth A (i * j / 2) y ∧
      median sort A = (do CScalar.div (← CScalar.add y x) (ofInt 2)) :=
  median_even sort hsort A h h0 hij

/-- C57: the median does not depend on the arrangement of the elements, nor on which sorting
algorithm is used. -/
theorem C57_median_rearranged {i' j' : Nat} (sort sort' : List T → List T) (hsort : Sorts sort)
    (hsort' : Sorts sort') (A : Mat T i j) (B : Mat T i' j') (h : Rearranged A B)
    (hij : i * j < 2 ^ 64) : median sort A = median sort' B := by
  have hcard : i' * j' = i * j := by
    obtain ⟨e, -⟩ := h
    have := Fintype.card_congr e
    simpa using this.symm
  rcases Nat.mod_two_eq_zero_or_one (i * j) with hp | hp
  · by_cases h0 : i * j = 0
    · rw [median_empty sort hsort A h0, median_empty sort' hsort' B (hcard.trans h0)]
    · obtain ⟨x, y, hx, hy, hm⟩ := median_even sort hsort A hp h0 hij
      obtain ⟨x', y', hx', hy', hm'⟩ := median_even sort' hsort' B (by rw [hcard]; exact hp)
        (by rw [hcard]; exact h0) (by rw [hcard]; exact hij)
      rw [hcard] at hx' hy'
      rw [hm, hm', isKth_unique B _ _ _ (isKth_rearranged A B h _ _ hx) hx',
        isKth_unique B _ _ _ (isKth_rearranged A B h _ _ hy) hy']
  · obtain ⟨m, hm, hk⟩ := median_odd sort hsort A hp
    obtain ⟨m', hm', hk'⟩ := median_odd sort' hsort' B (by rw [hcard]; exact hp)
    rw [hcard] at hk'
    rw [hm, hm', isKth_unique B _ _ _ (isKth_rearranged A B h _ _ hk) hk']

/-- C57: for an empty matrix `median` reads out of bounds. -/
theorem C57_median_empty (sort : List T → List T) (hsort : Sorts sort) (A : Mat T i j)
    (h : i * j = 0) : median sort A = .error (.ub .outOfBounds) := median_empty sort hsort A h

/-- C57: an odd number of elements: at least half are `<=`, at least half `>=` the median. -/
theorem C57_median_half_odd (sort : List T → List T) (hsort : Sorts sort) (A : Mat T i j)
    (h : i * j % 2 = 1) : ∃ m, median sort A = .ok m ∧
      i * j ≤ 2 * numElems A (· ≤ m) ∧ i * j ≤ 2 * numElems A (m ≤ ·) := by
  obtain ⟨m, hm, -, h1, h2⟩ := median_odd sort hsort A h
  refine ⟨m, hm, by omega, ?_⟩
  have := numElems_compl A (· < m)
  simp only [not_lt] at this
  omega

end

/-- C57: over an exact ordered field the median of an even number of elements is the mean of the
two middle ones. -/
theorem C57_median_even_exact {K : Type} [Field K] [LinearOrder K] [IsStrictOrderedRing K]
    [Inhabited K] [CScalar K] [ExactOrdered K] {i j : Nat} (sort : List K → List K)
    (hsort : Sorts sort) (A : Mat K i j) (h : i * j % 2 = 0) (h0 : i * j ≠ 0)
    (hij : i * j < 2 ^ 64) :
    ∃ x y, IsKth A (i * j / 2 - 1) x ∧ IsKth A (i * j / 2) y ∧
      median sort A = .ok ((x + y) / 2) := by
  obtain ⟨x, y, hx, hy, hm⟩ := median_even sort hsort A h h0 hij
  refine ⟨x, y, hx, hy, ?_⟩
  rw [hm, ExactRing.add_eq, ok_bind, ExactRing.ofInt_eq, Int.cast_ofNat,
    ExactField.div_eq _ _ (by norm_num), add_comm]

/-- C57: over an exact ordered field at least half of the elements are `<=` and at least half `>=`
the median, whatever their number. -/
theorem C57_median_half {K : Type} [Field K] [LinearOrder K] [IsStrictOrderedRing K]
    [Inhabited K] [CScalar K] [ExactOrdered K] {i j : Nat} (sort : List K → List K)
    (hsort : Sorts sort) (A : Mat K i j) (h0 : i * j ≠ 0) (hij : i * j < 2 ^ 64) :
    ∃ m, median sort A = .ok m ∧
      i * j ≤ 2 * numElems A (· ≤ m) ∧ i * j ≤ 2 * numElems A (m ≤ ·) := by
  rcases Nat.mod_two_eq_zero_or_one (i * j) with hp | hp
  · obtain ⟨x, y, hx, hy, hm⟩ := C57_median_even_exact sort hsort A hp h0 hij
    have hxy := isKth_mono A _ _ (Nat.sub_le _ 1) x y hx hy
    refine ⟨_, hm, ?_, ?_⟩
    · have h1 := numElems_mono A (· ≤ x) (· ≤ (x + y) / 2) (fun z hz => hz.trans (by linarith))
      have := hx.2.2
      omega
    · have h1 := numElems_mono A (y ≤ ·) ((x + y) / 2 ≤ ·)
        (fun z hz => le_trans (by linarith) hz)
      have h2 := numElems_compl A (· < y)
      simp only [not_lt] at h2
      have := hy.2.1
      omega
  · exact C57_median_half_odd sort hsort A hp

/-- C57: signed integers, even number of elements: half the sum of the middle two, truncated, or
signed overflow if the sum is not representable. -/
theorem C57_median_even_signed {w : Nat} (hw : 3 ≤ w) {i j : Nat}
    [Inhabited (SInt w)]
    (sort : List (SInt w) → List (SInt w)) (hsort : Sorts sort) (A : Mat (SInt w) i j)
    (h : i * j % 2 = 0) (h0 : i * j ≠ 0) (hij : i * j < 2 ^ 64) :
    ∃ x y, IsKth A (i * j / 2 - 1) x ∧ IsKth A (i * j / 2) y ∧
      (InRange w (x.val + y.val) →
        ∃ m, median sort A = .ok m ∧ m.val = (x.val + y.val).tdiv 2) ∧
      (¬ InRange w (x.val + y.val) → median sort A = .error (.ub .signedOverflow)) := by
  obtain ⟨x, y, hx, hy, hm⟩ := median_even sort hsort A h h0 hij
  have hp : (8 : Int) ≤ 2 ^ w := by
    calc (8 : Int) = 2 ^ 3 := by norm_num
      _ ≤ 2 ^ w := pow_le_pow_right₀ (by norm_num) hw
  have h2 : ((ofInt 2 : SInt w)).val = 2 := by
    show Int.bmod 2 (2 ^ w) = 2
    rw [Int.bmod_eq_of_le_mul_two] <;> push_cast <;> omega
  have hadd : CScalar.add y x = SInt.checked (x.val + y.val) := by
    show SInt.checked (y.val + x.val) = _
    rw [add_comm]
  refine ⟨x, y, hx, hy, ?_, ?_⟩
  · intro hr
    have hq : InRange w ((x.val + y.val).tdiv 2) := by
      have hq1 : (x.val + y.val).tdiv 2 * 2 + (x.val + y.val).tmod 2 = x.val + y.val :=
        Int.tdiv_mul_add_tmod _ _
      have hq2 := Int.tmod_lt_of_pos (x.val + y.val) (show (0 : Int) < 2 by norm_num)
      have hq3 := Int.lt_tmod_of_pos (x.val + y.val) (show (0 : Int) < 2 by norm_num)
      unfold InRange at *
      omega
    refine ⟨⟨_, hq⟩, ?_, rfl⟩
    rw [hm, hadd]
    unfold SInt.checked
    rw [dif_pos hr, ok_bind]
    show (if (ofInt 2 : SInt w).val = 0 then _ else SInt.checked _) = _
    rw [h2, if_neg (by norm_num)]
    unfold SInt.checked
    rw [dif_pos hq]
  · intro hr
    rw [hm, hadd]
    unfold SInt.checked
    rw [dif_neg hr, error_bind]

/-- An odd and an even number of elements, with an insertion sort. -/
example : median (fun l => l.insertionSort (· ≤ ·)) (!![5, 1, 3] : Mat ℚ 1 3) = .ok 3 ∧
    median (fun l => l.insertionSort (· ≤ ·)) (!![5, 1; 3, 8] : Mat ℚ 2 2) = .ok 4 := by
  constructor <;> decide +kernel

/-- That sort is one. -/
example : Sorts (fun l : List ℚ => l.insertionSort (· ≤ ·)) :=
  fun l => ⟨List.perm_insertionSort _ l, List.pairwise_insertionSort _ l⟩

/-! ## C56 -/

section
variable {w : Nat} [Inhabited (SInt w)] {i j : Nat}

/-- C56, general form: unless a signed overflow occurs, the result is the quotient of the sum,
taken modulo 2^64, by the number of elements, converted to the element type. -/
theorem C56_mean_signed (hw : 2 ≤ w) (A : Mat (SInt w) i j) (h : i * j ≠ 0) :
    wp (mean A) (fun m => m = SInt.wrap (((∑ a, ∑ b, (A a b).val) % 2 ^ 64) / ((i * j : Nat) : Int)))
      (fun e => e = .ub .signedOverflow) := by
  unfold mean
  rw [wp_bind]
  refine wp_mono (wp_total_sum (RingSem.signed w hw) A) ?_ (fun _ h => h)
  intro s hs
  have hs' : s.val = ∑ a, ∑ b, (A a b).val := hs
  show wp (if i * j = 0 then _ else _) _ _
  rw [if_neg h, wp_ok, hs']
  rfl

theorem prefixSum_take (A : Mat (SInt w) i j) (k : Nat) :
    prefixSum A k = (((rowMajor A).take k).map SInt.val).sum := by
  unfold prefixSum
  rw [rowMajor_ofFn, Finset.sum_filter]
  suffices hgen : ∀ (n k : Nat) (f : Fin n → SInt w),
      (∑ a : Fin n, if a.val < k then (f a).val else 0) =
        (((List.ofFn f).take k).map SInt.val).sum from
    hgen (i * j) k (fun k => A k.divNat k.modNat)
  intro n
  induction n with
  | zero => simp
  | succ n ih =>
    intro k f
    rw [Fin.sum_univ_succ, List.ofFn_succ]
    cases k with
    | zero => simp
    | succ k =>
      rw [List.take_succ_cons, List.map_cons, List.sum_cons, ← ih k (fun a => f a.succ)]
      simp

/-- C56: `mean` has a signed overflow exactly if a running sum of the elements is not
representable. -/
theorem C56_mean_overflow_iff (A : Mat (SInt w) i j) (h : i * j ≠ 0) :
    mean A = .error (.ub .signedOverflow) ↔ ∃ k, k ≤ i * j ∧ ¬ InRange w (prefixSum A k) := by
  have h0 : (ofInt 0 : SInt w).val = 0 := by
    show Int.bmod 0 (2 ^ w) = 0
    exact Int.zero_bmod
  have key : ∀ (l : List (SInt w)) (s : SInt w),
      ((∃ t, l.foldlM (fun r x => CScalar.add r x) s = .ok t) ∧
        ∀ k, k ≤ l.length → InRange w (s.val + ((l.take k).map SInt.val).sum)) ∨
      (l.foldlM (fun r x => CScalar.add r x) s = .error (.ub .signedOverflow) ∧
        ∃ k, k ≤ l.length ∧ ¬ InRange w (s.val + ((l.take k).map SInt.val).sum)) := by
    intro l
    induction l with
    | nil =>
      intro s
      refine .inl ⟨⟨s, rfl⟩, fun k _ => ?_⟩
      rw [List.take_nil, List.map_nil, List.sum_nil, add_zero]
      exact s.inRange
    | cons x l ih =>
      intro s
      rw [List.foldlM_cons]
      show (∃ t, (SInt.checked (s.val + x.val) >>= _) = _) ∧ _ ∨
        (SInt.checked (s.val + x.val) >>= _) = _ ∧ _
      unfold SInt.checked
      by_cases hr : InRange w (s.val + x.val)
      · rw [dif_pos hr, ok_bind]
        rcases ih ⟨_, hr⟩ with ⟨h1, h2⟩ | ⟨h1, k, hk, h2⟩
        · refine .inl ⟨h1, fun k hk => ?_⟩
          cases k with
          | zero =>
            rw [List.take_zero, List.map_nil, List.sum_nil, add_zero]
            exact s.inRange
          | succ k =>
            rw [List.take_succ_cons, List.map_cons, List.sum_cons, ← add_assoc]
            exact h2 k (by rw [List.length_cons] at hk; omega)
        · refine .inr ⟨h1, k + 1, by rw [List.length_cons]; omega, ?_⟩
          rw [List.take_succ_cons, List.map_cons, List.sum_cons, ← add_assoc]
          exact h2
      · rw [dif_neg hr, error_bind]
        refine .inr ⟨rfl, 1, by rw [List.length_cons]; omega, ?_⟩
        rw [List.take_succ_cons, List.take_zero, List.map_cons, List.map_nil, List.sum_cons,
          List.sum_nil, add_zero]
        exact hr
  unfold mean
  rw [forElems A (ofInt 0) (fun r x => CScalar.add r x)]
  simp only [prefixSum_take, ← rowMajor_length A]
  rcases key (rowMajor A) (ofInt 0) with ⟨⟨t, ht⟩, h2⟩ | ⟨h1, h2⟩
  · rw [ht, ok_bind]
    rw [h0] at h2
    simp only [zero_add] at h2
    constructor
    · intro he
      exfalso
      have he' : (if (rowMajor A).length = 0 then (.error (.ub .divisionByZero) : Res (SInt w))
        else .ok (SInt.wrap ((t.val % (sizeMod : Int)) / ((rowMajor A).length : Int)))) = _ := he
      rw [if_neg (by rw [rowMajor_length]; exact h)] at he'
      cases he'
    · rintro ⟨k, hk, hn⟩
      exact absurd (h2 k hk) hn
  · rw [h1, error_bind]
    rw [h0] at h2
    simp only [zero_add] at h2
    exact ⟨fun _ => h2, fun _ => rfl⟩

/-- C56, the part that holds: if the sum is not negative and no running sum overflows, the result
is the sum divided by the number of elements, rounded towards zero. Missing: negative sums, where
the claim is false (`C56_false`). -/
theorem C56_mean_nonneg_partial (hw : 2 ≤ w) (hw' : w ≤ 64) (A : Mat (SInt w) i j) (h : i * j ≠ 0)
    (hsum : 0 ≤ ∑ a, ∑ b, (A a b).val) (hr : ∀ k, k ≤ i * j → InRange w (prefixSum A k)) :
    ∃ m, mean A = .ok m ∧ m.val = (∑ a, ∑ b, (A a b).val).tdiv ((i * j : Nat) : Int) := by
  have hwp := C56_mean_signed hw A h
  have htot : InRange w (∑ a, ∑ b, (A a b).val) := by
    have := hr _ le_rfl
    rwa [prefixSum_take, List.take_of_length_le (by rw [rowMajor_length]), rowMajor_sum] at this
  set S := ∑ a, ∑ b, (A a b).val with hS
  cases hm : mean A with
  | error e =>
    rw [hm] at hwp
    have he : e = .ub .signedOverflow := hwp
    rw [he] at hm
    obtain ⟨k, hk, hn⟩ := (C56_mean_overflow_iff A h).mp hm
    exact absurd (hr k hk) hn
  | ok m =>
    rw [hm] at hwp
    have hm' : m = SInt.wrap ((S % 2 ^ 64) / ((i * j : Nat) : Int)) := hwp
    refine ⟨m, rfl, ?_⟩
    rw [hm']
    show Int.bmod _ (2 ^ w) = _
    unfold InRange at htot
    have hp : (2 : Int) ^ (w - 1) ≤ 2 ^ 63 := pow_le_pow_right₀ (by norm_num) (by omega)
    have h64 : S % 2 ^ 64 = S := Int.emod_eq_of_lt hsum (by omega)
    have h2w : (2 : Int) ^ w = 2 * 2 ^ (w - 1) := by
      rw [← pow_succ', Nat.sub_add_cancel (by omega)]
    have hq0 : 0 ≤ S / ((i * j : Nat) : Int) := Int.ediv_nonneg hsum (by positivity)
    have hq1 : S / ((i * j : Nat) : Int) ≤ S := Int.ediv_le_self _ hsum
    rw [h64, Int.bmod_eq_of_le_mul_two, Int.tdiv_eq_ediv_of_nonneg hsum]
    · rw [Nat.cast_pow, Nat.cast_ofNat, h2w]
      omega
    · rw [Nat.cast_pow, Nat.cast_ofNat, h2w]
      omega

/-- C56: for a negative sum and a number of elements that is a power of two (small enough) the
division rounds towards minus infinity instead. -/
theorem C56_mean_negative_pow2_partial (hw : 2 ≤ w) (hw' : w ≤ 64) (A : Mat (SInt w) i j) (p : Nat)
    (hp : i * j = 2 ^ p) (hpw : p + w ≤ 64)
    (hr : ∀ k, k ≤ i * j → InRange w (prefixSum A k)) :
    ∃ m, mean A = .ok m ∧ m.val = (∑ a, ∑ b, (A a b).val) / ((i * j : Nat) : Int) := by
  have h : i * j ≠ 0 := by rw [hp]; positivity
  have hwp := C56_mean_signed hw A h
  have htot : InRange w (∑ a, ∑ b, (A a b).val) := by
    have := hr _ le_rfl
    rwa [prefixSum_take, List.take_of_length_le (by rw [rowMajor_length]), rowMajor_sum] at this
  set S := ∑ a, ∑ b, (A a b).val with hS
  cases hm : mean A with
  | error e =>
    rw [hm] at hwp
    have he : e = .ub .signedOverflow := hwp
    rw [he] at hm
    obtain ⟨k, hk, hn⟩ := (C56_mean_overflow_iff A h).mp hm
    exact absurd (hr k hk) hn
  | ok m =>
    rw [hm] at hwp
    have hm' : m = SInt.wrap ((S % 2 ^ 64) / ((i * j : Nat) : Int)) := hwp
    refine ⟨m, rfl, ?_⟩
    rw [hm', hp]
    show Int.bmod _ (2 ^ w) = _
    unfold InRange at htot
    have h2w : (2 : Int) ^ w = 2 * 2 ^ (w - 1) := by
      rw [← pow_succ', Nat.sub_add_cancel (by omega)]
    have hP : (0 : Int) < 2 ^ p := by positivity
    -- S mod 2^64 = S - 2^64 * q, and 2^p divides 2^64
    have hdiv : S % 2 ^ 64 / ((2 ^ p : Nat) : Int) =
        S / 2 ^ p + (-(S / 2 ^ 64) * 2 ^ (64 - p - w)) * ((2 ^ w : Nat) : Int) := by
      have e : (2 : Int) ^ 64 = 2 ^ p * (2 ^ (64 - p - w) * 2 ^ w) := by
        rw [← pow_add, ← pow_add]
        congr 1
        omega
      have e2 : S % 2 ^ 64 = S + (-(S / 2 ^ 64) * 2 ^ (64 - p - w) * 2 ^ w) * 2 ^ p := by
        rw [Int.emod_def]
        conv_lhs => rw [show (2 : Int) ^ 64 * (S / 2 ^ 64) =
          2 ^ p * (2 ^ (64 - p - w) * 2 ^ w) * (S / 2 ^ 64) from by rw [← e]]
        ring
      rw [Nat.cast_pow, Nat.cast_pow, Nat.cast_ofNat, e2, Int.add_mul_ediv_right _ _ hP.ne']
    rw [hdiv, Int.add_mul_bmod_self_right]
    have hb1 : -(2 : Int) ^ (w - 1) ≤ S / 2 ^ p := by
      rw [Int.le_ediv_iff_mul_le hP]
      have h1 : (0 : Int) < 2 ^ (w - 1) := by positivity
      nlinarith [htot.1]
    have hb2 : S / 2 ^ p < (2 : Int) ^ (w - 1) := by
      rw [Int.ediv_lt_iff_lt_mul hP]
      have h1 : (0 : Int) < 2 ^ (w - 1) := by positivity
      nlinarith [htot.2]
    rw [Int.bmod_eq_of_le_mul_two]
    · push_cast; rfl
    · push_cast; rw [h2w]; omega
    · push_cast; rw [h2w]; omega

end

/-- C56 is false of the code: the mean of {-3, 0, 0} is 1431655764, not -1. -/
theorem C56_false [Inhabited (SInt 32)] : ∃ (A : Mat (SInt 32) 1 3) (m : SInt 32),
    mean A = .ok m ∧ (∑ a, ∑ b, (A a b).val) = -3 ∧ m.val = 1431655764 ∧
      m.val ≠ (∑ a, ∑ b, (A a b).val).tdiv 3 := by
  refine ⟨.of fun _ b => if b = 0 then ⟨-3, by decide⟩ else ⟨0, by decide⟩,
    ⟨1431655764, by decide⟩, ?_, ?_, rfl, ?_⟩
  · decide +kernel
  · decide +kernel
  · decide +kernel

/-! ## Examples -/

example : mean (!![1, 2; 3, 5] : Mat ℚ 2 2) = .ok (11/4) := by decide +kernel
example : var (!![1, 2; 3, 6] : Mat ℚ 2 2) = .ok (7/2) := by decide +kernel
example : stddev (!![1, 3; 1, 3] : Mat ℚ 2 2) = .ok 1 := by decide +kernel
example : Sorts (List.insertionSort (· ≤ ·) : List ℚ → List ℚ) := fun l =>
  ⟨List.perm_insertionSort _ l, List.pairwise_insertionSort _ l⟩
example : median (List.insertionSort (· ≤ ·)) (!![4, 1, 3] : Mat ℚ 1 3) = .ok 3 := by
  decide +kernel
example : median (List.insertionSort (· ≤ ·)) (!![4, 1; 3, 9] : Mat ℚ 2 2) = .ok (7/2) := by
  decide +kernel
example : IsKth (!![4, 1; 3, 9] : Mat ℚ 2 2) 1 3 := by
  refine ⟨⟨1, 0, rfl⟩, ?_, ?_⟩ <;> decide +kernel
example : ∀ k, k ≤ 2 * 1 →
    InRange 32 (prefixSum (.of fun _ _ => ⟨-7, by decide⟩ : Mat (SInt 32) 2 1) k) := by
  decide +kernel

end MatrixLibs
