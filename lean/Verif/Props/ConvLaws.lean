import Verif.Props.Conv
import Verif.Proof.Movement
import Mathlib.Algebra.BigOperators.Ring.Finset
import Mathlib.Data.Fintype.BigOperators

/-!
# Property C135: laws of convolution
-/

namespace MatrixLibs

set_option linter.unusedSectionVars false

/-! ## Every element type -/

section
variable {T : Type} [Inhabited T] [CScalar T] {i j : Nat}

/-- A term only looks at the cell it names. -/
theorem convTerm_local (A B : Mat T i j) (k : Mat T 3 3) (u v : Nat) (a b : ℤ)
    (hi : i ≤ 2 ^ 32) (hj : j ≤ 2 ^ 32)
    (ha : -(2 ^ 31) ≤ a) (ha' : a < 2 ^ 32) (hb : -(2 ^ 31) ≤ b) (hb' : b < 2 ^ 32)
    (h : ∀ (r : Fin i) (c : Fin j), (r.val : ℤ) = a → (c.val : ℤ) = b → A r c = B r c) :
    convTerm A k u v (szOf a) (szOf b) = convTerm B k u v (szOf a) (szOf b) := by
  unfold convTerm
  by_cases hr : isOutOfRange i j (szToInt (szOf a)) (szToInt (szOf b)) = 0
  · rw [if_neg (not_not.mpr hr), if_neg (not_not.mpr hr)]
    rw [isOutOfRange_eq_zero, inRange_iff i hi a ha ha', inRange_iff j hj b hb hb'] at hr
    obtain ⟨⟨⟨h1, h2⟩, h3⟩, ⟨h4, h5⟩, h6⟩ := hr
    have hM : (sizeMod : ℤ) = 2 ^ 64 := by unfold sizeMod; norm_num
    have ea : szOf a = a.toNat := by
      unfold szOf; rw [Int.emod_eq_of_lt h1 (by rw [hM]; omega)]
    have eb : szOf b = b.toNat := by
      unfold szOf; rw [Int.emod_eq_of_lt h4 (by rw [hM]; omega)]
    rw [ea, eb, rd_eq (A := A) (by omega) (by omega), rd_eq (A := B) (by omega) (by omega),
      h _ _ (by simp [h1]) (by simp [h4])]
  · rw [if_pos hr, if_pos hr]

/-- The value of a cell depends on its neighbourhood only. -/
theorem convCell_local (A B : Mat T i j) (k : Mat T 3 3) (a b : ℤ)
    (hi : i ≤ 2 ^ 32) (hj : j ≤ 2 ^ 32)
    (ha : -1 ≤ a) (ha' : a + 1 < 2 ^ 32) (hb : -1 ≤ b) (hb' : b + 1 < 2 ^ 32)
    (h : ∀ (r : Fin i) (c : Fin j), |(r.val : ℤ) - a| ≤ 1 → |(c.val : ℤ) - b| ≤ 1 →
      A r c = B r c) : convCell A k a b = convCell B k a b := by
  have key : ∀ (u v : Nat) (x y : ℤ), a - 1 ≤ x → x ≤ a + 1 → b - 1 ≤ y → y ≤ b + 1 →
      convTerm A k u v (szOf x) (szOf y) = convTerm B k u v (szOf x) (szOf y) := by
    intro u v x y h1 h2 h3 h4
    refine convTerm_local A B k u v x y hi hj (by omega) (by omega) (by omega) (by omega)
      (fun r c hr hc => h r c ?_ ?_)
    · rw [hr, abs_le]; omega
    · rw [hc, abs_le]; omega
  unfold convCell convTerms
  rw [key 0 0 (a - 1) (b - 1), key 0 1 (a - 1) b, key 0 2 (a - 1) (b + 1), key 1 0 a (b - 1),
    key 1 1 a b, key 1 2 a (b + 1), key 2 0 (a + 1) (b - 1), key 2 1 (a + 1) b,
    key 2 2 (a + 1) (b + 1)] <;> omega

/-- What a call that returns has computed. -/
theorem conv2_cell (A S : Mat T i j) (k : Mat T 3 3) (hi : i < 2 ^ 32) (hj : j < 2 ^ 32)
    (h : conv2 A k = .ok S) (r : Fin i) (c : Fin j) : convCell A k r.val c.val = .ok (S r c) := by
  rw [conv2_cells A k (by unfold sizeMod; omega) (by unfold sizeMod; omega)] at h
  exact wp_ok_elim (wp_fill (g := fun it jt => convCell A k it jt) _) h r c

theorem conv2_full_cell (A : Mat T i j) (S : Mat T (i + 2) (j + 2)) (k : Mat T 3 3)
    (hi : i + 1 < 2 ^ 32) (hj : j + 1 < 2 ^ 32) (h : conv2_full A k = .ok S) (r : Fin (i + 2))
    (c : Fin (j + 2)) : convCell A k ((r.val : ℤ) - 1) ((c.val : ℤ) - 1) = .ok (S r c) := by
  rw [conv2_full_cells A k (by unfold sizeMod; omega) (by unfold sizeMod; omega)] at h
  exact wp_ok_elim (wp_fill (g := fun it jt => convCell A k ((it : ℤ) - 1) ((jt : ℤ) - 1)) _) h r c

/-- C135: an element of `conv2(A, kernel)` depends only on the element of `A` at the same place and
its eight neighbours; for every element type, bit for bit. -/
theorem C135_local (A B R S : Mat T i j) (k : Mat T 3 3) (hi : i < 2 ^ 32) (hj : j < 2 ^ 32)
    (hR : conv2 A k = .ok R) (hS : conv2 B k = .ok S) (r : Fin i) (c : Fin j)
    (h : ∀ (r' : Fin i) (c' : Fin j), |(r'.val : ℤ) - r.val| ≤ 1 → |(c'.val : ℤ) - c.val| ≤ 1 →
      A r' c' = B r' c') : R r c = S r c := by
  have h1 := conv2_cell A R k hi hj hR r c
  have h2 := conv2_cell B S k hi hj hS r c
  have := r.2
  have := c.2
  rw [convCell_local A B k r.val c.val hi.le hj.le (by omega) (by omega) (by omega) (by omega) h,
    h2] at h1
  exact (Except.ok.inj h1).symm

/-- C135: whenever `conv2_full(A, kernel)` returns, `conv2(A, kernel)` returns its central part; for
every element type, bit for bit. -/
theorem C135_central (A : Mat T i j) (F : Mat T (i + 2) (j + 2)) (k : Mat T 3 3)
    (hi : i + 1 < 2 ^ 32) (hj : j + 1 < 2 ^ 32) (hF : conv2_full A k = .ok F) :
    ∃ S, conv2 A k = .ok S ∧ ∀ (r : Fin i) (c : Fin j),
      S r c = F ⟨r.val + 1, by omega⟩ ⟨c.val + 1, by omega⟩ := by
  have hc : ∀ (r : Fin i) (c : Fin j),
      convCell A k r.val c.val = .ok (F ⟨r.val + 1, by omega⟩ ⟨c.val + 1, by omega⟩) := by
    intro r c
    have := conv2_full_cell A F k hi hj hF ⟨r.val + 1, by omega⟩ ⟨c.val + 1, by omega⟩
    simp only [Nat.cast_add, Nat.cast_one, add_sub_cancel_right] at this
    exact this
  refine ⟨.of fun r c => F ⟨r.val + 1, by omega⟩ ⟨c.val + 1, by omega⟩, ?_, fun r c => rfl⟩
  rw [conv2_cells A k (by unfold sizeMod; omega) (by unfold sizeMod; omega)]
  exact fill_eq _ (fun r c => hc r c)

end

/-- Two matrices that agree around the upper left corner. -/
example : conv2 (!![1, 2, 9; 3, 4, 8; 1, 1, 1] : Mat ℚ 3 3) !![1, 2, 3; 4, 5, 6; 7, 8, 9] =
      .ok !![77, 193, 145; 64, 136, 91; 29, 50, 29] ∧
    conv2 (!![1, 2, 0; 3, 4, 0; 0, 0, 0] : Mat ℚ 3 3) !![1, 2, 3; 4, 5, 6; 7, 8, 9] =
      .ok !![77, 67, 36; 47, 37, 18; 18, 11, 4] := by
  constructor <;> decide +kernel

/-! ## Exact arithmetic -/

section
variable {K : Type} [Ring K] {i j : Nat}

theorem padded_transpose (A : Mat K i j) (a b : ℤ) : padded A.transpose a b = padded A b a := by
  unfold padded
  by_cases h : (0 ≤ b ∧ b < i) ∧ 0 ≤ a ∧ a < j
  · rw [dif_pos h, dif_pos ⟨h.2, h.1⟩]; rfl
  · rw [dif_neg h, dif_neg (fun h' => h ⟨h'.2, h'.1⟩)]

theorem correlateAt_transpose (A : Mat K i j) (k : Mat K 3 3) (a b : ℤ) :
    correlateAt A.transpose k.transpose a b = correlateAt A k b a := by
  unfold correlateAt
  rw [Finset.sum_comm]
  refine Finset.sum_congr rfl fun u _ => Finset.sum_congr rfl fun v _ => ?_
  rw [padded_transpose]
  rfl

/-- The padding as a sum over the cells. -/
theorem padded_sum (A : Mat K i j) (a b : ℤ) :
    padded A a b = ∑ r : Fin i, ∑ c : Fin j,
      if (r.val : ℤ) = a ∧ (c.val : ℤ) = b then A r c else 0 := by
  unfold padded
  split
  · next h =>
    rw [Finset.sum_eq_single ⟨a.toNat, by omega⟩, Finset.sum_eq_single ⟨b.toNat, by omega⟩]
    · rw [if_pos]; simp [h.1.1, h.2.1]
    · intro c _ hc
      rw [if_neg]
      intro hh
      apply hc
      ext
      show c.val = b.toNat
      omega
    · intro hh; exact absurd (Finset.mem_univ _) hh
    · intro r _ hr
      refine Finset.sum_eq_zero fun c _ => if_neg ?_
      intro hh
      apply hr
      ext
      show r.val = a.toNat
      omega
    · intro hh; exact absurd (Finset.mem_univ _) hh
  · next h =>
    refine (Finset.sum_eq_zero fun r _ => Finset.sum_eq_zero fun c _ => if_neg fun hh => h ?_).symm
    have := r.2
    have := c.2
    omega

theorem padded_of (f : ℤ → ℤ → K) (a b : ℤ) :
    padded (.of fun (r : Fin i) (c : Fin j) => f r.val c.val) a b =
      if (0 ≤ a ∧ a < i) ∧ 0 ≤ b ∧ b < j then f a b else 0 := by
  unfold padded
  split
  · next h =>
    rw [Matrix.of_apply, Int.toNat_of_nonneg h.1.1, Int.toNat_of_nonneg h.2.1]
  · rfl

/-- The padding outside the matrix. -/
theorem padded_out (A : Mat K i j) (a b : ℤ) (h : ¬ ((0 ≤ a ∧ a < i) ∧ 0 ≤ b ∧ b < j)) :
    padded A a b = 0 := dif_neg h

/-- The full correlation, extended by zeros, is the correlation everywhere. -/
theorem padded_full (A : Mat K i j) (k : Mat K 3 3) (a b : ℤ) :
    padded (.of fun (r : Fin (i + 2)) (c : Fin (j + 2)) =>
      correlateAt A k ((r.val : ℤ) - 1) ((c.val : ℤ) - 1)) a b = correlateAt A k (a - 1) (b - 1) := by
  rw [padded_of (fun x y => correlateAt A k (x - 1) (y - 1))]
  split
  · rfl
  · next h =>
    refine (Finset.sum_eq_zero fun u _ => Finset.sum_eq_zero fun v _ => ?_).symm
    rw [padded_out, mul_zero]
    intro h'
    apply h
    have := u.2
    have := v.2
    push_cast
    omega

end

section
variable {K : Type} [Ring K] [Inhabited K] [CScalar K] [ExactRing K] {i j : Nat}

/-- Shifting a padded matrix within the result of `conv2_full` does not change the sum. -/
theorem padded_total (A : Mat K i j) (u v : Fin 3) :
    ∑ r : Fin (i + 2), ∑ c : Fin (j + 2),
      padded A ((r.val : ℤ) - 1 + u.val - 1) ((c.val : ℤ) - 1 + v.val - 1) = ∑ a, ∑ b, A a b := by
  have hu := u.2
  have hv := v.2
  have e : ∑ a, ∑ b, A a b = ∑ q : Fin i × Fin j, A q.1 q.2 :=
    (Fintype.sum_prod_type' fun a b => A a b).symm
  rw [← Fintype.sum_prod_type', e]
  symm
  refine Fintype.sum_of_injective
    (fun q : Fin i × Fin j => ((⟨q.1.val + 2 - u.val, by omega⟩, ⟨q.2.val + 2 - v.val, by omega⟩) :
      Fin (i + 2) × Fin (j + 2))) ?_ _ _ ?_ ?_
  · rintro ⟨a, b⟩ ⟨a', b'⟩ h
    have h1 := congrArg (fun q => q.1.val) h
    have h2 := congrArg (fun q => q.2.val) h
    simp only at h1 h2
    ext
    · show a.val = a'.val; omega
    · show b.val = b'.val; omega
  · rintro ⟨r, c⟩ h
    refine padded_out A _ _ fun h' => h ?_
    have hr := r.2
    have hc := c.2
    simp only at h'
    refine ⟨(⟨r.val + u.val - 2, by omega⟩, ⟨c.val + v.val - 2, by omega⟩), ?_⟩
    ext
    · show r.val + u.val - 2 + 2 - u.val = r.val; omega
    · show c.val + v.val - 2 + 2 - v.val = c.val; omega
  · rintro ⟨a, b⟩
    simp only
    have := padded_fin A a b
    rw [← this]
    congr 1
    · push_cast [Nat.cast_sub (show u.val ≤ a.val + 2 by omega)]; ring
    · push_cast [Nat.cast_sub (show v.val ≤ b.val + 2 by omega)]; ring

/-- C135: `trans(conv2(A, kernel)) == conv2(trans(A), trans(kernel))`. -/
theorem C135_trans (A S : Mat K i j) (k : Mat K 3 3) (hi : i ≤ 2 ^ 31) (hj : j ≤ 2 ^ 31)
    (B S' : Mat K j i) (l : Mat K 3 3) (hB : trans A = .ok B) (hl : trans k = .ok l)
    (hS : conv2 A k = .ok S) (hS' : trans S = .ok S') : conv2 B l = .ok S' := by
  rw [trans_ok] at hB hl hS'
  cases hB
  cases hl
  cases hS'
  rw [conv2_ok A k hi hj] at hS
  cases hS
  rw [conv2_ok _ _ hj hi]
  congr 1
  ext r c
  exact correlateAt_transpose A k r.val c.val

/-- C135: the same for `conv2_full`. -/
theorem C135_trans_full (A : Mat K i j) (S : Mat K (i + 2) (j + 2)) (k : Mat K 3 3)
    (hi : i ≤ 2 ^ 31) (hj : j ≤ 2 ^ 31)
    (B : Mat K j i) (S' : Mat K (j + 2) (i + 2)) (l : Mat K 3 3) (hB : trans A = .ok B)
    (hl : trans k = .ok l) (hS : conv2_full A k = .ok S) (hS' : trans S = .ok S') :
    conv2_full B l = .ok S' := by
  rw [trans_ok] at hB hl hS'
  cases hB
  cases hl
  cases hS'
  rw [conv2_full_ok A k hi hj] at hS
  cases hS
  rw [conv2_full_ok _ _ hj hi]
  congr 1
  ext r c
  exact correlateAt_transpose A k _ _

end

section
variable {K : Type} [CommRing K] [Inhabited K] [CScalar K] [ExactRing K] {i j : Nat}

/-- C135: two filters can be applied in either order. -/
theorem C135_full_comm (A : Mat K i j) (k l : Mat K 3 3) (hi : i + 2 ≤ 2 ^ 31) (hj : j + 2 ≤ 2 ^ 31)
    (X Y : Mat K (i + 2) (j + 2)) (hX : conv2_full A k = .ok X) (hY : conv2_full A l = .ok Y) :
    conv2_full X l = conv2_full Y k := by
  rw [conv2_full_ok A _ (by omega) (by omega)] at hX hY
  cases hX
  cases hY
  rw [conv2_full_ok _ l hi hj, conv2_full_ok _ k hi hj]
  congr 1
  ext r c
  rw [Matrix.of_apply, Matrix.of_apply]
  have key : ∀ (k l : Mat K 3 3) (a b : ℤ),
      correlateAt (.of fun (r : Fin (i + 2)) (c : Fin (j + 2)) =>
        correlateAt A k ((r.val : ℤ) - 1) ((c.val : ℤ) - 1)) l a b =
      ∑ q : Fin 3 × Fin 3, ∑ p : Fin 3 × Fin 3, l q.1 q.2 * k p.1 p.2 *
        padded A (a + q.1.val + p.1.val - 3) (b + q.2.val + p.2.val - 3) := by
    intro k l a b
    rw [Fintype.sum_prod_type]
    unfold correlateAt
    refine Finset.sum_congr rfl fun u _ => Finset.sum_congr rfl fun v _ => ?_
    have := padded_full A k (a + u.val - 1) (b + v.val - 1)
    unfold correlateAt at this
    rw [this, Fintype.sum_prod_type, Finset.mul_sum]
    refine Finset.sum_congr rfl fun p _ => ?_
    rw [Finset.mul_sum]
    refine Finset.sum_congr rfl fun q _ => ?_
    rw [mul_assoc]
    congr 3 <;> ring
  rw [key, key, Finset.sum_comm]
  refine Finset.sum_congr rfl fun q _ => Finset.sum_congr rfl fun p _ => ?_
  rw [mul_comm (l p.1 p.2)]
  congr 2 <;> ring

/-- C135: the elements of `conv2_full(A, kernel)` add up to the product of the sums of the elements
of both. -/
theorem C135_full_sum (A : Mat K i j) (k : Mat K 3 3) (hi : i ≤ 2 ^ 31) (hj : j ≤ 2 ^ 31)
    (F : Mat K (i + 2) (j + 2)) (hF : conv2_full A k = .ok F) :
    ∑ r, ∑ c, F r c = (∑ u, ∑ v, k u v) * ∑ a, ∑ b, A a b := by
  rw [conv2_full_ok A k hi hj] at hF
  cases hF
  simp only [Matrix.of_apply]
  unfold correlateAt
  have e : ∀ r : Fin (i + 2), ∑ c : Fin (j + 2), ∑ u : Fin 3, ∑ v : Fin 3,
      k u v * padded A ((r.val : ℤ) - 1 + u.val - 1) ((c.val : ℤ) - 1 + v.val - 1) =
      ∑ u : Fin 3, ∑ v : Fin 3, ∑ c : Fin (j + 2),
        k u v * padded A ((r.val : ℤ) - 1 + u.val - 1) ((c.val : ℤ) - 1 + v.val - 1) := by
    intro r
    rw [Finset.sum_comm]
    exact Finset.sum_congr rfl fun u _ => Finset.sum_comm
  simp only [e]
  rw [Finset.sum_comm, Finset.sum_mul]
  refine Finset.sum_congr rfl fun u _ => ?_
  rw [Finset.sum_comm, Finset.sum_mul]
  refine Finset.sum_congr rfl fun v _ => ?_
  simp only [← Finset.mul_sum]
  rw [padded_total A u v]

/-- Correlation one way is correlation the other way with the offsets reversed. -/
theorem padded_adjoint (A B : Mat K i j) (s t : ℤ) :
    ∑ r : Fin i, ∑ c : Fin j, padded A ((r.val : ℤ) + s) ((c.val : ℤ) + t) * B r c =
      ∑ r : Fin i, ∑ c : Fin j, A r c * padded B ((r.val : ℤ) - s) ((c.val : ℤ) - t) := by
  have e1 : ∀ q : Fin i × Fin j, padded A ((q.1.val : ℤ) + s) ((q.2.val : ℤ) + t) * B q.1 q.2 =
      ∑ p : Fin i × Fin j, if (p.1.val : ℤ) = q.1.val + s ∧ (p.2.val : ℤ) = q.2.val + t then
        A p.1 p.2 * B q.1 q.2 else 0 := by
    intro q
    rw [padded_sum, ← Fintype.sum_prod_type', Finset.sum_mul]
    refine Finset.sum_congr rfl fun p _ => ?_
    split <;> simp
  have e2 : ∀ p : Fin i × Fin j, A p.1 p.2 * padded B ((p.1.val : ℤ) - s) ((p.2.val : ℤ) - t) =
      ∑ q : Fin i × Fin j, if (p.1.val : ℤ) = q.1.val + s ∧ (p.2.val : ℤ) = q.2.val + t then
        A p.1 p.2 * B q.1 q.2 else 0 := by
    intro p
    rw [padded_sum, ← Fintype.sum_prod_type', Finset.mul_sum]
    refine Finset.sum_congr rfl fun q _ => ?_
    by_cases h : (p.1.val : ℤ) = q.1.val + s ∧ (p.2.val : ℤ) = q.2.val + t
    · rw [if_pos h, if_pos (by omega)]
    · rw [if_neg h, if_neg (by omega), mul_zero]
  rw [← Fintype.sum_prod_type', ← Fintype.sum_prod_type']
  simp only [e1, e2]
  exact Finset.sum_comm

/-- C135: convolution with the kernel turned by 180 degrees is the adjoint: multiplying
`conv2(A, kernel)` by `B` element by element and adding up gives the same as multiplying `A` by
`conv2(B, turned kernel)`. -/
theorem C135_adjoint (A B X Y : Mat K i j) (k l : Mat K 3 3) (hi : i ≤ 2 ^ 31) (hj : j ≤ 2 ^ 31)
    (hl : ∀ u v : Fin 3, l u v = k u.rev v.rev)
    (hX : conv2 A k = .ok X) (hY : conv2 B l = .ok Y) :
    ∑ r, ∑ c, X r c * B r c = ∑ r, ∑ c, A r c * Y r c := by
  rw [conv2_ok _ _ hi hj] at hX hY
  cases hX
  cases hY
  simp only [Matrix.of_apply]
  have e1 : ∀ (r : Fin i) (c : Fin j), correlateAt A k r.val c.val * B r c =
      ∑ u : Fin 3, ∑ v : Fin 3, k u v *
        (padded A ((r.val : ℤ) + (u.val - 1)) ((c.val : ℤ) + (v.val - 1)) * B r c) := by
    intro r c
    unfold correlateAt
    rw [Finset.sum_mul]
    refine Finset.sum_congr rfl fun u _ => ?_
    rw [Finset.sum_mul]
    refine Finset.sum_congr rfl fun v _ => ?_
    rw [mul_assoc, add_sub_assoc, add_sub_assoc]
  have e2 : ∀ (r : Fin i) (c : Fin j), A r c * correlateAt B l r.val c.val =
      ∑ u : Fin 3, ∑ v : Fin 3, k u v *
        (A r c * padded B ((r.val : ℤ) - (u.val - 1)) ((c.val : ℤ) - (v.val - 1))) := by
    intro r c
    unfold correlateAt
    rw [Finset.mul_sum, ← Equiv.sum_comp Fin.revPerm]
    refine Finset.sum_congr rfl fun u _ => ?_
    rw [Finset.mul_sum, ← Equiv.sum_comp Fin.revPerm]
    refine Finset.sum_congr rfl fun v _ => ?_
    rw [hl, Fin.revPerm_apply, Fin.revPerm_apply, Fin.rev_rev, Fin.rev_rev, mul_left_comm]
    congr 3
    · have := u.2
      rw [Fin.val_rev]; omega
    · have := v.2
      rw [Fin.val_rev]; omega
  simp only [e1, e2]
  have swap : ∀ f : Fin i → Fin j → Fin 3 → Fin 3 → K,
      ∑ r, ∑ c, ∑ u, ∑ v, k u v * f r c u v = ∑ u, ∑ v, k u v * ∑ r, ∑ c, f r c u v := by
    intro f
    have e : ∀ r, ∑ c, ∑ u, ∑ v, k u v * f r c u v = ∑ u, ∑ v, ∑ c, k u v * f r c u v := by
      intro r
      rw [Finset.sum_comm]
      exact Finset.sum_congr rfl fun u _ => Finset.sum_comm
    simp only [e]
    rw [Finset.sum_comm]
    refine Finset.sum_congr rfl fun u _ => ?_
    rw [Finset.sum_comm]
    refine Finset.sum_congr rfl fun v _ => ?_
    simp only [← Finset.mul_sum]
  rw [swap (fun r c u v => padded A ((r.val : ℤ) + (u.val - 1)) ((c.val : ℤ) + (v.val - 1)) * B r c),
    swap (fun r c u v => A r c * padded B ((r.val : ℤ) - (u.val - 1)) ((c.val : ℤ) - (v.val - 1)))]
  refine Finset.sum_congr rfl fun u _ => Finset.sum_congr rfl fun v _ => ?_
  rw [padded_adjoint]

/-- C135: a kernel that is a column times a row can be applied as a row and then a column kernel. -/
theorem C135_separable (A X : Mat K i j) (a b : Fin 3 → K) (hi : i ≤ 2 ^ 31) (hj : j ≤ 2 ^ 31)
    (hX : conv2 A (!![0, 0, 0; b 0, b 1, b 2; 0, 0, 0]) = .ok X) :
    conv2 X (!![0, a 0, 0; 0, a 1, 0; 0, a 2, 0]) = conv2 A (.of fun u v => a u * b v) := by
  rw [conv2_ok _ _ hi hj] at hX
  cases hX
  rw [conv2_ok _ _ hi hj, conv2_ok _ _ hi hj]
  congr 1
  ext r c
  rw [Matrix.of_apply, Matrix.of_apply]
  have hrow : ∀ x : ℤ, padded (.of fun (r : Fin i) (c : Fin j) =>
      correlateAt A (!![0, 0, 0; b 0, b 1, b 2; 0, 0, 0]) r.val c.val) x c.val =
      ∑ v : Fin 3, b v * padded A x ((c.val : ℤ) + v.val - 1) := by
    intro x
    rw [padded_of (fun x y => correlateAt A (!![0, 0, 0; b 0, b 1, b 2; 0, 0, 0]) x y)]
    split
    · unfold correlateAt
      simp [Fin.sum_univ_three]
    · next h =>
      refine (Finset.sum_eq_zero fun v _ => ?_).symm
      rw [padded_out, mul_zero]
      intro h'
      have := c.2
      exact h ⟨h'.1, by omega, by omega⟩
  have hcol : ∀ B : Mat K i j, correlateAt B (!![0, a 0, 0; 0, a 1, 0; 0, a 2, 0]) r.val c.val =
      ∑ u : Fin 3, a u * padded B ((r.val : ℤ) + u.val - 1) c.val := by
    intro B
    unfold correlateAt
    simp [Fin.sum_univ_three]
  rw [hcol]
  simp only [hrow]
  unfold correlateAt
  refine Finset.sum_congr rfl fun u _ => ?_
  rw [Finset.mul_sum]
  refine Finset.sum_congr rfl fun v _ => ?_
  rw [Matrix.of_apply, mul_assoc]

end

/-- Sobel's kernel, applied in one step and in two. -/
example : conv2 (!![1, 2, 3; 4, 0, 6; 7, 8, 1] : Mat ℚ 3 3) !![-1, 0, 1; -2, 0, 2; -1, 0, 1] =
      .ok !![4, 6, -4; 10, 0, -10; 16, -10, -16] ∧
    conv2 (!![1, 2, 3; 4, 0, 6; 7, 8, 1] : Mat ℚ 3 3) !![0, 0, 0; -1, 0, 1; 0, 0, 0] =
      .ok !![2, 2, -2; 0, 2, 0; 8, -6, -8] ∧
    conv2 (!![2, 2, -2; 0, 2, 0; 8, -6, -8] : Mat ℚ 3 3) !![0, 1, 0; 0, 2, 0; 0, 1, 0] =
      .ok !![4, 6, -4; 10, 0, -10; 16, -10, -16] := by
  refine ⟨?_, ?_, ?_⟩ <;> decide +kernel

end MatrixLibs
