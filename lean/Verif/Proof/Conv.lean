import Verif.Model.Conv
import Verif.Spec.Conv
import Verif.Proof.Arith

/-!
# Convolution
-/

namespace MatrixLibs

set_option linter.unusedSectionVars false

open CScalar (ofInt)

/-! ## Index conversions -/

/-- The `std::size_t` value of the index expression with mathematical value `a`. -/
def szOf (a : ℤ) : Nat := (a % (sizeMod : ℤ)).toNat

theorem szOf_cast (a : ℤ) : (szOf a : ℤ) = a % (sizeMod : ℤ) := by
  unfold szOf
  have : (0 : ℤ) ≤ a % (sizeMod : ℤ) := Int.emod_nonneg _ (by unfold sizeMod; norm_num)
  omega

theorem szOf_nat (n : Nat) (h : n < sizeMod) : szOf (n : ℤ) = n := by
  have := szOf_cast n
  rw [Int.emod_eq_of_lt (by omega) (by omega)] at this
  omega

theorem szSub_szOf (a : ℤ) (b : Nat) (hb : b < sizeMod) : szSub (szOf a) b = szOf (a - b) := by
  have h1 := szOf_cast a
  have h2 := szOf_cast (a - b)
  unfold szSub
  have : ((szOf a + (sizeMod - b)) % sizeMod : Nat) = ((szOf (a - b) : Nat) : ℤ) := by
    rw [h2]
    push_cast [Nat.cast_sub hb.le]
    rw [h1]
    have hM : (sizeMod : ℤ) = 2 ^ 64 := by unfold sizeMod; norm_num
    rw [hM]
    omega
  exact_mod_cast this

theorem szAdd_szOf (a : ℤ) (b : Nat) : szAdd (szOf a) b = szOf (a + b) := by
  have h1 := szOf_cast a
  have h2 := szOf_cast (a + b)
  unfold szAdd
  have : ((szOf a + b) % sizeMod : Nat) = ((szOf (a + b) : Nat) : ℤ) := by
    rw [h2]
    push_cast
    rw [h1]
    have hM : (sizeMod : ℤ) = 2 ^ 64 := by unfold sizeMod; norm_num
    rw [hM]
    omega
  exact_mod_cast this

/-- The conversion to `int` keeps small values and makes those from 2^31 on negative. -/
theorem szToInt_szOf (a : ℤ) (h1 : -(2 ^ 31) ≤ a) (h2 : a < 2 ^ 32) :
    szToInt (szOf a) = if a < 2 ^ 31 then a else a - 2 ^ 32 := by
  unfold szToInt
  rw [szOf_cast]
  have hM : (sizeMod : ℤ) = 2 ^ 64 := by unfold sizeMod; norm_num
  rw [hM, Int.bmod_def]
  norm_num at *
  split <;> split <;> omega

theorem isOutOfRange_eq_zero (i j : Nat) (a b : ℤ) :
    isOutOfRange i j a b = 0 ↔
      (0 ≤ a ∧ intToUInt a < i) ∧ 0 ≤ b ∧ intToUInt b < j := by
  unfold isOutOfRange
  simp only
  split <;> split <;> split <;> split <;> omega

theorem inRange_iff (i : Nat) (hi : i ≤ 2 ^ 32) (a : ℤ) (h1 : -(2 ^ 31) ≤ a) (h2 : a < 2 ^ 32) :
    (0 ≤ szToInt (szOf a) ∧ intToUInt (szToInt (szOf a)) < i) ↔
      (0 ≤ a ∧ a < i) ∧ a < 2 ^ 31 := by
  rw [szToInt_szOf a h1 h2]
  unfold intToUInt
  norm_num at *
  split <;> omega

/-! ## Cells -/

section
variable {T R : Type} [Inhabited T] [CScalar T] [Ring R] {i j : Nat}

/-- What `conv2` sees of `A`: rows and columns from 2^31 on count as zero. -/
def seen (A : Mat R i j) : Mat R i j :=
  .of fun a b => if a.val < 2 ^ 31 ∧ b.val < 2 ^ 31 then A a b else 0

theorem seen_eq (A : Mat R i j) (hi : i ≤ 2 ^ 31) (hj : j ≤ 2 ^ 31) : seen A = A := by
  ext a b
  have := a.2
  have := b.2
  unfold seen
  rw [Matrix.of_apply, if_pos (by omega)]

theorem wp_convTerm (H : RingSem T R) (A : Mat T i j) (k : Mat T 3 3) (u v : Fin 3) (a b : ℤ)
    (hi : i ≤ 2 ^ 32) (hj : j ≤ 2 ^ 32)
    (ha : -(2 ^ 31) ≤ a) (ha' : a < 2 ^ 32) (hb : -(2 ^ 31) ≤ b) (hb' : b < 2 ^ 32) :
    wp (convTerm A k u v (szOf a) (szOf b))
      (fun t => H.val t = k.map H.val u v * padded (seen (A.map H.val)) a b) H.Bad := by
  unfold convTerm
  by_cases h : isOutOfRange i j (szToInt (szOf a)) (szToInt (szOf b)) = 0
  · rw [if_neg (not_not.mpr h)]
    rw [isOutOfRange_eq_zero, inRange_iff i hi a ha ha', inRange_iff j hj b hb hb'] at h
    obtain ⟨⟨⟨h1, h2⟩, h3⟩, ⟨h4, h5⟩, h6⟩ := h
    have hM : (sizeMod : ℤ) = 2 ^ 64 := by unfold sizeMod; norm_num
    have ea : szOf a = a.toNat := by
      unfold szOf; rw [Int.emod_eq_of_lt h1 (by rw [hM]; omega)]
    have eb : szOf b = b.toNat := by
      unfold szOf; rw [Int.emod_eq_of_lt h4 (by rw [hM]; omega)]
    rw [ea, eb, rd_fin, ok_bind, rd_eq (by omega) (by omega), ok_bind]
    refine wp_mono (H.mul _ _) ?_ (fun _ h => h)
    intro t ht
    rw [ht]
    unfold padded
    rw [dif_pos ⟨⟨h1, h2⟩, h4, h5⟩]
    unfold seen
    rw [Matrix.of_apply, if_pos (by dsimp only; omega)]
    rfl
  · rw [if_pos h, wp_ok, H.ofInt 0 (by omega) (by omega), Int.cast_zero]
    rw [isOutOfRange_eq_zero, inRange_iff i hi a ha ha', inRange_iff j hj b hb hb'] at h
    unfold padded
    split
    · next h' =>
      unfold seen
      rw [Matrix.of_apply, if_neg (by dsimp only; omega), mul_zero]
    · rw [mul_zero]

/-- `result[it][jt] += t` for each term in turn. -/
def accum {r c : Nat} (it jt : Nat) : List (Res T) → Mat T r c → Res (Mat T r c)
  | [], S => .ok S
  | t :: ts, S => do
    let S ← addTo S it jt (← t)
    accum it jt ts S

/-- The same on a scalar. -/
def accumVal : List (Res T) → T → Res T
  | [], v => .ok v
  | t :: ts, v => do
    let v ← CScalar.add v (← t)
    accumVal ts v

theorem accum_eq {r c : Nat} {it jt : Nat} (hit : it < r) (hjt : jt < c) (ts : List (Res T)) :
    ∀ (v : T) (S : Mat T r c),
      (do let S ← wr S it jt v
          accum it jt ts S) = (do wr S it jt (← accumVal ts v)) := by
  induction ts with
  | nil =>
    intro v S
    show (do let S ← wr S it jt v; .ok S) = wr S it jt v
    rw [wr_eq hit hjt, ok_bind]
  | cons t ts ih =>
    intro v S
    simp only [accum, accumVal, bind_assoc]
    rw [wr_eq hit hjt, ok_bind]
    congr 1
    funext x
    unfold addTo
    simp only [bind_assoc]
    rw [rd_eq hit hjt, ok_bind, Matrix.of_apply, if_pos ⟨rfl, rfl⟩]
    congr 1
    funext v'
    rw [← ih v' S, wr_eq hit hjt, wr_eq hit hjt, ok_bind, ok_bind]
    congr 1
    ext a b
    simp only [Matrix.of_apply]
    split
    · rfl
    · rfl

theorem wp_accumVal (H : RingSem T R) (ts : List (Res T)) (vals : List R)
    (h : List.Forall₂ (fun t x => wp t (fun y => H.val y = x) H.Bad) ts vals) :
    ∀ v : T, wp (accumVal ts v) (fun y => H.val y = H.val v + vals.sum) H.Bad := by
  induction h with
  | nil =>
    intro v
    show wp (.ok v) _ _
    rw [wp_ok, List.sum_nil, add_zero]
  | cons ht _ ih =>
    intro v
    rw [accumVal, wp_bind]
    refine wp_mono ht ?_ (fun _ h => h)
    intro x hx
    rw [wp_bind]
    refine wp_mono (H.add v x) ?_ (fun _ h => h)
    intro y hy
    refine wp_mono (ih y) ?_ (fun _ h => h)
    intro z hz
    rw [hz, hy, hx, List.sum_cons, add_assoc]

theorem bind_ok {α : Type} (x : Res α) : (x >>= fun a => .ok a) = x := bind_pure x

/-- The nine terms at `(a, b)`, in program order. -/
def convTerms (A : Mat T i j) (k : Mat T 3 3) (a b : ℤ) : List (Res T) :=
  [convTerm A k 0 0 (szOf (a - 1)) (szOf (b - 1)),
   convTerm A k 0 1 (szOf (a - 1)) (szOf b),
   convTerm A k 0 2 (szOf (a - 1)) (szOf (b + 1)),
   convTerm A k 1 0 (szOf a) (szOf (b - 1)),
   convTerm A k 1 1 (szOf a) (szOf b),
   convTerm A k 1 2 (szOf a) (szOf (b + 1)),
   convTerm A k 2 0 (szOf (a + 1)) (szOf (b - 1)),
   convTerm A k 2 1 (szOf (a + 1)) (szOf b),
   convTerm A k 2 2 (szOf (a + 1)) (szOf (b + 1))]

/-- The value of one cell. -/
def convCell (A : Mat T i j) (k : Mat T 3 3) (a b : ℤ) : Res T :=
  accumVal (convTerms A k a b) (ofInt 0)

theorem conv2_cells (A : Mat T i j) (k : Mat T 3 3) (hi : i ≤ sizeMod) (hj : j ≤ sizeMod) :
    conv2 A k = (forUp 0 i (valueInit i j) fun it S =>
      forUp 0 j S fun jt S => do wr S it jt (← convCell A k it jt)) := by
  unfold conv2
  refine forUp_congr (fun it S _ hit => forUp_congr (fun jt S _ hjt => ?_))
  unfold convCell
  rw [← accum_eq hit hjt]
  have h1 : ∀ n : Nat, n < sizeMod → szSub n 1 = szOf ((n : ℤ) - 1) := by
    intro n hn
    have := szSub_szOf n 1 (by unfold sizeMod; norm_num)
    rw [szOf_nat n hn] at this
    exact_mod_cast this
  have h2 : ∀ n : Nat, n < sizeMod → szAdd n 1 = szOf ((n : ℤ) + 1) := by
    intro n hn
    have := szAdd_szOf n 1
    rw [szOf_nat n hn] at this
    exact_mod_cast this
  have hit' : it < sizeMod := lt_of_lt_of_le hit hi
  have hjt' : jt < sizeMod := lt_of_lt_of_le hjt hj
  rw [h1 it hit', h1 jt hjt', h2 it hit', h2 jt hjt']
  unfold convTerms
  simp only [accum, bind_ok, szOf_nat it hit', szOf_nat jt hjt']

theorem conv2_full_cells (A : Mat T i j) (k : Mat T 3 3) (hi : i + 2 ≤ sizeMod)
    (hj : j + 2 ≤ sizeMod) :
    conv2_full A k = (forUp 0 (i + 2) (valueInit (i + 2) (j + 2)) fun it S =>
      forUp 0 (j + 2) S fun jt S => do
        wr S it jt (← convCell A k ((it : ℤ) - 1) ((jt : ℤ) - 1))) := by
  unfold conv2_full
  refine forUp_congr (fun it S _ hit => forUp_congr (fun jt S _ hjt => ?_))
  unfold convCell
  rw [← accum_eq hit hjt]
  have h1 : ∀ n : Nat, n < sizeMod → szSub n 1 = szOf ((n : ℤ) - 1) := by
    intro n hn
    have := szSub_szOf n 1 (by unfold sizeMod; norm_num)
    rw [szOf_nat n hn] at this
    exact_mod_cast this
  have h2 : ∀ n : Nat, n < sizeMod → szAdd n 1 = szOf ((n : ℤ) + 1) := by
    intro n hn
    have := szAdd_szOf n 1
    rw [szOf_nat n hn] at this
    exact_mod_cast this
  have h3 : ∀ a : ℤ, szSub (szOf a) 1 = szOf (a - 1) := by
    intro a
    have := szSub_szOf a 1 (by unfold sizeMod; norm_num)
    exact_mod_cast this
  have hit' : it < sizeMod := lt_of_lt_of_le hit hi
  have hjt' : jt < sizeMod := lt_of_lt_of_le hjt hj
  have h4 : ∀ a : ℤ, a + 1 - 1 = a - 1 + 1 := fun a => by ring
  simp only [h1 it hit', h1 jt hjt', h2 it hit', h2 jt hjt', h3, h4]
  unfold convTerms
  simp only [accum, bind_ok]

theorem wp_convCell (H : RingSem T R) (A : Mat T i j) (k : Mat T 3 3) (a b : ℤ)
    (hi : i ≤ 2 ^ 32) (hj : j ≤ 2 ^ 32)
    (ha : -1 ≤ a) (ha' : a + 1 < 2 ^ 32) (hb : -1 ≤ b) (hb' : b + 1 < 2 ^ 32) :
    wp (convCell A k a b)
      (fun y => H.val y = correlateAt (seen (A.map H.val)) (k.map H.val) a b) H.Bad := by
  unfold convCell
  set P := padded (seen (A.map H.val)) with hP
  set κ := k.map H.val with hκ
  refine wp_mono (wp_accumVal H (convTerms A k a b)
    [κ 0 0 * P (a - 1) (b - 1), κ 0 1 * P (a - 1) b, κ 0 2 * P (a - 1) (b + 1),
     κ 1 0 * P a (b - 1), κ 1 1 * P a b, κ 1 2 * P a (b + 1),
     κ 2 0 * P (a + 1) (b - 1), κ 2 1 * P (a + 1) b, κ 2 2 * P (a + 1) (b + 1)]
    ?_ (ofInt 0)) ?_ (fun _ h => h)
  · unfold convTerms
    refine .cons (wp_convTerm H A k 0 0 _ _ hi hj ?_ ?_ ?_ ?_)
      (.cons (wp_convTerm H A k 0 1 _ _ hi hj ?_ ?_ ?_ ?_)
      (.cons (wp_convTerm H A k 0 2 _ _ hi hj ?_ ?_ ?_ ?_)
      (.cons (wp_convTerm H A k 1 0 _ _ hi hj ?_ ?_ ?_ ?_)
      (.cons (wp_convTerm H A k 1 1 _ _ hi hj ?_ ?_ ?_ ?_)
      (.cons (wp_convTerm H A k 1 2 _ _ hi hj ?_ ?_ ?_ ?_)
      (.cons (wp_convTerm H A k 2 0 _ _ hi hj ?_ ?_ ?_ ?_)
      (.cons (wp_convTerm H A k 2 1 _ _ hi hj ?_ ?_ ?_ ?_)
      (.cons (wp_convTerm H A k 2 2 _ _ hi hj ?_ ?_ ?_ ?_) .nil)))))))) <;> omega
  · intro y hy
    rw [hy, H.ofInt 0 (by omega) (by omega), Int.cast_zero, zero_add]
    unfold correlateAt
    simp only [Fin.sum_univ_three, List.sum_cons, List.sum_nil, add_zero]
    have e0 : ∀ x : ℤ, x + ((0 : Fin 3).val : ℤ) - 1 = x - 1 := fun x => by simp
    have e1 : ∀ x : ℤ, x + ((1 : Fin 3).val : ℤ) - 1 = x := fun x => by simp
    have e2 : ∀ x : ℤ, x + ((2 : Fin 3).val : ℤ) - 1 = x + 1 := fun x => by
      show x + 2 - 1 = x + 1
      ring
    simp only [e0, e1, e2]
    abel

/-- `conv2(A, kernel)` in any ring interpretation of the element type. -/
theorem wp_conv2 (H : RingSem T R) (A : Mat T i j) (k : Mat T 3 3) (hi : i < 2 ^ 32)
    (hj : j < 2 ^ 32) :
    wp (conv2 A k) (fun S => ∀ (r : Fin i) (c : Fin j),
      H.val (S r c) = correlateAt (seen (A.map H.val)) (k.map H.val) r.val c.val) H.Bad := by
  rw [conv2_cells A k (by unfold sizeMod; omega) (by unfold sizeMod; omega)]
  refine wp_mono (wp_fill (g := fun it jt => convCell A k it jt) _) ?_ ?_
  · intro S hS r c
    have := r.2
    have := c.2
    have h := wp_convCell H A k r.val c.val hi.le hj.le (by omega) (by omega) (by omega) (by omega)
    have := wp_ok_elim h (hS r c)
    exact this
  · rintro e ⟨r, c, he⟩
    have := r.2
    have := c.2
    have h := wp_convCell H A k r.val c.val hi.le hj.le (by omega) (by omega) (by omega) (by omega)
    exact wp_error_elim h he

theorem wp_conv2_full (H : RingSem T R) (A : Mat T i j) (k : Mat T 3 3) (hi : i + 1 < 2 ^ 32)
    (hj : j + 1 < 2 ^ 32) :
    wp (conv2_full A k) (fun S => ∀ (r : Fin (i + 2)) (c : Fin (j + 2)),
      H.val (S r c) =
        correlateAt (seen (A.map H.val)) (k.map H.val) ((r.val : ℤ) - 1) ((c.val : ℤ) - 1))
      H.Bad := by
  rw [conv2_full_cells A k (by unfold sizeMod; omega) (by unfold sizeMod; omega)]
  refine wp_mono (wp_fill
    (g := fun it jt => convCell A k ((it : ℤ) - 1) ((jt : ℤ) - 1)) _) ?_ ?_
  · intro S hS r c
    have := r.2
    have := c.2
    have h := wp_convCell H A k ((r.val : ℤ) - 1) ((c.val : ℤ) - 1) (by omega) (by omega)
      (by omega) (by omega) (by omega) (by omega)
    have := wp_ok_elim h (hS r c)
    exact this
  · rintro e ⟨r, c, he⟩
    have := r.2
    have := c.2
    have h := wp_convCell H A k ((r.val : ℤ) - 1) ((c.val : ℤ) - 1) (by omega) (by omega)
      (by omega) (by omega) (by omega) (by omega)
    exact wp_error_elim h he

end

/-! ## Exact arithmetic -/

section
variable {K : Type} [Ring K] [Inhabited K] [CScalar K] [ExactRing K] {i j : Nat}

theorem conv2_seen (A : Mat K i j) (k : Mat K 3 3) (hi : i < 2 ^ 32) (hj : j < 2 ^ 32) :
    conv2 A k = .ok (.of fun r c => correlateAt (seen A) k r.val c.val) := by
  apply wp_eq
  refine wp_mono (wp_conv2 (RingSem.exact K) A k hi hj) ?_ (fun _ h => h)
  intro S hS
  ext r c
  have := hS r c
  simp only [RingSem.exact_map] at this
  exact this

theorem conv2_ok (A : Mat K i j) (k : Mat K 3 3) (hi : i ≤ 2 ^ 31) (hj : j ≤ 2 ^ 31) :
    conv2 A k = .ok (.of fun r c => correlateAt A k r.val c.val) := by
  rw [conv2_seen A k (by omega) (by omega), seen_eq A hi hj]

theorem conv2_full_ok (A : Mat K i j) (k : Mat K 3 3) (hi : i ≤ 2 ^ 31) (hj : j ≤ 2 ^ 31) :
    conv2_full A k =
      .ok (.of fun r c => correlateAt A k ((r.val : ℤ) - 1) ((c.val : ℤ) - 1)) := by
  apply wp_eq
  refine wp_mono (wp_conv2_full (RingSem.exact K) A k (by omega) (by omega)) ?_ (fun _ h => h)
  intro S hS
  ext r c
  have := hS r c
  simp only [RingSem.exact_map, seen_eq A hi hj] at this
  exact this

theorem padded_fin (A : Mat K i j) (r : Fin i) (c : Fin j) : padded A r.val c.val = A r c := by
  unfold padded
  have := r.2
  have := c.2
  rw [dif_pos (by omega)]
  rfl

end

end MatrixLibs
