import Verif.Proof.Lu
import Mathlib.Analysis.Matrix.PosDef

/-!
# Cholesky factorisation
-/

namespace MatrixLibs

set_option linter.unusedSectionVars false

open CScalar (ofInt)

section
variable {K : Type} [Field K] [LinearOrder K] [IsStrictOrderedRing K] [Inhabited K] [CScalar K]
  [ExactSqrt K] {n : Nat}

/-- Cells written before the inner loop reaches `(i, j)`. -/
def Written (i j : Nat) (a b : Fin n) : Prop := b ≤ a ∧ (a.val < i ∨ a.val = i ∧ b.val < j)

/-- Invariant of `chol` before the inner loop reaches `(i, j)`. -/
structure CholInv (A : Mat K n n) (i j : Nat) (L : Mat K n n) : Prop where
  zero : ∀ a b, ¬ Written i j a b → L a b = 0
  prod : ∀ a b, Written i j a b → ∑ k, L a k * L b k = A a b
  diag : ∀ a, Written i j a a → 0 ≤ L a a

theorem cholSum_ok (L : Mat K n n) (i j : Fin n) :
    cholSum L i j = .ok (∑ k, if k < i then L i k * L j k else 0) := by
  unfold cholSum
  apply wp_eq
  refine wp_mono (wp_sum_loop (V := id)
    (fun p : Fin i.val => L i ⟨p.val, lt_trans p.2 i.2⟩ * L j ⟨p.val, lt_trans p.2 i.2⟩) ?_) ?_
    (fun _ h => h)
  · intro k hk s
    rw [rd_eq i.2 (lt_trans hk i.2), ok_bind, rd_eq j.2 (lt_trans hk i.2), ok_bind,
      ExactRing.mul_eq, ok_bind, ExactRing.add_eq, wp_ok]
    rfl
  · intro v hv
    rw [show v = id v from rfl, hv, ExactRing.ofInt_eq, Int.cast_zero,
      sum_cut (i := i) (fun p => L i p * L j p)]
    exact zero_add _

/-- Before `(i, j)` is written the accumulated sum is the whole scalar product of rows. -/
theorem cholSum_inv (A L : Mat K n n) (i j r : Fin n) (hji : j ≤ i)
    (h : CholInv A i j L) :
    cholSum L i r = .ok (∑ k, L i k * L r k) := by
  rw [cholSum_ok]
  congr 1
  refine Finset.sum_congr rfl (fun k _ => ?_)
  split
  · rfl
  · next hk =>
    rw [h.zero i k, zero_mul]
    rintro ⟨-, h1 | h1⟩
    · exact lt_irrefl _ h1
    · exact hk (lt_of_lt_of_le h1.2 hji)

/-- Updating `(i, j)`, which was `0`, with `v`. -/
theorem chol_update (A L : Mat K n n) (i j : Fin n) (hji : j ≤ i) (v : K)
    (h : CholInv A i j L)
    (hv : (∑ k, L i k * L j k) + (if j = i then v * v else v * L j j) = A i j)
    (hv0 : j = i → 0 ≤ v) :
    CholInv A i (j.val + 1)
      (.of fun a b => if a.val = i.val ∧ b.val = j.val then v else L a b) := by
  have hLij : L i j = 0 := h.zero i j (by
    rintro ⟨-, h1 | h1⟩
    · exact lt_irrefl _ h1
    · exact lt_irrefl _ h1.2)
  have hnew : ∀ a b : Fin n, ¬ (a = i ∧ b = j) →
      (Matrix.of fun a b : Fin n => if a.val = i.val ∧ b.val = j.val then v else L a b) a b =
      L a b := by
    intro a b hab
    rw [Matrix.of_apply, if_neg (fun h => hab ⟨Fin.ext h.1, Fin.ext h.2⟩)]
  have hij : (Matrix.of fun a b : Fin n => if a.val = i.val ∧ b.val = j.val then v else L a b) i j =
      v := by
    rw [Matrix.of_apply, if_pos ⟨rfl, rfl⟩]
  generalize (Matrix.of fun a b : Fin n => if a.val = i.val ∧ b.val = j.val then v else L a b) = L'
    at hnew hij
  have hW : ∀ a b : Fin n, Written i (j.val + 1) a b → ¬ (a = i ∧ b = j) → Written i j a b := by
    rintro a b ⟨h1, h2⟩ hab
    refine ⟨h1, ?_⟩
    rcases h2 with h2 | h2
    · exact Or.inl h2
    · right
      refine ⟨h2.1, ?_⟩
      have : b.val ≠ j.val := fun hb => hab ⟨Fin.ext h2.1, Fin.ext hb⟩
      omega
  refine ⟨?_, ?_, ?_⟩
  · intro a b hab
    rw [hnew a b]
    · refine h.zero a b (fun h' => hab ⟨h'.1, ?_⟩)
      rcases h'.2 with h2 | h2
      · exact Or.inl h2
      · exact Or.inr ⟨h2.1, by omega⟩
    · rintro ⟨rfl, rfl⟩
      exact hab ⟨hji, Or.inr ⟨rfl, by omega⟩⟩
  · intro a b hab
    by_cases hc : a = i ∧ b = j
    · obtain ⟨rfl, rfl⟩ := hc
      rw [← hv]
      have hterm : ∀ k, L' a k * L' b k = L a k * L b k +
          (if k = b then (if b = a then v * v else v * L b b) else 0) := by
        intro k
        by_cases hk : k = b
        · subst hk
          rw [if_pos rfl, hij, hLij, zero_mul, zero_add]
          by_cases hka : k = a
          · subst hka
            rw [if_pos rfl, hij]
          · rw [if_neg hka, hnew k k (fun h => hka h.1)]
        · rw [if_neg hk, add_zero, hnew a k (fun h => hk h.2), hnew b k (fun h => hk h.2)]
      rw [Finset.sum_congr rfl (fun k _ => hterm k), Finset.sum_add_distrib, Finset.sum_ite_eq',
        if_pos (Finset.mem_univ b)]
    · have hW' := hW a b hab hc
      rw [← h.prod a b hW']
      refine Finset.sum_congr rfl (fun k _ => ?_)
      have hbi : b ≠ i := by
        rintro rfl
        rcases hW'.2 with h2 | h2
        · exact absurd hW'.1 (not_le.mpr h2)
        · exact absurd hji (not_le.mpr h2.2)
      rw [hnew b k (fun h => hbi h.1)]
      by_cases hak : a = i ∧ k = j
      · obtain ⟨rfl, rfl⟩ := hak
        have hz : L b k = 0 := by
          refine h.zero b k ?_
          rintro ⟨h1, -⟩
          rcases hW'.2 with h2 | h2
          · exact lt_irrefl _ h2
          · exact absurd h1 (not_le.mpr h2.2)
        rw [hz, mul_zero, mul_zero]
      · rw [hnew a k hak]
  · intro a ha
    by_cases hc : a = i ∧ a = j
    · obtain ⟨h1, h2⟩ := hc
      subst h1
      subst h2
      rw [hij]
      exact hv0 rfl
    · rw [hnew a a hc]
      exact h.diag a (hW a a ha hc)

/-- How `chol` stops. -/
def CholStop (e : Stop) : Prop := e = .ub .divisionByZero ∨ e = .ub .domain

theorem wp_cholStep (A L : Mat K n n) (i j : Fin n) (hji : j ≤ i) (h : CholInv A i j L) :
    wp (cholStep A i j L) (CholInv A i (j.val + 1)) CholStop := by
  unfold cholStep
  split
  · next hij =>
    have hij' : j = i := Fin.ext hij
    subst hij'
    rw [cholSum_inv A L j j j le_rfl h, ok_bind, rd_eq j.2 j.2, ok_bind, ExactRing.sub_eq, ok_bind,
      wp_bind]
    cases hs : CScalar.sqrt (A ⟨j.val, j.2⟩ ⟨j.val, j.2⟩ - ∑ k, L j k * L j k) with
    | error e => exact Or.inr (ExactSqrt.sqrt_stop _ _ hs)
    | ok v =>
      obtain ⟨h0, hsq⟩ := ExactSqrt.sqrt_sound _ _ hs
      show wp (wr L j.val j.val v) _ _
      rw [wr_eq j.2 j.2, wp_ok]
      refine chol_update A L j j le_rfl v h ?_ (fun _ => h0)
      rw [if_pos rfl, hsq]
      exact add_sub_cancel _ _
  · next hij =>
    have hij' : j ≠ i := fun h => hij (congrArg Fin.val h)
    rw [cholSum_inv A L i j j hji h, ok_bind, rd_eq i.2 j.2, ok_bind, ExactRing.sub_eq, ok_bind,
      rd_eq j.2 j.2, ok_bind]
    by_cases hz : L j j = 0
    · have : CScalar.div (A ⟨i.val, i.2⟩ ⟨j.val, j.2⟩ - ∑ k, L i k * L j k)
          (L ⟨j.val, j.2⟩ ⟨j.val, j.2⟩) = .error (.ub .divisionByZero) := by
        show CScalar.div _ (L j j) = _
        rw [hz, ExactField.div_zero]
      rw [this, error_bind]
      exact Or.inl rfl
    · rw [ExactField.div_eq _ _ hz, ok_bind, wr_eq i.2 j.2, wp_ok]
      refine chol_update A L i j hji _ h ?_ (fun h => absurd h hij')
      rw [if_neg hij', div_mul_cancel₀ _ hz]
      exact add_sub_cancel _ _

theorem CholInv.row {A L : Mat K n n} {i : Nat} (h : CholInv A i (i + 1) L) :
    CholInv A (i + 1) 0 L := by
  have hW : ∀ a b : Fin n, Written (i + 1) 0 a b ↔ Written i (i + 1) a b := by
    intro a b
    unfold Written
    rw [Fin.le_def]
    constructor
    · rintro ⟨h1, h2⟩
      exact ⟨h1, by omega⟩
    · rintro ⟨h1, h2⟩
      exact ⟨h1, by omega⟩
  exact ⟨fun a b hab => h.zero a b (fun h' => hab ((hW a b).mpr h')),
    fun a b hab => h.prod a b ((hW a b).mp hab), fun a ha => h.diag a ((hW a a).mp ha)⟩

theorem CholInv.init (A : Mat K n n) : CholInv A 0 0 (Mat.const (ofInt 0)) := by
  have hno : ∀ a b : Fin n, ¬ Written 0 0 a b := by
    rintro a b ⟨-, h⟩
    omega
  refine ⟨fun a b _ => ?_, fun a b h => absurd h (hno a b), fun a h => absurd h (hno a a)⟩
  show ofInt 0 = (0 : K)
  rw [ExactRing.ofInt_eq, Int.cast_zero]

theorem wp_chol (A : Mat K n n) : wp (chol A) (CholInv A n 0) CholStop := by
  unfold chol
  refine wp_forUp (fun i L => CholInv A i 0 L) (Nat.zero_le n) (CholInv.init A) ?_ (fun _ h => h)
  intro i L _ hi h
  refine wp_forUp (fun j L => CholInv A i j L) (Nat.zero_le _) h ?_ (fun _ h => h.row)
  intro j L _ hj h
  exact wp_cholStep A L ⟨i, hi⟩ ⟨j, by omega⟩ (by rw [Fin.le_def]; dsimp only; omega) h

theorem written_all (a b : Fin n) : Written n 0 a b ↔ b ≤ a := by
  unfold Written
  exact ⟨fun h => h.1, fun h => ⟨h, Or.inl a.2⟩⟩

/-! ## Positive definite matrices -/

/-- The remaining diagonal entry, in terms of leading minors. -/
theorem chol_minor (A L : Mat K n n) (i : Fin n) (hsym : ∀ a b, A a b = A b a)
    (h : CholInv A i i L) :
    leadingMinor A (i.val + 1) i.2 =
      (∏ q : Fin i.val, L ⟨q.val, lt_trans q.2 i.2⟩ ⟨q.val, lt_trans q.2 i.2⟩) *
      (∏ q : Fin i.val, L ⟨q.val, lt_trans q.2 i.2⟩ ⟨q.val, lt_trans q.2 i.2⟩) *
        (A i i - ∑ k, L i k * L i k) := by
  have hLup : ∀ a b : Fin n, a < b → L a b = 0 := fun a b hab =>
    h.zero a b (fun h' => absurd h'.1 (not_le.mpr hab))
  have hLii : L i i = 0 := h.zero i i (by
    rintro ⟨-, h1 | h1⟩
    · exact lt_irrefl _ h1
    · exact lt_irrefl _ h1.2)
  set d := A i i - ∑ k, L i k * L i k with hd
  set M : Mat K n n := .of fun a b => if a = i ∧ b = i then 1 else L a b with hM
  set N : Mat K n n := .of fun a b => if a = i ∧ b = i then d else L b a with hN
  have hM0 : ∀ a b : Fin n, ¬ (a = i ∧ b = i) → M a b = L a b := fun a b hab => by
    rw [hM, Matrix.of_apply, if_neg hab]
  have hN0 : ∀ a b : Fin n, ¬ (a = i ∧ b = i) → N a b = L b a := fun a b hab => by
    rw [hN, Matrix.of_apply, if_neg hab]
  have hMi : M i i = 1 := by rw [hM, Matrix.of_apply, if_pos ⟨rfl, rfl⟩]
  have hNi : N i i = d := by rw [hN, Matrix.of_apply, if_pos ⟨rfl, rfl⟩]
  have key := leadingMinor_eq_prods A M N (i.val + 1) i.2 ?_ ?_ ?_
  · rw [key, Fin.prod_univ_castSucc, Fin.prod_univ_castSucc]
    have hlast : Fin.castLE i.2 (Fin.last i.val) = i := Fin.ext rfl
    have hcast : ∀ q : Fin i.val, Fin.castLE i.2 q.castSucc = ⟨q.val, lt_trans q.2 i.2⟩ :=
      fun q => Fin.ext rfl
    have hne : ∀ q : Fin i.val, ¬ ((⟨q.val, lt_trans q.2 i.2⟩ : Fin n) = i ∧
        (⟨q.val, lt_trans q.2 i.2⟩ : Fin n) = i) := by
      rintro q ⟨h1, -⟩
      have := congrArg Fin.val h1
      dsimp only at this
      omega
    rw [hlast, hMi, hNi]
    have e1 : ∀ q : Fin i.val, M (Fin.castLE i.2 q.castSucc) (Fin.castLE i.2 q.castSucc) =
        L ⟨q.val, lt_trans q.2 i.2⟩ ⟨q.val, lt_trans q.2 i.2⟩ := by
      intro q; rw [hcast, hM0 _ _ (hne q)]
    have e2 : ∀ q : Fin i.val, N (Fin.castLE i.2 q.castSucc) (Fin.castLE i.2 q.castSucc) =
        L ⟨q.val, lt_trans q.2 i.2⟩ ⟨q.val, lt_trans q.2 i.2⟩ := by
      intro q; rw [hcast, hN0 _ _ (hne q)]
    rw [Finset.prod_congr rfl (fun q _ => e1 q), Finset.prod_congr rfl (fun q _ => e2 q)]
    ring
  · intro a b _ hab
    rw [hM0 a b (fun h => by rw [h.1, h.2] at hab; exact lt_irrefl _ hab)]
    exact hLup a b hab
  · intro a b _ hab
    rw [hN0 a b (fun h => by rw [h.1, h.2] at hab; exact lt_irrefl _ hab)]
    exact hLup b a hab
  · intro a b ha hb
    by_cases hab : a = i ∧ b = i
    · obtain ⟨rfl, rfl⟩ := hab
      have hterm : ∀ p, M b p * N p b = L b p * L b p + (if p = b then d else 0) := by
        intro p
        by_cases hp : p = b
        · subst hp
          rw [hMi, hNi, if_pos rfl, hLii]
          ring
        · rw [hM0 b p (fun h => hp h.2), hN0 p b (fun h => hp h.1), if_neg hp, add_zero]
      rw [Finset.sum_congr rfl (fun p _ => hterm p), Finset.sum_add_distrib, Finset.sum_ite_eq',
        if_pos (Finset.mem_univ b), hd]
      exact add_sub_cancel _ _
    · have hterm : ∀ p, M a p * N p b = L a p * L b p := by
        intro p
        by_cases hp : p = i
        · subst hp
          by_cases hai : a = p
          · have hbp : b ≠ p := fun h => hab ⟨hai, h⟩
            have hbp' : b < p := by
              rw [Fin.lt_def]
              have : b.val ≠ p.val := fun h => hbp (Fin.ext h)
              omega
            rw [hN0 p b (fun h => hbp h.2), hLup b p hbp', mul_zero, mul_zero]
          · have hap' : a < p := by
              rw [Fin.lt_def]
              have : a.val ≠ p.val := fun h => hai (Fin.ext h)
              omega
            rw [hM0 a p (fun h => hai h.1), hLup a p hap', zero_mul, zero_mul]
        · rw [hM0 a p (fun h => hp h.2), hN0 p b (fun h => hp h.1)]
      rw [Finset.sum_congr rfl (fun p _ => hterm p)]
      have hai : a.val < i.val ∨ b.val < i.val := by
        by_contra hcon
        exact hab ⟨Fin.ext (by omega), Fin.ext (by omega)⟩
      rcases le_total b a with hba | hba
      · refine h.prod a b ⟨hba, ?_⟩
        rw [Fin.le_def] at hba
        omega
      · rw [hsym a b, ← h.prod b a ⟨hba, by rw [Fin.le_def] at hba; omega⟩]
        exact Finset.sum_congr rfl (fun p _ => mul_comm _ _)

end

section real
variable {n : Nat}

theorem isPosDef_iff (A : Mat ℝ n n) : IsPosDef A ↔ A.PosDef := by
  rw [Matrix.posDef_iff_dotProduct_mulVec]
  unfold IsPosDef
  have h1 : (∀ i j, A i j = A j i) ↔ A.IsHermitian := by
    unfold Matrix.IsHermitian
    constructor
    · intro h
      ext i j
      rw [Matrix.conjTranspose_apply, star_trivial]
      exact h j i
    · intro h i j
      have := congrFun (congrFun h j) i
      rw [Matrix.conjTranspose_apply, star_trivial] at this
      exact this
  have h2 : ∀ x : Fin n → ℝ, ∑ i, ∑ j, x i * A i j * x j = star x ⬝ᵥ A.mulVec x := by
    intro x
    unfold dotProduct Matrix.mulVec dotProduct
    refine Finset.sum_congr rfl (fun i _ => ?_)
    rw [Pi.star_apply, star_trivial, Finset.mul_sum]
    exact Finset.sum_congr rfl (fun j _ => by ring)
  rw [h1]
  simp only [h2]

theorem minor_pos (A : Mat ℝ n n) (h : A.PosDef) (k : Nat) (hk : k ≤ n) :
    0 < leadingMinor A k hk :=
  (h.submatrix (Fin.castLE_injective hk)).det_pos

/-- `chol` of a positive definite matrix returns, with positive diagonal. -/
theorem wp_chol_posDef (A : Mat ℝ n n) (hA : A.PosDef) :
    wp (chol A) (fun L => CholInv A n 0 L ∧ ∀ a, 0 < L a a) (fun _ => False) := by
  have hsym : ∀ a b, A a b = A b a := ((isPosDef_iff A).mpr hA).1
  unfold chol
  refine wp_forUp (fun i L => CholInv A i 0 L ∧ ∀ a : Fin n, a.val < i → 0 < L a a)
    (Nat.zero_le n) ⟨CholInv.init A, fun a h => by omega⟩ ?_ (fun L h => ⟨h.1, fun a => h.2 a a.2⟩)
  rintro i L - hi ⟨h, hpos⟩
  refine wp_forUp (fun j L => CholInv A i j L ∧ (∀ a : Fin n, a.val < i → 0 < L a a) ∧
    (i < j → 0 < L ⟨i, hi⟩ ⟨i, hi⟩)) (Nat.zero_le _) ⟨h, hpos, fun h => by omega⟩ ?_ ?_
  · rintro j L - hj ⟨h, hpos, -⟩
    have hjn : j < n := by omega
    have hstep := wp_cholStep A L ⟨i, hi⟩ ⟨j, hjn⟩ (by rw [Fin.le_def]; dsimp only; omega) h
    have hret : ∃ L', cholStep A i j L = .ok L' ∧ (∀ a : Fin n, a.val < i → L' a a = L a a) ∧
        (i < j + 1 → 0 < L' ⟨i, hi⟩ ⟨i, hi⟩) := by
      unfold cholStep
      split
      · next hij =>
        subst hij
        rw [cholSum_inv A L ⟨j, hi⟩ ⟨j, hi⟩ ⟨j, hi⟩ le_rfl h, ok_bind, rd_eq hi hi, ok_bind,
          ExactRing.sub_eq, ok_bind]
        have hd : 0 < A ⟨j, hi⟩ ⟨j, hi⟩ - ∑ k, L ⟨j, hi⟩ k * L ⟨j, hi⟩ k := by
          have hm := minor_pos A hA (j + 1) hi
          have := chol_minor A L ⟨j, hi⟩ hsym h
          rw [this] at hm
          have hp : 0 < (∏ q : Fin j, L ⟨q.val, lt_trans q.2 hi⟩ ⟨q.val, lt_trans q.2 hi⟩) :=
            Finset.prod_pos (fun q _ => hpos _ q.2)
          exact (mul_pos_iff_of_pos_left (mul_pos hp hp)).mp hm
        rw [real_sqrt_total _ hd.le, ok_bind, wr_eq hi hi]
        refine ⟨_, rfl, ?_, ?_⟩
        · intro a ha
          rw [Matrix.of_apply, if_neg (by omega)]
        · intro _
          rw [Matrix.of_apply, if_pos ⟨rfl, rfl⟩]
          exact Real.sqrt_pos.mpr hd
      · next hij =>
        rw [cholSum_inv A L ⟨i, hi⟩ ⟨j, hjn⟩ ⟨j, hjn⟩ (by rw [Fin.le_def]; dsimp only; omega) h,
          ok_bind, rd_eq hi hjn, ok_bind, ExactRing.sub_eq, ok_bind, rd_eq hjn hjn, ok_bind,
          ExactField.div_eq _ _ (ne_of_gt (hpos ⟨j, hjn⟩ (by dsimp only; omega))), ok_bind,
          wr_eq hi hjn]
        refine ⟨_, rfl, ?_, ?_⟩
        · intro a ha
          rw [Matrix.of_apply, if_neg (by omega)]
        · intro hlt
          omega
    obtain ⟨L', hL', h1, h2⟩ := hret
    rw [hL', wp_ok]
    exact ⟨wp_ok_elim hstep hL', fun a ha => by rw [h1 a ha]; exact hpos a ha, h2⟩
  · rintro L ⟨h, hpos, hlast⟩
    refine ⟨h.row, ?_⟩
    intro a ha
    by_cases hai : a.val = i
    · have : a = ⟨i, hi⟩ := Fin.ext hai
      rw [this]
      exact hlast (by omega)
    · exact hpos a (by omega)

end real

section field
variable {K : Type} [Field K] [LinearOrder K] [IsStrictOrderedRing K] [Inhabited K] [CScalar K]
  [ExactSqrt K] {n : Nat}

/-- A lower triangular matrix with positive diagonal is determined by `L * Lᵀ`. -/
theorem chol_unique (L L' : Mat K n n) (hL : IsLower L) (hL' : IsLower L')
    (hd : ∀ a, 0 < L a a) (hd' : ∀ a, 0 < L' a a) (h : L * L.transpose = L' * L'.transpose) :
    L = L' := by
  -- normalise to unit lower triangular factors
  have key : ∀ (X : Mat K n n), (∀ a, 0 < X a a) →
      (Matrix.of fun a k => X a k / X k k : Mat K n n) *
        (Matrix.of fun k b => X k k * X b k : Mat K n n) = X * X.transpose := by
    intro X hX
    ext a b
    rw [Matrix.mul_apply, Matrix.mul_apply]
    refine Finset.sum_congr rfl (fun k _ => ?_)
    rw [Matrix.of_apply, Matrix.of_apply, Matrix.transpose_apply, ← mul_assoc,
      div_mul_cancel₀ _ (ne_of_gt (hX k))]
  obtain ⟨h1, h2⟩ := lu_unique
    (Matrix.of fun a k => L a k / L k k) (Matrix.of fun k b => L k k * L b k)
    (Matrix.of fun a k => L' a k / L' k k) (Matrix.of fun k b => L' k k * L' b k)
    (fun a => by rw [Matrix.of_apply, div_self (ne_of_gt (hd a))])
    (fun a => by rw [Matrix.of_apply, div_self (ne_of_gt (hd' a))])
    (fun a k hak => by rw [Matrix.of_apply, hL a k hak, zero_div])
    (fun a k hak => by rw [Matrix.of_apply, hL' a k hak, zero_div])
    (fun k b hkb => by rw [Matrix.of_apply, hL b k hkb, mul_zero])
    (fun k b hkb => by rw [Matrix.of_apply, hL' b k hkb, mul_zero])
    (fun k => by rw [Matrix.of_apply]; exact ne_of_gt (mul_pos (hd k) (hd k)))
    ((key L hd).trans (h.trans (key L' hd').symm))
  have hdiag : ∀ k, L k k = L' k k := by
    intro k
    have := congrFun (congrFun h2 k) k
    rw [Matrix.of_apply, Matrix.of_apply] at this
    exact (mul_self_inj (hd k).le (hd' k).le).mp this
  ext a k
  have := congrFun (congrFun h1 a) k
  rw [Matrix.of_apply, Matrix.of_apply, ← hdiag k] at this
  exact (div_left_inj' (ne_of_gt (hd k))).mp this

end field

end MatrixLibs
