import Verif.Proof.Chol
import Verif.Spec.Complex

/-!
# Cholesky factorisation in fields where every element has a square root
-/

namespace MatrixLibs

set_option linter.unusedSectionVars false

open CScalar (ofInt)

section
variable {K : Type} [Field K] [Inhabited K] [CScalar K] {P : K → Prop} [ExactRoot K P] {n : Nat}

/-- Invariant of `chol` before the inner loop reaches `(i, j)`. -/
structure RootInv (P : K → Prop) (A : Mat K n n) (i j : Nat) (L : Mat K n n) : Prop where
  zero : ∀ a b, ¬ Written i j a b → L a b = 0
  prod : ∀ a b, Written i j a b → ∑ k, L a k * L b k = A a b
  diag : ∀ a, Written i j a a → P (L a a)
  piv : ∀ a b, Written i j a b → b < a → L b b ≠ 0

theorem root_cholSum_ok (P : K → Prop) [ExactRoot K P] (L : Mat K n n) (i j : Fin n) :
    cholSum L i j = .ok (∑ k, if k < i then L i k * L j k else 0) := by
  classical
  unfold cholSum
  apply wp_eq
  refine wp_mono (wp_sum_loop (V := id)
    (fun p : Fin i.val => L i ⟨p.val, lt_trans p.2 i.2⟩ * L j ⟨p.val, lt_trans p.2 i.2⟩) ?_) ?_
    (fun _ h => h)
  · intro k hk s
    rw [rd_eq i.2 (lt_trans hk i.2), ok_bind, rd_eq j.2 (lt_trans hk i.2), ok_bind,
      ExactRoot.mul_eq P, ok_bind, ExactRoot.add_eq P, wp_ok]
    rfl
  · intro v hv
    rw [show v = id v from rfl, hv, ExactRoot.ofInt_eq P, Int.cast_zero,
      @sum_cut K _ ⟨0⟩ (fieldScalar K) (fieldScalar_exact K) n i (fun p => L i p * L j p)]
    exact zero_add _

/-- Before `(i, j)` is written the accumulated sum is the whole scalar product of rows. -/
theorem root_cholSum_inv (A L : Mat K n n) (i j r : Fin n) (hji : j ≤ i)
    (h : RootInv P A i j L) :
    cholSum L i r = .ok (∑ k, L i k * L r k) := by
  rw [root_cholSum_ok P]
  congr 1
  refine Finset.sum_congr rfl (fun k _ => ?_)
  split
  · rfl
  · next hk =>
    rw [h.zero i k, zero_mul]
    rintro ⟨-, h1 | h1⟩
    · exact lt_irrefl _ h1
    · exact hk (lt_of_lt_of_le h1.2 hji)

/-- Updating `(i, j)`, which was `0`, with `v`. -/
theorem root_update (A L : Mat K n n) (i j : Fin n) (hji : j ≤ i) (v : K)
    (h : RootInv P A i j L)
    (hv : (∑ k, L i k * L j k) + (if j = i then v * v else v * L j j) = A i j)
    (hv0 : j = i → P v) (hp : j ≠ i → L j j ≠ 0) :
    RootInv P A i (j.val + 1)
      (.of fun a b => if a.val = i.val ∧ b.val = j.val then v else L a b) := by
  have hLij : L i j = 0 := h.zero i j (by
    rintro ⟨-, h1 | h1⟩
    · exact lt_irrefl _ h1
    · exact lt_irrefl _ h1.2)
  have hnew : ∀ a b : Fin n, ¬ (a = i ∧ b = j) →
      (Matrix.of fun a b : Fin n => if a.val = i.val ∧ b.val = j.val then v else L a b) a b =
      L a b := by
    intro a b hab
    rw [Matrix.of_apply, if_neg (fun h => hab ⟨Fin.ext h.1, Fin.ext h.2⟩)]
  have hij : (Matrix.of fun a b : Fin n => if a.val = i.val ∧ b.val = j.val then v else L a b) i j =
      v := by
    rw [Matrix.of_apply, if_pos ⟨rfl, rfl⟩]
  generalize (Matrix.of fun a b : Fin n => if a.val = i.val ∧ b.val = j.val then v else L a b) = L'
    at hnew hij
  have hW : ∀ a b : Fin n, Written i (j.val + 1) a b → ¬ (a = i ∧ b = j) → Written i j a b := by
    rintro a b ⟨h1, h2⟩ hab
    refine ⟨h1, ?_⟩
    rcases h2 with h2 | h2
    · exact Or.inl h2
    · right
      refine ⟨h2.1, ?_⟩
      have : b.val ≠ j.val := fun hb => hab ⟨Fin.ext h2.1, Fin.ext hb⟩
      omega
  refine ⟨?_, ?_, ?_, ?_⟩
  · intro a b hab
    rw [hnew a b]
    · refine h.zero a b (fun h' => hab ⟨h'.1, ?_⟩)
      rcases h'.2 with h2 | h2
      · exact Or.inl h2
      · exact Or.inr ⟨h2.1, by omega⟩
    · rintro ⟨rfl, rfl⟩
      exact hab ⟨hji, Or.inr ⟨rfl, by omega⟩⟩
  · intro a b hab
    by_cases hc : a = i ∧ b = j
    · obtain ⟨rfl, rfl⟩ := hc
      rw [← hv]
      have hterm : ∀ k, L' a k * L' b k = L a k * L b k +
          (if k = b then (if b = a then v * v else v * L b b) else 0) := by
        intro k
        by_cases hk : k = b
        · subst hk
          rw [if_pos rfl, hij, hLij, zero_mul, zero_add]
          by_cases hka : k = a
          · subst hka
            rw [if_pos rfl, hij]
          · rw [if_neg hka, hnew k k (fun h => hka h.1)]
        · rw [if_neg hk, add_zero, hnew a k (fun h => hk h.2), hnew b k (fun h => hk h.2)]
      rw [Finset.sum_congr rfl (fun k _ => hterm k), Finset.sum_add_distrib, Finset.sum_ite_eq',
        if_pos (Finset.mem_univ b)]
    · have hW' := hW a b hab hc
      rw [← h.prod a b hW']
      refine Finset.sum_congr rfl (fun k _ => ?_)
      have hbi : b ≠ i := by
        rintro rfl
        rcases hW'.2 with h2 | h2
        · exact absurd hW'.1 (not_le.mpr h2)
        · exact absurd hji (not_le.mpr h2.2)
      rw [hnew b k (fun h => hbi h.1)]
      by_cases hak : a = i ∧ k = j
      · obtain ⟨rfl, rfl⟩ := hak
        have hz : L b k = 0 := by
          refine h.zero b k ?_
          rintro ⟨h1, -⟩
          rcases hW'.2 with h2 | h2
          · exact lt_irrefl _ h2
          · exact absurd h1 (not_le.mpr h2.2)
        rw [hz, mul_zero, mul_zero]
      · rw [hnew a k hak]
  · intro a ha
    by_cases hc : a = i ∧ a = j
    · obtain ⟨h1, h2⟩ := hc
      subst h1
      subst h2
      rw [hij]
      exact hv0 rfl
    · rw [hnew a a hc]
      exact h.diag a (hW a a ha hc)
  · intro a b hab hba
    have hbi : ¬ (b = i ∧ b = j) := by
      rintro ⟨rfl, rfl⟩
      rcases hab.2 with h2 | h2
      · rw [Fin.lt_def] at hba; omega
      · rw [Fin.lt_def] at hba; omega
    rw [hnew b b hbi]
    by_cases hc : a = i ∧ b = j
    · obtain ⟨rfl, rfl⟩ := hc
      exact hp hba.ne
    · exact h.piv a b (hW a b hab hc) hba

/-- Leading minors are products of squared diagonal elements. -/
theorem RootInv.minor {A L : Mat K n n} {i j : Nat} (h : RootInv P A i j L)
    (hsym : ∀ a b, A a b = A b a) (k : Nat) (hk : k ≤ n) (hki : k ≤ i) :
    leadingMinor A k hk = ∏ q : Fin k, L (Fin.castLE hk q) (Fin.castLE hk q) ^ 2 := by
  classical
  have hLup : ∀ a b : Fin n, a < b → L a b = 0 := fun a b hab =>
    h.zero a b (fun h' => absurd h'.1 (not_le.mpr hab))
  have := @leadingMinor_eq_prods K _ ⟨0⟩ (fieldScalar K) (fieldScalar_exact K) n A L L.transpose k hk
    (fun a p _ hap => hLup a p hap) (fun p q _ hqp => hLup q p hqp) ?_
  · rw [this, ← Finset.prod_mul_distrib]
    exact Finset.prod_congr rfl fun q _ => (sq _).symm
  · intro a b ha hb
    show ∑ p, L a p * L b p = A a b
    rcases le_total b a with hba | hba
    · exact h.prod a b ⟨hba, Or.inl (by omega)⟩
    · rw [hsym a b, ← h.prod b a ⟨hba, Or.inl (by omega)⟩]
      exact Finset.sum_congr rfl (fun p _ => mul_comm _ _)

/-- How `chol` stops: some leading minor of smaller order is zero. -/
def RootStop (A : Mat K n n) (e : Stop) : Prop :=
  e = .ub .divisionByZero ∧ ∃ k, ∃ hk : k < n, 1 ≤ k ∧ leadingMinor A k hk.le = 0

theorem wp_root_cholStep (A L : Mat K n n) (i j : Fin n) (hji : j ≤ i) (hsym : ∀ a b, A a b = A b a)
    (h : RootInv P A i j L) : wp (cholStep A i j L) (RootInv P A i (j.val + 1)) (RootStop A) := by
  unfold cholStep
  split
  · next hij =>
    have hij' : j = i := Fin.ext hij
    subst hij'
    rw [root_cholSum_inv (P := P) A L j j j le_rfl h, ok_bind, rd_eq j.2 j.2, ok_bind,
      ExactRoot.sub_eq P, ok_bind]
    obtain ⟨v, hs, hsq, h0⟩ := ExactRoot.sqrt_eq (P := P)
      (A ⟨j.val, j.2⟩ ⟨j.val, j.2⟩ - ∑ k, L j k * L j k)
    rw [hs, ok_bind, wr_eq j.2 j.2, wp_ok]
    refine root_update A L j j le_rfl v h ?_ (fun _ => h0) (fun h => absurd rfl h)
    rw [if_pos rfl, hsq]
    exact add_sub_cancel _ _
  · next hij =>
    have hij' : j ≠ i := fun h => hij (congrArg Fin.val h)
    rw [root_cholSum_inv (P := P) A L i j j hji h, ok_bind, rd_eq i.2 j.2, ok_bind,
      ExactRoot.sub_eq P, ok_bind, rd_eq j.2 j.2, ok_bind]
    by_cases hz : L j j = 0
    · have : CScalar.div (A ⟨i.val, i.2⟩ ⟨j.val, j.2⟩ - ∑ k, L i k * L j k)
          (L ⟨j.val, j.2⟩ ⟨j.val, j.2⟩) = .error (.ub .divisionByZero) := by
        show CScalar.div _ (L j j) = _
        rw [hz, ExactRoot.div_zero P]
      rw [this, error_bind]
      have hlt : j.val < i.val := by
        rw [Fin.le_def] at hji
        have : j.val ≠ i.val := fun h => hij' (Fin.ext h)
        omega
      refine ⟨rfl, j.val + 1, by have := i.2; omega, by omega, ?_⟩
      rw [h.minor hsym (j.val + 1) (by omega) (by omega)]
      refine Finset.prod_eq_zero (Finset.mem_univ (Fin.last j.val)) ?_
      have : Fin.castLE (show j.val + 1 ≤ n from j.2) (Fin.last j.val) = j := Fin.ext rfl
      rw [this, hz, zero_pow two_ne_zero]
    · rw [ExactRoot.div_eq P _ _ hz, ok_bind, wr_eq i.2 j.2, wp_ok]
      refine root_update A L i j hji _ h ?_ (fun h => absurd h hij') (fun _ => hz)
      rw [if_neg hij', div_mul_cancel₀ _ hz]
      exact add_sub_cancel _ _

theorem RootInv.row {A L : Mat K n n} {i : Nat} (h : RootInv P A i (i + 1) L) :
    RootInv P A (i + 1) 0 L := by
  have hW : ∀ a b : Fin n, Written (i + 1) 0 a b ↔ Written i (i + 1) a b := by
    intro a b
    unfold Written
    rw [Fin.le_def]
    constructor
    · rintro ⟨h1, h2⟩
      exact ⟨h1, by omega⟩
    · rintro ⟨h1, h2⟩
      exact ⟨h1, by omega⟩
  exact ⟨fun a b hab => h.zero a b (fun h' => hab ((hW a b).mpr h')),
    fun a b hab => h.prod a b ((hW a b).mp hab), fun a ha => h.diag a ((hW a a).mp ha),
    fun a b hab => h.piv a b ((hW a b).mp hab)⟩

theorem RootInv.init (A : Mat K n n) : RootInv P A 0 0 (Mat.const (ofInt 0)) := by
  have hno : ∀ a b : Fin n, ¬ Written 0 0 a b := by
    rintro a b ⟨-, h⟩
    omega
  refine ⟨fun a b _ => ?_, fun a b h => absurd h (hno a b), fun a h => absurd h (hno a a),
    fun a b h => absurd h (hno a b)⟩
  show ofInt 0 = (0 : K)
  rw [ExactRoot.ofInt_eq P, Int.cast_zero]

theorem wp_root_chol (A : Mat K n n) (hsym : ∀ a b, A a b = A b a) :
    wp (chol A) (RootInv P A n 0) (RootStop A) := by
  unfold chol
  refine wp_forUp (fun i L => RootInv P A i 0 L) (Nat.zero_le n) (RootInv.init A) ?_ (fun _ h => h)
  intro i L _ hi h
  refine wp_forUp (fun j L => RootInv P A i j L) (Nat.zero_le _) h ?_ (fun _ h => h.row)
  intro j L _ hj h
  exact wp_root_cholStep A L ⟨i, hi⟩ ⟨j, by omega⟩ (by rw [Fin.le_def]; dsimp only; omega) hsym h

/-- A lower triangular matrix is determined by `L * Lᵀ`, up to the signs of the columns. -/
theorem root_unique (L L' : Mat K n n) (hL : IsLower L) (hL' : IsLower L')
    (hd : ∀ a, L a a ≠ 0) (hd' : ∀ a, L' a a ≠ 0) (hP : ∀ a, P (L a a)) (hP' : ∀ a, P (L' a a))
    (hinj : ∀ x y : K, P x → P y → x * x = y * y → x = y)
    (h : L * L.transpose = L' * L'.transpose) : L = L' := by
  classical
  have key : ∀ (X : Mat K n n), (∀ a, X a a ≠ 0) →
      (Matrix.of fun a k => X a k / X k k : Mat K n n) *
        (Matrix.of fun k b => X k k * X b k : Mat K n n) = X * X.transpose := by
    intro X hX
    ext a b
    rw [Matrix.mul_apply, Matrix.mul_apply]
    refine Finset.sum_congr rfl (fun k _ => ?_)
    rw [Matrix.of_apply, Matrix.of_apply, Matrix.transpose_apply, ← mul_assoc,
      div_mul_cancel₀ _ (hX k)]
  obtain ⟨h1, h2⟩ := @lu_unique K _ ⟨0⟩ (fieldScalar K) (fieldScalar_exact K) n
    (Matrix.of fun a k => L a k / L k k) (Matrix.of fun k b => L k k * L b k)
    (Matrix.of fun a k => L' a k / L' k k) (Matrix.of fun k b => L' k k * L' b k)
    (fun a => by rw [Matrix.of_apply, div_self (hd a)])
    (fun a => by rw [Matrix.of_apply, div_self (hd' a)])
    (fun a k hak => by rw [Matrix.of_apply, hL a k hak, zero_div])
    (fun a k hak => by rw [Matrix.of_apply, hL' a k hak, zero_div])
    (fun k b hkb => by rw [Matrix.of_apply, hL b k hkb, mul_zero])
    (fun k b hkb => by rw [Matrix.of_apply, hL' b k hkb, mul_zero])
    (fun k => by rw [Matrix.of_apply]; exact mul_ne_zero (hd k) (hd k))
    ((key L hd).trans (h.trans (key L' hd').symm))
  have hdiag : ∀ k, L k k = L' k k := by
    intro k
    have := congrFun (congrFun h2 k) k
    rw [Matrix.of_apply, Matrix.of_apply] at this
    exact hinj _ _ (hP k) (hP' k) this
  ext a k
  have := congrFun (congrFun h1 a) k
  rw [Matrix.of_apply, Matrix.of_apply, ← hdiag k] at this
  exact (div_left_inj' (hd k)).mp this

end

end MatrixLibs
