import Verif.Proof.Det
import Verif.Spec.Linear
import Mathlib.LinearAlgebra.Matrix.Block
import Mathlib.Algebra.BigOperators.Fin
import Verif.Props.Arith

/-!
# LU factorisation over a field
-/

namespace MatrixLibs

set_option linter.unusedSectionVars false

open CScalar (ofInt)

section
variable {K : Type} [Field K] [Inhabited K] [CScalar K] [ExactField K] {n : Nat}

/-- `Σ_{p < i} U[p][j] * L[i][p]`. -/
def luS (L U : Mat K n n) (i j : Fin n) : K := ∑ p : Fin n, if p < i then U p j * L i p else 0

theorem sum_cut {i : Fin n} (X : Fin n → K) :
    (∑ p : Fin i.val, X ⟨p.val, lt_trans p.2 i.2⟩) = ∑ p : Fin n, if p < i then X p else 0 := by
  refine Fintype.sum_of_injective (fun p : Fin i.val => (⟨p.val, lt_trans p.2 i.2⟩ : Fin n))
    (fun a b h => Fin.ext (by simpa using h)) _ _ ?_ ?_
  · intro p hp
    rw [if_neg]
    intro h
    exact hp ⟨⟨p.val, h⟩, rfl⟩
  · intro p
    rw [if_pos]
    exact p.2

/-- Split a sum whose terms vanish above `i`. -/
theorem sum_split (i : Fin n) (X : Fin n → K) (h : ∀ p, i < p → X p = 0) :
    ∑ p, X p = (∑ p, if p < i then X p else 0) + X i := by
  have h1 : ∀ p, X p = (if p < i then X p else 0) + (if p = i then X p else 0) := by
    intro p
    rcases lt_trichotomy p i with hp | hp | hp
    · rw [if_pos hp, if_neg (ne_of_lt hp), add_zero]
    · subst hp
      rw [if_neg (lt_irrefl _), if_pos rfl, zero_add]
    · rw [if_neg (not_lt.mpr hp.le), if_neg (ne_of_gt hp), h p hp, add_zero]
  rw [Finset.sum_congr rfl (fun p _ => h1 p), Finset.sum_add_distrib, Finset.sum_ite_eq' ,
    if_pos (Finset.mem_univ i)]

theorem luSum_ok (L U : Mat K n n) (i j : Fin n) : luSum L U i j = .ok (luS L U i j) := by
  unfold luSum
  apply wp_eq
  refine wp_mono (wp_sum_loop (V := id)
    (fun p : Fin i.val => U ⟨p.val, lt_trans p.2 i.2⟩ j * L i ⟨p.val, lt_trans p.2 i.2⟩) ?_) ?_
    (fun _ h => h)
  · intro k hk s
    rw [rd_eq (lt_trans hk i.2) j.2, ok_bind, rd_eq i.2 (lt_trans hk i.2), ok_bind,
      ExactRing.mul_eq, ok_bind, ExactRing.add_eq, wp_ok]
    rfl
  · intro v hv
    rw [show v = id v from rfl, hv, ExactRing.ofInt_eq, Int.cast_zero, luS,
      sum_cut (i := i) (fun p => U p j * L i p)]
    exact zero_add _

/-- What the first inner loop makes of column `j` of `U`. -/
def UpperPost (A L U : Mat K n n) (j : Fin n) (U' : Mat K n n) : Prop :=
  (∀ a b, ¬ (b = j ∧ a ≤ j) → U' a b = U a b) ∧
  ∀ a, a ≤ j → U' a j = A a j - luS L U' a j

theorem wp_luUpper (A L U : Mat K n n) (j : Fin n) :
    wp (luUpper A L j U) (UpperPost A L U j) (fun _ => False) := by
  unfold luUpper
  refine wp_forUp (fun k U' => (∀ a b, ¬ (b = j ∧ a.val < k) → U' a b = U a b) ∧
    ∀ a : Fin n, a.val < k → U' a j = A a j - luS L U' a j) (Nat.zero_le _)
    ⟨fun _ _ _ => rfl, fun a h => by omega⟩ ?_ ?_
  · rintro k U' - hk ⟨h1, h2⟩
    have hkn : k < n := by have := j.2; omega
    rw [luSum_ok L U' ⟨k, hkn⟩ j, ok_bind, rd_eq hkn j.2, ok_bind, ExactRing.sub_eq, ok_bind,
      wr_eq hkn j.2, wp_ok]
    set v := A ⟨k, hkn⟩ ⟨j.val, j.2⟩ - luS L U' ⟨k, hkn⟩ j with hv
    have hold : ∀ a b : Fin n, ¬ (a.val = k ∧ b.val = j.val) →
        (Matrix.of fun a b : Fin n => if a.val = k ∧ b.val = j.val then v else U' a b) a b =
        U' a b := by
      intro a b h
      rw [Matrix.of_apply, if_neg h]
    have hS : ∀ a : Fin n, a.val ≤ k → luS L (Matrix.of fun a b : Fin n =>
        if a.val = k ∧ b.val = j.val then v else U' a b) a j = luS L U' a j := by
      intro a ha
      unfold luS
      refine Finset.sum_congr rfl (fun p _ => ?_)
      split
      · next hp =>
        rw [Fin.lt_def] at hp
        rw [hold p j (by omega)]
      · rfl
    refine ⟨?_, ?_⟩
    · intro a b hab
      rw [hold a b (fun h => hab ⟨Fin.ext h.2, by omega⟩)]
      exact h1 a b (fun h => hab ⟨h.1, by omega⟩)
    · intro a ha
      rw [hS a (by omega)]
      by_cases hak : a.val = k
      · have : a = ⟨k, hkn⟩ := Fin.ext hak
        subst this
        rw [Matrix.of_apply, if_pos ⟨rfl, rfl⟩, hv]
      · rw [hold a j (fun h => hak h.1)]
        exact h2 a (by omega)
  · rintro U' ⟨h1, h2⟩
    refine ⟨fun a b h => h1 a b (fun h' => h ⟨h'.1, ?_⟩), fun a ha => h2 a ?_⟩
    · rw [Fin.le_def]; omega
    · rw [Fin.le_def] at ha; omega

theorem luLower_ok (A U L : Mat K n n) (j : Fin n) (hu : U j j ≠ 0) :
    luLower A U j L = .ok (.of fun a b => if b = j ∧ j ≤ a then (A a j - luS L U a j) / U j j
      else L a b) := by
  unfold luLower
  apply wp_eq
  refine wp_forUp (fun k L' => ∀ a b : Fin n, L' a b = if b = j ∧ j ≤ a ∧ a.val < k then
      (A a j - luS L U a j) / U j j else L a b) (by omega) ?_ ?_ ?_
  · intro a b
    rw [if_neg]
    rintro ⟨-, h1, h2⟩
    rw [Fin.le_def] at h1
    omega
  · intro k L' hjk hk ih
    have hS : luS L' U ⟨k, hk⟩ j = luS L U ⟨k, hk⟩ j := by
      unfold luS
      refine Finset.sum_congr rfl (fun p _ => ?_)
      have e : L' ⟨k, hk⟩ p = L ⟨k, hk⟩ p := by
        rw [ih ⟨k, hk⟩ p, if_neg (fun h => lt_irrefl _ h.2.2)]
      rw [e]
    rw [luSum_ok L' U ⟨k, hk⟩ j, ok_bind, rd_eq j.2 j.2, ok_bind,
      if_neg (fun h => hu ((eq_zero_iff _).mp h)), rd_eq hk j.2, ok_bind, ExactRing.sub_eq, ok_bind,
      ExactField.div_eq _ _ hu, ok_bind, wr_eq hk j.2, wp_ok]
    intro a b
    rw [Matrix.of_apply]
    by_cases hab : a.val = k ∧ b.val = j.val
    · obtain ⟨ha, hb⟩ := hab
      have hb' : b = j := Fin.ext hb
      have ha' : a = ⟨k, hk⟩ := Fin.ext ha
      subst hb'
      rw [if_pos ⟨ha, rfl⟩, if_pos ⟨rfl, by rw [Fin.le_def]; omega, by omega⟩, hS, ha']
    · rw [if_neg hab, ih]
      refine if_congr ⟨fun h => ⟨h.1, h.2.1, by omega⟩, fun h => ⟨h.1, h.2.1, ?_⟩⟩ rfl rfl
      have : b.val = j.val := congrArg Fin.val h.1
      omega
  · intro L' h
    ext a b
    rw [h, Matrix.of_apply]
    exact if_congr ⟨fun h => ⟨h.1, h.2.1⟩, fun h => ⟨h.1, h.2, a.2⟩⟩ rfl rfl

theorem luLower_throws (A U L : Mat K n n) (j : Fin n) (hu : U j j = 0) :
    luLower A U j L = .error (.throws divideByZeroException) := by
  unfold luLower
  rw [forUp_first j.2, luSum_ok L U j j, ok_bind, rd_eq j.2 j.2, ok_bind,
    if_pos ((eq_zero_iff _).mpr hu), error_bind]

/-! ## Leading principal minors -/

theorem leadingMinor_eq_prods (A L U : Mat K n n) (k : Nat) (hk : k ≤ n)
    (hL0 : ∀ i p : Fin n, i.val < k → i < p → L i p = 0)
    (hU0 : ∀ p q : Fin n, q.val < k → q < p → U p q = 0)
    (hA : ∀ i q : Fin n, i.val < k → q.val < k → ∑ p, L i p * U p q = A i q) :
    leadingMinor A k hk = (∏ q : Fin k, L (Fin.castLE hk q) (Fin.castLE hk q)) *
      ∏ q : Fin k, U (Fin.castLE hk q) (Fin.castLE hk q) := by
  unfold leadingMinor
  have hmul : A.submatrix (Fin.castLE hk) (Fin.castLE hk) =
      L.submatrix (Fin.castLE hk) (Fin.castLE hk) * U.submatrix (Fin.castLE hk) (Fin.castLE hk) := by
    ext i q
    rw [Matrix.submatrix_apply, ← hA _ _ (by simp) (by simp), Matrix.mul_apply]
    symm
    refine Fintype.sum_of_injective (Fin.castLE hk) (Fin.castLE_injective hk) _ _ ?_ ?_
    · intro p hp
      rw [hL0 _ _ (by simp), zero_mul]
      rw [Fin.lt_def]
      by_contra hcon
      refine hp ⟨⟨p.val, ?_⟩, rfl⟩
      have := i.2
      simp only [Fin.val_castLE] at hcon
      omega
    · intro p
      rfl
  have hLt : (L.submatrix (Fin.castLE hk) (Fin.castLE hk)).IsLowerTriangular := by
    intro i p hip
    refine hL0 _ _ (by simp) ?_
    exact hip
  have hUt : (U.submatrix (Fin.castLE hk) (Fin.castLE hk)).IsUpperTriangular := by
    intro p q hpq
    exact hU0 _ _ (by simp) hpq
  rw [hmul, Matrix.det_mul, Matrix.det_of_isLowerTriangular _ hLt,
    Matrix.det_of_isUpperTriangular hUt]
  simp only [Matrix.submatrix_apply]

theorem leadingMinor_eq_prod (A L U : Mat K n n) (k : Nat) (hk : k ≤ n)
    (hL0 : ∀ i p : Fin n, i.val < k → i < p → L i p = 0) (hL1 : ∀ i : Fin n, i.val < k → L i i = 1)
    (hU0 : ∀ p q : Fin n, q.val < k → q < p → U p q = 0)
    (hA : ∀ i q : Fin n, i.val < k → q.val < k → ∑ p, L i p * U p q = A i q) :
    leadingMinor A k hk = ∏ q : Fin k, U (Fin.castLE hk q) (Fin.castLE hk q) := by
  rw [leadingMinor_eq_prods A L U k hk hL0 hU0 hA,
    Finset.prod_eq_one (fun i _ => hL1 _ (by simp)), one_mul]

/-- Invariant of `lu` before column `j`. -/
structure LuInv (A : Mat K n n) (j : Nat) (L U : Mat K n n) : Prop where
  Lcol : ∀ i p : Fin n, j ≤ p.val → L i p = if i = p then 1 else 0
  Ldiag : ∀ p : Fin n, L p p = 1
  Lupper : ∀ i p : Fin n, i < p → L i p = 0
  Ucol : ∀ p q : Fin n, j ≤ q.val → U p q = 0
  Ulower : ∀ p q : Fin n, q < p → U p q = 0
  Udiag : ∀ q : Fin n, q.val < j → U q q ≠ 0
  prod : ∀ i q : Fin n, q.val < j → ∑ p, L i p * U p q = A i q

/-- How `lu` stops. -/
def LuStop (A : Mat K n n) (e : Stop) : Prop :=
  e = .throws divideByZeroException ∧ ∃ k, ∃ hk : k ≤ n, 1 ≤ k ∧ leadingMinor A k hk = 0

theorem wp_lu_step (A : Mat K n n) (j : Nat) (hj : j < n) (L U : Mat K n n)
    (hs : LuInv A j L U) :
    wp (do
      let U ← luUpper A L j U
      let L ← luLower A U j L
      .ok (L, U)) (fun s => LuInv A (j + 1) s.1 s.2) (LuStop A) := by
  rw [wp_bind]
  refine wp_mono (wp_luUpper A L U ⟨j, hj⟩) ?_ (fun _ h => h.elim)
  rintro U' ⟨hold, hnew⟩
  -- rows `i ≤ j` of the product in column `j`
  have hULow : ∀ p q : Fin n, q < p → U' p q = 0 := by
    intro p q hqp
    rw [hold p q]
    · exact hs.Ulower p q hqp
    · rintro ⟨rfl, h⟩
      exact absurd hqp (not_lt.mpr h)
  have hUold : ∀ p q : Fin n, q.val ≠ j → U' p q = U p q :=
    fun p q h => hold p q (fun h' => h (congrArg Fin.val h'.1))
  have hcolU : ∀ i : Fin n, i.val ≤ j → ∑ p, L i p * U' p ⟨j, hj⟩ = A i ⟨j, hj⟩ := by
    intro i hi
    rw [sum_split i _ (fun p hp => by rw [hs.Lupper i p hp, zero_mul]), hs.Ldiag i, one_mul,
      hnew i hi, luS]
    have : (∑ p, if p < i then L i p * U' p ⟨j, hj⟩ else 0) =
        ∑ p, if p < i then U' p ⟨j, hj⟩ * L i p else 0 :=
      Finset.sum_congr rfl (fun p _ => by rw [mul_comm])
    rw [this]
    ring
  have hminor : leadingMinor A (j + 1) hj =
      ∏ q : Fin (j + 1), U' (Fin.castLE hj q) (Fin.castLE hj q) := by
    refine leadingMinor_eq_prod A L U' (j + 1) hj (fun i p _ => hs.Lupper i p)
      (fun i _ => hs.Ldiag i) (fun p q _ => hULow p q) ?_
    intro i q hi hq
    by_cases hqj : q.val = j
    · have : q = ⟨j, hj⟩ := Fin.ext hqj
      subst this
      exact hcolU i (by omega)
    · rw [← hs.prod i q (by omega)]
      exact Finset.sum_congr rfl (fun p _ => by rw [hUold p q hqj])
  by_cases hu : U' ⟨j, hj⟩ ⟨j, hj⟩ = 0
  · rw [luLower_throws A U' L ⟨j, hj⟩ hu, error_bind]
    refine ⟨rfl, j + 1, hj, by omega, ?_⟩
    rw [hminor]
    refine Finset.prod_eq_zero (Finset.mem_univ (Fin.last j)) ?_
    exact hu
  · rw [luLower_ok A U' L ⟨j, hj⟩ hu, ok_bind, wp_ok]
    have hLold : ∀ a b : Fin n, b.val ≠ j → (Matrix.of fun a b => if b = (⟨j, hj⟩ : Fin n) ∧
        (⟨j, hj⟩ : Fin n) ≤ a then (A a ⟨j, hj⟩ - luS L U' a ⟨j, hj⟩) / U' ⟨j, hj⟩ ⟨j, hj⟩
        else L a b) a b = L a b := by
      intro a b hb
      rw [Matrix.of_apply, if_neg (fun h => hb (congrArg Fin.val h.1))]
    have hLrow : ∀ a b : Fin n, a.val < j → (Matrix.of fun a b => if b = (⟨j, hj⟩ : Fin n) ∧
        (⟨j, hj⟩ : Fin n) ≤ a then (A a ⟨j, hj⟩ - luS L U' a ⟨j, hj⟩) / U' ⟨j, hj⟩ ⟨j, hj⟩
        else L a b) a b = L a b := by
      intro a b ha
      rw [Matrix.of_apply, if_neg]
      rintro ⟨-, h⟩
      rw [Fin.le_def] at h
      dsimp only at h
      omega
    have hLnew : ∀ a : Fin n, j ≤ a.val → (Matrix.of fun a b => if b = (⟨j, hj⟩ : Fin n) ∧
        (⟨j, hj⟩ : Fin n) ≤ a then (A a ⟨j, hj⟩ - luS L U' a ⟨j, hj⟩) / U' ⟨j, hj⟩ ⟨j, hj⟩
        else L a b) a ⟨j, hj⟩ =
        (A a ⟨j, hj⟩ - luS L U' a ⟨j, hj⟩) / U' ⟨j, hj⟩ ⟨j, hj⟩ := by
      intro a ha
      rw [Matrix.of_apply, if_pos ⟨rfl, ha⟩]
    generalize (Matrix.of fun a b => if b = (⟨j, hj⟩ : Fin n) ∧
        (⟨j, hj⟩ : Fin n) ≤ a then (A a ⟨j, hj⟩ - luS L U' a ⟨j, hj⟩) / U' ⟨j, hj⟩ ⟨j, hj⟩
        else L a b) = L' at hLold hLrow hLnew ⊢
    dsimp only
    refine ⟨?_, ?_, ?_, ?_, hULow, ?_, ?_⟩
    · intro i p hp
      rw [hLold i p (by omega)]
      exact hs.Lcol i p (by omega)
    · intro p
      by_cases hpj : p.val = j
      · have : p = ⟨j, hj⟩ := Fin.ext hpj
        subst this
        rw [hLnew _ le_rfl, ← hnew _ le_rfl, div_self hu]
      · rw [hLold p p hpj]
        exact hs.Ldiag p
    · intro i p hip
      by_cases hpj : p.val = j
      · rw [Fin.lt_def] at hip
        rw [hLrow i p (by omega)]
        exact hs.Lupper i p hip
      · rw [hLold i p hpj]
        exact hs.Lupper i p hip
    · intro p q hq
      rw [hUold p q (by omega)]
      exact hs.Ucol p q (by omega)
    · intro q hq
      by_cases hqj : q.val = j
      · have : q = ⟨j, hj⟩ := Fin.ext hqj
        subst this
        exact hu
      · rw [hUold q q hqj]
        exact hs.Udiag q (by omega)
    · intro i q hq
      by_cases hqj : q.val = j
      · have : q = ⟨j, hj⟩ := Fin.ext hqj
        subst this
        by_cases hij : i.val < j
        · rw [← hcolU i (by omega)]
          exact Finset.sum_congr rfl (fun p _ => by rw [hLrow i p hij])
        · have hji : j ≤ i.val := by omega
          rw [sum_split ⟨j, hj⟩ _ (fun p hp => by rw [hULow p _ hp, mul_zero]), hLnew i hji,
            div_mul_cancel₀ _ hu]
          have hS : luS L U' i ⟨j, hj⟩ =
              ∑ p, if p < (⟨j, hj⟩ : Fin n) then L' i p * U' p ⟨j, hj⟩ else 0 := by
            unfold luS
            refine Finset.sum_congr rfl (fun p _ => ?_)
            rcases lt_trichotomy p (⟨j, hj⟩ : Fin n) with hp | hp | hp
            · rw [if_pos (lt_of_lt_of_le hp hji), if_pos hp, hLold i p, mul_comm]
              rw [Fin.lt_def] at hp
              dsimp only at hp
              omega
            · subst hp
              rw [if_neg (lt_irrefl (⟨j, hj⟩ : Fin n))]
              split
              · next h =>
                rw [hs.Lcol i ⟨j, hj⟩ le_rfl, if_neg (ne_of_gt h), mul_zero]
              · rfl
            · rw [if_neg (not_lt.mpr hp.le), hULow p _ hp, zero_mul]
              split <;> rfl
          rw [hS]
          ring
      · rw [← hs.prod i q (by omega)]
        refine Finset.sum_congr rfl (fun p _ => ?_)
        rw [hUold p q hqj]
        by_cases hpj : p.val = j
        · have hz : U p q = 0 := hs.Ulower p q (by rw [Fin.lt_def]; omega)
          rw [hz, mul_zero, mul_zero]
        · rw [hLold i p hpj]

theorem wp_lu (A : Mat K n n) : wp (lu A) (fun s => LuInv A n s.1 s.2) (LuStop A) := by
  unfold lu
  rw [eye1_exact, ok_bind, zeros_exact, ok_bind]
  refine wp_forUp (fun j s => LuInv A j s.1 s.2) (Nat.zero_le n) ?_ ?_ (fun _ h => h)
  · refine ⟨?_, ?_, ?_, ?_, ?_, ?_, ?_⟩
    · intro i p _; exact Matrix.one_apply
    · intro p; exact Matrix.one_apply_eq p
    · intro i p h; exact Matrix.one_apply_ne (ne_of_lt h)
    · intro p q _; rfl
    · intro p q _; rfl
    · intro q h; omega
    · intro i q h; omega
  · intro j s _ hj hs
    exact wp_lu_step A j hj s.1 s.2 hs

/-- Uniqueness of the factorisation. -/
theorem lu_unique (L U L' U' : Mat K n n) (hL : ∀ i, L i i = 1) (hL' : ∀ i, L' i i = 1)
    (hLu : ∀ i p, i < p → L i p = 0) (hLu' : ∀ i p, i < p → L' i p = 0)
    (hUl : ∀ p q, q < p → U p q = 0) (hUl' : ∀ p q, q < p → U' p q = 0)
    (hd : ∀ q, U q q ≠ 0) (h : L * U = L' * U') : L = L' ∧ U = U' := by
  have hrow : ∀ i q, ∑ p, L i p * U p q = ∑ p, L' i p * U' p q := by
    intro i q
    have := congrFun (congrFun h i) q
    rwa [Matrix.mul_apply, Matrix.mul_apply] at this
  have key : ∀ m : Nat, ∀ q : Fin n, q.val < m →
      (∀ i, U i q = U' i q) ∧ ∀ i, L i q = L' i q := by
    intro m
    induction m with
    | zero => intro q hq; omega
    | succ m ih =>
      intro q hq
      have hLprev : ∀ i p : Fin n, p < q → L i p = L' i p := fun i p hp =>
        (ih p (by rw [Fin.lt_def] at hp; omega)).2 i
      have hU : ∀ k : Nat, ∀ i : Fin n, i.val < k → i ≤ q → U i q = U' i q := by
        intro k
        induction k with
        | zero => intro i hi; omega
        | succ k ihk =>
          intro i hi hiq
          have h1 := hrow i q
          rw [sum_split i _ (fun p hp => by rw [hLu i p hp, zero_mul]),
            sum_split i (fun p => L' i p * U' p q) (fun p hp => by rw [hLu' i p hp, zero_mul]),
            hL, hL', one_mul, one_mul] at h1
          have h2 : (∑ p, if p < i then L i p * U p q else 0) =
              ∑ p, if p < i then L' i p * U' p q else 0 := by
            refine Finset.sum_congr rfl (fun p _ => ?_)
            split
            · next hp =>
              rw [hLprev i p (lt_of_lt_of_le hp hiq),
                ihk p (by rw [Fin.lt_def] at hp; omega) (le_of_lt (lt_of_lt_of_le hp hiq))]
            · rfl
          rw [h2] at h1
          exact add_left_cancel h1
      have hUall : ∀ i, U i q = U' i q := by
        intro i
        by_cases hiq : i ≤ q
        · exact hU (i.val + 1) i (Nat.lt_succ_self _) hiq
        · rw [hUl i q (not_le.mp hiq), hUl' i q (not_le.mp hiq)]
      refine ⟨hUall, ?_⟩
      intro i
      have h1 := hrow i q
      rw [sum_split q _ (fun p hp => by rw [hUl p q hp, mul_zero]),
        sum_split q (fun p => L' i p * U' p q) (fun p hp => by rw [hUl' p q hp, mul_zero])] at h1
      have h2 : (∑ p, if p < q then L i p * U p q else 0) =
          ∑ p, if p < q then L' i p * U' p q else 0 := by
        refine Finset.sum_congr rfl (fun p _ => ?_)
        split
        · next hp => rw [hLprev i p hp, hUall p]
        · rfl
      rw [h2, ← hUall q] at h1
      exact mul_right_cancel₀ (hd q) (add_left_cancel h1)
  constructor
  · ext i q; exact (key n q q.2).2 i
  · ext i q; exact (key n q q.2).1 i

end

end MatrixLibs
