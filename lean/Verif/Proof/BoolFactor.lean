import Verif.Proof.Bool
import Verif.Proof.IntChol
import Verif.Spec.BoolFactor

/-!
# `bool` elements: factorisations
-/

namespace MatrixLibs

set_option linter.unusedSectionVars false

open Promo (load store sqrtTo)
open CScalar (ofInt)

variable {n : Nat}

/-- Disjunctions of conjunctions over the first `m` places. -/
def orTo (m : Nat) (x y : Fin n → Bool) : Bool := decide (∃ p : Fin n, p.val < m ∧ x p = true ∧ y p = true)

theorem orTo_congr {m m' : Nat} {x y x' y' : Fin n → Bool}
    (h : ∀ p : Fin n, (p.val < m ∧ x p = true ∧ y p = true) ↔ (p.val < m' ∧ x' p = true ∧ y' p = true)) :
    orTo m x y = orTo m' x' y' := by
  unfold orTo
  rw [Bool.eq_iff_iff, decide_eq_true_iff, decide_eq_true_iff]
  exact exists_congr h

theorem bool_sum (m : Nat) (hm : m ≤ n) (f g : Nat → Res Bool) (x y : Fin n → Bool)
    (hf : ∀ k (h : k < n), f k = .ok (x ⟨k, h⟩)) (hg : ∀ k (h : k < n), g k = .ok (y ⟨k, h⟩)) :
    (forUp 0 m (Promoted.lit 0 : Bool) fun k s => do
      let t' ← CScalar.mul (load (← f k) : SInt 32) (load (← g k))
      .ok (store (← CScalar.add (load s) t')) : Res Bool) = .ok (orTo m x y) := by
  apply wp_eq
  refine wp_forUp (fun K acc => acc = orTo K x y) (Nat.zero_le m) ?_ ?_ (fun _ h => h)
  · simp [orTo]
  · intro K acc _ hK hacc
    rw [hf K (by omega), ok_bind, hg K (by omega), ok_bind, bool_mulAdd, wp_ok, hacc, Bool.eq_iff_iff]
    simp only [orTo, Bool.or_eq_true, Bool.and_eq_true, decide_eq_true_eq]
    constructor
    · rintro (⟨k, hk, h⟩ | h)
      · exact ⟨k, by omega, h⟩
      · exact ⟨⟨K, by omega⟩, by simp, h⟩
    · rintro ⟨k, hk, h⟩
      rcases Nat.lt_succ_iff_lt_or_eq.mp hk with hk | hk
      · exact .inl ⟨k, hk, h⟩
      · subst hk
        exact .inr h

/-! ## LU -/

/-- `Σ_{p < i} L[i][p] * U[p][j]`. -/
def luOr (L U : Mat Bool n n) (i j : Fin n) : Bool := orTo i.val (fun p => L i p) (fun p => U p j)

theorem bool_luSum (L U : Mat Bool n n) (i j : Fin n) : Promoted.luSum L U i j = .ok (luOr L U i j) := by
  unfold Promoted.luSum
  rw [bool_sum i.val i.2.le (fun p => rd U p j) (fun p => rd L i p) (fun p => U p j) (fun p => L i p)
    (fun k hk => rd_eq hk j.2) (fun k hk => rd_eq i.2 hk)]
  exact congrArg Except.ok (orTo_congr fun p => by tauto)

theorem bool_subDiv (x y : Bool) :
    (do .ok (store (← CScalar.div (← CScalar.sub (load x : SInt 32) (load y)) (load true))) : Res Bool) =
      .ok (x ^^ y) := by
  cases x <;> cases y <;> decide +kernel

theorem bool_subDiv_false (x y : Bool) :
    (do .ok (store (← CScalar.div (← CScalar.sub (load x : SInt 32) (load y)) (load false))) : Res Bool) =
      .error (.ub .divisionByZero) := by
  cases x <;> cases y <;> decide +kernel

theorem bool_subSqrt (x y : Bool) :
    (do sqrtTo (← CScalar.sub (load x : SInt 32) (load y)) : Res Bool) = .ok (x ^^ y) := by
  cases x <;> cases y <;> decide +kernel

theorem bool_subSqrt_bind {α : Type} (x y : Bool) (f : Bool → Res α) :
    (do
      let p ← CScalar.sub (load x : SInt 32) (load y)
      f (← sqrtTo p)) = f (x ^^ y) := by
  rw [← bind_assoc, bool_subSqrt, ok_bind]

theorem bool_sub_bind {α : Type} (x y : Bool) (f : Bool → Res α) :
    (do
      let p ← CScalar.sub (load x : SInt 32) (load y)
      f (store p)) = f (x ^^ y) := by
  have h := congrArg (· >>= f) (bool_sub x y)
  simpa only [bind_assoc, ok_bind] using h

theorem bool_subDiv_bind {α : Type} (x y : Bool) (f : Bool → Res α) :
    (do
      let p ← CScalar.sub (load x : SInt 32) (load y)
      let q ← CScalar.div p (load true)
      f (store q)) = f (x ^^ y) := by
  have h := congrArg (· >>= f) (bool_subDiv x y)
  simpa only [bind_assoc, ok_bind] using h

theorem bool_subDiv_false_bind {α : Type} (x y : Bool) (f : Bool → Res α) :
    (do
      let p ← CScalar.sub (load x : SInt 32) (load y)
      let q ← CScalar.div p (load false)
      f (store q)) = .error (.ub .divisionByZero) := by
  have h := congrArg (· >>= f) (bool_subDiv_false x y)
  simp only [bind_assoc, ok_bind] at h
  exact h

variable {E : Stop → Prop}

theorem wp_luUpper_bool (A L U : Mat Bool n n) (j : Fin n) :
    wp (Promoted.luUpper A L j U) (fun U' => (∀ a b, ¬ (b = j ∧ a ≤ j) → U' a b = U a b) ∧
      ∀ a, a ≤ j → U' a j = (A a j ^^ luOr L U' a j)) E := by
  unfold Promoted.luUpper
  refine wp_forUp (fun k U' => (∀ a b, ¬ (b = j ∧ a.val < k) → U' a b = U a b) ∧
    ∀ a : Fin n, a.val < k → U' a j = (A a j ^^ luOr L U' a j)) (Nat.zero_le _)
    ⟨fun _ _ _ => rfl, fun a h => by omega⟩ ?_ ?_
  · rintro k U' - hk ⟨h1, h2⟩
    have hkn : k < n := by have := j.2; omega
    have hs : Promoted.luSum L U' k j = .ok (luOr L U' ⟨k, hkn⟩ j) := bool_luSum L U' ⟨k, hkn⟩ j
    rw [hs, ok_bind, rd_eq hkn j.2, ok_bind, bool_sub_bind _ _ (fun v => wr U' k j v)]
    rw [wr_eq hkn j.2, wp_ok]
    generalize hv : (A ⟨k, hkn⟩ ⟨j.val, j.2⟩ ^^ luOr L U' ⟨k, hkn⟩ j) = v
    have hold : ∀ a b : Fin n, ¬ (a.val = k ∧ b.val = j.val) →
        (Matrix.of fun a b : Fin n => if a.val = k ∧ b.val = j.val then v else U' a b) a b = U' a b := by
      intro a b h
      rw [Matrix.of_apply, if_neg h]
    have hS : ∀ a : Fin n, a.val ≤ k → luOr L (Matrix.of fun a b : Fin n =>
        if a.val = k ∧ b.val = j.val then v else U' a b) a j = luOr L U' a j := by
      intro a ha
      refine orTo_congr fun p => and_congr_right fun hp => ?_
      rw [hold p j (by omega)]
    refine ⟨?_, ?_⟩
    · intro a b hab
      rw [hold a b (fun h => hab ⟨Fin.ext h.2, by omega⟩)]
      exact h1 a b (fun h => hab ⟨h.1, by omega⟩)
    · intro a ha
      rw [hS a (by omega)]
      by_cases hak : a.val = k
      · have : a = ⟨k, hkn⟩ := Fin.ext hak
        subst this
        rw [Matrix.of_apply, if_pos ⟨rfl, rfl⟩, ← hv]
      · rw [hold a j (fun h => hak h.1)]
        exact h2 a (by omega)
  · rintro U' ⟨h1, h2⟩
    refine ⟨fun a b h => h1 a b (fun h' => h ⟨h'.1, ?_⟩), fun a ha => h2 a ?_⟩
    · rw [Fin.le_def]; omega
    · rw [Fin.le_def] at ha; omega

theorem wp_luLower_bool (A U L : Mat Bool n n) (j : Fin n) (hu : U j j = true) :
    wp (Promoted.luLower A U j L) (fun L' => (∀ a b, ¬ (b = j ∧ j ≤ a) → L' a b = L a b) ∧
      ∀ a, j ≤ a → L' a j = (A a j ^^ luOr L U a j)) E := by
  unfold Promoted.luLower
  refine wp_forUp (fun k L' => (∀ a b : Fin n, ¬ (b = j ∧ j ≤ a ∧ a.val < k) → L' a b = L a b) ∧
    ∀ a : Fin n, j ≤ a → a.val < k → L' a j = (A a j ^^ luOr L U a j)) (by omega) ?_ ?_ ?_
  · refine ⟨fun _ _ _ => rfl, fun a h1 h2 => ?_⟩
    rw [Fin.le_def] at h1
    omega
  · rintro k L' hjk hk ⟨h1, h2⟩
    have hS : luOr L' U ⟨k, hk⟩ j = luOr L U ⟨k, hk⟩ j := by
      refine orTo_congr fun p => ?_
      rw [h1 ⟨k, hk⟩ p (fun h => lt_irrefl _ h.2.2)]
    have hs : Promoted.luSum L' U k j = .ok (luOr L' U ⟨k, hk⟩ j) := bool_luSum L' U ⟨k, hk⟩ j
    have hu' : U ⟨j.val, j.2⟩ ⟨j.val, j.2⟩ = true := hu
    rw [hs, ok_bind, rd_eq j.2 j.2, ok_bind, hu', if_neg (by decide), rd_eq hk j.2, ok_bind,
      bool_subDiv_bind _ _ (fun v => wr L' k j v), wr_eq hk j.2, wp_ok, hS]
    generalize hv : (A ⟨k, hk⟩ ⟨j.val, j.2⟩ ^^ luOr L U ⟨k, hk⟩ j) = v
    refine ⟨?_, ?_⟩
    · intro a b hab
      rw [Matrix.of_apply, if_neg]
      · exact h1 a b (fun h => hab ⟨h.1, h.2.1, by omega⟩)
      · rintro ⟨ha, hb⟩
        exact hab ⟨Fin.ext hb, by rw [Fin.le_def]; omega, by omega⟩
    · intro a hja hak
      rw [Matrix.of_apply]
      by_cases ha : a.val = k
      · have : a = ⟨k, hk⟩ := Fin.ext ha
        subst this
        rw [if_pos ⟨rfl, rfl⟩, ← hv]
      · rw [if_neg (fun h => ha h.1)]
        exact h2 a hja (by omega)
  · rintro L' ⟨h1, h2⟩
    exact ⟨fun a b h => h1 a b (fun h' => h ⟨h'.1, h'.2.1⟩), fun a ha => h2 a ha a.2⟩

theorem bool_luLower_zero (A U L : Mat Bool n n) (j : Fin n) (hu : U j j = false) :
    Promoted.luLower A U j L = .error (.throws divideByZeroException) := by
  unfold Promoted.luLower
  have hu' : U ⟨j.val, j.2⟩ ⟨j.val, j.2⟩ = false := hu
  rw [forUp_first j.2, bool_luSum, ok_bind, rd_eq j.2 j.2, ok_bind, hu', if_pos (by decide)]
  rfl

/-- Invariant of `lu` before column `j`. -/
structure BoolLuInv (A : Mat Bool n n) (j : Nat) (L U : Mat Bool n n) : Prop where
  lu : IsBoolLu A L U j
  Lcol : ∀ i p : Fin n, j ≤ p.val → i ≠ p → L i p = false

/-- How `lu` of a Boolean matrix stops: on a zero pivot. -/
def BoolLuStop (A : Mat Bool n n) (e : Stop) : Prop :=
  e = .throws divideByZeroException ∧
    ∃ (L U : Mat Bool n n) (j : Fin n), IsBoolLu A L U j.val ∧
      (∀ i, i ≤ j → U i j = (A i j ^^ decide (∃ p, p < i ∧ L i p = true ∧ U p j = true))) ∧ U j j = false

theorem wp_lu_step_bool (A : Mat Bool n n) (j : Nat) (hj : j < n) (L U : Mat Bool n n)
    (hs : BoolLuInv A j L U) :
    wp (do
      let U ← Promoted.luUpper A L j U
      let L ← Promoted.luLower A U j L
      .ok (L, U)) (fun s => BoolLuInv A (j + 1) s.1 s.2) (BoolLuStop A) := by
  rw [wp_bind]
  refine wp_mono (wp_luUpper_bool A L U ⟨j, hj⟩) ?_ (fun _ h => h)
  rintro U' ⟨hold, hnew⟩
  have hLup : ∀ i p : Fin n, i < p → L i p = false := hs.lu.L_upper
  have hUlo : ∀ p q : Fin n, q < p → U p q = false := hs.lu.U_lower
  have hULow : ∀ p q : Fin n, q < p → U' p q = false := by
    intro p q hqp
    rw [hold p q]
    · exact hUlo p q hqp
    · rintro ⟨rfl, h⟩
      exact absurd hqp (not_lt.mpr h)
  have hUold : ∀ p q : Fin n, q.val ≠ j → U' p q = U p q :=
    fun p q h => hold p q (fun h' => h (congrArg Fin.val h'.1))
  -- the sums of the second loop
  have hS : ∀ i : Fin n, j ≤ i.val → luOr L U' i ⟨j, hj⟩ = orTo j (fun p => L i p) (fun p => U' p ⟨j, hj⟩) := by
    intro i hji
    refine orTo_congr fun p => ?_
    rcases lt_trichotomy p (⟨j, hj⟩ : Fin n) with hp | hp | hp
    · have hp' : p.val < j := hp
      simp only [hp', lt_of_lt_of_le hp' hji]
    · subst hp
      simp only [lt_irrefl, false_and, iff_false]
      rintro ⟨h, h', -⟩
      rw [hs.Lcol i ⟨j, hj⟩ le_rfl (ne_of_gt h)] at h'
      cases h'
    · rw [hULow p _ hp]
      simp
  have hinv : ∀ L' : Mat Bool n n, (∀ a b : Fin n, b.val ≠ j → L' a b = L a b) →
      (∀ i p : Fin n, i < p → L' i p = false) → IsBoolLu A L' U' j := by
    intro L' hL' hup
    have h := hs.lu
    refine ⟨hup, hULow, ?_, ?_, ?_⟩
    · intro q hq
      rw [hUold q q (by omega)]
      exact h.U_diag q hq
    · intro i q hq hiq
      rw [hUold i q (by omega)]
      refine (h.upper i q hq hiq).trans ?_
      congr 1
      refine orTo_congr (m := i.val) (m' := i.val) fun p => and_congr_right fun hp => ?_
      rw [Fin.le_def] at hiq
      rw [hL' i p (by omega), hUold p q (by omega)]
    · intro i q hq hqi
      rw [hL' i q (by omega)]
      refine (h.lower i q hq hqi).trans ?_
      congr 1
      refine orTo_congr (m := q.val) (m' := q.val) fun p => and_congr_right fun hp => ?_
      rw [hL' i p (by omega), hUold p q (by omega)]
  have hcol : ∀ L' : Mat Bool n n, (∀ a b : Fin n, b.val ≠ j → L' a b = L a b) →
      ∀ i : Fin n, i ≤ ⟨j, hj⟩ → U' i ⟨j, hj⟩ = (A i ⟨j, hj⟩ ^^
        decide (∃ p, p < i ∧ L' i p = true ∧ U' p ⟨j, hj⟩ = true)) := by
    intro L' hLold i hiq
    refine (hnew i hiq).trans ?_
    congr 1
    refine orTo_congr (m := i.val) (m' := i.val) fun p => and_congr_right fun hp => ?_
    rw [Fin.le_def] at hiq
    rw [hLold i p (by dsimp only at hiq; omega)]
  cases hu : U' ⟨j, hj⟩ ⟨j, hj⟩ with
  | false =>
    have h0 : Promoted.luLower A U' j L = .error (.throws divideByZeroException) :=
      bool_luLower_zero A U' L ⟨j, hj⟩ hu
    rw [h0]
    exact ⟨rfl, L, U', ⟨j, hj⟩, hinv L (fun _ _ _ => rfl) hLup, fun i hi => hcol L (fun _ _ _ => rfl) i hi, hu⟩
  | true =>
    rw [wp_bind]
    refine wp_mono (wp_luLower_bool A U' L ⟨j, hj⟩ hu) ?_ (fun _ h => h)
    rintro L' ⟨hLo, hLn⟩
    rw [wp_ok]
    have hLold : ∀ a b : Fin n, b.val ≠ j → L' a b = L a b :=
      fun a b h => hLo a b (fun h' => h (congrArg Fin.val h'.1))
    have hLrow : ∀ a b : Fin n, a.val < j → L' a b = L a b :=
      fun a b h => hLo a b (fun h' => absurd h'.2 (not_le.mpr h))
    have hup : ∀ i p : Fin n, i < p → L' i p = false := by
      intro i p hip
      by_cases hpj : p.val = j
      · rw [hLrow i p (by rw [Fin.lt_def] at hip; omega)]
        exact hLup i p hip
      · rw [hLold i p hpj]
        exact hLup i p hip
    have h0 := hinv L' hLold hup
    refine ⟨⟨hup, hULow, ?_, ?_, ?_⟩, ?_⟩
    · intro q hq
      by_cases hqj : q.val = j
      · have : q = ⟨j, hj⟩ := Fin.ext hqj
        subst this
        exact hu
      · exact h0.U_diag q (by omega)
    · intro i q hq hiq
      by_cases hqj : q.val = j
      · have : q = ⟨j, hj⟩ := Fin.ext hqj
        subst this
        exact hcol L' hLold i hiq
      · exact h0.upper i q (by omega) hiq
    · intro i q hq hqi
      by_cases hqj : q.val = j
      · have : q = ⟨j, hj⟩ := Fin.ext hqj
        subst this
        show L' i ⟨j, hj⟩ = _
        rw [hLn i hqi, hS i (by rw [Fin.le_def] at hqi; exact hqi)]
        congr 1
        refine orTo_congr (m := j) (m' := j) fun p => and_congr_right fun hp => ?_
        show _ ↔ L' i p = true ∧ _
        rw [hLold i p (by omega)]
      · exact h0.lower i q (by omega) hqi
    · intro i p hp hip
      show L' i p = false
      rw [hLold i p (by omega)]
      exact hs.Lcol i p (by omega) hip

theorem wp_lu_bool (A : Mat Bool n n) :
    wp (Promoted.lu A) (fun s => IsBoolLu A s.1 s.2 n) (BoolLuStop A) := by
  unfold Promoted.lu Promoted.eye1 Promoted.eye Promoted.zeros
  rw [fill_ok, ok_bind, wp_bind]
  refine wp_forUp (fun k L => ∀ i p : Fin n, i ≠ p → L i p = false) (Nat.zero_le n) (fun _ _ _ => bool_lit_zero) ?_ ?_
  · intro k L _ hk hL
    rw [wr_eq hk hk, wp_ok]
    intro i p hip
    rw [Matrix.of_apply, if_neg (fun h => hip (Fin.ext (h.1.trans h.2.symm)))]
    exact hL i p hip
  · intro L hL
    rw [ok_bind]
    refine wp_forUp (fun j s => BoolLuInv A j s.1 s.2) (Nat.zero_le n) ?_ ?_ (fun _ h => h.lu)
    · refine ⟨⟨?_, ?_, ?_, ?_, ?_⟩, ?_⟩
      · intro i p h; exact hL i p (ne_of_lt h)
      · intro p q _; exact bool_lit_zero
      · intro q h; omega
      · intro i q h; omega
      · intro i q h; omega
      · intro i p _ h; exact hL i p h
    · intro j s _ hj hs
      exact wp_lu_step_bool A j hj s.1 s.2 hs

/-! ## Cholesky -/

/-- Invariant of `chol` before cell `(i, j)`. -/
structure BoolCholInv (A : Mat Bool n n) (i j : Nat) (L : Mat Bool n n) : Prop where
  zero : ∀ a b : Fin n, ¬ Written i j a b → L a b = false
  cell : ∀ a b : Fin n, Written i j a b → BoolCholCell A L a b

/-- How `chol` of a Boolean matrix stops: on a zero pivot. -/
def BoolCholStop (A : Mat Bool n n) (e : Stop) : Prop :=
  e = .ub .divisionByZero ∧
    ∃ (L : Mat Bool n n) (i j : Fin n), j < i ∧
      (∀ a b, b ≤ a → (a < i ∨ a = i ∧ b < j) → BoolCholCell A L a b) ∧ L j j = false

theorem bool_cholSum (L : Mat Bool n n) (i j : Fin n) :
    Promoted.cholSum L i j = .ok (orTo i.val (fun p => L i p) (fun p => L j p)) :=
  bool_sum i.val i.2.le (fun p => rd L i p) (fun p => rd L j p) (fun p => L i p) (fun p => L j p)
    (fun _ hk => rd_eq i.2 hk) (fun _ hk => rd_eq j.2 hk)

theorem boolChol_update (A L : Mat Bool n n) (i j : Fin n) (hji : j ≤ i) (h : BoolCholInv A i j L)
    (hpiv : j < i → L j j = true) :
    BoolCholInv A i (j.val + 1) (.of fun a b => if a.val = i.val ∧ b.val = j.val then
      (A i j ^^ orTo j.val (fun p => L i p) (fun p => L j p)) else L a b) := by
  have hnew : ∀ a b : Fin n, ¬ (a = i ∧ b = j) →
      (Matrix.of fun a b : Fin n => if a.val = i.val ∧ b.val = j.val then
        (A i j ^^ orTo j.val (fun p => L i p) (fun p => L j p)) else L a b) a b = L a b := by
    intro a b hab
    rw [Matrix.of_apply, if_neg (fun h => hab ⟨Fin.ext h.1, Fin.ext h.2⟩)]
  have hij : (Matrix.of fun a b : Fin n => if a.val = i.val ∧ b.val = j.val then
      (A i j ^^ orTo j.val (fun p => L i p) (fun p => L j p)) else L a b) i j =
      (A i j ^^ orTo j.val (fun p => L i p) (fun p => L j p)) := by
    rw [Matrix.of_apply, if_pos ⟨rfl, rfl⟩]
  generalize (Matrix.of fun a b : Fin n => if a.val = i.val ∧ b.val = j.val then
      (A i j ^^ orTo j.val (fun p => L i p) (fun p => L j p)) else L a b) = L' at hnew hij
  refine ⟨?_, ?_⟩
  · intro a b hab
    rw [hnew a b]
    · refine h.zero a b (fun h' => hab ⟨h'.1, ?_⟩)
      rcases h'.2 with h2 | h2
      · exact Or.inl h2
      · exact Or.inr ⟨h2.1, by omega⟩
    · rintro ⟨rfl, rfl⟩
      exact hab ⟨hji, Or.inr ⟨rfl, by omega⟩⟩
  · intro a b hab
    by_cases hc : a = i ∧ b = j
    · obtain ⟨rfl, rfl⟩ := hc
      refine ⟨fun hlt => ?_, ?_⟩
      · rw [hnew b b (fun h => absurd h.1 (ne_of_lt hlt))]
        exact hpiv hlt
      · rw [hij]
        congr 1
        refine orTo_congr (m := b.val) (m' := b.val) fun p => and_congr_right fun hp => ?_
        rw [hnew a p (fun h => absurd (congrArg Fin.val h.2) (ne_of_lt hp)),
          hnew b p (fun h => absurd (congrArg Fin.val h.2) (ne_of_lt hp))]
    · have hW : Written i j a b := by
        obtain ⟨h1, h2⟩ := hab
        refine ⟨h1, ?_⟩
        rcases h2 with h2 | h2
        · exact Or.inl h2
        · right
          refine ⟨h2.1, ?_⟩
          have : b.val ≠ j.val := fun hb => hc ⟨Fin.ext h2.1, Fin.ext hb⟩
          omega
      have hlt : ∀ p : Fin n, p ≤ b → ¬ (a = i ∧ p = j) := by
        rintro p hp ⟨rfl, rfl⟩
        rcases hW.2 with h2 | h2
        · exact lt_irrefl _ h2
        · exact absurd hp (not_le.mpr h2.2)
      have hlt' : ∀ p : Fin n, p ≤ b → ¬ (b = i ∧ p = j) := by
        rintro p hp ⟨rfl, rfl⟩
        rcases hW.2 with h2 | h2
        · exact absurd hW.1 (not_le.mpr h2)
        · exact absurd hp (not_le.mpr h2.2)
      obtain ⟨c1, c2⟩ := h.cell a b hW
      refine ⟨fun hb => ?_, ?_⟩
      · rw [hnew b b (hlt' b le_rfl)]
        exact c1 hb
      · rw [hnew a b hc, c2]
        congr 1
        refine orTo_congr (m := b.val) (m' := b.val) fun p => and_congr_right fun hp => ?_
        rw [hnew a p (hlt p (le_of_lt hp)), hnew b p (hlt' p (le_of_lt hp))]

/-- Before `(i, j)` is written the terms after `j` vanish. -/
theorem boolChol_sum (A L : Mat Bool n n) (i j : Fin n) (hji : j ≤ i) (h : BoolCholInv A i j L) :
    orTo i.val (fun p => L i p) (fun p => L j p) = orTo j.val (fun p => L i p) (fun p => L j p) := by
  refine orTo_congr fun k => ?_
  by_cases hk : k.val < j.val
  · simp only [hk, lt_of_lt_of_le hk hji]
  · have : L i k = false := h.zero i k (by
      rintro ⟨-, h1 | h1⟩
      · exact lt_irrefl _ h1
      · exact hk h1.2)
    rw [this]
    simp

theorem BoolCholInv.row {A L : Mat Bool n n} {i : Nat} (h : BoolCholInv A i (i + 1) L) :
    BoolCholInv A (i + 1) 0 L := by
  have hW : ∀ a b : Fin n, Written (i + 1) 0 a b ↔ Written i (i + 1) a b := by
    intro a b
    unfold Written
    rw [Fin.le_def]
    constructor
    · rintro ⟨h1, h2⟩
      exact ⟨h1, by omega⟩
    · rintro ⟨h1, h2⟩
      exact ⟨h1, by omega⟩
  exact ⟨fun a b hab => h.zero a b (fun h' => hab ((hW a b).mpr h')),
    fun a b hab => h.cell a b ((hW a b).mp hab)⟩

theorem wp_cholStep_bool (A L : Mat Bool n n) (i j : Fin n) (hji : j ≤ i) (h : BoolCholInv A i j L) :
    wp (Promoted.cholStep A i j L) (BoolCholInv A i (j.val + 1)) (BoolCholStop A) := by
  have hcells : ∀ a b : Fin n, b ≤ a → (a < i ∨ a = i ∧ b < j) → BoolCholCell A L a b := by
    intro a b hba hab
    refine h.cell a b ⟨hba, ?_⟩
    rcases hab with hab | hab
    · exact Or.inl hab
    · exact Or.inr ⟨congrArg Fin.val hab.1, hab.2⟩
  unfold Promoted.cholStep
  split
  · next hij =>
    have hij' : j = i := Fin.ext hij
    subst hij'
    rw [bool_cholSum, ok_bind, rd_eq j.2 j.2, ok_bind, bool_subSqrt_bind _ _ (fun v => wr L j j v), wr_eq j.2 j.2, wp_ok]
    exact boolChol_update A L j j le_rfl h (fun h => absurd h (lt_irrefl _))
  · next hij =>
    have hij' : j ≠ i := fun h => hij (congrArg Fin.val h)
    have hlt : j < i := lt_of_le_of_ne hji hij'
    rw [bool_cholSum, ok_bind, rd_eq i.2 j.2, ok_bind, rd_eq j.2 j.2]
    simp only [ok_bind]
    cases hu : L ⟨j.val, j.2⟩ ⟨j.val, j.2⟩ with
    | false =>
      rw [bool_subDiv_false_bind _ _ (fun v => wr L i j v)]
      exact ⟨rfl, L, i, j, hlt, hcells, hu⟩
    | true =>
      rw [bool_subDiv_bind _ _ (fun v => wr L i j v), wr_eq i.2 j.2, wp_ok, boolChol_sum A L i j hji h]
      exact boolChol_update A L i j hji h (fun _ => hu)

theorem wp_chol_bool (A : Mat Bool n n) : wp (Promoted.chol A) (IsBoolChol A) (BoolCholStop A) := by
  unfold Promoted.chol
  refine wp_forUp (fun i L => BoolCholInv A i 0 L) (Nat.zero_le n) ?_ ?_ ?_
  · have hno : ∀ a b : Fin n, ¬ Written 0 0 a b := by
      rintro a b ⟨-, h⟩
      omega
    exact ⟨fun a b _ => bool_lit_zero, fun a b h => absurd h (hno a b)⟩
  · intro i L _ hi h
    refine wp_forUp (fun j L => BoolCholInv A i j L) (Nat.zero_le _) h ?_ (fun _ h => h.row)
    intro j L _ hj h
    exact wp_cholStep_bool A L ⟨i, hi⟩ ⟨j, by omega⟩ (by rw [Fin.le_def]; dsimp only; omega) h
  · intro L h
    exact ⟨fun a b hab => h.zero a b (fun h' => absurd h'.1 (not_le.mpr hab)),
      fun a b hba => h.cell a b ⟨hba, Or.inl a.2⟩⟩

end MatrixLibs
