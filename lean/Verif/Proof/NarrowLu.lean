import Verif.Proof.NarrowSafe
import Verif.Proof.IntLu
import Verif.Spec.NarrowFactor
import Verif.Props.NarrowArith

/-!
# Narrow integers: LU factorisation
-/

namespace MatrixLibs

set_option linter.unusedSectionVars false

open Promo (load store sqrtTo)
open CScalar (ofInt)

variable {t : Narrow} {G : Prop} {β : ℤ} {n : Nat}

theorem Narrow.conv_congr {x y : ℤ} (h : x ≡ y [ZMOD 2 ^ t.w]) : t.conv x = t.conv y :=
  t.has_unique (t.conv_has x) (t.conv_has y) ((t.conv_modEq x).trans (h.trans (t.conv_modEq y).symm))

theorem Narrow.eq_conv {x : NInt t} {k : ℤ} (h : x.val ≡ k [ZMOD 2 ^ t.w]) : x.val = t.conv k :=
  t.has_unique x.has (t.conv_has k) (h.trans (t.conv_modEq k).symm)

theorem Bnd.store_eq {p : SInt 32} {x a : ℤ} (hp : Bnd G p x a) : (Promo.store p : NInt t).val = t.conv x := by
  show t.conv p.val = _
  rw [hp.val]

/-- Sums of products, stored after each addition. -/
theorem wp_narrow_sum (hG : Guard t G β) (hβ0 : 0 ≤ β) (hβ : β + β * β ≤ 2147483647) {m : Nat}
    (f g : Nat → Res (NInt t)) (x y : Fin m → NInt t)
    (hf : ∀ k (h : k < m), f k = .ok (x ⟨k, h⟩)) (hg : ∀ k (h : k < m), g k = .ok (y ⟨k, h⟩)) :
    wp (forUp 0 m (Promoted.lit 0 : NInt t) fun k s => do
      let t' ← CScalar.mul (load (← f k) : SInt 32) (load (← g k))
      .ok (store (← CScalar.add (load s) t')) : Res (NInt t))
      (fun v => v.val = t.conv (∑ k, (x k).val * (y k).val)) (OverflowUnless G) := by
  have h := wp_sum_loop (s0 := (Promoted.lit 0 : NInt t)) (E := OverflowUnless G)
    (fun v : NInt t => ((v.val : ℤ) : ZMod (2 ^ t.w)))
    (fun k => (((x k).val * (y k).val : ℤ) : ZMod (2 ^ t.w)))
    (body := fun k s => do
      let t' ← CScalar.mul (load (← f k) : SInt 32) (load (← g k))
      .ok (store (← CScalar.add (load s) t')))
    (fun k hk s => by
      rw [hf k hk, ok_bind, hg k hk, ok_bind, wp_bind]
      refine wp_mono (Bnd.wp_mul (Bnd.load hG _) (Bnd.load hG _) (by nlinarith)) (fun q hq => ?_) (fun _ h => h)
      refine wp_mono (wp_store (t := t) (Bnd.wp_add (Bnd.load hG s) hq (by omega))) (fun v hv => ?_) (fun _ h => h)
      rw [← Int.cast_add]
      exact (ZMod.intCast_eq_intCast_iff _ _ _).mpr (by exact_mod_cast hv))
  refine wp_mono h (fun v hv => ?_) (fun _ h => h)
  rw [lit_zero, Int.cast_zero, zero_add, ← Int.cast_sum] at hv
  have := (ZMod.intCast_eq_intCast_iff _ _ _).mp hv
  push_cast at this
  exact Narrow.eq_conv this

/-- `Σ_{p < i} L[i][p] * U[p][j]` as it is stored. -/
def luSn (L U : Mat (NInt t) n n) (i j : Fin n) : ℤ :=
  t.conv (∑ p : Fin n, if p < i then (L i p).val * (U p j).val else 0)

section
variable (hG : Guard t G β) (hβ0 : 0 ≤ β) (hβ : β + β * β ≤ 2147483647)
include hG hβ0 hβ

theorem wp_luSum_narrow (L U : Mat (NInt t) n n) (i j : Fin n) :
    wp (Promoted.luSum L U i j) (fun v => v.val = luSn L U i j) (OverflowUnless G) := by
  refine wp_mono (wp_narrow_sum hG hβ0 hβ (fun p => rd U p j) (fun p => rd L i p)
    (fun p : Fin i.val => U ⟨p.val, lt_trans p.2 i.2⟩ j) (fun p => L i ⟨p.val, lt_trans p.2 i.2⟩)
    (fun k hk => rd_eq (lt_trans hk i.2) j.2) (fun k hk => rd_eq i.2 (lt_trans hk i.2))) ?_ (fun _ h => h)
  intro v hv
  rw [hv, luSn, sum_cutZ (i := i) (fun p => (U p j).val * (L i p).val)]
  simp only [mul_comm]

theorem wp_luUpper_narrow (A L U : Mat (NInt t) n n) (j : Fin n) :
    wp (Promoted.luUpper A L j U) (fun U' => (∀ a b, ¬ (b = j ∧ a ≤ j) → U' a b = U a b) ∧
      ∀ a, a ≤ j → (U' a j).val = t.conv ((A a j).val - luSn L U' a j)) (OverflowUnless G) := by
  unfold Promoted.luUpper
  refine wp_forUp (fun k U' => (∀ a b, ¬ (b = j ∧ a.val < k) → U' a b = U a b) ∧
    ∀ a : Fin n, a.val < k → (U' a j).val = t.conv ((A a j).val - luSn L U' a j)) (Nat.zero_le _)
    ⟨fun _ _ _ => rfl, fun a h => by omega⟩ ?_ ?_
  · rintro k U' - hk ⟨h1, h2⟩
    have hkn : k < n := by have := j.2; omega
    rw [wp_bind]
    refine wp_mono (wp_luSum_narrow hG hβ0 hβ L U' ⟨k, hkn⟩ j) ?_ (fun _ h => h)
    intro s hs
    rw [rd_eq hkn j.2, ok_bind, wp_bind]
    refine wp_mono ((Bnd.load hG _).wp_sub (Bnd.load hG s) (by nlinarith)) ?_ (fun _ h => h)
    intro q hq
    have hv' := hq.store_eq (t := t)
    generalize (store q : NInt t) = v at hv'
    rw [hs] at hv'
    rw [wr_eq hkn j.2, wp_ok]
    have hold : ∀ a b : Fin n, ¬ (a.val = k ∧ b.val = j.val) →
        (Matrix.of fun a b : Fin n => if a.val = k ∧ b.val = j.val then v else U' a b) a b =
        U' a b := by
      intro a b h
      rw [Matrix.of_apply, if_neg h]
    have hS : ∀ a : Fin n, a.val ≤ k → luSn L (Matrix.of fun a b : Fin n =>
        if a.val = k ∧ b.val = j.val then v else U' a b) a j = luSn L U' a j := by
      intro a ha
      unfold luSn
      congr 1
      refine Finset.sum_congr rfl (fun p _ => ?_)
      split
      · next hp =>
        rw [Fin.lt_def] at hp
        rw [hold p j (by omega)]
      · rfl
    refine ⟨?_, ?_⟩
    · intro a b hab
      rw [hold a b (fun h => hab ⟨Fin.ext h.2, by omega⟩)]
      exact h1 a b (fun h => hab ⟨h.1, by omega⟩)
    · intro a ha
      rw [hS a (by omega)]
      by_cases hak : a.val = k
      · have : a = ⟨k, hkn⟩ := Fin.ext hak
        subst this
        rw [Matrix.of_apply, if_pos ⟨rfl, rfl⟩, hv']
      · rw [hold a j (fun h => hak h.1)]
        exact h2 a (by omega)
  · rintro U' ⟨h1, h2⟩
    refine ⟨fun a b h => h1 a b (fun h' => h ⟨h'.1, ?_⟩), fun a ha => h2 a ?_⟩
    · rw [Fin.le_def]; omega
    · rw [Fin.le_def] at ha; omega

theorem wp_luLower_narrow (A U L : Mat (NInt t) n n) (j : Fin n) (hu : (U j j).val ≠ 0) :
    wp (Promoted.luLower A U j L) (fun L' => (∀ a b, ¬ (b = j ∧ j ≤ a) → L' a b = L a b) ∧
      ∀ a, j ≤ a → (L' a j).val = t.conv (((A a j).val - luSn L U a j).tdiv (U j j).val))
      (OverflowUnless G) := by
  unfold Promoted.luLower
  refine wp_forUp (fun k L' => (∀ a b : Fin n, ¬ (b = j ∧ j ≤ a ∧ a.val < k) → L' a b = L a b) ∧
    ∀ a : Fin n, j ≤ a → a.val < k →
      (L' a j).val = t.conv (((A a j).val - luSn L U a j).tdiv (U j j).val)) (by omega) ?_ ?_ ?_
  · refine ⟨fun _ _ _ => rfl, fun a h1 h2 => ?_⟩
    rw [Fin.le_def] at h1
    omega
  · rintro k L' hjk hk ⟨h1, h2⟩
    have hS : luSn L' U ⟨k, hk⟩ j = luSn L U ⟨k, hk⟩ j := by
      unfold luSn
      congr 1
      refine Finset.sum_congr rfl (fun p _ => ?_)
      rw [h1 ⟨k, hk⟩ p (fun h => lt_irrefl _ h.2.2)]
    rw [wp_bind]
    refine wp_mono (wp_luSum_narrow hG hβ0 hβ L' U ⟨k, hk⟩ j) ?_ (fun _ h => h)
    intro s hs
    rw [rd_eq j.2 j.2, ok_bind, if_neg (fun h => hu (load_eq_zero.mp h)), rd_eq hk j.2, ok_bind, wp_bind]
    refine wp_mono ((Bnd.load hG _).wp_sub (Bnd.load hG s) (by nlinarith)) ?_ (fun _ h => h)
    intro x hx
    rw [wp_bind]
    refine wp_mono (hx.wp_div (q := load (U j j)) hu (by nlinarith)) ?_ (fun _ h => h)
    intro q hq
    have hv := hq.store_eq (t := t)
    generalize (store q : NInt t) = v at hv
    rw [hs, hS, load_val] at hv
    rw [wr_eq hk j.2, wp_ok]
    refine ⟨?_, ?_⟩
    · intro a b hab
      rw [Matrix.of_apply, if_neg]
      · exact h1 a b (fun h => hab ⟨h.1, h.2.1, by omega⟩)
      · rintro ⟨ha, hb⟩
        exact hab ⟨Fin.ext hb, by rw [Fin.le_def]; omega, by omega⟩
    · intro a hja hak
      rw [Matrix.of_apply]
      by_cases ha : a.val = k
      · have : a = ⟨k, hk⟩ := Fin.ext ha
        subst this
        rw [if_pos ⟨rfl, rfl⟩, hv]
      · rw [if_neg (fun h => ha h.1)]
        exact h2 a hja (by omega)
  · rintro L' ⟨h1, h2⟩
    exact ⟨fun a b h => h1 a b (fun h' => h ⟨h'.1, h'.2.1⟩), fun a ha => h2 a ha a.2⟩

theorem wp_luLower_narrow_zero (A U L : Mat (NInt t) n n) (j : Fin n) (hu : (U j j).val = 0) :
    wp (Promoted.luLower A U j L) (fun _ => False)
      (fun e => OverflowUnless G e ∨ e = .throws divideByZeroException) := by
  unfold Promoted.luLower
  rw [forUp_first j.2, wp_bind, wp_bind]
  refine wp_mono (wp_luSum_narrow hG hβ0 hβ L U j j) ?_ (fun _ h => Or.inl h)
  intro s _
  rw [rd_eq j.2 j.2, ok_bind, if_pos (load_eq_zero.mpr hu)]
  exact Or.inr rfl

/-- Invariant of `lu` before column `j`. -/
structure NarrowLuInv (A : Mat (NInt t) n n) (j : Nat) (L U : Mat (NInt t) n n) : Prop where
  lu : IsWrapLu t (ints A) (ints L) (ints U) j
  Lcol : ∀ i p : Fin n, j ≤ p.val → i ≠ p → (L i p).val = 0

omit hG hβ0 hβ in
/-- How `lu` of a matrix of narrow integers stops: on overflow or on a zero pivot. -/
def NarrowLuStop (G : Prop) (A : Mat (NInt t) n n) (e : Stop) : Prop :=
  OverflowUnless G e ∨ e = .throws divideByZeroException ∧
    ∃ (L U : Matrix (Fin n) (Fin n) ℤ) (j : Fin n), IsWrapLu t (ints A) L U j.val ∧
      (∀ i, i ≤ j → U i j = t.conv (ints A i j - t.conv (∑ p, if p < i then L i p * U p j else 0))) ∧ U j j = 0

theorem wp_lu_step_narrow (A : Mat (NInt t) n n) (j : Nat) (hj : j < n) (L U : Mat (NInt t) n n)
    (hs : NarrowLuInv A j L U) :
    wp (do
      let U ← Promoted.luUpper A L j U
      let L ← Promoted.luLower A U j L
      .ok (L, U)) (fun s => NarrowLuInv A (j + 1) s.1 s.2) (NarrowLuStop G A) := by
  rw [wp_bind]
  refine wp_mono (wp_luUpper_narrow hG hβ0 hβ A L U ⟨j, hj⟩) ?_ (fun _ h => Or.inl h)
  rintro U' ⟨hold, hnew⟩
  have hLup : ∀ i p : Fin n, i < p → (L i p).val = 0 := hs.lu.L_upper
  have hUlo : ∀ p q : Fin n, q < p → (U p q).val = 0 := hs.lu.U_lower
  have hULow : ∀ p q : Fin n, q < p → (U' p q).val = 0 := by
    intro p q hqp
    rw [hold p q]
    · exact hUlo p q hqp
    · rintro ⟨rfl, h⟩
      exact absurd hqp (not_lt.mpr h)
  have hUold : ∀ p q : Fin n, q.val ≠ j → U' p q = U p q :=
    fun p q h => hold p q (fun h' => h (congrArg Fin.val h'.1))
  -- the sums of the second loop
  have hS : ∀ i : Fin n, j ≤ i.val → luSn L U' i ⟨j, hj⟩ =
      t.conv (∑ p, if p < (⟨j, hj⟩ : Fin n) then (L i p).val * (U' p ⟨j, hj⟩).val else 0) := by
    intro i hji
    unfold luSn
    congr 1
    refine Finset.sum_congr rfl (fun p _ => ?_)
    rcases lt_trichotomy p (⟨j, hj⟩ : Fin n) with hp | hp | hp
    · rw [if_pos (lt_of_lt_of_le hp hji), if_pos hp]
    · subst hp
      rw [if_neg (lt_irrefl (⟨j, hj⟩ : Fin n))]
      split
      · next h => rw [hs.Lcol i ⟨j, hj⟩ le_rfl (ne_of_gt h), zero_mul]
      · rfl
    · rw [if_neg (not_lt.mpr hp.le), hULow p _ hp, mul_zero]
      split <;> rfl
  have hinv : ∀ L' : Mat (NInt t) n n, (∀ a b : Fin n, b.val ≠ j → L' a b = L a b) →
      (∀ i p : Fin n, i < p → (L' i p).val = 0) → IsWrapLu t (ints A) (ints L') (ints U') j := by
    intro L' hL' hup
    have h := hs.lu
    refine ⟨hup, hULow, ?_, ?_, ?_⟩
    · intro q hq
      show (U' q q).val ≠ 0
      rw [hUold q q (by omega)]
      exact h.U_diag q hq
    · intro i q hq hiq
      show (U' i q).val = _
      rw [hUold i q (by omega)]
      refine (h.upper i q hq hiq).trans ?_
      congr 3
      refine Finset.sum_congr rfl (fun p _ => ?_)
      split
      · next hp =>
        rw [Fin.lt_def] at hp
        rw [Fin.le_def] at hiq
        show (L i p).val * (U p q).val = (L' i p).val * (U' p q).val
        rw [hL' i p (by omega), hUold p q (by omega)]
      · rfl
    · intro i q hq hqi
      show (L' i q).val = t.conv (((A i q).val - t.conv (∑ p, if p < q then (L' i p).val * (U' p q).val else 0)).tdiv
        (U' q q).val)
      rw [hL' i q (by omega), hUold q q (by omega)]
      refine (h.lower i q hq hqi).trans ?_
      congr 4
      refine Finset.sum_congr rfl (fun p _ => ?_)
      split
      · next hp =>
        rw [Fin.lt_def] at hp
        rw [hL' i p (by omega), hUold p q (by omega)]
        rfl
      · rfl
  have hcol : ∀ L' : Mat (NInt t) n n, (∀ a b : Fin n, b.val ≠ j → L' a b = L a b) →
      ∀ i : Fin n, i ≤ ⟨j, hj⟩ → ints U' i ⟨j, hj⟩ = t.conv (ints A i ⟨j, hj⟩ -
        t.conv (∑ p, if p < i then ints L' i p * ints U' p ⟨j, hj⟩ else 0)) := by
    intro L' hLold i hiq
    refine (hnew i hiq).trans ?_
    unfold luSn
    show _ = t.conv ((A i ⟨j, hj⟩).val - _)
    congr 3
    refine Finset.sum_congr rfl (fun p _ => ?_)
    split
    · next hp =>
      have hpj : p.val ≠ j := by
        rw [Fin.lt_def] at hp
        rw [Fin.le_def] at hiq
        dsimp only at hiq
        omega
      show _ = (L' i p).val * (U' p ⟨j, hj⟩).val
      rw [hLold i p hpj]
    · rfl
  by_cases hu : (U' ⟨j, hj⟩ ⟨j, hj⟩).val = 0
  · rw [wp_bind]
    refine wp_mono (wp_luLower_narrow_zero hG hβ0 hβ A U' L ⟨j, hj⟩ hu) (fun _ h => h.elim) ?_
    rintro e (he | he)
    · exact Or.inl he
    · exact Or.inr ⟨he, ints L, ints U', ⟨j, hj⟩, hinv L (fun _ _ _ => rfl) hLup,
        fun i hi => hcol L (fun _ _ _ => rfl) i hi, hu⟩
  · rw [wp_bind]
    refine wp_mono (wp_luLower_narrow hG hβ0 hβ A U' L ⟨j, hj⟩ hu) ?_ (fun _ h => Or.inl h)
    rintro L' ⟨hLo, hLn⟩
    rw [wp_ok]
    have hLold : ∀ a b : Fin n, b.val ≠ j → L' a b = L a b :=
      fun a b h => hLo a b (fun h' => h (congrArg Fin.val h'.1))
    have hLrow : ∀ a b : Fin n, a.val < j → L' a b = L a b :=
      fun a b h => hLo a b (fun h' => absurd h'.2 (not_le.mpr h))
    have hup : ∀ i p : Fin n, i < p → (L' i p).val = 0 := by
      intro i p hip
      by_cases hpj : p.val = j
      · rw [hLrow i p (by rw [Fin.lt_def] at hip; omega)]
        exact hLup i p hip
      · rw [hLold i p hpj]
        exact hLup i p hip
    have h0 := hinv L' hLold hup
    refine ⟨⟨hup, hULow, ?_, ?_, ?_⟩, ?_⟩
    · intro q hq
      by_cases hqj : q.val = j
      · have : q = ⟨j, hj⟩ := Fin.ext hqj
        subst this
        exact hu
      · exact h0.U_diag q (by omega)
    · intro i q hq hiq
      by_cases hqj : q.val = j
      · have : q = ⟨j, hj⟩ := Fin.ext hqj
        subst this
        exact hcol L' hLold i hiq
      · exact h0.upper i q (by omega) hiq
    · intro i q hq hqi
      by_cases hqj : q.val = j
      · have : q = ⟨j, hj⟩ := Fin.ext hqj
        subst this
        show (L' i ⟨j, hj⟩).val = _
        rw [hLn i hqi, hS i (by rw [Fin.le_def] at hqi; exact hqi)]
        show _ = t.conv (((A i ⟨j, hj⟩).val - _).tdiv (U' ⟨j, hj⟩ ⟨j, hj⟩).val)
        congr 4
        refine Finset.sum_congr rfl (fun p _ => ?_)
        split
        · next hp =>
          rw [Fin.lt_def] at hp
          dsimp only at hp
          show _ = (L' i p).val * (U' p ⟨j, hj⟩).val
          rw [hLold i p (by omega)]
        · rfl
      · exact h0.lower i q (by omega) hqi
    · intro i p hp hip
      show (L' i p).val = _
      rw [hLold i p (by omega)]
      exact hs.Lcol i p (by omega) hip

theorem wp_lu_narrow (A : Mat (NInt t) n n) :
    wp (Promoted.lu A) (fun s => IsWrapLu t (ints A) (ints s.1) (ints s.2) n) (NarrowLuStop G A) := by
  unfold Promoted.lu Promoted.eye1 Promoted.eye Promoted.zeros
  rw [fill_ok, ok_bind, wp_bind]
  refine wp_forUp (fun k L => ∀ i p : Fin n, i ≠ p → (L i p).val = 0) (Nat.zero_le n) (fun _ _ _ => lit_zero) ?_ ?_
  · intro k L _ hk hL
    rw [wr_eq hk hk, wp_ok]
    intro i p hip
    rw [Matrix.of_apply, if_neg (fun h => hip (Fin.ext (h.1.trans h.2.symm)))]
    exact hL i p hip
  · intro L hL
    rw [ok_bind]
    refine wp_forUp (fun j s => NarrowLuInv A j s.1 s.2) (Nat.zero_le n) ?_ ?_ (fun _ h => h.lu)
    · refine ⟨⟨?_, ?_, ?_, ?_, ?_⟩, ?_⟩
      · intro i p h; exact hL i p (ne_of_lt h)
      · intro p q _; exact lit_zero
      · intro q h; omega
      · intro i q h; omega
      · intro i q h; omega
      · intro i p _ h; exact hL i p h
    · intro j s _ hj hs
      exact wp_lu_step_narrow hG hβ0 hβ A j hj s.1 s.2 hs

end

end MatrixLibs
