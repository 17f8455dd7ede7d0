import Verif.Proof.NarrowLu
import Verif.Proof.IntChol

/-!
# Narrow integers: Cholesky factorisation
-/

namespace MatrixLibs

set_option linter.unusedSectionVars false

open Promo (load store sqrtTo)
open CScalar (ofInt)

variable {t : Narrow} {G : Prop} {β : ℤ} {n : Nat}

theorem Narrow.max_sub_min (t : Narrow) : t.max - t.min = 2 ^ t.w - 1 := by
  unfold Narrow.max Narrow.min
  have h : (2 : ℤ) ^ t.w = 2 * 2 ^ (t.w - 1) := by
    rw [← pow_succ']
    congr 1
    have := t.pos
    omega
  split <;> omega

/-- Below `2^w`, integer square roots are values of the type. -/
theorem Narrow.has_sqrt (t : Narrow) (h2 : 2 ≤ t.w) {k : ℕ} (hk : (k : ℤ) < 2 ^ t.w) : t.Has (k.sqrt : ℤ) := by
  have h0 : (0 : ℤ) ≤ k.sqrt := Int.natCast_nonneg _
  have h1 : (k.sqrt : ℤ) ^ 2 ≤ k := by exact_mod_cast Nat.sqrt_le' k
  have hp : (2 : ℤ) ^ t.w = 2 * 2 ^ (t.w - 1) := by
    rw [← pow_succ']
    congr 1
    omega
  have hq : (2 : ℤ) ≤ 2 ^ (t.w - 1) := by
    calc (2 : ℤ) = 2 ^ 1 := (pow_one 2).symm
      _ ≤ 2 ^ (t.w - 1) := pow_le_pow_right₀ (by norm_num) (by omega)
  have hs : (k.sqrt : ℤ) < 2 ^ (t.w - 1) := by
    by_contra hc
    have := not_lt.mp hc
    nlinarith
  unfold Narrow.Has Narrow.min Narrow.max
  split <;> omega

theorem wp_sqrtTo (h2 : 2 ≤ t.w) {x : SInt 32} (hx : x.val < 2 ^ t.w) :
    wp (sqrtTo x : Res (NInt t)) (fun v => 0 ≤ v.val ∧ v.val ^ 2 ≤ x.val ∧ x.val < (v.val + 1) ^ 2)
      (fun e => e = .ub .domain ∧ x.val < 0) := by
  show wp (match sqrtTrunc x.val with
    | some k => if h : t.Has k then .ok ⟨k, h⟩ else .error (.ub .domain)
    | none => .error (.ub .domain) : Res (NInt t)) _ _
  by_cases h0 : x.val < 0
  · rw [sqrtTrunc_neg h0]
    exact ⟨rfl, h0⟩
  · obtain ⟨k, hk⟩ := Int.eq_ofNat_of_zero_le (not_lt.mp h0)
    rw [hk]
    rw [hk] at hx
    have hk' : k < 2 ^ 52 := by
      have h3 : (2 : ℤ) ^ t.w ≤ 2 ^ 52 := pow_le_pow_right₀ (by norm_num) (by have := t.le; omega)
      exact_mod_cast hx.trans_le h3
    rw [sqrtTrunc_eq hk']
    dsimp only
    rw [dif_pos (t.has_sqrt h2 hx), wp_ok]
    refine ⟨Int.natCast_nonneg _, ?_, ?_⟩
    · show ((k.sqrt : Nat) : Int) ^ 2 ≤ k
      exact_mod_cast Nat.sqrt_le' k
    · show (k : Int) < ((k.sqrt : Nat) + 1) ^ 2
      exact_mod_cast Nat.lt_succ_sqrt' k

/-- Invariant of `chol` before the inner loop reaches `(i, j)`. -/
structure NarrowCholInv (A : Mat (NInt t) n n) (i j : Nat) (L : Mat (NInt t) n n) : Prop where
  zero : ∀ a b, ¬ Written i j a b → (L a b).val = 0
  cell : ∀ a b, Written i j a b → WrapCholCell t (ints A) (ints L) a b

/-- How `chol` of a matrix of narrow integers stops. -/
def NarrowCholStop (G : Prop) (A : Mat (NInt t) n n) (e : Stop) : Prop :=
  OverflowUnless G e ∨ ∃ (L : Matrix (Fin n) (Fin n) ℤ) (i j : Fin n), j ≤ i ∧
    (∀ a b, b ≤ a → (a < i ∨ a = i ∧ b < j) → WrapCholCell t (ints A) L a b) ∧
    (e = .ub .domain ∧ j = i ∧ ints A i i < t.conv (∑ p, if p < i then L i p * L i p else 0) ∨
      e = .ub .divisionByZero ∧ j < i ∧ L j j = 0)

/-- A cell does not depend on the cells after it. -/
theorem WrapCholCell.congr {A L L' : Matrix (Fin n) (Fin n) ℤ} {a b : Fin n}
    (ha : ∀ p, p ≤ b → L' a p = L a p) (hb : ∀ p, p ≤ b → L' b p = L b p)
    (h : WrapCholCell t A L a b) : WrapCholCell t A L' a b := by
  have hs : (∑ p, if p < b then L' a p * L' b p else 0) = ∑ p, if p < b then L a p * L b p else 0 := by
    refine Finset.sum_congr rfl (fun p _ => ?_)
    split
    · next hp => rw [ha p hp.le, hb p hp.le]
    · rfl
  refine ⟨fun h1 => ?_, fun h1 => ?_⟩
  · subst h1
    rw [hs, ha b le_rfl]
    exact h.1 rfl
  · rw [hs, ha b le_rfl, hb b le_rfl]
    exact h.2 h1

theorem narrowChol_update (A L : Mat (NInt t) n n) (i j : Fin n) (hji : j ≤ i) (v : NInt t)
    (h : NarrowCholInv A i j L)
    (hv : ∀ L' : Matrix (Fin n) (Fin n) ℤ, L' i j = v.val →
      (∀ a b, ¬ (a = i ∧ b = j) → L' a b = (L a b).val) → WrapCholCell t (ints A) L' i j) :
    NarrowCholInv A i (j.val + 1)
      (.of fun a b => if a.val = i.val ∧ b.val = j.val then v else L a b) := by
  have hnew : ∀ a b : Fin n, ¬ (a = i ∧ b = j) →
      (Matrix.of fun a b : Fin n => if a.val = i.val ∧ b.val = j.val then v else L a b) a b =
      L a b := by
    intro a b hab
    rw [Matrix.of_apply, if_neg (fun h => hab ⟨Fin.ext h.1, Fin.ext h.2⟩)]
  have hij : (Matrix.of fun a b : Fin n => if a.val = i.val ∧ b.val = j.val then v else L a b) i j =
      v := by
    rw [Matrix.of_apply, if_pos ⟨rfl, rfl⟩]
  generalize (Matrix.of fun a b : Fin n => if a.val = i.val ∧ b.val = j.val then v else L a b) = L'
    at hnew hij
  refine ⟨?_, ?_⟩
  · intro a b hab
    rw [hnew a b]
    · refine h.zero a b (fun h' => hab ⟨h'.1, ?_⟩)
      rcases h'.2 with h2 | h2
      · exact Or.inl h2
      · exact Or.inr ⟨h2.1, by omega⟩
    · rintro ⟨rfl, rfl⟩
      exact hab ⟨hji, Or.inr ⟨rfl, by omega⟩⟩
  · intro a b hab
    by_cases hc : a = i ∧ b = j
    · obtain ⟨rfl, rfl⟩ := hc
      refine hv _ ?_ ?_
      · show (L' a b).val = _
        rw [hij]
      · intro a' b' h'
        show (L' a' b').val = _
        rw [hnew a' b' h']
    · have hW : Written i j a b := by
        obtain ⟨h1, h2⟩ := hab
        refine ⟨h1, ?_⟩
        rcases h2 with h2 | h2
        · exact Or.inl h2
        · right
          refine ⟨h2.1, ?_⟩
          have : b.val ≠ j.val := fun hb => hc ⟨Fin.ext h2.1, Fin.ext hb⟩
          omega
      have hlt : ∀ p : Fin n, p ≤ b → ¬ (a = i ∧ p = j) := by
        rintro p hp ⟨rfl, rfl⟩
        rcases hW.2 with h2 | h2
        · exact lt_irrefl _ h2
        · exact absurd hp (not_le.mpr h2.2)
      have hlt' : ∀ p : Fin n, p ≤ b → ¬ (b = i ∧ p = j) := by
        rintro p hp ⟨rfl, rfl⟩
        rcases hW.2 with h2 | h2
        · exact absurd hW.1 (not_le.mpr h2)
        · exact absurd hp (not_le.mpr h2.2)
      refine (h.cell a b hW).congr (fun p hp => ?_) (fun p hp => ?_)
      · show (L' a p).val = (L a p).val
        rw [hnew a p (hlt p hp)]
      · show (L' b p).val = (L b p).val
        rw [hnew b p (hlt' p hp)]

/-- Before `(i, j)` is written the terms after `j` vanish. -/
theorem narrowChol_sum (A L : Mat (NInt t) n n) (i j : Fin n) (hji : j ≤ i) (h : NarrowCholInv A i j L) :
    (∑ k, if k < i then (L i k).val * (L j k).val else 0) =
      ∑ k, if k < j then (L i k).val * (L j k).val else 0 := by
  refine Finset.sum_congr rfl (fun k _ => ?_)
  by_cases hk : k < j
  · rw [if_pos hk, if_pos (lt_of_lt_of_le hk hji)]
  · rw [if_neg hk, h.zero i k, zero_mul]
    · split <;> rfl
    · rintro ⟨-, h1 | h1⟩
      · exact lt_irrefl _ h1
      · exact hk h1.2

theorem NarrowCholInv.row {A L : Mat (NInt t) n n} {i : Nat} (h : NarrowCholInv A i (i + 1) L) :
    NarrowCholInv A (i + 1) 0 L := by
  have hW : ∀ a b : Fin n, Written (i + 1) 0 a b ↔ Written i (i + 1) a b := by
    intro a b
    unfold Written
    rw [Fin.le_def]
    constructor
    · rintro ⟨h1, h2⟩
      exact ⟨h1, by omega⟩
    · rintro ⟨h1, h2⟩
      exact ⟨h1, by omega⟩
  exact ⟨fun a b hab => h.zero a b (fun h' => hab ((hW a b).mpr h')),
    fun a b hab => h.cell a b ((hW a b).mp hab)⟩

section
variable (hG : Guard t G β) (hβ0 : 0 ≤ β) (hβ : β + β * β ≤ 2147483647)
include hG hβ0 hβ

theorem wp_cholSum_narrow (L : Mat (NInt t) n n) (i j : Fin n) :
    wp (Promoted.cholSum L i j)
      (fun v => v.val = t.conv (∑ k, if k < i then (L i k).val * (L j k).val else 0)) (OverflowUnless G) := by
  refine wp_mono (wp_narrow_sum hG hβ0 hβ (fun p => rd L i p) (fun p => rd L j p)
    (fun p : Fin i.val => L i ⟨p.val, lt_trans p.2 i.2⟩) (fun p => L j ⟨p.val, lt_trans p.2 i.2⟩)
    (fun k hk => rd_eq i.2 (lt_trans hk i.2)) (fun k hk => rd_eq j.2 (lt_trans hk i.2))) ?_ (fun _ h => h)
  intro v hv
  rw [hv, sum_cutZ (i := i) (fun p => (L i p).val * (L j p).val)]

theorem wp_cholStep_narrow (h2 : 2 ≤ t.w) (A L : Mat (NInt t) n n) (i j : Fin n) (hji : j ≤ i)
    (h : NarrowCholInv A i j L) :
    wp (Promoted.cholStep A i j L) (NarrowCholInv A i (j.val + 1)) (NarrowCholStop G A) := by
  have hcells : ∀ a b : Fin n, b ≤ a → (a < i ∨ a = i ∧ b < j) →
      WrapCholCell t (ints A) (ints L) a b := by
    intro a b hba hab
    refine h.cell a b ⟨hba, ?_⟩
    rcases hab with hab | hab
    · exact Or.inl hab
    · exact Or.inr ⟨congrArg Fin.val hab.1, hab.2⟩
  unfold Promoted.cholStep
  split
  · next hij =>
    have hij' : j = i := Fin.ext hij
    subst hij'
    rw [wp_bind]
    refine wp_mono (wp_cholSum_narrow hG hβ0 hβ L j j) ?_ (fun _ h => Or.inl h)
    intro s hs
    rw [rd_eq j.2 j.2, ok_bind, wp_bind]
    refine wp_mono ((Bnd.load hG _).wp_sub (Bnd.load hG s) (by nlinarith)) ?_ (fun _ h => Or.inl h)
    intro x hx
    have hx' := hx.val
    rw [hs] at hx'
    have hlt : x.val < 2 ^ t.w := by
      have h3 := t.max_sub_min
      have h4 := (A j j).has.2
      have h5 := s.has.1
      have h6 : x.val = (A j j).val - s.val := hx.val
      omega
    rw [wp_bind]
    refine wp_mono (wp_sqrtTo h2 hlt) ?_ ?_
    · rintro v ⟨h0, h1, h2⟩
      rw [wr_eq j.2 j.2, wp_ok]
      refine narrowChol_update A L j j le_rfl v h ?_
      intro L' hv hL'
      have hsum : (∑ p, if p < j then L' j p * L' j p else 0) =
          ∑ k, if k < j then (L j k).val * (L j k).val else 0 := by
        refine Finset.sum_congr rfl (fun p _ => ?_)
        split
        · next hp => rw [hL' j p (fun h => absurd h.2 (ne_of_lt hp))]
        · rfl
      refine ⟨fun _ => ?_, fun h => absurd h (lt_irrefl _)⟩
      rw [hsum, hv, show ints A j j = (A j j).val from rfl, ← hx']
      exact ⟨h0, h1, h2⟩
    · rintro e ⟨he, hneg⟩
      refine Or.inr ⟨ints L, j, j, le_rfl, hcells, Or.inl ⟨he, rfl, ?_⟩⟩
      rw [hx'] at hneg
      exact sub_neg.mp hneg
  · next hij =>
    have hij' : j ≠ i := fun h => hij (congrArg Fin.val h)
    have hlt : j < i := lt_of_le_of_ne hji hij'
    rw [wp_bind]
    refine wp_mono (wp_cholSum_narrow hG hβ0 hβ L i j) ?_ (fun _ h => Or.inl h)
    intro s hs
    rw [narrowChol_sum A L i j hji h] at hs
    rw [rd_eq i.2 j.2, ok_bind, wp_bind]
    refine wp_mono ((Bnd.load hG _).wp_sub (Bnd.load hG s) (by nlinarith)) ?_ (fun _ h => Or.inl h)
    intro x hx
    rw [rd_eq j.2 j.2, ok_bind, wp_bind]
    by_cases hz : (L j j).val = 0
    · show wp (if (L j j).val = 0 then _ else _) _ _
      rw [if_pos hz]
      exact Or.inr ⟨ints L, i, j, hji, hcells, Or.inr ⟨rfl, hlt, hz⟩⟩
    · refine wp_mono (hx.wp_div (q := load (L j j)) hz (by nlinarith)) ?_ (fun _ h => Or.inl h)
      intro q hq
      have hv := hq.store_eq (t := t)
      generalize (store q : NInt t) = v at hv
      rw [hs, load_val] at hv
      rw [wr_eq i.2 j.2, wp_ok]
      refine narrowChol_update A L i j hji v h ?_
      intro L' hv' hL'
      have hjj : L' j j = (L j j).val := hL' j j (fun h => hij' h.1)
      have hsum : (∑ p, if p < j then L' i p * L' j p else 0) =
          ∑ k, if k < j then (L i k).val * (L j k).val else 0 := by
        refine Finset.sum_congr rfl (fun p _ => ?_)
        split
        · next hp =>
          rw [hL' i p (fun h => absurd h.2 (ne_of_lt hp)), hL' j p (fun h => hij' h.1)]
        · rfl
      refine ⟨fun h => absurd h hij', fun _ => ⟨hjj ▸ hz, ?_⟩⟩
      rw [hsum, hv', hjj, hv]
      rfl

theorem wp_chol_narrow (h2 : 2 ≤ t.w) (A : Mat (NInt t) n n) :
    wp (Promoted.chol A) (fun L => IsWrapChol t (ints A) (ints L)) (NarrowCholStop G A) := by
  unfold Promoted.chol
  refine wp_forUp (fun i L => NarrowCholInv A i 0 L) (Nat.zero_le n) ?_ ?_ ?_
  · have hno : ∀ a b : Fin n, ¬ Written 0 0 a b := by
      rintro a b ⟨-, h⟩
      omega
    exact ⟨fun a b _ => lit_zero, fun a b h => absurd h (hno a b)⟩
  · intro i L _ hi h
    refine wp_forUp (fun j L => NarrowCholInv A i j L) (Nat.zero_le _) h ?_ (fun _ h => h.row)
    intro j L _ hj h
    exact wp_cholStep_narrow hG hβ0 hβ h2 A L ⟨i, hi⟩ ⟨j, by omega⟩ (by rw [Fin.le_def]; dsimp only; omega) h
  · intro L h
    exact ⟨fun a b hab => h.zero a b (fun h' => absurd h'.1 (not_le.mpr hab)),
      fun a b hba => h.cell a b ⟨hba, Or.inl a.2⟩⟩

end

end MatrixLibs
