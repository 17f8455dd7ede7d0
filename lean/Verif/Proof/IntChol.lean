import Verif.Proof.Chol
import Verif.Proof.IntLu
import Verif.Proof.IntSqrt
import Verif.Props.FloatFactor

/-!
# Cholesky factorisation of signed integer matrices
-/

namespace MatrixLibs

set_option linter.unusedSectionVars false

open CScalar (ofInt)

theorem Fl.sqrt_ofInt_neg {F : Fmt} {k : Int} (hk : k < 0) : (Fl.ofInt k : Fl F).sqrt = .nan := by
  have hr := Fl.ofInt_rounded (F := F) k
  obtain ⟨y, ey⟩ : ∃ y, (Fl.ofInt k : Fl F) = y := ⟨_, rfl⟩
  rw [ey] at hr ⊢
  have hkR : (k : ℝ) < 0 := by exact_mod_cast hk
  have hkR1 : (k : ℝ) ≤ -1 := by exact_mod_cast (by omega : k ≤ -1)
  have hu := Fl.unit_posR F
  obtain ⟨N, hN, ⟨-, s, h, e, hs⟩ | ⟨-, s, e, hs⟩⟩ := hr
  · have hst : s = true := (hs hkR.ne).mpr hkR
    have hN0 : N ≠ 0 := by
      rintro rfl
      have hg : F.Grid (1 * F.unit) := by
        refine Fl.grid_mul ?_
        exact Nat.one_le_two_pow
      have h1 := hN.nearest _ hg
      rw [abs_of_neg hkR, one_mul, Nat.cast_zero, zero_sub, abs_neg,
        abs_of_nonneg (by nlinarith), abs_of_nonpos (by nlinarith)] at h1
      nlinarith
    rw [e, hst]
    simp [Fl.sqrt, hN0]
  · rw [e, hs.mpr hkR]
    rfl

theorem sqrtTrunc_neg {k : Int} (hk : k < 0) : sqrtTrunc k = none := by
  unfold sqrtTrunc
  rw [Fl.sqrt_ofInt_neg hk]

section
variable {w n : Nat}

theorem wp_sqrt_signed (x : SInt w) (hx : x.val < 2 ^ 52) :
    wp (CScalar.sqrt x) (fun v => 0 ≤ v.val ∧ v.val ^ 2 ≤ x.val ∧ x.val < (v.val + 1) ^ 2)
      (fun e => e = .ub .domain ∧ x.val < 0) := by
  show wp (SInt.ofTrunc (sqrtTrunc x.val)) _ _
  by_cases h0 : x.val < 0
  · rw [sqrtTrunc_neg h0]
    exact ⟨rfl, h0⟩
  · obtain ⟨k, hk⟩ := Int.eq_ofNat_of_zero_le (not_lt.mp h0)
    rw [hk]
    have hk' : k < 2 ^ 52 := by
      have : (k : Int) < 2 ^ 52 := hk ▸ hx
      exact_mod_cast this
    rw [sqrtTrunc_eq hk']
    have hr : InRange w (k.sqrt : Int) := by
      have h1 := x.inRange
      have h2 : (k.sqrt : Int) ≤ k := by exact_mod_cast Nat.sqrt_le_self k
      unfold InRange at h1 ⊢
      rw [hk] at h1
      have : (0 : Int) ≤ k.sqrt := Int.natCast_nonneg _
      omega
    show wp (if h : InRange w (k.sqrt : Int) then _ else _) _ _
    rw [dif_pos hr, wp_ok]
    refine ⟨Int.natCast_nonneg _, ?_, ?_⟩
    · show ((k.sqrt : Nat) : Int) ^ 2 ≤ k
      exact_mod_cast Nat.sqrt_le' k
    · show (k : Int) < ((k.sqrt : Nat) + 1) ^ 2
      exact_mod_cast Nat.lt_succ_sqrt' k

theorem wp_cholSum_signed (hw : 2 ≤ w) (L : Mat (SInt w) n n) (i j : Fin n) :
    wp (cholSum L i j) (fun v => v.val = ∑ k, if k < i then (L i k).val * (L j k).val else 0)
      (fun e => e = .ub .signedOverflow) := by
  unfold cholSum
  refine wp_mono (wp_sum_loop (V := SInt.val)
    (fun p : Fin i.val => (L i ⟨p.val, lt_trans p.2 i.2⟩).val *
      (L j ⟨p.val, lt_trans p.2 i.2⟩).val) ?_) ?_ (fun _ h => h)
  · intro k hk s
    rw [rd_eq i.2 (lt_trans hk i.2), ok_bind, rd_eq j.2 (lt_trans hk i.2), ok_bind, wp_bind]
    refine wp_mono ((RingSem.signed w hw).mul _ _) ?_ (fun _ h => h)
    intro c hc
    refine wp_mono ((RingSem.signed w hw).add _ _) ?_ (fun _ h => h)
    intro v hv
    have hv' : v.val = s.val + c.val := hv
    rw [hv']
    exact congrArg (s.val + ·) hc
  · intro v hv
    have h0 : (ofInt 0 : SInt w).val = 0 := (RingSem.signed w hw).ofInt 0 (by norm_num) (by norm_num)
    rw [hv, h0, zero_add, sum_cutZ (i := i) (fun p => (L i p).val * (L j p).val)]

/-- Invariant of `chol` before the inner loop reaches `(i, j)`. -/
structure IntCholInv (A : Mat (SInt w) n n) (i j : Nat) (L : Mat (SInt w) n n) : Prop where
  zero : ∀ a b, ¬ Written i j a b → (L a b).val = 0
  cell : ∀ a b, Written i j a b → TruncCholCell (A.map SInt.val) (L.map SInt.val) a b

/-- How `chol` of an integer matrix stops. -/
def IntCholStop (A : Mat (SInt w) n n) (e : Stop) : Prop :=
  e = .ub .signedOverflow ∨ ∃ (L : Matrix (Fin n) (Fin n) ℤ) (i j : Fin n), j ≤ i ∧
    (∀ a b, b ≤ a → (a < i ∨ a = i ∧ b < j) → TruncCholCell (A.map SInt.val) L a b) ∧
    (e = .ub .domain ∧ j = i ∧ (A i i).val < ∑ p, (if p < i then L i p * L i p else 0) ∨
      e = .ub .divisionByZero ∧ j < i ∧ L j j = 0)

/-- A cell does not depend on the cells after it. -/
theorem TruncCholCell.congr {A L L' : Matrix (Fin n) (Fin n) ℤ} {a b : Fin n} (hba : b ≤ a)
    (ha : ∀ p, p ≤ b → L' a p = L a p) (hb : ∀ p, p ≤ b → L' b p = L b p)
    (h : TruncCholCell A L a b) : TruncCholCell A L' a b := by
  have hs : (∑ p, if p < b then L' a p * L' b p else 0) = ∑ p, if p < b then L a p * L b p else 0 := by
    refine Finset.sum_congr rfl (fun p _ => ?_)
    split
    · next hp => rw [ha p hp.le, hb p hp.le]
    · rfl
  refine ⟨fun h1 => ?_, fun h1 => ?_⟩
  · subst h1
    rw [hs, ha b le_rfl]
    exact h.1 rfl
  · rw [hs, ha b le_rfl, hb b le_rfl]
    exact h.2 h1

theorem intChol_update (A L : Mat (SInt w) n n) (i j : Fin n) (hji : j ≤ i) (v : SInt w)
    (h : IntCholInv A i j L)
    (hv : ∀ L' : Matrix (Fin n) (Fin n) ℤ, L' i j = v.val →
      (∀ a b, ¬ (a = i ∧ b = j) → L' a b = (L a b).val) → TruncCholCell (A.map SInt.val) L' i j) :
    IntCholInv A i (j.val + 1)
      (.of fun a b => if a.val = i.val ∧ b.val = j.val then v else L a b) := by
  have hnew : ∀ a b : Fin n, ¬ (a = i ∧ b = j) →
      (Matrix.of fun a b : Fin n => if a.val = i.val ∧ b.val = j.val then v else L a b) a b =
      L a b := by
    intro a b hab
    rw [Matrix.of_apply, if_neg (fun h => hab ⟨Fin.ext h.1, Fin.ext h.2⟩)]
  have hij : (Matrix.of fun a b : Fin n => if a.val = i.val ∧ b.val = j.val then v else L a b) i j =
      v := by
    rw [Matrix.of_apply, if_pos ⟨rfl, rfl⟩]
  generalize (Matrix.of fun a b : Fin n => if a.val = i.val ∧ b.val = j.val then v else L a b) = L'
    at hnew hij
  refine ⟨?_, ?_⟩
  · intro a b hab
    rw [hnew a b]
    · refine h.zero a b (fun h' => hab ⟨h'.1, ?_⟩)
      rcases h'.2 with h2 | h2
      · exact Or.inl h2
      · exact Or.inr ⟨h2.1, by omega⟩
    · rintro ⟨rfl, rfl⟩
      exact hab ⟨hji, Or.inr ⟨rfl, by omega⟩⟩
  · intro a b hab
    by_cases hc : a = i ∧ b = j
    · obtain ⟨rfl, rfl⟩ := hc
      refine hv _ ?_ ?_
      · show (L' a b).val = _
        rw [hij]
      · intro a' b' h'
        show (L' a' b').val = _
        rw [hnew a' b' h']
    · have hW : Written i j a b := by
        obtain ⟨h1, h2⟩ := hab
        refine ⟨h1, ?_⟩
        rcases h2 with h2 | h2
        · exact Or.inl h2
        · right
          refine ⟨h2.1, ?_⟩
          have : b.val ≠ j.val := fun hb => hc ⟨Fin.ext h2.1, Fin.ext hb⟩
          omega
      have hlt : ∀ p : Fin n, p ≤ b → ¬ (a = i ∧ p = j) := by
        rintro p hp ⟨rfl, rfl⟩
        rcases hW.2 with h2 | h2
        · exact lt_irrefl _ h2
        · exact absurd hp (not_le.mpr h2.2)
      have hlt' : ∀ p : Fin n, p ≤ b → ¬ (b = i ∧ p = j) := by
        rintro p hp ⟨rfl, rfl⟩
        rcases hW.2 with h2 | h2
        · exact absurd hW.1 (not_le.mpr h2)
        · exact absurd hp (not_le.mpr h2.2)
      refine (h.cell a b hW).congr hW.1 (fun p hp => ?_) (fun p hp => ?_)
      · show (L' a p).val = (L a p).val
        rw [hnew a p (hlt p hp)]
      · show (L' b p).val = (L b p).val
        rw [hnew b p (hlt' p hp)]

/-- Before `(i, j)` is written the terms after `j` vanish. -/
theorem intChol_sum (A L : Mat (SInt w) n n) (i j : Fin n) (hji : j ≤ i) (h : IntCholInv A i j L) :
    (∑ k, if k < i then (L i k).val * (L j k).val else 0) =
      ∑ k, if k < j then (L i k).val * (L j k).val else 0 := by
  refine Finset.sum_congr rfl (fun k _ => ?_)
  by_cases hk : k < j
  · rw [if_pos hk, if_pos (lt_of_lt_of_le hk hji)]
  · rw [if_neg hk, h.zero i k, zero_mul]
    · split <;> rfl
    · rintro ⟨-, h1 | h1⟩
      · exact lt_irrefl _ h1
      · exact hk h1.2

theorem wp_cholStep_signed (hw : 2 ≤ w) (A L : Mat (SInt w) n n) (hA : ∀ i, (A i i).val < 2 ^ 52)
    (i j : Fin n) (hji : j ≤ i) (h : IntCholInv A i j L) :
    wp (cholStep A i j L) (IntCholInv A i (j.val + 1)) (IntCholStop A) := by
  have hcells : ∀ a b : Fin n, b ≤ a → (a < i ∨ a = i ∧ b < j) →
      TruncCholCell (A.map SInt.val) (L.map SInt.val) a b := by
    intro a b hba hab
    refine h.cell a b ⟨hba, ?_⟩
    rcases hab with hab | hab
    · exact Or.inl hab
    · exact Or.inr ⟨congrArg Fin.val hab.1, hab.2⟩
  unfold cholStep
  split
  · next hij =>
    have hij' : j = i := Fin.ext hij
    subst hij'
    rw [wp_bind]
    refine wp_mono (wp_cholSum_signed hw L j j) ?_ (fun _ h => Or.inl h)
    intro s hs
    rw [rd_eq j.2 j.2, ok_bind, wp_bind]
    refine wp_mono ((RingSem.signed w hw).sub _ _) ?_ (fun _ h => Or.inl h)
    intro x hx
    have hx' : x.val = (A j j).val - ∑ k, if k < j then (L j k).val * (L j k).val else 0 := by
      rw [← hs]; exact hx
    have hnn : 0 ≤ ∑ k, if k < j then (L j k).val * (L j k).val else 0 :=
      Finset.sum_nonneg (fun k _ => by split; exacts [mul_self_nonneg _, le_rfl])
    rw [wp_bind]
    refine wp_mono (wp_sqrt_signed x (by have := hA j; omega)) ?_ ?_
    · rintro v ⟨h0, h1, h2⟩
      rw [wr_eq j.2 j.2, wp_ok]
      refine intChol_update A L j j le_rfl v h ?_
      intro L' hv hL'
      have hsum : (∑ p, if p < j then L' j p * L' j p else 0) =
          ∑ k, if k < j then (L j k).val * (L j k).val else 0 := by
        refine Finset.sum_congr rfl (fun p _ => ?_)
        split
        · next hp => rw [hL' j p (fun h => absurd h.2 (ne_of_lt hp))]
        · rfl
      refine ⟨fun _ => ?_, fun h => absurd h (lt_irrefl _)⟩
      rw [hsum, hv, Matrix.map_apply, ← hx']
      exact ⟨h0, h1, h2⟩
    · rintro e ⟨he, hneg⟩
      refine Or.inr ⟨L.map SInt.val, j, j, le_rfl, hcells, Or.inl ⟨he, rfl, ?_⟩⟩
      rw [hx'] at hneg
      exact sub_neg.mp hneg
  · next hij =>
    have hij' : j ≠ i := fun h => hij (congrArg Fin.val h)
    have hlt : j < i := lt_of_le_of_ne hji hij'
    rw [wp_bind]
    refine wp_mono (wp_cholSum_signed hw L i j) ?_ (fun _ h => Or.inl h)
    intro s hs
    rw [intChol_sum A L i j hji h] at hs
    rw [rd_eq i.2 j.2, ok_bind, wp_bind]
    refine wp_mono ((RingSem.signed w hw).sub _ _) ?_ (fun _ h => Or.inl h)
    intro x hx
    have hx' : x.val = (A i j).val - ∑ k, if k < j then (L i k).val * (L j k).val else 0 := by
      rw [← hs]; exact hx
    rw [rd_eq j.2 j.2, ok_bind, wp_bind]
    show wp (if (L j j).val = 0 then _ else SInt.checked (x.val.tdiv (L j j).val)) _ _
    by_cases hz : (L j j).val = 0
    · rw [if_pos hz]
      exact Or.inr ⟨L.map SInt.val, i, j, hji, hcells, Or.inr ⟨rfl, hlt, hz⟩⟩
    · rw [if_neg hz]
      refine wp_mono (checked_wp w _) ?_ (fun _ h => Or.inl h)
      intro v hv
      rw [wr_eq i.2 j.2, wp_ok]
      refine intChol_update A L i j hji v h ?_
      intro L' hv' hL'
      have hjj : L' j j = (L j j).val := hL' j j (fun h => hij' h.1)
      have hsum : (∑ p, if p < j then L' i p * L' j p else 0) =
          ∑ k, if k < j then (L i k).val * (L j k).val else 0 := by
        refine Finset.sum_congr rfl (fun p _ => ?_)
        split
        · next hp =>
          rw [hL' i p (fun h => absurd h.2 (ne_of_lt hp)), hL' j p (fun h => hij' h.1)]
        · rfl
      refine ⟨fun h => absurd h hij', fun _ => ⟨hjj ▸ hz, ?_⟩⟩
      rw [hsum, hv', hjj, Matrix.map_apply, hv, hx']

theorem IntCholInv.row {A L : Mat (SInt w) n n} {i : Nat} (h : IntCholInv A i (i + 1) L) :
    IntCholInv A (i + 1) 0 L := by
  have hW : ∀ a b : Fin n, Written (i + 1) 0 a b ↔ Written i (i + 1) a b := by
    intro a b
    unfold Written
    rw [Fin.le_def]
    constructor
    · rintro ⟨h1, h2⟩
      exact ⟨h1, by omega⟩
    · rintro ⟨h1, h2⟩
      exact ⟨h1, by omega⟩
  exact ⟨fun a b hab => h.zero a b (fun h' => hab ((hW a b).mpr h')),
    fun a b hab => h.cell a b ((hW a b).mp hab)⟩

theorem wp_chol_signed (hw : 2 ≤ w) (A : Mat (SInt w) n n) (hA : ∀ i, (A i i).val < 2 ^ 52) :
    wp (chol A) (fun L => IsTruncChol (A.map SInt.val) (L.map SInt.val)) (IntCholStop A) := by
  unfold chol
  refine wp_forUp (fun i L => IntCholInv A i 0 L) (Nat.zero_le n) ?_ ?_ ?_
  · have hno : ∀ a b : Fin n, ¬ Written 0 0 a b := by
      rintro a b ⟨-, h⟩
      omega
    refine ⟨fun a b _ => ?_, fun a b h => absurd h (hno a b)⟩
    exact (RingSem.signed w hw).ofInt 0 (by norm_num) (by norm_num)
  · intro i L _ hi h
    refine wp_forUp (fun j L => IntCholInv A i j L) (Nat.zero_le _) h ?_ (fun _ h => h.row)
    intro j L _ hj h
    exact wp_cholStep_signed hw A L hA ⟨i, hi⟩ ⟨j, by omega⟩ (by rw [Fin.le_def]; dsimp only; omega) h
  · intro L h
    exact ⟨fun a b hab => h.zero a b (fun h' => absurd h'.1 (not_le.mpr hab)),
      fun a b hba => h.cell a b ⟨hba, Or.inl a.2⟩⟩

end
end MatrixLibs
