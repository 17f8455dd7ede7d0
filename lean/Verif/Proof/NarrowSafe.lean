import Verif.Proof.Narrow
import Verif.Proof.Safety

/-!
# Narrow integers: definedness of determinants, factorisations and inverses
-/

namespace MatrixLibs

set_option linter.unusedSectionVars false

open Promo (load store sqrtTo)
open CScalar (ofInt)

variable {t : Narrow} {G : Prop} {β : ℤ} {n : Nat}

theorem load_eq_zero {x : NInt t} : CScalar.eq (load x) (ofInt 0 : SInt 32) = true ↔ x.val = 0 := by
  show decide (x.val = (ofInt 0 : SInt 32).val) = true ↔ _
  rw [int_ofInt 0 (by norm_num) (by norm_num)]
  exact decide_eq_true_iff

theorem load_ne_zero {x : NInt t} : CScalar.eq (load x) (ofInt 0 : SInt 32) = false ↔ x.val ≠ 0 := by
  rw [← Bool.not_eq_true, load_eq_zero]

theorem Bnd.wp_div {p q : SInt 32} {x a : ℤ} (hp : Bnd G p x a) (hq : q.val ≠ 0) (h : a ≤ 2147483647) :
    wp (CScalar.div p q) (fun r => Bnd G r (x.tdiv q.val) a) (OverflowUnless G) := by
  show wp (if q.val = 0 then .error (.ub .divisionByZero) else SInt.checked (p.val.tdiv q.val)) _ _
  rw [if_neg hq, hp.val]
  refine wp_checked (fun g => ?_) h
  have h1 : (x.tdiv q.val).natAbs ≤ x.natAbs := Int.natAbs_tdiv_le_natAbs _ _
  have h2 := hp.abs_le g
  rw [Int.abs_eq_natAbs] at h2 ⊢
  omega

/-- The values `factor` takes. -/
def IsSign (f : NInt t) : Prop := f.val ≡ 1 [ZMOD 2 ^ t.w] ∨ f.val ≡ -1 [ZMOD 2 ^ t.w]

theorem IsSign.ne_zero {f : NInt t} (hf : IsSign f) : f.val ≠ 0 := by
  intro h0
  have hd : (2 : ℤ) ∣ 2 ^ t.w := dvd_pow_self 2 (by have := t.pos; omega)
  rcases hf with h | h
  · have := h.of_dvd hd
    rw [h0] at this
    exact absurd this (by decide)
  · have := h.of_dvd hd
    rw [h0] at this
    exact absurd this (by decide)

theorem isSign_one : IsSign (Promoted.lit 1 : NInt t) := .inl (lit_modEq 1 (by norm_num) (by norm_num))

section
variable (hG : Guard t G β) (hβ0 : 0 ≤ β) (hβ : β + β * β ≤ 2147483647)
include hG hβ0 hβ

theorem safe_narrow_detProd (A : Mat (NInt t) n n) (f : NInt t) (hf : IsSign f) :
    wp (Promoted.detProd A f) (fun _ => True) (OverflowUnless G) := by
  unfold Promoted.detProd
  rw [wp_bind]
  refine wp_forUp (fun _ _ => True) (Nat.zero_le n) trivial ?_ ?_
  · intro k s _ hk _
    rw [rd_eq hk hk, ok_bind, wp_bind]
    exact wp_mono ((Bnd.load hG s).wp_mul (Bnd.load hG _) (by nlinarith)) (fun _ _ => trivial) (fun _ h => h)
  · intro s _
    rw [wp_bind]
    exact wp_mono ((Bnd.load hG s).wp_div hf.ne_zero (by nlinarith)) (fun _ _ => trivial) (fun _ h => h)

theorem safe_narrow_detEliminate (A : Mat (NInt t) n n) (r p : Fin n) (hp : (A r p).val ≠ 0) :
    wp (Promoted.detEliminate A r p) (fun _ => True) (OverflowUnless G) := by
  unfold Promoted.detEliminate
  refine wp_forUp (fun _ A' => A' r p = A r p) (by omega) rfl ?_ (fun _ _ => trivial)
  intro k A' _ hk hA'
  split
  · next hkr =>
    rw [rd_eq hk p.2, ok_bind]
    refine wp_forUp (fun _ B => B r p = A r p) (by omega) hA' ?_ (fun _ h => h)
    intro l B _ hl hB
    rw [rd_eq r.2 hl, ok_bind, wp_bind]
    refine wp_mono ((Bnd.load hG _).wp_mul (Bnd.load hG _) (by nlinarith)) (fun x hx => ?_) (fun _ h => h)
    rw [rd_eq r.2 p.2, ok_bind, wp_bind]
    refine wp_mono (hx.wp_div ?_ (by nlinarith)) (fun q hq => ?_) (fun _ h => h)
    · show (B r p).val ≠ 0
      rw [hB]; exact hp
    · rw [rd_eq hk hl, ok_bind, wp_bind]
      refine wp_mono ((Bnd.load hG _).wp_sub hq (by nlinarith)) (fun v _ => ?_) (fun _ h => h)
      rw [wr_eq hk hl, wp_ok, Matrix.of_apply, if_neg (by omega)]
      exact hB
  · exact hA'

omit hG hβ0 hβ in
/-- The search ends, at a non-zero element or past the last column. -/
theorem wp_narrow_detSearch (A : Mat (NInt t) n n) (r p0 : Nat) (hr : r < n) (fuel i pivot : Nat)
    (hi : i < n) (hri : r ≤ i) (hp : pivot < n) (hp0 : p0 ≤ pivot)
    (hfuel : (n - pivot - 1) * n + (n - i) ≤ fuel) :
    wp (Promoted.detSearch A r fuel i pivot) (fun x => match x with
      | none => True
      | some (i, p) => ∃ (hi : i < n) (hp : p < n), r ≤ i ∧ p0 ≤ p ∧ (A ⟨i, hi⟩ ⟨p, hp⟩).val ≠ 0)
      (fun _ => False) := by
  induction fuel generalizing i pivot with
  | zero => omega
  | succ fuel ih =>
    unfold Promoted.detSearch
    rw [rd_eq hi hp, ok_bind]
    split
    · next hz =>
      dsimp only
      split
      · next hni =>
        split
        · next hnp => rw [wp_ok]; trivial
        · next hnp =>
          refine ih r (pivot + 1) hr le_rfl (by omega) (by omega) ?_
          obtain ⟨q, hq⟩ : ∃ q, n - (pivot + 1) - 1 = q := ⟨_, rfl⟩
          have hq' : n - pivot - 1 = q + 1 := by omega
          rw [hq', Nat.succ_mul] at hfuel
          rw [hq]
          omega
      · next hni =>
        exact ih (i + 1) pivot (by omega) (by omega) hp hp0 (by omega)
    · next hz =>
      rw [wp_ok]
      refine ⟨hi, hp, hri, hp0, ?_⟩
      intro h
      exact hz (load_eq_zero.mpr h)

theorem safe_narrow_detStep (k : Nat) (hk : k < n) (s : DetState (NInt t) n) (hkp : k ≤ s.pivot)
    (hf : IsSign s.factor) :
    wp (Promoted.detStep k s) (fun x => match x with
      | .cont s' => k + 1 ≤ s'.pivot ∧ IsSign s'.factor
      | .ret _ => True) (OverflowUnless G) := by
  unfold Promoted.detStep
  split
  · rw [wp_bind]
    exact wp_mono (safe_narrow_detProd hG hβ0 hβ _ _ hf) (fun _ _ => trivial) (fun _ h => h)
  · next hnp =>
    have hpn : s.pivot < n := by omega
    rw [wp_bind]
    have hfuel : (n - s.pivot - 1) * n + (n - k) ≤ n * n + 1 := by
      have h1 : (n - s.pivot - 1) * n ≤ (n - 1) * n := Nat.mul_le_mul_right n (by omega)
      have h2 : n * n = (n - 1) * n + n := by
        obtain ⟨m, rfl⟩ : ∃ m, n = m + 1 := ⟨n - 1, by omega⟩
        simp only [Nat.add_sub_cancel]; ring
      omega
    refine wp_mono (wp_narrow_detSearch s.A k s.pivot hk (n * n + 1) k s.pivot hk le_rfl hpn le_rfl hfuel)
      ?_ (fun _ h => h.elim)
    intro res hres
    match res, hres with
    | none, _ =>
      dsimp only
      rw [wp_bind]
      exact wp_mono (safe_narrow_detProd hG hβ0 hβ _ _ hf) (fun _ _ => trivial) (fun _ h => h)
    | some (i, p), ⟨hi, hp, hki, hpp, hnz⟩ =>
      dsimp only
      rw [wp_bind]
      have hsw : wp (Promoted.detSwap s.A s.factor i k) (fun x => IsSign x.2 ∧
          x.1 ⟨k, hk⟩ ⟨p, hp⟩ = s.A ⟨i, hi⟩ ⟨p, hp⟩) (OverflowUnless G) := by
        unfold Promoted.detSwap
        split
        · rw [swap_rows_ok s.A ⟨i, hi⟩ ⟨k, hk⟩, ok_bind, wp_bind]
          have h1 : Bnd G (ofInt (-1) : SInt 32) (-1) 1 :=
            ⟨int_ofInt (-1) (by norm_num) (by norm_num), fun _ => by norm_num⟩
          refine wp_mono ((Bnd.load hG s.factor).wp_mul h1 (by nlinarith)) (fun g hg => ?_) (fun _ h => h)
          rw [wp_ok]
          refine ⟨?_, ?_⟩
          · have h2 := hg.store (t := t)
            rcases hf with h | h
            · exact .inr (h2.trans (by simpa using h.mul_right (-1)))
            · exact .inl (h2.trans (by simpa using h.mul_right (-1)))
          · dsimp only
            rw [Matrix.of_apply, Equiv.swap_apply_right]
        · next hik =>
          have hik' : i = k := not_not.mp hik
          subst hik'
          exact ⟨hf, rfl⟩
      refine wp_mono hsw ?_ (fun _ h => h)
      rintro ⟨B, g⟩ ⟨hg, hB⟩
      dsimp only at hg hB ⊢
      rw [wp_bind]
      refine wp_mono (safe_narrow_detEliminate hG hβ0 hβ B ⟨k, hk⟩ ⟨p, hp⟩ (by rw [hB]; exact hnz)) ?_
        (fun _ h => h)
      intro C _
      rw [wp_pure]
      exact ⟨by dsimp only; omega, hg⟩

theorem safe_narrow_detN (A : Mat (NInt t) n n) : wp (Promoted.detN A) (fun _ => True) (OverflowUnless G) := by
  unfold Promoted.detN
  rw [wp_bind]
  refine wp_forRet (fun k s => k ≤ s.pivot ∧ IsSign s.factor) (fun _ => True) (Nat.zero_le n)
    ⟨le_rfl, isSign_one⟩ ?_ ?_ ?_
  · intro k s _ hk hs
    refine wp_mono (safe_narrow_detStep hG hβ0 hβ k hk s hs.1 hs.2) ?_ (fun _ h => h)
    intro x hx
    cases x <;> exact hx
  · intro s hs
    exact safe_narrow_detProd hG hβ0 hβ _ _ hs.2
  · intro v _
    exact trivial

end

end MatrixLibs
