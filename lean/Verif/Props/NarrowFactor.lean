import Verif.Props.NarrowDet
import Verif.Proof.NarrowLu
import Verif.Proof.NarrowChol
import Verif.Props.IntChol

/-!
# Narrow integers: general determinants, inverses and factorisations
-/

namespace MatrixLibs

set_option linter.unusedSectionVars false

open Promo (load store sqrtTo)
open CScalar (ofInt)

variable {t : Narrow} {G : Prop} {β : ℤ} {n : Nat}

/-! ## C96: determinants and inverses -/

/-- C96: with 8-bit elements `det` returns, whatever the matrix and its size. -/
theorem C96_det8 (h8 : t.Is8) (A : Mat (NInt t) n n) : ∃ d, Promoted.det A = .ok d := by
  have hN : ∃ d, Promoted.detN A = .ok d := by
    have := wp_total (wp_always (safe_narrow_detN (fun _ => guard8 t h8) (by norm_num) (by norm_num) A))
    exact this.imp fun d hd => hd.1
  match n, A, hN with
  | 0, _, h => exact h
  | 1, A, _ => exact ⟨_, C91_det1 A⟩
  | 2, A, _ => exact (C91_det2 (.inr h8) A).imp fun _ h => h.1
  | 3, A, _ => exact (C91_det3 h8 A).imp fun _ h => h.1
  | n + 4, _, h => exact h

/-- C96: with signed 16-bit elements too, except for 3x3 matrices. -/
theorem C96_det16 (ht : t.signed = true) (hn : n ≠ 3) (A : Mat (NInt t) n n) : ∃ d, Promoted.det A = .ok d := by
  have hN : ∃ d, Promoted.detN A = .ok d := by
    have := wp_total (wp_always (safe_narrow_detN (fun _ => guard_signed t (.inl ht)) (by norm_num) (by norm_num) A))
    exact this.imp fun d hd => hd.1
  match n, hn, A, hN with
  | 0, _, _, h => exact h
  | 1, _, A, _ => exact ⟨_, C91_det1 A⟩
  | 2, _, A, _ => exact (C91_det2 (.inl ht) A).imp fun _ h => h.1
  | n + 4, _, _, h => exact h

/-- C96: for every narrow type, the only way not to return is a signed overflow. -/
theorem C96_det_stops (A : Mat (NInt t) n n) (e : Stop) (h : Promoted.det A = .error e) :
    e = .ub .signedOverflow := by
  have hN : wp (Promoted.detN A) (fun _ => True) (fun e => e = .ub .signedOverflow) :=
    wp_mono (safe_narrow_detN (G := False) (β := 0) (fun h => h.elim) le_rfl (by norm_num) A)
      (fun _ h => h) (fun _ h => h.1)
  match n, A, hN, h with
  | 0, _, hN, h => have := wp_error_elim hN h; exact this
  | 1, A, _, h => rw [C91_det1] at h; cases h
  | 2, A, _, h => have := wp_error_elim (C91_det2_value A) h; exact this
  | 3, A, _, h => have := wp_error_elim (C91_det3_value A) h; exact this
  | n + 4, _, hN, h => have := wp_error_elim hN h; exact this

/-- C96, finding: with unsigned elements the sign of a row exchange is lost, since the factor -1 is stored as
`2^w - 1` and then divides. The determinant of this permutation matrix is -1, that is 255 modulo 256, and `det`
returns 0. -/
theorem C96_det_unsigned_false :
    (Promoted.det (!![⟨0, by decide⟩, ⟨1, by decide⟩, ⟨0, by decide⟩, ⟨0, by decide⟩;
      ⟨1, by decide⟩, ⟨0, by decide⟩, ⟨0, by decide⟩, ⟨0, by decide⟩;
      ⟨0, by decide⟩, ⟨0, by decide⟩, ⟨1, by decide⟩, ⟨0, by decide⟩;
      ⟨0, by decide⟩, ⟨0, by decide⟩, ⟨0, by decide⟩, ⟨1, by decide⟩] : Mat (NInt .uint8) 4 4)) =
      .ok ⟨0, by decide⟩ ∧
    (Promoted.det (!![⟨0, by decide⟩, ⟨1, by decide⟩, ⟨0, by decide⟩, ⟨0, by decide⟩;
      ⟨1, by decide⟩, ⟨0, by decide⟩, ⟨0, by decide⟩, ⟨0, by decide⟩;
      ⟨0, by decide⟩, ⟨0, by decide⟩, ⟨1, by decide⟩, ⟨0, by decide⟩;
      ⟨0, by decide⟩, ⟨0, by decide⟩, ⟨0, by decide⟩, ⟨1, by decide⟩] : Mat (NInt .int8) 4 4)) =
      .ok ⟨-1, by decide⟩ := by
  constructor <;> decide +kernel

/-! ### Triangular matrices -/

section
variable (hG : Guard t G β) (hβ0 : 0 ≤ β) (hβ : β + β * β ≤ 2147483647)
include hG hβ0 hβ

/-- The elimination only clears elements, if for each pair of an element below and an element right of a diagonal
element one is 0. -/
theorem wp_detEliminate_tri (A : Mat (NInt t) n n) (r : Fin n) (hp : (A r r).val ≠ 0)
    (hz : ∀ i j, r < i → r < j → (A i r).val = 0 ∨ (A r j).val = 0) :
    wp (Promoted.detEliminate A r r)
      (fun B => ∀ i j, (B i j).val = if r < i ∧ j = r then 0 else (A i j).val) (OverflowUnless G) := by
  unfold Promoted.detEliminate
  refine wp_forUp (fun k B => ∀ i j : Fin n, (B i j).val = if r < i ∧ i.val < k ∧ j = r then 0 else (A i j).val)
    (by omega) ?_ ?_ ?_
  · intro i j
    rw [if_neg]
    rintro ⟨h1, h2, -⟩
    rw [Fin.lt_def] at h1
    omega
  · intro k B hrk hk hB
    rw [if_pos (by omega), rd_eq hk r.2, ok_bind]
    have hval : (B ⟨k, hk⟩ r).val = (A ⟨k, hk⟩ r).val := by
      rw [hB, if_neg]
      rintro ⟨-, h, -⟩
      exact lt_irrefl _ h
    refine wp_forUp (fun l C => ∀ i j : Fin n, (C i j).val =
      if i.val = k ∧ j = r ∧ r.val < l then 0 else (B i j).val) (by omega) ?_ ?_ ?_
    · intro i j
      rw [if_neg]
      rintro ⟨-, -, h⟩
      exact lt_irrefl _ h
    · intro l C hrl hl hC
      have hrow : ∀ j : Fin n, (C r j).val = (A r j).val := by
        intro j
        rw [hC, if_neg (by rintro ⟨h, -⟩; omega), hB, if_neg (by rintro ⟨h, -⟩; exact lt_irrefl _ h)]
      rw [rd_eq r.2 hl, ok_bind, wp_bind]
      refine wp_mono ((Bnd.load hG _).wp_mul (Bnd.load hG _) (by nlinarith)) (fun x hx => ?_) (fun _ h => h)
      rw [rd_eq r.2 r.2, ok_bind, wp_bind]
      have hpC : (load (C r r) : SInt 32).val ≠ 0 := by rw [load_val, hrow]; exact hp
      refine wp_mono (hx.wp_div hpC (by nlinarith)) (fun q hq => ?_) (fun _ h => h)
      rw [rd_eq hk hl, ok_bind, wp_bind]
      refine wp_mono ((Bnd.load hG _).wp_sub hq (by nlinarith)) (fun y hy => ?_) (fun _ h => h)
      have hv := hy.store_eq (t := t)
      generalize (store y : NInt t) = v at hv
      rw [load_val, hrow, hval, show ((⟨r.val, r.2⟩ : Fin n)) = r from rfl, hrow] at hv
      rw [wr_eq hk hl, wp_ok]
      intro i j
      rw [Matrix.of_apply]
      by_cases hij : i.val = k ∧ j.val = l
      · obtain ⟨rfl, rfl⟩ := hij
        rw [if_pos ⟨rfl, rfl⟩, hv]
        by_cases hjr : j = r
        · subst hjr
          rw [if_pos ⟨rfl, rfl, by omega⟩, Int.mul_tdiv_cancel _ hp, hC,
            if_neg (fun h => lt_irrefl _ h.2.2), hB, if_neg (fun h => lt_irrefl _ h.2.1), sub_self]
          exact t.conv_of_has t.has_zero
        · rw [if_neg (by rintro ⟨-, h, -⟩; exact hjr h)]
          have hlt : r < j := by
            rw [Fin.lt_def]
            have : j.val ≠ r.val := fun h => hjr (Fin.ext h)
            omega
          have h0 : (A i r).val * (A r j).val = 0 := by
            rcases hz i j (by rw [Fin.lt_def]; omega) hlt with h | h
            · rw [h, zero_mul]
            · rw [h, mul_zero]
          rw [h0, Int.zero_tdiv, sub_zero, hC, if_neg (by rintro ⟨-, h, -⟩; exact hjr h)]
          exact t.conv_of_has (B i j).has
      · rw [if_neg hij, hC]
        by_cases hc : i.val = k ∧ j = r
        · have hlt : r.val < l := by
            by_contra hlt
            refine hij ⟨hc.1, ?_⟩
            rw [hc.2]
            omega
          rw [if_pos ⟨hc.1, hc.2, hlt⟩, if_pos ⟨hc.1, hc.2, hlt.trans (Nat.lt_succ_self l)⟩]
        · rw [if_neg (fun h => hc ⟨h.1, h.2.1⟩), if_neg (fun h => hc ⟨h.1, h.2.1⟩)]
    · intro C hC i j
      rw [hC, hB]
      by_cases hc : i.val = k ∧ j = r
      · rw [if_pos ⟨hc.1, hc.2, r.2⟩, if_pos ⟨by rw [Fin.lt_def]; omega, by omega, hc.2⟩]
      · rw [if_neg (fun h => hc ⟨h.1, h.2.1⟩)]
        by_cases hd : r < i ∧ i.val < k ∧ j = r
        · rw [if_pos hd, if_pos ⟨hd.1, by omega, hd.2.2⟩]
        · rw [if_neg hd, if_neg]
          rintro ⟨h1, h2, h3⟩
          refine hd ⟨h1, ?_, h3⟩
          have : i.val ≠ k := fun h => hc ⟨h, h3⟩
          omega
  · intro B hB i j
    rw [hB]
    by_cases hd : r < i ∧ j = r
    · rw [if_pos hd, if_pos ⟨hd.1, i.2, hd.2⟩]
    · rw [if_neg hd, if_neg (fun h => hd ⟨h.1, h.2.2⟩)]

theorem wp_detProd_narrow (A : Mat (NInt t) n n) (f : NInt t) (hf : f.val = 1) :
    wp (Promoted.detProd A f) (fun d => d.val ≡ ∏ k, (A k k).val [ZMOD 2 ^ t.w]) (OverflowUnless G) := by
  unfold Promoted.detProd
  rw [wp_bind]
  refine wp_forUp (fun k (s : NInt t) => s.val ≡ ∏ l : Fin n, (if l.val < k then (A l l).val else 1) [ZMOD 2 ^ t.w])
    (Nat.zero_le n) ?_ ?_ ?_
  · refine (lit_modEq 1 (by norm_num) (by norm_num)).trans (congrArg (· % 2 ^ t.w) ?_)
    simp
  · intro k s _ hk hs
    rw [rd_eq hk hk, ok_bind, wp_bind]
    refine wp_mono ((Bnd.load hG s).wp_mul (Bnd.load hG _) (by nlinarith)) (fun x hx => ?_) (fun _ h => h)
    rw [wp_ok]
    refine hx.store.trans ((hs.mul_right _).trans (congrArg (· % 2 ^ t.w) ?_))
    rw [← Finset.mul_prod_erase Finset.univ _ (Finset.mem_univ (⟨k, hk⟩ : Fin n)),
      ← Finset.mul_prod_erase Finset.univ (fun l : Fin n => if l.val < k + 1 then (A l l).val else 1)
        (Finset.mem_univ (⟨k, hk⟩ : Fin n))]
    dsimp only
    rw [if_neg (lt_irrefl k), if_pos (Nat.lt_succ_self k), one_mul, mul_comm]
    congr 1
    refine Finset.prod_congr rfl (fun l hl => ?_)
    have : l.val ≠ k := fun h => (Finset.mem_erase.mp hl).1 (Fin.ext h)
    by_cases h : l.val < k
    · rw [if_pos h, if_pos (by omega)]
    · rw [if_neg h, if_neg (by omega)]
  · intro s hs
    rw [wp_bind]
    refine wp_mono ((Bnd.load hG s).wp_div (q := load f) (by rw [load_val, hf]; norm_num) (by nlinarith))
      (fun x hx => ?_) (fun _ h => h)
    rw [wp_ok]
    refine hx.store.trans ?_
    rw [load_val, hf, Int.tdiv_one]
    refine hs.trans (congrArg (· % 2 ^ t.w) ?_)
    exact Finset.prod_congr rfl (fun l _ => if_pos l.2)

theorem wp_detN_tri (h2 : 2 ≤ t.w) (A : Mat (NInt t) n n) (hd : ∀ i, (A i i).val ≠ 0)
    (hz : (∀ i j, j < i → (A i j).val = 0) ∨ (∀ i j, i < j → (A i j).val = 0)) :
    wp (Promoted.detN A) (fun d => d.val ≡ ∏ k, (A k k).val [ZMOD 2 ^ t.w]) (OverflowUnless G) := by
  have h1 : (Promoted.lit 1 : NInt t).val = 1 := by
    refine (Narrow.eq_conv (lit_modEq 1 (by norm_num) (by norm_num))).trans (t.conv_of_has ?_)
    have := t.has_sqrt h2 (k := 1) (by
      calc ((1 : ℕ) : ℤ) < 2 ^ 2 := by norm_num
        _ ≤ 2 ^ t.w := pow_le_pow_right₀ (by norm_num) h2)
    exact this
  unfold Promoted.detN
  rw [wp_bind]
  refine wp_forRet (fun k s => s.pivot = k ∧ s.factor.val = 1 ∧ (∀ i, (s.A i i).val = (A i i).val) ∧
    ∀ i j, (s.A i j).val = (A i j).val ∨ (s.A i j).val = 0)
    (fun _ => False) (Nat.zero_le n) ⟨rfl, h1, fun _ => rfl, fun _ _ => .inl rfl⟩ ?_ ?_ ?_
  · rintro k ⟨B, f, p⟩ _ hk ⟨hp, hf, hB, hB0⟩
    dsimp only at hp hf hB hB0
    subst hp
    unfold Promoted.detStep
    dsimp only
    rw [if_neg (by omega)]
    have hBp : (B ⟨p, hk⟩ ⟨p, hk⟩).val ≠ 0 := by rw [hB]; exact hd _
    have hs : Promoted.detSearch B p (n * n + 1) p p = .ok (some (p, p)) := by
      unfold Promoted.detSearch
      rw [rd_eq hk hk, ok_bind, if_neg (fun h => hBp (load_eq_zero.mp h))]
    have hw : Promoted.detSwap B f p p = .ok (B, f) := by
      unfold Promoted.detSwap
      rw [if_neg (by simp)]
    rw [hs, ok_bind]
    dsimp only
    rw [hw, ok_bind]
    dsimp only
    rw [wp_bind]
    refine wp_mono (wp_detEliminate_tri hG hβ0 hβ B ⟨p, hk⟩ hBp ?_) ?_ (fun _ h => h)
    · intro i j hi hj
      rcases hz with h | h
      · left
        rcases hB0 i ⟨p, hk⟩ with h' | h'
        · rw [h', h i _ hi]
        · exact h'
      · right
        rcases hB0 ⟨p, hk⟩ j with h' | h'
        · rw [h', h _ j hj]
        · exact h'
    · intro C hC
      rw [wp_pure]
      refine ⟨rfl, hf, ?_, ?_⟩
      · intro i
        show (C i i).val = _
        rw [hC, if_neg, hB]
        rintro ⟨h, rfl⟩
        exact lt_irrefl _ h
      · intro i j
        show (C i j).val = _ ∨ (C i j).val = 0
        rw [hC]
        split
        · exact .inr rfl
        · exact hB0 i j
  · rintro ⟨B, f, p⟩ ⟨-, hf, hB, -⟩
    refine wp_mono (wp_detProd_narrow hG hβ0 hβ B f hf) (fun d hd => ?_) (fun _ h => h)
    refine hd.trans (congrArg (· % 2 ^ t.w) ?_)
    exact Finset.prod_congr rfl (fun k _ => hB k)
  · exact fun _ h => h.elim

end

/-- C96: the determinant of a triangular matrix of at least 4 rows without a 0 on its diagonal is the product of
the diagonal modulo `2^w`, the exact determinant modulo `2^w`. -/
theorem C96_det_triangular (ht : t.signed = true ∨ t.Is8) (h2 : 2 ≤ t.w) (hn : 4 ≤ n) (A : Mat (NInt t) n n)
    (hd : ∀ i, (A i i).val ≠ 0)
    (hz : (∀ i j, j < i → (A i j).val = 0) ∨ (∀ i j, i < j → (A i j).val = 0)) :
    ∃ d, Promoted.det A = .ok d ∧ d.val ≡ ∏ i, (A i i).val [ZMOD 2 ^ t.w] ∧
      d.val ≡ (ints A).det [ZMOD 2 ^ t.w] := by
  have h := wp_total (wp_always (wp_detN_tri (fun _ => guard_signed t ht) (by norm_num) (by norm_num) h2 A hd hz))
  have hdet : (ints A).det = ∏ i, (A i i).val := by
    rcases hz with hz | hz
    · exact Matrix.det_of_isUpperTriangular (fun i j hij => hz i j hij)
    · exact Matrix.det_of_isLowerTriangular _ (fun i j hij => hz i j (by simpa using hij))
  rw [hdet]
  obtain ⟨d, hd1, hd2⟩ := h
  obtain ⟨m, rfl⟩ : ∃ m, n = m + 4 := ⟨n - 4, by omega⟩
  exact ⟨d, hd1, hd2, hd2⟩

/-- `5 * I` of size 4 meets the hypotheses; 113 is `5^4` modulo 256. -/
example : Promoted.det (Matrix.of fun i j => if i = j then ⟨5, by decide⟩ else ⟨0, by decide⟩ : Mat (NInt .int8) 4 4) =
    .ok ⟨113, by decide⟩ := by decide +kernel

/-! ### Inverses -/

/-- C96: what `inv` of a matrix of at least 4 rows returns, in terms of the determinants of the matrix and of its
minors: the quotients of the (converted) cofactors by the determinant; a determinant 0 ends the program, or
rethrows the exception being handled. -/
theorem C96_inv {m : Nat} (handled : Option Exc) (A : Mat (NInt t) (m + 1) (m + 1)) (d : NInt t)
    (M : Fin (m + 1) → Fin (m + 1) → NInt t) (hd : Promoted.det A = .ok d)
    (hM : ∀ a b, Promoted.det (A.submatrix a.succAbove b.succAbove) = .ok (M a b)) :
    (d.val ≠ 0 → ∃ R, Promoted.invN handled A = .ok R ∧ ∀ a b,
      (R a b).val = t.conv ((t.conv ((-1) ^ (a.val + b.val) * (M b a).val)).tdiv d.val)) ∧
    (d.val = 0 → Promoted.invN none A = .error .terminates ∧
      ∀ e, Promoted.invN (some e) A = .error (.throws e)) := by
  have hcof : ∀ handled, Promoted.invN handled A =
      Promoted.div handled (.of fun a b => NInt.ofInt ((-1) ^ (a.val + b.val) * (M b a).val)) d := by
    intro handled
    unfold Promoted.invN
    rw [hd, ok_bind]
    have hfill : forUp 0 (m + 1) (valueInit (m + 1) (m + 1) : Mat (NInt t) (m + 1) (m + 1)) (fun i invA =>
        forUp 0 (m + 1) invA fun j invA => do
          let d ← Promoted.det (← getminor A i j)
          wr invA i j (store (← CScalar.mul (ofInt (if (i + j) % 2 ≠ 0 then -1 else 1)) (load d)))) =
        .ok (.of fun a b => NInt.ofInt ((-1) ^ (a.val + b.val) * (M a b).val)) := by
      have h := fill_eq (T := NInt t) (g := fun i j => do
        let d ← Promoted.det (← getminor A i j)
        .ok (store (← CScalar.mul (ofInt (if (i + j) % 2 ≠ 0 then -1 else 1)) (load d))))
        (F := .of fun a b => NInt.ofInt ((-1) ^ (a.val + b.val) * (M a b).val))
        (valueInit (m + 1) (m + 1)) ?_
      · simpa only [bind_assoc, ok_bind] using h
      · intro a b
        rw [getminor_ok, ok_bind]
        have hMab := hM a b
        rw [show Promoted.det (A.submatrix a.succAbove b.succAbove) = .ok (M a b) from hMab, ok_bind]
        have hsg : (ofInt (if (a.val + b.val) % 2 ≠ 0 then -1 else 1) : SInt 32).val = (-1) ^ (a.val + b.val) := by
          split
          · next h =>
            rw [int_ofInt _ (by norm_num) (by norm_num), Odd.neg_one_pow (Nat.odd_iff.mpr (by omega))]
          · next h =>
            rw [int_ofInt _ (by norm_num) (by norm_num), Even.neg_one_pow (Nat.even_iff.mpr (by omega))]
        have hr : InRange 32 ((-1) ^ (a.val + b.val) * (M a b).val) := by
          have := t.has_bounds (M a b).has
          rcases neg_one_pow_eq_or ℤ (a.val + b.val) with h | h <;> rw [h] <;>
            exact inRange32 (by omega) (by omega)
        have hmul : (CScalar.mul (ofInt (if (a.val + b.val) % 2 ≠ 0 then -1 else 1)) (load (M a b)) : Res (SInt 32)) =
            .ok ⟨_, hr⟩ := by
          show SInt.checked ((ofInt (if (a.val + b.val) % 2 ≠ 0 then -1 else 1) : SInt 32).val * (M a b).val) = _
          rw [hsg]
          exact checked_ok hr
        rw [hmul, ok_bind]
        rfl
    rw [hfill, ok_bind, trans_ok, ok_bind]
    congr 1
    ext a b
    rw [Matrix.transpose_apply, Matrix.of_apply, Matrix.of_apply, Nat.add_comm]
  refine ⟨fun h0 => ?_, fun h0 => ?_⟩
  · have hz : CScalar.eq (load d) (ofInt 0 : SInt 32) = false := load_ne_zero.mpr h0
    rw [hcof]
    obtain ⟨R, hR, -⟩ := C90_div handled
      (.of fun a b => NInt.ofInt ((-1) ^ (a.val + b.val) * (M b a).val) : Mat (NInt t) (m + 1) (m + 1)) d h0
    refine ⟨R, hR, fun a b => ?_⟩
    have h := (((Promoted.div_elementwise handled _ d hz).1 R).mp hR) a b
    dsimp only at h
    rw [Matrix.of_apply] at h
    have hw := Bnd.wp_div (Bnd.load (guard16 t) (NInt.ofInt ((-1) ^ (a.val + b.val) * (M b a).val) : NInt t))
      (q := load d) h0 (by norm_num)
    have h' : wp (do .ok (store (← CScalar.div (load (NInt.ofInt ((-1) ^ (a.val + b.val) * (M b a).val) : NInt t))
      (load d))) : Res (NInt t)) (fun v => v.val = t.conv ((t.conv ((-1) ^ (a.val + b.val) * (M b a).val)).tdiv d.val))
      (fun _ => True) := by
      rw [wp_bind]
      refine wp_mono hw (fun x hx => ?_) (fun _ _ => trivial)
      rw [wp_ok]
      exact hx.store_eq
    have := wp_ok_elim h' h
    exact this
  · rw [hcof]
    refine ⟨(C90_div_zero _ d h0).1, fun e => ?_⟩
    rw [hcof]
    exact (C90_div_zero _ d h0).2 e

/-- C96: so `inv` of an 8-bit matrix never has undefined behaviour, and neither has `inv` of a signed 16-bit
matrix of at least 5 rows. -/
theorem C96_inv_defined {m : Nat} (h : t.Is8 ∨ t.signed = true ∧ m ≠ 2 ∧ m ≠ 3) (e : Exc)
    (A : Mat (NInt t) (m + 1) (m + 1)) :
    (∃ R, Promoted.invN (some e) A = .ok R) ∨ Promoted.invN (some e) A = .error (.throws e) := by
  have hdet : ∀ {k : Nat} (_ : k = m ∨ k = m + 1) (B : Mat (NInt t) k k), ∃ d, Promoted.det B = .ok d := by
    intro k hk B
    rcases h with h | h
    · exact C96_det8 h B
    · exact C96_det16 h.1 (by omega) B
  obtain ⟨d, hd⟩ := hdet (.inr rfl) A
  choose M hM using fun a b : Fin (m + 1) => hdet (.inl rfl) (A.submatrix a.succAbove b.succAbove)
  obtain ⟨h1, h2⟩ := C96_inv (some e) A d M hd hM
  by_cases h0 : d.val = 0
  · exact .inr ((h2 h0).2 e)
  · exact .inl ((h1 h0).imp fun _ h => h.1)

/-- `inv` of a matrix that meets the hypotheses. -/
example : Promoted.invN none (Matrix.of fun i j => if i = j then ⟨-1, by decide⟩ else if i < j then ⟨2, by decide⟩
      else ⟨0, by decide⟩ : Mat (NInt .int8) 4 4) =
    .ok (Matrix.of fun i j => if i = j then ⟨-1, by decide⟩ else if i < j then
      (if j.val = i.val + 1 then ⟨-2, by decide⟩ else if j.val = i.val + 2 then ⟨-6, by decide⟩ else ⟨-18, by decide⟩)
      else ⟨0, by decide⟩) := by
  decide +kernel

/-! ## C97: LU factorisation -/

/-- The recurrence determines the factors. -/
theorem IsWrapLu.unique {A L U L' U' : Matrix (Fin n) (Fin n) ℤ} {k : Nat}
    (h : IsWrapLu t A L U k) (h' : IsWrapLu t A L' U' k) :
    ∀ q : Fin n, q.val < k → (∀ i, U i q = U' i q) ∧ ∀ i, L i q = L' i q := by
  intro q
  obtain ⟨m, hm⟩ : ∃ m, m = q.val := ⟨_, rfl⟩
  induction m using Nat.strong_induction_on generalizing q with
  | _ m ih =>
    intro hq
    have hLprev : ∀ i p : Fin n, p < q → L i p = L' i p := fun i p hp =>
      (ih p.val (by rw [Fin.lt_def] at hp; omega) p rfl (by rw [Fin.lt_def] at hp; omega)).2 i
    have hUcol : ∀ s : Nat, ∀ i : Fin n, i.val = s → U i q = U' i q := by
      intro s
      induction s using Nat.strong_induction_on with
      | _ s ihs =>
        intro i hi
        by_cases hiq : i ≤ q
        · rw [h.upper i q hq hiq, h'.upper i q hq hiq]
          congr 3
          refine Finset.sum_congr rfl (fun p _ => ?_)
          split
          · next hp => rw [hLprev i p (lt_of_lt_of_le hp hiq), ihs p.val (by rw [Fin.lt_def] at hp; omega) p rfl]
          · rfl
        · rw [h.U_lower i q (not_le.mp hiq), h'.U_lower i q (not_le.mp hiq)]
    have hU : ∀ i, U i q = U' i q := fun i => hUcol i.val i rfl
    refine ⟨hU, fun i => ?_⟩
    by_cases hqi : q ≤ i
    · rw [h.lower i q hq hqi, h'.lower i q hq hqi, hU q]
      congr 4
      refine Finset.sum_congr rfl (fun p _ => ?_)
      split
      · next hp => rw [hLprev i p hp, hU p]
      · rfl
    · rw [h.L_upper i q (not_le.mp hqi), h'.L_upper i q (not_le.mp hqi)]

/-- C97: what `lu` returns, for every narrow type: the pair determined by the recurrence in the arithmetic of the
type. -/
theorem C97_lu (A L U : Mat (NInt t) n n) (h : Promoted.lu A = .ok (L, U)) :
    IsWrapLu t (ints A) (ints L) (ints U) n ∧
      ∀ L' U', IsWrapLu t (ints A) L' U' n → L' = ints L ∧ U' = ints U := by
  have h1 : IsWrapLu t (ints A) (ints L) (ints U) n := by
    have := wp_ok_elim (wp_lu_narrow (G := False) (β := 0) (fun h => h.elim) le_rfl (by norm_num) A) h
    exact this
  refine ⟨h1, fun L' U' h2 => ⟨?_, ?_⟩⟩
  · ext i q; exact (h2.unique h1 q q.2).2 i
  · ext i q; exact (h2.unique h1 q q.2).1 i

/-- C97: for 8-bit and signed 16-bit elements `lu` returns or throws; it throws when a pivot of the recurrence is
0. -/
theorem C97_lu_defined (ht : t.signed = true ∨ t.Is8) (A : Mat (NInt t) n n) :
    (∃ L U, Promoted.lu A = .ok (L, U)) ∨
    Promoted.lu A = .error (.throws (.overflow_error "Divide by zero exception")) ∧
      ∃ (L U : Matrix (Fin n) (Fin n) ℤ) (j : Fin n), IsWrapLu t (ints A) L U j.val ∧
        (∀ i, i ≤ j → U i j = t.conv (ints A i j - t.conv (∑ p, if p < i then L i p * U p j else 0))) ∧
        U j j = 0 := by
  have hwp := wp_lu_narrow (G := t.signed = true ∨ t.Is8) (guard_signed t) (by norm_num) (by norm_num) A
  cases h : Promoted.lu A with
  | ok s => exact .inl ⟨s.1, s.2, rfl⟩
  | error e =>
    right
    have he : NarrowLuStop (t.signed = true ∨ t.Is8) A e := by
      have := wp_error_elim hwp h
      exact this
    rcases he with he | ⟨he, hr⟩
    · exact absurd ht he.2
    · exact ⟨by rw [he]; rfl, hr⟩

/-- C97: for every narrow type, it otherwise stops on a signed overflow or with this exception. -/
theorem C97_lu_stops (A : Mat (NInt t) n n) (e : Stop) (h : Promoted.lu A = .error e) :
    e = .ub .signedOverflow ∨ e = .throws (.overflow_error "Divide by zero exception") := by
  have he : NarrowLuStop False A e := by
    have := wp_error_elim (wp_lu_narrow (G := False) (β := 0) (fun h => h.elim) le_rfl (by norm_num) A) h
    exact this
  rcases he with he | he
  · exact .inl he.1
  · exact .inr he.1

/-- C97: `L * U` is `A` modulo `2^w` on and above the diagonal in each row whose diagonal element of `L` is 1. -/
theorem C97_lu_product (A L U : Mat (NInt t) n n) (h : Promoted.lu A = .ok (L, U)) (i j : Fin n) (hij : i ≤ j)
    (hL : (L i i).val = 1) : (ints L * ints U) i j ≡ (A i j).val [ZMOD 2 ^ t.w] := by
  have h1 := (C97_lu A L U h).1
  have h2 := h1.upper i j j.2 hij
  have h3 : (ints U i j) ≡ ints A i j - ∑ p, (if p < i then ints L i p * ints U p j else 0) [ZMOD 2 ^ t.w] := by
    rw [h2]
    exact (t.conv_modEq _).trans ((t.conv_modEq _).sub_left _)
  rw [Matrix.mul_apply, sum_splitZ i _ (fun p hp => by rw [h1.L_upper i p hp, zero_mul])]
  rw [show ints L i i = 1 from hL, one_mul]
  have h4 := h3.add_left (∑ p, (if p < i then ints L i p * ints U p j else 0))
  rw [add_sub_cancel] at h4
  exact h4

/-- C97: that element is 1 if the difference stored as the pivot is a value of the type. -/
theorem C97_lu_diag (A L U : Mat (NInt t) n n) (h2 : 2 ≤ t.w) (h : Promoted.lu A = .ok (L, U)) (i : Fin n)
    (hi : t.Has ((A i i).val - t.conv (∑ p, if p < i then (L i p).val * (U p i).val else 0))) :
    (L i i).val = 1 := by
  have h1 := (C97_lu A L U h).1
  have hu := h1.upper i i i.2 le_rfl
  have hl := h1.lower i i i.2 le_rfl
  have hd := h1.U_diag i i.2
  have e : ints A i i - t.conv (∑ p, if p < i then ints L i p * ints U p i else 0) = ints U i i := by
    rw [hu]
    exact (t.conv_of_has hi).symm
  rw [e, Int.tdiv_self hd] at hl
  show ints L i i = 1
  rw [hl]
  refine t.conv_of_has ?_
  have := t.has_sqrt h2 (k := 1) (by
    calc ((1 : ℕ) : ℤ) < 2 ^ 2 := by norm_num
      _ ≤ 2 ^ t.w := pow_le_pow_right₀ (by norm_num) h2)
  exact this

/-- C97: if the recurrence over the integers (C83) gives factors and sums that are values of the type, these are
returned, or an `int` overflows (which cannot happen for 8-bit and signed 16-bit elements). -/
theorem C97_lu_exact (A : Mat (NInt t) n n) (L₀ U₀ : Matrix (Fin n) (Fin n) ℤ)
    (h0 : IsTruncLu (ints A) L₀ U₀ n) (hL : ∀ i j, t.Has (L₀ i j)) (hU : ∀ i j, t.Has (U₀ i j))
    (hs : ∀ i j k : Fin n, k ≤ i → k ≤ j → t.Has (∑ p, if p < k then L₀ i p * U₀ p j else 0)) :
    (∃ L U, Promoted.lu A = .ok (L, U) ∧ ints L = L₀ ∧ ints U = U₀) ∨
      Promoted.lu A = .error (.ub .signedOverflow) ∧ ¬ (t.signed = true ∨ t.Is8) := by
  have hup : ∀ i j, i ≤ j → U₀ i j = t.conv (ints A i j - t.conv (∑ p, if p < i then L₀ i p * U₀ p j else 0)) := by
    intro i j hij
    rw [t.conv_of_has (hs i j i le_rfl hij)]
    have h := h0.upper i j j.2 hij
    rw [sum_splitZ i _ (fun p hp => by rw [h0.L_upper i p hp, zero_mul]), h0.L_diag, one_mul] at h
    rw [← h, add_sub_cancel_left, t.conv_of_has (hU i j)]
  have hw : ∀ k, IsWrapLu t (ints A) L₀ U₀ k := by
    intro k
    refine ⟨h0.L_upper, h0.U_lower, fun q _ => h0.U_diag q q.2, fun i j _ hij => hup i j hij, ?_⟩
    intro i j _ hij
    rw [t.conv_of_has (hs i j j hij le_rfl)]
    rcases hij.eq_or_lt with rfl | hlt
    · have h := h0.upper j j j.2 le_rfl
      rw [sum_splitZ j _ (fun p hp => by rw [h0.L_upper j p hp, zero_mul]), h0.L_diag, one_mul] at h
      rw [← h, add_sub_cancel_left, Int.tdiv_self (h0.U_diag j j.2), h0.L_diag, t.conv_of_has]
      exact h0.L_diag j ▸ hL j j
    · rw [← h0.lower i j j.2 hlt, t.conv_of_has (hL i j)]
  have hwp := wp_lu_narrow (G := t.signed = true ∨ t.Is8) (guard_signed t) (by norm_num) (by norm_num) A
  cases h : Promoted.lu A with
  | ok s =>
    obtain ⟨L, U⟩ := s
    obtain ⟨h3, h4⟩ := (C97_lu A L U h).2 L₀ U₀ (hw n)
    exact .inl ⟨L, U, rfl, h3.symm, h4.symm⟩
  | error e =>
    have he : NarrowLuStop (t.signed = true ∨ t.Is8) A e := by
      have := wp_error_elim hwp h
      exact this
    rcases he with he | ⟨-, L, U, j, h1, h2, h3⟩
    · exact .inr ⟨by rw [he.1], he.2⟩
    · exfalso
      have hLprev : ∀ i p : Fin n, p < j → L i p = L₀ i p := fun i p hp => (h1.unique (hw j.val) p hp).2 i
      have hcol : ∀ s : Nat, ∀ i : Fin n, i.val = s → i ≤ j → U i j = U₀ i j := by
        intro s
        induction s using Nat.strong_induction_on with
        | _ s ihs =>
          intro i hi hij
          rw [h2 i hij, hup i j hij]
          congr 3
          refine Finset.sum_congr rfl (fun p _ => ?_)
          split
          · next hp =>
            rw [hLprev i p (lt_of_lt_of_le hp hij), ihs p.val (by rw [Fin.lt_def] at hp; omega) p rfl
              (le_of_lt (lt_of_lt_of_le hp hij))]
          · rfl
      exact h0.U_diag j j.2 ((hcol j.val j rfl le_rfl) ▸ h3)

/-- The hypotheses of `C97_lu_exact` are met by `[1 2; 3 4]` in `signed char`. -/
example : IsTruncLu (ints (!![⟨1, by decide⟩, ⟨2, by decide⟩; ⟨3, by decide⟩, ⟨4, by decide⟩] : Mat (NInt .int8) 2 2))
      !![1, 0; 3, 1] !![1, 2; 0, -2] 2 ∧
    (∀ i j : Fin 2, Narrow.int8.Has ((!![1, 0; 3, 1] : Matrix (Fin 2) (Fin 2) ℤ) i j)) ∧
    (∀ i j : Fin 2, Narrow.int8.Has ((!![1, 2; 0, -2] : Matrix (Fin 2) (Fin 2) ℤ) i j)) ∧
    ∀ i j k : Fin 2, k ≤ i → k ≤ j → Narrow.int8.Has (∑ p, if p < k then
      (!![1, 0; 3, 1] : Matrix (Fin 2) (Fin 2) ℤ) i p * (!![1, 2; 0, -2] : Matrix (Fin 2) (Fin 2) ℤ) p j else 0) := by
  refine ⟨⟨?_, ?_, ?_, ?_, ?_, ?_⟩, ?_, ?_, ?_⟩ <;> simp only [Fin.forall_fin_two] <;> decide +kernel

/-- C97, finding: `L` need not have a unit diagonal. The difference 127 + 127 is stored as the pivot -2, but the
element of `L` is 254 / -2. -/
theorem C97_lu_not_unit :
    Promoted.lu (!![⟨1, by decide⟩, ⟨-127, by decide⟩; ⟨1, by decide⟩, ⟨127, by decide⟩] : Mat (NInt .int8) 2 2) =
      .ok (!![⟨1, by decide⟩, ⟨0, by decide⟩; ⟨1, by decide⟩, ⟨-127, by decide⟩],
        !![⟨1, by decide⟩, ⟨-127, by decide⟩; ⟨0, by decide⟩, ⟨-2, by decide⟩]) := by
  decide +kernel

/-! ## C98: Cholesky factorisation -/

/-- Cells are determined by the cells before them. -/
theorem wrapChol_unique {A L L' : Matrix (Fin n) (Fin n) ℤ}
    (P : Fin n → Fin n → Prop) (hrow : ∀ a b p, P a b → p < b → P a p)
    (hcol : ∀ a b p, P a b → b < a → p ≤ b → P b p)
    (h : ∀ a b, b ≤ a → P a b → WrapCholCell t A L a b)
    (h' : ∀ a b, b ≤ a → P a b → WrapCholCell t A L' a b) :
    ∀ a b, b ≤ a → P a b → L a b = L' a b := by
  have key : ∀ m : Nat, ∀ a b : Fin n, a.val * n + b.val < m → b ≤ a → P a b → L a b = L' a b := by
    intro m
    induction m with
    | zero => intro a b hm; omega
    | succ m ih =>
      intro a b hm hba hab
      have hr : ∀ p, p < b → L a p = L' a p := by
        intro p hp
        refine ih a p ?_ (hp.le.trans hba) (hrow a b p hab hp)
        rw [Fin.lt_def] at hp; omega
      rcases hba.eq_or_lt with rfl | hlt
      · have hs : (∑ p, if p < b then L b p * L b p else 0) =
            ∑ p, if p < b then L' b p * L' b p else 0 := by
          refine Finset.sum_congr rfl (fun p _ => ?_)
          split
          · next hp => rw [hr p hp]
          · rfl
        obtain ⟨h1, h2, h3⟩ := (h b b le_rfl hab).1 rfl
        obtain ⟨h1', h2', h3'⟩ := (h' b b le_rfl hab).1 rfl
        rw [← hs] at h2' h3'
        exact floorSqrt_unique h1 h1' h2 h3 h2' h3'
      · have hc : ∀ p, p ≤ b → L b p = L' b p := by
          intro p hp
          refine ih b p ?_ hp (hcol a b p hab hlt hp)
          have h1 : (b.val + 1) * n ≤ a.val * n := Nat.mul_le_mul_right n hlt
          have h2 : (b.val + 1) * n = b.val * n + n := by ring
          have := p.2
          omega
        have hs : (∑ p, if p < b then L a p * L b p else 0) =
            ∑ p, if p < b then L' a p * L' b p else 0 := by
          refine Finset.sum_congr rfl (fun p _ => ?_)
          split
          · next hp => rw [hr p hp, hc p hp.le]
          · rfl
        rw [((h a b hba hab).2 hlt).2, ((h' a b hba hab).2 hlt).2, hs, hc b le_rfl]
  exact fun a b hba hab => key _ a b (Nat.lt_succ_self _) hba hab

/-- C98: what `chol` returns, for every narrow type (of at least 2 bits): the lower triangular matrix determined
by the recurrence in the arithmetic of the type. -/
theorem C98_chol (h2 : 2 ≤ t.w) (A L : Mat (NInt t) n n) (h : Promoted.chol A = .ok L) :
    IsWrapChol t (ints A) (ints L) ∧ ∀ L', IsWrapChol t (ints A) L' → L' = ints L := by
  have h1 : IsWrapChol t (ints A) (ints L) := by
    have := wp_ok_elim (wp_chol_narrow (G := False) (β := 0) (fun h => h.elim) le_rfl (by norm_num) h2 A) h
    exact this
  refine ⟨h1, fun L' h' => ?_⟩
  ext a b
  by_cases hab : b ≤ a
  · exact wrapChol_unique (fun _ _ => True) (fun _ _ _ _ _ => trivial) (fun _ _ _ _ _ _ => trivial)
      (fun a b hba _ => h'.cell a b hba) (fun a b hba _ => h1.cell a b hba) a b hab trivial
  · rw [h'.upper a b (not_le.mp hab), h1.upper a b (not_le.mp hab)]

/-- C98: how `chol` stops: at some cell `(i, j)`, the cells before it being those of the recurrence, the number
under the square root is negative or the divisor is 0; an `int` overflows only for unsigned 16-bit elements. -/
theorem C98_chol_stops (h2 : 2 ≤ t.w) (A : Mat (NInt t) n n) (e : Stop) (h : Promoted.chol A = .error e) :
    e = .ub .signedOverflow ∧ ¬ (t.signed = true ∨ t.Is8) ∨
    ∃ (L : Matrix (Fin n) (Fin n) ℤ) (i j : Fin n), j ≤ i ∧
      (∀ a b, b ≤ a → (a < i ∨ a = i ∧ b < j) → WrapCholCell t (ints A) L a b) ∧
      (e = .ub .domain ∧ j = i ∧ (A i i).val < t.conv (∑ p, if p < i then L i p * L i p else 0) ∨
        e = .ub .divisionByZero ∧ j < i ∧ L j j = 0) := by
  have := wp_error_elim (wp_chol_narrow (G := t.signed = true ∨ t.Is8) (guard_signed t) (by norm_num) (by norm_num)
    h2 A) h
  exact this

/-- C98: if the recurrence over the integers (C84) gives a factor with a positive diagonal and sums that are values
of the type, `chol` returns it, or an `int` overflows (which cannot happen for 8-bit and signed 16-bit elements). -/
theorem C98_chol_exact (h2 : 2 ≤ t.w) (A : Mat (NInt t) n n) (L₀ : Matrix (Fin n) (Fin n) ℤ)
    (h0 : IsTruncChol (ints A) L₀) (hL : ∀ i j, t.Has (L₀ i j)) (hd : ∀ i, L₀ i i ≠ 0)
    (hs : ∀ i j : Fin n, j ≤ i → t.Has (∑ p, if p < j then L₀ i p * L₀ j p else 0)) :
    (∃ L, Promoted.chol A = .ok L ∧ ints L = L₀) ∨
      Promoted.chol A = .error (.ub .signedOverflow) ∧ ¬ (t.signed = true ∨ t.Is8) := by
  have hw : ∀ a b, b ≤ a → WrapCholCell t (ints A) L₀ a b := by
    intro a b hba
    refine ⟨fun hab => ?_, fun hab => ?_⟩
    · subst hab
      rw [t.conv_of_has (hs b b le_rfl)]
      exact (h0.cell b b le_rfl).1 rfl
    · obtain ⟨h3, h4⟩ := (h0.cell a b hba).2 hab
      refine ⟨h3, ?_⟩
      rw [t.conv_of_has (hs a b hba), ← h4, t.conv_of_has (hL a b)]
  cases h : Promoted.chol A with
  | ok L => exact .inl ⟨L, rfl, ((C98_chol h2 A L h).2 L₀ ⟨h0.upper, hw⟩).symm⟩
  | error e =>
    rcases C98_chol_stops h2 A e h with ⟨he, hn⟩ | ⟨L, i, j, hji, hc, hst⟩
    · exact .inr ⟨by rw [he], hn⟩
    · exfalso
      have hu := wrapChol_unique (t := t) (A := ints A) (L := L) (L' := L₀)
        (fun a b => a < i ∨ a = i ∧ b < j)
        (fun a b p hab hp => hab.imp id (fun h => ⟨h.1, hp.trans h.2⟩))
        (fun a b p hab hba _ => .inl (by
          rcases hab with h | h
          · exact hba.trans h
          · exact h.1 ▸ hba))
        hc (fun a b hba _ => hw a b hba)
      rcases hst with ⟨-, rfl, h1⟩ | ⟨-, hij, h1⟩
      · have hsum : (∑ p, if p < j then L j p * L j p else 0) = ∑ p, if p < j then L₀ j p * L₀ j p else 0 := by
          refine Finset.sum_congr rfl (fun p _ => ?_)
          split
          · next hp => rw [hu j p hp.le (.inr ⟨rfl, hp⟩)]
          · rfl
        obtain ⟨-, h3, -⟩ := (hw j j le_rfl).1 rfl
        rw [hsum] at h1
        have : 0 ≤ L₀ j j ^ 2 := sq_nonneg _
        have h4 : ints A j j = (A j j).val := rfl
        omega
      · rw [hu j j le_rfl (.inl hij)] at h1
        exact hd j h1

/-- An exact factorisation in `signed char`. -/
example : Promoted.chol (!![⟨4, by decide⟩, ⟨2, by decide⟩; ⟨2, by decide⟩, ⟨10, by decide⟩] : Mat (NInt .int8) 2 2) =
    .ok !![⟨2, by decide⟩, ⟨0, by decide⟩; ⟨1, by decide⟩, ⟨3, by decide⟩] := by decide +kernel

/-- C98, finding: with 8-bit elements the stored sum wraps, and `chol` returns for a matrix that is not positive
definite, here with `L * trans(L)` far from `A`. -/
theorem C98_chol_wraps :
    Promoted.chol (!![⟨1, by decide⟩, ⟨12, by decide⟩; ⟨12, by decide⟩, ⟨0, by decide⟩] : Mat (NInt .int8) 2 2) =
      .ok !![⟨1, by decide⟩, ⟨0, by decide⟩; ⟨12, by decide⟩, ⟨10, by decide⟩] := by
  decide +kernel

end MatrixLibs
