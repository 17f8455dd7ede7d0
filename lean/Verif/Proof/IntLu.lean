import Verif.Proof.Lu
import Verif.Spec.IntFactor
import Verif.Props.IntInv

/-!
# LU factorisation of signed integer matrices
-/

namespace MatrixLibs

set_option linter.unusedSectionVars false

open CScalar (ofInt)

section
variable {w n : Nat}

/-- `Σ_{p < i} U[p][j] * L[i][p]`. -/
def luSv (L U : Mat (SInt w) n n) (i j : Fin n) : ℤ :=
  ∑ p : Fin n, if p < i then (U p j).val * (L i p).val else 0

theorem sum_cutZ {i : Fin n} (X : Fin n → ℤ) :
    (∑ p : Fin i.val, X ⟨p.val, lt_trans p.2 i.2⟩) = ∑ p : Fin n, if p < i then X p else 0 := by
  refine Fintype.sum_of_injective (fun p : Fin i.val => (⟨p.val, lt_trans p.2 i.2⟩ : Fin n))
    (fun a b h => Fin.ext (by simpa using h)) _ _ ?_ ?_
  · intro p hp
    rw [if_neg]
    intro h
    exact hp ⟨⟨p.val, h⟩, rfl⟩
  · intro p
    rw [if_pos]
    exact p.2

theorem sum_splitZ (i : Fin n) (X : Fin n → ℤ) (h : ∀ p, i < p → X p = 0) :
    ∑ p, X p = (∑ p, if p < i then X p else 0) + X i := by
  have h1 : ∀ p, X p = (if p < i then X p else 0) + (if p = i then X p else 0) := by
    intro p
    rcases lt_trichotomy p i with hp | hp | hp
    · rw [if_pos hp, if_neg (ne_of_lt hp), add_zero]
    · subst hp
      rw [if_neg (lt_irrefl _), if_pos rfl, zero_add]
    · rw [if_neg (not_lt.mpr hp.le), if_neg (ne_of_gt hp), h p hp, add_zero]
  rw [Finset.sum_congr rfl (fun p _ => h1 p), Finset.sum_add_distrib, Finset.sum_ite_eq' ,
    if_pos (Finset.mem_univ i)]

theorem wp_luSum_signed (hw : 2 ≤ w) (L U : Mat (SInt w) n n) (i j : Fin n) :
    wp (luSum L U i j) (fun v => v.val = luSv L U i j) (fun e => e = .ub .signedOverflow) := by
  unfold luSum
  refine wp_mono (wp_sum_loop (V := SInt.val)
    (fun p : Fin i.val => (U ⟨p.val, lt_trans p.2 i.2⟩ j).val *
      (L i ⟨p.val, lt_trans p.2 i.2⟩).val) ?_) ?_ (fun _ h => h)
  · intro k hk s
    rw [rd_eq (lt_trans hk i.2) j.2, ok_bind, rd_eq i.2 (lt_trans hk i.2), ok_bind, wp_bind]
    refine wp_mono ((RingSem.signed w hw).mul _ _) ?_ (fun _ h => h)
    intro c hc
    refine wp_mono ((RingSem.signed w hw).add _ _) ?_ (fun _ h => h)
    intro v hv
    have hv' : v.val = s.val + c.val := hv
    rw [hv']
    exact congrArg (s.val + ·) hc
  · intro v hv
    have h0 : (ofInt 0 : SInt w).val = 0 := (RingSem.signed w hw).ofInt 0 (by norm_num) (by norm_num)
    rw [hv, h0, zero_add, luSv, sum_cutZ (i := i) (fun p => (U p j).val * (L i p).val)]

theorem wp_luUpper_signed (hw : 2 ≤ w) (A L U : Mat (SInt w) n n) (j : Fin n) :
    wp (luUpper A L j U) (fun U' => (∀ a b, ¬ (b = j ∧ a ≤ j) → U' a b = U a b) ∧
      ∀ a, a ≤ j → (U' a j).val = (A a j).val - luSv L U' a j)
      (fun e => e = .ub .signedOverflow) := by
  unfold luUpper
  refine wp_forUp (fun k U' => (∀ a b, ¬ (b = j ∧ a.val < k) → U' a b = U a b) ∧
    ∀ a : Fin n, a.val < k → (U' a j).val = (A a j).val - luSv L U' a j) (Nat.zero_le _)
    ⟨fun _ _ _ => rfl, fun a h => by omega⟩ ?_ ?_
  · rintro k U' - hk ⟨h1, h2⟩
    have hkn : k < n := by have := j.2; omega
    rw [wp_bind]
    refine wp_mono (wp_luSum_signed hw L U' ⟨k, hkn⟩ j) ?_ (fun _ h => h)
    intro s hs
    rw [rd_eq hkn j.2, ok_bind, wp_bind]
    refine wp_mono ((RingSem.signed w hw).sub _ _) ?_ (fun _ h => h)
    intro v hv
    have hv' : v.val = (A ⟨k, hkn⟩ j).val - luSv L U' ⟨k, hkn⟩ j := by
      rw [← hs]; exact hv
    rw [wr_eq hkn j.2, wp_ok]
    have hold : ∀ a b : Fin n, ¬ (a.val = k ∧ b.val = j.val) →
        (Matrix.of fun a b : Fin n => if a.val = k ∧ b.val = j.val then v else U' a b) a b =
        U' a b := by
      intro a b h
      rw [Matrix.of_apply, if_neg h]
    have hS : ∀ a : Fin n, a.val ≤ k → luSv L (Matrix.of fun a b : Fin n =>
        if a.val = k ∧ b.val = j.val then v else U' a b) a j = luSv L U' a j := by
      intro a ha
      unfold luSv
      refine Finset.sum_congr rfl (fun p _ => ?_)
      split
      · next hp =>
        rw [Fin.lt_def] at hp
        rw [hold p j (by omega)]
      · rfl
    refine ⟨?_, ?_⟩
    · intro a b hab
      rw [hold a b (fun h => hab ⟨Fin.ext h.2, by omega⟩)]
      exact h1 a b (fun h => hab ⟨h.1, by omega⟩)
    · intro a ha
      rw [hS a (by omega)]
      by_cases hak : a.val = k
      · have : a = ⟨k, hkn⟩ := Fin.ext hak
        subst this
        rw [Matrix.of_apply, if_pos ⟨rfl, rfl⟩, hv']
      · rw [hold a j (fun h => hak h.1)]
        exact h2 a (by omega)
  · rintro U' ⟨h1, h2⟩
    refine ⟨fun a b h => h1 a b (fun h' => h ⟨h'.1, ?_⟩), fun a ha => h2 a ?_⟩
    · rw [Fin.le_def]; omega
    · rw [Fin.le_def] at ha; omega

theorem wp_luLower_signed (hw : 2 ≤ w) (A U L : Mat (SInt w) n n) (j : Fin n)
    (hu : (U j j).val ≠ 0) :
    wp (luLower A U j L) (fun L' => (∀ a b, ¬ (b = j ∧ j ≤ a) → L' a b = L a b) ∧
      ∀ a, j ≤ a → (L' a j).val = ((A a j).val - luSv L U a j).tdiv (U j j).val)
      (fun e => e = .ub .signedOverflow) := by
  unfold luLower
  refine wp_forUp (fun k L' => (∀ a b : Fin n, ¬ (b = j ∧ j ≤ a ∧ a.val < k) → L' a b = L a b) ∧
    ∀ a : Fin n, j ≤ a → a.val < k →
      (L' a j).val = ((A a j).val - luSv L U a j).tdiv (U j j).val) (by omega) ?_ ?_ ?_
  · refine ⟨fun _ _ _ => rfl, fun a h1 h2 => ?_⟩
    rw [Fin.le_def] at h1
    omega
  · rintro k L' hjk hk ⟨h1, h2⟩
    have hS : luSv L' U ⟨k, hk⟩ j = luSv L U ⟨k, hk⟩ j := by
      unfold luSv
      refine Finset.sum_congr rfl (fun p _ => ?_)
      rw [h1 ⟨k, hk⟩ p (fun h => lt_irrefl _ h.2.2)]
    rw [wp_bind]
    refine wp_mono (wp_luSum_signed hw L' U ⟨k, hk⟩ j) ?_ (fun _ h => h)
    intro s hs
    rw [rd_eq j.2 j.2, ok_bind, if_neg (fun h => hu ((signed_eq_zero hw _).mp h)), rd_eq hk j.2,
      ok_bind, wp_bind]
    refine wp_mono ((RingSem.signed w hw).sub _ _) ?_ (fun _ h => h)
    intro x hx
    have hx' : x.val = (A ⟨k, hk⟩ j).val - luSv L U ⟨k, hk⟩ j := by
      rw [← hS, ← hs]; exact hx
    rw [wp_bind]
    show wp (if (U j j).val = 0 then _ else SInt.checked (x.val.tdiv (U j j).val)) _ _
    rw [if_neg hu]
    refine wp_mono (checked_wp w _) ?_ (fun _ h => h)
    intro v hv
    rw [wr_eq hk j.2, wp_ok]
    refine ⟨?_, ?_⟩
    · intro a b hab
      rw [Matrix.of_apply, if_neg]
      · exact h1 a b (fun h => hab ⟨h.1, h.2.1, by omega⟩)
      · rintro ⟨ha, hb⟩
        exact hab ⟨Fin.ext hb, by rw [Fin.le_def]; omega, by omega⟩
    · intro a hja hak
      rw [Matrix.of_apply]
      by_cases ha : a.val = k
      · have : a = ⟨k, hk⟩ := Fin.ext ha
        subst this
        rw [if_pos ⟨rfl, rfl⟩, hv, hx']
      · rw [if_neg (fun h => ha h.1)]
        exact h2 a hja (by omega)
  · rintro L' ⟨h1, h2⟩
    exact ⟨fun a b h => h1 a b (fun h' => h ⟨h'.1, h'.2.1⟩), fun a ha => h2 a ha a.2⟩

theorem wp_luLower_zero (hw : 2 ≤ w) (A U L : Mat (SInt w) n n) (j : Fin n)
    (hu : (U j j).val = 0) :
    wp (luLower A U j L) (fun _ => False)
      (fun e => e = .ub .signedOverflow ∨ e = .throws divideByZeroException) := by
  unfold luLower
  rw [forUp_first j.2, wp_bind, wp_bind]
  refine wp_mono (wp_luSum_signed hw L U j j) ?_ (fun _ h => Or.inl h)
  intro s _
  rw [rd_eq j.2 j.2, ok_bind, if_pos ((signed_eq_zero hw _).mpr hu)]
  exact Or.inr rfl

/-- Invariant of `lu` before column `j`. -/
structure IntLuInv (A : Mat (SInt w) n n) (j : Nat) (L U : Mat (SInt w) n n) : Prop where
  lu : IsTruncLu (A.map SInt.val) (L.map SInt.val) (U.map SInt.val) j
  Lcol : ∀ i p : Fin n, j ≤ p.val → (L i p).val = if i = p then 1 else 0

/-- How `lu` of an integer matrix stops: on overflow or on a zero pivot. -/
def IntLuStop (A : Mat (SInt w) n n) (e : Stop) : Prop :=
  e = .ub .signedOverflow ∨ e = .throws divideByZeroException ∧
    ∃ (L U : Matrix (Fin n) (Fin n) ℤ) (j : Fin n), IsTruncLu (A.map SInt.val) L U j.val ∧
      (∀ i, i ≤ j → ∑ p, L i p * U p j = (A i j).val) ∧ U j j = 0

theorem wp_lu_step_signed (hw : 2 ≤ w) (A : Mat (SInt w) n n) (j : Nat) (hj : j < n)
    (L U : Mat (SInt w) n n) (hs : IntLuInv A j L U) :
    wp (do
      let U ← luUpper A L j U
      let L ← luLower A U j L
      .ok (L, U)) (fun s => IntLuInv A (j + 1) s.1 s.2) (IntLuStop A) := by
  rw [wp_bind]
  refine wp_mono (wp_luUpper_signed hw A L U ⟨j, hj⟩) ?_ (fun _ h => Or.inl h)
  rintro U' ⟨hold, hnew⟩
  have hLup : ∀ i p : Fin n, i < p → (L i p).val = 0 := hs.lu.L_upper
  have hLd : ∀ p : Fin n, (L p p).val = 1 := hs.lu.L_diag
  have hUlo : ∀ p q : Fin n, q < p → (U p q).val = 0 := hs.lu.U_lower
  have hULow : ∀ p q : Fin n, q < p → (U' p q).val = 0 := by
    intro p q hqp
    rw [hold p q]
    · exact hUlo p q hqp
    · rintro ⟨rfl, h⟩
      exact absurd hqp (not_lt.mpr h)
  have hUold : ∀ p q : Fin n, q.val ≠ j → U' p q = U p q :=
    fun p q h => hold p q (fun h' => h (congrArg Fin.val h'.1))
  -- the sums of the second loop
  have hS : ∀ i : Fin n, j ≤ i.val → luSv L U' i ⟨j, hj⟩ =
      ∑ p, if p < (⟨j, hj⟩ : Fin n) then (L i p).val * (U' p ⟨j, hj⟩).val else 0 := by
    intro i hji
    unfold luSv
    refine Finset.sum_congr rfl (fun p _ => ?_)
    rcases lt_trichotomy p (⟨j, hj⟩ : Fin n) with hp | hp | hp
    · rw [if_pos (lt_of_lt_of_le hp hji), if_pos hp, mul_comm]
    · subst hp
      rw [if_neg (lt_irrefl (⟨j, hj⟩ : Fin n))]
      split
      · next h => rw [hs.Lcol i ⟨j, hj⟩ le_rfl, if_neg (ne_of_gt h), mul_zero]
      · rfl
    · rw [if_neg (not_lt.mpr hp.le), hULow p _ hp, zero_mul]
      split <;> rfl
  have hinv : ∀ L' : Mat (SInt w) n n, (∀ a b : Fin n, b.val ≠ j → L' a b = L a b) →
      IsTruncLu (A.map SInt.val) (L.map SInt.val) (U.map SInt.val) j →
      (∀ i p : Fin n, i < p → (L' i p).val = 0) → (∀ p : Fin n, (L' p p).val = 1) →
      IsTruncLu (A.map SInt.val) (L'.map SInt.val) (U'.map SInt.val) j := by
    intro L' hL' h hup hd
    refine ⟨hup, hd, hULow, ?_, ?_, ?_⟩
    · intro q hq
      show (U' q q).val ≠ 0
      rw [hUold q q (by omega)]
      exact h.U_diag q hq
    · intro i q hq hiq
      rw [← h.upper i q hq hiq]
      refine Finset.sum_congr rfl (fun p _ => ?_)
      show (L' i p).val * (U' p q).val = (L i p).val * (U p q).val
      rw [hUold p q (by omega)]
      by_cases hpj : p.val = j
      · rw [hUlo p q (by rw [Fin.lt_def]; omega), mul_zero, mul_zero]
      · rw [hL' i p hpj]
    · intro i q hq hqi
      have h1 := h.lower i q hq hqi
      show (L' i q).val = ((A i q).val - ∑ p, if p < q then (L' i p).val * (U' p q).val else 0).tdiv
        (U' q q).val
      rw [hL' i q (by omega), hUold q q (by omega)]
      refine h1.trans ?_
      congr 2
      refine Finset.sum_congr rfl (fun p _ => ?_)
      split
      · next hp =>
        rw [Fin.lt_def] at hp
        rw [hL' i p (by omega), hUold p q (by omega)]
        rfl
      · rfl
  have hcol : ∀ L' : Mat (SInt w) n n, (∀ a b : Fin n, b.val ≠ j → L' a b = L a b) →
      (∀ i p : Fin n, i < p → (L' i p).val = 0) → (∀ p : Fin n, (L' p p).val = 1) →
      ∀ i : Fin n, i ≤ ⟨j, hj⟩ →
        ∑ p, (L'.map SInt.val) i p * (U'.map SInt.val) p ⟨j, hj⟩ = (A i ⟨j, hj⟩).val := by
    intro L' hLold hup hd i hiq
    rw [sum_splitZ i _ (fun p hp => by
      show (L' i p).val * _ = 0
      rw [hup i p hp, zero_mul])]
    show _ + (L' i i).val * (U' i ⟨j, hj⟩).val = (A i ⟨j, hj⟩).val
    rw [hd i, one_mul, hnew i hiq]
    have : (∑ p, if p < i then (L'.map SInt.val) i p * (U'.map SInt.val) p ⟨j, hj⟩ else 0) =
        luSv L U' i ⟨j, hj⟩ := by
      refine Finset.sum_congr rfl (fun p _ => ?_)
      split
      · next hp =>
        have hpj : p.val ≠ j := by
          rw [Fin.lt_def] at hp
          rw [Fin.le_def] at hiq
          dsimp only at hiq
          omega
        show (L' i p).val * (U' p ⟨j, hj⟩).val = _
        rw [hLold i p hpj, mul_comm]
      · rfl
    rw [this]
    ring
  by_cases hu : (U' ⟨j, hj⟩ ⟨j, hj⟩).val = 0
  · rw [wp_bind]
    refine wp_mono (wp_luLower_zero hw A U' L ⟨j, hj⟩ hu) (fun _ h => h.elim) ?_
    rintro e (he | he)
    · exact Or.inl he
    · refine Or.inr ⟨he, L.map SInt.val, U'.map SInt.val, ⟨j, hj⟩,
        hinv L (fun _ _ _ => rfl) hs.lu hLup hLd,
        fun i hi => hcol L (fun _ _ _ => rfl) hLup hLd i hi, hu⟩
  · rw [wp_bind]
    refine wp_mono (wp_luLower_signed hw A U' L ⟨j, hj⟩ hu) ?_ (fun _ h => Or.inl h)
    rintro L' ⟨hLo, hLn⟩
    rw [wp_ok]
    have hLold : ∀ a b : Fin n, b.val ≠ j → L' a b = L a b :=
      fun a b h => hLo a b (fun h' => h (congrArg Fin.val h'.1))
    have hLrow : ∀ a b : Fin n, a.val < j → L' a b = L a b :=
      fun a b h => hLo a b (fun h' => absurd h'.2 (not_le.mpr h))
    have hup : ∀ i p : Fin n, i < p → (L' i p).val = 0 := by
      intro i p hip
      by_cases hpj : p.val = j
      · rw [hLrow i p (by rw [Fin.lt_def] at hip; omega)]
        exact hLup i p hip
      · rw [hLold i p hpj]
        exact hLup i p hip
    have hd : ∀ p : Fin n, (L' p p).val = 1 := by
      intro p
      by_cases hpj : p.val = j
      · have : p = ⟨j, hj⟩ := Fin.ext hpj
        subst this
        rw [hLn _ le_rfl, ← hnew _ le_rfl, Int.tdiv_self hu]
      · rw [hLold p p hpj]
        exact hLd p
    have h0 := hinv L' hLold hs.lu hup hd
    refine ⟨⟨hup, hd, hULow, ?_, ?_, ?_⟩, ?_⟩
    · intro q hq
      by_cases hqj : q.val = j
      · have : q = ⟨j, hj⟩ := Fin.ext hqj
        subst this
        exact hu
      · exact h0.U_diag q (by omega)
    · intro i q hq hiq
      by_cases hqj : q.val = j
      · have : q = ⟨j, hj⟩ := Fin.ext hqj
        subst this
        exact hcol L' hLold hup hd i hiq
      · exact h0.upper i q (by omega) hiq
    · intro i q hq hqi
      by_cases hqj : q.val = j
      · have : q = ⟨j, hj⟩ := Fin.ext hqj
        subst this
        show (L' i ⟨j, hj⟩).val = _
        rw [hLn i hqi.le, hS i (by rw [Fin.lt_def] at hqi; exact hqi.le)]
        show _ = ((A i ⟨j, hj⟩).val - _).tdiv (U' ⟨j, hj⟩ ⟨j, hj⟩).val
        congr 2
        refine Finset.sum_congr rfl (fun p _ => ?_)
        split
        · next hp =>
          rw [Fin.lt_def] at hp
          dsimp only at hp
          show _ = (L' i p).val * (U' p ⟨j, hj⟩).val
          rw [hLold i p (by omega)]
        · rfl
      · exact h0.lower i q (by omega) hqi
    · intro i p hp
      show (L' i p).val = _
      rw [hLold i p (by omega)]
      exact hs.Lcol i p (by omega)

theorem wp_lu_signed (hw : 2 ≤ w) (A : Mat (SInt w) n n) :
    wp (lu A) (fun s => IsTruncLu (A.map SInt.val) (s.1.map SInt.val) (s.2.map SInt.val) n)
      (IntLuStop A) := by
  unfold lu eye1
  rw [eye_ok, ok_bind, zeros_ok, ok_bind]
  have h0 : (ofInt 0 : SInt w).val = 0 := (RingSem.signed w hw).ofInt 0 (by norm_num) (by norm_num)
  have h1 : (ofInt 1 : SInt w).val = 1 := (RingSem.signed w hw).ofInt 1 (by norm_num) (by norm_num)
  refine wp_forUp (fun j s => IntLuInv A j s.1 s.2) (Nat.zero_le n) ?_ ?_ (fun _ h => h.lu)
  · have hL : ∀ i p : Fin n, ((Matrix.of fun (a b : Fin n) =>
        if a = b then (ofInt 1 : SInt w) else ofInt 0) i p).val = if i = p then 1 else 0 := by
      intro i p
      rw [Matrix.of_apply]
      by_cases h : i = p
      · rw [if_pos h, if_pos h, h1]
      · rw [if_neg h, if_neg h, h0]
    refine ⟨⟨?_, ?_, ?_, ?_, ?_, ?_⟩, ?_⟩
    · intro i p h; exact (hL i p).trans (if_neg (ne_of_lt h))
    · intro p; exact (hL p p).trans (if_pos rfl)
    · intro p q _; exact h0
    · intro q h; omega
    · intro i q h; omega
    · intro i q h; omega
    · intro i p _; exact hL i p
  · intro j s _ hj hs
    exact wp_lu_step_signed hw A j hj s.1 s.2 hs

end
end MatrixLibs
