import Verif.Proof.FloatRes
import Verif.Proof.Lu
import Verif.Proof.FloatMat
import Verif.Props.Float
import Verif.Model.Det

/-!
# LU factorisation of floating point matrices
-/

namespace MatrixLibs

set_option linter.unusedSectionVars false

namespace Fl
variable {F : Fmt} {n : Nat}

/-- The computed `Σ_{p < i} U[p][j] * L[i][p]`. -/
def luS (L U : Mat (Fl F) n n) (i j : Fin n) : Fl F :=
  fsum ((List.finRange i.val).map fun p =>
    (U ⟨p.val, lt_trans p.2 i.2⟩ j).mul (L i ⟨p.val, lt_trans p.2 i.2⟩))

theorem luS_congr {L U L' U' : Mat (Fl F) n n} {i j : Fin n} (hU : ∀ p, p < i → U p j = U' p j)
    (hL : ∀ p, p < i → L i p = L' i p) : luS L U i j = luS L' U' i j := by
  unfold luS
  congr 2
  funext p
  rw [hU _ p.2, hL _ p.2]

theorem luSum_eq (L U : Mat (Fl F) n n) (i j : Fin n) : luSum L U i j = .ok (luS L U i j) := by
  unfold luSum
  rw [forUp_foldlM]
  unfold luS fsum
  rw [List.foldl_map]
  refine foldlM_ok _ _ _ (fun (s : Fl F) (p : Fin i.val) =>
    s.add ((U ⟨p.val, lt_trans p.2 i.2⟩ j).mul (L i ⟨p.val, lt_trans p.2 i.2⟩))) ?_
  intro s p
  rw [rd_eq (lt_trans p.2 i.2) j.2, ok_bind, rd_eq i.2 (lt_trans p.2 i.2)]
  rfl

/-- What the first inner loop makes of column `j` of `U`. -/
def UpperPost (A L U : Mat (Fl F) n n) (j : Fin n) (U' : Mat (Fl F) n n) : Prop :=
  (∀ a b, ¬ (b = j ∧ a ≤ j) → U' a b = U a b) ∧
  ∀ a, a ≤ j → U' a j = (A a j).sub (luS L U' a j)

theorem wp_luUpper (A L U : Mat (Fl F) n n) (j : Fin n) :
    wp (luUpper A L j U) (UpperPost A L U j) (fun _ => False) := by
  unfold luUpper
  refine wp_forUp (fun k U' => (∀ a b, ¬ (b = j ∧ a.val < k) → U' a b = U a b) ∧
    ∀ a : Fin n, a.val < k → U' a j = (A a j).sub (luS L U' a j)) (Nat.zero_le _)
    ⟨fun _ _ _ => rfl, fun a h => by omega⟩ ?_ ?_
  · rintro k U' - hk ⟨h1, h2⟩
    have hkn : k < n := by have := j.2; omega
    rw [luSum_eq L U' ⟨k, hkn⟩ j, ok_bind, rd_eq hkn j.2, ok_bind]
    show wp ((Except.ok ((A ⟨k, hkn⟩ ⟨j.val, j.2⟩).sub (luS L U' ⟨k, hkn⟩ j)) : Res (Fl F)) >>= _) _ _
    rw [ok_bind, wr_eq hkn j.2, wp_ok]
    set v := (A ⟨k, hkn⟩ ⟨j.val, j.2⟩).sub (luS L U' ⟨k, hkn⟩ j) with hv
    have hold : ∀ a b : Fin n, ¬ (a.val = k ∧ b.val = j.val) →
        (Matrix.of fun a b : Fin n => if a.val = k ∧ b.val = j.val then v else U' a b) a b =
        U' a b := by
      intro a b h
      rw [Matrix.of_apply, if_neg h]
    have hS : ∀ a : Fin n, a.val ≤ k → luS L (Matrix.of fun a b : Fin n =>
        if a.val = k ∧ b.val = j.val then v else U' a b) a j = luS L U' a j := by
      intro a ha
      refine luS_congr (fun p hp => hold p j ?_) (fun _ _ => rfl)
      rw [Fin.lt_def] at hp
      omega
    refine ⟨?_, ?_⟩
    · intro a b hab
      rw [hold a b (fun h => hab ⟨Fin.ext h.2, by omega⟩)]
      exact h1 a b (fun h => hab ⟨h.1, by omega⟩)
    · intro a ha
      rw [hS a (by omega)]
      by_cases hak : a.val = k
      · have : a = ⟨k, hkn⟩ := Fin.ext hak
        subst this
        rw [Matrix.of_apply, if_pos ⟨rfl, rfl⟩, hv]
      · rw [hold a j (fun h => hak h.1)]
        exact h2 a (by omega)
  · rintro U' ⟨h1, h2⟩
    refine ⟨fun a b h => h1 a b (fun h' => h ⟨h'.1, ?_⟩), fun a ha => h2 a ?_⟩
    · rw [Fin.le_def]; omega
    · rw [Fin.le_def] at ha; omega

theorem luLower_eq (A U L : Mat (Fl F) n n) (j : Fin n) (hu : ¬ Fl.eq (U j j) (ofInt 0) = true) :
    luLower A U j L = .ok (.of fun a b => if b = j ∧ j ≤ a then
      ((A a j).sub (luS L U a j)).div (U j j) else L a b) := by
  unfold luLower
  apply wp_eq
  refine wp_forUp (fun k L' => ∀ a b : Fin n, L' a b = if b = j ∧ j ≤ a ∧ a.val < k then
      ((A a j).sub (luS L U a j)).div (U j j) else L a b) (by omega) ?_ ?_ ?_
  · intro a b
    rw [if_neg]
    rintro ⟨-, h1, h2⟩
    rw [Fin.le_def] at h1
    omega
  · intro k L' hjk hk ih
    have hS : luS L' U ⟨k, hk⟩ j = luS L U ⟨k, hk⟩ j :=
      luS_congr (fun _ _ => rfl) (fun p _ => by
        rw [ih ⟨k, hk⟩ p, if_neg (fun h => lt_irrefl _ h.2.2)])
    rw [luSum_eq L' U ⟨k, hk⟩ j, ok_bind, rd_eq j.2 j.2, ok_bind,
      if_neg (by exact hu), rd_eq hk j.2, ok_bind]
    show wp (wr L' k j (((A ⟨k, hk⟩ j).sub (luS L' U ⟨k, hk⟩ j)).div (U j j))) _ _
    rw [wr_eq hk j.2, wp_ok]
    intro a b
    rw [Matrix.of_apply]
    by_cases hab : a.val = k ∧ b.val = j.val
    · obtain ⟨ha, hb⟩ := hab
      have hb' : b = j := Fin.ext hb
      have ha' : a = ⟨k, hk⟩ := Fin.ext ha
      subst hb'
      rw [if_pos ⟨ha, rfl⟩, if_pos ⟨rfl, by rw [Fin.le_def]; omega, by omega⟩, hS, ha']
    · rw [if_neg hab, ih]
      refine if_congr ⟨fun h => ⟨h.1, h.2.1, by omega⟩, fun h => ⟨h.1, h.2.1, ?_⟩⟩ rfl rfl
      have : b.val = j.val := congrArg Fin.val h.1
      omega
  · intro L' h
    ext a b
    rw [h, Matrix.of_apply]
    exact if_congr ⟨fun h => ⟨h.1, h.2.1⟩, fun h => ⟨h.1, h.2, a.2⟩⟩ rfl rfl

theorem luLower_throws (A U L : Mat (Fl F) n n) (j : Fin n) (hu : Fl.eq (U j j) (ofInt 0) = true) :
    luLower A U j L = .error (.throws divideByZeroException) := by
  unfold luLower
  rw [forUp_first j.2, luSum_eq L U j j, ok_bind, rd_eq j.2 j.2, ok_bind, if_pos (by exact hu), error_bind]

/-- `L` as it was before column `q` was computed. -/
def cut (L : Mat (Fl F) n n) (q : Fin n) : Mat (Fl F) n n :=
  .of fun i p => if p < q then L i p else if i = p then ofInt 1 else ofInt 0

/-- Invariant of `lu` before column `j`. -/
structure LuCells (A : Mat (Fl F) n n) (j : Nat) (L U : Mat (Fl F) n n) : Prop where
  Lcol : ∀ i p : Fin n, j ≤ p.val → L i p = if i = p then ofInt 1 else ofInt 0
  Lupper : ∀ i p : Fin n, i < p → L i p = ofInt 0
  Ulower : ∀ p q : Fin n, q < p → U p q = ofInt 0
  Udiag : ∀ q : Fin n, q.val < j → ¬ Fl.eq (U q q) (ofInt 0) = true
  upper : ∀ i q : Fin n, q.val < j → i ≤ q → U i q = (A i q).sub (luS L U i q)
  lower : ∀ i q : Fin n, q.val < j → q ≤ i →
    L i q = ((A i q).sub (luS (cut L q) U i q)).div (U q q)

theorem wp_lu_step (A : Mat (Fl F) n n) (j : Nat) (hj : j < n) (L U : Mat (Fl F) n n)
    (hs : LuCells A j L U) :
    wp (do
      let U ← luUpper A L j U
      let L ← luLower A U j L
      .ok (L, U)) (fun s => LuCells A (j + 1) s.1 s.2)
        (fun e => e = .throws divideByZeroException) := by
  rw [wp_bind]
  refine wp_mono (wp_luUpper A L U ⟨j, hj⟩) ?_ (fun _ h => h.elim)
  rintro U' ⟨hold, hnew⟩
  have hULow : ∀ p q : Fin n, q < p → U' p q = ofInt 0 := by
    intro p q hqp
    rw [hold p q]
    · exact hs.Ulower p q hqp
    · rintro ⟨rfl, h⟩
      exact absurd hqp (not_lt.mpr h)
  have hUold : ∀ p q : Fin n, q.val ≠ j → U' p q = U p q :=
    fun p q h => hold p q (fun h' => h (congrArg Fin.val h'.1))
  by_cases hu : Fl.eq (U' ⟨j, hj⟩ ⟨j, hj⟩) (ofInt 0) = true
  · rw [luLower_throws A U' L ⟨j, hj⟩ hu, error_bind]
    rfl
  · rw [luLower_eq A U' L ⟨j, hj⟩ hu, ok_bind, wp_ok]
    have hLold : ∀ a b : Fin n, b.val ≠ j → (Matrix.of fun a b => if b = (⟨j, hj⟩ : Fin n) ∧
        (⟨j, hj⟩ : Fin n) ≤ a then ((A a ⟨j, hj⟩).sub (luS L U' a ⟨j, hj⟩)).div (U' ⟨j, hj⟩ ⟨j, hj⟩)
        else L a b) a b = L a b := by
      intro a b hb
      rw [Matrix.of_apply, if_neg (fun h => hb (congrArg Fin.val h.1))]
    have hLrow : ∀ a b : Fin n, a.val < j → (Matrix.of fun a b => if b = (⟨j, hj⟩ : Fin n) ∧
        (⟨j, hj⟩ : Fin n) ≤ a then ((A a ⟨j, hj⟩).sub (luS L U' a ⟨j, hj⟩)).div (U' ⟨j, hj⟩ ⟨j, hj⟩)
        else L a b) a b = L a b := by
      intro a b ha
      rw [Matrix.of_apply, if_neg]
      rintro ⟨-, h⟩
      rw [Fin.le_def] at h
      dsimp only at h
      omega
    have hLnew : ∀ a : Fin n, j ≤ a.val → (Matrix.of fun a b => if b = (⟨j, hj⟩ : Fin n) ∧
        (⟨j, hj⟩ : Fin n) ≤ a then ((A a ⟨j, hj⟩).sub (luS L U' a ⟨j, hj⟩)).div (U' ⟨j, hj⟩ ⟨j, hj⟩)
        else L a b) a ⟨j, hj⟩ =
        ((A a ⟨j, hj⟩).sub (luS L U' a ⟨j, hj⟩)).div (U' ⟨j, hj⟩ ⟨j, hj⟩) := by
      intro a ha
      rw [Matrix.of_apply, if_pos ⟨rfl, ha⟩]
    generalize (Matrix.of fun a b => if b = (⟨j, hj⟩ : Fin n) ∧
        (⟨j, hj⟩ : Fin n) ≤ a then ((A a ⟨j, hj⟩).sub (luS L U' a ⟨j, hj⟩)).div (U' ⟨j, hj⟩ ⟨j, hj⟩)
        else L a b) = L' at hLold hLrow hLnew ⊢
    dsimp only
    refine ⟨?_, ?_, hULow, ?_, ?_, ?_⟩
    · intro i p hp
      rw [hLold i p (by omega)]
      exact hs.Lcol i p (by omega)
    · intro i p hip
      by_cases hpj : p.val = j
      · rw [Fin.lt_def] at hip
        rw [hLrow i p (by omega)]
        exact hs.Lupper i p hip
      · rw [hLold i p hpj]
        exact hs.Lupper i p hip
    · intro q hq
      by_cases hqj : q.val = j
      · have : q = ⟨j, hj⟩ := Fin.ext hqj
        subst this
        exact hu
      · rw [hUold q q hqj]
        exact hs.Udiag q (by omega)
    · intro i q hq hiq
      have hLi : ∀ p : Fin n, p < i → L' i p = L i p := fun p hp => hLold i p (by
        rw [Fin.lt_def] at hp
        rw [Fin.le_def] at hiq
        omega)
      by_cases hqj : q.val = j
      · have : q = ⟨j, hj⟩ := Fin.ext hqj
        subst this
        rw [hnew i hiq]
        congr 1
        exact luS_congr (fun _ _ => rfl) (fun p hp => (hLi p hp).symm)
      · rw [hUold i q hqj, hs.upper i q (by omega) hiq]
        congr 1
        exact luS_congr (fun p _ => (hUold p q hqj).symm) (fun p hp => (hLi p hp).symm)
    · intro i q hq hqi
      by_cases hqj : q.val = j
      · have : q = ⟨j, hj⟩ := Fin.ext hqj
        subst this
        rw [hLnew i hqi]
        congr 2
        refine luS_congr (fun _ _ => rfl) (fun p hp => ?_)
        unfold cut
        rw [Matrix.of_apply]
        split
        · next h =>
          rw [Fin.lt_def] at h
          exact (hLold i p (by dsimp only at h; omega)).symm
        · next h =>
          rw [Fin.lt_def] at h
          exact hs.Lcol i p (by dsimp only at h; omega)
      · rw [hLold i q hqj, hUold q q hqj, hs.lower i q (by omega) hqi]
        congr 2
        refine luS_congr (fun p _ => (hUold p q hqj).symm) (fun p hp => ?_)
        unfold cut
        rw [Matrix.of_apply, Matrix.of_apply]
        split
        · next h =>
          rw [Fin.lt_def] at h
          exact (hLold i p (by omega)).symm
        · rfl

theorem wp_lu (A : Mat (Fl F) n n) : wp (lu A) (fun s => LuCells A n s.1 s.2)
    (fun e => e = .throws divideByZeroException) := by
  unfold lu
  unfold eye1
  rw [eye_ok, ok_bind, zeros_ok, ok_bind]
  refine wp_forUp (fun j s => LuCells A j s.1 s.2) (Nat.zero_le n) ?_ ?_ (fun _ h => h)
  · refine ⟨?_, ?_, ?_, ?_, ?_, ?_⟩
    · intro i p _; rfl
    · intro i p h; exact if_neg (ne_of_lt h)
    · intro p q _; rfl
    · intro q h; omega
    · intro i q h; omega
    · intro i q h; omega
  · intro j s _ hj hs
    exact wp_lu_step A j hj s.1 s.2 hs

/-! ## Values -/

theorem luS_err (L U : Mat (Fl F) n n) (i j : Fin n) (h : (luS L U i j).Finite) :
    |(luS L U i j).val - ∑ p, if p < i then (U p j).val * (L i p).val else 0| ≤
      ((1 + F.u) ^ i.val - 1) * (∑ p, if p < i then |(U p j).val| * |(L i p).val| else 0) +
        i.val * (1 + F.u) ^ (i.val - 1) * F.eta := by
  have := terms_err (n := 1) (m := i.val) (p := 1)
    (.of fun _ p => U ⟨p.val, lt_trans p.2 i.2⟩ j) (.of fun p _ => L i ⟨p.val, lt_trans p.2 i.2⟩)
    0 0 h
  rw [← sum_cut (i := i) (fun p => (U p j).val * (L i p).val),
    ← sum_cut (i := i) (fun p => |(U p j).val| * |(L i p).val|)]
  exact this

theorem one_val : (ofInt 1 : Fl F).Finite ∧ (ofInt 1 : Fl F).val = 1 := by
  have := val_ofInt_exact (F := F) 1 (by
    have := Nat.one_le_two_pow (n := F.p)
    simpa using this)
  simpa using this

/-- A finite number that is not zero divided by itself. -/
theorem div_self_val {a : Fl F} (ha : a.Finite) (h0 : a.val ≠ 0) :
    (a.div a).Finite ∧ (a.div a).val = 1 := by
  have hr := div_rounded ha ha h0
  rw [div_self h0] at hr
  obtain ⟨N, hN, e⟩ := fin_rep (one_val (F := F)).1
  rw [one_val.2] at e
  exact hr.exact N e hN

theorem ne_zero_of_eq {a : Fl F} (ha : a.Finite) (h : ¬ Fl.eq a (ofInt 0) = true) : a.val ≠ 0 := by
  intro h0
  refine h ((eq_iff ha zero_finite).mpr ?_)
  rw [h0, zero_val]

theorem lu_diag {A L U : Mat (Fl F) n n} (hc : LuCells A n L U) (hU : ∀ i j, (U i j).Finite)
    (i : Fin n) : (L i i).val = 1 := by
  have h1 := hc.lower i i i.2 le_rfl
  have h2 : luS (cut L i) U i i = luS L U i i := luS_congr (fun _ _ => rfl) (fun p hp => by
    unfold cut
    rw [Matrix.of_apply, if_pos hp])
  rw [h2, ← hc.upper i i i.2 le_rfl] at h1
  rw [h1]
  exact (div_self_val (hU i i) (ne_zero_of_eq (hU i i) (hc.Udiag i i.2))).2

/-- What the backward error depends on: the equations of `L` and `U`, with sums `S` that are only required to be
accurate. -/
structure LuVals (A L U S : Mat (Fl F) n n) : Prop where
  Ldiag : ∀ i, (L i i).val = 1
  Lupper : ∀ i p : Fin n, i < p → (L i p).val = 0
  Ulower : ∀ p q : Fin n, q < p → (U p q).val = 0
  Udiag : ∀ q, (U q q).val ≠ 0
  upper : ∀ i q : Fin n, i ≤ q → U i q = (A i q).sub (S i q)
  lower : ∀ i q : Fin n, q < i → L i q = ((A i q).sub (S i q)).div (U q q)
  err : ∀ i q : Fin n, (S i q).Finite →
    |(S i q).val - ∑ p, if p < min i q then (L i p).val * (U p q).val else 0| ≤
      ((1 + F.u) ^ i.val - 1) * (∑ p, if p < min i q then |(L i p).val| * |(U p q).val| else 0) +
        i.val * (1 + F.u) ^ (i.val - 1) * F.eta

/-- The terms of the sum below the diagonal: the first ones only matter. -/
theorem cut_terms {c u l : Fin n → ℝ} {i j : Fin n} (hij : j ≤ i) (hu : ∀ p, j < p → u p = 0) (hc : ∀ p, p < j → c p = l p)
    (hcj : j < i → c j = 0) :
    (∑ p, if p < i then u p * c p else 0) = ∑ p, if p < j then l p * u p else 0 := by
  refine Finset.sum_congr rfl (fun p _ => ?_)
  rcases lt_trichotomy p j with hp | hp | hp
  · rw [if_pos (hp.trans_le hij), if_pos hp, hc p hp, mul_comm]
  · subst hp
    rcases hij.eq_or_lt with rfl | hij
    · rw [if_neg (lt_irrefl _), if_neg (lt_irrefl _)]
    · rw [if_pos hij, if_neg (lt_irrefl _), hcj hij, mul_zero]
  · rw [hu p hp, zero_mul, ite_self, if_neg (not_lt.mpr hp.le)]

theorem LuCells.vals {A L U : Mat (Fl F) n n} (hc : LuCells A n L U) (hU : ∀ i j, (U i j).Finite) :
    LuVals A L U (.of fun i j => if i ≤ j then luS L U i j else luS (cut L j) U i j) where
  Ldiag := lu_diag hc hU
  Lupper i p h := by rw [hc.Lupper i p h, zero_val]
  Ulower p q h := by rw [hc.Ulower p q h, zero_val]
  Udiag q := ne_zero_of_eq (hU q q) (hc.Udiag q q.2)
  upper i q h := by rw [Matrix.of_apply, if_pos h]; exact hc.upper i q q.2 h
  lower i q h := by rw [Matrix.of_apply, if_neg (not_le.mpr h)]; exact hc.lower i q q.2 h.le
  err i q := by
    rw [Matrix.of_apply]
    rcases le_or_gt i q with h | h
    · rw [if_pos h, min_eq_left h]
      intro hf
      have := luS_err L U i q hf
      simp only [mul_comm (U _ q).val, mul_comm |(U _ q).val|] at this
      exact this
    · rw [if_neg (not_le.mpr h), min_eq_right h.le]
      intro hf
      have := luS_err (cut L q) U i q hf
      rw [cut_terms (c := fun p => (cut L q i p).val) (l := fun p => (L i p).val) (u := fun p => (U p q).val) h.le
          (fun p hp => by rw [hc.Ulower p q hp, zero_val])
          (fun p hp => by unfold cut; rw [Matrix.of_apply, if_pos hp])
          (fun _ => by unfold cut; rw [Matrix.of_apply, if_neg (lt_irrefl _), if_neg (ne_of_gt h), zero_val]),
        cut_terms (c := fun p => |(cut L q i p).val|) (l := fun p => |(L i p).val|) (u := fun p => |(U p q).val|) h.le
          (fun p hp => by rw [hc.Ulower p q hp, zero_val, abs_zero])
          (fun p hp => by unfold cut; rw [Matrix.of_apply, if_pos hp])
          (fun _ => by
            unfold cut; rw [Matrix.of_apply, if_neg (lt_irrefl _), if_neg (ne_of_gt h), zero_val, abs_zero])] at this
      exact this

theorem LuVals.backward {A L U S : Mat (Fl F) n n} (hc : LuVals A L U S) (hL : ∀ i j, (L i j).Finite)
    (hU : ∀ i j, (U i j).Finite) (i j : Fin n) :
    |(∑ p, (L i p).val * (U p j).val) - (A i j).val| ≤
      ((1 + F.u) ^ n - 1) * (∑ p, |(L i p).val| * |(U p j).val|) +
        (n + |(U j j).val|) * (1 + F.u) ^ n * F.eta := by
  have hu := u_nonneg F
  have he := eta_nonneg F
  have hn : 1 ≤ n := by have := i.2; omega
  have hmono : ∀ {a b : Nat}, a ≤ b → (1 + F.u) ^ a ≤ (1 + F.u) ^ b := fun h =>
    pow_le_pow_right₀ (by linarith) h
  have hone : ∀ a : Nat, 1 ≤ (1 + F.u) ^ a := fun a => one_add_u_pow F a
  have hd := hc.Udiag
  have hone_n : F.u ≤ (1 + F.u) ^ n - 1 := by
    have := hmono hn
    rw [pow_one] at this
    linarith
  -- the term of the bound coming from the sum
  have hunder : ∀ k : Nat, k < n → (k : ℝ) * (1 + F.u) ^ (k - 1) * F.eta ≤
      n * (1 + F.u) ^ n * F.eta := by
    intro k hk
    have h1 : (k : ℝ) ≤ n := by exact_mod_cast hk.le
    have h2 := hmono (show k - 1 ≤ n by omega)
    have h3 := hone (k - 1)
    refine mul_le_mul_of_nonneg_right ?_ he
    exact mul_le_mul h1 h2 (by linarith) (Nat.cast_nonneg _)
  rcases le_or_gt i j with hij | hij
  · -- on and above the diagonal
    have hcell := hc.upper i j hij
    have hf := hU i j
    rw [hcell] at hf
    have hS := (sub_finite hf).2
    have e1 := hc.err i j hS
    rw [min_eq_left hij] at e1
    have e2 := sub_err_res hf
    rw [← hcell] at e2
    have hLi : (L i i).val = 1 := hc.Ldiag i
    have s1 : (∑ p, (L i p).val * (U p j).val) =
        (∑ p, if p < i then (L i p).val * (U p j).val else 0) + (U i j).val := by
      rw [sum_split i _ (fun p hp => by rw [hc.Lupper i p hp, zero_mul]), hLi, one_mul]
    have s2 : (∑ p, |(L i p).val| * |(U p j).val|) =
        (∑ p, if p < i then |(L i p).val| * |(U p j).val| else 0) + |(U i j).val| := by
      rw [sum_split i _ (fun p hp => by rw [hc.Lupper i p hp, abs_zero, zero_mul]), hLi,
        abs_one, one_mul]
    rw [s1, s2]
    have hX : 0 ≤ ∑ p, if p < i then |(L i p).val| * |(U p j).val| else 0 :=
      Finset.sum_nonneg (fun p _ => by split <;> positivity)
    set P := ∑ p, if p < i then (L i p).val * (U p j).val else 0
    set X := ∑ p, if p < i then |(L i p).val| * |(U p j).val| else 0
    have h3 : |P + (U i j).val - (A i j).val| ≤ |(S i j).val - P| +
        |(U i j).val - ((A i j).val - (S i j).val)| := by
      rw [show P + (U i j).val - (A i j).val = -((S i j).val - P) +
        ((U i j).val - ((A i j).val - (S i j).val)) by ring]
      refine (abs_add_le _ _).trans ?_
      rw [abs_neg]
    have h4 := mul_le_mul_of_nonneg_right (sub_le_sub_right (hmono i.2.le) 1) hX
    have h5 := mul_le_mul_of_nonneg_right hone_n (abs_nonneg (U i j).val)
    have h6 := hunder i.val i.2
    have h7 : 0 ≤ |(U j j).val| * (1 + F.u) ^ n * F.eta := by
      have := hone n
      positivity
    nlinarith
  · -- below the diagonal
    have hcell := hc.lower i j hij
    have hf := hL i j
    rw [hcell] at hf
    have ht := div_finite_left hf
    have hS := (sub_finite ht).2
    have e1 := hc.err i j hS
    rw [min_eq_right hij.le] at e1
    have e2 := sub_err_res ht
    have e3 := div_err_res (hU j j) (hd j) hf
    rw [← hcell] at e3
    set t := (A i j).sub (S i j)
    generalize S i j = S at *
    have s1 : (∑ p, (L i p).val * (U p j).val) =
        (∑ p, if p < j then (L i p).val * (U p j).val else 0) + (L i j).val * (U j j).val :=
      sum_split j _ (fun p hp => by rw [hc.Ulower p j hp, mul_zero])
    have s2 : (∑ p, |(L i p).val| * |(U p j).val|) =
        (∑ p, if p < j then |(L i p).val| * |(U p j).val| else 0) + |(L i j).val| * |(U j j).val| :=
      sum_split j _ (fun p hp => by rw [hc.Ulower p j hp, abs_zero, mul_zero])
    rw [s1, s2]
    have hX : 0 ≤ ∑ p, if p < j then |(L i p).val| * |(U p j).val| else 0 :=
      Finset.sum_nonneg (fun p _ => by split <;> positivity)
    set P := ∑ p, if p < j then (L i p).val * (U p j).val else 0
    set X := ∑ p, if p < j then |(L i p).val| * |(U p j).val| else 0
    have e4 : |(L i j).val * (U j j).val - t.val| ≤ (F.u * |(L i j).val| + F.eta) * |(U j j).val| := by
      have := mul_le_mul_of_nonneg_right e3 (abs_nonneg (U j j).val)
      rw [← abs_mul, sub_mul, div_mul_cancel₀ _ (hd j)] at this
      exact this
    have e5 : |t.val| ≤ |(L i j).val| * |(U j j).val| +
        (F.u * |(L i j).val| + F.eta) * |(U j j).val| := by
      have h1 := abs_sub_abs_le_abs_sub t.val ((L i j).val * (U j j).val)
      rw [abs_sub_comm, abs_mul] at h1
      linarith
    have h3 : |P + (L i j).val * (U j j).val - (A i j).val| ≤ |S.val - P| +
        |t.val - ((A i j).val - S.val)| + |(L i j).val * (U j j).val - t.val| := by
      rw [show P + (L i j).val * (U j j).val - (A i j).val = -(S.val - P) +
        (t.val - ((A i j).val - S.val)) + ((L i j).val * (U j j).val - t.val) by ring]
      refine (abs_add_three _ _ _).trans ?_
      rw [abs_neg]
    have hn2 : 2 ≤ n := by
      have := i.2
      rw [Fin.lt_def] at hij
      omega
    have h4 := mul_le_mul_of_nonneg_right (sub_le_sub_right (hmono i.2.le) 1) hX
    have h5 : (1 + F.u) ^ 2 ≤ (1 + F.u) ^ n := hmono hn2
    have h5' : (1 + F.u) ≤ (1 + F.u) ^ n := by
      have := hmono hn
      rwa [pow_one] at this
    have h6 := hunder i.val i.2
    have hLU : 0 ≤ |(L i j).val| * |(U j j).val| := by positivity
    have h7 := mul_le_mul_of_nonneg_right (sub_le_sub_right h5 1) hLU
    have h8 : (1 + F.u) * (|(U j j).val| * F.eta) ≤ (1 + F.u) ^ n * (|(U j j).val| * F.eta) :=
      mul_le_mul_of_nonneg_right h5' (by positivity)
    have h9 := mul_le_mul_of_nonneg_left e5 hu
    calc _ ≤ _ := h3
      _ ≤ (((1 + F.u) ^ i.val - 1) * X + i.val * (1 + F.u) ^ (i.val - 1) * F.eta) +
          F.u * (|(L i j).val| * |(U j j).val| + (F.u * |(L i j).val| + F.eta) * |(U j j).val|) +
          (F.u * |(L i j).val| + F.eta) * |(U j j).val| := by linarith
      _ = (((1 + F.u) ^ i.val - 1) * X) + i.val * (1 + F.u) ^ (i.val - 1) * F.eta +
          ((1 + F.u) ^ 2 - 1) * (|(L i j).val| * |(U j j).val|) +
          (1 + F.u) * (|(U j j).val| * F.eta) := by ring
      _ ≤ ((1 + F.u) ^ n - 1) * X + n * (1 + F.u) ^ n * F.eta +
          ((1 + F.u) ^ n - 1) * (|(L i j).val| * |(U j j).val|) +
          (1 + F.u) ^ n * (|(U j j).val| * F.eta) := by linarith
      _ = _ := by ring

/-- Backward error of the computed factors. -/
theorem lu_backward {A L U : Mat (Fl F) n n} (hc : LuCells A n L U) (hL : ∀ i j, (L i j).Finite)
    (hU : ∀ i j, (U i j).Finite) (i j : Fin n) :
    |(∑ p, (L i p).val * (U p j).val) - (A i j).val| ≤
      ((1 + F.u) ^ n - 1) * (∑ p, |(L i p).val| * |(U p j).val|) +
        (n + |(U j j).val|) * (1 + F.u) ^ n * F.eta :=
  (hc.vals hU).backward hL hU i j

end Fl
end MatrixLibs
