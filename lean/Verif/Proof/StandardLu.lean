import Verif.Proof.Standard
import Verif.Proof.FloatChol

/-!
# Error analysis in the standard model: factorisations

First the loops, for every arithmetic: what the elements of the factors were computed from. Then the rounding errors, in real
numbers.
-/

namespace MatrixLibs

set_option linter.unusedSectionVars false

open CScalar (ofInt)

namespace Standard

section Loops
variable {T : Type} [Inhabited T] [CScalar T] {n : Nat}

/-! ## LU -/

theorem luSum_congr {L U L' U' : Mat T n n} {i j : Fin n} (hU : ∀ p, p < i → U p j = U' p j)
    (hL : ∀ p, p < i → L i p = L' i p) : luSum L U i j = luSum L' U' i j := by
  unfold luSum
  refine forUp_congr fun k s _ hk => ?_
  have hk' : k < n := lt_trans hk i.2
  rw [rd_eq hk' j.2, rd_eq hk' j.2, rd_eq i.2 hk', rd_eq i.2 hk']
  have h1 := hU ⟨k, hk'⟩ hk
  have h2 := hL ⟨k, hk'⟩ hk
  show (Except.ok (U ⟨k, hk'⟩ j) >>= fun x => Except.ok (L i ⟨k, hk'⟩) >>= fun y => _) = _
  rw [h1, h2]

/-- `v` is the element `(i, j)` of `A` less the sum. -/
def UpCell (A L U : Mat T n n) (i j : Fin n) (v : T) : Prop := ∃ s, luSum L U i j = .ok s ∧ CScalar.sub (A i j) s = .ok v

/-- `v` is the element `(i, j)` of `A` less the sum, divided by `w`. -/
def LowCell (A L U : Mat T n n) (i j : Fin n) (w v : T) : Prop := ∃ t, UpCell A L U i j t ∧ CScalar.div t w = .ok v

theorem UpCell.congr {A L U L' U' : Mat T n n} {i j : Fin n} {v : T} (h : UpCell A L U i j v)
    (hU : ∀ p, p < i → U p j = U' p j) (hL : ∀ p, p < i → L i p = L' i p) : UpCell A L' U' i j v := by
  obtain ⟨s, h1, h2⟩ := h
  exact ⟨s, by rw [← luSum_congr hU hL]; exact h1, h2⟩

theorem LowCell.congr {A L U L' U' : Mat T n n} {i j : Fin n} {w v : T} (h : LowCell A L U i j w v)
    (hU : ∀ p, p < i → U p j = U' p j) (hL : ∀ p, p < i → L i p = L' i p) : LowCell A L' U' i j w v := by
  obtain ⟨t, h1, h2⟩ := h
  exact ⟨t, h1.congr hU hL, h2⟩

/-- What the first inner loop makes of column `j` of `U`. -/
def UpperPost (A L U : Mat T n n) (j : Fin n) (U' : Mat T n n) : Prop :=
  (∀ a b, ¬ (b = j ∧ a ≤ j) → U' a b = U a b) ∧ ∀ a, a ≤ j → UpCell A L U' a j (U' a j)

theorem wp_luUpper (A L U : Mat T n n) (j : Fin n) :
    wp (luUpper A L j U) (UpperPost A L U j) (fun _ => True) := by
  unfold luUpper
  refine wp_forUp (fun k U' => (∀ a b, ¬ (b = j ∧ a.val < k) → U' a b = U a b) ∧
    ∀ a : Fin n, a.val < k → UpCell A L U' a j (U' a j)) (Nat.zero_le _)
    ⟨fun _ _ _ => rfl, fun a h => by omega⟩ ?_ ?_
  · rintro k U' - hk ⟨h1, h2⟩
    have hkn : k < n := by have := j.2; omega
    cases hs : luSum L U' k j with
    | error _ => trivial
    | ok s =>
    rw [ok_bind, rd_eq hkn j.2, ok_bind]
    cases hv : CScalar.sub (A ⟨k, hkn⟩ ⟨j.val, j.2⟩) s with
    | error _ => trivial
    | ok v =>
    rw [ok_bind, wr_eq hkn j.2, wp_ok]
    have hold : ∀ a b : Fin n, ¬ (a.val = k ∧ b.val = j.val) →
        (Matrix.of fun a b : Fin n => if a.val = k ∧ b.val = j.val then v else U' a b) a b =
        U' a b := by
      intro a b h
      rw [Matrix.of_apply, if_neg h]
    have hkeep : ∀ (a : Fin n) (x : T), a.val ≤ k → UpCell A L U' a j x → UpCell A L (Matrix.of fun a b : Fin n =>
        if a.val = k ∧ b.val = j.val then v else U' a b) a j x := by
      intro a x ha hx
      refine hx.congr (fun p hp => (hold p j ?_).symm) (fun _ _ => rfl)
      rw [Fin.lt_def] at hp
      omega
    refine ⟨?_, ?_⟩
    · intro a b hab
      rw [hold a b (fun h => hab ⟨Fin.ext h.2, by omega⟩)]
      exact h1 a b (fun h => hab ⟨h.1, by omega⟩)
    · intro a ha
      refine hkeep a _ (by omega) ?_
      by_cases hak : a.val = k
      · have : a = ⟨k, hkn⟩ := Fin.ext hak
        subst this
        rw [Matrix.of_apply, if_pos ⟨rfl, rfl⟩]
        exact ⟨s, hs, hv⟩
      · rw [hold a j (fun h => hak h.1)]
        exact h2 a (by omega)
  · rintro U' ⟨h1, h2⟩
    refine ⟨fun a b h => h1 a b (fun h' => h ⟨h'.1, ?_⟩), fun a ha => h2 a ?_⟩
    · rw [Fin.le_def]; omega
    · rw [Fin.le_def] at ha; omega

/-- What the second inner loop makes of column `j` of `L`. -/
def LowerPost (A U L : Mat T n n) (j : Fin n) (L' : Mat T n n) : Prop :=
  ¬ CScalar.eq (U j j) (ofInt 0) = true ∧
  (∀ a b, ¬ (b = j ∧ j ≤ a) → L' a b = L a b) ∧ ∀ a, j ≤ a → LowCell A L U a j (U j j) (L' a j)

theorem wp_luLower (A U L : Mat T n n) (j : Fin n) :
    wp (luLower A U j L) (LowerPost A U L j) (fun _ => True) := by
  unfold luLower
  refine wp_forUp (fun k L' => (j.val < k → ¬ CScalar.eq (U j j) (ofInt 0) = true) ∧
    (∀ a b : Fin n, ¬ (b = j ∧ j ≤ a ∧ a.val < k) → L' a b = L a b) ∧
    ∀ a : Fin n, j ≤ a → a.val < k → LowCell A L U a j (U j j) (L' a j)) (by omega) ?_ ?_ ?_
  · exact ⟨fun h => absurd h (lt_irrefl _), fun _ _ _ => rfl, fun a h1 h2 => by rw [Fin.le_def] at h1; omega⟩
  · rintro k L' hjk hk ⟨-, h1, h2⟩
    cases hs : luSum L' U k j with
    | error _ => trivial
    | ok s =>
    rw [ok_bind, rd_eq j.2 j.2, ok_bind]
    have hs' : luSum L U (⟨k, hk⟩ : Fin n) j = .ok s := by
      rw [← hs]
      exact luSum_congr (i := ⟨k, hk⟩) (fun _ _ => rfl) fun p _ => (h1 ⟨k, hk⟩ p (fun h => lt_irrefl _ h.2.2)).symm
    by_cases hu : CScalar.eq (U j j) (ofInt 0) = true
    · rw [if_pos (by exact hu)]
      trivial
    rw [if_neg (by exact hu), rd_eq hk j.2, ok_bind]
    cases ht : CScalar.sub (A ⟨k, hk⟩ ⟨j.val, j.2⟩) s with
    | error _ => trivial
    | ok t =>
    rw [ok_bind]
    cases hv : CScalar.div t (U j j) with
    | error _ => trivial
    | ok v =>
    rw [ok_bind, wr_eq hk j.2, wp_ok]
    refine ⟨fun _ => hu, ?_, ?_⟩
    · intro a b hab
      rw [Matrix.of_apply, if_neg]
      · exact h1 a b fun h => hab ⟨h.1, h.2.1, by omega⟩
      · rintro ⟨ha, hb⟩
        exact hab ⟨Fin.ext hb, by rw [Fin.le_def]; omega, by omega⟩
    · intro a ha hak
      by_cases hka : a.val = k
      · have : a = ⟨k, hk⟩ := Fin.ext hka
        subst this
        rw [Matrix.of_apply, if_pos ⟨rfl, rfl⟩]
        exact ⟨t, ⟨s, hs', ht⟩, hv⟩
      · rw [Matrix.of_apply, if_neg (fun h => hka h.1)]
        exact h2 a ha (by omega)
  · rintro L' ⟨h0, h1, h2⟩
    exact ⟨h0 j.2, fun a b h => h1 a b (fun h' => h ⟨h'.1, h'.2.1⟩), fun a ha => h2 a ha a.2⟩

/-- `L` as it was before column `q` was computed. -/
def cut (L : Mat T n n) (q : Fin n) : Mat T n n :=
  .of fun i p => if p < q then L i p else if i = p then ofInt 1 else ofInt 0

/-- Invariant of `lu` before column `j`. -/
structure LuCells (A : Mat T n n) (j : Nat) (L U : Mat T n n) : Prop where
  Lcol : ∀ i p : Fin n, j ≤ p.val → L i p = if i = p then ofInt 1 else ofInt 0
  Lupper : ∀ i p : Fin n, i < p → L i p = ofInt 0
  Ulower : ∀ p q : Fin n, q < p → U p q = ofInt 0
  Udiag : ∀ q : Fin n, q.val < j → ¬ CScalar.eq (U q q) (ofInt 0) = true
  upper : ∀ i q : Fin n, q.val < j → i ≤ q → UpCell A L U i q (U i q)
  lower : ∀ i q : Fin n, q.val < j → q ≤ i → LowCell A (cut L q) U i q (U q q) (L i q)

theorem wp_lu_step (A : Mat T n n) (j : Nat) (hj : j < n) (L U : Mat T n n) (hs : LuCells A j L U) :
    wp (do
      let U ← luUpper A L j U
      let L ← luLower A U j L
      .ok (L, U)) (fun s => LuCells A (j + 1) s.1 s.2) (fun _ => True) := by
  rw [wp_bind]
  refine wp_mono (wp_luUpper A L U ⟨j, hj⟩) ?_ (fun _ h => h)
  rintro U' ⟨hold, hnew⟩
  rw [wp_bind]
  refine wp_mono (wp_luLower A U' L ⟨j, hj⟩) ?_ (fun _ h => h)
  rintro L' ⟨hu, hLkeep, hLnew⟩
  rw [wp_ok]
  have hULow : ∀ p q : Fin n, q < p → U' p q = ofInt 0 := by
    intro p q hqp
    rw [hold p q]
    · exact hs.Ulower p q hqp
    · rintro ⟨rfl, h⟩
      exact absurd hqp (not_lt.mpr h)
  have hUold : ∀ p q : Fin n, q.val ≠ j → U' p q = U p q :=
    fun p q h => hold p q (fun h' => h (congrArg Fin.val h'.1))
  have hLold : ∀ a b : Fin n, b.val ≠ j → L' a b = L a b :=
    fun a b hb => hLkeep a b (fun h => hb (congrArg Fin.val h.1))
  have hLrow : ∀ a b : Fin n, a.val < j → L' a b = L a b := by
    intro a b ha
    refine hLkeep a b ?_
    rintro ⟨-, h⟩
    rw [Fin.le_def] at h
    dsimp only at h
    omega
  dsimp only
  refine ⟨?_, ?_, hULow, ?_, ?_, ?_⟩
  · intro i p hp
    rw [hLold i p (by omega)]
    exact hs.Lcol i p (by omega)
  · intro i p hip
    by_cases hpj : p.val = j
    · rw [Fin.lt_def] at hip
      rw [hLrow i p (by omega)]
      exact hs.Lupper i p hip
    · rw [hLold i p hpj]
      exact hs.Lupper i p hip
  · intro q hq
    by_cases hqj : q.val = j
    · have : q = ⟨j, hj⟩ := Fin.ext hqj
      subst this
      exact hu
    · rw [hUold q q hqj]
      exact hs.Udiag q (by omega)
  · intro i q hq hiq
    have hLi : ∀ p : Fin n, p < i → L i p = L' i p := fun p hp => (hLold i p (by
      rw [Fin.lt_def] at hp
      rw [Fin.le_def] at hiq
      omega)).symm
    by_cases hqj : q.val = j
    · have : q = ⟨j, hj⟩ := Fin.ext hqj
      subst this
      exact (hnew i hiq).congr (fun _ _ => rfl) hLi
    · rw [hUold i q hqj]
      exact (hs.upper i q (by omega) hiq).congr (fun p _ => (hUold p q hqj).symm) hLi
  · intro i q hq hqi
    by_cases hqj : q.val = j
    · have : q = ⟨j, hj⟩ := Fin.ext hqj
      subst this
      refine (hLnew i hqi).congr (fun _ _ => rfl) (fun p hp => ?_)
      unfold cut
      rw [Matrix.of_apply]
      split
      · next h =>
        rw [Fin.lt_def] at h
        exact (hLold i p (by dsimp only at h; omega)).symm
      · next h =>
        rw [Fin.lt_def] at h
        exact hs.Lcol i p (by dsimp only at h; omega)
    · rw [hLold i q hqj, hUold q q hqj]
      refine (hs.lower i q (by omega) hqi).congr (fun p _ => (hUold p q hqj).symm) (fun p hp => ?_)
      unfold cut
      rw [Matrix.of_apply, Matrix.of_apply]
      split
      · next h =>
        rw [Fin.lt_def] at h
        exact (hLold i p (by omega)).symm
      · rfl

theorem wp_lu (A : Mat T n n) : wp (lu A) (fun s => LuCells A n s.1 s.2) (fun _ => True) := by
  unfold lu
  unfold eye1
  rw [eye_ok, ok_bind, zeros_ok, ok_bind]
  refine wp_forUp (fun j s => LuCells A j s.1 s.2) (Nat.zero_le n) ?_ ?_ (fun _ h => h)
  · refine ⟨?_, ?_, ?_, ?_, ?_, ?_⟩
    · intro i p _; rfl
    · intro i p h; exact if_neg (ne_of_lt h)
    · intro p q _; rfl
    · intro q h; omega
    · intro i q h; omega
    · intro i q h; omega
  · intro j s _ hj hs
    exact wp_lu_step A j hj s.1 s.2 hs

/-! ## Cholesky -/

theorem cholSum_congr {L L' : Mat T n n} {i j : Fin n} (h1 : ∀ p, p < i → L i p = L' i p)
    (h2 : ∀ p, p < i → L j p = L' j p) : cholSum L i j = cholSum L' i j := by
  unfold cholSum
  refine forUp_congr fun k s _ hk => ?_
  have hk' : k < n := lt_trans hk i.2
  rw [rd_eq i.2 hk', rd_eq i.2 hk', rd_eq j.2 hk', rd_eq j.2 hk']
  show (Except.ok (L i ⟨k, hk'⟩) >>= fun x => Except.ok (L j ⟨k, hk'⟩) >>= fun y => _) = _
  rw [h1 ⟨k, hk'⟩ hk, h2 ⟨k, hk'⟩ hk]

/-- `v` is the element `(i, j)` of `A` less the sum. -/
def CholT (A L : Mat T n n) (i j : Fin n) (v : T) : Prop := ∃ s, cholSum L i j = .ok s ∧ CScalar.sub (A i j) s = .ok v

theorem CholT.congr {A L L' : Mat T n n} {i j : Fin n} {v : T} (h : CholT A L i j v) (h1 : ∀ p, p < i → L i p = L' i p)
    (h2 : ∀ p, p < i → L j p = L' j p) : CholT A L' i j v := by
  obtain ⟨s, h3, h4⟩ := h
  exact ⟨s, by rw [← cholSum_congr h1 h2]; exact h3, h4⟩

/-- `L` as it was before the element `(a, b)` was computed, as far as rows up to `a` matter. -/
def cutRow (L : Mat T n n) (a b : Fin n) : Mat T n n := .of fun x y => if x = a ∧ b ≤ y then ofInt 0 else L x y

/-- Invariant of `chol` before the element `(i, j)`. -/
structure CholCells (A : Mat T n n) (i j : Nat) (L : Mat T n n) : Prop where
  upper : ∀ a b : Fin n, a < b → L a b = ofInt 0
  undone : ∀ a b : Fin n, ¬ (a.val < i ∨ (a.val = i ∧ b.val < j)) → L a b = ofInt 0
  diag : ∀ a : Fin n, (a.val < i ∨ (a.val = i ∧ a.val < j)) → ∃ t, CholT A L a a t ∧ CScalar.sqrt t = .ok (L a a)
  off : ∀ a b : Fin n, (a.val < i ∨ (a.val = i ∧ b.val < j)) → b < a →
    ∃ t, CholT A (cutRow L a b) a b t ∧ CScalar.div t (L b b) = .ok (L a b)

/-- What the element `(i, j)` is computed from. -/
def CholNew (A L : Mat T n n) (i j : Fin n) (v : T) : Prop :=
  ∃ t, CholT A L i j t ∧ if j = i then CScalar.sqrt t = .ok v else CScalar.div t (L j j) = .ok v

theorem wp_cholStep (A L : Mat T n n) (i j : Fin n) :
    wp (cholStep A i j L) (fun L' => ∃ v, CholNew A L i j v ∧
      L' = .of fun a b => if a.val = i.val ∧ b.val = j.val then v else L a b) (fun _ => True) := by
  unfold cholStep
  by_cases h : j = i
  · subst h
    rw [if_pos rfl]
    cases hs : cholSum L j j with
    | error _ => trivial
    | ok s =>
    rw [ok_bind, rd_eq j.2 j.2, ok_bind]
    cases ht : CScalar.sub (A ⟨j, j.2⟩ ⟨j, j.2⟩) s with
    | error _ => trivial
    | ok t =>
    rw [ok_bind]
    cases hv : CScalar.sqrt t with
    | error _ => trivial
    | ok v =>
    rw [ok_bind, wr_eq j.2 j.2, wp_ok]
    exact ⟨v, ⟨t, ⟨s, hs, ht⟩, by rw [if_pos rfl]; exact hv⟩, rfl⟩
  · rw [if_neg (fun e => h (Fin.ext e))]
    cases hs : cholSum L i j with
    | error _ => trivial
    | ok s =>
    rw [ok_bind, rd_eq i.2 j.2, ok_bind]
    cases ht : CScalar.sub (A ⟨i, i.2⟩ ⟨j, j.2⟩) s with
    | error _ => trivial
    | ok t =>
    rw [ok_bind, rd_eq j.2 j.2, ok_bind]
    cases hv : CScalar.div t (L ⟨j, j.2⟩ ⟨j, j.2⟩) with
    | error _ => trivial
    | ok v =>
    rw [ok_bind, wr_eq i.2 j.2, wp_ok]
    exact ⟨v, ⟨t, ⟨s, hs, ht⟩, by rw [if_neg h]; exact hv⟩, rfl⟩

theorem chol_step (A L : Mat T n n) (i j : Fin n) (hji : j ≤ i) (hs : CholCells A i j L) {v : T} (hv : CholNew A L i j v) :
    CholCells A i (j + 1) (.of fun a b => if a.val = i.val ∧ b.val = j.val then v else L a b) := by
  rw [Fin.le_def] at hji
  generalize hL' : (Matrix.of fun a b : Fin n => if a.val = i.val ∧ b.val = j.val then v else L a b) = L'
  have hold : ∀ a b : Fin n, ¬ (a = i ∧ b = j) → L' a b = L a b := by
    intro a b h
    rw [← hL', Matrix.of_apply, if_neg (fun e => h ⟨Fin.ext e.1, Fin.ext e.2⟩)]
  have hnew : L' i j = v := by
    rw [← hL', Matrix.of_apply, if_pos ⟨rfl, rfl⟩]
  obtain ⟨t, ht, hv⟩ := hv
  refine ⟨?_, ?_, ?_, ?_⟩
  · intro a b hab
    rw [hold a b]
    · exact hs.upper a b hab
    · rintro ⟨rfl, rfl⟩
      rw [Fin.lt_def] at hab
      omega
  · intro a b hab
    rw [hold a b]
    · exact hs.undone a b (by omega)
    · rintro ⟨rfl, rfl⟩
      exact hab (.inr ⟨rfl, by omega⟩)
  · intro a ha
    by_cases hai : a = i
    · subst hai
      have hj : j = a := Fin.ext (by omega)
      subst hj
      rw [hnew]
      rw [if_pos rfl] at hv
      have : ∀ p : Fin n, p < j → L j p = L' j p := fun p hp => (hold j p (fun e => by
        rw [e.2] at hp
        exact lt_irrefl _ hp)).symm
      exact ⟨t, ht.congr this this, hv⟩
    · have hai' : a.val ≠ i.val := fun e => hai (Fin.ext e)
      have : ∀ p : Fin n, L' a p = L a p := fun p => hold a p (fun e => hai e.1)
      rw [this]
      obtain ⟨t, h1, h2⟩ := hs.diag a (by omega)
      exact ⟨t, h1.congr (fun p _ => (this p).symm) (fun p _ => (this p).symm), h2⟩
  · intro a b hab hba
    have hb : ∀ p : Fin n, L' b p = L b p := fun p => hold b p (fun e => by
      rw [e.1, Fin.lt_def] at hba
      omega)
    rw [hb b]
    have hne : b ≠ a := ne_of_lt hba
    have hbcut : ∀ M : Mat T n n, ∀ p, cutRow M a b b p = M b p := by
      intro M p
      unfold cutRow
      rw [Matrix.of_apply, if_neg (fun e => hne e.1)]
    by_cases hc : a = i ∧ b = j
    · obtain ⟨rfl, rfl⟩ := hc
      rw [hnew]
      rw [if_neg hne] at hv
      refine ⟨t, ht.congr (fun p hp => ?_) (fun p _ => ?_), hv⟩
      · unfold cutRow
        rw [Matrix.of_apply]
        split
        · next h =>
          have := h.2
          rw [Fin.le_def] at this
          exact hs.undone a p (by omega)
        · next h =>
          exact (hold a p (fun e => h ⟨rfl, by rw [e.2]⟩)).symm
      · rw [hbcut, hb]
    · rw [hold a b hc]
      obtain ⟨t, h1, h2⟩ := hs.off a b (by
        rcases hab with h | ⟨h1, h2⟩
        · exact .inl h
        · refine .inr ⟨h1, ?_⟩
          have : b.val ≠ j.val := fun e => hc ⟨Fin.ext h1, Fin.ext e⟩
          omega) hba
      refine ⟨t, h1.congr (fun p hp => ?_) (fun p _ => ?_), h2⟩
      · unfold cutRow
        rw [Matrix.of_apply, Matrix.of_apply]
        split
        · rfl
        · next h =>
          refine (hold a p ?_).symm
          rintro ⟨rfl, rfl⟩
          refine h ⟨rfl, ?_⟩
          rw [Fin.le_def]
          rcases hab with h | ⟨h1, h2⟩ <;> omega
      · rw [hbcut, hbcut, hb]

theorem wp_chol (A : Mat T n n) : wp (chol A) (CholCells A n 0) (fun _ => True) := by
  unfold chol
  refine wp_forUp (fun i L => CholCells A i 0 L) (Nat.zero_le n) ?_ ?_ (fun _ h => h)
  · refine ⟨fun _ _ _ => rfl, fun _ _ _ => rfl, ?_, ?_⟩
    · intro a h; omega
    · intro a b h; omega
  · intro i L _ hi hs
    refine wp_forUp (fun j L => CholCells A i j L) (Nat.zero_le _) hs ?_ ?_
    · intro j L _ hj hs
      refine wp_mono (wp_cholStep A L ⟨i, hi⟩ ⟨j, by omega⟩) ?_ fun _ h => h
      rintro L' ⟨v, hv, rfl⟩
      exact chol_step A L ⟨i, hi⟩ ⟨j, by omega⟩ (by rw [Fin.le_def]; dsimp only; omega) hs hv
    · intro L h
      refine ⟨h.upper, fun a b hab => ?_, fun a ha => ?_, fun a b hab hba => ?_⟩
      · by_cases h1 : a.val = i ∧ b.val < i + 1
        · omega
        · by_cases h2 : a.val = i
          · exact h.upper a b (by rw [Fin.lt_def]; omega)
          · exact h.undone a b (by omega)
      · exact h.diag a (by omega)
      · rw [Fin.lt_def] at hba
        exact h.off a b (by omega) hba

end Loops

/-! ## Backward error, in real numbers -/

section Real
variable {n : Nat} {u e d : ℝ}

/-- The equations of `L` and `U`, up to rounding. -/
structure LuVals (u e d : ℝ) (A L U : Mat ℝ n n) : Prop where
  Ldiag : ∀ i, L i i = 1
  Lupper : ∀ i p : Fin n, i < p → L i p = 0
  Ulower : ∀ p q : Fin n, q < p → U p q = 0
  Udiag : ∀ q, U q q ≠ 0
  upper : ∀ i q : Fin n, i ≤ q → ∃ S,
    |S - ∑ p, if p < i then L i p * U p q else 0| ≤
      ((1 + u) ^ i.val - 1) * (∑ p, if p < i then |L i p| * |U p q| else 0) + i.val * (1 + u) ^ (i.val - 1) * (e + d) ∧
    |U i q - (A i q - S)| ≤ u * |U i q| + d
  lower : ∀ i q : Fin n, q < i → ∃ S t,
    |S - ∑ p, if p < q then L i p * U p q else 0| ≤
      ((1 + u) ^ i.val - 1) * (∑ p, if p < q then |L i p| * |U p q| else 0) + i.val * (1 + u) ^ (i.val - 1) * (e + d) ∧
    |t - (A i q - S)| ≤ u * |t| + d ∧ |L i q - t / U q q| ≤ u * |L i q| + e

theorem under (hu : 0 ≤ u) (he : 0 ≤ e) (hd : 0 ≤ d) {k : Nat} (hk : k < n) :
    (k : ℝ) * (1 + u) ^ (k - 1) * (e + d) + d ≤ n * (1 + u) ^ n * (e + d) := by
  have h0 : 0 ≤ e + d := add_nonneg he hd
  have h1 : (k : ℝ) + 1 ≤ n := by exact_mod_cast hk
  have h2 : (1 + u) ^ (k - 1) ≤ (1 + u) ^ n := pow_le_pow_right₀ (by linarith) (by omega)
  have h3 : 1 ≤ (1 + u) ^ n := one_le_pow₀ (by linarith)
  have h4 : (k : ℝ) * (1 + u) ^ (k - 1) ≤ k * (1 + u) ^ n := mul_le_mul_of_nonneg_left h2 (Nat.cast_nonneg _)
  have h5 := mul_le_mul_of_nonneg_right h4 h0
  have h6 : d ≤ (1 + u) ^ n * (e + d) := by nlinarith
  have h7 := mul_le_mul_of_nonneg_right h1 (mul_nonneg (by linarith : 0 ≤ (1 + u) ^ n) h0)
  nlinarith

theorem LuVals.backward (hu : 0 ≤ u) (he : 0 ≤ e) (hd' : 0 ≤ d) {A L U : Mat ℝ n n} (hc : LuVals u e d A L U) (i j : Fin n) :
    |(∑ p, L i p * U p j) - A i j| ≤
      ((1 + u) ^ n - 1) * (∑ p, |L i p| * |U p j|) + (n + |U j j|) * (1 + u) ^ n * (e + d) := by
  have hn : 1 ≤ n := by have := i.2; omega
  have hmono : ∀ {a b : Nat}, a ≤ b → (1 + u) ^ a ≤ (1 + u) ^ b := fun h =>
    pow_le_pow_right₀ (by linarith) h
  have hone : ∀ a : Nat, 1 ≤ (1 + u) ^ a := fun a => one_le_pow₀ (by linarith)
  have hd := hc.Udiag
  have hone_n : u ≤ (1 + u) ^ n - 1 := by
    have := hmono hn
    rw [pow_one] at this
    linarith
  have hη : 0 ≤ e + d := add_nonneg he hd'
  rcases le_or_gt i j with hij | hij
  · -- on and above the diagonal
    obtain ⟨S, e1, e2⟩ := hc.upper i j hij
    have hLi : L i i = 1 := hc.Ldiag i
    have s1 : (∑ p, L i p * U p j) = (∑ p, if p < i then L i p * U p j else 0) + U i j := by
      rw [sum_split i _ (fun p hp => by rw [hc.Lupper i p hp, zero_mul]), hLi, one_mul]
    have s2 : (∑ p, |L i p| * |U p j|) = (∑ p, if p < i then |L i p| * |U p j| else 0) + |U i j| := by
      rw [sum_split i _ (fun p hp => by rw [hc.Lupper i p hp, abs_zero, zero_mul]), hLi,
        abs_one, one_mul]
    rw [s1, s2]
    have hX : 0 ≤ ∑ p, if p < i then |L i p| * |U p j| else 0 :=
      Finset.sum_nonneg (fun p _ => by split <;> positivity)
    set P := ∑ p, if p < i then L i p * U p j else 0
    set X := ∑ p, if p < i then |L i p| * |U p j| else 0
    have h3 : |P + U i j - A i j| ≤ |S - P| + |U i j - (A i j - S)| := by
      rw [show P + U i j - A i j = -(S - P) + (U i j - (A i j - S)) by ring]
      refine (abs_add_le _ _).trans ?_
      rw [abs_neg]
    have h4 := mul_le_mul_of_nonneg_right (sub_le_sub_right (hmono i.2.le) 1) hX
    have h5 := mul_le_mul_of_nonneg_right hone_n (abs_nonneg (U i j))
    have h6 := under hu he hd' i.2
    have h7 : 0 ≤ |U j j| * (1 + u) ^ n * (e + d) := by
      have := hone n
      positivity
    calc _ ≤ _ := h3
      _ ≤ ((1 + u) ^ n - 1) * X + n * (1 + u) ^ n * (e + d) + ((1 + u) ^ n - 1) * |U i j| +
          |U j j| * (1 + u) ^ n * (e + d) := by linarith
      _ = _ := by ring
  · -- below the diagonal
    obtain ⟨S, t, e1, e2, e3⟩ := hc.lower i j hij
    have s1 : (∑ p, L i p * U p j) = (∑ p, if p < j then L i p * U p j else 0) + L i j * U j j :=
      sum_split j _ (fun p hp => by rw [hc.Ulower p j hp, mul_zero])
    have s2 : (∑ p, |L i p| * |U p j|) = (∑ p, if p < j then |L i p| * |U p j| else 0) + |L i j| * |U j j| :=
      sum_split j _ (fun p hp => by rw [hc.Ulower p j hp, abs_zero, mul_zero])
    rw [s1, s2]
    have hX : 0 ≤ ∑ p, if p < j then |L i p| * |U p j| else 0 :=
      Finset.sum_nonneg (fun p _ => by split <;> positivity)
    set P := ∑ p, if p < j then L i p * U p j else 0
    set X := ∑ p, if p < j then |L i p| * |U p j| else 0
    have e4 : |L i j * U j j - t| ≤ (u * |L i j| + e) * |U j j| := by
      have := mul_le_mul_of_nonneg_right e3 (abs_nonneg (U j j))
      rw [← abs_mul, sub_mul, div_mul_cancel₀ _ (hd j)] at this
      exact this
    have e5 : |t| ≤ |L i j| * |U j j| + (u * |L i j| + e) * |U j j| := by
      have h1 := abs_sub_abs_le_abs_sub t (L i j * U j j)
      rw [abs_sub_comm, abs_mul] at h1
      linarith
    have h3 : |P + L i j * U j j - A i j| ≤ |S - P| + |t - (A i j - S)| + |L i j * U j j - t| := by
      rw [show P + L i j * U j j - A i j = -(S - P) + (t - (A i j - S)) + (L i j * U j j - t) by ring]
      refine (abs_add_three _ _ _).trans ?_
      rw [abs_neg]
    have hn2 : 2 ≤ n := by
      have := i.2
      rw [Fin.lt_def] at hij
      omega
    have h4 := mul_le_mul_of_nonneg_right (sub_le_sub_right (hmono i.2.le) 1) hX
    have h5 : (1 + u) ^ 2 ≤ (1 + u) ^ n := hmono hn2
    have h5' : (1 + u) ≤ (1 + u) ^ n := by
      have := hmono hn
      rwa [pow_one] at this
    have h6 := under hu he hd' i.2
    have hLU : 0 ≤ |L i j| * |U j j| := by positivity
    have h7 := mul_le_mul_of_nonneg_right (sub_le_sub_right h5 1) hLU
    have h8 : (1 + u) * (|U j j| * (e + d)) ≤ (1 + u) ^ n * (|U j j| * (e + d)) :=
      mul_le_mul_of_nonneg_right h5' (by positivity)
    have h8' : (1 + u) * (|U j j| * e) ≤ (1 + u) * (|U j j| * (e + d)) := by
      have : |U j j| * e ≤ |U j j| * (e + d) := mul_le_mul_of_nonneg_left (by linarith) (abs_nonneg _)
      exact mul_le_mul_of_nonneg_left this (by linarith)
    have h9 := mul_le_mul_of_nonneg_left e5 hu
    calc _ ≤ _ := h3
      _ ≤ (((1 + u) ^ i.val - 1) * X + i.val * (1 + u) ^ (i.val - 1) * (e + d)) +
          (u * (|L i j| * |U j j| + (u * |L i j| + e) * |U j j|) + d) +
          (u * |L i j| + e) * |U j j| := by linarith
      _ = (((1 + u) ^ i.val - 1) * X) + (i.val * (1 + u) ^ (i.val - 1) * (e + d) + d) +
          ((1 + u) ^ 2 - 1) * (|L i j| * |U j j|) + (1 + u) * (|U j j| * e) := by ring
      _ ≤ ((1 + u) ^ n - 1) * X + n * (1 + u) ^ n * (e + d) +
          ((1 + u) ^ n - 1) * (|L i j| * |U j j|) + (1 + u) ^ n * (|U j j| * (e + d)) := by linarith
      _ = _ := by ring

/-- The equations of the Cholesky factor, up to rounding. -/
structure CholVals (u e d : ℝ) (A L : Mat ℝ n n) : Prop where
  upper : ∀ a b : Fin n, a < b → L a b = 0
  diag : ∀ i : Fin n, ∃ S t,
    |S - ∑ p, if p < i then L i p * L i p else 0| ≤
      ((1 + u) ^ i.val - 1) * (∑ p, if p < i then |L i p| * |L i p| else 0) + i.val * (1 + u) ^ (i.val - 1) * (e + d) ∧
    |t - (A i i - S)| ≤ u * |t| + d ∧ 0 ≤ t ∧ 0 ≤ L i i ∧ |L i i - Real.sqrt t| ≤ u * L i i
  off : ∀ i j : Fin n, j < i → ∃ S t,
    |S - ∑ p, if p < j then L i p * L j p else 0| ≤
      ((1 + u) ^ i.val - 1) * (∑ p, if p < j then |L i p| * |L j p| else 0) + i.val * (1 + u) ^ (i.val - 1) * (e + d) ∧
    |t - (A i j - S)| ≤ u * |t| + d ∧ L j j ≠ 0 ∧ |L i j - t / L j j| ≤ u * |L i j| + e

theorem CholVals.backward (hu : 0 ≤ u) (hu1 : u < 1) (he : 0 ≤ e) (hd' : 0 ≤ d) {A L : Mat ℝ n n} (hc : CholVals u e d A L)
    (i j : Fin n) (hji : j ≤ i) :
    |(∑ p, L i p * L j p) - A i j| ≤
      ((1 + u) ^ (n + 2) - 1) * (∑ p, |L i p| * |L j p|) + (n + |L j j|) * (1 + u) ^ n * (e + d) := by
  have hn : 1 ≤ n := by have := i.2; omega
  have hmono : ∀ {a b : Nat}, a ≤ b → (1 + u) ^ a ≤ (1 + u) ^ b := fun h =>
    pow_le_pow_right₀ (by linarith) h
  have hone : ∀ a : Nat, 1 ≤ (1 + u) ^ a := fun a => one_le_pow₀ (by linarith)
  have hη : 0 ≤ e + d := add_nonneg he hd'
  rcases hji.eq_or_lt with rfl | hij
  · -- on the diagonal
    obtain ⟨S, t, e1, e2, ht0, hl0, e3⟩ := hc.diag j
    set l := L j j with hl
    rw [abs_le] at e3
    have hr := Real.sqrt_nonneg t
    have hrt : t = Real.sqrt t * Real.sqrt t := (Real.mul_self_sqrt ht0).symm
    set r := Real.sqrt t
    have f1 : t ≤ (1 + u) ^ 2 * (l * l) := by
      rw [hrt]
      calc r * r ≤ ((1 + u) * l) * ((1 + u) * l) :=
            mul_self_le_mul_self hr (by linarith)
        _ = _ := by ring
    have f2 : (1 - u) ^ 2 * (l * l) ≤ t := by
      rw [hrt]
      calc _ = ((1 - u) * l) * ((1 - u) * l) := by ring
        _ ≤ _ := mul_self_le_mul_self (mul_nonneg (by linarith) hl0) (by linarith)
    have hll : 0 ≤ l * l := mul_nonneg hl0 hl0
    have e4 : |l * l - t| ≤ ((1 + u) ^ 2 - 1) * (l * l) := by
      rw [abs_le]
      constructor
      · linarith
      · have : 0 ≤ 2 * u ^ 2 * (l * l) := by positivity
        nlinarith
    have s1 : (∑ p, L j p * L j p) = (∑ p, if p < j then L j p * L j p else 0) + l * l :=
      sum_split j _ (fun p hp => by rw [hc.upper j p hp, zero_mul])
    have s2 : (∑ p, |L j p| * |L j p|) = (∑ p, if p < j then |L j p| * |L j p| else 0) + l * l := by
      rw [sum_split j _ (fun p hp => by rw [hc.upper j p hp, abs_zero, zero_mul]),
        abs_mul_abs_self]
    rw [s1, s2]
    have hX : 0 ≤ ∑ p, if p < j then |L j p| * |L j p| else 0 :=
      Finset.sum_nonneg (fun p _ => by split <;> positivity)
    set P := ∑ p, if p < j then L j p * L j p else 0
    set X := ∑ p, if p < j then |L j p| * |L j p| else 0
    have h3 : |P + l * l - A j j| ≤ |S - P| + |t - (A j j - S)| + |l * l - t| := by
      rw [show P + l * l - A j j = -(S - P) + (t - (A j j - S)) + (l * l - t) by ring]
      refine (abs_add_three _ _ _).trans ?_
      rw [abs_neg]
    rw [abs_of_nonneg ht0] at e2
    have h4 := mul_le_mul_of_nonneg_right
      (sub_le_sub_right (hmono (show j.val ≤ n + 2 by omega)) 1) hX
    have h5 := mul_le_mul_of_nonneg_right
      (sub_le_sub_right (hmono (show 3 ≤ n + 2 by omega)) 1) hll
    have h6 := under hu he hd' j.2
    have h7 : 0 ≤ |l| * (1 + u) ^ n * (e + d) := by
      have := hone n
      positivity
    have h8 := mul_le_mul_of_nonneg_left f1 hu
    calc _ ≤ _ := h3
      _ ≤ (((1 + u) ^ j.val - 1) * X + j.val * (1 + u) ^ (j.val - 1) * (e + d)) +
          (u * ((1 + u) ^ 2 * (l * l)) + d) + ((1 + u) ^ 2 - 1) * (l * l) := by linarith
      _ = ((1 + u) ^ j.val - 1) * X + (j.val * (1 + u) ^ (j.val - 1) * (e + d) + d) +
          ((1 + u) ^ 3 - 1) * (l * l) := by ring
      _ ≤ ((1 + u) ^ (n + 2) - 1) * X + n * (1 + u) ^ n * (e + d) +
          ((1 + u) ^ (n + 2) - 1) * (l * l) + |l| * (1 + u) ^ n * (e + d) := by linarith
      _ = _ := by ring
  · -- below the diagonal
    obtain ⟨S, t, e1, e2, hd, e3⟩ := hc.off i j hij
    have s1 : (∑ p, L i p * L j p) = (∑ p, if p < j then L i p * L j p else 0) + L i j * L j j :=
      sum_split j _ (fun p hp => by rw [hc.upper j p hp, mul_zero])
    have s2 : (∑ p, |L i p| * |L j p|) = (∑ p, if p < j then |L i p| * |L j p| else 0) + |L i j| * |L j j| :=
      sum_split j _ (fun p hp => by rw [hc.upper j p hp, abs_zero, mul_zero])
    rw [s1, s2]
    have hX : 0 ≤ ∑ p, if p < j then |L i p| * |L j p| else 0 :=
      Finset.sum_nonneg (fun p _ => by split <;> positivity)
    set P := ∑ p, if p < j then L i p * L j p else 0
    set X := ∑ p, if p < j then |L i p| * |L j p| else 0
    have e4 : |L i j * L j j - t| ≤ (u * |L i j| + e) * |L j j| := by
      have := mul_le_mul_of_nonneg_right e3 (abs_nonneg (L j j))
      rw [← abs_mul, sub_mul, div_mul_cancel₀ _ hd] at this
      exact this
    have e5 : |t| ≤ |L i j| * |L j j| + (u * |L i j| + e) * |L j j| := by
      have h1 := abs_sub_abs_le_abs_sub t (L i j * L j j)
      rw [abs_sub_comm, abs_mul] at h1
      linarith
    have h3 : |P + L i j * L j j - A i j| ≤ |S - P| + |t - (A i j - S)| + |L i j * L j j - t| := by
      rw [show P + L i j * L j j - A i j = -(S - P) + (t - (A i j - S)) + (L i j * L j j - t) by ring]
      refine (abs_add_three _ _ _).trans ?_
      rw [abs_neg]
    have h4 := mul_le_mul_of_nonneg_right
      (sub_le_sub_right (hmono (show i.val ≤ n + 2 by omega)) 1) hX
    have h5' : (1 + u) ≤ (1 + u) ^ n := by
      have := hmono hn
      rwa [pow_one] at this
    have h6 := under hu he hd' i.2
    have hLU : 0 ≤ |L i j| * |L j j| := by positivity
    have h7 := mul_le_mul_of_nonneg_right
      (sub_le_sub_right (hmono (show 2 ≤ n + 2 by omega)) 1) hLU
    have h8 : (1 + u) * (|L j j| * (e + d)) ≤ (1 + u) ^ n * (|L j j| * (e + d)) :=
      mul_le_mul_of_nonneg_right h5' (by positivity)
    have h8' : (1 + u) * (|L j j| * e) ≤ (1 + u) * (|L j j| * (e + d)) := by
      have : |L j j| * e ≤ |L j j| * (e + d) := mul_le_mul_of_nonneg_left (by linarith) (abs_nonneg _)
      exact mul_le_mul_of_nonneg_left this (by linarith)
    have h9 := mul_le_mul_of_nonneg_left e5 hu
    calc _ ≤ _ := h3
      _ ≤ (((1 + u) ^ i.val - 1) * X + i.val * (1 + u) ^ (i.val - 1) * (e + d)) +
          (u * (|L i j| * |L j j| + (u * |L i j| + e) * |L j j|) + d) +
          (u * |L i j| + e) * |L j j| := by linarith
      _ = (((1 + u) ^ i.val - 1) * X) + (i.val * (1 + u) ^ (i.val - 1) * (e + d) + d) +
          ((1 + u) ^ 2 - 1) * (|L i j| * |L j j|) + (1 + u) * (|L j j| * e) := by ring
      _ ≤ ((1 + u) ^ (n + 2) - 1) * X + n * (1 + u) ^ n * (e + d) +
          ((1 + u) ^ (n + 2) - 1) * (|L i j| * |L j j|) + (1 + u) ^ n * (|L j j| * (e + d)) := by linarith
      _ = _ := by ring

end Real

/-! ## The factors in the standard model -/

variable {T : Type} [Inhabited T] [CScalar T] [Standard T] {n : Nat}

theorem luSum_err {L U : Mat T n n} {i j : Fin n} {s : T} (hs : luSum L U i j = .ok s) :
    |val s - ∑ p, if p < i then val (U p j) * val (L i p) else 0| ≤
      ((1 + u T) ^ i.val - 1) * (∑ p, if p < i then |val (U p j)| * |val (L i p)| else 0) +
        i.val * (1 + u T) ^ (i.val - 1) * h T := by
  rw [← sum_cut (i := i) (fun p => val (U p j) * val (L i p)), ← sum_cut (i := i) (fun p => |val (U p j)| * |val (L i p)|)]
  unfold luSum at hs
  have h2 := wp_ok_elim (wp_sums (k := i.val) _ _ _ _ (fun k _ => wp_rd_val U k j.val) fun k _ => wp_rd_val L i.val k) hs
  exact h2.err_fin (fun k => dif_pos ⟨lt_trans k.2 i.2, j.2⟩) fun k => dif_pos ⟨i.2, lt_trans k.2 i.2⟩

theorem cholSum_err {L : Mat T n n} {i j : Fin n} {s : T} (hs : cholSum L i j = .ok s) :
    |val s - ∑ p, if p < i then val (L i p) * val (L j p) else 0| ≤
      ((1 + u T) ^ i.val - 1) * (∑ p, if p < i then |val (L i p)| * |val (L j p)| else 0) +
        i.val * (1 + u T) ^ (i.val - 1) * h T := by
  rw [← sum_cut (i := i) (fun p => val (L i p) * val (L j p)), ← sum_cut (i := i) (fun p => |val (L i p)| * |val (L j p)|)]
  unfold cholSum at hs
  have h2 := wp_ok_elim (wp_sums (k := i.val) _ _ _ _ (fun k _ => wp_rd_val L i.val k) fun k _ => wp_rd_val L j.val k) hs
  exact h2.err_fin (fun k => dif_pos ⟨i.2, lt_trans k.2 i.2⟩) fun k => dif_pos ⟨j.2, lt_trans k.2 i.2⟩

theorem LuCells.vals {A L U : Mat T n n} (hc : LuCells A n L U) :
    LuVals (u T) (e T) (d T) (A.map val) (L.map val) (U.map val) where
  Ldiag i := by
    obtain ⟨t, ⟨s, h1, h2⟩, h3⟩ := hc.lower i i i.2 le_rfl
    obtain ⟨s', h1', h2'⟩ := hc.upper i i i.2 le_rfl
    have : luSum (cut L i) U i i = luSum L U i i := luSum_congr (fun _ _ => rfl) (fun p hp => by
      unfold cut
      rw [Matrix.of_apply, if_pos hp])
    rw [this, h1'] at h1
    cases h1
    rw [h2'] at h2
    cases h2
    exact div_self h3
  Lupper i p h := by rw [Matrix.map_apply, hc.Lupper i p h, zero]
  Ulower p q h := by rw [Matrix.map_apply, hc.Ulower p q h, zero]
  Udiag q := by
    obtain ⟨t, -, h⟩ := hc.lower q q q.2 le_rfl
    exact (div h).1
  upper i q h := by
    obtain ⟨s, h1, h2⟩ := hc.upper i q q.2 h
    refine ⟨val s, ?_, (sub h2).res⟩
    have := luSum_err h1
    simp only [mul_comm (val (U _ q)), mul_comm |val (U _ q)|] at this
    exact this
  lower i q hq := by
    obtain ⟨t, ⟨s, h1, h2⟩, h3⟩ := hc.lower i q q.2 hq.le
    refine ⟨val s, val t, ?_, (sub h2).res, (div h3).2.res⟩
    have := luSum_err h1
    rw [Fl.cut_terms (c := fun p => val (cut L q i p)) (l := fun p => val (L i p)) (u := fun p => val (U p q)) hq.le
        (fun p hp => by rw [hc.Ulower p q hp, zero])
        (fun p hp => by unfold cut; rw [Matrix.of_apply, if_pos hp])
        (fun _ => by unfold cut; rw [Matrix.of_apply, if_neg (lt_irrefl _), if_neg (ne_of_gt hq), zero]),
      Fl.cut_terms (c := fun p => |val (cut L q i p)|) (l := fun p => |val (L i p)|) (u := fun p => |val (U p q)|) hq.le
        (fun p hp => by rw [hc.Ulower p q hp, zero, abs_zero])
        (fun p hp => by unfold cut; rw [Matrix.of_apply, if_pos hp])
        (fun _ => by
          unfold cut; rw [Matrix.of_apply, if_neg (lt_irrefl _), if_neg (ne_of_gt hq), zero, abs_zero])] at this
    exact this

theorem CholCells.vals {A L : Mat T n n} (hc : CholCells A n 0 L) :
    CholVals (u T) (e T) (d T) (A.map val) (L.map val) where
  upper a b h := by rw [Matrix.map_apply, hc.upper a b h, zero]
  diag a := by
    obtain ⟨t, ⟨s, h1, h2⟩, h3⟩ := hc.diag a (.inl a.2)
    obtain ⟨h4, h5, h6⟩ := sqrt h3
    exact ⟨val s, val t, cholSum_err h1, (sub h2).res, h4, h5, h6⟩
  off i j hij := by
    obtain ⟨t, ⟨s, h1, h2⟩, h3⟩ := hc.off i j (.inl i.2) hij
    obtain ⟨h4, h5⟩ := div h3
    refine ⟨val s, val t, ?_, (sub h2).res, h4, h5.res⟩
    have := cholSum_err h1
    have hrow : ∀ p, cutRow L i j j p = L j p := by
      intro p
      unfold cutRow
      rw [Matrix.of_apply, if_neg (fun e => ne_of_lt hij e.1)]
    have hlt : ∀ p, p < j → cutRow L i j i p = L i p := by
      intro p hp
      unfold cutRow
      rw [Matrix.of_apply, if_neg (fun e => absurd hp (not_lt.mpr e.2))]
    have hge : ∀ p, ¬ p < j → val (cutRow L i j i p) = 0 := by
      intro p hp
      unfold cutRow
      rw [Matrix.of_apply, if_pos ⟨rfl, not_lt.mp hp⟩, zero]
    rw [Fl.cutRow_terms (c := fun p => val (cutRow L i j i p)) (l := fun p => val (L i p))
        (d := fun p => val (cutRow L i j j p)) (u := fun p => val (L j p)) hij.le
        (fun p hp => by rw [hlt p hp]) (fun _ p hp => hge p hp) (fun p => by rw [hrow p]),
      Fl.cutRow_terms (c := fun p => |val (cutRow L i j i p)|) (l := fun p => |val (L i p)|)
        (d := fun p => |val (cutRow L i j j p)|) (u := fun p => |val (L j p)|) hij.le
        (fun p hp => by rw [hlt p hp]) (fun _ p hp => by rw [hge p hp, abs_zero]) (fun p => by rw [hrow p])] at this
    exact this

theorem lu_err {A L U : Mat T n n} (hlu : lu A = .ok (L, U)) (i j : Fin n) :
    |(∑ p, val (L i p) * val (U p j)) - val (A i j)| ≤
      ((1 + u T) ^ n - 1) * (∑ p, |val (L i p)| * |val (U p j)|) + (n + |val (U j j)|) * (1 + u T) ^ n * h T :=
  (wp_ok_elim (wp_lu A) hlu).vals.backward u_nonneg e_nonneg d_nonneg i j

theorem chol_err {A L : Mat T n n} (hch : chol A = .ok L) (i j : Fin n) (hij : j ≤ i) :
    |(∑ p, val (L i p) * val (L j p)) - val (A i j)| ≤
      ((1 + u T) ^ (n + 2) - 1) * (∑ p, |val (L i p)| * |val (L j p)|) + (n + |val (L j j)|) * (1 + u T) ^ n * h T :=
  (wp_ok_elim (wp_chol A) hch).vals.backward u_nonneg u_lt_one e_nonneg d_nonneg i j hij

end Standard
end MatrixLibs
