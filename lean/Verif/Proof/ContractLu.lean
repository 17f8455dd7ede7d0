import Verif.Proof.ContractDet
import Verif.Proof.FloatChol

/-!
# Factorisations with contraction

The loops are the same as in `Verif.Proof.FloatLu` and `Verif.Proof.FloatChol`, with expressions for numbers.
-/

namespace MatrixLibs

set_option linter.unusedSectionVars false

namespace Fused
variable {F : Fmt} {o : Ex F → Fuse} {n : Nat}

/-! ## Operations -/

def add (x y : Fused o) : Fused o := Ex.add x y
def sub (x y : Fused o) : Fused o := Ex.sub x y
def mul (x y : Fused o) : Fused o := Ex.mul x y
def div (x y : Fused o) : Fused o := Ex.div x y
def sqrt (x : Fused o) : Fused o := Ex.sqrt x
def ofInt (k : Int) : Fused o := Ex.val 0 (Fl.ofInt k)
def eq (x y : Fused o) : Bool := x.get.eq y.get
def total (l : List (Fused o)) : Fused o := l.foldl add (ofInt 0)

/-! ## LU -/

/-- The computed `Σ_{p < i} U[p][j] * L[i][p]`. -/
def luS (L U : Mat (Fused o) n n) (i j : Fin n) : Fused o :=
  total ((List.finRange i.val).map fun p =>
    (U ⟨p.val, lt_trans p.2 i.2⟩ j).mul (L i ⟨p.val, lt_trans p.2 i.2⟩))

theorem luS_congr {L U L' U' : Mat (Fused o) n n} {i j : Fin n} (hU : ∀ p, p < i → U p j = U' p j)
    (hL : ∀ p, p < i → L i p = L' i p) : luS L U i j = luS L' U' i j := by
  unfold luS
  congr 2
  funext p
  rw [hU _ p.2, hL _ p.2]

theorem luSum_eq (L U : Mat (Fused o) n n) (i j : Fin n) : luSum L U i j = .ok (luS L U i j) := by
  unfold luSum
  rw [forUp_foldlM]
  unfold luS total
  rw [List.foldl_map]
  refine foldlM_ok _ _ _ (fun (s : Fused o) (p : Fin i.val) =>
    s.add ((U ⟨p.val, lt_trans p.2 i.2⟩ j).mul (L i ⟨p.val, lt_trans p.2 i.2⟩))) ?_
  intro s p
  rw [rd_eq (lt_trans p.2 i.2) j.2, ok_bind, rd_eq i.2 (lt_trans p.2 i.2)]
  rfl

/-- What the first inner loop makes of column `j` of `U`. -/
def UpperPost (A L U : Mat (Fused o) n n) (j : Fin n) (U' : Mat (Fused o) n n) : Prop :=
  (∀ a b, ¬ (b = j ∧ a ≤ j) → U' a b = U a b) ∧
  ∀ a, a ≤ j → U' a j = (A a j).sub (luS L U' a j)

theorem wp_luUpper (A L U : Mat (Fused o) n n) (j : Fin n) :
    wp (luUpper A L j U) (UpperPost A L U j) (fun _ => False) := by
  unfold luUpper
  refine wp_forUp (fun k U' => (∀ a b, ¬ (b = j ∧ a.val < k) → U' a b = U a b) ∧
    ∀ a : Fin n, a.val < k → U' a j = (A a j).sub (luS L U' a j)) (Nat.zero_le _)
    ⟨fun _ _ _ => rfl, fun a h => by omega⟩ ?_ ?_
  · rintro k U' - hk ⟨h1, h2⟩
    have hkn : k < n := by have := j.2; omega
    rw [luSum_eq L U' ⟨k, hkn⟩ j, ok_bind, rd_eq hkn j.2, ok_bind]
    show wp ((Except.ok ((A ⟨k, hkn⟩ ⟨j.val, j.2⟩).sub (luS L U' ⟨k, hkn⟩ j)) : Res (Fused o)) >>= _) _ _
    rw [ok_bind, wr_eq hkn j.2, wp_ok]
    set v := (A ⟨k, hkn⟩ ⟨j.val, j.2⟩).sub (luS L U' ⟨k, hkn⟩ j) with hv
    have hold : ∀ a b : Fin n, ¬ (a.val = k ∧ b.val = j.val) →
        (Matrix.of fun a b : Fin n => if a.val = k ∧ b.val = j.val then v else U' a b) a b =
        U' a b := by
      intro a b h
      rw [Matrix.of_apply, if_neg h]
    have hS : ∀ a : Fin n, a.val ≤ k → luS L (Matrix.of fun a b : Fin n =>
        if a.val = k ∧ b.val = j.val then v else U' a b) a j = luS L U' a j := by
      intro a ha
      refine luS_congr (fun p hp => hold p j ?_) (fun _ _ => rfl)
      rw [Fin.lt_def] at hp
      omega
    refine ⟨?_, ?_⟩
    · intro a b hab
      rw [hold a b (fun h => hab ⟨Fin.ext h.2, by omega⟩)]
      exact h1 a b (fun h => hab ⟨h.1, by omega⟩)
    · intro a ha
      rw [hS a (by omega)]
      by_cases hak : a.val = k
      · have : a = ⟨k, hkn⟩ := Fin.ext hak
        subst this
        rw [Matrix.of_apply, if_pos ⟨rfl, rfl⟩, hv]
      · rw [hold a j (fun h => hak h.1)]
        exact h2 a (by omega)
  · rintro U' ⟨h1, h2⟩
    refine ⟨fun a b h => h1 a b (fun h' => h ⟨h'.1, ?_⟩), fun a ha => h2 a ?_⟩
    · rw [Fin.le_def]; omega
    · rw [Fin.le_def] at ha; omega

theorem luLower_eq (A U L : Mat (Fused o) n n) (j : Fin n) (hu : ¬ Fused.eq (U j j) (ofInt 0) = true) :
    luLower A U j L = .ok (.of fun a b => if b = j ∧ j ≤ a then
      ((A a j).sub (luS L U a j)).div (U j j) else L a b) := by
  unfold luLower
  apply wp_eq
  refine wp_forUp (fun k L' => ∀ a b : Fin n, L' a b = if b = j ∧ j ≤ a ∧ a.val < k then
      ((A a j).sub (luS L U a j)).div (U j j) else L a b) (by omega) ?_ ?_ ?_
  · intro a b
    rw [if_neg]
    rintro ⟨-, h1, h2⟩
    rw [Fin.le_def] at h1
    omega
  · intro k L' hjk hk ih
    have hS : luS L' U ⟨k, hk⟩ j = luS L U ⟨k, hk⟩ j :=
      luS_congr (fun _ _ => rfl) (fun p _ => by
        rw [ih ⟨k, hk⟩ p, if_neg (fun h => lt_irrefl _ h.2.2)])
    rw [luSum_eq L' U ⟨k, hk⟩ j, ok_bind, rd_eq j.2 j.2, ok_bind,
      if_neg (by exact hu), rd_eq hk j.2, ok_bind]
    show wp (wr L' k j (((A ⟨k, hk⟩ j).sub (luS L' U ⟨k, hk⟩ j)).div (U j j))) _ _
    rw [wr_eq hk j.2, wp_ok]
    intro a b
    rw [Matrix.of_apply]
    by_cases hab : a.val = k ∧ b.val = j.val
    · obtain ⟨ha, hb⟩ := hab
      have hb' : b = j := Fin.ext hb
      have ha' : a = ⟨k, hk⟩ := Fin.ext ha
      subst hb'
      rw [if_pos ⟨ha, rfl⟩, if_pos ⟨rfl, by rw [Fin.le_def]; omega, by omega⟩, hS, ha']
    · rw [if_neg hab, ih]
      refine if_congr ⟨fun h => ⟨h.1, h.2.1, by omega⟩, fun h => ⟨h.1, h.2.1, ?_⟩⟩ rfl rfl
      have : b.val = j.val := congrArg Fin.val h.1
      omega
  · intro L' h
    ext a b
    rw [h, Matrix.of_apply]
    exact if_congr ⟨fun h => ⟨h.1, h.2.1⟩, fun h => ⟨h.1, h.2, a.2⟩⟩ rfl rfl

theorem luLower_throws (A U L : Mat (Fused o) n n) (j : Fin n) (hu : Fused.eq (U j j) (ofInt 0) = true) :
    luLower A U j L = .error (.throws divideByZeroException) := by
  unfold luLower
  rw [forUp_first j.2, luSum_eq L U j j, ok_bind, rd_eq j.2 j.2, ok_bind, if_pos (by exact hu), error_bind]

/-- `L` as it was before column `q` was computed. -/
def cut (L : Mat (Fused o) n n) (q : Fin n) : Mat (Fused o) n n :=
  .of fun i p => if p < q then L i p else if i = p then ofInt 1 else ofInt 0

/-- Invariant of `lu` before column `j`. -/
structure LuCells (A : Mat (Fused o) n n) (j : Nat) (L U : Mat (Fused o) n n) : Prop where
  Lcol : ∀ i p : Fin n, j ≤ p.val → L i p = if i = p then ofInt 1 else ofInt 0
  Lupper : ∀ i p : Fin n, i < p → L i p = ofInt 0
  Ulower : ∀ p q : Fin n, q < p → U p q = ofInt 0
  Udiag : ∀ q : Fin n, q.val < j → ¬ Fused.eq (U q q) (ofInt 0) = true
  upper : ∀ i q : Fin n, q.val < j → i ≤ q → U i q = (A i q).sub (luS L U i q)
  lower : ∀ i q : Fin n, q.val < j → q ≤ i →
    L i q = ((A i q).sub (luS (cut L q) U i q)).div (U q q)

theorem wp_lu_step (A : Mat (Fused o) n n) (j : Nat) (hj : j < n) (L U : Mat (Fused o) n n)
    (hs : LuCells A j L U) :
    wp (do
      let U ← luUpper A L j U
      let L ← luLower A U j L
      .ok (L, U)) (fun s => LuCells A (j + 1) s.1 s.2)
        (fun e => e = .throws divideByZeroException) := by
  rw [wp_bind]
  refine wp_mono (wp_luUpper A L U ⟨j, hj⟩) ?_ (fun _ h => h.elim)
  rintro U' ⟨hold, hnew⟩
  have hULow : ∀ p q : Fin n, q < p → U' p q = ofInt 0 := by
    intro p q hqp
    rw [hold p q]
    · exact hs.Ulower p q hqp
    · rintro ⟨rfl, h⟩
      exact absurd hqp (not_lt.mpr h)
  have hUold : ∀ p q : Fin n, q.val ≠ j → U' p q = U p q :=
    fun p q h => hold p q (fun h' => h (congrArg Fin.val h'.1))
  by_cases hu : Fused.eq (U' ⟨j, hj⟩ ⟨j, hj⟩) (ofInt 0) = true
  · rw [luLower_throws A U' L ⟨j, hj⟩ hu, error_bind]
    rfl
  · rw [luLower_eq A U' L ⟨j, hj⟩ hu, ok_bind, wp_ok]
    have hLold : ∀ a b : Fin n, b.val ≠ j → (Matrix.of fun a b => if b = (⟨j, hj⟩ : Fin n) ∧
        (⟨j, hj⟩ : Fin n) ≤ a then ((A a ⟨j, hj⟩).sub (luS L U' a ⟨j, hj⟩)).div (U' ⟨j, hj⟩ ⟨j, hj⟩)
        else L a b) a b = L a b := by
      intro a b hb
      rw [Matrix.of_apply, if_neg (fun h => hb (congrArg Fin.val h.1))]
    have hLrow : ∀ a b : Fin n, a.val < j → (Matrix.of fun a b => if b = (⟨j, hj⟩ : Fin n) ∧
        (⟨j, hj⟩ : Fin n) ≤ a then ((A a ⟨j, hj⟩).sub (luS L U' a ⟨j, hj⟩)).div (U' ⟨j, hj⟩ ⟨j, hj⟩)
        else L a b) a b = L a b := by
      intro a b ha
      rw [Matrix.of_apply, if_neg]
      rintro ⟨-, h⟩
      rw [Fin.le_def] at h
      dsimp only at h
      omega
    have hLnew : ∀ a : Fin n, j ≤ a.val → (Matrix.of fun a b => if b = (⟨j, hj⟩ : Fin n) ∧
        (⟨j, hj⟩ : Fin n) ≤ a then ((A a ⟨j, hj⟩).sub (luS L U' a ⟨j, hj⟩)).div (U' ⟨j, hj⟩ ⟨j, hj⟩)
        else L a b) a ⟨j, hj⟩ =
        ((A a ⟨j, hj⟩).sub (luS L U' a ⟨j, hj⟩)).div (U' ⟨j, hj⟩ ⟨j, hj⟩) := by
      intro a ha
      rw [Matrix.of_apply, if_pos ⟨rfl, ha⟩]
    generalize (Matrix.of fun a b => if b = (⟨j, hj⟩ : Fin n) ∧
        (⟨j, hj⟩ : Fin n) ≤ a then ((A a ⟨j, hj⟩).sub (luS L U' a ⟨j, hj⟩)).div (U' ⟨j, hj⟩ ⟨j, hj⟩)
        else L a b) = L' at hLold hLrow hLnew ⊢
    dsimp only
    refine ⟨?_, ?_, hULow, ?_, ?_, ?_⟩
    · intro i p hp
      rw [hLold i p (by omega)]
      exact hs.Lcol i p (by omega)
    · intro i p hip
      by_cases hpj : p.val = j
      · rw [Fin.lt_def] at hip
        rw [hLrow i p (by omega)]
        exact hs.Lupper i p hip
      · rw [hLold i p hpj]
        exact hs.Lupper i p hip
    · intro q hq
      by_cases hqj : q.val = j
      · have : q = ⟨j, hj⟩ := Fin.ext hqj
        subst this
        exact hu
      · rw [hUold q q hqj]
        exact hs.Udiag q (by omega)
    · intro i q hq hiq
      have hLi : ∀ p : Fin n, p < i → L' i p = L i p := fun p hp => hLold i p (by
        rw [Fin.lt_def] at hp
        rw [Fin.le_def] at hiq
        omega)
      by_cases hqj : q.val = j
      · have : q = ⟨j, hj⟩ := Fin.ext hqj
        subst this
        rw [hnew i hiq]
        congr 1
        exact luS_congr (fun _ _ => rfl) (fun p hp => (hLi p hp).symm)
      · rw [hUold i q hqj, hs.upper i q (by omega) hiq]
        congr 1
        exact luS_congr (fun p _ => (hUold p q hqj).symm) (fun p hp => (hLi p hp).symm)
    · intro i q hq hqi
      by_cases hqj : q.val = j
      · have : q = ⟨j, hj⟩ := Fin.ext hqj
        subst this
        rw [hLnew i hqi]
        congr 2
        refine luS_congr (fun _ _ => rfl) (fun p hp => ?_)
        unfold cut
        rw [Matrix.of_apply]
        split
        · next h =>
          rw [Fin.lt_def] at h
          exact (hLold i p (by dsimp only at h; omega)).symm
        · next h =>
          rw [Fin.lt_def] at h
          exact hs.Lcol i p (by dsimp only at h; omega)
      · rw [hLold i q hqj, hUold q q hqj, hs.lower i q (by omega) hqi]
        congr 2
        refine luS_congr (fun p _ => (hUold p q hqj).symm) (fun p hp => ?_)
        unfold cut
        rw [Matrix.of_apply, Matrix.of_apply]
        split
        · next h =>
          rw [Fin.lt_def] at h
          exact (hLold i p (by omega)).symm
        · rfl

theorem wp_lu (A : Mat (Fused o) n n) : wp (lu A) (fun s => LuCells A n s.1 s.2)
    (fun e => e = .throws divideByZeroException) := by
  unfold lu
  unfold eye1
  rw [eye_ok, ok_bind, zeros_ok, ok_bind]
  refine wp_forUp (fun j s => LuCells A j s.1 s.2) (Nat.zero_le n) ?_ ?_ (fun _ h => h)
  · refine ⟨?_, ?_, ?_, ?_, ?_, ?_⟩
    · intro i p _; rfl
    · intro i p h; exact if_neg (ne_of_lt h)
    · intro p q _; rfl
    · intro q h; omega
    · intro i q h; omega
    · intro i q h; omega
  · intro j s _ hj hs
    exact wp_lu_step A j hj s.1 s.2 hs

/-! ## Cholesky -/

/-- The computed `Σ_{k < i} L[i][k] * L[j][k]`. -/
def cholS (L : Mat (Fused o) n n) (i j : Fin n) : Fused o :=
  total ((List.finRange i.val).map fun p =>
    (L i ⟨p.val, lt_trans p.2 i.2⟩).mul (L j ⟨p.val, lt_trans p.2 i.2⟩))

theorem cholS_congr {L L' : Mat (Fused o) n n} {i j : Fin n} (h1 : ∀ p, p < i → L i p = L' i p)
    (h2 : ∀ p, p < i → L j p = L' j p) : cholS L i j = cholS L' i j := by
  unfold cholS
  congr 2
  funext p
  rw [h1 _ p.2, h2 _ p.2]

theorem cholSum_eq (L : Mat (Fused o) n n) (i j : Fin n) : cholSum L i j = .ok (cholS L i j) := by
  unfold cholSum
  rw [forUp_foldlM]
  unfold cholS total
  rw [List.foldl_map]
  refine foldlM_ok _ _ _ (fun (s : Fused o) (p : Fin i.val) =>
    s.add ((L i ⟨p.val, lt_trans p.2 i.2⟩).mul (L j ⟨p.val, lt_trans p.2 i.2⟩))) ?_
  intro s p
  rw [rd_eq i.2 (lt_trans p.2 i.2), ok_bind, rd_eq j.2 (lt_trans p.2 i.2)]
  rfl

/-- `L` as it was before the element `(a, b)` was computed, as far as rows up to `a` matter. -/
def cutRow (L : Mat (Fused o) n n) (a b : Fin n) : Mat (Fused o) n n :=
  .of fun x y => if x = a ∧ b ≤ y then ofInt 0 else L x y

/-- Invariant of `chol` before the element `(i, j)`. -/
structure CholCells (A : Mat (Fused o) n n) (i j : Nat) (L : Mat (Fused o) n n) : Prop where
  upper : ∀ a b : Fin n, a < b → L a b = ofInt 0
  undone : ∀ a b : Fin n, ¬ (a.val < i ∨ (a.val = i ∧ b.val < j)) → L a b = ofInt 0
  diag : ∀ a : Fin n, (a.val < i ∨ (a.val = i ∧ a.val < j)) →
    L a a = ((A a a).sub (cholS L a a)).sqrt
  off : ∀ a b : Fin n, (a.val < i ∨ (a.val = i ∧ b.val < j)) → b < a →
    L a b = ((A a b).sub (cholS (cutRow L a b) a b)).div (L b b)

theorem cholStep_eq (A L : Mat (Fused o) n n) (i j : Fin n) :
    cholStep A i j L = .ok (.of fun a b => if a.val = i.val ∧ b.val = j.val then
      (if j = i then ((A i i).sub (cholS L i i)).sqrt
        else ((A i j).sub (cholS L i j)).div (L j j)) else L a b) := by
  unfold cholStep
  by_cases h : j = i
  · subst h
    rw [if_pos rfl, if_pos rfl, cholSum_eq L j j, ok_bind, rd_eq j.2 j.2, ok_bind]
    show wr L j j ((A j j).sub (cholS L j j)).sqrt = _
    rw [wr_eq j.2 j.2]
  · rw [if_neg (fun e => h (Fin.ext e)), if_neg h, cholSum_eq L i j, ok_bind, rd_eq i.2 j.2, ok_bind,
      rd_eq j.2 j.2]
    show wr L i j (((A i j).sub (cholS L i j)).div (L j j)) = _
    rw [wr_eq i.2 j.2]

theorem chol_step (A L : Mat (Fused o) n n) (i j : Fin n) (hji : j ≤ i) (hs : CholCells A i j L) :
    CholCells A i (j + 1) (.of fun a b => if a.val = i.val ∧ b.val = j.val then
      (if j = i then ((A i i).sub (cholS L i i)).sqrt
        else ((A i j).sub (cholS L i j)).div (L j j)) else L a b) := by
  rw [Fin.le_def] at hji
  generalize hL' : (Matrix.of fun a b : Fin n => if a.val = i.val ∧ b.val = j.val then
      (if j = i then ((A i i).sub (cholS L i i)).sqrt
        else ((A i j).sub (cholS L i j)).div (L j j)) else L a b) = L'
  have hold : ∀ a b : Fin n, ¬ (a = i ∧ b = j) → L' a b = L a b := by
    intro a b h
    rw [← hL', Matrix.of_apply, if_neg (fun e => h ⟨Fin.ext e.1, Fin.ext e.2⟩)]
  have hnew : L' i j = (if j = i then ((A i i).sub (cholS L i i)).sqrt
        else ((A i j).sub (cholS L i j)).div (L j j)) := by
    rw [← hL', Matrix.of_apply, if_pos ⟨rfl, rfl⟩]
  refine ⟨?_, ?_, ?_, ?_⟩
  · intro a b hab
    rw [hold a b]
    · exact hs.upper a b hab
    · rintro ⟨rfl, rfl⟩
      rw [Fin.lt_def] at hab
      omega
  · intro a b hab
    rw [hold a b]
    · exact hs.undone a b (by omega)
    · rintro ⟨rfl, rfl⟩
      exact hab (.inr ⟨rfl, by omega⟩)
  · intro a ha
    by_cases hai : a = i
    · subst hai
      have hj : j = a := Fin.ext (by omega)
      subst hj
      rw [hnew, if_pos rfl]
      congr 2
      have : ∀ p : Fin n, p < j → L j p = L' j p := fun p hp => (hold j p (fun e => by
        rw [e.2] at hp
        exact lt_irrefl _ hp)).symm
      exact cholS_congr this this
    · have hai' : a.val ≠ i.val := fun e => hai (Fin.ext e)
      have : ∀ p : Fin n, L' a p = L a p := fun p => hold a p (fun e => hai e.1)
      rw [this, hs.diag a (by omega)]
      congr 2
      exact cholS_congr (fun p _ => (this p).symm) (fun p _ => (this p).symm)
  · intro a b hab hba
    have hb : ∀ p : Fin n, L' b p = L b p := fun p => hold b p (fun e => by
      rw [e.1, Fin.lt_def] at hba
      omega)
    rw [hb b]
    have hne : b ≠ a := ne_of_lt hba
    have hbcut : ∀ M : Mat (Fused o) n n, ∀ p, cutRow M a b b p = M b p := by
      intro M p
      unfold cutRow
      rw [Matrix.of_apply, if_neg (fun e => hne e.1)]
    by_cases hc : a = i ∧ b = j
    · obtain ⟨rfl, rfl⟩ := hc
      rw [hnew, if_neg hne]
      congr 2
      refine cholS_congr (fun p hp => ?_) (fun p _ => ?_)
      · unfold cutRow
        rw [Matrix.of_apply]
        split
        · next h =>
          have := h.2
          rw [Fin.le_def] at this
          exact hs.undone a p (by omega)
        · next h =>
          exact (hold a p (fun e => h ⟨rfl, by rw [e.2]⟩)).symm
      · rw [hbcut, hb]
    · rw [hold a b hc, hs.off a b (by
        rcases hab with h | ⟨h1, h2⟩
        · exact .inl h
        · refine .inr ⟨h1, ?_⟩
          have : b.val ≠ j.val := fun e => hc ⟨Fin.ext h1, Fin.ext e⟩
          omega) hba]
      congr 2
      refine cholS_congr (fun p hp => ?_) (fun p _ => ?_)
      · unfold cutRow
        rw [Matrix.of_apply, Matrix.of_apply]
        split
        · rfl
        · next h =>
          refine (hold a p ?_).symm
          rintro ⟨rfl, rfl⟩
          refine h ⟨rfl, ?_⟩
          rw [Fin.le_def]
          rcases hab with h | ⟨h1, h2⟩ <;> omega
      · rw [hbcut, hbcut, hb]

theorem wp_chol (A : Mat (Fused o) n n) : wp (chol A) (CholCells A n 0) (fun _ => False) := by
  unfold chol
  refine wp_forUp (fun i L => CholCells A i 0 L) (Nat.zero_le n) ?_ ?_ (fun _ h => h)
  · refine ⟨fun _ _ _ => rfl, fun _ _ _ => rfl, ?_, ?_⟩
    · intro a h; omega
    · intro a b h; omega
  · intro i L _ hi hs
    refine wp_forUp (fun j L => CholCells A i j L) (Nat.zero_le _) hs ?_ ?_
    · intro j L _ hj hs
      have := cholStep_eq A L ⟨i, hi⟩ ⟨j, by omega⟩
      dsimp only at this
      rw [this, wp_ok]
      exact chol_step A L ⟨i, hi⟩ ⟨j, by omega⟩ (by rw [Fin.le_def]; dsimp only; omega) hs
    · intro L h
      refine ⟨h.upper, fun a b hab => ?_, fun a ha => ?_, fun a b hab hba => ?_⟩
      · by_cases h1 : a.val = i ∧ b.val < i + 1
        · omega
        · by_cases h2 : a.val = i
          · exact h.upper a b (by rw [Fin.lt_def]; omega)
          · exact h.undone a b (by omega)
      · exact h.diag a (by omega)
      · rw [Fin.lt_def] at hba
        exact h.off a b (by omega) hba

/-! ## Values -/

theorem total_eq (l : List (Fused o)) : total l = Ex.total l := rfl

/-- Error of a sum of products. -/
theorem terms_err {m : Nat} (x y : Fin m → Fused o) (h : (total ((List.finRange m).map fun p => (x p).mul (y p))).get.Finite) :
    |(total ((List.finRange m).map fun p => (x p).mul (y p))).get.val - ∑ p, (x p).get.val * (y p).get.val| ≤
      ((1 + F.u) ^ m - 1) * (∑ p, |(x p).get.val| * |(y p).get.val|) + m * (1 + F.u) ^ (m - 1) * F.eta := by
  obtain ⟨-, h2⟩ := Ex.total_err o ((List.finRange m).map fun p => Ex.mul (x p) (y p)) h
  rw [List.map_map, List.map_map, Fl.sum_finRange, Fl.sum_finRange, List.length_map, List.length_finRange] at h2
  have e : ∀ k, |(x k).get.val| * |(y k).get.val| = |(x k).get.val * (y k).get.val| := fun k =>
    (abs_mul _ _).symm
  simp only [e]
  exact h2

theorem luS_err (L U : Mat (Fused o) n n) (i j : Fin n) (h : (luS L U i j).get.Finite) :
    |(luS L U i j).get.val - ∑ p, if p < i then (U p j).get.val * (L i p).get.val else 0| ≤
      ((1 + F.u) ^ i.val - 1) * (∑ p, if p < i then |(U p j).get.val| * |(L i p).get.val| else 0) +
        i.val * (1 + F.u) ^ (i.val - 1) * F.eta := by
  rw [← sum_cut (i := i) (fun p => (U p j).get.val * (L i p).get.val),
    ← sum_cut (i := i) (fun p => |(U p j).get.val| * |(L i p).get.val|)]
  exact terms_err _ _ h

theorem get_sub {x y : Fused o} (hx : Ex.Settled x) (hy : Ex.Settled y) : (x.sub y).get = x.get.sub y.get :=
  Ex.eval_sub_settled o hx hy

theorem luS_settled (L U : Mat (Fused o) n n) (i j : Fin n) : Ex.Settled (luS L U i j) := Ex.total_settled _

theorem cholS_settled (L : Mat (Fused o) n n) (i j : Fin n) : Ex.Settled (cholS L i j) := Ex.total_settled _

theorem lu_diag {A L U : Mat (Fused o) n n} (hc : LuCells A n L U) (hU : ∀ i j, (U i j).get.Finite)
    (i : Fin n) : (L i i).get.val = 1 := by
  have h1 := hc.lower i i i.2 le_rfl
  have h2 : luS (cut L i) U i i = luS L U i i := luS_congr (fun _ _ => rfl) (fun p hp => by
    unfold cut
    rw [Matrix.of_apply, if_pos hp])
  rw [h2, ← hc.upper i i i.2 le_rfl] at h1
  rw [h1]
  exact (Fl.div_self_val (hU i i) (Fl.ne_zero_of_eq (hU i i) (hc.Udiag i i.2))).2

theorem zero_get : (ofInt 0 : Fused o).get.val = 0 := Fl.zero_val

theorem LuCells.vals {A L U : Mat (Fused o) n n} (hA : ∀ i j, Ex.Settled (A i j)) (hc : LuCells A n L U)
    (hU : ∀ i j, (U i j).get.Finite) :
    Fl.LuVals (A.map get) (L.map get) (U.map get)
      (.of fun i j => (if i ≤ j then luS L U i j else luS (cut L j) U i j).get) where
  Ldiag := lu_diag hc hU
  Lupper i p h := by rw [Matrix.map_apply, hc.Lupper i p h, zero_get]
  Ulower p q h := by rw [Matrix.map_apply, hc.Ulower p q h, zero_get]
  Udiag q := Fl.ne_zero_of_eq (hU q q) (hc.Udiag q q.2)
  upper i q h := by
    rw [Matrix.of_apply, if_pos h, Matrix.map_apply, Matrix.map_apply, ← get_sub (hA i q) (luS_settled _ _ _ _)]
    exact congrArg get (hc.upper i q q.2 h)
  lower i q h := by
    rw [Matrix.of_apply, if_neg (not_le.mpr h), Matrix.map_apply, Matrix.map_apply, Matrix.map_apply,
      ← get_sub (hA i q) (luS_settled _ _ _ _)]
    exact congrArg get (hc.lower i q q.2 h.le)
  err i q := by
    rw [Matrix.of_apply]
    simp only [Matrix.map_apply]
    rcases le_or_gt i q with h | h
    · rw [if_pos h, min_eq_left h]
      intro hf
      have := luS_err L U i q hf
      simp only [mul_comm (U _ q).get.val, mul_comm |(U _ q).get.val|] at this
      exact this
    · rw [if_neg (not_le.mpr h), min_eq_right h.le]
      intro hf
      have := luS_err (cut L q) U i q hf
      rw [Fl.cut_terms (c := fun p => (cut L q i p).get.val) (l := fun p => (L i p).get.val)
          (u := fun p => (U p q).get.val) h.le
          (fun p hp => by rw [hc.Ulower p q hp, zero_get])
          (fun p hp => by unfold cut; rw [Matrix.of_apply, if_pos hp])
          (fun _ => by unfold cut; rw [Matrix.of_apply, if_neg (lt_irrefl _), if_neg (ne_of_gt h), zero_get]),
        Fl.cut_terms (c := fun p => |(cut L q i p).get.val|) (l := fun p => |(L i p).get.val|)
          (u := fun p => |(U p q).get.val|) h.le
          (fun p hp => by rw [hc.Ulower p q hp, zero_get, abs_zero])
          (fun p hp => by unfold cut; rw [Matrix.of_apply, if_pos hp])
          (fun _ => by
            unfold cut; rw [Matrix.of_apply, if_neg (lt_irrefl _), if_neg (ne_of_gt h), zero_get, abs_zero])] at this
      exact this

theorem cholS_err (L : Mat (Fused o) n n) (i j : Fin n) (h : (cholS L i j).get.Finite) :
    |(cholS L i j).get.val - ∑ p, if p < i then (L i p).get.val * (L j p).get.val else 0| ≤
      ((1 + F.u) ^ i.val - 1) * (∑ p, if p < i then |(L i p).get.val| * |(L j p).get.val| else 0) +
        i.val * (1 + F.u) ^ (i.val - 1) * F.eta := by
  rw [← sum_cut (i := i) (fun p => (L i p).get.val * (L j p).get.val),
    ← sum_cut (i := i) (fun p => |(L i p).get.val| * |(L j p).get.val|)]
  exact terms_err _ _ h

theorem CholCells.vals {A L : Mat (Fused o) n n} (hA : ∀ i j, Ex.Settled (A i j)) (hc : CholCells A n 0 L) :
    Fl.CholVals (A.map get) (L.map get)
      (.of fun i j => (if i = j then cholS L i j else cholS (cutRow L i j) i j).get) where
  upper a b h := by rw [Matrix.map_apply, hc.upper a b h, zero_get]
  diag a := by
    rw [Matrix.of_apply, if_pos rfl, Matrix.map_apply, Matrix.map_apply, ← get_sub (hA a a) (cholS_settled _ _ _)]
    exact congrArg get (hc.diag a (.inl a.2))
  off a b h := by
    rw [Matrix.of_apply, if_neg (ne_of_gt h), Matrix.map_apply, Matrix.map_apply, Matrix.map_apply,
      ← get_sub (hA a b) (cholS_settled _ _ _)]
    exact congrArg get (hc.off a b (.inl a.2) h)
  err i j hij := by
    rw [Matrix.of_apply]
    simp only [Matrix.map_apply]
    rcases hij.eq_or_lt with rfl | hij
    · rw [if_pos rfl]
      exact cholS_err L j j
    · rw [if_neg (ne_of_gt hij)]
      intro hf
      have := cholS_err (cutRow L i j) i j hf
      have hrow : ∀ p, cutRow L i j j p = L j p := by
        intro p
        unfold cutRow
        rw [Matrix.of_apply, if_neg (fun e => ne_of_lt hij e.1)]
      have hlt : ∀ p, p < j → cutRow L i j i p = L i p := by
        intro p hp
        unfold cutRow
        rw [Matrix.of_apply, if_neg (fun e => absurd hp (not_lt.mpr e.2))]
      have hge : ∀ p, ¬ p < j → (cutRow L i j i p).get.val = 0 := by
        intro p hp
        unfold cutRow
        rw [Matrix.of_apply, if_pos ⟨rfl, not_lt.mp hp⟩, zero_get]
      rw [Fl.cutRow_terms (c := fun p => (cutRow L i j i p).get.val) (l := fun p => (L i p).get.val)
          (d := fun p => (cutRow L i j j p).get.val) (u := fun p => (L j p).get.val) hij.le
          (fun p hp => by rw [hlt p hp]) (fun _ p hp => hge p hp) (fun p => by rw [hrow p]),
        Fl.cutRow_terms (c := fun p => |(cutRow L i j i p).get.val|) (l := fun p => |(L i p).get.val|)
          (d := fun p => |(cutRow L i j j p).get.val|) (u := fun p => |(L j p).get.val|) hij.le
          (fun p hp => by rw [hlt p hp]) (fun _ p hp => by rw [hge p hp, abs_zero]) (fun p => by rw [hrow p])] at this
      exact this

end Fused
end MatrixLibs
