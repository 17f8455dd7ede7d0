import Verif.Spec.Type
import Verif.Spec.Order
import Verif.Props.Preds
import Verif.Model.Det

/-!
# Property C139: initialising and ordering matrices
-/

namespace MatrixLibs

set_option linter.unusedSectionVars false

section
variable {T : Type} [Inhabited T] {r c : Nat}

theorem initFrom_nil (s : Shape) : initFrom s ([] : List (Init T)) = .ok (s.zero, []) := by
  cases s <;> rfl

theorem initMany_exprs {α : Type} (one : List (Init T) → Res (α × List (Init T))) (f : List T → α) (k : Nat)
    (h : ∀ l, one (exprs l) = .ok (f l, exprs (l.drop k))) :
    ∀ (n : Nat) (l : List T), initMany one n (exprs l) =
      .ok (fun i => f (l.drop (i.val * k)), exprs (l.drop (n * k)))
  | 0, l => by
    unfold initMany
    refine congrArg Except.ok (Prod.ext (funext fun i => i.elim0) ?_)
    simp
  | n + 1, l => by
    unfold initMany
    rw [h l, ok_bind]
    dsimp only
    rw [initMany_exprs one f k h n, ok_bind]
    refine congrArg Except.ok (Prod.ext (funext fun i => ?_) ?_)
    · refine Fin.cases ?_ (fun i => ?_) i
      · simp
      · simp only [Fin.cons_succ, List.drop_drop, Fin.val_succ]
        congr 2; ring
    · simp only [List.drop_drop]
      congr 2; ring

theorem initFrom_elem (l : List T) :
    initFrom .elem (exprs l) = .ok (l.getD 0 default, exprs (l.drop 1)) := by
  cases l <;> rfl

theorem initFrom_array (l : List T) : initFrom (.array c .elem) (exprs l) =
    .ok ((fun j : Fin c => l.getD j.val default : Fin c → T), exprs (l.drop c)) := by
  have h := initMany_exprs (initFrom (T := T) .elem) (fun l => l.getD 0 default) 1 initFrom_elem c l
  cases l with
  | nil =>
    rw [show (exprs [] : List (Init T)) = [] from rfl, initFrom_nil]
    simp [Shape.zero, exprs]
  | cons x l =>
    rw [show initFrom (.array c .elem) (exprs (x :: l)) = initMany (initFrom .elem) c (exprs (x :: l)) from rfl, h]
    refine congrArg Except.ok (Prod.ext (funext fun i => ?_) ?_)
    · simp [List.getD_eq_getElem?_getD]
    · simp

theorem initFrom_row (l : List T) : initFrom (.struct (.array c .elem)) (exprs l) =
    .ok ((fun j : Fin c => l.getD j.val default : Fin c → T), exprs (l.drop c)) := by
  have h := initFrom_array (c := c) l
  cases l with
  | nil => exact h
  | cons x l => exact h

theorem initFrom_rows (l : List T) : initFrom (.array r (.struct (.array c .elem))) (exprs l) =
    .ok ((fun (i : Fin r) (j : Fin c) => l.getD (i.val * c + j.val) default : Fin r → Fin c → T),
      exprs (l.drop (r * c))) := by
  have h := initMany_exprs (initFrom (T := T) (.struct (.array c .elem))) _ c initFrom_row r l
  cases l with
  | nil =>
    rw [show (exprs [] : List (Init T)) = [] from rfl, initFrom_nil]
    simp [Shape.zero, exprs]
  | cons x l =>
    rw [show initFrom (.array r (.struct (.array c .elem))) (exprs (x :: l)) =
      initMany (initFrom (.struct (.array c .elem))) r (exprs (x :: l)) from rfl, h]
    refine congrArg Except.ok (Prod.ext (funext fun i => funext fun j => ?_) rfl)
    simp only [List.getD_eq_getElem?_getD, List.getElem?_drop]

theorem exprs_eq_nil (l : List T) : exprs l = [] ↔ l = [] := by simp [exprs]

theorem usedUp_ok {α β : Type} (v : α) (l : List β) :
    usedUp (.ok (v, l)) = if l = [] then .ok v else .error .illFormed := by
  cases l <;> rfl

theorem usedUp_exprs {α : Type} (v : α) (l : List T) (k : Nat) :
    usedUp (.ok (v, exprs (l.drop k))) = if l.length ≤ k then .ok v else .error .illFormed := by
  rw [usedUp_ok]
  by_cases h : l.length ≤ k
  · rw [if_pos h, if_pos ((exprs_eq_nil _).mpr (List.drop_eq_nil_iff.mpr h))]
  · rw [if_neg h, if_neg fun h2 => h (List.drop_eq_nil_iff.mp ((exprs_eq_nil _).mp h2))]

/-- C139: `Matrix<T, r, c> A = { x1, ..., xk }` lists the elements row by row; those not listed are value-initialised
(zero), and more than `r * c` do not compile. -/
theorem C139_init (_hr : 0 < r) (_hc : 0 < c) (l : List T) :
    initMatrix r c (exprs l) = if l.length ≤ r * c then
      .ok (.of fun i j => l.getD (i.val * c + j.val) default) else .error .illFormed := by
  unfold initMatrix matrixShape
  rw [show initFrom (.struct (.array r (.struct (.array c .elem)))) [.list (exprs l)] =
    (do Except.ok (← usedUp (initFrom (.array r (.struct (.array c .elem))) (exprs l)), [])) from by rw [initFrom]]
  rw [initFrom_rows, usedUp_exprs]
  split <;> rfl

theorem initFrom_bracedRow (row : List T) (rest : List (Init T)) :
    initFrom (.struct (.array c .elem)) (.list (exprs row) :: rest) =
      if row.length ≤ c then .ok ((fun j : Fin c => row.getD j.val default : Fin c → T), rest)
      else .error .illFormed := by
  rw [show initFrom (.struct (.array c .elem)) (.list (exprs row) :: rest) =
    (do Except.ok (← usedUp (initFrom (.array c .elem) (exprs row)), rest)) from by rw [initFrom]]
  rw [initFrom_array, usedUp_exprs]
  split <;> rfl

theorem initMany_bracedRows : ∀ (n : Nat) (rows : List (List T)),
    initMany (initFrom (.struct (.array c .elem))) n (bracedRows rows) =
      if ∀ row ∈ rows.take n, row.length ≤ c then
        .ok ((fun i j => (rows.getD i.val []).getD j.val default : Fin n → Fin c → T), bracedRows (rows.drop n))
      else .error .illFormed
  | 0, rows => by
    unfold initMany
    rw [if_pos (by simp)]
    exact congrArg Except.ok (Prod.ext (funext fun i => i.elim0) (by simp))
  | n + 1, [] => by
    unfold initMany
    have h := initMany_bracedRows n ([] : List (List T))
    rw [show (bracedRows [] : List (Init T)) = [] from rfl] at h ⊢
    rw [initFrom_nil, ok_bind]
    dsimp only
    rw [h, if_pos (by simp), if_pos (by simp)]
    refine congrArg Except.ok (Prod.ext (funext fun i => ?_) (by simp [bracedRows]))
    refine Fin.cases ?_ (fun i => ?_) i
    · simp [Shape.zero]
    · simp only [Fin.cons_succ]; simp
  | n + 1, row :: rows => by
    unfold initMany
    rw [show bracedRows (row :: rows) = .list (exprs row) :: bracedRows rows from rfl, initFrom_bracedRow]
    by_cases h : row.length ≤ c
    · rw [if_pos h, ok_bind]
      dsimp only
      rw [initMany_bracedRows n rows]
      by_cases h2 : ∀ row ∈ rows.take n, row.length ≤ c
      · rw [if_pos h2, if_pos (by simpa using ⟨h, by simpa using h2⟩)]
        refine congrArg Except.ok (Prod.ext (funext fun i => ?_) (by simp))
        refine Fin.cases ?_ (fun i => ?_) i
        · simp only [Fin.cons_zero]; simp
        · simp only [Fin.cons_succ]; simp
      · rw [if_neg h2, if_neg (by
          intro h3
          exact h2 fun row hr => h3 row (by simp [List.take_succ_cons, hr]))]
        rfl
    · rw [if_neg h, if_neg (fun h3 => h (h3 row (by simp)))]
      rfl

/-- C139: with the rows in braces, one more pair of braces is needed around them. Short and missing rows are filled up
with value-initialised elements; long and additional rows do not compile. -/
theorem C139_init_rows (_hr : 0 < r) (_hc : 0 < c) (rows : List (List T)) :
    initMatrix r c [.list (bracedRows rows)] =
      if rows.length ≤ r ∧ ∀ row ∈ rows, row.length ≤ c then
        .ok (.of fun i j => (rows.getD i.val []).getD j.val default) else .error .illFormed := by
  unfold initMatrix matrixShape
  rw [show initFrom (.struct (.array r (.struct (.array c .elem)))) [.list [.list (bracedRows rows)]] =
    (do
      let v ← usedUp (do
        let w ← usedUp (initMany (initFrom (.struct (.array c .elem))) r (bracedRows rows))
        .ok (w, []))
      .ok (v, [])) from by rw [initFrom, initFrom]]
  rw [initMany_bracedRows]
  by_cases h : ∀ row ∈ rows.take r, row.length ≤ c
  · rw [if_pos h, usedUp_ok]
    by_cases h2 : rows.length ≤ r
    · rw [if_pos (by simp [bracedRows, h2]), if_pos ⟨h2, by rwa [List.take_of_length_le h2] at h⟩]
      rfl
    · rw [if_neg (by simpa [bracedRows] using h2), if_neg (fun h3 => h2 h3.1)]
      rfl
  · rw [if_neg h, if_neg (fun h3 => h fun row hrow => h3.2 row (List.mem_of_mem_take hrow))]
    rfl

/-- C139: without it two or more rows in braces do not compile. -/
theorem C139_init_rows_one_pair (_hr : 0 < r) (_hc : 0 < c) (rows : List (List T)) (h : 2 ≤ rows.length) :
    initMatrix r c (bracedRows rows) = .error .illFormed := by
  obtain ⟨a, b, rows, rfl⟩ : ∃ a b l, rows = a :: b :: l := by
    match rows, h with
    | a :: b :: l, _ => exact ⟨a, b, l, rfl⟩
  unfold initMatrix matrixShape
  rw [show initFrom (.struct (.array r (.struct (.array c .elem)))) [.list (bracedRows (a :: b :: rows))] =
    (do
      let v ← usedUp (do
        let w ← usedUp (initMany (initFrom (.struct (.array c .elem))) r (exprs a))
        .ok (w, bracedRows (b :: rows)))
      .ok (v, [])) from by
        rw [initFrom, show bracedRows (a :: b :: rows) = .list (exprs a) :: bracedRows (b :: rows) from rfl, initFrom]]
  rw [initMany_exprs _ _ c initFrom_row r a, usedUp_ok]
  split <;> rfl

/-- C139: the initialisers in `inv` and `strassen` give the matrices of the model. -/
theorem C139_braces (x : Fin 9 → T) :
    initMatrix 2 2 (exprs [x 0, x 1, x 2, x 3]) = .ok (brace2 (x 0) (x 1) (x 2) (x 3)) ∧
    initMatrix 3 3 (exprs [x 0, x 1, x 2, x 3, x 4, x 5, x 6, x 7, x 8]) =
      .ok (brace3 (x 0) (x 1) (x 2) (x 3) (x 4) (x 5) (x 6) (x 7) (x 8)) := by
  rw [C139_init (by decide) (by decide), C139_init (by decide) (by decide)]
  refine ⟨congrArg Except.ok ?_, congrArg Except.ok ?_⟩
  · ext i j; fin_cases i <;> fin_cases j <;> rfl
  · ext i j; fin_cases i <;> fin_cases j <;> rfl

end

/-- `{1, 2, 3}`, `{{{1}, {2, 3}}}` and `{{1}, {2, 3}}` for a 2x2 matrix. -/
example : initMatrix 2 2 (exprs [1, 2, 3]) = .ok (!![1, 2; 3, 0] : Mat (BitVec 8) 2 2) ∧
    initMatrix 2 2 [.list (bracedRows [[1], [2, 3]])] = .ok (!![1, 0; 2, 3] : Mat (BitVec 8) 2 2) ∧
    initMatrix 2 2 (bracedRows [[1], [2, 3]]) = (.error .illFormed : Res (Mat (BitVec 8) 2 2)) := by
  refine ⟨by decide +kernel, by decide +kernel, by decide +kernel⟩

/-! ## Order -/

section
variable {T : Type} [LinearOrder T] [CScalar T] [OrderedScalar T] {r c : Nat}

theorem rowLess_ok (A B : Mat T r c) (i : Fin r) :
    ∃ b, rowLess A B i.val = .ok b ∧
      (b = true ↔ ∃ j, A i j < B i j ∧ ∀ j' < j, A i j' = B i j') := by
  suffices h : wp (rowLess A B i.val) (fun b => b = true ↔ ∃ j, A i j < B i j ∧ ∀ j' < j, A i j' = B i j')
      (fun _ => False) by
    obtain ⟨b, hb, h⟩ := wp_total h
    exact ⟨b, hb, h⟩
  unfold rowLess
  rw [wp_bind]
  refine wp_forRet (fun jt _ => ∀ b : Fin c, b.val < jt → A i b = B i b)
    (fun v => v = true ↔ ∃ j, A i j < B i j ∧ ∀ j' < j, A i j' = B i j') (Nat.zero_le _)
    (fun b h => by omega) ?_ ?_ (fun v h => h)
  · intro jt _ _ hjt hJ
    have e1 := rd_fin A i ⟨jt, hjt⟩
    have e2 := rd_fin B i ⟨jt, hjt⟩
    rw [e1, ok_bind, e2, ok_bind]
    have hfirst : ∀ j : Fin c, (∀ j' < j, A i j' = B i j') → A i j ≠ B i j → A i ⟨jt, hjt⟩ ≠ B i ⟨jt, hjt⟩ →
        j = ⟨jt, hjt⟩ := by
      intro j h1 h2 h3
      rcases lt_trichotomy j ⟨jt, hjt⟩ with h | h | h
      · exact absurd (hJ j h) h2
      · exact h
      · exact absurd (h1 _ h) h3
    by_cases h1 : A i ⟨jt, hjt⟩ < B i ⟨jt, hjt⟩
    · rw [if_pos ((OrderedScalar.lt_iff _ _).mpr h1)]
      exact ⟨fun _ => ⟨⟨jt, hjt⟩, h1, fun j' h => hJ j' h⟩, fun _ => rfl⟩
    · rw [if_neg (fun h => h1 ((OrderedScalar.lt_iff _ _).mp h))]
      by_cases h2 : B i ⟨jt, hjt⟩ < A i ⟨jt, hjt⟩
      · rw [if_pos ((OrderedScalar.lt_iff _ _).mpr h2)]
        refine ⟨fun h => by simp at h, fun ⟨j, hj, hlt⟩ => ?_⟩
        have := hfirst j hlt hj.ne h2.ne'
        subst this
        exact absurd hj h1
      · rw [if_neg (fun h => h2 ((OrderedScalar.lt_iff _ _).mp h))]
        intro b hb
        rcases Nat.lt_succ_iff_lt_or_eq.mp hb with h | h
        · exact hJ b h
        · have : b = ⟨jt, hjt⟩ := Fin.ext h
          subst this
          exact le_antisymm (not_lt.mp h2) (not_lt.mp h1)
  · intro s hI
    refine ⟨fun h => by simp at h, fun ⟨j, hj, _⟩ => ?_⟩
    exact absurd (hI j j.isLt) hj.ne

/-- C139: `A < B` of two matrices is decided by the first elements, row by row, that differ. -/
theorem C139_less (A B : Mat T r c) :
    ∃ b, arrayLess A B = .ok b ∧
      (b = true ↔ ∃ i j, A i j < B i j ∧ ∀ i' j', Before (i', j') (i, j) → A i' j' = B i' j') := by
  suffices h : wp (arrayLess A B) (fun b => b = true ↔ ∃ i j, A i j < B i j ∧
      ∀ i' j', Before (i', j') (i, j) → A i' j' = B i' j') (fun _ => False) by
    obtain ⟨b, hb, h⟩ := wp_total h
    exact ⟨b, hb, h⟩
  unfold arrayLess
  rw [wp_bind]
  refine wp_forRet (fun it _ => ∀ a : Fin r, a.val < it → ∀ j, A a j = B a j)
    (fun v => v = true ↔ ∃ i j, A i j < B i j ∧ ∀ i' j', Before (i', j') (i, j) → A i' j' = B i' j')
    (Nat.zero_le _) (fun b h => by omega) ?_ ?_ (fun v h => h)
  · intro it _ _ hit hI
    obtain ⟨b1, e1, h1⟩ := rowLess_ok A B ⟨it, hit⟩
    obtain ⟨b2, e2, h2⟩ := rowLess_ok B A ⟨it, hit⟩
    dsimp only at e1 e2
    rw [e1, ok_bind]
    cases b1 with
    | true =>
      rw [if_pos rfl]
      obtain ⟨j, hj, hlt⟩ := h1.mp rfl
      refine ⟨fun _ => ⟨⟨it, hit⟩, j, hj, fun i' j' hb => ?_⟩, fun _ => rfl⟩
      rcases hb with hb | ⟨rfl, hb⟩
      · exact hI i' hb j'
      · exact hlt j' hb
    | false =>
      rw [if_neg (by simp), e2, ok_bind]
      cases b2 with
      | true =>
        rw [if_pos rfl]
        obtain ⟨j, hj, hlt⟩ := h2.mp rfl
        refine ⟨fun h => by simp at h, fun ⟨i, k, hk, hb⟩ => ?_⟩
        have hi : i = ⟨it, hit⟩ := by
          rcases lt_trichotomy i ⟨it, hit⟩ with h | h | h
          · exact absurd (hI i h k) hk.ne
          · exact h
          · exact absurd (hb _ j (.inl h)) hj.ne'
        subst hi
        exact absurd (h1.mpr ⟨k, hk, fun j' hj' => hb _ j' (.inr ⟨rfl, hj'⟩)⟩) (by simp)
      | false =>
        rw [if_neg (by simp)]
        intro a ha
        rcases Nat.lt_succ_iff_lt_or_eq.mp ha with h | h
        · exact hI a h
        · have : a = ⟨it, hit⟩ := Fin.ext h
          subst this
          intro j
          induction j using WellFoundedLT.induction with
          | ind j ih =>
            rcases lt_trichotomy (A ⟨it, hit⟩ j) (B ⟨it, hit⟩ j) with h | h | h
            · exact absurd (h1.mpr ⟨j, h, ih⟩) (by simp)
            · exact h
            · exact absurd (h2.mpr ⟨j, h, fun j' hj' => (ih j' hj').symm⟩) (by simp)
  · intro s hI
    refine ⟨fun h => by simp at h, fun ⟨i, j, hj, _⟩ => ?_⟩
    exact absurd (hI i i.isLt j) hj.ne

theorem before_total (p q : Fin r × Fin c) : Before p q ∨ p = q ∨ Before q p := by
  obtain ⟨a, b⟩ := p
  obtain ⟨a', b'⟩ := q
  rcases lt_trichotomy a a' with h | rfl | h
  · exact .inl (.inl h)
  · rcases lt_trichotomy b b' with h | rfl | h
    · exact .inl (.inr ⟨rfl, h⟩)
    · exact .inr (.inl rfl)
    · exact .inr (.inr (.inr ⟨rfl, h⟩))
  · exact .inr (.inr (.inl h))

theorem before_trans {p q s : Fin r × Fin c} (h1 : Before p q) (h2 : Before q s) : Before p s := by
  rcases h1 with h1 | ⟨e1, h1⟩ <;> rcases h2 with h2 | ⟨e2, h2⟩
  · exact .inl (h1.trans h2)
  · exact .inl (e2 ▸ h1)
  · exact .inl (e1 ▸ h2)
  · exact .inr ⟨e1.trans e2, h1.trans h2⟩

theorem first_difference (A B : Mat T r c) (h : A ≠ B) :
    ∃ i j, A i j ≠ B i j ∧ ∀ i' j', Before (i', j') (i, j) → A i' j' = B i' j' := by
  by_contra hn
  push Not at hn
  apply h
  have hall : ∀ i : Fin r, ∀ j : Fin c, A i j = B i j := by
    intro i
    induction i using WellFoundedLT.induction with
    | ind i ih =>
      intro j
      induction j using WellFoundedLT.induction with
      | ind j jh =>
        by_contra hne
        obtain ⟨i', j', hb, hd⟩ := hn i j hne
        rcases hb with hb | ⟨hb, hb2⟩
        · exact hd (ih i' hb j')
        · have hb' : i' = i := hb
          subst hb'
          exact hd (jh j' hb2)
  ext i j
  exact hall i j

/-- C139: of two matrices exactly one of `A < B`, `A == B` and `B < A` is true. -/
theorem C139_trichotomy (A B : Mat T r c) :
    (arrayLess A B = .ok true ∧ A ≠ B ∧ arrayLess B A = .ok false) ∨
    (arrayLess A B = .ok false ∧ A = B ∧ arrayLess B A = .ok false) ∨
    (arrayLess A B = .ok false ∧ A ≠ B ∧ arrayLess B A = .ok true) := by
  obtain ⟨b1, e1, h1⟩ := C139_less A B
  obtain ⟨b2, e2, h2⟩ := C139_less B A
  rw [e1, e2]
  by_cases h : A = B
  · subst h
    have : b1 = false := by
      rw [← Bool.not_eq_true, h1]
      rintro ⟨i, j, hij, -⟩
      exact lt_irrefl _ hij
    have h3 : b2 = false := by
      rw [← Bool.not_eq_true, h2]
      rintro ⟨i, j, hij, -⟩
      exact lt_irrefl _ hij
    subst this
    subst h3
    exact .inr (.inl ⟨rfl, rfl, rfl⟩)
  · obtain ⟨i, j, hne, hf⟩ := first_difference A B h
    have uniq : ∀ k l, A k l ≠ B k l → (∀ i' j', Before (i', j') (k, l) → A i' j' = B i' j') → k = i ∧ l = j := by
      intro k l hkl hb
      rcases before_total (k, l) (i, j) with hh | hh | hh
      · exact absurd (hf _ _ hh) hkl
      · exact ⟨congrArg Prod.fst hh, congrArg Prod.snd hh⟩
      · exact absurd (hb _ _ hh) hne
    rcases lt_or_gt_of_ne hne with hlt | hgt
    · have : b1 = true := h1.mpr ⟨i, j, hlt, hf⟩
      have h3 : b2 = false := by
        rw [← Bool.not_eq_true, h2]
        rintro ⟨k, l, hkl, hb⟩
        obtain ⟨rfl, rfl⟩ := uniq k l hkl.ne' (fun i' j' hh => (hb i' j' hh).symm)
        exact lt_asymm hlt hkl
      subst this
      subst h3
      exact .inl ⟨rfl, h, rfl⟩
    · have : b2 = true := h2.mpr ⟨i, j, hgt, fun i' j' hh => (hf i' j' hh).symm⟩
      have h3 : b1 = false := by
        rw [← Bool.not_eq_true, h1]
        rintro ⟨k, l, hkl, hb⟩
        obtain ⟨rfl, rfl⟩ := uniq k l hkl.ne hb
        exact lt_asymm hgt hkl
      subst this
      subst h3
      exact .inr (.inr ⟨rfl, h, rfl⟩)

/-- C139: `<` is transitive, so that matrices can be sorted and used as keys of a `std::map`. -/
theorem C139_less_trans (A B C : Mat T r c) (h1 : arrayLess A B = .ok true) (h2 : arrayLess B C = .ok true) :
    arrayLess A C = .ok true := by
  obtain ⟨b1, e1, k1⟩ := C139_less A B
  obtain ⟨b2, e2, k2⟩ := C139_less B C
  obtain ⟨b3, e3, k3⟩ := C139_less A C
  rw [e1] at h1
  rw [e2] at h2
  cases h1
  cases h2
  rw [e3]
  refine congrArg Except.ok (k3.mpr ?_)
  obtain ⟨i, j, hij, hb⟩ := k1.mp rfl
  obtain ⟨k, l, hkl, hb2⟩ := k2.mp rfl
  rcases before_total (i, j) (k, l) with hh | hh | hh
  · exact ⟨i, j, hij.trans_eq (hb2 _ _ hh), fun i' j' h => (hb _ _ h).trans (hb2 _ _ (before_trans h hh))⟩
  · cases hh
    exact ⟨i, j, hij.trans hkl, fun i' j' h => (hb _ _ h).trans (hb2 _ _ h)⟩
  · exact ⟨k, l, (hb _ _ hh).trans_lt hkl, fun i' j' h => (hb _ _ (before_trans h hh)).trans (hb2 _ _ h)⟩

end

/-- The second element decides; the last one comes later. -/
example : arrayLess (!![1, 2; 9, 9] : Mat (BitVec 32) 2 2) !![1, 3; 0, 0] = .ok true ∧
    arrayLess (!![1, 3; 0, 0] : Mat (BitVec 32) 2 2) !![1, 2; 9, 9] = .ok false := by decide +kernel

end MatrixLibs
