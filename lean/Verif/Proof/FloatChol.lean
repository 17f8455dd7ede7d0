import Verif.Proof.FloatLu

/-!
# Cholesky factorisation of floating point matrices
-/

namespace MatrixLibs

set_option linter.unusedSectionVars false

namespace Fl
variable {F : Fmt} {n : Nat}

/-- The computed `Σ_{k < i} L[i][k] * L[j][k]`. -/
def cholS (L : Mat (Fl F) n n) (i j : Fin n) : Fl F :=
  fsum ((List.finRange i.val).map fun p =>
    (L i ⟨p.val, lt_trans p.2 i.2⟩).mul (L j ⟨p.val, lt_trans p.2 i.2⟩))

theorem cholS_congr {L L' : Mat (Fl F) n n} {i j : Fin n} (h1 : ∀ p, p < i → L i p = L' i p)
    (h2 : ∀ p, p < i → L j p = L' j p) : cholS L i j = cholS L' i j := by
  unfold cholS
  congr 2
  funext p
  rw [h1 _ p.2, h2 _ p.2]

theorem cholSum_eq (L : Mat (Fl F) n n) (i j : Fin n) : cholSum L i j = .ok (cholS L i j) := by
  unfold cholSum
  rw [forUp_foldlM]
  unfold cholS fsum
  rw [List.foldl_map]
  refine foldlM_ok _ _ _ (fun (s : Fl F) (p : Fin i.val) =>
    s.add ((L i ⟨p.val, lt_trans p.2 i.2⟩).mul (L j ⟨p.val, lt_trans p.2 i.2⟩))) ?_
  intro s p
  rw [rd_eq i.2 (lt_trans p.2 i.2), ok_bind, rd_eq j.2 (lt_trans p.2 i.2)]
  rfl

/-- `L` as it was before the element `(a, b)` was computed, as far as rows up to `a` matter. -/
def cutRow (L : Mat (Fl F) n n) (a b : Fin n) : Mat (Fl F) n n :=
  .of fun x y => if x = a ∧ b ≤ y then ofInt 0 else L x y

/-- Invariant of `chol` before the element `(i, j)`. -/
structure CholCells (A : Mat (Fl F) n n) (i j : Nat) (L : Mat (Fl F) n n) : Prop where
  upper : ∀ a b : Fin n, a < b → L a b = ofInt 0
  undone : ∀ a b : Fin n, ¬ (a.val < i ∨ (a.val = i ∧ b.val < j)) → L a b = ofInt 0
  diag : ∀ a : Fin n, (a.val < i ∨ (a.val = i ∧ a.val < j)) →
    L a a = ((A a a).sub (cholS L a a)).sqrt
  off : ∀ a b : Fin n, (a.val < i ∨ (a.val = i ∧ b.val < j)) → b < a →
    L a b = ((A a b).sub (cholS (cutRow L a b) a b)).div (L b b)

theorem cholStep_eq (A L : Mat (Fl F) n n) (i j : Fin n) :
    cholStep A i j L = .ok (.of fun a b => if a.val = i.val ∧ b.val = j.val then
      (if j = i then ((A i i).sub (cholS L i i)).sqrt
        else ((A i j).sub (cholS L i j)).div (L j j)) else L a b) := by
  unfold cholStep
  by_cases h : j = i
  · subst h
    rw [if_pos rfl, if_pos rfl, cholSum_eq L j j, ok_bind, rd_eq j.2 j.2, ok_bind]
    show wr L j j ((A j j).sub (cholS L j j)).sqrt = _
    rw [wr_eq j.2 j.2]
  · rw [if_neg (fun e => h (Fin.ext e)), if_neg h, cholSum_eq L i j, ok_bind, rd_eq i.2 j.2, ok_bind,
      rd_eq j.2 j.2]
    show wr L i j (((A i j).sub (cholS L i j)).div (L j j)) = _
    rw [wr_eq i.2 j.2]

theorem chol_step (A L : Mat (Fl F) n n) (i j : Fin n) (hji : j ≤ i) (hs : CholCells A i j L) :
    CholCells A i (j + 1) (.of fun a b => if a.val = i.val ∧ b.val = j.val then
      (if j = i then ((A i i).sub (cholS L i i)).sqrt
        else ((A i j).sub (cholS L i j)).div (L j j)) else L a b) := by
  rw [Fin.le_def] at hji
  generalize hL' : (Matrix.of fun a b : Fin n => if a.val = i.val ∧ b.val = j.val then
      (if j = i then ((A i i).sub (cholS L i i)).sqrt
        else ((A i j).sub (cholS L i j)).div (L j j)) else L a b) = L'
  have hold : ∀ a b : Fin n, ¬ (a = i ∧ b = j) → L' a b = L a b := by
    intro a b h
    rw [← hL', Matrix.of_apply, if_neg (fun e => h ⟨Fin.ext e.1, Fin.ext e.2⟩)]
  have hnew : L' i j = (if j = i then ((A i i).sub (cholS L i i)).sqrt
        else ((A i j).sub (cholS L i j)).div (L j j)) := by
    rw [← hL', Matrix.of_apply, if_pos ⟨rfl, rfl⟩]
  refine ⟨?_, ?_, ?_, ?_⟩
  · intro a b hab
    rw [hold a b]
    · exact hs.upper a b hab
    · rintro ⟨rfl, rfl⟩
      rw [Fin.lt_def] at hab
      omega
  · intro a b hab
    rw [hold a b]
    · exact hs.undone a b (by omega)
    · rintro ⟨rfl, rfl⟩
      exact hab (.inr ⟨rfl, by omega⟩)
  · intro a ha
    by_cases hai : a = i
    · subst hai
      have hj : j = a := Fin.ext (by omega)
      subst hj
      rw [hnew, if_pos rfl]
      congr 2
      have : ∀ p : Fin n, p < j → L j p = L' j p := fun p hp => (hold j p (fun e => by
        rw [e.2] at hp
        exact lt_irrefl _ hp)).symm
      exact cholS_congr this this
    · have hai' : a.val ≠ i.val := fun e => hai (Fin.ext e)
      have : ∀ p : Fin n, L' a p = L a p := fun p => hold a p (fun e => hai e.1)
      rw [this, hs.diag a (by omega)]
      congr 2
      exact cholS_congr (fun p _ => (this p).symm) (fun p _ => (this p).symm)
  · intro a b hab hba
    have hb : ∀ p : Fin n, L' b p = L b p := fun p => hold b p (fun e => by
      rw [e.1, Fin.lt_def] at hba
      omega)
    rw [hb b]
    have hne : b ≠ a := ne_of_lt hba
    have hbcut : ∀ M : Mat (Fl F) n n, ∀ p, cutRow M a b b p = M b p := by
      intro M p
      unfold cutRow
      rw [Matrix.of_apply, if_neg (fun e => hne e.1)]
    by_cases hc : a = i ∧ b = j
    · obtain ⟨rfl, rfl⟩ := hc
      rw [hnew, if_neg hne]
      congr 2
      refine cholS_congr (fun p hp => ?_) (fun p _ => ?_)
      · unfold cutRow
        rw [Matrix.of_apply]
        split
        · next h =>
          have := h.2
          rw [Fin.le_def] at this
          exact hs.undone a p (by omega)
        · next h =>
          exact (hold a p (fun e => h ⟨rfl, by rw [e.2]⟩)).symm
      · rw [hbcut, hb]
    · rw [hold a b hc, hs.off a b (by
        rcases hab with h | ⟨h1, h2⟩
        · exact .inl h
        · refine .inr ⟨h1, ?_⟩
          have : b.val ≠ j.val := fun e => hc ⟨Fin.ext h1, Fin.ext e⟩
          omega) hba]
      congr 2
      refine cholS_congr (fun p hp => ?_) (fun p _ => ?_)
      · unfold cutRow
        rw [Matrix.of_apply, Matrix.of_apply]
        split
        · rfl
        · next h =>
          refine (hold a p ?_).symm
          rintro ⟨rfl, rfl⟩
          refine h ⟨rfl, ?_⟩
          rw [Fin.le_def]
          rcases hab with h | ⟨h1, h2⟩ <;> omega
      · rw [hbcut, hbcut, hb]

theorem wp_chol (A : Mat (Fl F) n n) : wp (chol A) (CholCells A n 0) (fun _ => False) := by
  unfold chol
  refine wp_forUp (fun i L => CholCells A i 0 L) (Nat.zero_le n) ?_ ?_ (fun _ h => h)
  · refine ⟨fun _ _ _ => rfl, fun _ _ _ => rfl, ?_, ?_⟩
    · intro a h; omega
    · intro a b h; omega
  · intro i L _ hi hs
    refine wp_forUp (fun j L => CholCells A i j L) (Nat.zero_le _) hs ?_ ?_
    · intro j L _ hj hs
      have := cholStep_eq A L ⟨i, hi⟩ ⟨j, by omega⟩
      dsimp only at this
      rw [this, wp_ok]
      exact chol_step A L ⟨i, hi⟩ ⟨j, by omega⟩ (by rw [Fin.le_def]; dsimp only; omega) hs
    · intro L h
      refine ⟨h.upper, fun a b hab => ?_, fun a ha => ?_, fun a b hab hba => ?_⟩
      · by_cases h1 : a.val = i ∧ b.val < i + 1
        · omega
        · by_cases h2 : a.val = i
          · exact h.upper a b (by rw [Fin.lt_def]; omega)
          · exact h.undone a b (by omega)
      · exact h.diag a (by omega)
      · rw [Fin.lt_def] at hba
        exact h.off a b (by omega) hba

/-! ## Values -/

theorem cholS_err (L : Mat (Fl F) n n) (i j : Fin n) (h : (cholS L i j).Finite) :
    |(cholS L i j).val - ∑ p, if p < i then (L i p).val * (L j p).val else 0| ≤
      ((1 + F.u) ^ i.val - 1) * (∑ p, if p < i then |(L i p).val| * |(L j p).val| else 0) +
        i.val * (1 + F.u) ^ (i.val - 1) * F.eta := by
  have := terms_err (n := 1) (m := i.val) (p := 1)
    (.of fun _ p => L i ⟨p.val, lt_trans p.2 i.2⟩) (.of fun p _ => L j ⟨p.val, lt_trans p.2 i.2⟩)
    0 0 h
  rw [← sum_cut (i := i) (fun p => (L i p).val * (L j p).val),
    ← sum_cut (i := i) (fun p => |(L i p).val| * |(L j p).val|)]
  exact this

/-- A finite quotient by a finite number is not a division by zero. -/
theorem div_finite_ne {a b : Fl F} (hb : b.Finite) (h : (a.div b).Finite) : b.val ≠ 0 := by
  intro h0
  match a, b, hb with
  | .nan, .fin _ _ _, _ => exact h.elim
  | .inf _, .fin _ _ _, _ => exact h.elim
  | .fin s M hM, .fin t N hN, _ =>
    have hN0 : N = 0 := by
      unfold val at h0
      rw [div_eq_zero_iff] at h0
      rcases h0 with h0 | h0
      · cases t <;> simpa [signed] using h0
      · exact absurd h0 (unit_posR F).ne'
    subst hN0
    unfold div at h
    dsimp only at h
    rw [if_pos rfl] at h
    split at h <;> exact h.elim

/-- What the backward error depends on: the equations of `L`, with sums `S` that are only required to be accurate. -/
structure CholVals (A L S : Mat (Fl F) n n) : Prop where
  upper : ∀ a b : Fin n, a < b → (L a b).val = 0
  diag : ∀ a : Fin n, L a a = ((A a a).sub (S a a)).sqrt
  off : ∀ a b : Fin n, b < a → L a b = ((A a b).sub (S a b)).div (L b b)
  err : ∀ i j : Fin n, j ≤ i → (S i j).Finite →
    |(S i j).val - ∑ p, if p < j then (L i p).val * (L j p).val else 0| ≤
      ((1 + F.u) ^ i.val - 1) * (∑ p, if p < j then |(L i p).val| * |(L j p).val| else 0) +
        i.val * (1 + F.u) ^ (i.val - 1) * F.eta

/-- The terms of the sum: the first ones only matter. -/
theorem cutRow_terms {c u l d : Fin n → ℝ} {i j : Fin n} (hij : j ≤ i) (hlt : ∀ p, p < j → c p = l p)
    (hge : j < i → ∀ p, ¬ p < j → c p = 0) (hd : ∀ p, d p = u p) :
    (∑ p, if p < i then c p * d p else 0) = ∑ p, if p < j then l p * u p else 0 := by
  refine Finset.sum_congr rfl (fun p _ => ?_)
  rw [hd p]
  by_cases hp : p < j
  · rw [if_pos (hp.trans_le hij), if_pos hp, hlt p hp]
  · rcases hij.eq_or_lt with rfl | hij
    · rw [if_neg hp, if_neg hp]
    · rw [hge hij p hp, zero_mul, ite_self, if_neg hp]

theorem CholCells.vals {A L : Mat (Fl F) n n} (hc : CholCells A n 0 L) :
    CholVals A L (.of fun i j => if i = j then cholS L i j else cholS (cutRow L i j) i j) where
  upper a b h := by rw [hc.upper a b h, zero_val]
  diag a := by rw [Matrix.of_apply, if_pos rfl]; exact hc.diag a (.inl a.2)
  off a b h := by rw [Matrix.of_apply, if_neg (ne_of_gt h)]; exact hc.off a b (.inl a.2) h
  err i j hij := by
    rw [Matrix.of_apply]
    rcases hij.eq_or_lt with rfl | hij
    · rw [if_pos rfl]
      exact cholS_err L j j
    · rw [if_neg (ne_of_gt hij)]
      intro hf
      have := cholS_err (cutRow L i j) i j hf
      have hrow : ∀ p, cutRow L i j j p = L j p := by
        intro p
        unfold cutRow
        rw [Matrix.of_apply, if_neg (fun e => ne_of_lt hij e.1)]
      have hlt : ∀ p, p < j → cutRow L i j i p = L i p := by
        intro p hp
        unfold cutRow
        rw [Matrix.of_apply, if_neg (fun e => absurd hp (not_lt.mpr e.2))]
      have hge : ∀ p, ¬ p < j → (cutRow L i j i p).val = 0 := by
        intro p hp
        unfold cutRow
        rw [Matrix.of_apply, if_pos ⟨rfl, not_lt.mp hp⟩, zero_val]
      rw [cutRow_terms (c := fun p => (cutRow L i j i p).val) (l := fun p => (L i p).val)
          (d := fun p => (cutRow L i j j p).val) (u := fun p => (L j p).val) hij.le
          (fun p hp => by rw [hlt p hp]) (fun _ p hp => hge p hp) (fun p => by rw [hrow p]),
        cutRow_terms (c := fun p => |(cutRow L i j i p).val|) (l := fun p => |(L i p).val|)
          (d := fun p => |(cutRow L i j j p).val|) (u := fun p => |(L j p).val|) hij.le
          (fun p hp => by rw [hlt p hp]) (fun _ p hp => by rw [hge p hp, abs_zero]) (fun p => by rw [hrow p])] at this
      exact this

theorem CholVals.diag_nonneg {A L S : Mat (Fl F) n n} (hc : CholVals A L S)
    (j : Fin n) (hf : (L j j).Finite) : 0 ≤ (L j j).val := by
  have hcell := hc.diag j
  rw [hcell] at hf ⊢
  obtain ⟨ht, ht0⟩ := sqrt_arg hf
  rcases Rounded.nonneg (sqrt_rounded ht ht0) (Real.sqrt_nonneg _) with h | h
  · exact h.2
  · rw [h] at hf
    exact hf.elim

theorem CholVals.backward {A L S : Mat (Fl F) n n} (hc : CholVals A L S)
    (i j : Fin n) (hji : j ≤ i) (hf : (L i j).Finite) (hjj : (L j j).Finite) :
    |(∑ p, (L i p).val * (L j p).val) - (A i j).val| ≤
      ((1 + F.u) ^ (n + 2) - 1) * (∑ p, |(L i p).val| * |(L j p).val|) +
        (n + |(L j j).val|) * (1 + F.u) ^ n * F.eta := by
  have hu := u_nonneg F
  have hu1 := u_lt_one F
  have he := eta_nonneg F
  have hn : 1 ≤ n := by have := i.2; omega
  have hmono : ∀ {a b : Nat}, a ≤ b → (1 + F.u) ^ a ≤ (1 + F.u) ^ b := fun h =>
    pow_le_pow_right₀ (by linarith) h
  have hone : ∀ a : Nat, 1 ≤ (1 + F.u) ^ a := fun a => one_add_u_pow F a
  -- the term of the bound coming from the sum
  have hunder : ∀ k : Nat, k < n → (k : ℝ) * (1 + F.u) ^ (k - 1) * F.eta ≤
      n * (1 + F.u) ^ n * F.eta := by
    intro k hk
    have h1 : (k : ℝ) ≤ n := by exact_mod_cast hk.le
    have h2 := hmono (show k - 1 ≤ n by omega)
    have h3 := hone (k - 1)
    refine mul_le_mul_of_nonneg_right ?_ he
    exact mul_le_mul h1 h2 (by linarith) (Nat.cast_nonneg _)
  rcases hji.eq_or_lt with rfl | hij
  · -- on the diagonal
    have hcell := hc.diag j
    rw [hcell] at hf
    obtain ⟨ht, ht0⟩ := sqrt_arg hf
    have hS := (sub_finite ht).2
    have e1 := hc.err j j le_rfl hS
    have e2 := sub_err_res ht
    have e3 := sqrt_err_res hf
    have hl0 : 0 ≤ (L j j).val := hc.diag_nonneg j hjj
    rw [← hcell] at e3
    set t := (A j j).sub (S j j)
    generalize S j j = S at *
    set l := (L j j).val
    rw [abs_of_nonneg hl0, abs_le] at e3
    have hr := Real.sqrt_nonneg t.val
    have hrt : t.val = Real.sqrt t.val * Real.sqrt t.val := (Real.mul_self_sqrt ht0).symm
    set r := Real.sqrt t.val
    have f1 : t.val ≤ (1 + F.u) ^ 2 * (l * l) := by
      rw [hrt]
      calc r * r ≤ ((1 + F.u) * l) * ((1 + F.u) * l) :=
            mul_self_le_mul_self hr (by linarith)
        _ = _ := by ring
    have f2 : (1 - F.u) ^ 2 * (l * l) ≤ t.val := by
      rw [hrt]
      calc _ = ((1 - F.u) * l) * ((1 - F.u) * l) := by ring
        _ ≤ _ := mul_self_le_mul_self (mul_nonneg (by linarith) hl0) (by linarith)
    have hll : 0 ≤ l * l := mul_nonneg hl0 hl0
    have e4 : |l * l - t.val| ≤ ((1 + F.u) ^ 2 - 1) * (l * l) := by
      rw [abs_le]
      constructor
      · linarith
      · have : 0 ≤ 2 * F.u ^ 2 * (l * l) := by positivity
        nlinarith
    have s1 : (∑ p, (L j p).val * (L j p).val) =
        (∑ p, if p < j then (L j p).val * (L j p).val else 0) + l * l :=
      sum_split j _ (fun p hp => by rw [hc.upper j p hp, zero_mul])
    have s2 : (∑ p, |(L j p).val| * |(L j p).val|) =
        (∑ p, if p < j then |(L j p).val| * |(L j p).val| else 0) + l * l := by
      rw [sum_split j _ (fun p hp => by rw [hc.upper j p hp, abs_zero, zero_mul]),
        abs_mul_abs_self]
    rw [s1, s2]
    have hX : 0 ≤ ∑ p, if p < j then |(L j p).val| * |(L j p).val| else 0 :=
      Finset.sum_nonneg (fun p _ => by split <;> positivity)
    set P := ∑ p, if p < j then (L j p).val * (L j p).val else 0
    set X := ∑ p, if p < j then |(L j p).val| * |(L j p).val| else 0
    have h3 : |P + l * l - (A j j).val| ≤ |S.val - P| +
        |t.val - ((A j j).val - S.val)| + |l * l - t.val| := by
      rw [show P + l * l - (A j j).val = -(S.val - P) +
        (t.val - ((A j j).val - S.val)) + (l * l - t.val) by ring]
      refine (abs_add_three _ _ _).trans ?_
      rw [abs_neg]
    rw [abs_of_nonneg ht0] at e2
    have h4 := mul_le_mul_of_nonneg_right
      (sub_le_sub_right (hmono (show j.val ≤ n + 2 by omega)) 1) hX
    have h5 := mul_le_mul_of_nonneg_right
      (sub_le_sub_right (hmono (show 3 ≤ n + 2 by omega)) 1) hll
    have h6 := hunder j.val j.2
    have h7 : 0 ≤ |l| * (1 + F.u) ^ n * F.eta := by
      have := hone n
      positivity
    have h8 := mul_le_mul_of_nonneg_left f1 hu
    calc _ ≤ _ := h3
      _ ≤ (((1 + F.u) ^ j.val - 1) * X + j.val * (1 + F.u) ^ (j.val - 1) * F.eta) +
          F.u * ((1 + F.u) ^ 2 * (l * l)) + ((1 + F.u) ^ 2 - 1) * (l * l) := by linarith
      _ = ((1 + F.u) ^ j.val - 1) * X + j.val * (1 + F.u) ^ (j.val - 1) * F.eta +
          ((1 + F.u) ^ 3 - 1) * (l * l) := by ring
      _ ≤ ((1 + F.u) ^ (n + 2) - 1) * X + n * (1 + F.u) ^ n * F.eta +
          ((1 + F.u) ^ (n + 2) - 1) * (l * l) + |l| * (1 + F.u) ^ n * F.eta := by linarith
      _ = _ := by ring
  · -- below the diagonal
    have hcell := hc.off i j hij
    rw [hcell] at hf
    have ht := div_finite_left hf
    have hd : (L j j).val ≠ 0 := div_finite_ne (hjj) hf
    have hS := (sub_finite ht).2
    have e1 := hc.err i j hij.le hS
    have e2 := sub_err_res ht
    have e3 := div_err_res (hjj) hd hf
    rw [← hcell] at e3
    set t := (A i j).sub (S i j)
    generalize S i j = S at *
    have s1 : (∑ p, (L i p).val * (L j p).val) =
        (∑ p, if p < j then (L i p).val * (L j p).val else 0) + (L i j).val * (L j j).val :=
      sum_split j _ (fun p hp => by rw [hc.upper j p hp, mul_zero])
    have s2 : (∑ p, |(L i p).val| * |(L j p).val|) =
        (∑ p, if p < j then |(L i p).val| * |(L j p).val| else 0) + |(L i j).val| * |(L j j).val| :=
      sum_split j _ (fun p hp => by rw [hc.upper j p hp, abs_zero, mul_zero])
    rw [s1, s2]
    have hX : 0 ≤ ∑ p, if p < j then |(L i p).val| * |(L j p).val| else 0 :=
      Finset.sum_nonneg (fun p _ => by split <;> positivity)
    set P := ∑ p, if p < j then (L i p).val * (L j p).val else 0
    set X := ∑ p, if p < j then |(L i p).val| * |(L j p).val| else 0
    have e4 : |(L i j).val * (L j j).val - t.val| ≤ (F.u * |(L i j).val| + F.eta) * |(L j j).val| := by
      have := mul_le_mul_of_nonneg_right e3 (abs_nonneg (L j j).val)
      rw [← abs_mul, sub_mul, div_mul_cancel₀ _ hd] at this
      exact this
    have e5 : |t.val| ≤ |(L i j).val| * |(L j j).val| +
        (F.u * |(L i j).val| + F.eta) * |(L j j).val| := by
      have h1 := abs_sub_abs_le_abs_sub t.val ((L i j).val * (L j j).val)
      rw [abs_sub_comm, abs_mul] at h1
      linarith
    have h3 : |P + (L i j).val * (L j j).val - (A i j).val| ≤ |S.val - P| +
        |t.val - ((A i j).val - S.val)| + |(L i j).val * (L j j).val - t.val| := by
      rw [show P + (L i j).val * (L j j).val - (A i j).val = -(S.val - P) +
        (t.val - ((A i j).val - S.val)) + ((L i j).val * (L j j).val - t.val) by ring]
      refine (abs_add_three _ _ _).trans ?_
      rw [abs_neg]
    have h4 := mul_le_mul_of_nonneg_right
      (sub_le_sub_right (hmono (show i.val ≤ n + 2 by omega)) 1) hX
    have h5' : (1 + F.u) ≤ (1 + F.u) ^ n := by
      have := hmono hn
      rwa [pow_one] at this
    have h6 := hunder i.val i.2
    have hLU : 0 ≤ |(L i j).val| * |(L j j).val| := by positivity
    have h7 := mul_le_mul_of_nonneg_right
      (sub_le_sub_right (hmono (show 2 ≤ n + 2 by omega)) 1) hLU
    have h8 : (1 + F.u) * (|(L j j).val| * F.eta) ≤ (1 + F.u) ^ n * (|(L j j).val| * F.eta) :=
      mul_le_mul_of_nonneg_right h5' (by positivity)
    have h9 := mul_le_mul_of_nonneg_left e5 hu
    calc _ ≤ _ := h3
      _ ≤ (((1 + F.u) ^ i.val - 1) * X + i.val * (1 + F.u) ^ (i.val - 1) * F.eta) +
          F.u * (|(L i j).val| * |(L j j).val| + (F.u * |(L i j).val| + F.eta) * |(L j j).val|) +
          (F.u * |(L i j).val| + F.eta) * |(L j j).val| := by linarith
      _ = (((1 + F.u) ^ i.val - 1) * X) + i.val * (1 + F.u) ^ (i.val - 1) * F.eta +
          ((1 + F.u) ^ 2 - 1) * (|(L i j).val| * |(L j j).val|) +
          (1 + F.u) * (|(L j j).val| * F.eta) := by ring
      _ ≤ ((1 + F.u) ^ (n + 2) - 1) * X + n * (1 + F.u) ^ n * F.eta +
          ((1 + F.u) ^ (n + 2) - 1) * (|(L i j).val| * |(L j j).val|) +
          (1 + F.u) ^ n * (|(L j j).val| * F.eta) := by linarith
      _ = _ := by ring

theorem chol_diag_nonneg {A L : Mat (Fl F) n n} (hc : CholCells A n 0 L)
    (j : Fin n) (hf : (L j j).Finite) : 0 ≤ (L j j).val := hc.vals.diag_nonneg j hf

/-- Backward error of the computed factor. -/
theorem chol_backward {A L : Mat (Fl F) n n} (hc : CholCells A n 0 L)
    (i j : Fin n) (hji : j ≤ i) (hf : (L i j).Finite) (hjj : (L j j).Finite) :
    |(∑ p, (L i p).val * (L j p).val) - (A i j).val| ≤
      ((1 + F.u) ^ (n + 2) - 1) * (∑ p, |(L i p).val| * |(L j p).val|) +
        (n + |(L j j).val|) * (1 + F.u) ^ n * F.eta := hc.vals.backward i j hji hf hjj

end Fl
end MatrixLibs
