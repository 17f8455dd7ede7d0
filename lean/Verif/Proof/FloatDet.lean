import Verif.Proof.FloatChol

/-!
# The general determinant of floating point matrices
-/

namespace MatrixLibs

set_option linter.unusedSectionVars false

namespace Fl
variable {F : Fmt} {n : Nat}

/-- The elimination, element by element. -/
theorem detEliminate_eq (A : Mat (Fl F) n n) (r p : Fin n) :
    detEliminate A r p = .ok (.of fun i j => if (p < i ∧ i ≠ r) ∧ p ≤ j then
      (A i j).sub (((A i p).mul (A r j)).div (A r p)) else A i j) := by
  unfold detEliminate
  apply wp_eq
  refine wp_forUp (fun k A' => ∀ i j : Fin n, A' i j =
    if (p < i ∧ i.val < k ∧ i ≠ r) ∧ p ≤ j then
      (A i j).sub (((A i p).mul (A r j)).div (A r p)) else A i j)
    (by omega) ?_ ?_ ?_
  · intro i j
    rw [if_neg]
    rintro ⟨⟨h1, h2, -⟩, -⟩
    rw [Fin.lt_def] at h1
    omega
  · intro k A' hk0 hk ih
    split
    · next hkr =>
      have hkr' : (⟨k, hk⟩ : Fin n) ≠ r := fun h => hkr (by rw [← h])
      have hrow : ∀ j, A' r j = A r j := by
        intro j; rw [ih, if_neg]; rintro ⟨⟨-, -, h⟩, -⟩; exact h rfl
      have hkrow : ∀ j, A' ⟨k, hk⟩ j = A ⟨k, hk⟩ j := by
        intro j; rw [ih, if_neg]; rintro ⟨⟨-, h, -⟩, -⟩; exact absurd h (lt_irrefl _)
      rw [rd_eq hk p.2, ok_bind]
      refine wp_forUp (fun l B => (∀ i j : Fin n, i.val ≠ k → B i j = A' i j) ∧
        ∀ j : Fin n, B ⟨k, hk⟩ j = if p ≤ j ∧ j.val < l then
          (A ⟨k, hk⟩ j).sub (((A ⟨k, hk⟩ p).mul (A r j)).div (A r p))
          else A ⟨k, hk⟩ j) (by omega) ?_ ?_ ?_
      · refine ⟨fun _ _ _ => rfl, fun j => ?_⟩
        rw [hkrow, if_neg]
        rintro ⟨h1, h2⟩
        rw [Fin.le_def] at h1
        omega
      · rintro l B hl0 hl ⟨hB1, hB2⟩
        have hBr : ∀ j, B r j = A r j := fun j =>
          (hB1 r j (fun h => hkr' (Fin.ext h.symm))).trans (hrow j)
        have hBk : B ⟨k, hk⟩ ⟨l, hl⟩ = A ⟨k, hk⟩ ⟨l, hl⟩ := by
          rw [hB2, if_neg (by dsimp only; omega)]
        rw [rd_eq r.2 hl, ok_bind]
        show wp (do
          let q ← Except.ok ((A' ⟨k, hk⟩ p).mul (B r ⟨l, hl⟩))
          let x ← rd B r p
          let q ← CScalar.div q x
          let y ← rd B k l
          wr B k l (← CScalar.sub y q)) _ _
        rw [ok_bind, rd_eq r.2 p.2, ok_bind]
        show wp (do
          let q ← Except.ok (((A' ⟨k, hk⟩ p).mul (B r ⟨l, hl⟩)).div (B r p))
          let y ← rd B k l
          wr B k l (← CScalar.sub y q)) _ _
        rw [ok_bind, rd_eq hk hl, ok_bind]
        show wp (wr B k l ((B ⟨k, hk⟩ ⟨l, hl⟩).sub
          (((A' ⟨k, hk⟩ p).mul (B r ⟨l, hl⟩)).div (B r p)))) _ _
        rw [wr_eq hk hl, wp_ok, hBr, hBr, hBk, hkrow]
        refine ⟨?_, ?_⟩
        · intro i j hik
          rw [Matrix.of_apply, if_neg (by omega)]
          exact hB1 i j hik
        · intro j
          rw [Matrix.of_apply]
          by_cases hj : j.val = l
          · have hjl : j = ⟨l, hl⟩ := Fin.ext hj
            rw [if_pos ⟨rfl, hj⟩, if_pos ⟨by rw [Fin.le_def]; omega, by omega⟩, hjl]
          · rw [if_neg (by omega), hB2]
            exact if_congr (by omega) rfl rfl
      · rintro B ⟨hB1, hB2⟩ i j
        by_cases hik : i.val = k
        · have : i = ⟨k, hk⟩ := Fin.ext hik
          subst this
          rw [hB2]
          refine if_congr ⟨?_, ?_⟩ rfl rfl
          · rintro ⟨h1, h2⟩
            exact ⟨⟨by rw [Fin.lt_def]; omega, by dsimp only; omega, hkr'⟩, h1⟩
          · rintro ⟨-, h1⟩
            exact ⟨h1, j.2⟩
        · rw [hB1 i j hik, ih]
          refine if_congr ⟨?_, ?_⟩ rfl rfl
          · rintro ⟨⟨h1, h2, h3⟩, h4⟩
            exact ⟨⟨h1, by omega, h3⟩, h4⟩
          · rintro ⟨⟨h1, h2, h3⟩, h4⟩
            exact ⟨⟨h1, by omega, h3⟩, h4⟩
    · next hkr =>
      rw [wp_ok]
      intro i j
      rw [ih]
      refine if_congr ⟨?_, ?_⟩ rfl rfl
      · rintro ⟨⟨h1, h2, h3⟩, h4⟩
        exact ⟨⟨h1, by omega, h3⟩, h4⟩
      · rintro ⟨⟨h1, h2, h3⟩, h4⟩
        refine ⟨⟨h1, ?_, h3⟩, h4⟩
        have : i.val ≠ r.val := fun h => h3 (Fin.ext h)
        omega
  · intro A' h
    ext i j
    rw [h, Matrix.of_apply]
    refine if_congr ⟨?_, ?_⟩ rfl rfl
    · rintro ⟨⟨h1, h2, h3⟩, h4⟩
      exact ⟨⟨h1, h3⟩, h4⟩
    · rintro ⟨⟨h1, h3⟩, h4⟩
      exact ⟨⟨h1, i.2, h3⟩, h4⟩

/-- The computed product of the diagonal, from the top. -/
def dprod (A : Mat (Fl F) n n) : Fl F := (List.finRange n).foldl (fun s i => s.mul (A i i)) (ofInt 1)

theorem detProd_eq (A : Mat (Fl F) n n) (f : Fl F) : detProd A f = .ok ((dprod A).div f) := by
  unfold detProd
  rw [forUp_foldlM, foldlM_ok (List.finRange n) (CScalar.ofInt 1 : Fl F) _
    (fun s i => s.mul (A i i)) ?_]
  · rfl
  · intro s i
    rw [rd_fin]
    rfl

theorem mul_zero_left {a b : Fl F} (ha : a.Finite) (hb : b.Finite) (h : a.val = 0 ∨ b.val = 0) :
    (a.mul b).Finite ∧ (a.mul b).val = 0 := by
  have hr := mul_rounded ha hb
  rw [mul_eq_zero.mpr h] at hr
  exact hr.exact 0 (by simp) rep_zero

theorem zero_div {a b : Fl F} (ha : a.Finite) (h : a.val = 0) (hb : b.Finite) (h0 : b.val ≠ 0) :
    (a.div b).Finite ∧ (a.div b).val = 0 := by
  have hr := div_rounded ha hb h0
  rw [h, _root_.zero_div] at hr
  exact hr.exact 0 (by simp) rep_zero

theorem sub_zero_val {a b : Fl F} (ha : a.Finite) (hb : b.Finite) (h : b.val = 0) :
    (a.sub b).Finite ∧ (a.sub b).val = a.val := by
  have hr := sub_rounded ha hb
  rw [h, sub_zero] at hr
  obtain ⟨N, hN, e⟩ := fin_rep ha
  exact hr.exact N e hN

theorem div_one_val {a : Fl F} (ha : a.Finite) :
    (a.div (ofInt 1)).Finite ∧ (a.div (ofInt 1)).val = a.val := by
  have hr := div_rounded ha one_val.1 (by rw [one_val.2]; exact one_ne_zero)
  rw [one_val.2, div_one] at hr
  obtain ⟨N, hN, e⟩ := fin_rep ha
  exact hr.exact N e hN

/-- `div` by one keeps NaN and infinities. -/
theorem div_one_finite {a : Fl F} (h : (a.div (ofInt 1)).Finite) : a.Finite := div_finite_left h

/-- Invariant of the outer loop of `det` for a triangular matrix. -/
structure TriInv (A0 : Mat (Fl F) n n) (k : Nat) (s : DetState (Fl F) n) : Prop where
  factor : s.factor = ofInt 1
  pivot : s.pivot = k
  cells : ∀ i j : Fin n, k ≤ j.val ∨ i ≤ j → (s.A i j).Finite ∧ (s.A i j).val = (A0 i j).val

theorem wp_detStep_tri (A0 : Mat (Fl F) n n)
    (htri : (∀ i j, i < j → (A0 i j).val = 0) ∨ (∀ i j, j < i → (A0 i j).val = 0))
    (hd : ∀ i, (A0 i i).val ≠ 0) (k : Nat) (hk : k < n) (s : DetState (Fl F) n)
    (hs : TriInv A0 k s) :
    wp (detStep k s) (fun x => match x with
      | .cont s' => TriInv A0 (k + 1) s'
      | .ret _ => False) (fun _ => False) := by
  obtain ⟨A, f, pivot⟩ := s
  obtain ⟨rfl, rfl, hc⟩ := hs
  dsimp only at hc hk ⊢
  unfold detStep
  dsimp only
  rw [if_neg (by omega)]
  have hpk := hc ⟨pivot, hk⟩ ⟨pivot, hk⟩ (.inl le_rfl)
  have hp0 : (A ⟨pivot, hk⟩ ⟨pivot, hk⟩).val ≠ 0 := by rw [hpk.2]; exact hd _
  have hsearch : detSearch A pivot (n * n + 1) pivot pivot = .ok (some (pivot, pivot)) := by
    unfold detSearch
    rw [rd_eq hk hk, ok_bind, if_neg]
    intro h
    exact hp0 (((eq_iff hpk.1 zero_finite).mp h).trans zero_val)
  rw [hsearch, ok_bind]
  have hswap : detSwap A (ofInt 1) pivot pivot = .ok (A, ofInt 1) := by
    unfold detSwap
    rw [if_neg (by simp)]
  dsimp only
  rw [hswap, ok_bind]
  dsimp only
  have := detEliminate_eq A ⟨pivot, hk⟩ ⟨pivot, hk⟩
  dsimp only at this
  rw [this, ok_bind]
  refine ⟨rfl, rfl, ?_⟩
  intro i j hij
  dsimp only
  rw [Matrix.of_apply]
  split
  · next h =>
    obtain ⟨⟨h1, -⟩, h2⟩ := h
    rw [Fin.lt_def] at h1
    rw [Fin.le_def] at h2
    dsimp only at h1 h2
    have hjp : pivot < j.val := by
      rcases hij with h | h
      · omega
      · rw [Fin.le_def] at h
        omega
    have c1 := hc i ⟨pivot, hk⟩ (.inl le_rfl)
    have c2 := hc ⟨pivot, hk⟩ j (.inl hjp.le)
    have c3 := hc i j (.inl hjp.le)
    have hz : (A i ⟨pivot, hk⟩).val = 0 ∨ (A ⟨pivot, hk⟩ j).val = 0 := by
      rw [c1.2, c2.2]
      rcases htri with h | h
      · exact .inr (h _ _ hjp)
      · exact .inl (h _ _ h1)
    have m := mul_zero_left c1.1 c2.1 hz
    have q := zero_div m.1 m.2 hpk.1 hp0
    have r := sub_zero_val c3.1 q.1 q.2
    exact ⟨r.1, r.2.trans c3.2⟩
  · exact hc i j (by omega)

/-- The general determinant of a triangular matrix without zeros on the diagonal is the computed
product of numbers with the values of its diagonal. -/
theorem detN_tri (A : Mat (Fl F) n n) (hA : ∀ i j, (A i j).Finite)
    (htri : (∀ i j, i < j → (A i j).val = 0) ∨ (∀ i j, j < i → (A i j).val = 0))
    (hd : ∀ i, (A i i).val ≠ 0) :
    ∃ B : Mat (Fl F) n n, (∀ i, (B i i).Finite ∧ (B i i).val = (A i i).val) ∧
      detN A = .ok ((dprod B).div (ofInt 1)) := by
  have hw : wp (detN A) (fun v => ∃ B : Mat (Fl F) n n,
      (∀ i, (B i i).Finite ∧ (B i i).val = (A i i).val) ∧ v = (dprod B).div (ofInt 1))
      (fun _ => False) := by
    unfold detN
    rw [wp_bind]
    refine wp_forRet (TriInv A) (fun _ => False) (Nat.zero_le n) ⟨rfl, rfl, fun i j _ => ⟨hA i j, rfl⟩⟩
      (fun k s _ hk hs => ?_) ?_ (fun _ h => h.elim)
    · refine wp_mono (wp_detStep_tri A htri hd k hk s hs) ?_ (fun _ h => h)
      intro x hx
      cases x <;> exact hx
    · rintro s ⟨hf, -, hc⟩
      dsimp only
      rw [detProd_eq, hf, wp_ok]
      exact ⟨s.A, fun i => hc i i (.inr le_rfl), rfl⟩
  cases h : detN A with
  | error e => rw [h] at hw; exact hw.elim
  | ok v =>
    rw [h] at hw
    obtain ⟨B, hB, rfl⟩ := hw
    exact ⟨B, hB, rfl⟩

/-- Error of a computed product. -/
theorem foldl_mul_tracks (l : List (Fl F)) {M : ℝ} (hM : 1 ≤ M) (hl : ∀ x ∈ l, |x.val| ≤ M)
    (hf : (l.foldl Fl.mul (ofInt 1)).Finite) :
    Tracks (l.foldl Fl.mul (ofInt 1)) (l.map val).prod (l.map fun x => |x.val|).prod l.length
      (l.length * ((1 + F.u) ^ l.length * M ^ l.length * F.eta)) := by
  have hu := u_nonneg F
  have he := eta_nonneg F
  induction l using List.reverseRecOn with
  | nil =>
    have h := Tracks.exact (one_val (F := F)).1
    rw [one_val.2, abs_one] at h
    simpa using h
  | append_singleton l x ih =>
    rw [List.foldl_append] at hf ⊢
    simp only [List.foldl_cons, List.foldl_nil] at hf ⊢
    have h1 := ih (fun y hy => hl y (by simp [hy])) (mul_finite hf).1
    have h2 := h1.mul_exact hf
    simp only [List.map_append, List.map_cons, List.map_nil, List.prod_append, List.prod_cons,
      List.prod_nil, mul_one, List.length_append, List.length_cons, List.length_nil, zero_add]
    refine h2.weaken le_rfl ?_
    have hx := hl x (by simp)
    have e1 : (1 : ℝ) ≤ (1 + F.u) ^ (l.length + 1) := one_add_u_pow F _
    have e2 : (1 : ℝ) ≤ M ^ (l.length + 1) := one_le_pow₀ hM
    have e3 : F.eta ≤ (1 + F.u) ^ (l.length + 1) * M ^ (l.length + 1) * F.eta := by
      have : 1 ≤ (1 + F.u) ^ (l.length + 1) * M ^ (l.length + 1) := by nlinarith
      nlinarith
    have e4 : (1 + F.u) * (l.length * ((1 + F.u) ^ l.length * M ^ l.length * F.eta) * |x.val|) ≤
        l.length * ((1 + F.u) ^ (l.length + 1) * M ^ (l.length + 1) * F.eta) := by
      have hM0 : (0 : ℝ) ≤ M := by linarith
      have : (l.length : ℝ) * ((1 + F.u) ^ l.length * M ^ l.length * F.eta) * |x.val| ≤
          l.length * ((1 + F.u) ^ l.length * M ^ l.length * F.eta) * M :=
        mul_le_mul_of_nonneg_left hx (by positivity)
      calc _ ≤ (1 + F.u) * (l.length * ((1 + F.u) ^ l.length * M ^ l.length * F.eta) * M) :=
            mul_le_mul_of_nonneg_left this (by linarith)
        _ = _ := by ring
    push_cast
    linarith

theorem dprod_tracks (A : Mat (Fl F) n n) {M : ℝ} (hM : 1 ≤ M) (hl : ∀ i, |(A i i).val| ≤ M)
    (hf : (dprod A).Finite) :
    Tracks (dprod A) (∏ i, (A i i).val) |∏ i, (A i i).val| n
      (n * ((1 + F.u) ^ n * M ^ n * F.eta)) := by
  have e : dprod A = ((List.finRange n).map fun i => A i i).foldl Fl.mul (ofInt 1) := by
    unfold dprod
    rw [List.foldl_map]
  rw [e] at hf ⊢
  have h := foldl_mul_tracks _ hM (by
    intro x hx
    obtain ⟨i, -, rfl⟩ := List.mem_map.mp hx
    exact hl i) hf
  rw [List.length_map, List.length_finRange, List.map_map, List.map_map] at h
  have p1 : ∀ f : Fin n → ℝ, ((List.finRange n).map f).prod = ∏ i, f i := by
    intro f
    rw [← List.ofFn_eq_map, List.prod_ofFn]
  rw [p1, p1] at h
  rw [Finset.abs_prod]
  exact h

end Fl
end MatrixLibs
