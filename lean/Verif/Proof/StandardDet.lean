import Verif.Proof.StandardStats
import Verif.Proof.FloatElim
import Verif.Props.FloatDetForward
import Mathlib.LinearAlgebra.Matrix.Determinant.Basic
import Mathlib.LinearAlgebra.Matrix.Block

/-!
# Error analysis in the standard model: elimination
-/

namespace MatrixLibs

set_option linter.unusedSectionVars false

open CScalar (ofInt)

namespace Standard

variable {T : Type} [Inhabited T] [CScalar T] [Standard T] {n : Nat}

/-- The error of one element of one step. -/
theorem elim_cell {s a b c s' : T} {G m : ℝ} (hm : 0 < m) (hcm : m ≤ |val c|) (hf : elimCell s a b c = .ok s')
    (hs : |val s| ≤ G) (hs' : |val s'| ≤ G) :
    |val s' - (val s - val a * val b / val c)| ≤ u T * (1 + (2 + u T) ^ 2) * G + ((1 + u T) ^ 2 + 1 / m) * h T := by
  have hu := u_nonneg (T := T)
  have he := e_nonneg (T := T)
  have hd := d_nonneg (T := T)
  unfold elimCell at hf
  obtain ⟨p, hp, hf⟩ := bind_ok hf
  obtain ⟨q, hq, hf⟩ := bind_ok hf
  have e1 := (Standard.sub hf).res
  have e2 := (Standard.div hq).2.res
  have e3 := (Standard.mul hp).res
  have hcp : 0 < |val c| := lt_of_lt_of_le hm hcm
  have hh : h T = e T + d T := rfl
  generalize val s' = s' at *
  generalize val q = q at *
  generalize val p = p at *
  generalize val s = s at *
  generalize val c = c at *
  generalize val a * val b = x at *
  generalize u T = u at *
  rw [hh]
  generalize e T = ε at *
  generalize d T = δ at *
  have hG : 0 ≤ G := (abs_nonneg _).trans hs
  have q1 : |q| ≤ (2 + u) * G + δ := by
    have h1 : q = s - s' + (s' - (s - q)) := by ring
    have h2 : |q| ≤ |s - s'| + |s' - (s - q)| := by
      conv_lhs => rw [h1]
      exact abs_add_le _ _
    have h3 := abs_sub s s'
    have h4 := mul_le_mul_of_nonneg_left hs' hu
    linarith
  have q2 : |p / c| ≤ (1 + u) * |q| + ε := by
    have h2 := abs_sub_abs_le_abs_sub (p / c) q
    rw [abs_sub_comm] at h2
    linarith
  have q3 : |p / c - x / c| ≤ u * |p / c| + 1 / m * ε := by
    rw [← sub_div, abs_div, abs_div]
    have h1 : |p - x| / |c| ≤ (u * |p| + ε) / |c| := div_le_div_of_nonneg_right e3 hcp.le
    have h2 : (u * |p| + ε) / |c| = u * (|p| / |c|) + 1 / |c| * ε := by ring
    have h3 : 1 / |c| ≤ 1 / m := one_div_le_one_div_of_le hm hcm
    have h4 := mul_le_mul_of_nonneg_right h3 he
    linarith
  have t1 : |s' - (s - x / c)| ≤ |s' - (s - q)| + |q - p / c| + |p / c - x / c| := by
    have h1 : s' - (s - x / c) = (s' - (s - q)) - (q - p / c) - (p / c - x / c) := by ring
    rw [h1]
    exact (abs_sub _ _).trans (add_le_add (abs_sub _ _) le_rfl)
  have h4 := mul_le_mul_of_nonneg_left hs' hu
  have h5 := mul_le_mul_of_nonneg_left q1 (by positivity : 0 ≤ u * (2 + u))
  have h6 := mul_le_mul_of_nonneg_left q2 hu
  have h7 : 0 ≤ 1 / m * δ := by positivity
  have h8 : 0 ≤ (u + u ^ 2) * ε := by positivity
  calc |s' - (s - x / c)| ≤ u * G + δ + (u * |q| + ε) + (u * ((1 + u) * |q| + ε) + 1 / m * ε) := by linarith
    _ = u * G + u * (2 + u) * |q| + δ + (1 + u) * ε + 1 / m * ε := by ring
    _ ≤ u * G + u * (2 + u) * ((2 + u) * G + δ) + δ + (1 + u) * ε + 1 / m * ε := by linarith
    _ ≤ _ := by nlinarith

theorem elim_row {S S' : Mat T n n} {k p : Fin n} (h : Eliminated S k p S') {i : Fin n} (hi : ¬ k < i) (j : Fin n) :
    S' i j = S (Equiv.swap k p i) j := by
  have := h i j
  dsimp only at this
  rwa [if_neg hi] at this

theorem elim_left {S S' : Mat T n n} {k p : Fin n} (h : Eliminated S k p S') {j : Fin n} (hj : j < k) (i : Fin n) :
    S' i j = S (Equiv.swap k p i) j := by
  have := h i j
  dsimp only at this
  rw [if_neg (not_lt.mpr hj.le), if_neg hj.ne] at this
  split at this <;> exact this

theorem elim_column {S S' : Mat T n n} {k p : Fin n} (h : Eliminated S k p S') {i : Fin n} (hi : k < i) : S' i k = ofInt 0 := by
  have := h i k
  dsimp only at this
  rwa [if_pos hi, if_neg (lt_irrefl _), if_pos rfl] at this

theorem elim_inner {S S' : Mat T n n} {k p : Fin n} (h : Eliminated S k p S') {i j : Fin n} (hi : k < i) (hj : k < j) :
    elimCell (S (Equiv.swap k p i) j) (S (Equiv.swap k p i) k) (S (Equiv.swap k p k) j) (S (Equiv.swap k p k) k) =
      .ok (S' i j) := by
  have := h i j
  dsimp only at this
  rwa [if_pos hi, if_pos hj] at this

namespace Steps
variable {A S : Mat T n n} {k : Nat} {σ : Int}

theorem sign (h : Steps A k σ S) : σ = 1 ∨ σ = -1 := by
  induction h with
  | start => exact .inl rfl
  | step p _ _ _ _ _ ih => split <;> omega

theorem le (h : Steps A k σ S) : k ≤ n := by
  cases h with
  | start => exact Nat.zero_le n
  | @step k _ _ _ p _ _ _ _ _ => exact k.2

/-- Below the diagonal the columns done are zero. -/
theorem lower (h : Steps A k σ S) (i j : Fin n) (hj : j.val < k) (hji : j < i) : S i j = ofInt 0 := by
  induction h generalizing i with
  | start => omega
  | @step k σ S S' p _ hp _ _ hS' ih =>
    rw [Fin.lt_def] at hji
    rw [Fin.le_def] at hp
    by_cases hjk : j = k
    · subst hjk
      exact elim_column hS' hji
    · have hjk' : j.val < k.val := by
        have : j.val ≠ k.val := fun h => hjk (Fin.ext h)
        omega
      rw [elim_left hS' hjk']
      refine ih _ hjk' ?_
      rw [Equiv.swap_apply_def, Fin.lt_def]
      split_ifs <;> omega

/-- The exact determinant of a matrix that differs from the one after `k` steps in the remaining rows is that of
a matrix that differs from the first one, by the rounding of the steps. -/
theorem det_eq (h : Steps A k σ S) {G m : ℝ} (hm : 0 < m) (hG0 : 0 ≤ G) (hb : Bounded A G m) :
    ∀ (E : Matrix (Fin n) (Fin n) ℝ) (e : ℝ), (∀ i j, i.val < k → E i j = 0) → (∀ i j, |E i j| ≤ e) →
      ∃ E' : Matrix (Fin n) (Fin n) ℝ, (∀ i j, |E' i j| ≤ e + elimEps T k G m) ∧
        (S.map val + E).det = σ * (A.map val + E').det := by
  have hε : 0 ≤ u T * (1 + (2 + u T) ^ 2) * G + ((1 + u T) ^ 2 + 1 / m) * MatrixLibs.Standard.h T := by
    have := u_nonneg (T := T)
    have := h_nonneg (T := T)
    positivity
  unfold elimEps
  generalize hθ : u T * (1 + (2 + u T) ^ 2) * G + ((1 + u T) ^ 2 + 1 / m) * MatrixLibs.Standard.h T = θ at *
  induction h with
  | start =>
    intro E e _ he
    refine ⟨E, fun i j => ?_, by simp⟩
    simpa using he i j
  | @step k σ S S' p hS hp hnz hfirst hS' ih =>
    intro E e hE he
    have hnext := Steps.step p hS hp hnz hfirst hS'
    have hlow := hS.lower
    have hSG := (hb _ _ _ hS).1
    have hS'G := (hb _ _ _ hnext).1
    have hpm := (hb _ _ _ hnext).2 k (by omega)
    -- the exchanged matrix
    obtain ⟨R, hR⟩ : ∃ R : Mat T n n, R = .of fun i j => S (Equiv.swap k p i) j := ⟨_, rfl⟩
    have hRe : ∀ i j, R i j = S (Equiv.swap k p i) j := fun i j => by rw [hR, Matrix.of_apply]
    rw [elim_row hS' (lt_irrefl k), ← hRe] at hpm
    have hRk0 : val (R k k) ≠ 0 := by
      intro h
      rw [h, abs_zero] at hpm
      linarith
    have hRG : ∀ i j, |val (R i j)| ≤ G := fun i j => by rw [hRe]; exact hSG _ _
    have hRlow : ∀ j : Fin n, j < k → val (R k j) = 0 := by
      intro j hj
      rw [hRe, Equiv.swap_apply_left, hlow p j hj (lt_of_lt_of_le hj hp), zero]
    -- the rounding errors of the step
    obtain ⟨D, hD⟩ : ∃ D : Matrix (Fin n) (Fin n) ℝ, D = .of fun i j => if k < i then
        val (S' i j) - (val (R i j) - val (R i k) * val (R k j) / val (R k k)) else 0 := ⟨_, rfl⟩
    have hDle : ∀ i j, |D i j| ≤ θ := by
      intro i j
      rw [hD, Matrix.of_apply]
      split
      · next hi =>
        rcases lt_trichotomy k j with hj | hj | hj
        · have h1 := elim_inner hS' hi hj
          rw [← hRe, ← hRe, ← hRe, ← hRe] at h1
          rw [← hθ]
          exact elim_cell hm hpm h1 (hRG i j) (hS'G i j)
        · subst hj
          rw [elim_column hS' hi, zero, mul_div_cancel_right₀ _ hRk0, sub_self, sub_self, abs_zero]
          exact hε
        · rw [elim_left hS' hj, ← hRe, hRlow j hj, mul_zero, _root_.zero_div, sub_zero, sub_self, abs_zero]
          exact hε
      · rw [abs_zero]
        exact hε
    have hDk : ∀ i j, i ≤ k → D i j = 0 := by
      intro i j hi
      rw [hD, Matrix.of_apply, if_neg (not_lt.mpr hi)]
    have hEk : ∀ i j, i ≤ k → E i j = 0 := by
      intro i j hi
      rw [Fin.le_def] at hi
      exact hE i j (by omega)
    -- undo the elimination
    have hdet1 : (S'.map val + E).det = (R.map val + (D + E)).det := by
      refine Matrix.det_eq_of_forall_row_eq_smul_add_const
        (fun i => if k < i then -(val (R i k) / val (R k k)) else 0) k (by simp) ?_
      intro i j
      simp only [Matrix.add_apply, Matrix.map_apply]
      rw [hDk k j le_rfl, hEk k j le_rfl]
      by_cases hi : k < i
      · rw [if_pos hi]
        have : D i j = val (S' i j) - (val (R i j) - val (R i k) * val (R k j) / val (R k k)) := by
          rw [hD, Matrix.of_apply, if_pos hi]
        rw [this]
        ring
      · rw [if_neg hi, hDk i j (not_lt.mp hi), hEk i j (not_lt.mp hi), elim_row hS' hi, ← hRe]
        ring
    -- undo the exchange
    obtain ⟨E1, hE1⟩ : ∃ E1 : Matrix (Fin n) (Fin n) ℝ, E1 = (D + E).submatrix (Equiv.swap k p) id := ⟨_, rfl⟩
    have hdet2 : (R.map val + (D + E)).det =
        ((Equiv.Perm.sign (Equiv.swap k p) : ℤ) : ℝ) * (S.map val + E1).det := by
      rw [← Matrix.det_permute (Equiv.swap k p) (S.map val + E1)]
      congr 1
      ext i j
      rw [hE1]
      simp only [Matrix.add_apply, Matrix.map_apply, Matrix.submatrix_apply, id, Equiv.swap_apply_self, hRe]
    have hE1z : ∀ i j, i.val < k.val → E1 i j = 0 := by
      intro i j hi
      rw [Fin.le_def] at hp
      rw [hE1, Matrix.submatrix_apply, Equiv.swap_apply_of_ne_of_ne (fun h => by rw [h] at hi; omega)
        (fun h => by rw [h] at hi; omega), Matrix.add_apply, hDk, hEk, add_zero]
      · exact Fin.le_def.mpr hi.le
      · exact Fin.le_def.mpr hi.le
    have hE1le : ∀ i j, |E1 i j| ≤ e + θ := by
      intro i j
      rw [hE1, Matrix.submatrix_apply, Matrix.add_apply]
      refine (abs_add_le _ _).trans ?_
      have := hDle (Equiv.swap k p i) (id j)
      have := he (Equiv.swap k p i) (id j)
      linarith
    obtain ⟨E', hE'le, hE'⟩ := ih E1 _ hE1z hE1le
    refine ⟨E', fun i j => ?_, ?_⟩
    · have := hE'le i j
      push_cast
      linarith
    · rw [hdet1, hdet2, hE']
      by_cases hpk : p = k
      · subst hpk
        rw [if_pos rfl, Equiv.swap_self, Equiv.Perm.sign_refl]
        simp
      · rw [if_neg hpk, Equiv.Perm.sign_swap (fun h => hpk h.symm)]
        push_cast
        ring

/-- If the column of the next step is zero, so is the determinant. -/
theorem det_zero (h : Steps A k σ S) (q : Fin n) (hq : q.val = k) (h0 : ∀ i, q ≤ i → val (S i q) = 0) :
    (S.map val).det = 0 := by
  refine det_zero_of_column _ q (fun i j h1 h2 => ?_) (fun i hi => ?_)
  · rw [Matrix.map_apply, h.lower i j (by rw [Fin.lt_def] at h1; omega) h2, zero]
  · rw [Matrix.map_apply]
    exact h0 i hi

/-- After all steps it is the product of the diagonal. -/
theorem det_diag (h : Steps A n σ S) : (S.map val).det = ∏ i, val (S i i) := by
  refine (Matrix.det_of_isUpperTriangular (fun i j hij => ?_)).trans rfl
  rw [Matrix.map_apply, h.lower i j j.2 hij, zero]

end Steps

/-! ## The products -/

theorem wp_prod (A : Mat T n n) {M : ℝ} (hM : 1 ≤ M) (hl : ∀ i, |val (A i i)| ≤ M) :
    wp (forUp 0 n (ofInt 1 : T) fun i prod => do CScalar.mul prod (← rd A i i))
      (fun P => |val P - ∏ i, val (A i i)| ≤ ((1 + u T) ^ n - 1) * |∏ i, val (A i i)| + n * ((1 + u T) ^ n * M ^ n * h T))
      (fun _ => True) := by
  have hu := u_nonneg (T := T)
  have hh := h_nonneg (T := T)
  set g : Nat → ℝ := fun a => if ha : a < n then val (A ⟨a, ha⟩ ⟨a, ha⟩) else 0 with hg
  have eg : ∀ a : Fin n, val (A a a) = g a := fun a => by
    rw [hg]
    dsimp only
    rw [dif_pos a.2]
  have e1 : ∏ i, val (A i i) = ∏ i ∈ Finset.range n, g i := by
    rw [Finset.prod_range]
    exact Finset.prod_congr rfl fun a _ => eg a
  rw [e1]
  refine wp_forUp (fun k P => |val P - ∏ i ∈ Finset.range k, g i| ≤ ((1 + u T) ^ k - 1) * |∏ i ∈ Finset.range k, g i| +
    k * ((1 + u T) ^ k * M ^ k * h T)) (Nat.zero_le _) (by simp [one]) ?_ fun _ h => h
  intro k P _ hk hP
  rw [rd_eq hk hk, ok_bind]
  cases hr : CScalar.mul P (A ⟨k, hk⟩ ⟨k, hk⟩) with
  | error _ => trivial
  | ok r =>
    rw [wp_ok, Finset.prod_range_succ]
    have e2 := (mul hr).err
    have e3 := hl ⟨k, hk⟩
    have e4 : val (A ⟨k, hk⟩ ⟨k, hk⟩) = g k := eg ⟨k, hk⟩
    rw [e4] at e2 e3
    have e5 := e_le_h (T := T)
    generalize (∏ i ∈ Finset.range k, g i) = Q at *
    generalize g k = x at *
    have a1 : |val P * x - Q * x| ≤ (((1 + u T) ^ k - 1) * |Q| + k * ((1 + u T) ^ k * M ^ k * h T)) * |x| := by
      rw [← sub_mul, abs_mul]
      exact mul_le_mul_of_nonneg_right hP (abs_nonneg _)
    have a2 : (k * ((1 + u T) ^ k * M ^ k * h T)) * |x| ≤ (k * ((1 + u T) ^ k * M ^ k * h T)) * M :=
      mul_le_mul_of_nonneg_left e3 (by positivity)
    have a3 : |val P * x| ≤ (1 + u T) ^ k * |Q * x| + (k * ((1 + u T) ^ k * M ^ k * h T)) * M := by
      have := abs_sub_abs_le_abs_sub (val P * x) (Q * x)
      rw [abs_mul Q x] at *
      linarith
    have a4 := abs_sub_le (val r) (val P * x) (Q * x)
    have a5 := mul_le_mul_of_nonneg_left a3 hu
    have a6 : h T ≤ (1 + u T) ^ (k + 1) * M ^ (k + 1) * h T :=
      le_mul_of_one_le_left hh (one_le_mul_of_one_le_of_one_le (one_le_pow _) (one_le_pow₀ hM))
    rw [abs_mul Q x] at *
    push_cast
    have a7 : (1 + u T) * ((k * ((1 + u T) ^ k * M ^ k * h T)) * M) = k * ((1 + u T) ^ (k + 1) * M ^ (k + 1) * h T) := by ring
    rw [pow_succ (1 + u T)]
    rw [pow_succ (1 + u T)] at a6 a7
    linarith

/-- A product with a factor zero is zero. -/
theorem wp_prod_zero (A : Mat T n n) (q : Fin n) (hq : val (A q q) = 0) :
    wp (forUp 0 n (ofInt 1 : T) fun i prod => do CScalar.mul prod (← rd A i i)) (fun P => val P = 0) (fun _ => True) := by
  refine wp_forUp (fun k P => q.val < k → val P = 0) (Nat.zero_le _) (fun h => absurd h (by omega)) ?_ fun _ h => h q.2
  intro k P _ hk hP
  rw [rd_eq hk hk, ok_bind]
  cases hr : CScalar.mul P (A ⟨k, hk⟩ ⟨k, hk⟩) with
  | error _ => trivial
  | ok r =>
    rw [wp_ok]
    intro hqk
    by_cases hkq : q.val = k
    · subst hkq
      exact mul_by_zero (.inr hq) hr
    · exact mul_by_zero (.inl (hP (by omega))) hr

/-! ## The loops of `det` -/

theorem wp_eliminate (A : Mat T n n) (r p : Fin n) :
    wp (detEliminate A r p) (fun A' => ∀ i j : Fin n, if (p < i ∧ i ≠ r) ∧ p ≤ j then
      elimCell (A i j) (A i p) (A r j) (A r p) = .ok (A' i j) else A' i j = A i j) (fun _ => True) := by
  unfold detEliminate
  refine wp_forUp (fun k A' => ∀ i j : Fin n, if (p < i ∧ i.val < k ∧ i ≠ r) ∧ p ≤ j then
      elimCell (A i j) (A i p) (A r j) (A r p) = .ok (A' i j) else A' i j = A i j) (by omega) ?_ ?_ ?_
  · intro i j
    rw [if_neg]
    rintro ⟨⟨h1, h2, -⟩, -⟩
    rw [Fin.lt_def] at h1
    omega
  · intro k A' hk0 hk ih
    have hpk : p < (⟨k, hk⟩ : Fin n) := Fin.lt_def.mpr (by dsimp only; omega)
    split
    · next hkr =>
      have hkr' : (⟨k, hk⟩ : Fin n) ≠ r := fun h => hkr (by rw [← h])
      have hrow : ∀ j, A' r j = A r j := by
        intro j
        have := ih r j
        rwa [if_neg (by rintro ⟨⟨-, -, h⟩, -⟩; exact h rfl)] at this
      have hkrow : ∀ j, A' ⟨k, hk⟩ j = A ⟨k, hk⟩ j := by
        intro j
        have := ih ⟨k, hk⟩ j
        rwa [if_neg (by rintro ⟨⟨-, h, -⟩, -⟩; exact absurd h (lt_irrefl _))] at this
      rw [rd_eq hk p.2, ok_bind]
      refine wp_forUp (fun l B => (∀ i j : Fin n, i.val ≠ k → B i j = A' i j) ∧
        ∀ j : Fin n, if p ≤ j ∧ j.val < l then
          elimCell (A ⟨k, hk⟩ j) (A ⟨k, hk⟩ p) (A r j) (A r p) = .ok (B ⟨k, hk⟩ j)
          else B ⟨k, hk⟩ j = A ⟨k, hk⟩ j) (by omega) ?_ ?_ ?_
      · refine ⟨fun _ _ _ => rfl, fun j => ?_⟩
        rw [if_neg]
        · exact hkrow j
        rintro ⟨h1, h2⟩
        rw [Fin.le_def] at h1
        omega
      · rintro l B hl0 hl ⟨hB1, hB2⟩
        have hBr : ∀ j, B r j = A r j := fun j =>
          (hB1 r j (fun h => hkr' (Fin.ext h.symm))).trans (hrow j)
        have hBk : B ⟨k, hk⟩ ⟨l, hl⟩ = A ⟨k, hk⟩ ⟨l, hl⟩ := by
          have := hB2 ⟨l, hl⟩
          rwa [if_neg (by dsimp only; omega)] at this
        rw [rd_eq r.2 hl, ok_bind, rd_eq r.2 p.2, rd_eq hk hl]
        simp only [ok_bind]
        rw [show (⟨r.val, r.2⟩ : Fin n) = r from rfl, show (⟨p.val, p.2⟩ : Fin n) = p from rfl, hkrow, hBr, hBr, hBk]
        cases ht : CScalar.mul (A ⟨k, hk⟩ p) (A r ⟨l, hl⟩) with
        | error _ => trivial
        | ok t =>
          rw [ok_bind]
          cases hq : CScalar.div t (A r p) with
          | error _ => trivial
          | ok q =>
            rw [ok_bind]
            cases hs : CScalar.sub (A ⟨k, hk⟩ ⟨l, hl⟩) q with
            | error _ => trivial
            | ok s =>
              rw [ok_bind, wr_eq hk hl, wp_ok]
              have hcell : elimCell (A ⟨k, hk⟩ ⟨l, hl⟩) (A ⟨k, hk⟩ p) (A r ⟨l, hl⟩) (A r p) = .ok s := by
                unfold elimCell
                rw [ht, ok_bind, hq, ok_bind, hs]
              refine ⟨fun i j hi => ?_, fun j => ?_⟩
              · rw [Matrix.of_apply, if_neg (fun h => hi h.1)]
                exact hB1 i j hi
              · by_cases hjl : j.val = l
                · have hj' : j = ⟨l, hl⟩ := Fin.ext hjl
                  subst hj'
                  rw [if_pos ⟨Fin.le_def.mpr (by dsimp only; omega), by dsimp only; omega⟩, Matrix.of_apply, if_pos ⟨rfl, rfl⟩]
                  exact hcell
                · rw [Matrix.of_apply, if_neg (fun h : (⟨k, hk⟩ : Fin n).val = k ∧ j.val = l => hjl h.2)]
                  have := hB2 j
                  by_cases hc : p ≤ j ∧ j.val < l
                  · rw [if_pos hc] at this
                    rw [if_pos ⟨hc.1, by omega⟩]
                    exact this
                  · rw [if_neg hc] at this
                    rw [if_neg (fun h => hc ⟨h.1, by omega⟩)]
                    exact this
      · rintro B ⟨hB1, hB2⟩ i j
        by_cases hik : i.val = k
        · have hi' : i = ⟨k, hk⟩ := Fin.ext hik
          subst hi'
          have := hB2 j
          by_cases hc : p ≤ j
          · rw [if_pos ⟨hc, j.2⟩] at this
            rw [if_pos ⟨⟨hpk, by dsimp only; omega, hkr'⟩, hc⟩]
            exact this
          · rw [if_neg (fun h => hc h.1)] at this
            rw [if_neg (fun h => hc h.2)]
            exact this
        · rw [hB1 i j hik]
          have := ih i j
          by_cases hc : (p < i ∧ i.val < k ∧ i ≠ r) ∧ p ≤ j
          · rw [if_pos hc] at this
            rw [if_pos ⟨⟨hc.1.1, by omega, hc.1.2.2⟩, hc.2⟩]
            exact this
          · rw [if_neg hc] at this
            rw [if_neg (fun h => hc ⟨⟨h.1.1, by omega, h.1.2.2⟩, h.2⟩)]
            exact this
    · next hkr =>
      have hkr' : (⟨k, hk⟩ : Fin n) = r := Fin.ext (not_not.mp hkr)
      rw [wp_ok]
      intro i j
      have := ih i j
      by_cases hc : (p < i ∧ i.val < k ∧ i ≠ r) ∧ p ≤ j
      · rw [if_pos hc] at this
        rw [if_pos ⟨⟨hc.1.1, by omega, hc.1.2.2⟩, hc.2⟩]
        exact this
      · rw [if_neg hc] at this
        rw [if_neg]
        · exact this
        rintro ⟨⟨h1, h2, h3⟩, h4⟩
        refine hc ⟨⟨h1, ?_, h3⟩, h4⟩
        have : i.val ≠ k := fun h => h3 (by rw [← hkr']; exact Fin.ext h)
        omega
  · intro A' hA' i j
    have := hA' i j
    by_cases hc : (p < i ∧ i ≠ r) ∧ p ≤ j
    · rw [if_pos ⟨⟨hc.1.1, i.2, hc.1.2⟩, hc.2⟩] at this
      rw [if_pos hc]
      exact this
    · rw [if_neg (fun h => hc ⟨⟨h.1.1, h.1.2.2⟩, h.2⟩)] at this
      rw [if_neg hc]
      exact this

/-- Invariant of the outer loop of `det` before row `k`. -/
structure Inv (A : Mat T n n) (k : Nat) (s : DetState T n) : Prop where
  factor : val s.factor = 1 ∨ val s.factor = -1
  cells : (s.pivot = k ∧ ∃ σ S, Steps A k σ S ∧ val s.factor = (σ : ℝ) ∧
      ∀ i j : Fin n, k ≤ j.val ∨ i ≤ j → s.A i j = S i j) ∨
    (k ≤ s.pivot ∧ ∃ q : Fin n, q.val < k ∧ val (s.A q q) = 0 ∧ ∃ σ S, Steps A q.val σ S ∧ ∀ i, q ≤ i → val (S i q) = 0)

/-- What the general determinant computes. -/
def Post (A : Mat T n n) (D : T) : Prop :=
  (∃ σ S, Steps A n σ S ∧ ∃ f P : T, val f = (σ : ℝ) ∧ CScalar.div P f = .ok D ∧
    ∀ M : ℝ, 1 ≤ M → (∀ i, |val (S i i)| ≤ M) →
      |val P - ∏ i, val (S i i)| ≤ ((1 + u T) ^ n - 1) * |∏ i, val (S i i)| + n * ((1 + u T) ^ n * M ^ n * h T)) ∨
  (val D = 0 ∧ ∃ (q : Fin n) (σ : Int) (S : Mat T n n), Steps A q.val σ S ∧ ∀ i, q ≤ i → val (S i q) = 0)

theorem prod_singular {A B : Mat T n n} {f : T} (q : Fin n) (hq : val (B q q) = 0)
    (hS : ∃ σ S, Steps A q.val σ S ∧ ∀ i, q ≤ i → val (S i q) = 0) : wp (detProd B f) (Post A) (fun _ => True) := by
  unfold detProd
  rw [wp_bind]
  refine wp_mono (wp_prod_zero B q hq) (fun P hP => ?_) fun _ h => h
  cases hd : CScalar.div P f with
  | error _ => trivial
  | ok D =>
    rw [wp_ok]
    obtain ⟨σ, S, h1, h2⟩ := hS
    exact .inr ⟨zero_quot hP hd, q, σ, S, h1, h2⟩

theorem wp_step (A0 : Mat T n n) (k : Nat) (hk : k < n) (s : DetState T n) (hs : Inv A0 k s) :
    wp (detStep k s) (fun x => match x with
      | .cont s' => Inv A0 (k + 1) s'
      | .ret v => Post A0 v) (fun _ => True) := by
  obtain ⟨A, f, pivot⟩ := s
  obtain ⟨hf, hs⟩ := hs
  dsimp only at hf hs
  unfold detStep
  dsimp only
  split
  · next hnp =>
    rw [wp_bind]
    rcases hs with ⟨hp, -⟩ | ⟨-, q, -, hq, h⟩
    · omega
    · exact wp_mono (prod_singular q hq h) (fun v hv => hv) (fun _ h => h)
  · next hnp =>
    have hpn : pivot < n := by omega
    have hle : k ≤ pivot := by
      rcases hs with ⟨hp, -⟩ | ⟨hp, -⟩ <;> omega
    rw [wp_bind]
    have hfuel : (n - pivot - 1) * n + (n - k) ≤ n * n + 1 := by
      have h1 : (n - pivot - 1) * n ≤ (n - 1) * n := Nat.mul_le_mul_right n (by omega)
      have h2 : n * n = (n - 1) * n + n := by
        obtain ⟨m, rfl⟩ : ∃ m, n = m + 1 := ⟨n - 1, by omega⟩
        simp only [Nat.add_sub_cancel]; ring
      omega
    refine wp_mono (wp_and (wp_detSearch A k pivot hk (n * n + 1) k pivot hk le_rfl hpn le_rfl hfuel
      (fun a b h1 h2 h3 => by omega)) (wp_detSearch_first A k hk (n * n + 1) k pivot hk le_rfl hpn hfuel
      (fun a b h1 h2 h3 => by omega))) ?_ (fun _ _ => trivial)
    intro res hres
    match res, hres with
    | none, ⟨hres, _⟩ =>
      dsimp only [SearchPost] at hres
      dsimp only
      rw [wp_bind]
      rcases hs with ⟨hp, σ, S, hS, hσ, hc⟩ | ⟨-, q, -, hq, h⟩
      · subst hp
        refine wp_mono (prod_singular ⟨pivot, hk⟩ (eq_zero (hres ⟨pivot, hk⟩ ⟨pivot, hk⟩ le_rfl le_rfl))
          ⟨σ, S, hS, fun i hi => ?_⟩) (fun v hv => hv) (fun _ h => h)
        rw [← hc i ⟨pivot, hk⟩ (.inl le_rfl)]
        exact eq_zero (hres i ⟨pivot, hk⟩ hi le_rfl)
      · exact wp_mono (prod_singular q hq h) (fun v hv => hv) (fun _ h => h)
    | some (i, p), ⟨hres, hfirst⟩ =>
      obtain ⟨hi, hp, hki, hpp, hnz, hbefore⟩ := hres
      dsimp only [SearchFirst] at hfirst
      dsimp only
      rw [wp_bind]
      -- the exchange
      have hsw : wp (detSwap A f i k) (fun x => (∀ a b, x.1 a b = A (Equiv.swap ⟨k, hk⟩ ⟨i, hi⟩ a) b) ∧
          val x.2 = (if i = k then val f else -val f)) (fun _ => True) := by
        unfold detSwap
        split
        · next hik =>
          have := swap_rows_ok A ⟨i, hi⟩ ⟨k, hk⟩
          dsimp only at this
          rw [this, ok_bind]
          cases hg : CScalar.mul f (ofInt (-1)) with
          | error _ => trivial
          | ok g =>
            rw [ok_bind, wp_ok]
            refine ⟨fun a b => ?_, ?_⟩
            · dsimp only
              rw [Matrix.of_apply, Equiv.swap_comm]
            · dsimp only
              rw [mul_sign ?_ ?_ hg, neg_one, mul_neg_one]
              · rcases hf with h | h <;> rw [h] <;> simp
              · rw [neg_one, abs_neg, abs_one]
        · next hik =>
          have hik' : i = k := not_not.mp hik
          subst hik'
          rw [wp_ok]
          refine ⟨fun a b => ?_, by rw [if_pos rfl]⟩
          rw [Equiv.swap_self, Equiv.refl_apply]
      refine wp_mono hsw ?_ fun _ h => h
      rintro ⟨B, g⟩ ⟨hB, hgv⟩
      dsimp only at hB hgv ⊢
      rw [wp_bind]
      refine wp_mono (wp_eliminate B ⟨k, hk⟩ ⟨p, hp⟩) ?_ fun _ h => h
      intro C hC
      rw [wp_pure]
      have hg1 : val g = 1 ∨ val g = -1 := by
        rw [hgv]
        split
        · exact hf
        · rcases hf with h | h <;> rw [h]
          · exact .inr rfl
          · exact .inl (neg_neg _)
      refine ⟨hg1, ?_⟩
      dsimp only
      have hsmall : ∀ a : Fin n, a.val < k → Equiv.swap (⟨k, hk⟩ : Fin n) ⟨i, hi⟩ a = a := by
        intro a ha
        refine Equiv.swap_apply_of_ne_of_ne (fun h => ?_) (fun h => ?_) <;> rw [h] at ha <;> dsimp only at ha <;> omega
      rcases hs with ⟨hpk, σ, S, hS, hσ, hc⟩ | ⟨-, q, hqk, hq, h⟩
      · subst hpk
        by_cases hpk' : p = pivot
        · -- a regular step
          subst hpk'
          left
          have hzero : ∀ a : Fin n, p ≤ a.val → CScalar.eq (A a ⟨p, hp⟩) (ofInt 0) = CScalar.eq (S a ⟨p, hp⟩) (ofInt 0) := by
            intro a ha
            rw [hc a ⟨p, hp⟩ (.inl le_rfl)]
          have hBS : ∀ a b : Fin n, p ≤ b.val ∨ a ≤ b → B a b = S (Equiv.swap ⟨p, hp⟩ ⟨i, hi⟩ a) b := by
            intro a b h
            rw [hB]
            refine hc _ b ?_
            by_cases hb : p ≤ b.val
            · exact .inl hb
            · have hle : a ≤ b := by rcases h with h | h; omega; exact h
              rw [hsmall a (by rw [Fin.le_def] at hle; omega)]
              exact .inr hle
          -- the matrix after the step
          obtain ⟨S', hS'⟩ : ∃ S' : Mat T n n, S' = .of fun a b =>
              if (⟨p, hp⟩ : Fin n) < a then
                if (⟨p, hp⟩ : Fin n) < b then C a b
                else if b = ⟨p, hp⟩ then ofInt 0 else S (Equiv.swap ⟨p, hp⟩ ⟨i, hi⟩ a) b
              else S (Equiv.swap ⟨p, hp⟩ ⟨i, hi⟩ a) b := ⟨_, rfl⟩
          have hS'e : ∀ a b, S' a b = if (⟨p, hp⟩ : Fin n) < a then
                if (⟨p, hp⟩ : Fin n) < b then C a b
                else if b = ⟨p, hp⟩ then ofInt 0 else S (Equiv.swap ⟨p, hp⟩ ⟨i, hi⟩ a) b
              else S (Equiv.swap ⟨p, hp⟩ ⟨i, hi⟩ a) b := fun a b => by rw [hS', Matrix.of_apply]
          refine ⟨rfl, _, S', Steps.step (k := ⟨p, hp⟩) ⟨i, hi⟩ hS hki ?_ ?_ ?_, ?_, ?_⟩
          · rw [← hzero ⟨i, hi⟩ hki]
            exact hnz
          · intro a ha1 ha2
            have h1 := hfirst a ⟨p, hp⟩ ha1 ha2 rfl
            rw [hzero a ha1] at h1
            exact h1
          · intro a b
            dsimp only
            rw [hS'e]
            by_cases hpa : (⟨p, hp⟩ : Fin n) < a
            · rw [if_pos hpa, if_pos hpa]
              by_cases hpb : (⟨p, hp⟩ : Fin n) < b
              · rw [if_pos hpb, if_pos hpb]
                have := hC a b
                rw [if_pos ⟨⟨hpa, hpa.ne'⟩, hpb.le⟩, hBS a b (.inl hpb.le), hBS a _ (.inl le_rfl), hBS _ b (.inl hpb.le),
                  hBS _ _ (.inl le_rfl)] at this
                exact this
              · rw [if_neg hpb, if_neg hpb]
                split <;> rfl
            · rw [if_neg hpa, if_neg hpa]
          · rw [hgv, hσ]
            by_cases hik : i = p
            · rw [if_pos hik, if_pos (Fin.ext hik)]
            · rw [if_neg hik, if_neg (fun h => hik (congrArg Fin.val h))]
              push_cast
              rfl
          · intro a b hab
            rw [hS'e]
            by_cases hpa : (⟨p, hp⟩ : Fin n) < a
            · have hpb : (⟨p, hp⟩ : Fin n) < b := by
                rw [Fin.lt_def] at *
                rcases hab with h | h
                · dsimp only at *; omega
                · rw [Fin.le_def] at h; dsimp only at *; omega
              rw [if_pos hpa, if_pos hpb]
            · rw [if_neg hpa]
              have := hC a b
              rw [if_neg (fun h => hpa h.1.1)] at this
              rw [this]
              refine hBS a b ?_
              rcases hab with h | h
              · exact .inl (by omega)
              · exact .inr h
        · -- the column is zero: from here on the diagonal has a zero
          right
          have hlt : pivot < p := by omega
          refine ⟨by omega, ⟨pivot, hk⟩, by dsimp only; omega, ?_, σ, S, hS, ?_⟩
          · have := hC ⟨pivot, hk⟩ ⟨pivot, hk⟩
            rw [if_neg (fun h => by have := h.1.1; rw [Fin.lt_def] at this; dsimp only at this; omega), hB,
              Equiv.swap_apply_left] at this
            rw [this]
            exact eq_zero (hbefore ⟨i, hi⟩ ⟨pivot, hk⟩ hki le_rfl hlt)
          · intro a ha
            rw [← hc a ⟨pivot, hk⟩ (.inl le_rfl)]
            exact eq_zero (hbefore a ⟨pivot, hk⟩ ha le_rfl hlt)
      · right
        refine ⟨by omega, q, by omega, ?_, h⟩
        have := hC q q
        rw [if_neg (fun h => by have := h.1.1; rw [Fin.lt_def] at this; dsimp only at this; omega), hB, hsmall q hqk] at this
        rw [this]
        exact hq

theorem wp_general (A : Mat T n n) : wp (detN A) (Post A) (fun _ => True) := by
  unfold detN
  rw [wp_bind]
  refine wp_forRet (Inv A) (Post A) (Nat.zero_le n)
    ⟨.inl one, .inl ⟨rfl, 1, A, .start, ?_, fun _ _ _ => rfl⟩⟩ (fun k s _ hk hs => ?_) ?_ ?_
  · rw [Int.cast_one]; exact one
  · refine wp_mono (wp_step A k hk s hs) ?_ (fun _ h => h)
    intro x hx
    cases x <;> exact hx
  · rintro s ⟨hf, ⟨-, σ, S, hS, hσ, hc⟩ | ⟨-, q, -, hq, h⟩⟩
    · dsimp only
      unfold detProd
      cases hP : (forUp 0 n (ofInt 1 : T) fun i prod => do CScalar.mul prod (← rd s.A i i)) with
      | error _ => trivial
      | ok P =>
        rw [ok_bind]
        cases hD : CScalar.div P s.factor with
        | error _ => trivial
        | ok D =>
          rw [wp_ok]
          refine .inl ⟨σ, S, hS, s.factor, P, hσ, hD, fun M hM hl => ?_⟩
          have hd : ∀ i, s.A i i = S i i := fun i => hc i i (.inr le_rfl)
          have := wp_ok_elim (wp_prod s.A hM fun i => by rw [hd]; exact hl i) hP
          simp only [hd] at this
          exact this
    · exact prod_singular q hq h
  · intro v hv
    exact hv

/-! ## Backward and forward error -/

theorem det_backward {A : Mat T n n} {D : T} (hn : 4 ≤ n) (hD : det A = .ok D) {G m : ℝ} (hm : 0 < m) (hb : Bounded A G m) :
    ∃ E : Matrix (Fin n) (Fin n) ℝ, (∀ i j, |E i j| ≤ elimEps T n G m) ∧
      |val D - (A.map val + E).det| ≤ ((1 + u T) ^ (n + 1) - 1) * |(A.map val + E).det| +
        (n + 1) * ((1 + u T) ^ (n + 1) * (max 1 G) ^ n * h T) := by
  have hu := u_nonneg (T := T)
  have hh := h_nonneg (T := T)
  have h0 : 0 < n := by omega
  have hG0 : 0 ≤ G := (abs_nonneg _).trans ((hb 0 1 A .start).1 ⟨0, h0⟩ ⟨0, h0⟩)
  have hm1 : 0 ≤ 1 / m := by positivity
  have hε : 0 ≤ u T * (1 + (2 + u T) ^ 2) * G + ((1 + u T) ^ 2 + 1 / m) * h T := by positivity
  rw [det_general A hn] at hD
  have hp := wp_ok_elim (wp_general A) hD
  have key : ∀ k σ S, Steps A k σ S → ∃ E : Matrix (Fin n) (Fin n) ℝ, (∀ i j, |E i j| ≤ elimEps T n G m) ∧
      (S.map val).det = σ * (A.map val + E).det := by
    intro k σ S hS
    obtain ⟨E, h1, h2⟩ := hS.det_eq hm hG0 hb 0 0 (fun _ _ _ => rfl) (fun i j => by simp)
    refine ⟨E, fun i j => ?_, by rw [add_zero] at h2; exact h2⟩
    refine (h1 i j).trans ?_
    rw [_root_.zero_add]
    unfold elimEps
    exact mul_le_mul_of_nonneg_right (by exact_mod_cast hS.le) hε
  have hM1 : (1 : ℝ) ≤ (1 + u T) ^ n * (max 1 G) ^ n :=
    one_le_mul_of_one_le_of_one_le (one_le_pow _) (one_le_pow₀ (le_max_left 1 G))
  rcases hp with ⟨σ, S, hS, f, P, hf, hd, hP⟩ | ⟨hz, q, σ, S, hS, hq⟩
  · obtain ⟨E, h1, h2⟩ := key _ _ _ hS
    refine ⟨E, h1, ?_⟩
    have hσ : (σ : ℝ) = 1 ∨ (σ : ℝ) = -1 := by
      rcases hS.sign with h | h <;> rw [h] <;> simp
    have h3 := hP (max 1 G) (le_max_left 1 G) fun i => ((hb _ _ _ hS).1 i i).trans (le_max_right 1 G)
    rw [← hS.det_diag, h2] at h3
    have h4 := (div hd).2.err
    rw [hf] at h4
    have e0 : ∀ x : ℝ, x / (σ : ℝ) = σ * x := fun x => by
      rcases hσ with h | h <;> rw [h] <;> ring
    have e1 : ∀ x : ℝ, |(σ : ℝ) * x| = |x| := fun x => by
      rcases hσ with h | h <;> rw [h] <;> simp
    rw [e0, e1] at h4
    rw [e1] at h3
    generalize (A.map val + E).det = Δ at *
    have e2 : |(σ : ℝ) * val P - Δ| = |val P - σ * Δ| := by
      rcases hσ with h | h <;> rw [h]
      · simp
      · rw [← abs_neg]; congr 1; ring
    have h5 := abs_sub_le (val D) (σ * val P) Δ
    rw [e2] at h5
    have h6 : |val P| ≤ (1 + u T) ^ n * |Δ| + n * ((1 + u T) ^ n * (max 1 G) ^ n * h T) := by
      have := abs_sub_abs_le_abs_sub (val P) (σ * Δ)
      rw [e1] at this
      linarith
    have h7 := mul_le_mul_of_nonneg_left h6 hu
    have h8 := e_le_h (T := T)
    have h9 : h T ≤ (1 + u T) ^ n * (max 1 G) ^ n * h T := le_mul_of_one_le_left hh hM1
    have h10 : 0 ≤ u T * ((1 + u T) ^ n * (max 1 G) ^ n * h T) := by positivity
    rw [pow_succ]
    nlinarith
  · obtain ⟨E, h1, h2⟩ := key _ _ _ hS
    rw [hS.det_zero q rfl hq] at h2
    have h3 : (A.map val + E).det = 0 := by
      rcases hS.sign with h | h <;> rw [h] at h2 <;> simpa using h2.symm
    refine ⟨E, h1, ?_⟩
    rw [h3, hz, sub_zero, abs_zero, mul_zero, _root_.zero_add]
    positivity

theorem det_forward {A : Mat T n n} {D : T} (hn : 4 ≤ n) (hD : det A = .ok D) {G m : ℝ} (hm : 0 < m) (hb : Bounded A G m) :
    |val D - (A.map val).det| ≤ detNBound T (A.map val) G m := by
  obtain ⟨E, h1, h2⟩ := det_backward hn hD hm hb
  obtain ⟨p1, p2⟩ := det_perturb (A.map val) E h1
  have h3 := abs_sub_le (val D) (A.map val + E).det (A.map val).det
  have hu : 0 ≤ (1 + u T) ^ (n + 1) - 1 := by have := one_le_pow (T := T) (n + 1); linarith
  have h4 := mul_le_mul_of_nonneg_left p2 hu
  unfold detNBound
  change |(A.map val + E).det - (A.map val).det| ≤ permAbs (A.map val) (elimEps T n G m) - permAbs (A.map val) 0 at p1
  change ((1 + u T) ^ (n + 1) - 1) * |(A.map val + E).det| ≤ ((1 + u T) ^ (n + 1) - 1) * permAbs (A.map val) (elimEps T n G m) at h4
  linarith

/-! ## Inverses -/

theorem invN_elem {m : Nat} {handled : Option Exc} {A B : Mat T (m + 4) (m + 4)} (hB : inv handled A = .ok B) :
    ∃ D : T, det A = .ok D ∧ ∀ i j, ∃ x y : T, det (A.submatrix j.succAbove i.succAbove) = .ok x ∧
      CScalar.mul (ofInt (if (j.val + i.val) % 2 ≠ 0 then -1 else 1)) x = .ok y ∧ CScalar.div y D = .ok (B i j) := by
  change invN handled A = .ok B at hB
  unfold invN at hB
  obtain ⟨D, hD, hB⟩ := bind_ok hB
  obtain ⟨N, hN, hB⟩ := bind_ok hB
  rw [trans_ok, ok_bind] at hB
  refine ⟨D, hD, fun i j => ?_⟩
  have hfill := wp_ok_elim (wp_fill (T := T) (g := fun i j => do
      let d ← det (← getminor A i j)
      CScalar.mul (ofInt (if (i + j) % 2 ≠ 0 then -1 else 1)) d) (valueInit (m + 4) (m + 4)))
    (by simpa only [bind_assoc] using hN) j i
  rw [getminor_ok, ok_bind] at hfill
  obtain ⟨x, hx, hy⟩ := bind_ok hfill
  have hne : CScalar.eq D (ofInt 0) = false := by
    cases h : CScalar.eq D (ofInt 0) with
    | false => rfl
    | true =>
      change MatrixLibs.div handled _ D = _ at hB
      unfold MatrixLibs.div at hB
      rw [if_pos h] at hB
      cases handled <;> cases hB
  exact ⟨x, _, hx, hy, opDiv_elem hne hB i j⟩

theorem invN_err {m : Nat} {handled : Option Exc} {A B : Mat T (m + 4) (m + 4)} (hB : inv handled A = .ok B) {E : ℝ}
    (hE : ∀ D, det A = .ok D → |val D - (A.map val).det| ≤ E) (hlt : E < |(A.map val).det|) (i j : Fin (m + 4)) {ε : ℝ}
    (hε : ∀ x, det (A.submatrix j.succAbove i.succAbove) = .ok x →
      |val x - ((A.map val).submatrix j.succAbove i.succAbove).det| ≤ ε) :
    |val (B i j) - (A.map val)⁻¹ i j| ≤ quotBound T ((A.map val)⁻¹ i j) (A.map val).det
      (ε + u T * (|((A.map val).submatrix j.succAbove i.succAbove).det| + ε) + e T) E := by
  obtain ⟨D, hD, h⟩ := invN_elem hB
  obtain ⟨x, y, hx, hy, hq⟩ := h i j
  have hu := u_nonneg (T := T)
  rw [inv_adjugate]
  refine quot_err ?_ (hE D hD) hlt hq
  rw [Matrix.adjugate_fin_succ_eq_det_submatrix]
  have h1 := hε x hx
  have h2 := (mul hy).err
  have h3 : val (ofInt (if (j.val + i.val) % 2 ≠ 0 then -1 else 1) : T) = (-1) ^ (j.val + i.val) := by
    split
    · next h =>
      rw [neg_one, (Nat.odd_iff.mpr (by omega)).neg_one_pow]
    · next h =>
      rw [one, (Nat.even_iff.mpr (by omega)).neg_one_pow]
  rw [h3] at h2
  generalize ((A.map val).submatrix j.succAbove i.succAbove).det = δ at *
  have h4 : |(-1 : ℝ) ^ (j.val + i.val)| = 1 := by rw [abs_pow, abs_neg, abs_one, one_pow]
  generalize (-1 : ℝ) ^ (j.val + i.val) = s at *
  have h5 := abs_sub_le (val y) (s * val x) (s * δ)
  have h6 : |s * val x - s * δ| = |val x - δ| := by rw [← mul_sub, abs_mul, h4, one_mul]
  have h7 : |s * val x| = |val x| := by rw [abs_mul, h4, one_mul]
  rw [h6] at h5
  rw [h7] at h2
  have h8 : |val x| ≤ |δ| + ε := by
    have := abs_sub_abs_le_abs_sub (val x) δ
    linarith
  have h9 := mul_le_mul_of_nonneg_left h8 hu
  linarith

end Standard
end MatrixLibs
