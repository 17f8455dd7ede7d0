import Verif.Spec.FloatElim
import Verif.Proof.FloatDet
import Verif.Proof.Det
import Mathlib.LinearAlgebra.Matrix.Determinant.Basic
import Mathlib.LinearAlgebra.Matrix.Block

/-!
# Backward error of floating point elimination
-/

namespace MatrixLibs

set_option linter.unusedSectionVars false

variable {F : Fmt} {n : Nat}

namespace Fl

theorem u_le (F : Fmt) : F.u ≤ 1 / 4 := by
  unfold Fmt.u
  have h : (2 : ℝ) ^ 2 ≤ 2 ^ F.p := pow_le_pow_right₀ (by norm_num) F.hp
  rw [div_le_div_iff₀ (by positivity) (by norm_num)]
  linarith

/-- The error of one element of one step. -/
theorem elim_cell {s a b c : Fl F} {G m : ℝ} (hc : c.Finite) (hm : 0 < m) (hcm : m ≤ |c.val|)
    (hf : (s.sub ((a.mul b).div c)).Finite) (hs : |s.val| ≤ G) (hs' : |(s.sub ((a.mul b).div c)).val| ≤ G) :
    |(s.sub ((a.mul b).div c)).val - (s.val - a.val * b.val / c.val)| ≤
      7 * F.u * G + (2 + 1 / m) * F.eta := by
  have hu := u_nonneg F
  have hu4 := u_le F
  have he := eta_nonneg F
  have hq := (sub_finite hf).2
  have hp := div_finite_left hq
  obtain ⟨ha, hb⟩ := mul_finite hp
  have hc0 : c.val ≠ 0 := by
    intro h
    rw [h, abs_zero] at hcm
    linarith
  have e1 := sub_err_res hf
  have e2 := div_err_res hc hc0 hq
  have e3 := (mul_rounded ha hb).err_res hp
  generalize (s.sub ((a.mul b).div c)).val = s' at *
  generalize ((a.mul b).div c).val = q at *
  generalize (a.mul b).val = p at *
  generalize s.val = s at *
  generalize c.val = c at *
  generalize a.val * b.val = x at *
  have hG : 0 ≤ G := (abs_nonneg _).trans hs
  -- bounds of the quotients
  have q1 : |q| ≤ (2 + F.u) * G := by
    have h1 : q = s - s' + (s' - (s - q)) := by ring
    have h2 : |q| ≤ |s - s'| + |s' - (s - q)| := by
      conv_lhs => rw [h1]
      exact abs_add_le _ _
    have h3 := abs_sub s s'
    have h4 := mul_le_mul_of_nonneg_left hs' hu
    linarith
  have q2 : |p / c| ≤ (1 + F.u) * |q| + F.eta := by
    have h2 := abs_sub_abs_le_abs_sub (p / c) q
    rw [abs_sub_comm] at h2
    linarith
  have q3 : |p / c - x / c| ≤ F.u * |p / c| + 1 / m * F.eta := by
    rw [← sub_div, abs_div, abs_div]
    have hcp : 0 < |c| := by linarith
    have h1 : |p - x| / |c| ≤ (F.u * |p| + F.eta) / |c| := div_le_div_of_nonneg_right e3 hcp.le
    have h2 : (F.u * |p| + F.eta) / |c| = F.u * (|p| / |c|) + 1 / |c| * F.eta := by ring
    have h3 : 1 / |c| ≤ 1 / m := one_div_le_one_div_of_le hm hcm
    have h4 := mul_le_mul_of_nonneg_right h3 he
    linarith
  have t1 : |s' - (s - x / c)| ≤ |s' - (s - q)| + |q - p / c| + |p / c - x / c| := by
    have h1 : s' - (s - x / c) = (s' - (s - q)) - (q - p / c) - (p / c - x / c) := by ring
    rw [h1]
    exact (abs_sub _ _).trans (add_le_add (abs_sub _ _) le_rfl)
  have h4 := mul_le_mul_of_nonneg_left hs' hu
  have h5 := mul_le_mul_of_nonneg_left q1 hu
  have h6 := mul_le_mul_of_nonneg_left q2 hu
  have h7 : F.u * ((1 + F.u) * |q| + F.eta) ≤ 5 / 4 * (F.u * |q|) + 1 / 4 * F.eta := by
    have := mul_nonneg hu (abs_nonneg q)
    nlinarith
  have h8 : F.u * ((2 + F.u) * G) ≤ 9 / 4 * (F.u * G) := by
    have := mul_nonneg hu hG
    nlinarith
  have h9 := mul_nonneg hu hG
  nlinarith

theorem zero_isZero : (ofInt 0 : Fl F).IsZero := (eq_iff zero_finite zero_finite).mpr rfl

theorem isZero_iff {a : Fl F} (ha : a.Finite) : a.IsZero ↔ a.val = 0 := by
  unfold IsZero
  rw [eq_iff ha zero_finite, zero_val]

theorem IsZero.finite {a : Fl F} (h : a.IsZero) : a.Finite := by
  unfold IsZero at h
  rw [ofInt_zero'] at h
  have hb := bound_pos F
  match a, h with
  | .fin _ _ _, _ => trivial
  | .nan, h => cases h
  | .inf true, h =>
    simp only [eq, key, signed, decide_eq_true_eq] at h
    simp at h
    omega
  | .inf false, h =>
    simp only [eq, key, signed, decide_eq_true_eq] at h
    simp at h
    omega

end Fl

namespace ElimSteps
variable {A S : Mat (Fl F) n n} {k : Nat} {σ : Int}

theorem sign (h : ElimSteps A k σ S) : σ = 1 ∨ σ = -1 := by
  induction h with
  | start => exact .inl rfl
  | step p _ _ _ _ ih => split <;> omega

theorem le (h : ElimSteps A k σ S) : k ≤ n := by
  cases h with
  | start => exact Nat.zero_le n
  | @step k _ _ p _ _ _ _ => exact k.2

/-- Below the diagonal the columns done are zero. -/
theorem lower (h : ElimSteps A k σ S) (i j : Fin n) (hj : j.val < k) (hji : j < i) : S i j = Fl.ofInt 0 := by
  induction h generalizing i with
  | start => omega
  | @step k σ S p _ hp _ _ ih =>
    unfold elimStep
    rw [Matrix.of_apply]
    dsimp only
    rw [Fin.lt_def] at hji
    rw [Fin.le_def] at hp
    by_cases hjk : j = k
    · rw [if_pos (by rw [Fin.lt_def]; omega), if_neg (by rw [hjk]; exact lt_irrefl _), if_pos hjk]
    · have hjk' : j.val < k.val := by
        have : j.val ≠ k.val := fun h => hjk (Fin.ext h)
        omega
      have h0 : S (Equiv.swap k p i) j = Fl.ofInt 0 := by
        refine ih _ hjk' ?_
        rw [Equiv.swap_apply_def, Fin.lt_def]
        split_ifs <;> omega
      rw [if_neg (show ¬ k < j by rw [Fin.lt_def]; omega), if_neg hjk]
      split <;> exact h0

/-- The exact determinant of a matrix that differs from the one after `k` steps in the remaining rows is that of
a matrix that differs from the first one, by the rounding of the steps. -/
theorem det_eq (h : ElimSteps A k σ S) {G m : ℝ} (hm : 0 < m) (hG0 : 0 ≤ G)
    (hG : ∀ k σ S, ElimSteps A k σ S → ∀ i j, (S i j).Finite ∧ |(S i j).val| ≤ G)
    (hpiv : ∀ k σ S, ElimSteps A k σ S → ∀ i : Fin n, i.val < k → m ≤ |(S i i).val|) :
    ∀ (E : Matrix (Fin n) (Fin n) ℝ) (e : ℝ), (∀ i j, i.val < k → E i j = 0) → (∀ i j, |E i j| ≤ e) →
      ∃ E' : Matrix (Fin n) (Fin n) ℝ,
        (∀ i j, |E' i j| ≤ e + k * (7 * F.u * G + (2 + 1 / m) * F.eta)) ∧
        (S.map Fl.val + E).det = σ * (A.map Fl.val + E').det := by
  have hε : 0 ≤ 7 * F.u * G + (2 + 1 / m) * F.eta := by
    have := Fl.u_nonneg F
    have := Fl.eta_nonneg F
    positivity
  induction h with
  | start =>
    intro E e _ he
    refine ⟨E, fun i j => ?_, by simp⟩
    simpa using he i j
  | @step k σ S p hS hp hnz hfirst ih =>
    intro E e hE he
    have hnext := ElimSteps.step p hS hp hnz hfirst
    have hlow := hS.lower
    have hSG := hG _ _ _ hS
    have hS'G := hG _ _ _ hnext
    have hpm := hpiv _ _ _ hnext k (by omega)
    -- the exchanged matrix
    obtain ⟨R, hR⟩ : ∃ R : Mat (Fl F) n n, R = .of fun i j => S (Equiv.swap k p i) j := ⟨_, rfl⟩
    have hRe : ∀ i j, R i j = S (Equiv.swap k p i) j := fun i j => by rw [hR, Matrix.of_apply]
    have hS' : ∀ i j, elimStep S k p i j = if k < i then
        if k < j then (R i j).sub (((R i k).mul (R k j)).div (R k k))
        else if j = k then Fl.ofInt 0 else R i j else R i j := by
      intro i j
      unfold elimStep
      rw [Matrix.of_apply]
      simp only [hRe]
    have hkk : elimStep S k p k k = R k k := by rw [hS', if_neg (lt_irrefl _)]
    rw [hkk] at hpm
    have hRk0 : (R k k).val ≠ 0 := by
      intro h
      rw [h, abs_zero] at hpm
      linarith
    have hRG : ∀ i j, (R i j).Finite ∧ |(R i j).val| ≤ G := fun i j => by rw [hRe]; exact hSG _ _
    have hRlow : ∀ j : Fin n, j < k → (R k j).val = 0 := by
      intro j hj
      rw [hRe, Equiv.swap_apply_left, hlow p j hj (lt_of_lt_of_le hj hp), Fl.zero_val]
    -- the rounding errors of the step
    obtain ⟨D, hD⟩ : ∃ D : Matrix (Fin n) (Fin n) ℝ, D = .of fun i j => if k < i then
        (elimStep S k p i j).val - ((R i j).val - (R i k).val * (R k j).val / (R k k).val) else 0 := ⟨_, rfl⟩
    have hDle : ∀ i j, |D i j| ≤ 7 * F.u * G + (2 + 1 / m) * F.eta := by
      intro i j
      rw [hD, Matrix.of_apply]
      split
      · next hi =>
        rw [hS', if_pos hi]
        rcases lt_trichotomy k j with hj | hj | hj
        · rw [if_pos hj]
          have h1 := hS'G i j
          rw [hS', if_pos hi, if_pos hj] at h1
          exact Fl.elim_cell (hRG k k).1 hm hpm h1.1 (hRG i j).2 h1.2
        · rw [if_neg (by rw [hj]; exact lt_irrefl _), if_pos hj.symm, Fl.zero_val, ← hj,
            mul_div_cancel_right₀ _ hRk0, sub_self, sub_self, abs_zero]
          exact hε
        · rw [if_neg (not_lt.mpr hj.le), if_neg hj.ne, hRlow j hj, mul_zero, zero_div, sub_zero, sub_self, abs_zero]
          exact hε
      · rw [abs_zero]
        exact hε
    have hDk : ∀ i j, i ≤ k → D i j = 0 := by
      intro i j hi
      rw [hD, Matrix.of_apply, if_neg (not_lt.mpr hi)]
    have hEk : ∀ i j, i ≤ k → E i j = 0 := by
      intro i j hi
      rw [Fin.le_def] at hi
      exact hE i j (by omega)
    -- undo the elimination
    have hdet1 : ((elimStep S k p).map Fl.val + E).det = (R.map Fl.val + (D + E)).det := by
      refine Matrix.det_eq_of_forall_row_eq_smul_add_const
        (fun i => if k < i then -((R i k).val / (R k k).val) else 0) k (by simp) ?_
      intro i j
      simp only [Matrix.add_apply, Matrix.map_apply]
      rw [hDk k j le_rfl, hEk k j le_rfl]
      by_cases hi : k < i
      · rw [if_pos hi]
        have : D i j = (elimStep S k p i j).val - ((R i j).val - (R i k).val * (R k j).val / (R k k).val) := by
          rw [hD, Matrix.of_apply, if_pos hi]
        rw [this]
        ring
      · rw [if_neg hi, hDk i j (not_lt.mp hi), hEk i j (not_lt.mp hi), hS', if_neg hi]
        ring
    -- undo the exchange
    obtain ⟨E1, hE1⟩ : ∃ E1 : Matrix (Fin n) (Fin n) ℝ, E1 = (D + E).submatrix (Equiv.swap k p) id := ⟨_, rfl⟩
    have hdet2 : (R.map Fl.val + (D + E)).det =
        ((Equiv.Perm.sign (Equiv.swap k p) : ℤ) : ℝ) * (S.map Fl.val + E1).det := by
      rw [← Matrix.det_permute (Equiv.swap k p) (S.map Fl.val + E1)]
      congr 1
      ext i j
      rw [hE1]
      simp only [Matrix.add_apply, Matrix.map_apply, Matrix.submatrix_apply, id, Equiv.swap_apply_self, hRe]
    have hE1z : ∀ i j, i.val < k.val → E1 i j = 0 := by
      intro i j hi
      rw [Fin.le_def] at hp
      rw [hE1, Matrix.submatrix_apply, Equiv.swap_apply_of_ne_of_ne (fun h => by rw [h] at hi; omega)
        (fun h => by rw [h] at hi; omega), Matrix.add_apply, hDk, hEk, add_zero]
      · exact Fin.le_def.mpr hi.le
      · exact Fin.le_def.mpr hi.le
    have hE1le : ∀ i j, |E1 i j| ≤ e + (7 * F.u * G + (2 + 1 / m) * F.eta) := by
      intro i j
      rw [hE1, Matrix.submatrix_apply, Matrix.add_apply]
      refine (abs_add_le _ _).trans ?_
      have := hDle (Equiv.swap k p i) (id j)
      have := he (Equiv.swap k p i) (id j)
      linarith
    obtain ⟨E', hE'le, hE'⟩ := ih E1 _ hE1z hE1le
    refine ⟨E', fun i j => ?_, ?_⟩
    · have := hE'le i j
      push_cast
      linarith
    · rw [hdet1, hdet2, hE']
      by_cases hpk : p = k
      · subst hpk
        rw [if_pos rfl, Equiv.swap_self, Equiv.Perm.sign_refl]
        simp
      · rw [if_neg hpk, Equiv.Perm.sign_swap (fun h => hpk h.symm)]
        push_cast
        ring

/-- If the column of the next step is zero, so is the determinant. -/
theorem det_zero (h : ElimSteps A k σ S) (q : Fin n) (hq : q.val = k) (h0 : ∀ i, q ≤ i → (S i q).IsZero) :
    (S.map Fl.val).det = 0 := by
  refine det_zero_of_column _ q (fun i j h1 h2 => ?_) (fun i hi => ?_)
  · rw [Matrix.map_apply, h.lower i j (by rw [Fin.lt_def] at h1; omega) h2, Fl.zero_val]
  · rw [Matrix.map_apply]
    exact (Fl.isZero_iff (h0 i hi).finite).mp (h0 i hi)

/-- After all steps it is the product of the diagonal. -/
theorem det_diag (h : ElimSteps A n σ S) : (S.map Fl.val).det = ∏ i, (S i i).val := by
  refine (Matrix.det_of_isUpperTriangular (fun i j hij => ?_)).trans rfl
  rw [Matrix.map_apply, h.lower i j j.2 hij, Fl.zero_val]

end ElimSteps

/-- The steps as a function. -/
def elimRun (A : Mat (Fl F) n n) : Nat → Option (Int × Mat (Fl F) n n)
  | 0 => some (1, A)
  | k + 1 =>
    match elimRun A k with
    | none => none
    | some (σ, S) =>
      if hk : k < n then
        match (List.finRange n).find? (fun p => decide (k ≤ p.val ∧ ¬ (S p ⟨k, hk⟩).IsZero)) with
        | none => none
        | some p => some (if p = ⟨k, hk⟩ then σ else -σ, elimStep S ⟨k, hk⟩ p)
      else none

theorem ElimSteps.run {A S : Mat (Fl F) n n} {k : Nat} {σ : Int} (h : ElimSteps A k σ S) :
    elimRun A k = some (σ, S) := by
  induction h with
  | start => rfl
  | @step k σ S p hS hp hnz hfirst ih =>
    rw [elimRun, ih]
    dsimp only
    rw [dif_pos k.2]
    have hfind : (List.finRange n).find? (fun p => decide (k.val ≤ p.val ∧ ¬ (S p ⟨k.val, k.2⟩).IsZero)) = some p := by
      rw [List.find?_eq_some_iff_getElem]
      refine ⟨by rw [decide_eq_true_eq]; exact ⟨hp, hnz⟩, p.val, by simp, by simp, ?_⟩
      intro j hj
      rw [List.getElem_finRange]
      simp only [Bool.not_eq_true', decide_eq_false_iff_not, not_and, not_not]
      intro h1
      exact hfirst _ h1 hj
    rw [hfind]

section search
variable {T : Type} [Inhabited T] [CScalar T]
open CScalar (ofInt)

/-- What the pivot search finds in a column is its first element that is not zero. -/
def SearchFirst (A : Mat T n n) (r : Nat) : Option (Nat × Nat) → Prop
  | none => True
  | some (i, p) => ∀ (a b : Fin n), r ≤ a.val → a.val < i → b.val = p → CScalar.eq (A a b) (ofInt 0) = true

theorem wp_detSearch_first (A : Mat T n n) (r : Nat) (hr : r < n) (fuel i pivot : Nat)
    (hi : i < n) (hri : r ≤ i) (hp : pivot < n) (hfuel : (n - pivot - 1) * n + (n - i) ≤ fuel)
    (hdone : ∀ (a b : Fin n), r ≤ a.val → a.val < i → b.val = pivot → CScalar.eq (A a b) (ofInt 0) = true) :
    wp (detSearch A r fuel i pivot) (SearchFirst A r) (fun _ => False) := by
  induction fuel generalizing i pivot with
  | zero => omega
  | succ fuel ih =>
    unfold detSearch
    rw [rd_eq hi hp, ok_bind]
    split
    · next hz =>
      dsimp only
      split
      · next hni =>
        split
        · trivial
        · next hnp =>
          refine ih r (pivot + 1) hr le_rfl (by omega) ?_ (fun a b h1 h2 h3 => by omega)
          obtain ⟨q, hq⟩ : ∃ q, n - (pivot + 1) - 1 = q := ⟨_, rfl⟩
          have hq' : n - pivot - 1 = q + 1 := by omega
          rw [hq', Nat.succ_mul] at hfuel
          rw [hq]
          omega
      · next hni =>
        refine ih (i + 1) pivot (by omega) (by omega) hp (by omega) ?_
        intro a b h1 h2 h3
        by_cases h4 : a.val = i
        · have ha : a = ⟨i, hi⟩ := Fin.ext h4
          have hb : b = ⟨pivot, hp⟩ := Fin.ext h3
          rw [ha, hb]; exact hz
        · exact hdone a b h1 (by omega) h3
    · rw [wp_ok]
      exact hdone

end search

namespace Fl

/-- A finite computed product with a zero factor is zero. -/
theorem foldl_mul_zero (l : List (Fl F)) (s : Fl F) (hf : (l.foldl Fl.mul s).Finite)
    (h : s.val = 0 ∨ ∃ x ∈ l, x.val = 0) : (l.foldl Fl.mul s).val = 0 := by
  induction l using List.reverseRecOn generalizing s with
  | nil =>
    rcases h with h | ⟨x, hx, -⟩
    · exact h
    · cases hx
  | append_singleton l y ih =>
    rw [List.foldl_append] at hf ⊢
    simp only [List.foldl_cons, List.foldl_nil] at hf ⊢
    obtain ⟨h1, h2⟩ := mul_finite hf
    refine (mul_zero_left h1 h2 ?_).2
    rcases h with h | ⟨x, hx, hx0⟩
    · exact .inl (ih s h1 (.inl h))
    · rcases List.mem_append.mp hx with hx | hx
      · exact .inl (ih s h1 (.inr ⟨x, hx, hx0⟩))
      · rw [List.mem_singleton] at hx
        exact .inr (hx ▸ hx0)

theorem dprod_zero (B : Mat (Fl F) n n) (i : Fin n) (h0 : (B i i).val = 0) (hf : (dprod B).Finite) :
    (dprod B).val = 0 := by
  have e : dprod B = ((List.finRange n).map fun i => B i i).foldl Fl.mul (ofInt 1) := by
    unfold dprod
    rw [List.foldl_map]
  rw [e] at hf ⊢
  exact foldl_mul_zero _ _ hf (.inr ⟨B i i, List.mem_map.mpr ⟨i, List.mem_finRange i, rfl⟩, h0⟩)

theorem neg_one_val : (ofInt (-1) : Fl F).Finite ∧ (ofInt (-1) : Fl F).val = -1 := by
  have := val_ofInt_exact (F := F) (-1) (by
    have := Nat.one_le_two_pow (n := F.p)
    simpa using this)
  simpa using this

/-- Multiplication by -1. -/
theorem mul_neg_one {a : Fl F} (ha : a.Finite) :
    (a.mul (ofInt (-1))).Finite ∧ (a.mul (ofInt (-1))).val = -a.val := by
  have hr := mul_rounded ha neg_one_val.1
  rw [neg_one_val.2, _root_.mul_neg_one] at hr
  obtain ⟨N, hN, e⟩ := fin_rep ha
  refine hr.exact N ?_ hN
  rw [abs_neg]
  exact e

/-- Division by 1 or -1. -/
theorem div_sign {a f : Fl F} {σ : ℝ} (ha : a.Finite) (hf : f.Finite) (hv : f.val = σ) (hσ : σ = 1 ∨ σ = -1) :
    (a.div f).Finite ∧ (a.div f).val = σ * a.val := by
  have hr := div_rounded ha hf (by rw [hv]; rcases hσ with h | h <;> rw [h] <;> norm_num)
  obtain ⟨N, hN, e⟩ := fin_rep ha
  have hd : a.val / f.val = σ * a.val := by
    rw [hv]
    rcases hσ with h | h <;> rw [h]
    · rw [div_one, one_mul]
    · rw [div_neg, div_one, neg_one_mul]
  rw [hd] at hr
  refine hr.exact N ?_ hN
  rw [abs_mul]
  rcases hσ with h | h <;> rw [h]
  · rw [abs_one, one_mul]; exact e
  · rw [abs_neg, abs_one, one_mul]; exact e

/-- Invariant of the outer loop of `det` before row `k`. -/
structure ElimInv (A : Mat (Fl F) n n) (k : Nat) (s : DetState (Fl F) n) : Prop where
  factor : s.factor.Finite ∧ (s.factor.val = 1 ∨ s.factor.val = -1)
  cells : (s.pivot = k ∧ ∃ σ S, ElimSteps A k σ S ∧ s.factor.val = (σ : ℝ) ∧
      ∀ i j : Fin n, k ≤ j.val ∨ i ≤ j → s.A i j = S i j) ∨
    (k ≤ s.pivot ∧ ∃ q : Fin n, q.val < k ∧ (s.A q q).IsZero ∧ ∃ σ S, ElimSteps A q.val σ S ∧
      ∀ i, q ≤ i → (S i q).IsZero)

/-- What the general determinant computes. -/
def ElimPost (A : Mat (Fl F) n n) (d : Fl F) : Prop :=
  (∃ σ S, ElimSteps A n σ S ∧ ∃ f B : Fl F, f.Finite ∧ f.val = (σ : ℝ) ∧ B = dprod S ∧ d = B.div f) ∨
  ((d.Finite → d.val = 0) ∧ ∃ (q : Fin n) (σ : Int) (S : Mat (Fl F) n n), ElimSteps A q.val σ S ∧
    ∀ i, q ≤ i → (S i q).IsZero)

theorem detProd_singular {A B : Mat (Fl F) n n} {f : Fl F} (hf : f.Finite ∧ (f.val = 1 ∨ f.val = -1)) (q : Fin n)
    (hq : (B q q).IsZero) (h : ∃ σ S, ElimSteps A q.val σ S ∧ ∀ i, q ≤ i → (S i q).IsZero) :
    wp (detProd B f) (ElimPost A) (fun _ => False) := by
  rw [detProd_eq, wp_ok]
  obtain ⟨σ, S, h1, h2⟩ := h
  refine .inr ⟨fun hd => ?_, q, σ, S, h1, h2⟩
  have hB := div_finite_left hd
  rw [(div_sign hB hf.1 rfl hf.2).2, dprod_zero B q ((isZero_iff hq.finite).mp hq) hB, mul_zero]

theorem wp_detStep_elim (A0 : Mat (Fl F) n n) (k : Nat) (hk : k < n) (s : DetState (Fl F) n)
    (hs : ElimInv A0 k s) :
    wp (detStep k s) (fun x => match x with
      | .cont s' => ElimInv A0 (k + 1) s'
      | .ret v => ElimPost A0 v) (fun _ => False) := by
  obtain ⟨A, f, pivot⟩ := s
  obtain ⟨hf, hs⟩ := hs
  dsimp only at hf hs
  unfold detStep
  dsimp only
  split
  · next hnp =>
    rw [wp_bind]
    rcases hs with ⟨hp, -⟩ | ⟨-, q, -, hq, h⟩
    · omega
    · exact wp_mono (detProd_singular hf q hq h) (fun v hv => hv) (fun _ h => h)
  · next hnp =>
    have hpn : pivot < n := by omega
    have hle : k ≤ pivot := by
      rcases hs with ⟨hp, -⟩ | ⟨hp, -⟩ <;> omega
    rw [wp_bind]
    have hfuel : (n - pivot - 1) * n + (n - k) ≤ n * n + 1 := by
      have h1 : (n - pivot - 1) * n ≤ (n - 1) * n := Nat.mul_le_mul_right n (by omega)
      have h2 : n * n = (n - 1) * n + n := by
        obtain ⟨m, rfl⟩ : ∃ m, n = m + 1 := ⟨n - 1, by omega⟩
        simp only [Nat.add_sub_cancel]; ring
      omega
    refine wp_mono (wp_and (wp_detSearch A k pivot hk (n * n + 1) k pivot hk le_rfl hpn le_rfl hfuel
      (fun a b h1 h2 h3 => by omega)) (wp_detSearch_first A k hk (n * n + 1) k pivot hk le_rfl hpn hfuel
      (fun a b h1 h2 h3 => by omega))) ?_ (fun _ h => h.1)
    intro res hres
    match res, hres with
    | none, ⟨hres, _⟩ =>
      dsimp only [SearchPost] at hres
      dsimp only
      rw [wp_bind]
      rcases hs with ⟨hp, σ, S, hS, hσ, hc⟩ | ⟨-, q, -, hq, h⟩
      · subst hp
        refine wp_mono (detProd_singular hf ⟨pivot, hk⟩ (hres ⟨pivot, hk⟩ ⟨pivot, hk⟩ le_rfl le_rfl)
          ⟨σ, S, hS, fun i hi => ?_⟩) (fun v hv => hv) (fun _ h => h)
        rw [← hc i ⟨pivot, hk⟩ (.inl le_rfl)]
        exact hres i ⟨pivot, hk⟩ hi le_rfl
      · exact wp_mono (detProd_singular hf q hq h) (fun v hv => hv) (fun _ h => h)
    | some (i, p), ⟨hres, hfirst⟩ =>
      obtain ⟨hi, hp, hki, hpp, hnz, hbefore⟩ := hres
      dsimp only [SearchFirst] at hfirst
      dsimp only
      -- the exchange
      have hsw : ∃ (B : Mat (Fl F) n n) (g : Fl F), detSwap A f i k = .ok (B, g) ∧
          (∀ a b, B a b = A (Equiv.swap ⟨k, hk⟩ ⟨i, hi⟩ a) b) ∧ g.Finite ∧
          g.val = (if i = k then f.val else -f.val) := by
        unfold detSwap
        split
        · next hik =>
          have := swap_rows_ok A ⟨i, hi⟩ ⟨k, hk⟩
          dsimp only at this
          rw [this, ok_bind]
          refine ⟨_, _, rfl, fun a b => ?_, (mul_neg_one hf.1).1, ?_⟩
          · rw [Matrix.of_apply, Equiv.swap_comm]
          · exact (mul_neg_one hf.1).2
        · next hik =>
          have hik' : i = k := not_not.mp hik
          subst hik'
          refine ⟨_, _, rfl, fun a b => ?_, hf.1, by rw [if_pos rfl]⟩
          rw [Equiv.swap_self, Equiv.refl_apply]
      obtain ⟨B, g, hswe, hB, hgf, hgv⟩ := hsw
      rw [hswe, ok_bind]
      dsimp only
      have helim := detEliminate_eq B ⟨k, hk⟩ ⟨p, hp⟩
      dsimp only at helim
      rw [helim, ok_bind, wp_pure]
      have hg1 : g.val = 1 ∨ g.val = -1 := by
        rw [hgv]
        split
        · exact hf.2
        · rcases hf.2 with h | h <;> rw [h]
          · exact .inr rfl
          · exact .inl (neg_neg _)
      refine ⟨⟨hgf, hg1⟩, ?_⟩
      dsimp only
      have hsmall : ∀ a : Fin n, a.val < k → Equiv.swap (⟨k, hk⟩ : Fin n) ⟨i, hi⟩ a = a := by
        intro a ha
        refine Equiv.swap_apply_of_ne_of_ne (fun h => ?_) (fun h => ?_) <;> rw [h] at ha <;> dsimp only at ha <;> omega
      rcases hs with ⟨hpk, σ, S, hS, hσ, hc⟩ | ⟨-, q, hqk, hq, h⟩
      · subst hpk
        by_cases hpk' : p = pivot
        · -- a regular step
          subst hpk'
          left
          have hzero : ∀ a : Fin n, p ≤ a.val → CScalar.eq (A a ⟨p, hp⟩) (CScalar.ofInt 0) = (S a ⟨p, hp⟩).eq (ofInt 0) := by
            intro a ha
            rw [hc a ⟨p, hp⟩ (.inl le_rfl)]
            rfl
          refine ⟨rfl, _, _, ElimSteps.step (k := ⟨p, hp⟩) ⟨i, hi⟩ hS hki ?_ ?_, ?_, ?_⟩
          · intro hz
            have := hzero ⟨i, hi⟩ hki
            rw [hnz] at this
            unfold IsZero at hz
            rw [hz] at this
            cases this
          · intro a ha1 ha2
            have h1 := hfirst a ⟨p, hp⟩ ha1 ha2 rfl
            rw [hzero a ha1] at h1
            exact h1
          · rw [hgv, hσ]
            by_cases hik : i = p
            · rw [if_pos hik, if_pos (Fin.ext hik)]
            · rw [if_neg hik, if_neg (fun h => hik (congrArg Fin.val h))]
              push_cast
              rfl
          · intro a b hab
            have hBS : ∀ a b : Fin n, p ≤ b.val ∨ a ≤ b → B a b = S (Equiv.swap ⟨p, hp⟩ ⟨i, hi⟩ a) b := by
              intro a b h
              rw [hB]
              refine hc _ b ?_
              by_cases hb : p ≤ b.val
              · exact .inl hb
              · have hle : a ≤ b := by rcases h with h | h; omega; exact h
                rw [hsmall a (by rw [Fin.le_def] at hle; omega)]
                exact .inr hle
            unfold elimStep
            rw [Matrix.of_apply, Matrix.of_apply]
            dsimp only
            by_cases hpa : (⟨p, hp⟩ : Fin n) < a
            · have hpb : (⟨p, hp⟩ : Fin n) < b := by
                rw [Fin.lt_def] at *
                rcases hab with h | h
                · dsimp only at *; omega
                · rw [Fin.le_def] at h; dsimp only at *; omega
              rw [if_pos ⟨⟨hpa, hpa.ne'⟩, hpb.le⟩, if_pos hpa, if_pos hpb, hBS a b (.inl hpb.le),
                hBS a _ (.inl le_rfl), hBS _ b (.inl hpb.le), hBS _ _ (.inl le_rfl)]
            · rw [if_neg (fun h => hpa h.1.1), if_neg hpa]
              refine hBS a b ?_
              rcases hab with h | h
              · exact .inl (by omega)
              · exact .inr h
        · -- the column is zero: from here on the diagonal has a zero
          right
          have hlt : pivot < p := by omega
          refine ⟨by omega, ⟨pivot, hk⟩, by dsimp only; omega, ?_, σ, S, hS, ?_⟩
          · rw [Matrix.of_apply, if_neg (fun h => by have := h.1.1; rw [Fin.lt_def] at this; dsimp only at this; omega),
              hB, Equiv.swap_apply_left]
            exact hbefore ⟨i, hi⟩ ⟨pivot, hk⟩ hki le_rfl hlt
          · intro a ha
            rw [← hc a ⟨pivot, hk⟩ (.inl le_rfl)]
            exact hbefore a ⟨pivot, hk⟩ ha le_rfl hlt
      · right
        refine ⟨by omega, q, by omega, ?_, h⟩
        rw [Matrix.of_apply, if_neg (fun h => by have := h.1.1; rw [Fin.lt_def] at this; dsimp only at this; omega),
          hB, hsmall q hqk]
        exact hq

theorem wp_detN_elim (A : Mat (Fl F) n n) : wp (detN A) (ElimPost A) (fun _ => False) := by
  unfold detN
  rw [wp_bind]
  refine wp_forRet (ElimInv A) (ElimPost A) (Nat.zero_le n)
    ⟨⟨one_val.1, .inl one_val.2⟩, .inl ⟨rfl, 1, A, .start, ?_, fun _ _ _ => rfl⟩⟩ (fun k s _ hk hs => ?_) ?_ ?_
  · rw [Int.cast_one]; exact one_val.2
  · refine wp_mono (wp_detStep_elim A k hk s hs) ?_ (fun _ h => h)
    intro x hx
    cases x <;> exact hx
  · rintro s ⟨hf, ⟨-, σ, S, hS, hσ, hc⟩ | ⟨-, q, -, hq, h⟩⟩
    · dsimp only
      rw [detProd_eq, wp_ok]
      refine .inl ⟨σ, S, hS, s.factor, _, hf.1, hσ, rfl, ?_⟩
      congr 1
      unfold dprod
      congr 1
      funext x i
      rw [hc i i (.inr le_rfl)]
    · exact detProd_singular hf q hq h
  · intro v hv
    exact hv

end Fl

end MatrixLibs
