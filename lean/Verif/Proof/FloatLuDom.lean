import Verif.Proof.FloatDominant
import Verif.Proof.FloatLu
import Verif.Props.FloatRange

/-!
# LU factorisation of floating point matrices with dominant columns
-/

namespace MatrixLibs

set_option linter.unusedSectionVars false

variable {F : Fmt} {n : Nat}

/-- Error of one element of the factors. -/
noncomputable def luEps (F : Fmt) (n : Nat) (C : ℝ) : ℝ :=
  4 * ((1 + F.u) ^ n - 1) * (n + 1) * C + 2 * n * (1 + F.u) ^ n * (1 + 2 * C) * F.eta

/-- What is assumed: `μ` is the dominance of the columns, `C` bounds the sums of the columns. -/
structure ColHyp (A : Mat (Fl F) n n) (C μ : ℝ) : Prop where
  fin : ∀ i j, (A i j).Finite
  pos : 0 < μ
  col : ∀ j, |(A j j).val| + offSum 0 j (fun i => |(A i j).val|) ≤ C
  dom : ∀ j, μ + offSum 0 j (fun i => |(A i j).val|) ≤ |(A j j).val|
  small : 4 * (n + 1) * luEps F n C ≤ μ
  max : 4 * (n + 1) * C ≤ F.maxFinite

namespace Fl

theorem luS_finite (L U : Mat (Fl F) n n) (i j : Fin n) (h1 : ∀ p, p < i → (L i p).Finite)
    (h2 : ∀ p, p < i → (U p j).Finite)
    (hb : (1 + F.u) ^ i.val * (∑ p, if p < i then |(U p j).val| * |(L i p).val| else 0) +
      i.val * (1 + F.u) ^ (i.val - 1) * F.eta ≤ F.maxFinite) : (luS L U i j).Finite := by
  obtain ⟨P, hP, hf⟩ := C66_mul_finite (n := 1) (m := i.val) (p := 1)
    (.of fun _ p => U ⟨p.val, lt_trans p.2 i.2⟩ j) (.of fun p _ => L i ⟨p.val, lt_trans p.2 i.2⟩)
    (fun _ p => h2 _ p.2) (fun p _ => h1 _ p.2)
  rw [show opMul _ _ = .ok _ from mult_eq _ _] at hP
  cases hP
  refine hf 0 0 ?_
  rw [← sum_cut (i := i) (fun p => |(U p j).val| * |(L i p).val|)] at hb
  exact hb

end Fl

namespace ColHyp
variable {A : Mat (Fl F) n n} {C μ : ℝ}

theorem le (h : ColHyp A C μ) (i : Fin n) : μ ≤ C := by
  have h1 := h.col i
  have h2 := h.dom i
  have h3 := offSum_nonneg (k := 0) (i := i) (f := fun j => |(A j i).val|) fun j => abs_nonneg _
  linarith

theorem C_pos (h : ColHyp A C μ) (i : Fin n) : 0 < C := lt_of_lt_of_le h.pos (h.le i)

theorem gamma_nonneg (F : Fmt) (n : Nat) : 0 ≤ (1 + F.u) ^ n - 1 := by
  have := Fl.one_add_u_pow F n
  linarith

theorem eps_nonneg (h : ColHyp A C μ) (i : Fin n) : 0 ≤ luEps F n C := by
  have h1 := h.C_pos i
  have h2 := gamma_nonneg F n
  have h3 := Fl.eta_nonneg F
  have h4 := Fl.u_nonneg F
  unfold luEps
  positivity

/-- The bounds of the rounding errors are small compared with the columns. -/
theorem scale (h : ColHyp A C μ) (i : Fin n) :
    ((1 + F.u) ^ n - 1) * (n * (2 * C)) + n * (1 + F.u) ^ n * F.eta ≤ luEps F n C / 2 ∧ luEps F n C ≤ C / 8 ∧
      F.u * (2 * C) + n * F.eta * (2 * C) ≤ luEps F n C ∧ F.u ≤ (1 + F.u) ^ n - 1 ∧
      ((1 + F.u) ^ n - 1) * (n * (2 * C)) + (n + 2 * C) * (1 + F.u) ^ n * F.eta ≤ luEps F n C := by
  have h1 := h.C_pos i
  have h2 := gamma_nonneg F n
  have h3 := Fl.eta_nonneg F
  have h4 := Fl.u_nonneg F
  have hn : (1 : ℝ) ≤ n := k_pos_cast i
  have h5 := Fl.one_add_u_pow F n
  have hun : F.u ≤ (1 + F.u) ^ n - 1 := by
    have h6 : (1 + F.u) ^ 1 ≤ (1 + F.u) ^ n := pow_le_pow_right₀ (by linarith) (by have := i.2; omega)
    rw [pow_one] at h6
    linarith
  have hε := h.eps_nonneg i
  have hs := h.small
  have hle := h.le i
  refine ⟨?_, ?_, ?_, hun, ?_⟩
  · unfold luEps
    have a1 : 0 ≤ ((1 + F.u) ^ n - 1) * C := by positivity
    have a2 : 0 ≤ n * (1 + F.u) ^ n * (2 * C) * F.eta := by positivity
    nlinarith
  · nlinarith
  · unfold luEps
    have a1 : F.u * (2 * C) ≤ ((1 + F.u) ^ n - 1) * (2 * C) := mul_le_mul_of_nonneg_right hun (by linarith)
    have a2 : 0 ≤ ((1 + F.u) ^ n - 1) * n * C := by positivity
    have a3 : n * F.eta * (2 * C) ≤ (1 + F.u) ^ n * (n * F.eta * (2 * C)) := le_mul_of_one_le_left (by positivity) h5
    have a4 : 0 ≤ (1 + F.u) ^ n * (n * F.eta * (2 * C)) := by positivity
    have a5 : 0 ≤ n * (1 + F.u) ^ n * F.eta := by positivity
    have a6 : 0 ≤ ((1 + F.u) ^ n - 1) * C := by positivity
    nlinarith
  · unfold luEps
    have a1 : 0 ≤ ((1 + F.u) ^ n - 1) * C := by positivity
    have a3 : 0 ≤ ((1 + F.u) ^ n - 1) * n * C := by positivity
    have a2 : (2 * C) * ((1 + F.u) ^ n * F.eta) ≤ n * ((2 * C) * ((1 + F.u) ^ n * F.eta)) :=
      le_mul_of_one_le_left (by positivity) hn
    have a4 : 0 ≤ (2 * C) * ((1 + F.u) ^ n * F.eta) := by positivity
    have a5 : 0 ≤ n * (1 + F.u) ^ n * F.eta := by positivity
    nlinarith

/-- One element, before the division. -/
theorem cell (h : ColHyp A C μ) (L U : Mat (Fl F) n n) (i j : Fin n) (h1 : ∀ p, p < i → (L i p).Finite ∧ |(L i p).val| ≤ 1)
    (h2 : ∀ p, p < i → (U p j).Finite ∧ |(U p j).val| ≤ 2 * C)
    (hr : |(A i j).val - ∑ p, if p < i then (U p j).val * (L i p).val else 0| ≤ 2 * C) :
    ((A i j).sub (Fl.luS L U i j)).Finite ∧
      |((A i j).sub (Fl.luS L U i j)).val - ((A i j).val - ∑ p, if p < i then (U p j).val * (L i p).val else 0)| ≤
        luEps F n C := by
  obtain ⟨s1, s2, s3, s4, -⟩ := h.scale i
  have hC := h.C_pos i
  have hγ := gamma_nonneg F n
  have hη := Fl.eta_nonneg F
  have hu := Fl.u_nonneg F
  have hu4 := Fl.u_le F
  have hε := h.eps_nonneg i
  have hn : (1 : ℝ) ≤ n := k_pos_cast i
  have hmax := h.max
  have hmono : ∀ {a b : Nat}, a ≤ b → (1 + F.u) ^ a ≤ (1 + F.u) ^ b := fun h => pow_le_pow_right₀ (by linarith) h
  have hX0 : 0 ≤ ∑ p, if p < i then |(U p j).val| * |(L i p).val| else 0 :=
    Finset.sum_nonneg fun p _ => by split <;> positivity
  have hX : (∑ p, if p < i then |(U p j).val| * |(L i p).val| else 0) ≤ n * (2 * C) := by
    have : (∑ p : Fin n, if p < i then |(U p j).val| * |(L i p).val| else 0) ≤ ∑ _p : Fin n, 2 * C := by
      refine Finset.sum_le_sum fun p _ => ?_
      split
      · next hp =>
        have := mul_le_mul (h2 p hp).2 (h1 p hp).2 (abs_nonneg _) (by linarith)
        linarith
      · linarith
    rwa [Finset.sum_const, Finset.card_univ, Fintype.card_fin, nsmul_eq_mul] at this
  have hη1 : i.val * (1 + F.u) ^ (i.val - 1) * F.eta ≤ n * (1 + F.u) ^ n * F.eta := by
    refine mul_le_mul_of_nonneg_right ?_ hη
    exact mul_le_mul (by exact_mod_cast i.2.le) (hmono (by have := i.2; omega)) (by positivity) (by linarith)
  have hpow := hmono i.2.le
  have hγX : ((1 + F.u) ^ i.val - 1) * (∑ p, if p < i then |(U p j).val| * |(L i p).val| else 0) ≤
      ((1 + F.u) ^ n - 1) * (n * (2 * C)) := mul_le_mul (by linarith) hX hX0 hγ
  set X := ∑ p, if p < i then |(U p j).val| * |(L i p).val| else 0
  have hmax' : 2 * C + 2 * (n * C) ≤ F.maxFinite := by nlinarith
  have hS : (Fl.luS L U i j).Finite := Fl.luS_finite L U i j (fun p hp => (h1 p hp).1) (fun p hp => (h2 p hp).1) (by
    change (1 + F.u) ^ i.val * X + _ ≤ _
    nlinarith)
  have e1 := Fl.luS_err L U i j hS
  set P := ∑ p, if p < i then (U p j).val * (L i p).val else 0
  change |_| ≤ ((1 + F.u) ^ i.val - 1) * X + _ at e1
  have e2 : |(Fl.luS L U i j).val - P| ≤ luEps F n C / 2 := by linarith
  have e3 : |(A i j).val - (Fl.luS L U i j).val| ≤ 2 * C + luEps F n C / 2 := by
    rw [show (A i j).val - (Fl.luS L U i j).val = ((A i j).val - P) - ((Fl.luS L U i j).val - P) by ring]
    refine (abs_sub _ _).trans ?_
    linarith
  have hsub := Fl.sub_rounded (h.fin i j) hS
  have hf := hsub.finite (by nlinarith)
  refine ⟨hf, ?_⟩
  have e4 : |((A i j).sub (Fl.luS L U i j)).val - ((A i j).val - (Fl.luS L U i j).val)| ≤
      F.u * |(A i j).val - (Fl.luS L U i j).val| := Fl.sub_err hf
  have e5 := mul_le_mul_of_nonneg_left e3 hu
  have e6 : |((A i j).sub (Fl.luS L U i j)).val - ((A i j).val - P)| ≤
      |((A i j).sub (Fl.luS L U i j)).val - ((A i j).val - (Fl.luS L U i j).val)| + |(Fl.luS L U i j).val - P| := by
    rw [show ((A i j).sub (Fl.luS L U i j)).val - ((A i j).val - P) =
      (((A i j).sub (Fl.luS L U i j)).val - ((A i j).val - (Fl.luS L U i j).val)) - ((Fl.luS L U i j).val - P) by ring]
    exact abs_sub _ _
  -- the three parts of the bound
  have e7 : ((1 + F.u) ^ n - 1) * (n * (2 * C)) + n * (1 + F.u) ^ n * F.eta + F.u * (2 * C) ≤ 3 / 4 * luEps F n C := by
    have a1 : F.u * (2 * C) ≤ ((1 + F.u) ^ n - 1) * (2 * C) := mul_le_mul_of_nonneg_right s4 (by linarith)
    have a2 : 0 ≤ ((1 + F.u) ^ n - 1) * (n * C) := by positivity
    have a3 : 0 ≤ ((1 + F.u) ^ n - 1) * C := by positivity
    have a4 : 0 ≤ n * (1 + F.u) ^ n * F.eta := by positivity
    have a5 : 0 ≤ n * (1 + F.u) ^ n * (2 * C) * F.eta := by positivity
    have a6 : ((1 + F.u) ^ n - 1) * C ≤ ((1 + F.u) ^ n - 1) * (n * C) := by
      refine mul_le_mul_of_nonneg_left ?_ hγ
      nlinarith
    unfold luEps
    nlinarith
  nlinarith

end ColHyp

/-! ## One column -/

/-- Column `j` after `k` steps, with the factors found so far. -/
noncomputable def luRest (A L U : Mat (Fl F) n n) (j : Fin n) (k : Nat) (i : Fin n) : ℝ :=
  (A i j).val - ∑ p : Fin n, if p.val < k then (U p j).val * (L i p).val else 0

theorem luRest_succ (A L U : Mat (Fl F) n n) (j k i : Fin n) :
    luRest A L U j (k.val + 1) i = luRest A L U j k.val i - (U k j).val * (L i k).val := by
  unfold luRest
  have : (∑ p : Fin n, if p.val < k.val + 1 then (U p j).val * (L i p).val else 0) =
      (∑ p : Fin n, if p.val < k.val then (U p j).val * (L i p).val else 0) + (U k j).val * (L i k).val := by
    rw [← Finset.sum_erase_add _ _ (Finset.mem_univ k), ← Finset.sum_erase_add (a := k) Finset.univ
      (fun p => if p.val < k.val then (U p j).val * (L i p).val else 0) (Finset.mem_univ k), if_pos (by omega),
      if_neg (by omega), add_zero]
    congr 1
    refine Finset.sum_congr rfl fun p hp => ?_
    have hne : p.val ≠ k.val := fun h => Finset.ne_of_mem_erase hp (Fin.ext h)
    by_cases h : p.val < k.val
    · rw [if_pos h, if_pos (by omega)]
    · rw [if_neg h, if_neg (by omega)]
  rw [this]
  ring

theorem same_sign {x y : ℝ} (h : |x - y| < |y|) : 0 < x * y := by
  rw [abs_lt] at h
  rcases lt_trichotomy y 0 with hy | hy | hy
  · rw [abs_of_neg hy] at h
    exact mul_pos_of_neg_of_neg (by linarith) hy
  · rw [hy, abs_zero] at h
    linarith
  · rw [abs_of_pos hy] at h
    exact mul_pos (by linarith) hy

theorem sign_trans {x y z : ℝ} (h1 : 0 < x * y) (h2 : 0 < y * z) : 0 < x * z := by
  have h3 := mul_pos h1 h2
  have h4 : x * y * (y * z) = (y * y) * (x * z) := by ring
  rw [h4] at h3
  exact (pos_iff_pos_of_mul_pos h3).mp (mul_self_pos.mpr fun e => by rw [e, mul_zero] at h1; exact lt_irrefl _ h1)

/-- A finished column of `L` and `U`. -/
structure ColOk (A : Mat (Fl F) n n) (C μ : ℝ) (L U : Mat (Fl F) n n) (q : Fin n) : Prop where
  Lfin : ∀ i, (L i q).Finite
  Lsum : offSum q.val q (fun i => |(L i q).val|) ≤ 1
  Ufin : ∀ i, (U i q).Finite
  Ubound : ∀ i, |(U i q).val| ≤ 2 * C
  piv : μ / 2 ≤ |(U q q).val|
  sgn : 0 < (U q q).val * (A q q).val

theorem ColOk.le_one {A : Mat (Fl F) n n} {C μ : ℝ} {L U : Mat (Fl F) n n} {q : Fin n} (h : ColOk A C μ L U q) {i : Fin n}
    (hi : q < i) : |(L i q).val| ≤ 1 :=
  (offSum_single (f := fun i => |(L i q).val|) (fun _ => abs_nonneg _) (Fin.le_def.mp hi.le) hi.ne').trans h.Lsum

section column
variable {A L U : Mat (Fl F) n n} {C μ : ℝ} {j : Fin n}

/-- The invariant of a column after `k` steps. -/
structure ColAt (A L U : Mat (Fl F) n n) (C μ : ℝ) (j : Fin n) (k : Nat) : Prop where
  ufin : ∀ p : Fin n, p.val < k → (U p j).Finite ∧ |(U p j).val| ≤ 2 * C
  col : |luRest A L U j k j| + offSum k j (fun i => |luRest A L U j k i|) ≤ C + k * luEps F n C
  dom : μ + offSum k j (fun i => |luRest A L U j k i|) ≤ |luRest A L U j k j| + k * luEps F n C
  sgn : 0 < luRest A L U j k j * (A j j).val

theorem ColHyp.column (h : ColHyp A C μ) (hL : ∀ q, q < j → (∀ i, (L i q).Finite) ∧ offSum q.val q (fun i => |(L i q).val|) ≤ 1)
    (hU : ∀ k, k ≤ j → U k j = (A k j).sub (Fl.luS L U k j)) (k : Nat) (hk : k ≤ j.val) : ColAt A L U C μ j k := by
  have hμ := h.pos
  have hε := h.eps_nonneg j
  have hC := h.le j
  have hs := h.small
  have hnn : (0 : ℝ) ≤ n := Nat.cast_nonneg n
  induction k with
  | zero =>
    have hr : ∀ i, luRest A L U j 0 i = (A i j).val := fun i => by simp [luRest]
    refine ⟨fun p hp => absurd hp (Nat.not_lt_zero _), ?_, ?_, ?_⟩
    · simp only [hr]
      have := h.col j
      simpa using this
    · simp only [hr]
      have := h.dom j
      simpa using this
    · rw [hr]
      have h1 := h.dom j
      have h3 := offSum_nonneg (k := 0) (i := j) (f := fun i => |(A i j).val|) fun j => abs_nonneg _
      have : (A j j).val ≠ 0 := fun e => by rw [e, abs_zero] at h1; linarith
      exact mul_self_pos.mpr this
  | succ k ih =>
    obtain ⟨i1, i2, i3, i4⟩ := ih (by omega)
    set ε := luEps F n C
    have hkn : (k : ℝ) + 1 ≤ n := by
      have := j.2
      exact_mod_cast (by omega : k + 1 ≤ n)
    have hkε : (k : ℝ) * ε + ε ≤ n * ε := by nlinarith
    have hkε0 : 0 ≤ (k : ℝ) * ε := by positivity
    obtain ⟨kk, hkk⟩ : ∃ kk : Fin n, kk.val = k := ⟨⟨k, by have := j.2; omega⟩, rfl⟩
    subst hkk
    have hkj : kk < j := by rw [Fin.lt_def]; omega
    obtain ⟨hLf, hLs⟩ := hL kk hkj
    have h0 : ∀ i, 0 ≤ |luRest A L U j kk.val i| := fun i => abs_nonneg _
    have hkk' : |luRest A L U j kk.val kk| ≤ offSum kk.val j (fun i => |luRest A L U j kk.val i|) :=
      offSum_single h0 le_rfl hkj.ne
    have hc := h.cell L U kk j (fun p hp => ⟨(hL p (hp.trans hkj)).1 kk,
        (offSum_single (f := fun i => |(L i p).val|) (fun _ => abs_nonneg _) (Fin.le_def.mp hp.le) hp.ne').trans
          (hL p (hp.trans hkj)).2⟩) (fun p hp => i1 p hp) (by
      change |luRest A L U j kk.val kk| ≤ _
      have := h0 j
      nlinarith)
    rw [← hU kk hkj.le] at hc
    change _ ∧ |_ - luRest A L U j kk.val kk| ≤ _ at hc
    obtain ⟨c1, c2⟩ := hc
    have c3 : |(U kk j).val| ≤ |luRest A L U j kk.val kk| + ε := by
      have := abs_sub_abs_le_abs_sub (U kk j).val (luRest A L U j kk.val kk)
      linarith
    have f1 := offSum_first kk j hkj fun i => |luRest A L U j kk.val i|
    have f2 := offSum_pivot kk j hkj fun i => |(L i kk).val|
    rw [f2] at hLs
    have f3 : |luRest A L U j (kk.val + 1) j - luRest A L U j kk.val j| = |(U kk j).val| * |(L j kk).val| := by
      rw [luRest_succ, ← abs_mul, ← abs_neg]
      congr 1
      ring
    have f4 : offSum (kk.val + 1) j (fun i => |luRest A L U j (kk.val + 1) i|) ≤
        offSum (kk.val + 1) j (fun i => |luRest A L U j kk.val i|) +
          |(U kk j).val| * offSum (kk.val + 1) j (fun i => |(L i kk).val|) + (n - 1 : ℝ) * 0 := by
      refine offSum_le le_rfl fun i _ _ => ?_
      rw [luRest_succ, add_zero, ← abs_mul]
      exact abs_sub _ _
    have f5 := mul_le_mul_of_nonneg_left hLs (abs_nonneg (U kk j).val)
    rw [mul_add, mul_one] at f5
    have f6 := abs_sub_abs_le_abs_sub (luRest A L U j (kk.val + 1) j) (luRest A L U j kk.val j)
    have f7 := abs_sub_abs_le_abs_sub (luRest A L U j kk.val j) (luRest A L U j (kk.val + 1) j)
    rw [abs_sub_comm, f3] at f7
    rw [f3] at f6
    have f8 : 0 ≤ |(U kk j).val| * offSum (kk.val + 1) j (fun i => |(L i kk).val|) :=
      mul_nonneg (abs_nonneg _) (offSum_nonneg fun _ => abs_nonneg _)
    refine ⟨fun p hp => ?_, ?_, ?_, ?_⟩
    · by_cases hpk : p.val < kk.val
      · exact i1 p hpk
      · have : p = kk := Fin.ext (by omega)
        subst this
        refine ⟨c1, ?_⟩
        have := h0 j
        nlinarith
    · push_cast
      linarith
    · push_cast
      linarith
    · refine sign_trans (same_sign ?_) i4
      rw [f3]
      nlinarith [offSum_nonneg (k := kk.val + 1) (i := j) (f := fun i => |luRest A L U j kk.val i|) h0]

/-- The pivot of column `j`. -/
theorem ColHyp.pivot (h : ColHyp A C μ) (hL : ∀ q, q < j → (∀ i, (L i q).Finite) ∧ offSum q.val q (fun i => |(L i q).val|) ≤ 1)
    (hU : ∀ k, k ≤ j → U k j = (A k j).sub (Fl.luS L U k j)) :
    (∀ k, k ≤ j → (U k j).Finite ∧ |(U k j).val| ≤ 2 * C) ∧ |(U j j).val - luRest A L U j j.val j| ≤ luEps F n C ∧
      μ / 2 ≤ |(U j j).val| ∧ 0 < (U j j).val * (A j j).val := by
  obtain ⟨i1, i2, i3, i4⟩ := h.column hL hU j.val le_rfl
  have hμ := h.pos
  have hε := h.eps_nonneg j
  have hC := h.le j
  have hs := h.small
  have hnn : (0 : ℝ) ≤ n := Nat.cast_nonneg n
  have hj1 : (j.val : ℝ) + 1 ≤ n := by exact_mod_cast j.2
  have hjε : (j.val : ℝ) * luEps F n C + luEps F n C ≤ n * luEps F n C := by nlinarith
  have h0 := offSum_nonneg (k := j.val) (i := j) (f := fun i => |luRest A L U j j.val i|) fun i => abs_nonneg _
  have hc := h.cell L U j j (fun p hp => ⟨(hL p hp).1 j,
        (offSum_single (f := fun i => |(L i p).val|) (fun _ => abs_nonneg _) (Fin.le_def.mp hp.le) hp.ne').trans
          (hL p hp).2⟩) (fun p hp => i1 p hp) (by
      change |luRest A L U j j.val j| ≤ _
      nlinarith)
  rw [← hU j le_rfl] at hc
  change _ ∧ |_ - luRest A L U j j.val j| ≤ _ at hc
  obtain ⟨c1, c2⟩ := hc
  have c3 := abs_sub_abs_le_abs_sub (U j j).val (luRest A L U j j.val j)
  have c4 := abs_sub_abs_le_abs_sub (luRest A L U j j.val j) (U j j).val
  rw [abs_sub_comm] at c4
  refine ⟨fun k hk => ?_, c2, by nlinarith, sign_trans (same_sign (by nlinarith)) i4⟩
  by_cases hkj : k < j
  · exact i1 k hkj
  · have : k = j := le_antisymm hk (not_lt.mp hkj)
    subst this
    exact ⟨c1, by nlinarith⟩

/-- The elements of `L` in column `j`. -/
theorem ColHyp.lower (h : ColHyp A C μ) (hL : ∀ q, q < j → (∀ i, (L i q).Finite) ∧ offSum q.val q (fun i => |(L i q).val|) ≤ 1)
    (hL0 : ∀ i q, j ≤ q → q < i → L i q = Fl.ofInt 0) (hU0 : ∀ p, j < p → U p j = Fl.ofInt 0)
    (hU : ∀ k, k ≤ j → U k j = (A k j).sub (Fl.luS L U k j)) :
    (∀ i, j < i → (((A i j).sub (Fl.luS L U i j)).div (U j j)).Finite) ∧
      offSum j.val j (fun i => |(((A i j).sub (Fl.luS L U i j)).div (U j j)).val|) ≤ 1 := by
  obtain ⟨i1, i2, i3, i4⟩ := h.column hL hU j.val le_rfl
  obtain ⟨p1, p2, p3, -⟩ := h.pivot hL hU
  obtain ⟨-, -, s3, -, -⟩ := h.scale j
  have hμ := h.pos
  have hε := h.eps_nonneg j
  have hC := h.le j
  have hs := h.small
  have hnn : (0 : ℝ) ≤ n := Nat.cast_nonneg n
  have hj1 : (j.val : ℝ) + 1 ≤ n := by exact_mod_cast j.2
  have hjε : (j.val : ℝ) * luEps F n C + luEps F n C ≤ n * luEps F n C := by nlinarith
  have h0 : ∀ i, 0 ≤ |luRest A L U j j.val i| := fun i => abs_nonneg _
  have hpos : 0 < |(U j j).val| := by linarith
  have hne : (U j j).val ≠ 0 := abs_pos.mp hpos
  -- the elements before the division
  have hcell : ∀ i, j < i → ((A i j).sub (Fl.luS L U i j)).Finite ∧
      |((A i j).sub (Fl.luS L U i j)).val - luRest A L U j j.val i| ≤ luEps F n C := by
    intro i hi
    have hsum : (∑ p, if p < i then (U p j).val * (L i p).val else 0) =
        ∑ p : Fin n, if p.val < j.val then (U p j).val * (L i p).val else 0 := by
      refine Finset.sum_congr rfl fun p _ => ?_
      by_cases hp : p.val < j.val
      · rw [if_pos hp, if_pos (lt_trans (Fin.lt_def.mpr hp) hi)]
      · rw [if_neg hp]
        split
        · next hpi => rw [hL0 i p (by rw [Fin.le_def]; omega) hpi, Fl.zero_val, mul_zero]
        · rfl
    have := h.cell L U i j (fun p hp => by
        by_cases hpj : p < j
        · exact ⟨(hL p hpj).1 i, (offSum_single (f := fun i => |(L i p).val|) (fun _ => abs_nonneg _) (Fin.le_def.mp hp.le)
            hp.ne').trans (hL p hpj).2⟩
        · rw [hL0 i p (not_lt.mp hpj) hp, Fl.zero_val, abs_zero]
          exact ⟨Fl.zero_finite, zero_le_one⟩) (fun p hp => by
        by_cases hpj : p ≤ j
        · exact p1 p hpj
        · rw [hU0 p (not_le.mp hpj), Fl.zero_val, abs_zero]
          exact ⟨Fl.zero_finite, by linarith⟩) (by
        rw [hsum]
        change |luRest A L U j j.val i| ≤ _
        have h1 := offSum_single h0 (Fin.le_def.mp hi.le) hi.ne'
        have h2 := h0 j
        nlinarith)
    rw [hsum] at this
    exact this
  have hrest : offSum j.val j (fun i => |luRest A L U j j.val i|) + n * luEps F n C ≤
      |(U j j).val| - 2 * luEps F n C := by
    have c4 := abs_sub_abs_le_abs_sub (luRest A L U j j.val j) (U j j).val
    rw [abs_sub_comm] at c4
    nlinarith
  have ht : ∀ i, j < i → |((A i j).sub (Fl.luS L U i j)).val| ≤ |luRest A L U j j.val i| + luEps F n C := by
    intro i hi
    have h1 := (hcell i hi).2
    have h2 := abs_sub_abs_le_abs_sub ((A i j).sub (Fl.luS L U i j)).val (luRest A L U j j.val i)
    linarith
  have hlt : ∀ i : Fin n, j.val ≤ i.val → i ≠ j → j < i := fun i h1 h2 => lt_of_le_of_ne h1 h2.symm
  have hq : ∀ i, j < i → |((A i j).sub (Fl.luS L U i j)).val / (U j j).val| ≤ 1 := by
    intro i hi
    rw [abs_div, div_le_one hpos]
    have h1 := ht i hi
    have h2 := offSum_single h0 (Fin.le_def.mp hi.le) hi.ne'
    have h3 : luEps F n C ≤ n * luEps F n C := by nlinarith [k_pos_cast j]
    linarith
  have hdiv : ∀ i, j < i → (((A i j).sub (Fl.luS L U i j)).div (U j j)).Finite := by
    intro i hi
    exact ((Fl.div_rounded (hcell i hi).1 (p1 j le_rfl).1 hne).le (e := Fl.ofInt 1) Fl.one_val.1 (by
      rw [Fl.one_val.2, abs_one]
      exact hq i hi)).1
  refine ⟨hdiv, ?_⟩
  have hη := Fl.eta_nonneg F
  have hu := Fl.u_nonneg F
  have hb : ∀ i : Fin n, j.val ≤ i.val → i ≠ j → |(((A i j).sub (Fl.luS L U i j)).div (U j j)).val| ≤
      0 + ((1 + F.u) / |(U j j).val|) * |((A i j).sub (Fl.luS L U i j)).val| + F.eta := by
    intro i hi hij
    have hf := hdiv i (hlt i hi hij)
    have he := (Fl.div_rounded (hcell i (hlt i hi hij)).1 (p1 j le_rfl).1 hne).err hf
    have h2 := abs_sub_abs_le_abs_sub (((A i j).sub (Fl.luS L U i j)).div (U j j)).val
      (((A i j).sub (Fl.luS L U i j)).val / (U j j).val)
    have h3 : (1 + F.u) / |(U j j).val| * |((A i j).sub (Fl.luS L U i j)).val| =
        (1 + F.u) * |((A i j).sub (Fl.luS L U i j)).val / (U j j).val| := by
      rw [abs_div]
      ring
    rw [h3]
    linarith
  have h1 := offSum_le (k := j.val) (i := j) (f := fun i => |(((A i j).sub (Fl.luS L U i j)).div (U j j)).val|)
    (g := fun _ => 0) (h := fun i => |((A i j).sub (Fl.luS L U i j)).val|) hη hb
  have h2 := offSum_le (k := j.val) (i := j) (f := fun i => |((A i j).sub (Fl.luS L U i j)).val|)
    (g := fun i => |luRest A L U j j.val i|) (h := fun _ => 0) (c := 0) hε (fun i hi hij => by
      have := ht i (hlt i hi hij)
      linarith)
  rw [zero_mul, add_zero] at h2
  have h3 : offSum j.val j (fun _ => (0 : ℝ)) = 0 := by simp [offSum]
  rw [h3, zero_add] at h1
  refine h1.trans ?_
  set T := offSum j.val j (fun i => |((A i j).sub (Fl.luS L U i j)).val|)
  have h4 : T ≤ |(U j j).val| - 2 * luEps F n C := by nlinarith
  have h5 : (1 + F.u) / |(U j j).val| * T ≤ 1 - n * F.eta := by
    rw [div_mul_eq_mul_div, div_le_iff₀ hpos]
    have h6 := (p1 j le_rfl).2
    have h7 : F.u * |(U j j).val| ≤ F.u * (2 * C) := mul_le_mul_of_nonneg_left h6 hu
    have h8 : n * F.eta * |(U j j).val| ≤ n * F.eta * (2 * C) := mul_le_mul_of_nonneg_left h6 (by positivity)
    have h9 := mul_le_mul_of_nonneg_left h4 (by linarith : 0 ≤ 1 + F.u)
    have h10 := mul_nonneg hu hε
    nlinarith
  linarith

end column

/-! ## All columns -/

theorem wp_lu_dom {A : Mat (Fl F) n n} {C μ : ℝ} (h : ColHyp A C μ) :
    wp (lu A) (fun s => Fl.LuCells A n s.1 s.2 ∧ ∀ q, ColOk A C μ s.1 s.2 q) (fun _ => False) := by
  unfold lu
  unfold eye1
  rw [eye_ok, ok_bind, zeros_ok, ok_bind]
  refine wp_forUp (fun j s => Fl.LuCells A j s.1 s.2 ∧ ∀ q : Fin n, q.val < j → ColOk A C μ s.1 s.2 q) (Nat.zero_le n) ?_ ?_
    (fun s hs => ⟨hs.1, fun q => hs.2 q q.2⟩)
  · refine ⟨⟨?_, ?_, ?_, ?_, ?_, ?_⟩, fun q hq => absurd hq (Nat.not_lt_zero _)⟩
    · intro i p _; rfl
    · intro i p h; exact if_neg (ne_of_lt h)
    · intro p q _; rfl
    · intro q h; omega
    · intro i q h; omega
    · intro i q h; omega
  · rintro j ⟨L, U⟩ - hj ⟨hs, hok⟩
    dsimp only at hs hok ⊢
    have hstep := Fl.wp_lu_step A j hj L U hs
    obtain ⟨U', hU', hold, hnew⟩ := wp_total (Fl.wp_luUpper A L U ⟨j, hj⟩)
    change luUpper A L j U = _ at hU'
    rw [hU', ok_bind] at hstep ⊢
    obtain ⟨jj, hjj⟩ : ∃ jj : Fin n, jj.val = j := ⟨⟨j, hj⟩, rfl⟩
    have hjf : (⟨j, hj⟩ : Fin n) = jj := Fin.ext hjj.symm
    rw [hjf] at hold hnew
    have hLcols : ∀ q, q < jj → (∀ i, (L i q).Finite) ∧ offSum q.val q (fun i => |(L i q).val|) ≤ 1 := fun q hq =>
      ⟨(hok q (by rw [Fin.lt_def] at hq; omega)).Lfin, (hok q (by rw [Fin.lt_def] at hq; omega)).Lsum⟩
    obtain ⟨p1, p2, p3, p4⟩ := h.pivot hLcols hnew
    have hne : ¬ Fl.eq (U' jj jj) (Fl.ofInt 0) = true := by
      intro e
      rw [(Fl.eq_iff (p1 jj le_rfl).1 Fl.zero_finite).mp e, Fl.zero_val, zero_mul] at p4
      exact lt_irrefl _ p4
    have hU0 : ∀ p, jj < p → U' p jj = Fl.ofInt 0 := fun p hp => by
      rw [hold p jj (fun e => absurd hp (not_lt.mpr e.2))]
      exact hs.Ulower p jj hp
    obtain ⟨l1, l2⟩ := h.lower hLcols (fun i q hq hqi => by
      rw [hs.Lcol i q (by rw [Fin.le_def] at hq; omega), if_neg hqi.ne']) hU0 hnew
    have hlow := Fl.luLower_eq A U' L jj hne
    rw [hjj] at hlow
    rw [hlow, ok_bind, wp_ok] at hstep ⊢
    refine ⟨hstep, fun q hq => ?_⟩
    have hLval : ∀ a b, (Matrix.of fun a b => if b = jj ∧ jj ≤ a then
      ((A a jj).sub (Fl.luS L U' a jj)).div (U' jj jj) else L a b) a b = if b = jj ∧ jj ≤ a then
      ((A a jj).sub (Fl.luS L U' a jj)).div (U' jj jj) else L a b := fun _ _ => rfl
    generalize (Matrix.of fun a b => if b = jj ∧ jj ≤ a then
      ((A a jj).sub (Fl.luS L U' a jj)).div (U' jj jj) else L a b) = L' at hstep hLval ⊢
    dsimp only at hstep ⊢
    by_cases hqj : q = jj
    · subst hqj
      have hoff : ∀ i, q < i → L' i q = ((A i q).sub (Fl.luS L U' i q)).div (U' q q) := fun i hi => by
        rw [hLval, if_pos ⟨rfl, hi.le⟩]
      refine ⟨fun i => ?_, ?_, fun i => ?_, fun i => ?_, p3, p4⟩
      · rcases lt_trichotomy i q with hi | hi | hi
        · rw [hstep.Lupper i q hi]
          exact Fl.zero_finite
        · subst hi
          rw [hLval, if_pos ⟨rfl, le_rfl⟩, ← hnew i le_rfl]
          exact (Fl.div_self_val (p1 i le_rfl).1 (Fl.ne_zero_of_eq (p1 i le_rfl).1 hne)).1
        · rw [hoff i hi]
          exact l1 i hi
      · refine le_trans (le_of_eq ?_) l2
        unfold offSum
        refine Finset.sum_congr rfl fun i _ => ?_
        split
        · next hi => exact congrArg (fun x => |Fl.val x|) (hoff i (lt_of_le_of_ne (Fin.le_def.mpr hi.1) hi.2.symm))
        · rfl
      · rcases le_or_gt i q with hi | hi
        · exact (p1 i hi).1
        · rw [hU0 i hi]
          exact Fl.zero_finite
      · rcases le_or_gt i q with hi | hi
        · exact (p1 i hi).2
        · rw [hU0 i hi, Fl.zero_val, abs_zero]
          have := h.C_pos q
          linarith
    · have hqv : q.val < j := by
        have : q.val ≠ jj.val := fun e => hqj (Fin.ext e)
        omega
      have ho := hok q hqv
      have e1 : ∀ i, L' i q = L i q := fun i => by rw [hLval, if_neg fun e => hqj e.1]
      have e2 : ∀ i, U' i q = U i q := fun i => hold i q fun e => hqj e.1
      refine ⟨fun i => ?_, ?_, fun i => ?_, fun i => ?_, ?_, ?_⟩
      · rw [e1]; exact ho.Lfin i
      · simp only [e1]; exact ho.Lsum
      · rw [e2]; exact ho.Ufin i
      · rw [e2]; exact ho.Ubound i
      · rw [e2]; exact ho.piv
      · rw [e2]; exact ho.sgn

end MatrixLibs
