import Verif.Proof.FloatDominant
import Verif.Props.FloatDetForward
import Verif.Props.FloatCholPD

/-!
# Property C129: determinants of diagonally dominant floating point matrices
-/

namespace MatrixLibs

set_option linter.unusedSectionVars false

variable {F : Fmt} {n : Nat}

/-- In every row the diagonal element exceeds the sum of the others by at least `μ`, the sum of the whole row is at most
`R`, `μ` is large compared with the rounding errors of elements of size `R`, and `R` is not so large that the products of
two elements overflow. -/
structure RowDominant (A : Mat (Fl F) n n) (R μ : ℝ) : Prop where
  finite : ∀ i j, (A i j).Finite
  pos : 0 < μ
  rows : ∀ i, ∑ j, |(A i j).val| ≤ R
  dominant : ∀ i, ∑ j ∈ Finset.univ.erase i, |(A i j).val| + μ ≤ |(A i i).val|
  accuracy : n ^ 2 * (10 * F.u * R + (2 + 4 / μ) * F.eta) ≤ μ / 2
  range : 9 * R ≤ F.maxFinite
  range2 : 4 * R ^ 2 ≤ F.maxFinite

theorem offSum_zero (i : Fin n) (f : Fin n → ℝ) : offSum 0 i f = ∑ j ∈ Finset.univ.erase i, f j := by
  unfold offSum
  rw [← Finset.sum_filter]
  congr 1
  ext j
  simp

theorem RowDominant.hyp {A : Mat (Fl F) n n} {R μ : ℝ} (h : RowDominant A R μ) : DomHyp A R μ where
  fin := h.finite
  pos := h.pos
  row i := by
    rw [offSum_zero, add_comm, Finset.sum_erase_add _ _ (Finset.mem_univ i)]
    exact h.rows i
  dom i := by
    rw [offSum_zero, add_comm]
    exact h.dominant i
  small := by
    have := h.accuracy
    unfold domEps
    linarith
  max1 := h.range
  max2 := h.range2

theorem RowDominant.bounded {A : Mat (Fl F) n n} {R μ : ℝ} (h : RowDominant A R μ) : ElimBounded A (2 * R) (μ / 2) := by
  intro k σ S hS
  obtain ⟨-, D⟩ := hS.dominant h.hyp
  refine ⟨fun i j => ⟨D.fin i j, ?_⟩, D.piv⟩
  have hμ := h.pos
  have hR : μ ≤ R := h.hyp.le i
  have hε := domEps_nonneg (F := F) (by linarith : 0 ≤ R) hμ
  have hnn : 0 ≤ (n : ℝ) * domEps F R μ := by positivity
  have hk : (k : ℝ) ≤ n := by exact_mod_cast hS.le
  have h1 := mul_le_mul_of_nonneg_right hk hnn
  have h2 := h.hyp.small
  by_cases hi : i.val < k
  · exact D.done i j hi
  · have h3 := D.row i (by omega)
    have h4 : ∀ j, 0 ≤ |(S i j).val| := fun j => abs_nonneg _
    have h5 := offSum_nonneg (k := k) (i := i) h4
    by_cases hj : k ≤ j.val
    · by_cases hji : j = i
      · subst hji
        linarith
      · have := offSum_single h4 hj hji
        have := h4 i
        linarith
    · rw [hS.lower i j (by omega) (by rw [Fin.lt_def]; omega), Fl.zero_val, abs_zero]
      linarith

/-- C129: during the elimination no rows are exchanged, no element exceeds twice the largest sum of a row, and no pivot
is below half the dominance. -/
theorem C129_elimination (A : Mat (Fl F) n n) (R μ : ℝ) (h : RowDominant A R μ) (k : Nat) (σ : Int) (S : Mat (Fl F) n n)
    (hS : ElimSteps A k σ S) : σ = 1 ∧ (∀ i j, (S i j).Finite ∧ |(S i j).val| ≤ 2 * R) ∧
      ∀ i : Fin n, i.val < k → μ / 2 ≤ |(S i i).val| ∧ 0 < (S i i).val * (A i i).val :=
  ⟨(hS.dominant h.hyp).1, (h.bounded k σ S hS).1, fun i hi =>
    ⟨(h.bounded k σ S hS).2 i hi, (hS.dominant h.hyp).2.sgn i⟩⟩

/-! ## The product of the pivots -/

theorem Fl.eta_le_quarter (F : Fmt) : F.eta ≤ 1 / 4 := by
  have h := Fl.unit_posR F
  have h2 : (2 : ℝ) ≤ F.unit := by
    unfold Fmt.unit
    have := F.he
    have h3 : 2 ^ 1 ≤ 2 ^ (F.emax + F.p - 2) := Nat.pow_le_pow_right (by norm_num) (by have := F.hp; omega)
    exact_mod_cast h3
  unfold Fmt.eta
  rw [div_le_div_iff₀ (by linarith) (by norm_num)]
  linarith

namespace Fl

/-- A rounded number does not change its sign. -/
theorem Rounded.sign_nonneg {x : ℝ} {a : Fl F} (h : Rounded x a) (hf : a.Finite) : 0 ≤ a.val * x := by
  obtain ⟨N, -, ⟨-, s, h', rfl, hs⟩ | ⟨-, s, rfl, -⟩⟩ := h
  · rcases lt_trichotomy x 0 with h0 | h0 | h0
    · have h1 := (hs h0.ne).mpr h0
      subst h1
      refine mul_nonneg_of_nonpos_of_nonpos ?_ h0.le
      show (signed true N : ℝ) / F.unit ≤ 0
      have := unit_posR F
      refine div_nonpos_of_nonpos_of_nonneg ?_ this.le
      simp [signed]
    · rw [h0, mul_zero]
    · have h1 : s = false := by
        cases s
        · rfl
        · exact absurd ((hs h0.ne').mp rfl) (not_lt.mpr h0.le)
      subst h1
      refine mul_nonneg ?_ h0.le
      show 0 ≤ (signed false N : ℝ) / F.unit
      have := unit_posR F
      refine div_nonneg ?_ this.le
      simp [signed]
  · exact absurd hf id

/-- A product of bounded numbers does not overflow. -/
theorem foldl_mul_bound (l : List (Fl F)) {G : ℝ} (hf : ∀ x ∈ l, x.Finite ∧ |x.val| ≤ G)
    (hmax : (max 1 (2 * G)) ^ l.length ≤ F.maxFinite) :
    (l.foldl Fl.mul (ofInt 1)).Finite ∧ |(l.foldl Fl.mul (ofInt 1)).val| ≤ (max 1 (2 * G)) ^ l.length := by
  set M := max 1 (2 * G)
  have hM1 : 1 ≤ M := le_max_left _ _
  have hM2 : 2 * G ≤ M := le_max_right _ _
  induction l using List.reverseRecOn with
  | nil =>
    refine ⟨one_val.1, ?_⟩
    simp [one_val.2]
  | append_singleton l x ih =>
    rw [List.length_append, List.length_singleton, pow_succ] at hmax ⊢
    have hMl : 1 ≤ M ^ l.length := one_le_pow₀ hM1
    obtain ⟨h1, h2⟩ := ih (fun y hy => hf y (by simp [hy])) (by nlinarith)
    obtain ⟨hx, hxG⟩ := hf x (by simp)
    rw [List.foldl_append]
    simp only [List.foldl_cons, List.foldl_nil]
    have hr := mul_rounded h1 hx
    have hp : |(l.foldl Fl.mul (ofInt 1)).val * x.val| ≤ M ^ l.length * M / 2 := by
      rw [abs_mul]
      have := mul_le_mul h2 hxG (abs_nonneg _) (by linarith)
      have := mul_le_mul_of_nonneg_left hM2 (by linarith : 0 ≤ M ^ l.length)
      linarith
    have hMM : 1 ≤ M ^ l.length * M := by nlinarith
    have hfin := hr.finite (by linarith)
    refine ⟨hfin, ?_⟩
    have he := hr.err hfin
    have h3 := mul_le_mul (u_le F) hp (abs_nonneg _) (by norm_num)
    have h4 := eta_le_quarter F
    have h5 := abs_sub_abs_le_abs_sub (l.foldl Fl.mul (ofInt 1) |>.mul x).val ((l.foldl Fl.mul (ofInt 1)).val * x.val)
    linarith

/-- The sign of a finite product. -/
theorem foldl_mul_sign (l : List (Fl F)) (hf : (l.foldl Fl.mul (ofInt 1)).Finite) :
    0 ≤ (l.foldl Fl.mul (ofInt 1)).val * (l.map Fl.val).prod ∧
      ((∀ x ∈ l, 1 ≤ |x.val|) → 1 ≤ |(l.foldl Fl.mul (ofInt 1)).val|) := by
  induction l using List.reverseRecOn with
  | nil => simp [one_val.2]
  | append_singleton l x ih =>
    rw [List.foldl_append] at hf ⊢
    simp only [List.foldl_cons, List.foldl_nil] at hf ⊢
    obtain ⟨h1, h2⟩ := mul_finite hf
    obtain ⟨i1, i2⟩ := ih h1
    have hr := mul_rounded h1 h2
    constructor
    · rw [List.map_append, List.prod_append, List.map_cons, List.map_nil, List.prod_singleton]
      set P := (l.map Fl.val).prod
      set Q := (l.foldl Fl.mul (ofInt 1)).val
      have hs : 0 ≤ ((l.foldl Fl.mul (ofInt 1)).mul x).val * (Q * x.val) := hr.sign_nonneg hf
      rcases eq_or_ne (Q * x.val) 0 with h0 | h0
      · rw [h0] at hr
        rw [(hr.exact 0 (by simp) rep_zero).2, zero_mul]
      · have hQ : Q ≠ 0 := fun h => h0 (by rw [h, zero_mul])
        have e : ((l.foldl Fl.mul (ofInt 1)).mul x).val * (P * x.val) * Q ^ 2 =
            ((l.foldl Fl.mul (ofInt 1)).mul x).val * (Q * x.val) * (Q * P) := by ring
        have h3 : 0 ≤ ((l.foldl Fl.mul (ofInt 1)).mul x).val * (P * x.val) * Q ^ 2 := by
          rw [e]
          exact mul_nonneg hs i1
        exact nonneg_of_mul_nonneg_left h3 (by positivity)
    · intro hl
      have i3 := i2 fun y hy => hl y (by simp [hy])
      have i4 := hl x (by simp)
      have := hr.ge (e := ofInt 1) hf one_val.1 (by
        rw [one_val.2, abs_one, abs_mul]
        nlinarith)
      rwa [one_val.2, abs_one] at this

end Fl

theorem dprod_foldl (A : Mat (Fl F) n n) :
    Fl.dprod A = ((List.finRange n).map fun i => A i i).foldl Fl.mul (Fl.ofInt 1) := by
  unfold Fl.dprod
  rw [List.foldl_map]

theorem prod_signs {ι : Type} (s : Finset ι) (a b : ι → ℝ) (h : ∀ i ∈ s, 0 < a i * b i) : 0 < (∏ i ∈ s, a i) * ∏ i ∈ s, b i := by
  rw [← Finset.prod_mul_distrib]
  exact Finset.prod_pos h

/-- C129: from 4x4 on, the determinant of a dominant matrix is computed without overflow, up to the error of C126, and
its sign is that of the product of the diagonal; it is not zero if the dominance is at least 2. -/
theorem C129_det (hn : 4 ≤ n) (A : Mat (Fl F) n n) (R μ : ℝ) (h : RowDominant A R μ)
    (hmax : (max 1 (4 * R)) ^ n ≤ F.maxFinite) :
    ∃ d, det A = .ok d ∧ d.Finite ∧ |d.val - (A.map Fl.val).det| ≤ detErrN A (2 * R) (μ / 2) ∧
      0 ≤ d.val * ∏ i, (A i i).val ∧ (2 ≤ μ → 1 ≤ |d.val| ∧ 0 < d.val * ∏ i, (A i i).val) := by
  have hμ := h.pos
  have i0 : Fin n := ⟨0, by omega⟩
  have hR : 0 ≤ R := by have := h.hyp.le i0; linarith
  obtain ⟨d, hd, hE⟩ := C126_det_error hn A (2 * R) (μ / 2) (by linarith) h.bounded
  rw [det_general A hn] at hd
  have hpost : Fl.ElimPost A d := by
    have := Fl.wp_detN_elim A
    rw [hd, wp_ok] at this
    exact this
  obtain ⟨σ, S, hS, f, B, hff, hfv, rfl, rfl⟩ | ⟨-, q, σ, S, hS, hq⟩ := hpost
  · obtain ⟨hσ, D⟩ := hS.dominant h.hyp
    subst hσ
    obtain ⟨hb, hp⟩ := h.bounded n 1 S hS
    have hlen : ((List.finRange n).map fun i => S i i).length = n := by simp
    have e := dprod_foldl S
    have hfin := Fl.foldl_mul_bound ((List.finRange n).map fun i => S i i) (G := 2 * R) (by
      intro x hx
      obtain ⟨i, -, rfl⟩ := List.mem_map.mp hx
      exact hb i i) (by rw [hlen, show 2 * (2 * R) = 4 * R by ring]; exact hmax)
    rw [← e] at hfin
    have hs := Fl.foldl_mul_sign ((List.finRange n).map fun i => S i i) (by rw [← e]; exact hfin.1)
    rw [← e, List.map_map] at hs
    have hprod : ((List.finRange n).map (Fl.val ∘ fun i => S i i)).prod = ∏ i, (S i i).val := by
      rw [← List.ofFn_eq_map, List.prod_ofFn]
      rfl
    rw [hprod] at hs
    obtain ⟨v1, v2⟩ := Fl.div_sign hfin.1 hff hfv (.inl (by simp))
    rw [Int.cast_one, one_mul] at v2
    have hpa := prod_signs Finset.univ (fun i => (S i i).val) (fun i => (A i i).val) fun i _ => D.sgn i
    have hsign : 0 ≤ (Fl.dprod S).val * ∏ i, (A i i).val := by
      have h1 : (Fl.dprod S).val * (∏ i, (A i i).val) * (∏ i, (S i i).val) ^ 2 =
        ((Fl.dprod S).val * ∏ i, (S i i).val) * ((∏ i, (S i i).val) * ∏ i, (A i i).val) := by ring
      have h2 : 0 ≤ (Fl.dprod S).val * (∏ i, (A i i).val) * (∏ i, (S i i).val) ^ 2 := by
        rw [h1]
        exact mul_nonneg hs.1 hpa.le
      have h3 : ∏ i, (S i i).val ≠ 0 := fun e => by rw [e, zero_mul] at hpa; exact lt_irrefl _ hpa
      exact nonneg_of_mul_nonneg_left h2 (by positivity)
    refine ⟨_, by rw [det_general A hn]; exact hd, v1, hE v1, by rw [v2]; exact hsign, fun h2 => ?_⟩
    rw [v2]
    have h1 := hs.2 (by
      intro x hx
      obtain ⟨i, -, rfl⟩ := List.mem_map.mp hx
      have := hp i i.2
      linarith)
    refine ⟨h1, lt_of_le_of_ne hsign fun e0 => ?_⟩
    rcases mul_eq_zero.mp e0.symm with h0 | h0
    · rw [h0, abs_zero] at h1
      linarith
    · rw [h0, mul_zero] at hpa
      exact lt_irrefl _ hpa
  · exfalso
    obtain ⟨-, D⟩ := hS.dominant h.hyp
    have h0 := D.sgn q
    rw [(Fl.isZero_iff (D.fin q q)).mp (hq q le_rfl), zero_mul] at h0
    exact lt_irrefl _ h0

/-- C129: `inv` does not reject such a matrix, whatever the context it is called in. -/
theorem C129_inv {m : Nat} (handled : Option Exc) (A : Mat (Fl F) (m + 4) (m + 4)) (R μ : ℝ) (h : RowDominant A R μ)
    (h2 : 2 ≤ μ) (hmax : (max 1 (4 * R)) ^ (m + 4) ≤ F.maxFinite) : ∃ B, inv handled A = .ok B := by
  obtain ⟨d, hd, hf, -, -, hz⟩ := C129_det (by omega) A R μ h hmax
  obtain ⟨d', M, hd', -, hret, -⟩ := C111_inv_value handled A
  obtain rfl : d = d' := Except.ok.inj (hd.symm.trans hd')
  obtain ⟨B, hB, -⟩ := hret (by
    by_contra hne
    have h0 := (Fl.eq_iff hf Fl.zero_finite).mp (by simpa using hne)
    rw [Fl.zero_val] at h0
    have := (hz h2).1
    rw [h0, abs_zero] at this
    linarith)
  exact ⟨B, hB⟩

/-! ## An example -/

def c129Int : Matrix (Fin 4) (Fin 4) ℤ := !![7, 1, -2, 1; 1, -8, 2, 3; 0, 3, 9, 1; -2, 2, 2, 9]

def c129Example : Mat (Fl binary32) 4 4 := c129Int.map Fl.ofInt

theorem c129_dominant : RowDominant c129Example 15 2 := by
  have hs : ∀ i j, (c129Int i j).natAbs ≤ 2 ^ 24 := by decide +kernel
  have hv : ∀ i j, (c129Example i j).Finite ∧ (c129Example i j).val = c129Int i j := fun i j =>
    Fl.val_ofInt_exact (F := binary32) _ (hs i j)
  have hη := binary32_eta_le
  have hmax := binary32_max
  refine ⟨fun i j => (hv i j).1, by norm_num, fun i => ?_, fun i => ?_, ?_, ?_, ?_⟩
  · have : ∀ i, ∑ j, |c129Int i j| ≤ 15 := by decide +kernel
    have := this i
    have e : ∑ j, |(c129Example i j).val| = ((∑ j, |c129Int i j| : ℤ) : ℝ) := by
      push_cast
      exact Finset.sum_congr rfl fun j _ => by rw [(hv i j).2]
    rw [e]
    exact_mod_cast this
  · have : ∀ i, ∑ j ∈ Finset.univ.erase i, |c129Int i j| + 2 ≤ |c129Int i i| := by decide +kernel
    have := this i
    have e : ∑ j ∈ Finset.univ.erase i, |(c129Example i j).val| = ((∑ j ∈ Finset.univ.erase i, |c129Int i j| : ℤ) : ℝ) := by
      push_cast
      exact Finset.sum_congr rfl fun j _ => by rw [(hv i j).2]
    rw [e, (hv i i).2]
    exact_mod_cast this
  · rw [binary32_u]
    norm_num at hη ⊢
    linarith
  · linarith
  · linarith

example : ∃ d, det c129Example = .ok d ∧ d.Finite ∧ 0 < d.val * ∏ i, (c129Example i i).val := by
  obtain ⟨d, h1, h2, -, -, h3⟩ := C129_det le_rfl c129Example 15 2 c129_dominant (by
    have := binary32_max
    rw [max_eq_right (by norm_num)]
    linarith)
  exact ⟨d, h1, h2, (h3 le_rfl).2⟩

example (handled : Option Exc) : ∃ B, inv handled c129Example = .ok B :=
  C129_inv (m := 0) handled c129Example 15 2 c129_dominant le_rfl (by
    have := binary32_max
    rw [max_eq_right (by norm_num)]
    norm_num at this ⊢
    linarith)

end MatrixLibs
