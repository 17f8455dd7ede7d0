import Verif.Proof.FloatElim
import Verif.Proof.FloatFinite

/-!
# Elimination of diagonally dominant floating point matrices
-/

namespace MatrixLibs

set_option linter.unusedSectionVars false

variable {F : Fmt} {n : Nat}

namespace Fl

/-- One element of one step, when the quotient is no larger than `G`. -/
theorem elim_cell_forward {s a b c : Fl F} {G m : ℝ} (hs : s.Finite) (ha : a.Finite) (hb : b.Finite) (hc : c.Finite)
    (hm : 0 < m) (hcm : m ≤ |c.val|) (hsG : |s.val| ≤ G) (hq : |a.val * b.val / c.val| ≤ G)
    (h1 : |a.val * b.val| ≤ F.maxFinite) (h2 : 4 * G + (2 + 2 / m) * F.eta ≤ F.maxFinite) :
    (s.sub ((a.mul b).div c)).Finite ∧
      |(s.sub ((a.mul b).div c)).val - (s.val - a.val * b.val / c.val)| ≤ 5 * F.u * G + (2 + 2 / m) * F.eta := by
  have hu := u_nonneg F
  have hu4 := u_le F
  have he := eta_nonneg F
  have hG : 0 ≤ G := (abs_nonneg _).trans hsG
  have hcp : 0 < |c.val| := lt_of_lt_of_le hm hcm
  have hc0 : c.val ≠ 0 := abs_pos.mp hcp
  have hp : (a.mul b).Finite := (mul_rounded ha hb).finite h1
  have e3 := (mul_rounded ha hb).err hp
  have hme : 0 ≤ 1 / m * F.eta := by positivity
  -- the quotient of the rounded product
  have q3 : |(a.mul b).val / c.val - a.val * b.val / c.val| ≤ F.u * G + 1 / m * F.eta := by
    rw [← sub_div, abs_div]
    have k1 : |(a.mul b).val - a.val * b.val| / |c.val| ≤ (F.u * |a.val * b.val| + F.eta) / |c.val| :=
      div_le_div_of_nonneg_right e3 hcp.le
    have k2 : (F.u * |a.val * b.val| + F.eta) / |c.val| = F.u * |a.val * b.val / c.val| + 1 / |c.val| * F.eta := by
      rw [abs_div]; ring
    have k3 : 1 / |c.val| ≤ 1 / m := one_div_le_one_div_of_le hm hcm
    have k4 := mul_le_mul_of_nonneg_right k3 he
    have k5 := mul_le_mul_of_nonneg_left hq hu
    linarith
  set q := a.val * b.val / c.val
  have q4 : |(a.mul b).val / c.val| ≤ (1 + F.u) * G + 1 / m * F.eta := by
    have := abs_sub_abs_le_abs_sub ((a.mul b).val / c.val) q
    linarith
  have huG := mul_nonneg hu hG
  have huG4 : F.u * G ≤ 1 / 4 * G := mul_le_mul_of_nonneg_right hu4 hG
  have hsplit : (2 + 2 / m) * F.eta = 2 * F.eta + 2 * (1 / m * F.eta) := by ring
  rw [hsplit] at h2 ⊢
  have hdiv := div_rounded hp hc hc0
  have hqf : ((a.mul b).div c).Finite := hdiv.finite (by linarith)
  have e2 := hdiv.err hqf
  set w := 1 / m * F.eta
  have q5 : F.u * |(a.mul b).val / c.val| ≤ 5 / 4 * (F.u * G) + 1 / 4 * w := by
    have k1 := mul_le_mul_of_nonneg_left q4 hu
    have k2 : F.u * (F.u * G) ≤ 1 / 4 * (F.u * G) := mul_le_mul_of_nonneg_right hu4 huG
    have k3 : F.u * w ≤ 1 / 4 * w := mul_le_mul_of_nonneg_right hu4 hme
    nlinarith
  have q6 : |((a.mul b).div c).val - q| ≤ 9 / 4 * (F.u * G) + 5 / 4 * w + F.eta := by
    have := abs_sub_le ((a.mul b).div c).val ((a.mul b).val / c.val) q
    linarith
  have q7 : |((a.mul b).div c).val| ≤ G + 9 / 4 * (F.u * G) + 5 / 4 * w + F.eta := by
    have := abs_sub_abs_le_abs_sub ((a.mul b).div c).val q
    linarith
  have hsub := sub_rounded hs hqf
  have q8 : |s.val - ((a.mul b).div c).val| ≤ 2 * G + 9 / 4 * (F.u * G) + 5 / 4 * w + F.eta :=
    (abs_sub _ _).trans (by linarith)
  have hf : (s.sub ((a.mul b).div c)).Finite := hsub.finite (by linarith)
  refine ⟨hf, ?_⟩
  have e1 : |(s.sub ((a.mul b).div c)).val - (s.val - ((a.mul b).div c).val)| ≤
      F.u * |s.val - ((a.mul b).div c).val| := by
    obtain ⟨x, hx⟩ := fin_units hs
    obtain ⟨y, hy⟩ := fin_units hqf
    refine hsub.err_units hf (x - y) ?_
    rw [sub_mul, hx, hy]
    push_cast
    ring
  have q9 : F.u * |s.val - ((a.mul b).div c).val| ≤ 2 * (F.u * G) + 9 / 16 * (F.u * G) + 5 / 16 * w + 1 / 4 * F.eta := by
    have k1 := mul_le_mul_of_nonneg_left q8 hu
    have k2 : F.u * (F.u * G) ≤ 1 / 4 * (F.u * G) := mul_le_mul_of_nonneg_right hu4 huG
    have k3 : F.u * w ≤ 1 / 4 * w := mul_le_mul_of_nonneg_right hu4 hme
    have k4 : F.u * F.eta ≤ 1 / 4 * F.eta := mul_le_mul_of_nonneg_right hu4 he
    nlinarith
  have t : |(s.sub ((a.mul b).div c)).val - (s.val - q)| ≤
      |(s.sub ((a.mul b).div c)).val - (s.val - ((a.mul b).div c).val)| + |((a.mul b).div c).val - q| := by
    rw [show (s.sub ((a.mul b).div c)).val - (s.val - q) =
      ((s.sub ((a.mul b).div c)).val - (s.val - ((a.mul b).div c).val)) - (((a.mul b).div c).val - q) by ring]
    exact abs_sub _ _
  linarith

end Fl

/-! ## Sums over the columns that are left -/

/-- The sum of the columns from `k` on, without column `i`. -/
noncomputable def offSum (k : Nat) (i : Fin n) (f : Fin n → ℝ) : ℝ := ∑ j, if k ≤ j.val ∧ j ≠ i then f j else 0

theorem offSum_nonneg {k : Nat} {i : Fin n} {f : Fin n → ℝ} (h : ∀ j, 0 ≤ f j) : 0 ≤ offSum k i f :=
  Finset.sum_nonneg fun j _ => by split; exacts [h j, le_rfl]

theorem offSum_single {k : Nat} {i : Fin n} {f : Fin n → ℝ} (h : ∀ j, 0 ≤ f j) {j : Fin n} (hj : k ≤ j.val) (hji : j ≠ i) :
    f j ≤ offSum k i f := by
  have := Finset.single_le_sum (f := fun j : Fin n => if k ≤ j.val ∧ j ≠ i then f j else 0)
    (fun j _ => by split; exacts [h j, le_rfl]) (Finset.mem_univ j)
  rwa [if_pos ⟨hj, hji⟩] at this

theorem offSum_first (k i : Fin n) (hk : k < i) (f : Fin n → ℝ) :
    offSum k.val i f = f k + offSum (k.val + 1) i f := by
  unfold offSum
  rw [← Finset.sum_erase_add _ _ (Finset.mem_univ k), ← Finset.sum_erase_add (a := k) Finset.univ
    (fun j => if k.val + 1 ≤ j.val ∧ j ≠ i then f j else 0) (Finset.mem_univ k), if_pos ⟨le_rfl, ne_of_lt hk⟩,
    if_neg (by omega), add_zero, add_comm]
  congr 1
  refine Finset.sum_congr rfl fun j hj => ?_
  have hne : j.val ≠ k.val := fun h => Finset.ne_of_mem_erase hj (Fin.ext h)
  by_cases h : k.val + 1 ≤ j.val ∧ j ≠ i
  · rw [if_pos h, if_pos ⟨by omega, h.2⟩]
  · rw [if_neg h, if_neg (fun h' => h ⟨by omega, h'.2⟩)]

theorem offSum_pivot (k i : Fin n) (hk : k < i) (f : Fin n → ℝ) :
    offSum k.val k f = f i + offSum (k.val + 1) i f := by
  unfold offSum
  rw [Fin.lt_def] at hk
  rw [← Finset.sum_erase_add _ _ (Finset.mem_univ i), ← Finset.sum_erase_add (a := i) Finset.univ
    (fun j => if k.val + 1 ≤ j.val ∧ j ≠ i then f j else 0) (Finset.mem_univ i),
    if_pos ⟨hk.le, fun h => by rw [h] at hk; omega⟩, if_neg (fun h => h.2 rfl), add_zero, add_comm]
  congr 1
  refine Finset.sum_congr rfl fun j hj => ?_
  have hne := Finset.ne_of_mem_erase hj
  by_cases h : k.val + 1 ≤ j.val ∧ j ≠ i
  · rw [if_pos h, if_pos ⟨by omega, fun h' => by rw [h'] at h; omega⟩]
  · rw [if_neg h, if_neg (fun h' => h ⟨by
      have : j.val ≠ k.val := fun e => h'.2 (Fin.ext e)
      omega, hne⟩)]

theorem offSum_le {k : Nat} {i : Fin n} {f g h : Fin n → ℝ} {c e : ℝ} (he : 0 ≤ e)
    (hf : ∀ j : Fin n, k ≤ j.val → j ≠ i → f j ≤ g j + c * h j + e) :
    offSum k i f ≤ offSum k i g + c * offSum k i h + (n - 1 : ℝ) * e := by
  unfold offSum
  rw [Finset.mul_sum, ← Finset.sum_add_distrib]
  have hcard : (∑ j : Fin n, if j ≠ i then e else 0) = (n - 1 : ℝ) * e := by
    rw [← Finset.sum_filter, Finset.sum_const, Finset.filter_ne', Finset.card_erase_of_mem (Finset.mem_univ i),
      Finset.card_univ, Fintype.card_fin, nsmul_eq_mul, Nat.cast_sub (by have := i.2; omega), Nat.cast_one]
  rw [← hcard, ← Finset.sum_add_distrib]
  refine Finset.sum_le_sum fun j _ => ?_
  by_cases h1 : k ≤ j.val ∧ j ≠ i
  · rw [if_pos h1, if_pos h1, if_pos h1, if_pos h1.2]
    exact hf j h1.1 h1.2
  · rw [if_neg h1, if_neg h1, if_neg h1, mul_zero, add_zero, zero_add]
    split
    exacts [he, le_rfl]

theorem k_pos_cast (k : Fin n) : (1 : ℝ) ≤ n := by
  have := k.2
  exact_mod_cast (by omega : 1 ≤ n)

/-! ## The steps -/

/-- Error of one element. -/
noncomputable def domEps (F : Fmt) (R μ : ℝ) : ℝ := 10 * F.u * R + (2 + 4 / μ) * F.eta

/-- What is assumed: `μ` is the dominance of the rows, `R` bounds the sums of the rows. -/
structure DomHyp (A : Mat (Fl F) n n) (R μ : ℝ) : Prop where
  fin : ∀ i j, (A i j).Finite
  pos : 0 < μ
  row : ∀ i, |(A i i).val| + offSum 0 i (fun j => |(A i j).val|) ≤ R
  dom : ∀ i, μ + offSum 0 i (fun j => |(A i j).val|) ≤ |(A i i).val|
  small : n * (n * domEps F R μ) ≤ μ / 2
  max1 : 9 * R ≤ F.maxFinite
  max2 : 4 * R ^ 2 ≤ F.maxFinite

/-- What holds after `k` steps. -/
structure DomAt (A : Mat (Fl F) n n) (R μ : ℝ) (k : Nat) (S : Mat (Fl F) n n) : Prop where
  fin : ∀ i j, (S i j).Finite
  row : ∀ i : Fin n, k ≤ i.val → |(S i i).val| + offSum k i (fun j => |(S i j).val|) ≤ R + k * (n * domEps F R μ)
  dom : ∀ i : Fin n, k ≤ i.val → μ + offSum k i (fun j => |(S i j).val|) ≤ |(S i i).val| + k * (n * domEps F R μ)
  done : ∀ i j : Fin n, i.val < k → |(S i j).val| ≤ 2 * R
  piv : ∀ i : Fin n, i.val < k → μ / 2 ≤ |(S i i).val|
  sgn : ∀ i, 0 < (S i i).val * (A i i).val

theorem domEps_nonneg {R μ : ℝ} (hR : 0 ≤ R) (hμ : 0 < μ) : 0 ≤ domEps F R μ := by
  have := Fl.u_nonneg F
  have := Fl.eta_nonneg F
  unfold domEps
  positivity

theorem DomHyp.le {A : Mat (Fl F) n n} {R μ : ℝ} (h : DomHyp A R μ) (i : Fin n) : μ ≤ R := by
  have h1 := h.row i
  have h2 := h.dom i
  have h3 := offSum_nonneg (k := 0) (i := i) (f := fun j => |(A i j).val|) fun j => abs_nonneg _
  linarith

theorem ElimSteps.dominant {A S : Mat (Fl F) n n} {k : Nat} {σ : Int} (h : ElimSteps A k σ S) {R μ : ℝ}
    (hA : DomHyp A R μ) : σ = 1 ∧ DomAt A R μ k S := by
  induction h with
  | start =>
    refine ⟨rfl, hA.fin, fun i _ => ?_, fun i _ => ?_, fun i _ hi => ?_, fun i hi => ?_, fun i => ?_⟩
    · have := hA.row i
      simpa using this
    · have := hA.dom i
      simpa using this
    · exact absurd hi (Nat.not_lt_zero _)
    · exact absurd hi (Nat.not_lt_zero _)
    · have h1 := hA.dom i
      have h3 := offSum_nonneg (k := 0) (i := i) (f := fun j => |(A i j).val|) fun j => abs_nonneg _
      have h0 := hA.pos
      have : (A i i).val ≠ 0 := fun e => by rw [e, abs_zero] at h1; linarith
      exact mul_self_pos.mpr this
  | @step k σ S p hS hp hnz hfirst ih =>
    obtain ⟨hσ, D⟩ := ih
    have hμ := hA.pos
    have hR : μ ≤ R := hA.le k
    have hR0 : 0 ≤ R := by linarith
    have hε := domEps_nonneg (F := F) hR0 hμ
    have hkn : ((k.val : ℝ) + 1) ≤ n := by exact_mod_cast k.2
    have hnn : 0 ≤ (n : ℝ) * domEps F R μ := by positivity
    have hk1 : (k.val : ℝ) * (n * domEps F R μ) + n * domEps F R μ ≤ μ / 2 := by
      have := mul_le_mul_of_nonneg_right hkn hnn
      have := hA.small
      linarith
    set ε := domEps F R μ with hεdef
    have hnonneg : ∀ (i : Fin n) (j : Fin n), 0 ≤ |(S i j).val| := fun i j => abs_nonneg _
    -- the diagonal of every remaining row
    have hmar : ∀ i : Fin n, k.val ≤ i.val → μ / 2 + n * ε + offSum k.val i (fun j => |(S i j).val|) ≤ |(S i i).val| := by
      intro i hi
      have := D.dom i hi
      linarith
    have hdiag : ∀ i : Fin n, k.val ≤ i.val → μ / 2 ≤ |(S i i).val| := by
      intro i hi
      have h1 := hmar i hi
      have h2 := offSum_nonneg (k := k.val) (i := i) (hnonneg i)
      linarith
    have hS0 : (S k k).val ≠ 0 := fun e => by
      have := hdiag k le_rfl
      rw [e, abs_zero] at this
      linarith
    have hpk : p = k := by
      by_contra hne
      have hlt : k < p := lt_of_le_of_ne hp fun e => hne e.symm
      exact hS0 ((Fl.isZero_iff (D.fin k k)).mp (hfirst k le_rfl hlt))
    subst hpk
    have hrowR : ∀ i : Fin n, p.val ≤ i.val → |(S i i).val| + offSum p.val i (fun j => |(S i j).val|) ≤ 2 * R - n * ε := by
      intro i hi
      have := D.row i hi
      linarith
    have helem : ∀ i j : Fin n, p.val ≤ i.val → p.val ≤ j.val → |(S i j).val| ≤ 2 * R - n * ε := by
      intro i j hi hj
      have h1 := hrowR i hi
      by_cases hji : j = i
      · subst hji
        have := offSum_nonneg (k := p.val) (i := j) (hnonneg j)
        linarith
      · have := offSum_single (hnonneg i) hj hji
        have := abs_nonneg (S i i).val
        linarith
    have hsw : ∀ i j, elimStep S p p i j = if p < i then
        if p < j then (S i j).sub (((S i p).mul (S p j)).div (S p p))
        else if j = p then Fl.ofInt 0 else S i j else S i j := by
      intro i j
      unfold elimStep
      rw [Matrix.of_apply, Equiv.swap_self]
      rfl
    have hm0 : 0 < μ / 2 := by linarith
    have hmaxη : 4 * (2 * R) + (2 + 2 / (μ / 2)) * F.eta ≤ F.maxFinite := by
      have h1 := hA.max1
      have h2 : (2 + 2 / (μ / 2)) * F.eta ≤ ε := by
        rw [hεdef]
        unfold domEps
        have := mul_nonneg (Fl.u_nonneg F) hR0
        have e : 2 / (μ / 2) = 4 / μ := by field_simp; norm_num
        rw [e]
        linarith
      have h3 : ε ≤ n * ε := by
        have : (1 : ℝ) ≤ n := by
          have := k_pos_cast p
          exact this
        nlinarith
      have h4 : (0 : ℝ) ≤ (p.val : ℝ) * (n * ε) := by positivity
      linarith
    have hcell : ∀ i j : Fin n, p < i → p < j →
        ((S i j).sub (((S i p).mul (S p j)).div (S p p))).Finite ∧
        |((S i j).sub (((S i p).mul (S p j)).div (S p p))).val - ((S i j).val - (S i p).val * (S p j).val / (S p p).val)| ≤ ε := by
      intro i j hi hj
      rw [Fin.lt_def] at hi hj
      have hpj : |(S p j).val| ≤ |(S p p).val| := by
        have h1 := hmar p le_rfl
        have h2 := offSum_single (k := p.val) (i := p) (hnonneg p) hj.le (fun e => by rw [e] at hj; omega)
        linarith
      have hip := helem i p hi.le le_rfl
      have hq : |(S i p).val * (S p j).val / (S p p).val| ≤ 2 * R := by
        rw [abs_div, abs_mul, div_le_iff₀ (abs_pos.mpr hS0)]
        exact mul_le_mul (by linarith) hpj (abs_nonneg _) (by linarith)
      have hpr : |(S i p).val * (S p j).val| ≤ F.maxFinite := by
        rw [abs_mul]
        refine le_trans ?_ hA.max2
        have h1 := helem p j le_rfl hj.le
        have := mul_le_mul (show |(S i p).val| ≤ 2 * R by linarith) (show |(S p j).val| ≤ 2 * R by linarith) (abs_nonneg _)
          (by linarith)
        nlinarith
      have := Fl.elim_cell_forward (D.fin i j) (D.fin i p) (D.fin p j) (D.fin p p) hm0 (hdiag p le_rfl)
        (show |(S i j).val| ≤ 2 * R by have := helem i j hi.le hj.le; linarith) hq hpr hmaxη
      refine ⟨this.1, this.2.trans (le_of_eq ?_)⟩
      rw [hεdef]
      unfold domEps
      have e : 2 / (μ / 2) = 4 / μ := by field_simp; norm_num
      rw [e]
      ring
    -- the new elements against the old ones
    have hnew : ∀ i j : Fin n, p < i → p < j → (elimStep S p p i j).Finite ∧
        |(elimStep S p p i j).val - ((S i j).val - (S i p).val / (S p p).val * (S p j).val)| ≤ ε := by
      intro i j hi hj
      rw [hsw, if_pos hi, if_pos hj, div_mul_eq_mul_div]
      exact hcell i j hi hj
    have hnewle : ∀ i j : Fin n, p < i → p < j →
        |(elimStep S p p i j).val| ≤ |(S i j).val| + |(S i p).val / (S p p).val| * |(S p j).val| + ε := by
      intro i j hi hj
      have h1 := (hnew i j hi hj).2
      have h2 := abs_sub_abs_le_abs_sub (elimStep S p p i j).val ((S i j).val - (S i p).val / (S p p).val * (S p j).val)
      have h3 := abs_sub (S i j).val ((S i p).val / (S p p).val * (S p j).val)
      rw [abs_mul] at h3
      linarith
    have hfac : ∀ i : Fin n, p < i → |(S i p).val / (S p p).val| * offSum p.val p (fun j => |(S p j).val|) ≤ |(S i p).val| := by
      intro i hi
      have h1 := hmar p le_rfl
      have h2 : offSum p.val p (fun j => |(S p j).val|) ≤ |(S p p).val| := by linarith
      rw [abs_div, div_mul_eq_mul_div, div_le_iff₀ (abs_pos.mpr hS0)]
      exact mul_le_mul_of_nonneg_left h2 (abs_nonneg _)
    have hold : ∀ i j : Fin n, ¬ p < i → elimStep S p p i j = S i j := fun i j hi => by rw [hsw, if_neg hi]
    refine ⟨?_, ?_, ?_, ?_, ?_, ?_, ?_⟩
    · rw [if_pos rfl]; exact hσ
    · intro i j
      by_cases hi : p < i
      · rcases lt_trichotomy p j with hj | hj | hj
        · exact (hnew i j hi hj).1
        · rw [hsw, if_pos hi, if_neg (by rw [hj]; exact lt_irrefl _), if_pos hj.symm]
          exact Fl.zero_finite
        · rw [hsw, if_pos hi, if_neg (not_lt.mpr hj.le), if_neg hj.ne]
          exact D.fin i j
      · rw [hold i j hi]
        exact D.fin i j
    · intro i hi
      have hpi : p < i := by rw [Fin.lt_def]; omega
      have h1 := hnewle i i hpi hpi
      have h2 := offSum_le (k := p.val + 1) (i := i) (f := fun j => |(elimStep S p p i j).val|)
        (g := fun j => |(S i j).val|) (h := fun j => |(S p j).val|) (c := |(S i p).val / (S p p).val|) (e := ε) hε
        (fun j hj _ => hnewle i j hpi (by rw [Fin.lt_def]; omega))
      have h3 := offSum_first p i hpi fun j => |(S i j).val|
      have h4 := offSum_pivot p i hpi fun j => |(S p j).val|
      have h5 := hfac i hpi
      rw [h4, mul_add] at h5
      have h6 := D.row i hpi.le
      push_cast
      linarith
    · intro i hi
      have hpi : p < i := by rw [Fin.lt_def]; omega
      have h1 : |(S i i).val| ≤ |(elimStep S p p i i).val| + |(S i p).val / (S p p).val| * |(S p i).val| + ε := by
        have h1 := (hnew i i hpi hpi).2
        rw [abs_sub_comm] at h1
        have h2 := abs_sub_abs_le_abs_sub ((S i i).val - (S i p).val / (S p p).val * (S p i).val) (elimStep S p p i i).val
        have h3 := abs_sub_abs_le_abs_sub (S i i).val ((S i p).val / (S p p).val * (S p i).val)
        rw [abs_mul] at h3
        linarith
      have h2 := offSum_le (k := p.val + 1) (i := i) (f := fun j => |(elimStep S p p i j).val|)
        (g := fun j => |(S i j).val|) (h := fun j => |(S p j).val|) (c := |(S i p).val / (S p p).val|) (e := ε) hε
        (fun j hj _ => hnewle i j hpi (by rw [Fin.lt_def]; omega))
      have h3 := offSum_first p i hpi fun j => |(S i j).val|
      have h4 := offSum_pivot p i hpi fun j => |(S p j).val|
      have h5 := hfac i hpi
      rw [h4, mul_add] at h5
      have h6 := D.dom i hpi.le
      push_cast
      linarith
    · intro i j hi
      have hpi : ¬ p < i := by rw [Fin.lt_def]; omega
      rw [hold i j hpi]
      by_cases hi' : i.val < p.val
      · exact D.done i j hi'
      · have hip : i = p := Fin.ext (by omega)
        subst hip
        by_cases hj : i.val ≤ j.val
        · have := helem i j le_rfl hj
          linarith
        · rw [hS.lower i j (by omega) (by rw [Fin.lt_def]; omega), Fl.zero_val, abs_zero]
          linarith
    · intro i hi
      have hpi : ¬ p < i := by rw [Fin.lt_def]; omega
      rw [hold i i hpi]
      by_cases hi' : i.val < p.val
      · exact D.piv i hi'
      · exact hdiag i (by omega)
    · intro i
      by_cases hi : p < i
      · have h0 := D.sgn i
        have h1 := (hnew i i hi hi).2
        have h5 := hfac i hi
        have h4 := offSum_pivot p i hi fun j => |(S p j).val|
        have h6 := hmar i hi.le
        have h7 := offSum_single (k := p.val) (i := i) (hnonneg i) le_rfl hi.ne
        have h8 := offSum_nonneg (k := p.val + 1) (i := i) (f := fun j => |(S p j).val|) (hnonneg p)
        have hn1 : ε ≤ n * ε := by
          have := k_pos_cast p
          nlinarith
        rw [h4, mul_add] at h5
        have h9 := mul_nonneg (abs_nonneg ((S i p).val / (S p p).val)) h8
        have h10 : |(elimStep S p p i i).val - (S i i).val| < |(S i i).val| := by
          have h2 : |(elimStep S p p i i).val - (S i i).val| ≤
              |(elimStep S p p i i).val - ((S i i).val - (S i p).val / (S p p).val * (S p i).val)| +
                |(S i p).val / (S p p).val| * |(S p i).val| := by
            rw [← abs_mul, show (elimStep S p p i i).val - (S i i).val =
              ((elimStep S p p i i).val - ((S i i).val - (S i p).val / (S p p).val * (S p i).val)) -
                (S i p).val / (S p p).val * (S p i).val by ring]
            exact abs_sub _ _
          linarith
        have h11 : 0 < (elimStep S p p i i).val * (S i i).val := by
          rw [abs_lt] at h10
          rcases lt_or_gt_of_ne (show (S i i).val ≠ 0 from fun e => by rw [e, zero_mul] at h0; exact lt_irrefl _ h0) with hs | hs
          · rw [abs_of_neg hs] at h10
            exact mul_pos_of_neg_of_neg (by linarith) hs
          · rw [abs_of_pos hs] at h10
            exact mul_pos (by linarith) hs
        have h12 := mul_pos h11 h0
        have h13 : (elimStep S p p i i).val * (S i i).val * ((S i i).val * (A i i).val) =
            ((S i i).val * (S i i).val) * ((elimStep S p p i i).val * (A i i).val) := by ring
        rw [h13] at h12
        exact (pos_iff_pos_of_mul_pos h12).mp (mul_self_pos.mpr fun e => by rw [e, zero_mul] at h0; exact lt_irrefl _ h0)
      · rw [hold i i hi]
        exact D.sgn i

end MatrixLibs
