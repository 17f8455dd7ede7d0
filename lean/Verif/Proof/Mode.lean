import Verif.Spec.Mode
import Verif.Proof.FloatMono

/-!
# Operations in a rounding mode
-/

namespace MatrixLibs

set_option linter.unusedSectionVars false

namespace Fl
variable {F : Fmt} {m : RMode}

/-! ## Magnitudes -/

/-- What rounding does to the magnitude `x`. -/
def HowSpec (F : Fmt) (h : How) (x : ℝ) (N : Nat) : Prop :=
  F.Grid N ∧
  match h with
  | .near => Nearest F x N
  | .trunc => (N : ℝ) ≤ x ∧ ∀ M, F.Grid M → (M : ℝ) ≤ x → M ≤ N
  | .away => x ≤ N ∧ ∀ M, F.Grid M → x ≤ M → N ≤ M

section
variable {x : ℝ} {fl : Nat} {half : Nat → Nat → Ordering}

/-- No number of the grid lies strictly between two neighbours. -/
theorem grid_gap {k n M : Nat} (hk : k = F.ulpExp fl) (hn : n = fl / 2 ^ k) (hM : F.Grid M) :
    M ≤ n * 2 ^ k ∨ (n + 1) * 2 ^ k ≤ M := by
  by_cases hlt : M ≤ n * 2 ^ k
  · exact Or.inl hlt
  right
  have hlt' : n * 2 ^ k < M := not_le.mp hlt
  have hdvd : 2 ^ k ∣ M := by
    refine dvd_trans (pow_dvd_pow 2 ?_) hM
    rcases Nat.eq_zero_or_pos fl with rfl | hfl
    · rw [hk]
      unfold Fmt.ulpExp
      have := F.hp
      simp only [Nat.log2_zero]
      omega
    · rcases Nat.eq_zero_or_pos k with h0 | h0
      · omega
      · have h5 : 2 ^ fl.log2 ≤ n * 2 ^ k := by
          have hdk : 2 ^ k ∣ 2 ^ fl.log2 := by
            refine pow_dvd_pow 2 ?_
            rw [hk]; unfold Fmt.ulpExp; have := F.hp; omega
          obtain ⟨q, hq⟩ := hdk
          rw [hn, hq, mul_comm _ q]
          refine Nat.mul_le_mul_right _ ?_
          rw [Nat.le_div_iff_mul_le (by positivity), mul_comm, ← hq]
          exact log2_le (by omega)
        have h6 : fl.log2 ≤ M.log2 := by
          rw [Nat.le_log2 (by omega)]
          omega
        rw [hk]
        unfold Fmt.ulpExp
        omega
  obtain ⟨q, rfl⟩ := hdvd
  rw [mul_comm (2 ^ k) q] at hlt' ⊢
  exact Nat.mul_le_mul_right _ (Nat.lt_of_mul_lt_mul_right hlt')

theorem roundMagBy_spec (h : How) (ha : Approx x fl half) {isInt : Nat → Bool} (hi : ∀ N, isInt N = true ↔ x = N) :
    HowSpec F h x (roundMagBy h F fl half isInt) := by
  obtain ⟨k, n, -, hk, hn, -, h1, h2, h3, -⟩ := roundMag_cases (F := F) ha
  have key := fun M (hM : F.Grid M) => grid_gap (F := F) hk hn hM
  have g1 : F.Grid (n * 2 ^ k) := grid_mul (by omega)
  have g2 : F.Grid ((n + 1) * 2 ^ k) := grid_mul (by omega)
  have c1 : ((n * 2 ^ k : Nat) : ℝ) = n * 2 ^ k := by push_cast; ring
  have c2 : (((n + 1) * 2 ^ k : Nat) : ℝ) = (n + 1) * 2 ^ k := by push_cast; ring
  cases h with
  | near => exact ⟨roundMag_grid ha, roundMag_nearest ha⟩
  | trunc =>
    have e : roundMagBy .trunc F fl half isInt = n * 2 ^ k := by
      unfold roundMagBy; simp only [← hk, ← hn]
    rw [e]
    refine ⟨g1, by rw [c1]; exact h1, fun M hM hle => ?_⟩
    rcases key M hM with h | h
    · exact h
    · exfalso
      have : (((n + 1) * 2 ^ k : Nat) : ℝ) ≤ M := by exact_mod_cast h
      rw [c2] at this
      linarith
  | away =>
    have e : roundMagBy .away F fl half isInt = if isInt (n * 2 ^ k) then n * 2 ^ k else (n + 1) * 2 ^ k := by
      unfold roundMagBy; simp only [← hk, ← hn]
    rw [e]
    split
    · next hb =>
      have := (hi _).mp hb
      refine ⟨g1, this.le, fun M hM hle => ?_⟩
      rw [this] at hle
      exact_mod_cast hle
    · next hb =>
      refine ⟨g2, by rw [c2]; exact h2.le, fun M hM hle => ?_⟩
      rcases key M hM with h | h
      · exfalso
        have h' : (M : ℝ) ≤ ((n * 2 ^ k : Nat) : ℝ) := by exact_mod_cast h
        refine hb ((hi _).mpr (le_antisymm (hle.trans h') (by rw [c1]; exact h1)))
      · exact h

end

theorem roundQuotBy_spec (h : How) {a b : Nat} (hb : 0 < b) : HowSpec F h ((a : ℝ) / b) (roundQuotBy h F a b) := by
  refine roundMagBy_spec h (approx_quot hb) fun N => ?_
  have hbR : (b : ℝ) ≠ 0 := by exact_mod_cast hb.ne'
  rw [beq_iff_eq, div_eq_iff hbR, eq_comm]
  exact_mod_cast Iff.rfl

theorem roundSqrtBy_spec (h : How) (a : Nat) : HowSpec F h (Real.sqrt a) (roundSqrtBy h F a) := by
  refine roundMagBy_spec h (approx_sqrt a) fun N => ?_
  rw [beq_iff_eq, Real.sqrt_eq_iff_mul_self_eq (Nat.cast_nonneg _) (Nat.cast_nonneg _), eq_comm]
  constructor
  · intro h; rw [← Nat.cast_mul, h]
  · intro h; exact_mod_cast h

theorem roundIsNear {a b : Nat} : roundQuotBy .near F a b = roundQuot F a b := rfl

/-! ## Bounds -/

variable {a b c : Fl F} {x y : ℝ}

theorem neg_neg' (a : Fl F) : a.neg.neg = a := by cases a <;> simp [neg]

theorem below_neg : a.neg.Below (-x) ↔ a.Above x := by
  unfold Below Above
  rw [neg_finite, neg_val, neg_le_neg_iff]
  refine or_congr ?_ Iff.rfl
  cases a with
  | nan => simp [neg]
  | inf s => cases s <;> simp [neg]
  | fin s N h => simp [neg]

theorem above_neg : a.neg.Above (-x) ↔ a.Below x := by
  have := below_neg (a := a.neg) (x := -x)
  rw [neg_neg', neg_neg] at this
  exact this.symm

theorem Upward.of_neg (h : Downward (-x) a.neg) : Upward x a := by
  refine ⟨below_neg.mp h.below, fun b hb => ?_⟩
  have := (h.greatest _ (below_neg.mpr hb)).neg
  rwa [neg_neg', neg_neg'] at this

theorem Downward.of_neg (h : Upward (-x) a.neg) : Downward x a := by
  refine ⟨above_neg.mp h.above, fun b hb => ?_⟩
  have := (h.least _ (above_neg.mpr hb)).neg
  rwa [neg_neg', neg_neg'] at this

theorem Below.ne_nan (h : a.Below x) : a ≠ .nan := by
  rcases h with rfl | ⟨h, -⟩
  · simp
  · exact Finite.ne_nan h

theorem Above.ne_nan (h : a.Above x) : a ≠ .nan := by
  rcases h with rfl | ⟨h, -⟩
  · simp
  · exact Finite.ne_nan h

theorem Below.mono (h : a.Below x) (hxy : x ≤ y) : a.Below y := h.imp id fun h => ⟨h.1, h.2.trans hxy⟩

theorem Above.mono (h : a.Above y) (hxy : x ≤ y) : a.Above x := h.imp id fun h => ⟨h.1, hxy.trans h.2⟩

theorem Below.le (h : a.Below x) (h' : b.Above x) : Le a b := by
  rcases h with rfl | ⟨h, hx⟩
  · exact inf_le h'.ne_nan
  · rcases h' with rfl | ⟨h', hx'⟩
    · exact le_inf (Finite.ne_nan h)
    · exact (le_iff h h').mpr (hx.trans hx')

theorem self_below (ha : a.Finite) : a.Below a.val := .inr ⟨ha, le_refl _⟩
theorem self_above (ha : a.Finite) : a.Above a.val := .inr ⟨ha, le_refl _⟩

/-! ## Packing -/

theorem neg_packBy (h : How) (s : Bool) (N : Nat) : (packBy h s N : Fl F).neg = packBy h (!s) N := by
  unfold packBy
  split
  · rfl
  · split <;> rfl

theorem val_fin_false (N : Nat) (h : F.Rep N) : (Fl.fin false N h).val = N / F.unit := by
  simp [val, signed]

theorem val_fin_true (N : Nat) (h : F.Rep N) : (Fl.fin true N h).val = -(N / F.unit) := by
  simp [val, signed, neg_div]

theorem top_lt (F : Fmt) : F.top < F.bound := F.top_rep.1

theorem le_top {N : Nat} (h : F.Rep N) : N ≤ F.top := by
  have hp := F.hp
  have he := F.he
  by_contra hlt
  have hlt := not_le.mp hlt
  have h1 : 1 ≤ 2 ^ F.p := Nat.one_le_two_pow
  have e : F.top + 2 ^ (2 * F.emax - 1) = F.bound := by
    unfold Fmt.top Fmt.bound
    rw [Nat.sub_mul, one_mul, ← pow_add, Nat.sub_add_cancel]
    exact Nat.pow_le_pow_right (by omega) (by omega)
  have hpos : 0 < 2 ^ (2 * F.emax - 1) := by positivity
  -- `N` has the same spacing as `top`
  have h2 : 2 ^ (F.p - 1 + (2 * F.emax - 1)) ≤ F.top := by
    unfold Fmt.top
    rw [pow_add]
    refine Nat.mul_le_mul_right _ ?_
    have : 2 ^ F.p = 2 ^ (F.p - 1) * 2 := by rw [← pow_succ]; congr 1; omega
    have : 1 ≤ 2 ^ (F.p - 1) := Nat.one_le_two_pow
    omega
  have h3 : F.p - 1 + (2 * F.emax - 1) ≤ N.log2 := by
    rw [Nat.le_log2 (by omega)]
    omega
  have h4 : 2 ^ (2 * F.emax - 1) ∣ N := by
    refine dvd_trans (pow_dvd_pow 2 ?_) h.2
    unfold Fmt.ulpExp
    omega
  obtain ⟨q, rfl⟩ := h4
  have h5 : (2 ^ F.p - 1) < q := by
    refine Nat.lt_of_mul_lt_mul_right (a := 2 ^ (2 * F.emax - 1)) ?_
    rw [mul_comm q]
    exact hlt
  have h6 : 2 ^ F.p ≤ q := by omega
  have := h.1
  unfold Fmt.bound at this
  rw [pow_add, mul_comm] at this
  have := Nat.lt_of_mul_lt_mul_right this
  omega

theorem trunc_pos {N : Nat} (_hx : 0 ≤ x) (h : HowSpec F .trunc (x * F.unit) N) :
    Downward x (packBy .trunc false N : Fl F) := by
  obtain ⟨hg, h1, h2⟩ := h
  have hu := unit_posR F
  have key : ∀ (K : Nat) (hK : F.Rep K), (K : ℝ) ≤ x * F.unit → (∀ M, F.Rep M → (M : ℝ) ≤ x * F.unit → M ≤ K) →
      Downward x (.fin false K hK : Fl F) := by
    intro K hK hle hgr
    refine ⟨.inr ⟨trivial, ?_⟩, fun b hb => ?_⟩
    · rw [val_fin_false, div_le_iff₀ hu]; exact hle
    · rcases hb with rfl | ⟨hb, hbx⟩
      · exact inf_le (by simp)
      · rw [le_iff hb (show (Fl.fin false K hK : Fl F).Finite from trivial), val_fin_false]
        match b, hb with
        | .fin true M hM, _ =>
          rw [val_fin_true]
          have : (0 : ℝ) ≤ M / F.unit := by positivity
          have : (0 : ℝ) ≤ K / F.unit := by positivity
          linarith
        | .fin false M hM, _ =>
          rw [val_fin_false] at hbx ⊢
          rw [div_le_iff₀ hu] at hbx
          have := hgr M hM hbx
          have : (M : ℝ) ≤ K := by exact_mod_cast this
          gcongr
  unfold packBy
  split
  · next hN => exact key N hN h1 fun M hM => h2 M hM.2
  · next hN =>
    rw [if_pos rfl]
    have hb : F.bound ≤ N := by
      by_contra hlt
      exact hN ⟨not_le.mp hlt, hg⟩
    refine key _ _ (le_trans ?_ h1) fun M hM _ => le_top hM
    have := top_lt F
    exact_mod_cast (by omega : F.top ≤ N)

theorem away_pos {N : Nat} (hx : 0 ≤ x) (h : HowSpec F .away (x * F.unit) N) :
    Upward x (packBy .away false N : Fl F) := by
  obtain ⟨hg, h1, h2⟩ := h
  have hu := unit_posR F
  have pos : ∀ b : Fl F, b.Finite → x ≤ b.val → ∃ M, F.Rep M ∧ b.val = M / F.unit ∧ x * F.unit ≤ M := by
    intro b hb hbx
    match b, hb with
    | .fin false M hM, _ =>
      rw [val_fin_false] at hbx
      exact ⟨M, hM, val_fin_false M hM, by rwa [le_div_iff₀ hu] at hbx⟩
    | .fin true M hM, _ =>
      rw [val_fin_true] at hbx
      have h0 : (0 : ℝ) ≤ M / F.unit := by positivity
      have hM0 : (M : ℝ) / F.unit = 0 := by linarith
      have hx0 : x = 0 := by linarith
      refine ⟨M, hM, by rw [val_fin_true, hM0]; simp, ?_⟩
      rw [hx0, zero_mul]
      positivity
  unfold packBy
  split
  · next hN =>
    refine ⟨.inr ⟨trivial, ?_⟩, fun b hb => ?_⟩
    · rw [val_fin_false, le_div_iff₀ hu]; exact h1
    · rcases hb with rfl | ⟨hb, hbx⟩
      · exact le_inf (by simp)
      · rw [le_iff (show (Fl.fin false N hN : Fl F).Finite from trivial) hb, val_fin_false]
        obtain ⟨M, hM, e, hle⟩ := pos b hb hbx
        rw [e]
        have := h2 M hM.2 hle
        have : (N : ℝ) ≤ M := by exact_mod_cast this
        gcongr
  · next hN =>
    rw [if_neg (by simp)]
    have hb : F.bound ≤ N := by
      by_contra hlt
      exact hN ⟨not_le.mp hlt, hg⟩
    refine ⟨.inl rfl, fun b hb' => ?_⟩
    rcases hb' with rfl | ⟨hb', hbx⟩
    · exact Le.refl (by simp)
    · exfalso
      obtain ⟨M, hM, e, hle⟩ := pos b hb' hbx
      have := h2 M hM.2 hle
      have := hM.1
      omega

theorem downward_zero (s : Bool) : Downward 0 (.fin s 0 rep_zero : Fl F) := by
  have hv : (Fl.fin s 0 rep_zero : Fl F).val = 0 := by cases s <;> simp [val, signed]
  refine ⟨.inr ⟨trivial, hv.le⟩, fun b hb => ?_⟩
  rcases hb with rfl | ⟨hb, hbx⟩
  · exact inf_le (by simp)
  · rw [le_iff hb (show (Fl.fin s 0 rep_zero : Fl F).Finite from trivial), hv]; exact hbx

theorem upward_zero (s : Bool) : Upward 0 (.fin s 0 rep_zero : Fl F) := by
  refine Upward.of_neg ?_
  rw [neg_zero]
  exact downward_zero (!s)

theorem packBy_zero (h : How) (s : Bool) : (packBy h s 0 : Fl F) = .fin s 0 rep_zero := by
  unfold packBy
  rw [dif_pos rep_zero]

theorem howSpec_zero {h : How} {N : Nat} (hs : HowSpec F h 0 N) : N = 0 := by
  obtain ⟨hg, hs⟩ := hs
  cases h with
  | near => exact hs.unique Nearest.zero
  | trunc => have h0 : (N : ℝ) ≤ 0 := hs.1
             exact Nat.le_zero.mp (by exact_mod_cast h0)
  | away => have := hs.2 0 grid_zero (by simp); omega

/-- Rounding the magnitude as the mode and the sign say rounds the number in the mode. -/
theorem roundedBy_pack {s : Bool} {N : Nat} (h : HowSpec F (m.how s) (|x| * F.unit) N)
    (hs : x ≠ 0 → (s = true ↔ x < 0)) : RoundedBy m x (packBy (m.how s) s N : Fl F) := by
  by_cases hm : m = .nearest
  · subst hm
    exact rounded_pack h.2 hs
  rcases lt_trichotomy x 0 with hx | rfl | hx
  · obtain rfl : s = true := (hs hx.ne).mpr hx
    rw [abs_of_neg hx] at h
    have hx' : 0 ≤ -x := by linarith
    cases m with
    | nearest => exact absurd rfl hm
    | down =>
      refine Downward.of_neg ?_
      rw [neg_packBy]
      exact away_pos hx' h
    | up =>
      refine Upward.of_neg ?_
      rw [neg_packBy]
      exact trunc_pos hx' h
    | zero =>
      refine ⟨fun h0 => absurd hx (not_lt.mpr h0), fun _ => Upward.of_neg ?_⟩
      rw [neg_packBy]
      exact trunc_pos hx' h
  · rw [abs_zero, zero_mul] at h
    rw [howSpec_zero h, packBy_zero]
    cases m with
    | nearest => exact absurd rfl hm
    | down => exact downward_zero s
    | up => exact upward_zero s
    | zero => exact ⟨fun _ => downward_zero s, fun _ => upward_zero s⟩
  · obtain rfl : s = false := by
      cases s with
      | false => rfl
      | true => exact absurd ((hs hx.ne').mp rfl) (not_lt.mpr hx.le)
    rw [abs_of_pos hx] at h
    cases m with
    | nearest => exact absurd rfl hm
    | down => exact trunc_pos hx.le h
    | up => exact away_pos hx.le h
    | zero => exact ⟨fun _ => trunc_pos hx.le h, fun h0 => absurd hx (not_lt.mpr h0)⟩

theorem pack_zero_by (h : How) (s : Bool) : (pack s 0 : Fl F) = packBy h s 0 := by
  unfold pack packBy
  rw [dif_pos rep_zero, dif_pos rep_zero]

theorem howSpec_of_zero (h : How) : HowSpec F h 0 0 := by
  refine ⟨grid_zero, ?_⟩
  cases h with
  | near => exact Nearest.zero
  | trunc => exact ⟨by simp, fun M _ h => by exact_mod_cast h⟩
  | away => exact ⟨by simp, fun M _ _ => by omega⟩

/-! ## The operations -/

theorem roundIntBy_rounded (zneg : Bool) (z : Int) : RoundedBy m ((z : ℝ) / F.unit) (roundIntBy m zneg z : Fl F) := by
  have hu := unit_posR F
  unfold roundIntBy
  split
  · next h =>
    subst h
    rw [pack_zero_by (m.how zneg)]
    refine roundedBy_pack ?_ (fun h => absurd (by simp) h)
    rw [Int.cast_zero, zero_div, abs_zero, zero_mul]
    exact howSpec_of_zero _
  · next h =>
    refine roundedBy_pack ?_ (fun _ => ?_)
    · have := roundQuotBy_spec (F := F) (m.how (decide (z < 0))) (a := z.natAbs) (b := 1) (by omega)
      rw [abs_div, abs_of_pos hu, div_mul_cancel₀ _ hu.ne']
      rwa [Nat.cast_one, div_one, Nat.cast_natAbs, Int.cast_abs] at this
    · rw [decide_eq_true_eq, div_neg_iff]
      constructor
      · intro h
        exact Or.inr ⟨by exact_mod_cast h, hu⟩
      · rintro (⟨_, h⟩ | ⟨h, _⟩)
        · linarith
        · exact_mod_cast h

theorem addBy_rounded (ha : a.Finite) (hb : b.Finite) : RoundedBy m (a.val + b.val) (addBy m a b) := by
  match a, b, ha, hb with
  | .fin s M hM, .fin t N hN, _, _ =>
    have := roundIntBy_rounded (F := F) (m := m) (if m = .down then s || t else s && t) (signed s M + signed t N)
    unfold addBy val
    rwa [Int.cast_add, add_div] at this

theorem subBy_rounded (ha : a.Finite) (hb : b.Finite) : RoundedBy m (a.val - b.val) (subBy m a b) := by
  have := addBy_rounded (m := m) ha ((neg_finite b).mpr hb)
  rwa [neg_val, ← sub_eq_add_neg] at this

theorem mulBy_rounded (ha : a.Finite) (hb : b.Finite) : RoundedBy m (a.val * b.val) (mulBy m a b) := by
  match a, b, ha, hb with
  | .fin s M hM, .fin t N hN, _, _ =>
    have hu := unit_posR F
    have e : (signed s M : ℝ) / F.unit * (signed t N / F.unit) =
        (signed s M * signed t N) / (F.unit * F.unit) := by field_simp
    unfold mulBy val
    refine roundedBy_pack ?_ (fun h => ?_)
    · have := roundQuotBy_spec (F := F) (m.how (s ^^ t)) (a := M * N) (b := F.unit) (unit_pos F)
      rw [e, abs_div, abs_mul, abs_signed, abs_signed, abs_of_pos (mul_pos hu hu)]
      have e2 : (M : ℝ) * N / (F.unit * F.unit) * F.unit = ((M * N : Nat) : ℝ) / F.unit := by
        push_cast; field_simp
      rwa [e2]
    · rw [e] at h ⊢
      have h0 : (signed s M : ℝ) * signed t N ≠ 0 := fun h0 => h (by rw [h0, zero_div])
      rw [signed_mul_neg s t M N h0, div_neg_iff]
      have := mul_pos hu hu
      constructor
      · intro h; exact Or.inr ⟨h, this⟩
      · rintro (⟨_, h⟩ | ⟨h, _⟩)
        · linarith
        · exact h

theorem divBy_rounded (ha : a.Finite) (hb : b.Finite) (h0 : b.val ≠ 0) :
    RoundedBy m (a.val / b.val) (divBy m a b) := by
  match a, b, ha, hb with
  | .fin s M hM, .fin t N hN, _, _ =>
    have hu := unit_posR F
    have hN0 : N ≠ 0 := by
      rintro rfl
      apply h0
      unfold val
      cases t <;> simp [signed]
    have hNR : (0 : ℝ) < N := by exact_mod_cast Nat.pos_of_ne_zero hN0
    have hsN : (signed t N : ℝ) ≠ 0 := by
      intro h
      have := abs_signed t N
      rw [h, abs_zero] at this
      linarith
    have e : (signed s M : ℝ) / F.unit / (signed t N / F.unit) = signed s M / signed t N := by
      field_simp
    unfold divBy val
    dsimp only
    rw [if_neg hN0, e]
    refine roundedBy_pack ?_ (fun h => ?_)
    · have := roundQuotBy_spec (F := F) (m.how (s ^^ t)) (a := M * F.unit) (b := N) (Nat.pos_of_ne_zero hN0)
      rw [abs_div, abs_signed, abs_signed]
      have e2 : (M : ℝ) / N * F.unit = ((M * F.unit : Nat) : ℝ) / N := by
        push_cast; field_simp
      rwa [e2]
    · have h1 : (signed s M : ℝ) * signed t N ≠ 0 :=
        mul_ne_zero (fun h2 => h (by rw [h2, zero_div])) hsN
      rw [signed_mul_neg s t M N h1, mul_neg_iff, div_neg_iff]

theorem sqrtBy_rounded (ha : a.Finite) (h0 : 0 ≤ a.val) : RoundedBy m (Real.sqrt a.val) (sqrtBy m a) := by
  match a, ha with
  | .fin s N hN, _ =>
    have hu := unit_posR F
    unfold sqrtBy
    dsimp only
    by_cases hN0 : N = 0
    · subst hN0
      rw [if_pos rfl]
      have : (Fl.fin s 0 hN).val = 0 := by unfold val; cases s <;> simp [signed]
      rw [this, Real.sqrt_zero]
      have := roundedBy_pack (F := F) (m := m) (s := s) (x := 0) (N := 0)
        (by rw [abs_zero, zero_mul]; exact howSpec_of_zero _) (fun h => absurd rfl h)
      rwa [packBy_zero] at this
    · rw [if_neg hN0]
      have hNR : (0 : ℝ) < N := by exact_mod_cast Nat.pos_of_ne_zero hN0
      have hs : s = false := by
        cases s
        · rfl
        · exfalso
          rw [val_fin_true] at h0
          have : (0 : ℝ) < N / F.unit := by positivity
          linarith
      subst hs
      simp only [Bool.false_eq_true, if_false]
      refine roundedBy_pack ?_ (fun _ => ?_)
      · have := roundSqrtBy_spec (F := F) (m.how false) (N * F.unit)
        rw [abs_of_nonneg (Real.sqrt_nonneg _)]
        have e : Real.sqrt (Fl.fin false N hN).val * F.unit = Real.sqrt ((N * F.unit : Nat) : ℝ) := by
          rw [val_fin_false, eq_comm, Real.sqrt_eq_iff_mul_self_eq (by positivity) (by positivity)]
          push_cast
          rw [mul_mul_mul_comm, Real.mul_self_sqrt (by positivity)]
          field_simp
        rwa [e]
      · constructor
        · intro h; cases h
        · intro h
          exact absurd h (not_lt.mpr (Real.sqrt_nonneg _))

theorem ofIntBy_rounded (k : Int) : RoundedBy m (k : ℝ) (ofIntBy m k : Fl F) := by
  have hu := unit_posR F
  have := roundIntBy_rounded (F := F) (m := m) false (k * F.unit)
  unfold ofIntBy
  have e : ((k * F.unit : Int) : ℝ) / F.unit = k := by
    push_cast
    exact mul_div_cancel_right₀ _ hu.ne'
  rwa [e] at this

/-! ## Rounding to nearest is the arithmetic used elsewhere -/

theorem addBy_nearest (a b : Fl F) : addBy .nearest a b = a.add b := by
  cases a <;> cases b <;> rfl

theorem subBy_nearest (a b : Fl F) : subBy .nearest a b = a.sub b := addBy_nearest a b.neg

theorem mulBy_nearest (a b : Fl F) : mulBy .nearest a b = a.mul b := by
  cases a <;> cases b <;> rfl

theorem divBy_nearest (a b : Fl F) : divBy .nearest a b = a.div b := by
  cases a <;> cases b <;> rfl

theorem sqrtBy_nearest (a : Fl F) : sqrtBy .nearest a = a.sqrt := by
  cases a <;> rfl

theorem ofIntBy_nearest (k : Int) : (ofIntBy .nearest k : Fl F) = ofInt k := rfl

theorem modeScalar_nearest : modeScalar .nearest F = floatScalar F := by
  unfold modeScalar floatScalar
  congr 1

/-! ## Every mode rounds to a neighbour -/

/-- `a` is between the data below and above `x`. -/
structure Faithful (x : ℝ) (a : Fl F) : Prop where
  of_below : ∀ b : Fl F, b.Below x → Le b a
  of_above : ∀ b : Fl F, b.Above x → Le a b

theorem Downward.faithful (h : Downward x a) : Faithful x a := ⟨h.greatest, fun _ hb => h.below.le hb⟩

theorem Upward.faithful (h : Upward x a) : Faithful x a := ⟨fun _ hb => hb.le h.above, h.least⟩

theorem rounded_self (ha : a.Finite) : Rounded a.val a := by
  match a, ha with
  | .fin s N hN, _ =>
    have hu := unit_posR F
    refine ⟨N, ?_, .inl ⟨hN.1, s, hN, rfl, fun h => ?_⟩⟩
    · have : |(Fl.fin s N hN).val| * F.unit = N := by
        unfold val
        rw [abs_div, abs_signed, abs_of_pos hu, div_mul_cancel₀ _ hu.ne']
      rw [this]
      exact Nearest.self hN.2
    · cases s with
      | true =>
        rw [val_fin_true] at h ⊢
        have : (0 : ℝ) ≤ N / F.unit := by positivity
        simp only [true_iff]
        rcases this.lt_or_eq with h1 | h1
        · linarith
        · rw [← h1] at h; simp at h
      | false =>
        rw [val_fin_false]
        have : (0 : ℝ) ≤ N / F.unit := by positivity
        simp only [Bool.false_eq_true, false_iff, not_lt]
        exact this

theorem Rounded.faithful (h : Rounded x a) : Faithful x a := by
  refine ⟨fun b hb => ?_, fun b hb => ?_⟩
  · rcases hb with rfl | ⟨hb, hx⟩
    · exact inf_le h.ne_nan
    · exact (rounded_self hb).le_of_le h hx
  · rcases hb with rfl | ⟨hb, hx⟩
    · exact le_inf h.ne_nan
    · exact h.le_of_le (rounded_self hb) hx

theorem RoundedBy.faithful (h : RoundedBy m x a) : Faithful x a := by
  cases m with
  | nearest => exact Rounded.faithful h
  | down => exact Downward.faithful h
  | up => exact Upward.faithful h
  | zero =>
    rcases le_total 0 x with h0 | h0
    · exact (h.1 h0).faithful
    · exact (h.2 h0).faithful

theorem Faithful.ne_nan (h : Faithful x a) : a ≠ .nan := (h.of_above (.inf false) (.inl rfl)).ne_nan.1

theorem Faithful.exact (h : Faithful x a) (hb : b.Finite) (e : b.val = x) : a.Finite ∧ a.val = x := by
  have h1 := h.of_below b (.inr ⟨hb, e.le⟩)
  have h2 := h.of_above b (.inr ⟨hb, e.ge⟩)
  have ha : a.Finite := by
    by_contra hf
    obtain ⟨s, rfl⟩ := not_finite hf h1.ne_nan.2
    cases s with
    | true => rw [le_inf_true h1] at hb; exact hb.elim
    | false => rw [inf_false_le h2] at hb; exact hb.elim
  rw [le_iff hb ha] at h1
  rw [le_iff ha hb] at h2
  exact ⟨ha, by linarith⟩

/-- Small whole numbers are exact in every mode. -/
theorem ofIntBy_exact {k : Nat} (h : k ≤ 2 ^ F.p) : (ofIntBy m k : Fl F).Finite ∧ (ofIntBy m k : Fl F).val = k := by
  have e := val_ofInt_exact (F := F) k (by simpa using h)
  have := (ofIntBy_rounded (F := F) (m := m) k).faithful
  simp only [Int.cast_natCast] at this e
  exact this.exact e.1 e.2

end Fl
end MatrixLibs
