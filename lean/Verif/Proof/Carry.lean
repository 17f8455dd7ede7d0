import Verif.Spec.Carry
import Verif.Proof.Silent
import Verif.Proof.Scale

/-!
# Exact operations are exact in every environment that loses no subnormal numbers, and in wider formats
-/

namespace MatrixLibs

set_option linter.unusedSectionVars false

namespace Carry
variable {F G : Fmt} {e e' : FpEnv}

open Silent

/-- Numbers of a format are numbers of a wider one. -/
theorem widen (W : F.Within G) {a : Fl F} (ha : a.Finite) : ∃ b : Fl G, b.Finite ∧ b.val = a.val := by
  obtain ⟨s, N, hN, rfl⟩ := finite_fin ha
  obtain ⟨W1, W2⟩ := W
  have hF := F.hp
  have hF' := F.he
  have hu : (0 : ℝ) < F.unit := Fl.unit_posR F
  set d := (G.emax + G.p) - (F.emax + F.p) with hd
  have hunit : G.unit = F.unit * 2 ^ d := by
    unfold Fmt.unit
    rw [← pow_add]
    congr 1
    omega
  have hrep : G.Rep (N * 2 ^ d) := by
    constructor
    · have h1 : N * 2 ^ d < F.bound * 2 ^ d := Nat.mul_lt_mul_of_pos_right hN.1 (by positivity)
      refine h1.trans_le ?_
      unfold Fmt.bound
      rw [← pow_add]
      exact Nat.pow_le_pow_right (by norm_num) (by omega)
    · rcases Nat.eq_zero_or_pos N with rfl | h0
      · simp
      · have hl : (N * 2 ^ d).log2 = N.log2 + d := log2_shift h0.ne' d
        have h1 : 2 ^ (F.ulpExp N + d) ∣ N * 2 ^ d := by
          rw [pow_add]
          exact Nat.mul_dvd_mul_right hN.2 _
        refine (pow_dvd_pow 2 ?_).trans h1
        unfold Fmt.ulpExp
        rw [hl]
        omega
  refine ⟨.fin s (N * 2 ^ d) hrep, trivial, ?_⟩
  rw [val_fin, val_fin, hunit]
  have hs : (Fl.signed s (N * 2 ^ d) : ℝ) = Fl.signed s N * 2 ^ d := by
    unfold Fl.signed
    cases s <;> simp
  rw [hs]
  push_cast
  rw [mul_div_mul_right _ _ (by positivity)]

theorem minNormal_eq (F : Fmt) : F.minNormal * 2 ^ (F.emax - 1) = 1 := by
  have hp := F.hp
  have he := F.he
  unfold Fmt.minNormal Fmt.unit
  push_cast
  rw [div_mul_eq_mul_div, ← pow_add, div_eq_one_iff_eq (by positivity)]
  congr 1
  omega

theorem minNormal_le (W : F.Within G) : G.minNormal ≤ F.minNormal := by
  have h1 := minNormal_eq F
  have h2 := minNormal_eq G
  have h3 : (2 : ℝ) ^ (F.emax - 1) ≤ 2 ^ (G.emax - 1) :=
    pow_le_pow_right₀ (by norm_num) (by have := W.range; omega)
  have hF : 0 < F.minNormal := by unfold Fmt.minNormal; have := Fl.unit_posR F; positivity
  by_contra h
  push Not at h
  have : F.minNormal * 2 ^ (F.emax - 1) < G.minNormal * 2 ^ (G.emax - 1) := by
    calc F.minNormal * 2 ^ (F.emax - 1) ≤ F.minNormal * 2 ^ (G.emax - 1) := by
          exact mul_le_mul_of_nonneg_left h3 hF.le
      _ < G.minNormal * 2 ^ (G.emax - 1) := by
          exact mul_lt_mul_of_pos_right h (by positivity)
  linarith

/-- A number of the first environment that is not lost in the second. -/
def Kept (G : Fmt) (e' : FpEnv) (x : ℝ) : Prop :=
  (∃ b : Fl G, b.Finite ∧ b.val = x) ∧ (e'.ftz = none ∨ x = 0 ∨ G.minNormal ≤ |x|)

theorem kept (W : F.Within G) (hf : e'.ftz = none ∨ e.ftz.isSome = true) {c : Fl F} (hc : c.Finite)
    (h : e.ftz.isSome = true → ¬ c.Subnormal) : Kept G e' c.val := by
  refine ⟨widen W hc, hf.imp_right fun h1 => ?_⟩
  by_contra h2
  push Not at h2
  exact h h1 ⟨hc, h2.1, h2.2.trans_le (minNormal_le W)⟩

/-- Rounding to a number of the format. -/
theorem Kept.round {x : ℝ} (h : Kept G e' x) {m : RMode} {a : Fl G} (hr : Fl.RoundedBy m x a) : a.Finite ∧ a.val = x := by
  obtain ⟨⟨b, h1, h2⟩, -⟩ := h
  exact hr.faithful.exact h1 h2

variable {a' b' : Fl G}

theorem add_kept (ha : a'.Finite) (hb : b'.Finite) (h : Kept G e' (e'.val a' + e'.val b')) : e'.AddExact a' b' := by
  rw [add_iff ha hb]
  have hr := h.round (Fl.addBy_rounded (m := e'.mode) ((FpEnv.finite_seen e').mpr ha) ((FpEnv.finite_seen e').mpr hb))
  rw [FpEnv.add_normal (h.2.imp_right fun h1 => ?_)]
  · exact hr
  · rintro ⟨-, h2, h3⟩
    rw [hr.2] at h2 h3
    rcases h1 with h1 | h1
    · exact h2 h1
    · exact absurd h3 (not_lt.mpr h1)

theorem mul_kept (ha : a'.Finite) (hb : b'.Finite) (h : Kept G e' (e'.val a' * e'.val b')) : e'.MulExact a' b' := by
  rw [mul_iff ha hb]
  have hr := h.round (Fl.mulBy_rounded (m := e'.mode) ((FpEnv.finite_seen e').mpr ha) ((FpEnv.finite_seen e').mpr hb))
  rcases h.2 with h1 | h1 | h1
  · rw [FpEnv.mul_normal ha hb (.inl h1)]
    exact hr
  · rcases env_mul_cases (e := e') (a := a') (b := b') with h2 | ⟨s, h2⟩
    · rw [h2]
      exact hr
    · rw [h2, h1]
      exact nought_val s
  · rw [FpEnv.mul_normal ha hb (.inr h1)]
    exact hr

theorem env_div_cases : e'.div a' b' = Fl.divBy e'.mode (e'.seen a') (e'.seen b') ∨ ∃ s, e'.div a' b' = Fl.nought s := by
  unfold FpEnv.div
  split
  · next h1 h2 =>
    split
    · exact .inr ⟨_, rfl⟩
    · rw [h1, h2]
      exact .inl rfl
  · exact .inl rfl

theorem div_kept (ha : a'.Finite) (hb : b'.Finite) (h0 : e'.val b' ≠ 0) (h : Kept G e' (e'.val a' / e'.val b')) :
    e'.DivExact a' b' := by
  rw [div_iff ha hb]
  refine ⟨h0, ?_⟩
  have hr := h.round (Fl.divBy_rounded (m := e'.mode) ((FpEnv.finite_seen e').mpr ha) ((FpEnv.finite_seen e').mpr hb) h0)
  rcases h.2 with h1 | h1 | h1
  · rw [FpEnv.div_normal ha hb (.inl h1)]
    exact hr
  · rcases env_div_cases (e' := e') (a' := a') (b' := b') with h2 | ⟨s, h2⟩
    · rw [h2]
      exact hr
    · rw [h2, h1]
      exact nought_val s
  · rw [FpEnv.div_normal ha hb (.inr h1)]
    exact hr

theorem sqrt_kept (ha : a'.Finite) (h0 : 0 ≤ e'.val a') (h : ∃ b : Fl G, b.Finite ∧ b.val = Real.sqrt (e'.val a')) :
    e'.SqrtExact a' := by
  rw [sqrt_iff ha]
  obtain ⟨b, h1, h2⟩ := h
  exact ⟨h0, (Fl.sqrtBy_rounded (m := e'.mode) ((FpEnv.finite_seen e').mpr ha) h0).faithful.exact h1 h2⟩

/-! ## Simulation -/

/-- The same number. -/
scoped instance relCarry : Rel (Silent e F) (Silent e' G) :=
  ⟨fun (a : Fl F) (b : Fl G) => a.Finite ∧ b.Finite ∧ e.val a = e'.val b⟩

theorem sim_both {p q : Prop} [Decidable p] [Decidable q] {a : Fl F} {b : Fl G}
    (h : p → q ∧ a.Finite ∧ b.Finite ∧ e.val a = e'.val b) :
    SimRes (α := Silent e F) (β := Silent e' G) (guarded p a) (guarded q b) := by
  unfold guarded
  split
  · next hp =>
    rw [if_pos (h hp).1]
    exact sim_ok (h hp).2
  · exact sim_ub _ _

variable (W : F.Within G) (C : e.Carries e')

include W C

theorem add_carry {a b : Fl F} {a' b' : Fl G} (ha : a'.Finite) (hb : b'.Finite) (ea : e.val a = e'.val a')
    (eb : e.val b = e'.val b') (h : e.AddExact a b) :
    e'.AddExact a' b' ∧ (e.add a b).Finite ∧ (e'.add a' b').Finite ∧ e.val (e.add a b) = e'.val (e'.add a' b') := by
  have h1 := add_exact C.reads h
  have h2 := fun hf => FpEnv.add_flushed (e := e) hf a b
  have h3 : e'.AddExact a' b' := by
    refine add_kept ha hb ?_
    rw [← ea, ← eb, ← h1.2, val_kept C.reads h2]
    exact kept W C.flush h1.1 h2
  have h4 := add_exact C.reads' h3
  exact ⟨h3, h1.1, h4.1, by rw [h1.2, h4.2, ea, eb]⟩

theorem sim_add (a b : Fl F) (a' b' : Fl G) (ha : a'.Finite) (hb : b'.Finite) (ea : e.val a = e'.val a')
    (eb : e.val b = e'.val b') : SimRes (α := Silent e F) (β := Silent e' G) (e.sAdd a b) (e'.sAdd a' b') :=
  sim_both (add_carry W C ha hb ea eb)

theorem sim_sub (a b : Fl F) (a' b' : Fl G) (ha : a'.Finite) (hb : b'.Finite) (ea : e.val a = e'.val a')
    (eb : e.val b = e'.val b') : SimRes (α := Silent e F) (β := Silent e' G) (e.sSub a b) (e'.sSub a' b') :=
  sim_both (add_carry W C ha ((Fl.neg_finite b').mpr hb) ea (by rw [FpEnv.val_neg, FpEnv.val_neg, eb]))

theorem sim_mul (a b : Fl F) (a' b' : Fl G) (ha : a'.Finite) (hb : b'.Finite) (ea : e.val a = e'.val a')
    (eb : e.val b = e'.val b') : SimRes (α := Silent e F) (β := Silent e' G) (e.sMul a b) (e'.sMul a' b') := by
  refine sim_both fun h => ?_
  have h1 := mul_exact C.reads h
  have h2 := fun hf => FpEnv.mul_flushed (e := e) hf a b
  have h3 : e'.MulExact a' b' := by
    refine mul_kept ha hb ?_
    rw [← ea, ← eb, ← h1.2, val_kept C.reads h2]
    exact kept W C.flush h1.1 h2
  have h4 := mul_exact C.reads' h3
  exact ⟨h3, h1.1, h4.1, by rw [h1.2, h4.2, ea, eb]⟩

theorem div_carry {a b : Fl F} {a' b' : Fl G} (ha : a'.Finite) (hb : b'.Finite) (ea : e.val a = e'.val a')
    (eb : e.val b = e'.val b') (h : e.DivExact a b) :
    e'.DivExact a' b' ∧ (e.div a b).Finite ∧ (e'.div a' b').Finite ∧ e.val (e.div a b) = e'.val (e'.div a' b') := by
  have h1 := div_exact C.reads h
  have h2 := fun hf => FpEnv.div_flushed (e := e) hf a b
  have h3 : e'.DivExact a' b' := by
    refine div_kept ha hb (eb ▸ h1.2.1) ?_
    rw [← ea, ← eb, ← h1.2.2, val_kept C.reads h2]
    exact kept W C.flush h1.1 h2
  have h4 := div_exact C.reads' h3
  exact ⟨h3, h1.1, h4.1, by rw [h1.2.2, h4.2.2, ea, eb]⟩

theorem sim_divide (a b : Fl F) (a' b' : Fl G) (ha : a'.Finite) (hb : b'.Finite) (ea : e.val a = e'.val a')
    (eb : e.val b = e'.val b') : SimRes (α := Silent e F) (β := Silent e' G) (e.sDiv a b) (e'.sDiv a' b') :=
  sim_both (div_carry W C ha hb ea eb)

theorem sim_root (a : Fl F) (a' : Fl G) (ha : a'.Finite) (ea : e.val a = e'.val a') :
    SimRes (α := Silent e F) (β := Silent e' G) (e.sSqrt a) (e'.sSqrt a') := by
  refine sim_both fun h => ?_
  have h1 := sqrt_exact C.reads h
  have h3 : e'.SqrtExact a' := by
    refine sqrt_kept ha (ea ▸ h1.2.1) ?_
    obtain ⟨b, hb, hv⟩ := widen W ((FpEnv.finite_seen e).mpr h1.1)
    exact ⟨b, hb, hv.trans (h1.2.2.trans (by rw [ea]))⟩
  have h4 := sqrt_exact C.reads' h3
  exact ⟨h3, h1.1, h4.1, by rw [h1.2.2, h4.2.2, ea]⟩

theorem sim_size (a : Fl F) (a' : Fl G) (ha : a'.Finite) (ea : e.val a = e'.val a') (n : Nat) :
    SimRes (α := Silent e F) (β := Silent e' G) (e.sDivSize a n) (e'.sDivSize a' n) := by
  refine sim_both fun h => ?_
  have h1 := size_iff.mp h.1
  have h2 : e'.SizeExact G n := by
    rw [size_iff]
    obtain ⟨b, hb, hv⟩ := widen W h1.1
    have := (Fl.ofIntBy_rounded (F := G) (m := e'.mode) (n : Int)).faithful.exact hb (hv.trans (h1.2.trans (by simp)))
    simpa using this
  have h3 := size_iff.mp h2
  have h4 := div_carry W C ha h3.1 ea (by rw [size_exact h.1, size_exact h2]) h.2
  exact ⟨⟨h2, h4.1⟩, h4.2⟩

theorem simRing : SimRing (Silent e F) (Silent e' G) where
  init := ⟨(Fl.val_ofInt_exact (F := F) 0 (by simp)).1, (Fl.val_ofInt_exact (F := G) 0 (by simp)).1,
    (FpEnv.val_zero e).trans (FpEnv.val_zero e').symm⟩
  zero := ⟨(Fl.val_ofInt_exact (F := F) 0 (by simp)).1, (Fl.val_ofInt_exact (F := G) 0 (by simp)).1,
    (FpEnv.val_zero e).trans (FpEnv.val_zero e').symm⟩
  one := ⟨(Fl.val_ofInt_exact (F := F) 1 Nat.one_le_two_pow).1, (Fl.val_ofInt_exact (F := G) 1 Nat.one_le_two_pow).1,
    (FpEnv.val_one e).trans (FpEnv.val_one e').symm⟩
  minusOne := ⟨(Fl.val_ofInt_exact (F := F) (-1) Nat.one_le_two_pow).1,
    (Fl.val_ofInt_exact (F := G) (-1) Nat.one_le_two_pow).1, (FpEnv.val_neg_one e).trans (FpEnv.val_neg_one e').symm⟩
  add := by rintro a b a' b' ⟨_, ha, ea⟩ ⟨_, hb, eb⟩; exact sim_add W C _ _ _ _ ha hb ea eb
  sub := by rintro a b a' b' ⟨_, ha, ea⟩ ⟨_, hb, eb⟩; exact sim_sub W C _ _ _ _ ha hb ea eb
  mul := by rintro a b a' b' ⟨_, ha, ea⟩ ⟨_, hb, eb⟩; exact sim_mul W C _ _ _ _ ha hb ea eb

omit W C in
theorem simOrd : SimOrd (Silent e F) (Silent e' G) where
  eq := by
    rintro a b a' b' ⟨ha, ha', ea⟩ ⟨hb, hb', eb⟩
    show Fl.eq (e.seen (F := F) a) (e.seen (F := F) b) = Fl.eq (e'.seen (F := G) a') (e'.seen (F := G) b')
    rw [Bool.eq_iff_iff, Fl.eq_iff ((FpEnv.finite_seen e).mpr ha) ((FpEnv.finite_seen e).mpr hb),
      Fl.eq_iff ((FpEnv.finite_seen e').mpr ha') ((FpEnv.finite_seen e').mpr hb')]
    show e.val (F := F) a = e.val (F := F) b ↔ e'.val (F := G) a' = e'.val (F := G) b'
    rw [ea, eb]
  lt := by
    rintro a b a' b' ⟨ha, ha', ea⟩ ⟨hb, hb', eb⟩
    show Fl.lt (e.seen (F := F) a) (e.seen (F := F) b) = Fl.lt (e'.seen (F := G) a') (e'.seen (F := G) b')
    rw [Bool.eq_iff_iff, Fl.lt_iff ((FpEnv.finite_seen e).mpr ha) ((FpEnv.finite_seen e).mpr hb),
      Fl.lt_iff ((FpEnv.finite_seen e').mpr ha') ((FpEnv.finite_seen e').mpr hb')]
    show e.val (F := F) a < e.val (F := F) b ↔ e'.val (F := G) a' < e'.val (F := G) b'
    rw [ea, eb]
  abs := by
    rintro a a' ⟨ha, ha', ea⟩
    refine sim_ok ⟨(Fl.abs_finite (F := F) a).mpr ha, (Fl.abs_finite (F := G) a').mpr ha', ?_⟩
    exact (val_abs _).trans ((congrArg (fun x : ℝ => |x|) ea).trans (val_abs _).symm)

theorem simField : SimField (Silent e F) (Silent e' G) where
  div := by rintro a b a' b' ⟨_, ha, ea⟩ ⟨_, hb, eb⟩; exact sim_divide W C _ _ _ _ ha hb ea eb
  neg := by
    rintro a a' ⟨ha, ha', ea⟩
    refine sim_ok ⟨(Fl.neg_finite (F := F) a).mpr ha, (Fl.neg_finite (F := G) a').mpr ha', ?_⟩
    exact (FpEnv.val_neg e _).trans ((congrArg (fun x : ℝ => -x) ea).trans (FpEnv.val_neg e' _).symm)
  sqrt := by rintro a a' ⟨_, ha, ea⟩; exact sim_root W C _ _ ha ea

theorem sim_mean {r c : Nat} {A : Mat (Silent e F) r c} {A' : Mat (Silent e' G) r c} (hA : A ≈≈ A') :
    SimRes (mean A) (mean A') := by
  have := simRing W C
  unfold mean
  refine sim_bind (sim_forUp SimRing.zero fun _ _ _ h => sim_forUp h fun _ _ _ h => ?_) fun _ _ h =>
    sim_size W C _ _ h.2.1 h.2.2 _
  exact sim_bind (sim_rd hA _ _) fun _ _ h' => SimRing.add h h'

theorem sim_var {r c : Nat} {A : Mat (Silent e F) r c} {A' : Mat (Silent e' G) r c} (hA : A ≈≈ A') :
    SimRes (var A) (var A') := by
  have := simRing W C
  unfold var
  refine sim_bind (sim_mean W C hA) fun _ _ hm => ?_
  refine sim_bind (sim_forUp SimRing.zero fun _ _ _ h => sim_forUp h fun _ _ _ h => ?_) fun _ _ h =>
    sim_size W C _ _ h.2.1 h.2.2 _
  exact sim_bind (sim_rd hA _ _) fun _ _ x => sim_bind (SimRing.sub x hm) fun _ _ y => sim_bind (sim_rd hA _ _) fun _ _ x =>
    sim_bind (SimRing.sub x hm) fun _ _ y' => sim_bind (SimRing.mul y y') fun _ _ z => SimRing.add h z

theorem sim_stddev {r c : Nat} {A : Mat (Silent e F) r c} {A' : Mat (Silent e' G) r c} (hA : A ≈≈ A') :
    SimRes (stddev A) (stddev A') := by
  have := simField W C
  unfold stddev
  exact sim_bind (sim_var W C hA) fun _ _ h => SimField.sqrt h

/-! ## Results -/

omit W C

theorem mat_rel {r c : Nat} {A : Mat (Fl F) r c} {A' : Mat (Fl G) r c} (h : SameNumbers e e' A A') :
    Rel.rel (α := Mat (Silent e F) r c) (β := Mat (Silent e' G) r c) A A' :=
  fun i j => ⟨h.finite i j, h.finite' i j, congrFun (congrFun h.same i) j⟩

theorem rel_mat {r c : Nat} {A : Mat (Fl F) r c} {A' : Mat (Fl G) r c}
    (h : Rel.rel (α := Mat (Silent e F) r c) (β := Mat (Silent e' G) r c) A A') : SameNumbers e e' A A' :=
  ⟨fun i j => (h i j).1, fun i j => (h i j).2.1, Matrix.ext fun i j => (h i j).2.2⟩

theorem over {r c : Nat} {x : Res (Mat (Silent e F) r c)} {y : Res (Mat (Silent e' G) r c)} (h : SimRes x y) :
    CarriesOver x y :=
  ⟨fun R hx => by
    subst hx
    obtain ⟨R', hy, hr⟩ := h
    exact ⟨R', hy, rel_mat hr⟩,
  fun _ hs hx => stop h hx hs⟩

theorem number {x : Res (Silent e F)} {y : Res (Silent e' G)} (h : SimRes x y) : CarriesNumber x y :=
  ⟨fun R hx => by
    subst hx
    obtain ⟨R', hy, hr⟩ := h
    exact ⟨R', hy, hr⟩,
  fun _ hs hx => stop h hx hs⟩

end Carry

end MatrixLibs
