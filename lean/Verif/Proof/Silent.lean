import Verif.Spec.Silent
import Verif.Proof.EnvOps
import Verif.Props.IntEnv

/-!
# Calls that raise no exception compute exactly
-/

namespace MatrixLibs

set_option linter.unusedSectionVars false

instance {F : Fmt} {r c : Nat} (A : Mat (Fl F) r c) : Decidable (AllFinite A) :=
  have : ∀ i, Decidable (∀ j : Fin c, (A i j).Finite) := fun _ => inferInstance
  inferInstanceAs (Decidable (∀ i : Fin r, (∀ j : Fin c, (A i j).Finite)))

namespace Silent
variable {e : FpEnv} {F : Fmt}

/-! ## The operations -/

theorem val_fin (s : Bool) (N : Nat) (h : F.Rep N) : (Fl.fin s N h).val = (Fl.signed s N : ℝ) / F.unit := rfl

theorem seen_abs (a : Fl F) : e.seen a.abs = (e.seen a).abs := by
  unfold FpEnv.seen
  split
  · cases a with
    | fin s N h =>
      unfold Fl.abs Fl.flush
      dsimp only
      split <;> rfl
    | inf s => rfl
    | nan => rfl
  · rfl

theorem val_abs (a : Fl F) : e.val a.abs = |e.val a| := by
  unfold FpEnv.val
  rw [seen_abs, Fl.abs_val]

/-- What is not subnormal is read as it is. -/
theorem val_kept (hd : e.ReadsResults) {a : Fl F} (h : e.ftz.isSome = true → ¬ a.Subnormal) : e.val a = a.val := by
  unfold FpEnv.val
  cases hdz : e.daz with
  | false => unfold FpEnv.seen; rw [hdz]; rfl
  | true => rw [FpEnv.seen_not_subnormal (h (hd hdz))]

theorem add_exact (hd : e.ReadsResults) {a b : Fl F} (h : e.AddExact a b) :
    (e.add a b).Finite ∧ e.val (e.add a b) = e.val a + e.val b := by
  have h0 := fun hf => FpEnv.add_flushed (e := e) hf a b
  rw [val_kept hd h0]
  unfold FpEnv.AddExact at h
  split at h
  · next s M hM t N hN x K hK h1 h2 h3 =>
    unfold FpEnv.val
    rw [h1, h2, h3]
    refine ⟨trivial, ?_⟩
    rw [val_fin, val_fin, val_fin, h, ← add_div, Int.cast_add]
  · exact h.elim

theorem sub_exact (hd : e.ReadsResults) {a b : Fl F} (h : e.AddExact a b.neg) :
    (e.sub a b).Finite ∧ e.val (e.sub a b) = e.val a - e.val b := by
  have := add_exact hd h
  rw [FpEnv.val_neg, ← sub_eq_add_neg] at this
  exact this

theorem mul_exact (hd : e.ReadsResults) {a b : Fl F} (h : e.MulExact a b) :
    (e.mul a b).Finite ∧ e.val (e.mul a b) = e.val a * e.val b := by
  have hu := Fl.unit_posR F
  have h0 := fun hf => FpEnv.mul_flushed (e := e) hf a b
  rw [val_kept hd h0]
  unfold FpEnv.MulExact at h
  split at h
  · next s M hM t N hN x K hK h1 h2 h3 =>
    unfold FpEnv.val
    rw [h1, h2, h3]
    refine ⟨trivial, ?_⟩
    have h' : (Fl.signed x K : ℝ) * F.unit = Fl.signed s M * Fl.signed t N := by exact_mod_cast h
    rw [val_fin, val_fin, val_fin]
    field_simp
    linarith
  · exact h.elim

theorem div_exact (hd : e.ReadsResults) {a b : Fl F} (h : e.DivExact a b) :
    (e.div a b).Finite ∧ e.val b ≠ 0 ∧ e.val (e.div a b) = e.val a / e.val b := by
  have hu := Fl.unit_posR F
  have h0 := fun hf => FpEnv.div_flushed (e := e) hf a b
  rw [val_kept hd h0]
  unfold FpEnv.DivExact at h
  split at h
  · next s M hM t N hN x K hK h1 h2 h3 =>
    unfold FpEnv.val
    rw [h1, h2, h3]
    have hn : (Fl.signed t N : ℝ) ≠ 0 := by exact_mod_cast h.1
    have h' : (Fl.signed x K : ℝ) * Fl.signed t N = Fl.signed s M * F.unit := by exact_mod_cast h.2
    rw [val_fin, val_fin, val_fin]
    refine ⟨trivial, div_ne_zero hn hu.ne', ?_⟩
    field_simp
    linarith
  · exact h.elim

theorem sqrt_exact (hd : e.ReadsResults) {a : Fl F} (h : e.SqrtExact a) :
    (e.sqrt a).Finite ∧ 0 ≤ e.val a ∧ e.val (e.sqrt a) = Real.sqrt (e.val a) := by
  have hu := Fl.unit_posR F
  have h0 : e.val (e.sqrt a) = (e.sqrt a).val := by
    cases hdz : e.daz with
    | false => unfold FpEnv.val FpEnv.seen; rw [hdz]; rfl
    | true =>
      refine val_kept hd fun _ => ?_
      have h1 : e.seen a = a.flush := by unfold FpEnv.seen; rw [hdz]; rfl
      have h2 : e.sqrt a = e.sqrt a.flush := by
        unfold FpEnv.sqrt
        rw [FpEnv.seen_flush hdz]
      rw [h2]
      exact FpEnv.sqrt_flushed _ (Fl.not_subnormal_flush a)
  rw [h0]
  unfold FpEnv.SqrtExact at h
  split at h
  · next s M hM x K hK h1 h2 =>
    unfold FpEnv.val
    rw [h1, h2]
    obtain ⟨p1, p2, p3⟩ := h
    have q1 : (0 : ℝ) ≤ Fl.signed s M := by exact_mod_cast p1
    have q2 : (0 : ℝ) ≤ Fl.signed x K := by exact_mod_cast p2
    have q3 : (Fl.signed x K : ℝ) * Fl.signed x K = Fl.signed s M * F.unit := by exact_mod_cast p3
    rw [val_fin, val_fin]
    refine ⟨trivial, by positivity, ?_⟩
    symm
    rw [Real.sqrt_eq_iff_mul_self_eq (by positivity) (by positivity)]
    field_simp
    nlinarith
  · exact h.elim

theorem size_exact {n : Nat} (h : e.SizeExact F n) : e.val (Fl.ofIntBy e.mode n : Fl F) = n := by
  have hu := Fl.unit_posR F
  have hv : (Fl.ofIntBy e.mode n : Fl F).val = (n : Int) := by
    unfold FpEnv.SizeExact at h
    split at h
    · next x K hK h1 =>
      rw [h1, val_fin, h]
      push_cast
      field_simp
    · exact h.elim
  unfold FpEnv.val
  rw [seen_int hv, hv]
  simp

theorem divSize_exact (hd : e.ReadsResults) {a : Fl F} {n : Nat}
    (h : e.SizeExact F n ∧ e.DivExact a (Fl.ofIntBy e.mode n)) :
    n ≠ 0 ∧ (e.div a (Fl.ofIntBy e.mode n)).Finite ∧ e.val (e.div a (Fl.ofIntBy e.mode n)) = e.val a / n := by
  obtain ⟨h1, h2, h3⟩ := div_exact hd h.2
  rw [size_exact h.1] at h2 h3
  exact ⟨by exact_mod_cast h2, h1, h3⟩

/-! ## What the conditions say -/

theorem returns_guarded (p : Prop) [Decidable p] {α : Type} (a : α) : (∃ v, guarded p a = .ok v) ↔ p := by
  unfold guarded
  split
  · next h => exact ⟨fun _ => h, fun _ => ⟨a, rfl⟩⟩
  · next h => exact ⟨fun h' => (by obtain ⟨v, hv⟩ := h'; cases hv), fun h' => (h h').elim⟩

/-- Finite numbers in units. -/
theorem finite_fin {a : Fl F} (h : a.Finite) : ∃ s N hN, a = .fin s N hN := by
  cases a with
  | fin s N hN => exact ⟨s, N, hN, rfl⟩
  | inf s => exact h.elim
  | nan => exact h.elim

theorem add_iff {a b : Fl F} (ha : a.Finite) (hb : b.Finite) :
    e.AddExact a b ↔ (e.add a b).Finite ∧ (e.add a b).val = e.val a + e.val b := by
  have hu := Fl.unit_posR F
  obtain ⟨s, M, hM, h1⟩ := finite_fin ((FpEnv.finite_seen e).mpr ha)
  obtain ⟨t, N, hN, h2⟩ := finite_fin ((FpEnv.finite_seen e).mpr hb)
  unfold FpEnv.AddExact FpEnv.val
  rw [h1, h2]
  cases e.add a b with
  | fin x K hK =>
    rw [val_fin, val_fin, val_fin, ← add_div, div_left_inj' hu.ne']
    exact ⟨fun h => ⟨trivial, by rw [h, Int.cast_add]⟩, fun h => by exact_mod_cast h.2⟩
  | inf x => exact ⟨fun h => h.elim, fun h => h.1.elim⟩
  | nan => exact ⟨fun h => h.elim, fun h => h.1.elim⟩

theorem sub_iff {a b : Fl F} (ha : a.Finite) (hb : b.Finite) :
    e.AddExact a b.neg ↔ (e.sub a b).Finite ∧ (e.sub a b).val = e.val a - e.val b := by
  have := add_iff (e := e) ha ((Fl.neg_finite b).mpr hb)
  rw [FpEnv.val_neg, ← sub_eq_add_neg] at this
  exact this

theorem mul_iff {a b : Fl F} (ha : a.Finite) (hb : b.Finite) :
    e.MulExact a b ↔ (e.mul a b).Finite ∧ (e.mul a b).val = e.val a * e.val b := by
  have hu := Fl.unit_posR F
  obtain ⟨s, M, hM, h1⟩ := finite_fin ((FpEnv.finite_seen e).mpr ha)
  obtain ⟨t, N, hN, h2⟩ := finite_fin ((FpEnv.finite_seen e).mpr hb)
  unfold FpEnv.MulExact FpEnv.val
  rw [h1, h2]
  cases e.mul a b with
  | fin x K hK =>
    rw [val_fin, val_fin, val_fin, div_mul_div_comm, div_eq_div_iff hu.ne' (mul_pos hu hu).ne', ← mul_assoc,
      mul_left_inj' hu.ne']
    exact ⟨fun h => ⟨trivial, by exact_mod_cast h⟩, fun h => by exact_mod_cast h.2⟩
  | inf x => exact ⟨fun h => h.elim, fun h => h.1.elim⟩
  | nan => exact ⟨fun h => h.elim, fun h => h.1.elim⟩

theorem div_iff {a b : Fl F} (ha : a.Finite) (hb : b.Finite) :
    e.DivExact a b ↔ e.val b ≠ 0 ∧ (e.div a b).Finite ∧ (e.div a b).val = e.val a / e.val b := by
  have hu := Fl.unit_posR F
  obtain ⟨s, M, hM, h1⟩ := finite_fin ((FpEnv.finite_seen e).mpr ha)
  obtain ⟨t, N, hN, h2⟩ := finite_fin ((FpEnv.finite_seen e).mpr hb)
  unfold FpEnv.DivExact FpEnv.val
  rw [h1, h2]
  cases e.div a b with
  | fin x K hK =>
    rw [val_fin, val_fin, val_fin, div_div_div_cancel_right₀ hu.ne', div_ne_zero_iff]
    constructor
    · rintro ⟨h0, h⟩
      have h0' : (Fl.signed t N : ℝ) ≠ 0 := by exact_mod_cast h0
      refine ⟨⟨h0', hu.ne'⟩, trivial, ?_⟩
      rw [div_eq_div_iff hu.ne' h0']
      exact_mod_cast h
    · rintro ⟨⟨h0, -⟩, -, h⟩
      rw [div_eq_div_iff hu.ne' h0] at h
      exact ⟨by exact_mod_cast h0, by exact_mod_cast h⟩
  | inf x => exact ⟨fun h => h.elim, fun h => h.2.1.elim⟩
  | nan => exact ⟨fun h => h.elim, fun h => h.2.1.elim⟩

theorem sqrt_iff {a : Fl F} (ha : a.Finite) :
    e.SqrtExact a ↔ 0 ≤ e.val a ∧ (e.sqrt a).Finite ∧ (e.sqrt a).val = Real.sqrt (e.val a) := by
  have hu := Fl.unit_posR F
  obtain ⟨s, M, hM, h1⟩ := finite_fin ((FpEnv.finite_seen e).mpr ha)
  unfold FpEnv.SqrtExact FpEnv.val
  rw [h1]
  cases e.sqrt a with
  | fin x K hK =>
    rw [val_fin, val_fin]
    constructor
    · rintro ⟨p1, p2, p3⟩
      have q1 : (0 : ℝ) ≤ Fl.signed s M := by exact_mod_cast p1
      have q2 : (0 : ℝ) ≤ Fl.signed x K := by exact_mod_cast p2
      have q3 : (Fl.signed x K : ℝ) * Fl.signed x K = Fl.signed s M * F.unit := by exact_mod_cast p3
      refine ⟨by positivity, trivial, ?_⟩
      symm
      rw [Real.sqrt_eq_iff_mul_self_eq (by positivity) (by positivity)]
      field_simp
      nlinarith
    · rintro ⟨p1, -, p3⟩
      have q1 : (0 : ℝ) ≤ Fl.signed s M := by
        have := mul_nonneg p1 hu.le
        rwa [div_mul_cancel₀ _ hu.ne'] at this
      have q2 : (0 : ℝ) ≤ Fl.signed x K := by
        have := mul_nonneg (p3 ▸ Real.sqrt_nonneg _ : (0 : ℝ) ≤ (Fl.signed x K : ℝ) / F.unit) hu.le
        rwa [div_mul_cancel₀ _ hu.ne'] at this
      have q3 : (Fl.signed x K : ℝ) * Fl.signed x K = Fl.signed s M * F.unit := by
        have := p3.symm
        rw [Real.sqrt_eq_iff_mul_self_eq p1 (by positivity)] at this
        field_simp at this
        nlinarith
      exact ⟨by exact_mod_cast q1, by exact_mod_cast q2, by exact_mod_cast q3⟩
  | inf x => exact ⟨fun h => h.elim, fun h => h.2.1.elim⟩
  | nan => exact ⟨fun h => h.elim, fun h => h.2.1.elim⟩

theorem size_iff {n : Nat} : e.SizeExact F n ↔
    (Fl.ofIntBy e.mode n : Fl F).Finite ∧ (Fl.ofIntBy e.mode n : Fl F).val = n := by
  have hu := Fl.unit_posR F
  unfold FpEnv.SizeExact
  cases (Fl.ofIntBy e.mode n : Fl F) with
  | fin x K hK =>
    rw [val_fin, div_eq_iff hu.ne']
    exact ⟨fun h => ⟨trivial, by exact_mod_cast h⟩, fun h => by exact_mod_cast h.2⟩
  | inf x => exact ⟨fun h => h.elim, fun h => h.1.elim⟩
  | nan => exact ⟨fun h => h.elim, fun h => h.1.elim⟩

theorem divSize_iff {a : Fl F} {n : Nat} (ha : a.Finite) : (e.SizeExact F n ∧ e.DivExact a (Fl.ofIntBy e.mode n)) ↔
    n ≠ 0 ∧ (Fl.ofIntBy e.mode n : Fl F).Finite ∧ (Fl.ofIntBy e.mode n : Fl F).val = n ∧
      (e.div a (Fl.ofIntBy e.mode n)).Finite ∧ (e.div a (Fl.ofIntBy e.mode n)).val = e.val a / n := by
  constructor
  · rintro ⟨h1, h2⟩
    have hs := size_iff.mp h1
    have := (div_iff ha hs.1).mp h2
    rw [size_exact h1] at this
    exact ⟨by exact_mod_cast this.1, hs.1, hs.2, this.2⟩
  · rintro ⟨h0, h1, h2, h3⟩
    have hs : e.SizeExact F n := size_iff.mpr ⟨h1, h2⟩
    refine ⟨hs, (div_iff ha h1).mpr ?_⟩
    rw [size_exact hs]
    exact ⟨by exact_mod_cast h0, h3⟩

/-! ## Simulation by the real numbers -/

/-- The real number that is read. -/
scoped instance relReal : Rel (Silent e F) ℝ := ⟨fun (a : Fl F) x => a.Finite ∧ e.val a = x⟩

theorem sim_guard {p : Prop} [Decidable p] {a : Fl F} {x : ℝ} (h : p → a.Finite ∧ e.val a = x) :
    SimRes (α := Silent e F) (β := ℝ) (guarded p a) (.ok x) := by
  unfold guarded
  split
  · next hp => exact sim_ok (h hp)
  · exact sim_ub _ _

theorem sim_sAdd (hd : e.ReadsResults) (a b : Fl F) :
    SimRes (α := Silent e F) (β := ℝ) (e.sAdd a b) (.ok (e.val a + e.val b)) := sim_guard (add_exact hd)

theorem sim_sSub (hd : e.ReadsResults) (a b : Fl F) :
    SimRes (α := Silent e F) (β := ℝ) (e.sSub a b) (.ok (e.val a - e.val b)) := sim_guard (sub_exact hd)

theorem sim_sMul (hd : e.ReadsResults) (a b : Fl F) :
    SimRes (α := Silent e F) (β := ℝ) (e.sMul a b) (.ok (e.val a * e.val b)) := sim_guard (mul_exact hd)

theorem lit_zero : Rel.rel (α := Silent e F) (β := ℝ) (CScalar.ofInt 0 : Silent e F) (CScalar.ofInt 0 : ℝ) :=
  ⟨(Fl.val_ofInt_exact (F := F) 0 (by simp)).1, (FpEnv.val_zero e).trans Int.cast_zero.symm⟩

theorem simRing (hd : e.ReadsResults) : SimRing (Silent e F) ℝ where
  init := ⟨(Fl.val_ofInt_exact (F := F) 0 (by simp)).1, FpEnv.val_zero e⟩
  zero := lit_zero
  one := ⟨(Fl.val_ofInt_exact (F := F) 1 Nat.one_le_two_pow).1, (FpEnv.val_one e).trans Int.cast_one.symm⟩
  minusOne := ⟨(Fl.val_ofInt_exact (F := F) (-1) Nat.one_le_two_pow).1,
    (FpEnv.val_neg_one e).trans (by show (-1 : ℝ) = ((-1 : Int) : ℝ); norm_num)⟩
  add := by rintro a b _ _ ⟨_, rfl⟩ ⟨_, rfl⟩; exact sim_sAdd hd _ _
  sub := by rintro a b _ _ ⟨_, rfl⟩ ⟨_, rfl⟩; exact sim_sSub hd _ _
  mul := by rintro a b _ _ ⟨_, rfl⟩ ⟨_, rfl⟩; exact sim_sMul hd _ _

theorem simOrd : SimOrd (Silent e F) ℝ where
  eq := by
    rintro a b _ _ ⟨ha, rfl⟩ ⟨hb, rfl⟩
    show Fl.eq (e.seen (F := F) a) (e.seen (F := F) b) = decide (e.val (F := F) a = e.val (F := F) b)
    rw [Bool.eq_iff_iff, Fl.eq_iff ((FpEnv.finite_seen e).mpr ha) ((FpEnv.finite_seen e).mpr hb), decide_eq_true_eq]
    rfl
  lt := by
    rintro a b _ _ ⟨ha, rfl⟩ ⟨hb, rfl⟩
    show Fl.lt (e.seen (F := F) a) (e.seen (F := F) b) = decide (e.val (F := F) a < e.val (F := F) b)
    rw [Bool.eq_iff_iff, Fl.lt_iff ((FpEnv.finite_seen e).mpr ha) ((FpEnv.finite_seen e).mpr hb), decide_eq_true_eq]
    rfl
  abs := by
    rintro a _ ⟨ha, rfl⟩
    exact sim_ok ⟨(Fl.abs_finite (F := F) a).mpr ha, val_abs _⟩

theorem simField (hd : e.ReadsResults) : SimField (Silent e F) ℝ where
  div := by
    rintro a b _ _ ⟨_, rfl⟩ ⟨_, rfl⟩
    show SimRes (α := Silent e F) (β := ℝ) (e.sDiv (F := F) a b : Res (Fl F))
      (if e.val (F := F) b = 0 then .error (.ub .divisionByZero) else .ok (e.val (F := F) a / e.val (F := F) b))
    unfold FpEnv.sDiv guarded
    split
    · next h =>
      obtain ⟨h1, h2, h3⟩ := div_exact hd h
      rw [if_neg h2]
      exact sim_ok ⟨h1, h3⟩
    · exact sim_ub _ _
  neg := by
    rintro a _ ⟨ha, rfl⟩
    exact sim_ok ⟨(Fl.neg_finite (F := F) a).mpr ha, FpEnv.val_neg e a⟩
  sqrt := by
    rintro a _ ⟨_, rfl⟩
    show SimRes (α := Silent e F) (β := ℝ) (e.sSqrt (F := F) a : Res (Fl F))
      (if 0 ≤ e.val (F := F) a then .ok (Real.sqrt (e.val (F := F) a)) else .error (.ub .domain))
    unfold FpEnv.sSqrt guarded
    split
    · next h =>
      obtain ⟨h1, h2, h3⟩ := sqrt_exact hd h
      rw [if_pos h2]
      exact sim_ok ⟨h1, h3⟩
    · exact sim_ub _ _

theorem sim_divSize (hd : e.ReadsResults) {a : Silent e F} {x : ℝ} (h : a ≈≈ x) (n : Nat) :
    SimRes (CScalar.divSize a n) (CScalar.divSize x n) := by
  obtain ⟨_, rfl⟩ := h
  show SimRes (α := Silent e F) (β := ℝ) (e.sDivSize (F := F) a n : Res (Fl F))
    (if n = 0 then .error (.ub .divisionByZero) else .ok (e.val (F := F) a / n))
  unfold FpEnv.sDivSize guarded
  split
  · next h =>
    obtain ⟨h1, h2⟩ := divSize_exact hd h
    rw [if_neg h1]
    exact sim_ok h2
  · exact sim_ub _ _

theorem sim_mean (hd : e.ReadsResults) {r c : Nat} {A : Mat (Silent e F) r c} {A' : Mat ℝ r c} (hA : A ≈≈ A') :
    SimRes (mean A) (mean A') := by
  have := simRing (F := F) hd
  unfold mean
  refine sim_bind (sim_forUp SimRing.zero fun _ _ _ h => sim_forUp h fun _ _ _ h => ?_) fun _ _ h => sim_divSize hd h _
  exact sim_bind (sim_rd hA _ _) fun _ _ h' => SimRing.add h h'

theorem sim_var (hd : e.ReadsResults) {r c : Nat} {A : Mat (Silent e F) r c} {A' : Mat ℝ r c} (hA : A ≈≈ A') :
    SimRes (var A) (var A') := by
  have := simRing (F := F) hd
  unfold var
  refine sim_bind (sim_mean hd hA) fun _ _ hm => ?_
  refine sim_bind (sim_forUp SimRing.zero fun _ _ _ h => sim_forUp h fun _ _ _ h => ?_) fun _ _ h => sim_divSize hd h _
  exact sim_bind (sim_rd hA _ _) fun _ _ x => sim_bind (SimRing.sub x hm) fun _ _ y => sim_bind (sim_rd hA _ _) fun _ _ x =>
    sim_bind (SimRing.sub x hm) fun _ _ y' => sim_bind (SimRing.mul y y') fun _ _ z => SimRing.add h z

theorem sim_stddev (hd : e.ReadsResults) {r c : Nat} {A : Mat (Silent e F) r c} {A' : Mat ℝ r c} (hA : A ≈≈ A') :
    SimRes (stddev A) (stddev A') := by
  have := simField (F := F) hd
  unfold stddev
  exact sim_bind (sim_var hd hA) fun _ _ h => SimField.sqrt h

/-! ## Simulation by the environment -/

/-- The same number. -/
scoped instance relEnv : Rel (Silent e F) (InEnv e F) := ⟨fun a b => Eq (α := Fl F) a b⟩

theorem sim_same {p : Prop} [Decidable p] (a : Fl F) :
    SimRes (α := Silent e F) (β := InEnv e F) (guarded p a) (.ok a) := by
  unfold guarded
  split
  · exact sim_ok rfl
  · exact sim_ub _ _

theorem env_sAdd (a b : Fl F) : SimRes (α := Silent e F) (β := InEnv e F) (e.sAdd a b) (.ok (e.add a b)) := sim_same _
theorem env_sSub (a b : Fl F) : SimRes (α := Silent e F) (β := InEnv e F) (e.sSub a b) (.ok (e.sub a b)) := sim_same _
theorem env_sMul (a b : Fl F) : SimRes (α := Silent e F) (β := InEnv e F) (e.sMul a b) (.ok (e.mul a b)) := sim_same _
theorem env_sDiv (a b : Fl F) : SimRes (α := Silent e F) (β := InEnv e F) (e.sDiv a b) (.ok (e.div a b)) := sim_same _
theorem env_sSqrt (a : Fl F) : SimRes (α := Silent e F) (β := InEnv e F) (e.sSqrt a) (.ok (e.sqrt a)) := sim_same _
theorem env_sDivSize (a : Fl F) (n : Nat) :
    SimRes (α := Silent e F) (β := InEnv e F) (e.sDivSize a n) (.ok (e.div a (Fl.ofIntBy e.mode n))) := sim_same _

scoped instance : SimRing (Silent e F) (InEnv e F) where
  init := rfl
  zero := rfl
  one := rfl
  minusOne := rfl
  add := by rintro a b _ _ ⟨⟩ ⟨⟩; exact env_sAdd a b
  sub := by rintro a b _ _ ⟨⟩ ⟨⟩; exact env_sSub a b
  mul := by rintro a b _ _ ⟨⟩ ⟨⟩; exact env_sMul a b

scoped instance : SimOrd (Silent e F) (InEnv e F) where
  eq := by rintro a b _ _ ⟨⟩ ⟨⟩; rfl
  lt := by rintro a b _ _ ⟨⟩ ⟨⟩; rfl
  abs := by rintro a _ ⟨⟩; exact sim_ok rfl

scoped instance : SimField (Silent e F) (InEnv e F) where
  div := by rintro a b _ _ ⟨⟩ ⟨⟩; exact env_sDiv a b
  neg := by rintro a _ ⟨⟩; exact sim_ok rfl
  sqrt := by rintro a _ ⟨⟩; exact env_sSqrt a

theorem same_mat (e : FpEnv) {r c : Nat} (A : Mat (Fl F) r c) :
    Rel.rel (α := Mat (Silent e F) r c) (β := Mat (InEnv e F) r c) A A := fun _ _ => rfl

theorem same_divSize (a : Fl F) (n : Nat) :
    SimRes (CScalar.divSize (T := Silent e F) a n) (CScalar.divSize (T := InEnv e F) a n) := env_sDivSize a n

theorem same_mean {r c : Nat} {A : Mat (Silent e F) r c} {B : Mat (InEnv e F) r c} (hA : A ≈≈ B) :
    SimRes (mean A) (mean B) := by
  unfold mean
  refine sim_bind (sim_forUp SimRing.zero fun _ _ _ h => sim_forUp h fun _ _ _ h => ?_) fun _ _ h => ?_
  · exact sim_bind (sim_rd hA _ _) fun _ _ h' => SimRing.add h h'
  · cases h
    exact same_divSize _ _

theorem same_var {r c : Nat} {A : Mat (Silent e F) r c} {B : Mat (InEnv e F) r c} (hA : A ≈≈ B) :
    SimRes (var A) (var B) := by
  unfold var
  refine sim_bind (same_mean hA) fun _ _ hm => ?_
  refine sim_bind (sim_forUp SimRing.zero fun _ _ _ h => sim_forUp h fun _ _ _ h => ?_) fun _ _ h => ?_
  · exact sim_bind (sim_rd hA _ _) fun _ _ x => sim_bind (SimRing.sub x hm) fun _ _ y =>
      sim_bind (sim_rd hA _ _) fun _ _ x => sim_bind (SimRing.sub x hm) fun _ _ y' =>
        sim_bind (SimRing.mul y y') fun _ _ z => SimRing.add h z
  · cases h
    exact same_divSize _ _

theorem same_stddev {r c : Nat} {A : Mat (Silent e F) r c} {B : Mat (InEnv e F) r c} (hA : A ≈≈ B) :
    SimRes (stddev A) (stddev B) := by
  unfold stddev
  exact sim_bind (same_var hA) fun _ _ h => SimField.sqrt h

/-! ## Results -/

theorem same_num {x : Res (Silent e F)} {y : Res (InEnv e F)} (h : SimRes x y) {a : Fl F} (hx : x = .ok a) : y = .ok a := by
  subst hx
  obtain ⟨b, hy, hab⟩ := h
  rw [hy]
  exact congrArg _ (Eq.symm hab)

theorem same_res {r c : Nat} {x : Res (Mat (Silent e F) r c)} {y : Res (Mat (InEnv e F) r c)} (h : SimRes x y)
    {A : Mat (Fl F) r c} (hx : x = .ok A) : y = .ok A := by
  subst hx
  obtain ⟨B, hy, hab⟩ := h
  rw [hy]
  exact congrArg _ (Matrix.ext fun i j => (hab i j).symm)

theorem same_pair {m n : Nat} {x : Res (Mat (Silent e F) m n × Mat (Silent e F) m n)}
    {y : Res (Mat (InEnv e F) m n × Mat (InEnv e F) m n)} (h : SimRes x y) {A B : Mat (Fl F) m n} (hx : x = .ok (A, B)) :
    y = .ok (A, B) := by
  subst hx
  obtain ⟨⟨A', B'⟩, hy, hA, hB⟩ := h
  rw [hy]
  have e1 : A' = A := Matrix.ext fun i j => (hA i j).symm
  have e2 : B' = B := Matrix.ext fun i j => (hB i j).symm
  rw [e1, e2]

theorem stop {α β : Type} [Rel α β] {x : Res α} {y : Res β} (h : SimRes x y) {s : Stop} (hx : x = .error s)
    (hs : ∀ k, s ≠ .ub k) : y = .error s := by
  subst hx
  rcases h with ⟨k, h⟩ | h
  · exact (hs k h).elim
  · exact h

theorem read_mat {r c : Nat} {A : Mat (Fl F) r c} (h : AllFinite A) :
    Rel.rel (α := Mat (Silent e F) r c) (β := Mat ℝ r c) A (e.read A) := fun i j => ⟨h i j, rfl⟩

theorem read_num {x : Res (Silent e F)} {y : Res ℝ} (h : SimRes x y) {a : Fl F} (hx : x = .ok a) :
    a.Finite ∧ y = .ok (e.val a) := by
  subst hx
  obtain ⟨b, hy, ha, rfl⟩ := h
  exact ⟨ha, hy⟩

theorem read_res {r c : Nat} {x : Res (Mat (Silent e F) r c)} {y : Res (Mat ℝ r c)} (h : SimRes x y)
    {A : Mat (Fl F) r c} (hx : x = .ok A) : AllFinite A ∧ y = .ok (e.read A) := by
  subst hx
  obtain ⟨B, hy, hab⟩ := h
  refine ⟨fun i j => (hab i j).1, ?_⟩
  rw [hy]
  exact congrArg _ (Matrix.ext fun i j => (hab i j).2.symm)

theorem read_pair {m n : Nat} {x : Res (Mat (Silent e F) m n × Mat (Silent e F) m n)} {y : Res (Mat ℝ m n × Mat ℝ m n)}
    (h : SimRes x y) {A B : Mat (Fl F) m n} (hx : x = .ok (A, B)) :
    AllFinite A ∧ AllFinite B ∧ y = .ok (e.read A, e.read B) := by
  subst hx
  obtain ⟨⟨A', B'⟩, hy, hA, hB⟩ := h
  have e1 : A' = e.read A := Matrix.ext fun i j => (hA i j).2.symm
  have e2 : B' = e.read B := Matrix.ext fun i j => (hB i j).2.symm
  rw [hy, e1, e2]
  exact ⟨fun i j => (hA i j).1, fun i j => (hB i j).1, rfl⟩

end Silent

end MatrixLibs
