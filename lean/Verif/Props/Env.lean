import Verif.Props.Standard
import Verif.Proof.EnvOps
import Verif.Props.Preds
import Mathlib.LinearAlgebra.Matrix.Notation

/-!
# Property C151: floating point environments
-/

namespace MatrixLibs

set_option linter.unusedSectionVars false
set_option exponentiation.threshold 300

open Fl

variable {F : Fmt} {n m p r c : Nat} (e : FpEnv)

/-! ## The operations -/

/-- C151: without the switches the arithmetic is that of the rounding mode. -/
theorem C151_no_switch (m : RMode) (F : Fmt) : envScalar ⟨m, false, none⟩ F = modeScalar m F := FpEnv.no_flush m F

/-- C151: what operations read: a subnormal operand is a zero of its sign if DAZ is set, all else is read as it is. -/
theorem C151_operands (a : Fl F) :
    (e.daz = true → a.Subnormal → (e.seen a).Finite ∧ (e.seen a).val = 0 ∧ (e.seen a).signBit = a.signBit) ∧
    (e.daz = false ∨ ¬ a.Subnormal → e.seen a = a) := by
  refine ⟨fun h ha => ?_, fun h => ?_⟩
  · unfold FpEnv.seen
    rw [if_pos h]
    exact flush_of_subnormal ha
  · rcases h with h | h
    · unfold FpEnv.seen
      rw [h]
      rfl
    · exact FpEnv.seen_not_subnormal h

/-- C151: results in the normal range, and all results without FTZ, are those of the rounding mode on the operands as they
are read. -/
theorem C151_normal (a b : Fl F) (ha : a.Finite) (hb : b.Finite) :
    (e.ftz = none ∨ F.minNormal ≤ |e.val a + e.val b| →
      CScalar.add (T := InEnv e F) a b = .ok (addBy e.mode (e.seen a) (e.seen b))) ∧
    (e.ftz = none ∨ F.minNormal ≤ |e.val a - e.val b| →
      CScalar.sub (T := InEnv e F) a b = .ok (subBy e.mode (e.seen a) (e.seen b))) ∧
    (e.ftz = none ∨ F.minNormal ≤ |e.val a * e.val b| →
      CScalar.mul (T := InEnv e F) a b = .ok (mulBy e.mode (e.seen a) (e.seen b))) ∧
    (e.ftz = none ∨ F.minNormal ≤ |e.val a / e.val b| →
      CScalar.div (T := InEnv e F) a b = .ok (divBy e.mode (e.seen a) (e.seen b))) ∧
    CScalar.sqrt (T := InEnv e F) a = .ok (sqrtBy e.mode (e.seen a)) := by
  have ha' := (FpEnv.finite_seen e).mpr ha
  have hb' := (FpEnv.finite_seen e).mpr hb
  refine ⟨fun h => ?_, fun h => ?_, fun h => ?_, fun h => ?_, rfl⟩
  · exact congrArg Except.ok (FpEnv.add_normal (h.imp_right fun h => FpEnv.addBy_subnormal ha' hb' h))
  · have hb'' := (neg_finite _).mpr hb'
    refine congrArg Except.ok ((FpEnv.add_normal (b := b.neg) (h.imp_right fun h => ?_)).trans ?_)
    · rw [FpEnv.seen_neg]
      refine FpEnv.addBy_subnormal ha' hb'' ?_
      rw [neg_val, ← sub_eq_add_neg]
      exact h
    · rw [FpEnv.seen_neg]; rfl
  · exact congrArg Except.ok (FpEnv.mul_normal ha hb h)
  · exact congrArg Except.ok (FpEnv.div_normal ha hb h)

/-- C151: with FTZ no sum, difference, product or quotient is subnormal. -/
theorem C151_flushed (h : e.ftz ≠ none) (a b v : Fl F)
    (hv : CScalar.add (T := InEnv e F) a b = .ok v ∨ CScalar.sub (T := InEnv e F) a b = .ok v ∨
      CScalar.mul (T := InEnv e F) a b = .ok v ∨ CScalar.div (T := InEnv e F) a b = .ok v) : ¬ v.Subnormal := by
  have h : e.ftz.isSome = true := by cases he : e.ftz <;> simp_all
  have inj : ∀ {w : Fl F}, (Except.ok w : Res (Fl F)) = .ok v → w = v := fun h => by injection h
  rcases hv with hv | hv | hv | hv
  · rw [← inj hv]; exact FpEnv.add_flushed h a b
  · rw [← inj hv]; exact FpEnv.add_flushed h a b.neg
  · rw [← inj hv]; exact FpEnv.mul_flushed h a b
  · rw [← inj hv]; exact FpEnv.div_flushed h a b

/-- C151: exactly which products and quotients are flushed, and what the others are. -/
theorem C151_exactly (t : Tiny) (hf : e.ftz = some t) (a b : Fl F) (ha : a.Finite) (hb : b.Finite) :
    (FpEnv.Below t (e.mode.how (a.signBit ^^ b.signBit)) F |e.val a * e.val b| →
      CScalar.mul (T := InEnv e F) a b = .ok (nought (F := F) (a.signBit ^^ b.signBit))) ∧
    (¬ FpEnv.Below t (e.mode.how (a.signBit ^^ b.signBit)) F |e.val a * e.val b| →
      CScalar.mul (T := InEnv e F) a b = .ok (mulBy e.mode (e.seen a) (e.seen b))) ∧
    (e.val b ≠ 0 → FpEnv.Below t (e.mode.how (a.signBit ^^ b.signBit)) F |e.val a / e.val b| →
      CScalar.div (T := InEnv e F) a b = .ok (nought (F := F) (a.signBit ^^ b.signBit))) ∧
    (e.val b ≠ 0 → ¬ FpEnv.Below t (e.mode.how (a.signBit ^^ b.signBit)) F |e.val a / e.val b| →
      CScalar.div (T := InEnv e F) a b = .ok (divBy e.mode (e.seen a) (e.seen b))) :=
  ⟨fun h => congrArg Except.ok ((FpEnv.mul_exactly hf ha hb).1 h), fun h => congrArg Except.ok ((FpEnv.mul_exactly hf ha hb).2 h),
    fun h0 h => congrArg Except.ok ((FpEnv.div_exactly hf ha hb h0).1 h),
    fun h0 h => congrArg Except.ok ((FpEnv.div_exactly hf ha hb h0).2 h)⟩

/-- C151: comparisons of elements compare the numbers that are read. -/
theorem C151_less (a b : Fl F) (ha : a.Finite) (hb : b.Finite) :
    (CScalar.lt (T := InEnv e F) a b = true ↔ e.val a < e.val b) ∧ (CScalar.eq (T := InEnv e F) a b = true ↔ e.val a = e.val b) :=
  ⟨lt_iff ((FpEnv.finite_seen e).mpr ha) ((FpEnv.finite_seen e).mpr hb),
    eq_iff ((FpEnv.finite_seen e).mpr ha) ((FpEnv.finite_seen e).mpr hb)⟩

/-- C151: if tininess is detected before rounding, exact results below the normal range become zero. -/
theorem C151_before (hf : e.ftz = some .before) (a b : Fl F) (ha : a.Finite) (hb : b.Finite) :
    (|e.val a + e.val b| < F.minNormal → ∃ v : Fl F, CScalar.add (T := InEnv e F) a b = .ok v ∧ v.val = 0) ∧
    (|e.val a * e.val b| < F.minNormal → ∃ v : Fl F, CScalar.mul (T := InEnv e F) a b = .ok v ∧ v.val = 0) ∧
    (e.val b ≠ 0 → |e.val a / e.val b| < F.minNormal → ∃ v : Fl F, CScalar.div (T := InEnv e F) a b = .ok v ∧ v.val = 0) := by
  obtain ⟨h1, h2, h3⟩ := FpEnv.before_zero hf ha hb
  exact ⟨fun h => ⟨_, rfl, h1 h⟩, fun h => ⟨_, rfl, h2 h⟩, fun h0 h => ⟨_, rfl, h3 h0 h⟩⟩

/-- C151: an operation that raises no exception is the operation in the environment, and near the exact result. -/
theorem C151_near (a b v : Fl F) :
    (CScalar.add (T := Trapped e F) a b = .ok v → CScalar.add (T := InEnv e F) a b = .ok v ∧
      |e.val v - (e.val a + e.val b)| ≤ e.u F * |e.val a + e.val b| + e.eta F) ∧
    (CScalar.sub (T := Trapped e F) a b = .ok v → CScalar.sub (T := InEnv e F) a b = .ok v ∧
      |e.val v - (e.val a - e.val b)| ≤ e.u F * |e.val a - e.val b| + e.eta F) ∧
    (CScalar.mul (T := Trapped e F) a b = .ok v → CScalar.mul (T := InEnv e F) a b = .ok v ∧
      |e.val v - e.val a * e.val b| ≤ e.u F * |e.val a * e.val b| + e.eta F) ∧
    (CScalar.div (T := Trapped e F) a b = .ok v → CScalar.div (T := InEnv e F) a b = .ok v ∧ e.val b ≠ 0 ∧
      |e.val v - e.val a / e.val b| ≤ e.u F * |e.val a / e.val b| + e.eta F) ∧
    (CScalar.sqrt (T := Trapped e F) a = .ok v → CScalar.sqrt (T := InEnv e F) a = .ok v ∧ 0 ≤ e.val a ∧
      |e.val v - Real.sqrt (e.val a)| ≤ e.u F * e.val v) := by
  have he : e.e' F ≤ e.eta F := by rw [← e.eta_eq]; linarith [e.d'_nonneg (F := F)]
  have hd : e.d' F ≤ e.eta F := by rw [← e.eta_eq]; linarith [e.e'_nonneg (F := F)]
  refine ⟨fun h => ⟨env_num (sim_tAdd a b) h, ?_⟩, fun h => ⟨env_num (sim_tSub a b) h, ?_⟩, fun h => ⟨env_num (sim_tMul a b) h, ?_⟩,
    fun h => ⟨env_num (sim_tDiv a b) h, (trapDiv_near h).1, ?_⟩, fun h => ⟨env_num (sim_tSqrt a) h, (trapSqrt_near h).1, (trapSqrt_near h).2.2⟩⟩
  · linarith [(trapAdd_near h).err]
  · linarith [(trapSub_near h).err]
  · linarith [(trapMul_near h).err]
  · linarith [(trapDiv_near h).2.err]

/-! ## Calls without exceptions -/

section
variable {T : Type}

theorem ew_ok {f : Fin r → Fin c → Res T} {x : Res (Mat T r c)} (h : ElementwiseOf f x) {P : Mat T r c} (hP : x = .ok P) (i : Fin r)
    (j : Fin c) : f i j = .ok (P i j) := (h.1 P).mp hP i j
end

/-- C151: sums, differences and products with a scalar. -/
theorem C151_elementwise (A B P : Mat (Fl F) r c) (s : Fl F) :
    (sum (T := Trapped e F) A B = .ok P → sum (T := InEnv e F) A B = .ok P ∧ ∀ i j,
      |e.val (P i j) - (e.val (A i j) + e.val (B i j))| ≤ e.u F * |e.val (A i j) + e.val (B i j)| + e.eta F) ∧
    (sub (T := Trapped e F) A B = .ok P → sub (T := InEnv e F) A B = .ok P ∧ ∀ i j,
      |e.val (P i j) - (e.val (A i j) - e.val (B i j))| ≤ e.u F * |e.val (A i j) - e.val (B i j)| + e.eta F) ∧
    (multScalar (T := Trapped e F) A s = .ok P → multScalar (T := InEnv e F) A s = .ok P ∧ ∀ i j,
      |e.val (P i j) - e.val (A i j) * e.val s| ≤ e.u F * |e.val (A i j) * e.val s| + e.eta F) := by
  refine ⟨fun h => ⟨env_res (sim_sum (env_mat e A) (env_mat e B)) h, fun i j => ?_⟩,
    fun h => ⟨env_res (sim_sub (env_mat e A) (env_mat e B)) h, fun i j => ?_⟩,
    fun h => ⟨env_res (sim_multScalar (T := Trapped e F) (U := InEnv e F) (s := s) (s' := s) (env_mat e A) rfl) h, fun i j => ?_⟩⟩
  · exact ((C151_near e _ _ _).1 (ew_ok (sum_elementwise (T := Trapped e F) A B) h i j)).2
  · exact ((C151_near e _ _ _).2.1 (ew_ok (sub_elementwise (T := Trapped e F) A B) h i j)).2
  · exact ((C151_near e _ _ _).2.2.1 (ew_ok (multScalar_elementwise (T := Trapped e F) A s) h i j)).2

/-- C151: products. -/
theorem C151_mult (A : Mat (Fl F) n m) (B : Mat (Fl F) m p) (P : Mat (Fl F) n p) (hP : mult (T := Trapped e F) A B = .ok P) :
    mult (T := InEnv e F) A B = .ok P ∧ ∀ i j, |e.val (P i j) - ∑ k, e.val (A i k) * e.val (B k j)| ≤
      ((1 + e.u F) ^ m - 1) * (∑ k, |e.val (A i k)| * |e.val (B k j)|) + m * (1 + e.u F) ^ (m - 1) * e.eta F := by
  refine ⟨env_res (sim_mult (env_mat e A) (env_mat e B)) hP, fun i j => ?_⟩
  rw [← trapped_h]
  exact C150_mult (T := Trapped e F) A B P hP i j

/-- C151: convolutions. -/
theorem C151_conv2 (A : Mat (Fl F) r c) (k : Mat (Fl F) 3 3) (S : Mat (Fl F) r c) (hS : conv2 (T := Trapped e F) A k = .ok S)
    (hr : r ≤ 2 ^ 31) (hc : c ≤ 2 ^ 31) :
    conv2 (T := InEnv e F) A k = .ok S ∧ ∀ i j, |e.val (S i j) - correlateAt (A.map e.val) (k.map e.val) i.val j.val| ≤
      ((1 + e.u F) ^ 9 - 1) * correlateAt (A.map fun x => |e.val x|) (k.map fun x => |e.val x|) i.val j.val +
        9 * (1 + e.u F) ^ 8 * e.eta F := by
  refine ⟨env_res (sim_conv2 (env_mat e A) (env_mat e k)) hS, fun i j => ?_⟩
  rw [← trapped_h]
  exact C150_conv2 (T := Trapped e F) A k S hS hr hc i j

/-- C151: convolutions with a border. -/
theorem C151_conv2_full (A : Mat (Fl F) r c) (k : Mat (Fl F) 3 3) (S : Mat (Fl F) (r + 2) (c + 2))
    (hS : conv2_full (T := Trapped e F) A k = .ok S) (hr : r ≤ 2 ^ 31) (hc : c ≤ 2 ^ 31) :
    conv2_full (T := InEnv e F) A k = .ok S ∧ ∀ i j,
      |e.val (S i j) - correlateAt (A.map e.val) (k.map e.val) ((i.val : ℤ) - 1) ((j.val : ℤ) - 1)| ≤
      ((1 + e.u F) ^ 9 - 1) * correlateAt (A.map fun x => |e.val x|) (k.map fun x => |e.val x|) ((i.val : ℤ) - 1) ((j.val : ℤ) - 1) +
        9 * (1 + e.u F) ^ 8 * e.eta F := by
  refine ⟨env_res (sim_conv2_full (env_mat e A) (env_mat e k)) hS, fun i j => ?_⟩
  rw [← trapped_h]
  exact C150_conv2_full (T := Trapped e F) A k S hS hr hc i j

/-- C151: inner elements of convolutions. -/
theorem C151_conv2_valid (A : Mat (Fl F) (m + 2) (m + 2)) (k : Mat (Fl F) 3 3) (V : Mat (Fl F) m m)
    (hV : conv2_valid (T := Trapped e F) A k = .ok V) (hm : m + 2 ≤ 2 ^ 31) :
    conv2_valid (T := InEnv e F) A k = .ok V ∧ ∀ i j : Fin m,
      |e.val (V i j) - ∑ x : Fin 3, ∑ y : Fin 3,
          e.val (k x y) * e.val (A ⟨i.val + x.val, by omega⟩ ⟨j.val + y.val, by omega⟩)| ≤
      ((1 + e.u F) ^ 9 - 1) * (∑ x : Fin 3, ∑ y : Fin 3,
          |e.val (k x y)| * |e.val (A ⟨i.val + x.val, by omega⟩ ⟨j.val + y.val, by omega⟩)|) +
        9 * (1 + e.u F) ^ 8 * e.eta F := by
  refine ⟨env_res (sim_conv2_valid (env_mat e A) (env_mat e k)) hV, fun i j => ?_⟩
  rw [← trapped_h]
  exact C150_conv2_valid (T := Trapped e F) A k V hV hm i j

/-- C151: determinants of 2x2 matrices. -/
theorem C151_det2 (A : Mat (Fl F) 2 2) (D : Fl F) (hD : det (T := Trapped e F) A = .ok D) :
    det (T := InEnv e F) A = .ok D ∧ |e.val D - (A.map e.val).det| ≤
      ((1 + e.u F) ^ 2 - 1) * (|e.val (A 0 0)| * |e.val (A 1 1)| + |e.val (A 0 1)| * |e.val (A 1 0)|) +
        2 * (1 + e.u F) * e.eta F := by
  refine ⟨env_num (sim_det (env_mat e A)) hD, ?_⟩
  rw [← trapped_h]
  exact C150_det2 (T := Trapped e F) A D hD

/-- C151: determinants of 3x3 matrices. -/
theorem C151_det3 (A : Mat (Fl F) 3 3) (D : Fl F) (hD : det (T := Trapped e F) A = .ok D) :
    det (T := InEnv e F) A = .ok D ∧ |e.val D - (A.map e.val).det| ≤
      ((1 + e.u F) ^ 7 - 1) * Standard.perm3 (A.map e.val) +
        6 * (1 + e.u F) ^ 6 * (1 + |e.val (A 2 0)| + |e.val (A 2 1)| + |e.val (A 2 2)|) * e.eta F := by
  refine ⟨env_num (sim_det (env_mat e A)) hD, ?_⟩
  rw [← trapped_h]
  exact C150_det3 (T := Trapped e F) A D hD

/-- C151: means. -/
theorem C151_mean (A : Mat (Fl F) r c) (μ : Fl F) (hμ : mean (T := Trapped e F) A = .ok μ) (h0 : r * c ≠ 0) :
    mean (T := InEnv e F) A = .ok μ ∧ |e.val μ - (∑ a, ∑ b, e.val (A a b)) / ((r * c : Nat) : ℝ)| ≤
      ((1 + e.u F) ^ (r * c + 2) - 1) * ((∑ a, ∑ b, |e.val (A a b)|) / ((r * c : Nat) : ℝ)) +
        ((1 + e.u F) ^ (r * c + 1) + 1) * e.eta F := by
  refine ⟨env_num (env_mean (env_mat e A)) hμ, ?_⟩
  rw [← trapped_h]
  exact C150_mean (T := Trapped e F) A μ hμ h0

/-- C151: LU decompositions. -/
theorem C151_lu (A L U : Mat (Fl F) n n) (hlu : lu (T := Trapped e F) A = .ok (L, U)) :
    lu (T := InEnv e F) A = .ok (L, U) ∧ ∀ i j, |(∑ k, e.val (L i k) * e.val (U k j)) - e.val (A i j)| ≤
      ((1 + e.u F) ^ n - 1) * (∑ k, |e.val (L i k)| * |e.val (U k j)|) + (n + |e.val (U j j)|) * (1 + e.u F) ^ n * e.eta F := by
  refine ⟨env_pair (sim_lu (env_mat e A)) hlu, fun i j => ?_⟩
  rw [← trapped_h]
  exact C150_lu (T := Trapped e F) A L U hlu i j

/-- C151: Cholesky decompositions. -/
theorem C151_chol (A L : Mat (Fl F) n n) (hL : chol (T := Trapped e F) A = .ok L) :
    chol (T := InEnv e F) A = .ok L ∧ ∀ i j, j ≤ i → |(∑ k, e.val (L i k) * e.val (L j k)) - e.val (A i j)| ≤
      ((1 + e.u F) ^ (n + 2) - 1) * (∑ k, |e.val (L i k)| * |e.val (L j k)|) +
        (n + |e.val (L j j)|) * (1 + e.u F) ^ n * e.eta F := by
  refine ⟨env_res (sim_chol (env_mat e A)) hL, fun i j hij => ?_⟩
  rw [← trapped_h]
  exact C150_chol (T := Trapped e F) A L hL i j hij

/-! ## Comparisons, differences, subnormal elements -/

/-- C151: `==` compares the numbers that are read. -/
theorem C151_equal (A B : Mat (Fl F) r c) (hA : MatFinite A) (hB : MatFinite B) :
    ∃ b, arrayEq (T := InEnv e F) A B = .ok b ∧ (b = true ↔ ∀ i j, e.val (A i j) = e.val (B i j)) := by
  obtain ⟨b, hb, hk⟩ := arrayEq_ok (T := InEnv e F) A B
  refine ⟨b, hb, hk.trans (forall_congr' fun i => forall_congr' fun j => ?_)⟩
  exact eq_iff ((FpEnv.finite_seen e).mpr (hA i j)) ((FpEnv.finite_seen e).mpr (hB i j))

theorem subBy_zero {m : RMode} {a b : Fl F} (ha : a.Finite) (hb : b.Finite) :
    ((subBy m a b).Finite ∧ (subBy m a b).val = 0) ↔ a.val = b.val := by
  have hu := unit_posR F
  match a, b, ha, hb with
  | .fin s M hM, .fin t N hN, _, _ =>
    have hn : signed (!t) N = -signed t N := by cases t <;> simp [signed]
    have hv : (Fl.fin s M hM).val = (Fl.fin t N hN).val ↔ signed s M + signed (!t) N = 0 := by
      show (signed s M : ℝ) / F.unit = (signed t N : ℝ) / F.unit ↔ _
      rw [div_left_inj' hu.ne', Int.cast_inj, hn]
      omega
    rw [hv]
    unfold subBy neg addBy roundIntBy
    dsimp only
    set z := signed s M + signed (!t) N with hz
    by_cases hz0 : z = 0
    · rw [if_pos hz0]
      simp only [hz0, iff_true]
      unfold pack
      rw [dif_pos rep_zero]
      exact ⟨trivial, by rw [val_fin]; simp⟩
    · rw [if_neg hz0]
      simp only [hz0, iff_false]
      have hs := roundQuotBy_spec (F := F) (m.how (decide (z < 0))) (a := z.natAbs) (b := 1) (by omega)
      rw [Nat.cast_one, div_one] at hs
      have hX : (1 : ℝ) ≤ z.natAbs := by exact_mod_cast Int.natAbs_pos.mpr hz0
      have g : F.Grid 1 := grid_of_le Nat.one_le_two_pow
      set K := roundQuotBy (m.how (decide (z < 0))) F z.natAbs 1
      have hK : 1 ≤ K := by
        obtain ⟨-, hs⟩ := hs
        cases hh : m.how (decide (z < 0)) with
        | near => rw [hh] at hs; exact (Nearest.self g).mono hs (by exact_mod_cast hX)
        | trunc => rw [hh] at hs; exact hs.2 _ g (by exact_mod_cast hX)
        | away => rw [hh] at hs; exact_mod_cast hX.trans hs.1
      have nz : ∀ (s : Bool) (K : Nat) (h : F.Rep K), 1 ≤ K → (Fl.fin s K h).val ≠ 0 := by
        intro s K h hK h0
        have := abs_val_fin s K h
        rw [h0, abs_zero] at this
        have h1 : (0 : ℝ) < K := by exact_mod_cast hK
        have : 0 < (K : ℝ) / F.unit := by positivity
        linarith
      rintro ⟨hf, h0⟩
      unfold packBy at hf h0
      split at hf
      · next hr => rw [dif_pos hr] at h0; exact nz _ _ _ hK h0
      · next hr =>
        rw [dif_neg hr] at h0
        split at hf
        · next ht => rw [if_pos ht] at h0; exact nz _ _ _ (Nat.one_le_two_pow.trans (top_normal F)) h0
        · exact hf

/-- C151: without FTZ an element of `A - B` is a zero exactly if the two numbers that are read are equal. -/
theorem C151_difference (h : e.ftz = none) (A B : Mat (Fl F) r c) (hA : MatFinite A) (hB : MatFinite B) :
    ∃ D : Mat (Fl F) r c, sub (T := InEnv e F) A B = .ok D ∧
      ∀ i j, ((D i j).Finite ∧ (D i j).val = 0) ↔ e.val (A i j) = e.val (B i j) := by
  have hD := (sub_elementwise (T := InEnv e F) A B).eq_ok
    (R := fun i j => e.sub (F := F) (A i j) (B i j)) fun i j => rfl
  refine ⟨_, hD, fun i j => ?_⟩
  have h1 := ew_ok (sub_elementwise (T := InEnv e F) A B) hD i j
  rw [(C151_normal e (A i j) (B i j) (hA i j) (hB i j)).2.1 (.inl h)] at h1
  injection h1 with h1
  have h1 : subBy e.mode (e.seen (A i j)) (e.seen (B i j)) = e.sub (A i j) (B i j) := h1
  show ((e.sub (A i j) (B i j)).Finite ∧ (e.sub (A i j) (B i j)).val = 0) ↔ _
  rw [← h1]
  exact subBy_zero ((FpEnv.finite_seen e).mpr (hA i j)) ((FpEnv.finite_seen e).mpr (hB i j))

/-- One and a half times the smallest normal number. -/
def envNum : Mat (Fl binary32) 1 1 := !![.fin false (3 * 2 ^ 22) (by decide +kernel)]
/-- The smallest normal number. -/
def envMin : Mat (Fl binary32) 1 1 := !![.fin false (2 ^ 23) (by decide +kernel)]

/-- C151: with FTZ the difference of two different matrices can be zero. -/
theorem C151_difference_flushed (m : RMode) (d : Bool) (t : Tiny) :
    arrayEq (T := InEnv ⟨m, d, some t⟩ binary32) envNum envMin = .ok false ∧
      ∃ D : Mat (Fl binary32) 1 1, sub (T := InEnv ⟨m, d, some t⟩ binary32) envNum envMin = .ok D ∧ (D 0 0).val = 0 := by
  constructor
  · cases m <;> cases d <;> cases t <;> decide +kernel
  · refine ⟨Mat.const (nought false), ?_, val_nought false⟩
    cases m <;> cases d <;> cases t <;> decide +kernel

/-- The largest finite number. -/
def envTop : Mat (Fl binary32) 1 1 := !![.fin false binary32.top binary32.top_rep]
/-- Two. -/
def envTwo : Mat (Fl binary32) 1 1 := !![Fl.ofInt 2]

/-- C151: the condition on exceptions is needed: when rounding toward zero an overflow does not show in the result, which
is finite and wrong by a factor of two. -/
theorem C151_overflow : (∀ P, mult (T := Trapped ⟨.zero, false, none⟩ binary32) envTop envTwo ≠ .ok P) ∧
    ∃ P : Mat (Fl binary32) 1 1, mult (T := InEnv ⟨.zero, false, none⟩ binary32) envTop envTwo = .ok P ∧ (P 0 0).Finite ∧
      (P 0 0).val = (envTop 0 0).val ∧ (envTop 0 0).val * (envTwo 0 0).val = 2 * (P 0 0).val := by
  refine ⟨?_, envTop, ?_, trivial, rfl, ?_⟩
  · have : mult (T := Trapped ⟨.zero, false, none⟩ binary32) envTop envTwo = .error (.ub .domain) := by decide +kernel
    intro P h
    rw [this] at h
    cases h
  · decide +kernel
  · have : (envTwo 0 0).val = 2 := by
      have := (val_ofInt_exact (F := binary32) 2 (by decide)).2
      exact_mod_cast this
    rw [this, mul_comm]

/-- C151: with FTZ no element of a product is subnormal. -/
theorem C151_mult_flushed (h : e.ftz ≠ none) (A : Mat (Fl F) n m) (B : Mat (Fl F) m p) (P : Mat (Fl F) n p)
    (hP : mult (T := InEnv e F) A B = .ok P) (i : Fin n) (j : Fin p) : ¬ (P i j).Subnormal := by
  have h1 := ew_ok (mult_elementwise (T := InEnv e F) A B) hP i j
  unfold dotFrom at h1
  have h0 : ¬ (Fl.ofInt 0 : Fl F).Subnormal := by
    rw [show (Fl.ofInt 0 : Fl F) = nought false from ofInt_zero']
    exact FpEnv.nought_not_subnormal _
  have hw : wp (forUp 0 m (CScalar.ofInt 0 : InEnv e F) fun k acc => do
      let t ← CScalar.mul (← rd (T := InEnv e F) A i k) (← rd (T := InEnv e F) B k j)
      CScalar.add acc t) (fun s => ¬ Fl.Subnormal (F := F) s) fun _ => True := by
    refine wp_forUp (fun _ (s : InEnv e F) => ¬ Fl.Subnormal (F := F) s) (Nat.zero_le m) h0 (fun k s _ _ hs => ?_) fun s hs => hs
    rw [wp_bind]
    cases rd (T := InEnv e F) A i k with
    | error _ => trivial
    | ok a =>
      rw [wp_ok, wp_bind]
      cases rd (T := InEnv e F) B k j with
      | error _ => trivial
      | ok b =>
        rw [wp_ok, wp_bind]
        exact C151_flushed e h s (e.mul (F := F) a b) _ (.inl rfl)
  rw [h1] at hw
  exact hw

/-! ## Concrete cases -/

/-- `-ffast-math` on x86. -/
def envFast : FpEnv := ⟨.nearest, true, some .after⟩
/-- FZ on ARM, rounding downward. -/
def envArm : FpEnv := ⟨.down, true, some .before⟩

/-- A matrix with a subnormal element. -/
def envA : Mat (Fl binary32) 3 3 := !![.fin false 5 (by decide +kernel), Fl.ofInt 3, Fl.ofInt 1; Fl.ofInt 7, Fl.ofInt 5, Fl.ofInt 2;
  Fl.ofInt 1, Fl.ofInt 10, Fl.ofInt 3]
/-- A symmetric matrix. -/
def envS : Mat (Fl binary32) 3 3 := !![Fl.ofInt 7, Fl.ofInt 3, Fl.ofInt 1; Fl.ofInt 3, Fl.ofInt 11, Fl.ofInt 2;
  Fl.ofInt 1, Fl.ofInt 2, Fl.ofInt 10]

example : (envA 0 0).Subnormal := by
  show (Fl.fin false 5 _ : Fl binary32).Subnormal
  rw [subnormal_iff]
  decide
example : (mult (T := Trapped envFast binary32) envA envS).isOk ∧ (mult (T := Trapped envArm binary32) envA envS).isOk := by
  decide +kernel
example : (conv2 (T := Trapped envFast binary32) envA envS).isOk ∧ (conv2_full (T := Trapped envArm binary32) envA envS).isOk ∧
    (conv2_valid (T := Trapped envArm binary32) (n := 3) envA envS).isOk := by decide +kernel
example : (det (T := Trapped envFast binary32) envA).isOk ∧ (det (T := Trapped envArm binary32) envS).isOk ∧
    (det (T := Trapped envArm binary32) (envA.submatrix (Fin.castSucc : Fin 2 → Fin 3) Fin.castSucc)).isOk := by decide +kernel
example : (mean (T := Trapped envFast binary32) envA).isOk ∧ (mean (T := Trapped envArm binary32) envS).isOk := by decide +kernel
example : (lu (T := Trapped envFast binary32) envS).isOk ∧ (lu (T := Trapped envArm binary32) envS).isOk := by decide +kernel
example : (chol (T := Trapped envFast binary32) envS).isOk ∧ (chol (T := Trapped envArm binary32) envS).isOk := by decide +kernel
example : (sum (T := Trapped envFast binary32) envA envS).isOk ∧ (sub (T := Trapped envArm binary32) envA envS).isOk ∧
    (multScalar (T := Trapped envArm binary32) envA (Fl.ofInt 3 : Fl binary32)).isOk := by decide +kernel
example : MatFinite envA := fun i j => by fin_cases i <;> fin_cases j <;> decide +kernel
example : MatFinite envS := fun i j => by fin_cases i <;> fin_cases j <;> decide +kernel

end MatrixLibs
