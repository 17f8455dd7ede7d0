import Verif.Proof.Narrow
import Verif.Proof.Strassen
import Mathlib.Data.ZMod.Basic
import Mathlib.LinearAlgebra.Matrix.Notation

/-!
# Narrow integers: elementwise functions, products, quotients, absolute values
-/

namespace MatrixLibs

set_option linter.unusedSectionVars false
set_option linter.unusedSimpArgs false

open Promo (load store)
open CScalar (ofInt)

variable {t : Narrow} {i j n m p : Nat}

/-- An elementwise function whose element computations all return. -/
theorem wraps_of {x : Res (Mat (NInt t) i j)} {f : Fin i → Fin j → Res (NInt t)} {g : Fin i → Fin j → ℤ}
    (hx : ElementwiseOf f x) (h : ∀ a b, wp (f a b) (fun v => v.val ≡ g a b [ZMOD 2 ^ t.w]) (fun _ => False)) :
    ∃ R, x = .ok R ∧ WrapsTo R g := by
  choose R hR hg using fun a b => wp_total (h a b)
  exact ⟨.of R, (hx.1 _).mpr hR, hg⟩

/-- An elementwise function whose element computations may overflow. -/
theorem wraps_of_unless {x : Res (Mat (NInt t) i j)} {f : Fin i → Fin j → Res (NInt t)}
    {g : Fin i → Fin j → ℤ} {G : Prop} (hx : ElementwiseOf f x)
    (h : ∀ a b, wp (f a b) (fun v => v.val ≡ g a b [ZMOD 2 ^ t.w]) (OverflowUnless G)) :
    wp x (fun R => WrapsTo R g) (OverflowUnless G) := by
  cases hxe : x with
  | ok R =>
    rw [wp_ok]
    intro a b
    have := wp_ok_elim (h a b) ((hx.1 R).mp hxe a b)
    exact this
  | error e =>
    obtain ⟨a, b, hab, -⟩ := (hx.2 e).mp hxe
    exact wp_error_elim (h a b) hab

theorem wp_store {x : Res (SInt 32)} {v c : ℤ} {G : Prop} {E : Stop → Prop}
    (h : wp x (fun r => Bnd G r v c) E) :
    wp (do .ok (store (← x)) : Res (NInt t)) (fun z => z.val ≡ v [ZMOD 2 ^ t.w]) E := by
  rw [wp_bind]
  exact wp_mono h (fun r hr => by rw [wp_ok]; exact hr.store) (fun _ h => h)

theorem wp_always {α : Type} {x : Res α} {Q : α → Prop} (h : wp x Q (OverflowUnless True)) :
    wp x Q (fun _ => False) := wp_mono h (fun _ h => h) (fun _ h => h.2 trivial)

theorem guard16 (t : Narrow) : Guard t True 65535 := by
  intro _ x hx
  have := t.has_bounds hx
  rw [abs_le]
  omega

/-! ## Elementwise functions -/

/-- Sums and differences of narrow integer matrices always return, and every element is the exact one modulo
`2^w`. -/
theorem C88_add_sub (A B : Mat (NInt t) i j) :
    (∃ R, Promoted.sum A B = .ok R ∧ WrapsTo R fun a b => (A a b).val + (B a b).val) ∧
    (∃ R, Promoted.sub A B = .ok R ∧ WrapsTo R fun a b => (A a b).val - (B a b).val) :=
  ⟨wraps_of (Promoted.sum_elementwise A B) fun a b => wp_store (wp_always
      (Bnd.wp_add (Bnd.load (guard16 t) _) (Bnd.load (guard16 t) _) (by norm_num))),
   wraps_of (Promoted.sub_elementwise A B) fun a b => wp_store (wp_always
      (Bnd.wp_sub (Bnd.load (guard16 t) _) (Bnd.load (guard16 t) _) (by norm_num)))⟩

/-- The same with a scalar operand. -/
theorem C88_add_sub_scalar (A : Mat (NInt t) i j) (s : NInt t) :
    (∃ R, Promoted.sumScalar A s = .ok R ∧ WrapsTo R fun a b => (A a b).val + s.val) ∧
    (∃ R, Promoted.subScalar A s = .ok R ∧ WrapsTo R fun a b => (A a b).val - s.val) :=
  ⟨wraps_of (Promoted.sumScalar_elementwise A s) fun a b => wp_store (wp_always
      (Bnd.wp_add (Bnd.load (guard16 t) _) (Bnd.load (guard16 t) _) (by norm_num))),
   wraps_of (Promoted.subScalar_elementwise A s) fun a b => wp_store (wp_always
      (Bnd.wp_sub (Bnd.load (guard16 t) _) (Bnd.load (guard16 t) _) (by norm_num)))⟩

/-- `A++` and `A--` leave the operand alone and return it plus or minus one, modulo `2^w`. -/
theorem C88_inc_dec (A : Mat (NInt t) i j) :
    (∃ R, Promoted.opPostInc A = .ok (A, R) ∧ WrapsTo R fun a b => (A a b).val + 1) ∧
    (∃ R, Promoted.opPostDec A = .ok (A, R) ∧ WrapsTo R fun a b => (A a b).val - 1) := by
  have h1 : (Promoted.lit 1 : NInt t).val ≡ 1 [ZMOD 2 ^ t.w] := lit_modEq 1 (by norm_num) (by norm_num)
  obtain ⟨⟨R, hR, hw⟩, S, hS, hv⟩ := C88_add_sub_scalar A (Promoted.lit 1)
  refine ⟨⟨R, ?_, fun a b => (hw a b).trans (h1.add_left _)⟩, S, ?_, fun a b => (hv a b).trans (h1.sub_left _)⟩
  · unfold Promoted.opPostInc
    rw [hR, ok_bind]
  · unfold Promoted.opPostDec
    rw [hS, ok_bind]

/-- A product with a scalar returns exactly when every exact product is an `int`, with the exact elements modulo
`2^w`; otherwise it is a signed overflow, also for unsigned elements. -/
theorem C88_mul_scalar (A : Mat (NInt t) i j) (s : NInt t) :
    (∀ R, Promoted.multScalar A s = .ok R ↔
      (∀ a b, InRange 32 ((A a b).val * s.val)) ∧ WrapsTo R fun a b => (A a b).val * s.val) ∧
    (∀ e, Promoted.multScalar A s = .error e → e = .ub .signedOverflow) := by
  have he := Promoted.multScalar_elementwise A s
  have hf : ∀ a b, wp (do .ok (store (← CScalar.mul (load (A a b)) (load s))) : Res (NInt t))
      (fun v => InRange 32 ((A a b).val * s.val) ∧ v.val ≡ (A a b).val * s.val [ZMOD 2 ^ t.w])
      (fun e => e = .ub .signedOverflow) := by
    intro a b
    rw [wp_bind]
    show wp (SInt.checked ((A a b).val * s.val)) _ _
    refine wp_mono (checked_iff _) (fun r hr => ?_) (fun e h => h.1)
    rw [wp_ok]
    refine ⟨hr.2, ?_⟩
    have := store_modEq (t := t) r
    rwa [hr.1] at this
  refine ⟨fun R => ⟨fun hR => ⟨fun a b => ?_, fun a b => ?_⟩, fun ⟨h1, h2⟩ => (he.1 R).mpr fun a b => ?_⟩,
    fun e h => ?_⟩
  · exact (wp_ok_elim (hf a b) ((he.1 R).mp hR a b)).1
  · exact (wp_ok_elim (hf a b) ((he.1 R).mp hR a b)).2
  · show (do .ok (store (← (SInt.checked ((A a b).val * s.val) : Res (SInt 32)))) : Res (NInt t)) = _
    rw [checked_ok (h1 a b), ok_bind, store_eq]
    exact congrArg _ (NInt.ofInt_of_modEq (h2 a b))
  · obtain ⟨a, b, hab, -⟩ := (he.2 e).mp h
    have := wp_error_elim (hf a b) hab
    exact this

/-- For 8-bit and signed 16-bit elements the product with a scalar always returns. -/
theorem C88_mul_scalar_returns (ht : t.signed = true ∨ t.Is8) (A : Mat (NInt t) i j) (s : NInt t) :
    ∃ R, Promoted.multScalar A s = .ok R ∧ WrapsTo R fun a b => (A a b).val * s.val := by
  have hG : Guard t True 32768 := fun _ => guard_signed t ht
  exact wraps_of (Promoted.multScalar_elementwise A s) fun a b => wp_store (wp_always
    (Bnd.wp_mul (Bnd.load hG _) (Bnd.load hG _) (by norm_num)))

/-- Multiplying `unsigned short` elements can overflow `int`: 65535 * 65535 does. -/
theorem C88_uint16_overflow (A : Mat (NInt .uint16) (i + 1) (j + 1)) (s : NInt .uint16)
    (h : 2 ^ 31 ≤ (A 0 0).val * s.val) : Promoted.multScalar A s = .error (.ub .signedOverflow) := by
  cases hx : Promoted.multScalar A s with
  | ok R =>
    have := (((C88_mul_scalar A s).1 R).mp hx).1 0 0
    unfold InRange at this
    norm_num at this h
    omega
  | error e => rw [(C88_mul_scalar A s).2 e hx]

/-- `200 + 100` is stored in an `unsigned char` as `44`. -/
example : Promoted.sum (Mat.const ⟨200, by decide⟩ : Mat (NInt .uint8) 1 2) (Mat.const ⟨100, by decide⟩) =
    .ok (Mat.const ⟨44, by decide⟩) := by
  decide +kernel

/-! ## Products -/

theorem wp_dot_narrow {β : ℤ} {G : Prop} (hG : Guard t G β) (hβ : β + β * β ≤ 2147483647) (hβ0 : 0 ≤ β)
    (A : Mat (NInt t) n m) (B : Mat (NInt t) m p) (a : Fin n) (b : Fin p) :
    wp (Promoted.dotFrom A B (Promoted.lit 0) a b)
      (fun v => v.val ≡ (ints A * ints B) a b [ZMOD 2 ^ t.w]) (OverflowUnless G) := by
  have h := wp_sum_loop (s0 := (Promoted.lit 0 : NInt t)) (E := OverflowUnless G)
    (fun v : NInt t => ((v.val : ℤ) : ZMod (2 ^ t.w)))
    (fun k => (((A a k).val * (B k b).val : ℤ) : ZMod (2 ^ t.w)))
    (body := fun k acc => do
      let t ← CScalar.mul (load (← rd A a k)) (load (← rd B k b))
      .ok (store (← CScalar.add (load acc) t)))
    (fun k hk s => by
      rw [rd_eq a.2 hk, ok_bind, rd_eq hk b.2, ok_bind, wp_bind]
      refine wp_mono (Bnd.wp_mul (Bnd.load hG _) (Bnd.load hG _) (by nlinarith)) (fun q hq => ?_) (fun _ h => h)
      refine wp_mono (wp_store (t := t) (Bnd.wp_add (Bnd.load hG s) hq (by omega))) (fun v hv => ?_) (fun _ h => h)
      rw [← Int.cast_add]
      exact (ZMod.intCast_eq_intCast_iff _ _ _).mpr (by exact_mod_cast hv))
  refine wp_mono h (fun v hv => ?_) (fun _ h => h)
  rw [lit_zero, Int.cast_zero, zero_add, ← Int.cast_sum] at hv
  have := (ZMod.intCast_eq_intCast_iff _ _ _).mp hv
  push_cast at this
  exact this

theorem wp_mult_narrow {β : ℤ} {G : Prop} (hG : Guard t G β) (hβ : β + β * β ≤ 2147483647) (hβ0 : 0 ≤ β)
    (A : Mat (NInt t) n m) (B : Mat (NInt t) m p) :
    wp (Promoted.mult A B) (fun R => WrapsTo R (ints A * ints B)) (OverflowUnless G) :=
  wraps_of_unless (Promoted.mult_elementwise A B) fun a b => wp_dot_narrow hG hβ hβ0 A B a b

/-- For 8-bit and signed 16-bit elements `A * B` always returns the matrix product modulo `2^w`. -/
theorem C89_mul (ht : t.signed = true ∨ t.Is8) (A : Mat (NInt t) n m) (B : Mat (NInt t) m p) :
    ∃ R, Promoted.mult A B = .ok R ∧ WrapsTo R (ints A * ints B) :=
  wp_total (wp_always (wp_mult_narrow (fun _ => guard_signed t ht) (by norm_num) (by norm_num) A B))

/-- For every narrow type: what `A * B` returns is the matrix product modulo `2^w`, and it can only fail to return
by a signed overflow. -/
theorem C89_mul_value (A : Mat (NInt t) n m) (B : Mat (NInt t) m p) :
    (∀ R, Promoted.mult A B = .ok R → WrapsTo R (ints A * ints B)) ∧
    (∀ e, Promoted.mult A B = .error e → e = .ub .signedOverflow) := by
  have h := wp_mult_narrow (t := t) (G := False) (β := 0) (fun h => h.elim) (by norm_num) le_rfl A B
  exact ⟨fun R hR => by have := wp_ok_elim h hR; exact this, fun e he => (wp_error_elim h he).1⟩

/-- The conditions under which step `k` of the dot product stays inside `int`: the product, and the stored partial
sum plus the product. -/
def DotFitsInt (A : Mat (NInt t) n m) (B : Mat (NInt t) m p) (a : Fin n) (b : Fin p) (k : Fin m) : Prop :=
  InRange 32 ((A a k).val * (B k b).val) ∧
  ∀ s : NInt t, s.val ≡ ∑ k' ∈ Finset.Iio k, (A a k').val * (B k' b).val [ZMOD 2 ^ t.w] →
    InRange 32 (s.val + (A a k).val * (B k b).val)

theorem wp_dot_fits (A : Mat (NInt t) n m) (B : Mat (NInt t) m p) (a : Fin n) (b : Fin p) :
    wp (Promoted.dotFrom A B (Promoted.lit 0) a b)
      (fun _ => ∀ k, DotFitsInt A B a b k) (fun _ => ∃ k, ¬ DotFitsInt A B a b k) := by
  set F : Nat → ℤ := fun k => if hk : k < m then (A a ⟨k, hk⟩).val * (B ⟨k, hk⟩ b).val else 0 with hF
  have hFk : ∀ k : Fin m, F k.val = (A a k).val * (B k b).val := by
    intro k; simp [hF]
  have hIio : ∀ k : Fin m, ∑ k' ∈ Finset.Iio k, (A a k').val * (B k' b).val =
      ∑ x ∈ Finset.range k.val, F x := by
    intro k
    rw [← Nat.Iio_eq_range, ← Fin.map_valEmbedding_Iio, Finset.sum_map]
    exact Finset.sum_congr rfl (fun x _ => (hFk x).symm)
  unfold Promoted.dotFrom
  refine wp_forUp (fun k (acc : NInt t) => acc.val ≡ ∑ x ∈ Finset.range k, F x [ZMOD 2 ^ t.w] ∧
    ∀ k' : Fin m, k'.val < k → DotFitsInt A B a b k') (Nat.zero_le m) ⟨?_, ?_⟩ ?_ ?_
  · rw [Finset.range_zero, Finset.sum_empty, lit_zero]
  · intro k' h; omega
  · rintro k acc _ hk ⟨hacc, hfit⟩
    rw [rd_eq a.2 hk, ok_bind, rd_eq hk b.2, ok_bind, wp_bind]
    have huniq : ∀ s : NInt t, s.val ≡ ∑ k' ∈ Finset.Iio (⟨k, hk⟩ : Fin m), (A a k').val * (B k' b).val
        [ZMOD 2 ^ t.w] → s = acc := by
      intro s hs
      rw [hIio] at hs
      exact NInt.ext_val (t.has_unique s.has acc.has (hs.trans hacc.symm))
    refine wp_mono (checked_iff _) ?_ ?_
    · rintro q ⟨hq, hqr⟩
      rw [wp_bind]
      refine wp_mono (checked_iff _) ?_ ?_
      · rintro v ⟨hv, hvr⟩
        rw [wp_ok]
        have hv' : v.val = acc.val + F k := by rw [hv, hFk ⟨k, hk⟩, hq]; rfl
        refine ⟨?_, fun k' hk' => ?_⟩
        · rw [Finset.sum_range_succ]
          refine (store_modEq v).trans ?_
          rw [hv']
          exact hacc.add_right _
        · by_cases hkk : k'.val = k
          · have : k' = ⟨k, hk⟩ := Fin.ext hkk
            subst this
            refine ⟨hqr, fun s hs => ?_⟩
            rw [huniq s hs]
            rw [hq] at hvr
            exact hvr
          · exact hfit k' (by omega)
      · rintro e ⟨-, her⟩
        refine ⟨⟨k, hk⟩, fun hf => her ?_⟩
        have := hf.2 acc (by rw [hIio]; exact hacc)
        rw [hq]
        exact this
    · rintro e ⟨-, her⟩
      exact ⟨⟨k, hk⟩, fun hf => her hf.1⟩
  · rintro v ⟨-, hfit⟩
    exact fun k => hfit k k.2

/-- `A * B` returns exactly when no product and no stored partial sum plus product leaves `int`. -/
theorem C89_mul_returns_iff (A : Mat (NInt t) n m) (B : Mat (NInt t) m p) :
    (∃ R, Promoted.mult A B = .ok R) ↔ ∀ a b k, DotFitsInt A B a b k := by
  have he := Promoted.mult_elementwise A B
  constructor
  · rintro ⟨R, hR⟩ a b
    exact wp_ok_elim (wp_dot_fits A B a b) ((he.1 R).mp hR a b)
  · intro h
    cases hx : Promoted.mult A B with
    | ok R => exact ⟨R, rfl⟩
    | error e =>
      obtain ⟨a, b, hab, -⟩ := (he.2 e).mp hx
      obtain ⟨k, hk⟩ := wp_error_elim (wp_dot_fits A B a b) hab
      exact (hk (h a b k)).elim

/-! ## Strassen -/

theorem wp_strassen_narrow {G : Prop} (hG : Guard t G 255) (A B : Mat (NInt t) 2 2) :
    wp (Promoted.strassen A B) (fun R => WrapsTo R (ints A * ints B)) (OverflowUnless G) := by
  have l0 : (0 : Nat) < 2 := by norm_num
  have l1 : (1 : Nat) < 2 := by norm_num
  have L := Bnd.load hG
  unfold Promoted.strassen
  rw [rd_eq l0 l0, ok_bind, rd_eq l0 l1, ok_bind, rd_eq l1 l0, ok_bind, rd_eq l1 l1, ok_bind,
    rd_eq l0 l0, ok_bind, rd_eq l0 l1, ok_bind, rd_eq l1 l0, ok_bind, rd_eq l1 l1, ok_bind]
  dsimp only
  rw [wp_bind]
  refine wp_mono ((L _).wp_sub (L _) (by norm_num)) (fun x1 e1 => ?_) (fun _ h => h)
  rw [wp_bind]
  refine wp_mono ((L _).wp_mul e1 (by norm_num)) (fun M1 f1 => ?_) (fun _ h => h)
  rw [wp_bind]
  refine wp_mono ((L _).wp_add (L _) (by norm_num)) (fun x2 e2 => ?_) (fun _ h => h)
  rw [wp_bind]
  refine wp_mono (e2.wp_mul (L _) (by norm_num)) (fun M2 f2 => ?_) (fun _ h => h)
  rw [wp_bind]
  refine wp_mono ((L _).wp_add (L _) (by norm_num)) (fun x3 e3 => ?_) (fun _ h => h)
  rw [wp_bind]
  refine wp_mono (e3.wp_mul (L _) (by norm_num)) (fun M3 f3 => ?_) (fun _ h => h)
  rw [wp_bind]
  refine wp_mono ((L _).wp_sub (L _) (by norm_num)) (fun x4 e4 => ?_) (fun _ h => h)
  rw [wp_bind]
  refine wp_mono ((L _).wp_mul e4 (by norm_num)) (fun M4 f4 => ?_) (fun _ h => h)
  rw [wp_bind]
  refine wp_mono ((L _).wp_add (L _) (by norm_num)) (fun x5 e5 => ?_) (fun _ h => h)
  rw [wp_bind]
  refine wp_mono ((L _).wp_add (L _) (by norm_num)) (fun y5 g5 => ?_) (fun _ h => h)
  rw [wp_bind]
  refine wp_mono (e5.wp_mul g5 (by norm_num)) (fun M5 f5 => ?_) (fun _ h => h)
  rw [wp_bind]
  refine wp_mono ((L _).wp_sub (L _) (by norm_num)) (fun x6 e6 => ?_) (fun _ h => h)
  rw [wp_bind]
  refine wp_mono ((L _).wp_add (L _) (by norm_num)) (fun y6 g6 => ?_) (fun _ h => h)
  rw [wp_bind]
  refine wp_mono (e6.wp_mul g6 (by norm_num)) (fun M6 f6 => ?_) (fun _ h => h)
  rw [wp_bind]
  refine wp_mono ((L _).wp_sub (L _) (by norm_num)) (fun x7 e7 => ?_) (fun _ h => h)
  rw [wp_bind]
  refine wp_mono ((L _).wp_add (L _) (by norm_num)) (fun y7 g7 => ?_) (fun _ h => h)
  rw [wp_bind]
  refine wp_mono (e7.wp_mul g7 (by norm_num)) (fun M7 f7 => ?_) (fun _ h => h)
  rw [wp_bind]
  refine wp_mono ((L _).wp_add (L _) (by norm_num)) (fun p1 q1 => ?_) (fun _ h => h)
  rw [wp_bind]
  refine wp_mono (q1.wp_sub (L _) (by norm_num)) (fun p2 q2 => ?_) (fun _ h => h)
  rw [wp_bind]
  refine wp_mono (q2.wp_add (L _) (by norm_num)) (fun p3 q3 => ?_) (fun _ h => h)
  rw [wr_eq l0 l0, ok_bind, wp_bind]
  refine wp_mono ((L _).wp_add (L _) (by norm_num)) (fun p4 q4 => ?_) (fun _ h => h)
  rw [wr_eq l0 l1, ok_bind, wp_bind]
  refine wp_mono ((L _).wp_add (L _) (by norm_num)) (fun p5 q5 => ?_) (fun _ h => h)
  rw [wr_eq l1 l0, ok_bind, wp_bind]
  refine wp_mono ((L _).wp_add (L _) (by norm_num)) (fun p6 q6 => ?_) (fun _ h => h)
  rw [wp_bind]
  refine wp_mono ((L _).wp_add (L _) (by norm_num)) (fun p7 q7 => ?_) (fun _ h => h)
  rw [wp_bind]
  refine wp_mono (q6.wp_sub q7 (by norm_num)) (fun p8 q8 => ?_) (fun _ h => h)
  rw [wr_eq l1 l1, wp_ok]
  have z0 : (⟨0, l0⟩ : Fin 2) = 0 := rfl
  have z1 : (⟨1, l1⟩ : Fin 2) = 1 := rfl
  simp only [z0, z1] at *
  have k3 := q3.store (t := t)
  have k4 := q4.store (t := t)
  have k5 := q5.store (t := t)
  have k8 := q8.store (t := t)
  have m1 := f1.store (t := t)
  have m2 := f2.store (t := t)
  have m3 := f3.store (t := t)
  have m4 := f4.store (t := t)
  have m5 := f5.store (t := t)
  have m6 := f6.store (t := t)
  have m7 := f7.store (t := t)
  clear q1 q2 q3 q4 q5 q6 q7 q8 f1 f2 f3 f4 f5 f6 f7 e1 e2 e3 e4 e5 e6 e7 g5 g6 g7
  intro a b
  match a, b with
  | 0, 0 =>
    simp only [Matrix.of_apply, Matrix.mul_apply, Fin.sum_univ_two, ints, Matrix.map_apply, Fin.val_zero, Fin.val_one, and_self, one_ne_zero,
      zero_ne_one, and_true, and_false, if_true, if_false]
    refine k3.trans ((((m5.add m4).sub m2).add m6).trans ?_)
    exact congrArg (· % 2 ^ t.w) (by ring)
  | 0, 1 =>
    simp only [Matrix.of_apply, Matrix.mul_apply, Fin.sum_univ_two, ints, Matrix.map_apply, Fin.val_zero, Fin.val_one, and_self, one_ne_zero,
      zero_ne_one, and_true, and_false, if_true, if_false]
    refine k4.trans ((m1.add m2).trans ?_)
    exact congrArg (· % 2 ^ t.w) (by ring)
  | 1, 0 =>
    simp only [Matrix.of_apply, Matrix.mul_apply, Fin.sum_univ_two, ints, Matrix.map_apply, Fin.val_zero, Fin.val_one, and_self, one_ne_zero,
      zero_ne_one, and_true, and_false, if_true, if_false]
    refine k5.trans ((m3.add m4).trans ?_)
    exact congrArg (· % 2 ^ t.w) (by ring)
  | 1, 1 =>
    simp only [Matrix.of_apply, Matrix.mul_apply, Fin.sum_univ_two, ints, Matrix.map_apply, Fin.val_zero, Fin.val_one, and_self, one_ne_zero,
      zero_ne_one, and_true, and_false, if_true, if_false]
    refine k8.trans (((m1.add m5).sub (m3.add m7)).trans ?_)
    exact congrArg (· % 2 ^ t.w) (by ring)

/-- For 8-bit elements Strassen's product always returns what `A * B` returns. -/
theorem C89_strassen (h8 : t.Is8) (A B : Mat (NInt t) 2 2) : Promoted.strassen A B = Promoted.mult A B := by
  obtain ⟨R, hR, hw⟩ := wp_total (wp_always (wp_strassen_narrow (fun _ => guard8 t h8) A B))
  obtain ⟨S, hS, hv⟩ := C89_mul (Or.inr h8) A B
  rw [hR, hS, hw.unique hv]

/-- For every narrow type: whatever Strassen's product returns is the matrix product modulo `2^w`. -/
theorem C89_strassen_value (A B : Mat (NInt t) 2 2) :
    (∀ R, Promoted.strassen A B = .ok R → WrapsTo R (ints A * ints B)) ∧
    (∀ e, Promoted.strassen A B = .error e → e = .ub .signedOverflow) := by
  have h := wp_strassen_narrow (t := t) (G := False) (fun h => h.elim) A B
  exact ⟨fun R hR => by have := wp_ok_elim h hR; exact this, fun e he => (wp_error_elim h he).1⟩

/-- The 2x2 matrix of `short` all of whose elements are -32768. -/
def allMin16 : Mat (NInt .int16) 2 2 := Mat.const ⟨-32768, by decide⟩

/-- For `short` elements Strassen's product can overflow where `A * B` returns. -/
theorem C89_strassen_int16 :
    Promoted.strassen allMin16 allMin16 = .error (.ub .signedOverflow) ∧
    ∃ R, Promoted.mult allMin16 allMin16 = .ok R :=
  ⟨by decide +kernel, (C89_mul (Or.inl rfl) _ _).imp fun _ h => h.1⟩

/-- `100 * 2 + 100 * 2 = 400` is stored in a `signed char` as `-112`. -/
example : Promoted.mult (Mat.const ⟨100, by decide⟩ : Mat (NInt .int8) 1 2)
      (Mat.const ⟨2, by decide⟩ : Mat (NInt .int8) 2 1) = .ok (Mat.const ⟨-112, by decide⟩) := by
  decide +kernel

/-! ## Quotients and absolute values -/

/-- Division by a non-zero scalar always returns the truncated quotients; only the smallest value divided by -1,
whose quotient the type does not have, gives the smallest value again. -/
theorem C90_div (handled : Option Exc) (A : Mat (NInt t) i j) (s : NInt t) (hs : s.val ≠ 0) :
    ∃ R, Promoted.div handled A s = .ok R ∧ ∀ a b, (R a b).val =
      if (A a b).val = t.min ∧ s.val = -1 then t.min else (A a b).val.tdiv s.val := by
  have hs' : CScalar.eq (load s) (ofInt 0 : SInt 32) = false := by
    show decide (s.val = (ofInt 0 : SInt 32).val) = false
    rw [int_ofInt 0 (by norm_num) (by norm_num)]
    exact decide_eq_false hs
  have hq : ∀ a b, InRange 32 ((A a b).val.tdiv s.val) := by
    intro a b
    have h1 := t.has_bounds (A a b).has
    have h2 : ((A a b).val.tdiv s.val).natAbs ≤ (A a b).val.natAbs := Int.natAbs_tdiv_le_natAbs _ _
    exact inRange32 (by omega) (by omega)
  have hf : ∀ a b, (do .ok (store (← CScalar.div (load (A a b)) (load s))) : Res (NInt t)) =
      .ok (NInt.ofInt ((A a b).val.tdiv s.val)) := by
    intro a b
    show (do .ok (store (← (if s.val = 0 then .error (.ub .divisionByZero)
      else SInt.checked ((A a b).val.tdiv s.val) : Res (SInt 32)))) : Res (NInt t)) = _
    rw [if_neg hs, checked_ok (hq a b), ok_bind, store_eq]
  refine ⟨.of fun a b => NInt.ofInt ((A a b).val.tdiv s.val),
    ((Promoted.div_elementwise handled A s hs').1 _).mpr hf, fun a b => ?_⟩
  rw [Matrix.of_apply]
  obtain ⟨x, hx⟩ := A a b
  obtain ⟨y, hy⟩ := s
  dsimp only at hs ⊢
  have hpos : (0 : ℤ) < 2 ^ (t.w - 1) := by positivity
  have hpow : (2 : ℤ) ^ t.w = 2 * 2 ^ (t.w - 1) := by rw [← pow_succ', Nat.sub_add_cancel t.pos]
  split
  · next h =>
    obtain ⟨rfl, rfl⟩ := h
    have hsg : t.signed = true := by
      by_contra h
      have := t.unsigned_bounds (by simpa using h) hy
      omega
    rw [Int.tdiv_neg, Int.tdiv_one]
    refine t.has_unique (t.conv_has _) hx ((t.conv_modEq _).trans ?_)
    unfold Narrow.min
    rw [if_pos hsg, neg_neg, Int.modEq_iff_dvd, hpow]
    exact ⟨-1, by ring⟩
  · next h =>
    refine NInt.ofInt_val ?_
    have hle : (x.tdiv y).natAbs ≤ x.natAbs := Int.natAbs_tdiv_le_natAbs _ _
    by_cases hy1 : y = -1
    · subst hy1
      rw [Int.tdiv_neg, Int.tdiv_one]
      have hsg : t.signed = true := by
        by_contra h
        have := t.unsigned_bounds (by simpa using h) hy
        omega
      have hm : x ≠ t.min := fun e => h ⟨e, rfl⟩
      unfold Narrow.Has Narrow.min Narrow.max at *
      rw [if_pos hsg] at *
      rw [if_pos hsg] at *
      omega
    · by_cases hy2 : y = 1
      · subst hy2
        rw [Int.tdiv_one]
        exact hx
      · -- |y| ≥ 2 or x has the sign that keeps the quotient in range
        have habs : 2 ≤ y.natAbs := by omega
        have hq2 : (x.tdiv y).natAbs * 2 ≤ x.natAbs := by
          rw [Int.natAbs_tdiv]
          calc x.natAbs / y.natAbs * 2 ≤ x.natAbs / y.natAbs * y.natAbs := Nat.mul_le_mul_left _ habs
            _ ≤ x.natAbs := Nat.div_mul_le_self _ _
        cases hsg : t.signed with
        | true =>
          generalize x.tdiv y = q at *
          unfold Narrow.Has Narrow.min Narrow.max at *
          rw [if_pos hsg] at *
          rw [if_pos hsg] at *
          omega
        | false =>
          have hx0 := t.unsigned_bounds hsg hx
          have hy0 := t.unsigned_bounds hsg hy
          have : 0 ≤ x.tdiv y := Int.tdiv_nonneg hx0 hy0
          generalize x.tdiv y = q at *
          unfold Narrow.Has Narrow.min Narrow.max at *
          simp only [hsg] at *
          norm_num at *
          omega

/-- Division by zero ends the program, or rethrows the exception being handled. -/
theorem C90_div_zero (A : Mat (NInt t) i j) (s : NInt t) (hs : s.val = 0) :
    Promoted.div none A s = .error .terminates ∧
    ∀ e, Promoted.div (some e) A s = .error (.throws e) := by
  have hs' : CScalar.eq (load s) (ofInt 0 : SInt 32) = true := by
    show decide (s.val = (ofInt 0 : SInt 32).val) = true
    rw [int_ofInt 0 (by norm_num) (by norm_num)]
    exact decide_eq_true hs
  constructor
  · unfold Promoted.div
    rw [if_pos hs']
    rfl
  · intro e
    unfold Promoted.div
    rw [if_pos hs']
    rfl

/-- `abs` always returns, also for unsigned elements. Every element is the absolute value, except that the
smallest value of a signed type, whose absolute value the type does not have, stays as it is. -/
theorem C90_abs (A : Mat (NInt t) i j) :
    ∃ R, Promoted.abs A = .ok R ∧ ∀ a b, (R a b).val =
      if (A a b).val = t.min then t.min else |(A a b).val| := by
  have hf : ∀ a b, (do .ok (store (← CScalar.abs (load (A a b)))) : Res (NInt t)) =
      .ok (NInt.ofInt |(A a b).val|) := by
    intro a b
    have h1 := t.has_bounds (A a b).has
    show (do .ok (store (← (SInt.checked |(A a b).val| : Res (SInt 32)))) : Res (NInt t)) = _
    rw [checked_ok (inRange32 (by have := abs_nonneg (A a b).val; omega) (abs_le.mpr ⟨by omega, by omega⟩)),
      ok_bind, store_eq]
  refine ⟨.of fun a b => NInt.ofInt |(A a b).val|, ((Promoted.abs_elementwise A).1 _).mpr hf, fun a b => ?_⟩
  rw [Matrix.of_apply]
  obtain ⟨x, hx⟩ := A a b
  dsimp only
  have hpow : (2 : ℤ) ^ t.w = 2 * 2 ^ (t.w - 1) := by rw [← pow_succ', Nat.sub_add_cancel t.pos]
  have hpos : (0 : ℤ) < 2 ^ (t.w - 1) := by positivity
  split
  · next h =>
    subst h
    refine t.has_unique (t.conv_has _) hx ((t.conv_modEq _).trans ?_)
    unfold Narrow.min
    split
    · rw [abs_neg, abs_of_pos hpos, Int.modEq_iff_dvd, hpow]
      exact ⟨-1, by ring⟩
    · rw [abs_zero]
  · next h =>
    refine NInt.ofInt_val ?_
    unfold Narrow.Has Narrow.min Narrow.max at *
    split at hx
    · next hsg =>
      rw [if_pos hsg] at *
      rw [if_pos hsg] at *
      rcases abs_cases x with ⟨h1, h2⟩ | ⟨h1, h2⟩ <;> omega
    · next hsg =>
      rw [if_neg hsg] at *
      rw [if_neg hsg] at *
      rcases abs_cases x with ⟨h1, h2⟩ | ⟨h1, h2⟩ <;> omega

/-! ## Examples -/

/-- Two 8-bit pixels added: 200 + 100 is 44. -/
example : Promoted.sum (Mat.const ⟨200, by decide⟩ : Mat (NInt .uint8) 1 1) (Mat.const ⟨100, by decide⟩) =
    .ok (Mat.const ⟨44, by decide⟩) := by decide +kernel

/-- The hypothesis of `C88_uint16_overflow`. -/
example : Promoted.multScalar (Mat.const ⟨65535, by decide⟩ : Mat (NInt .uint16) 1 1) ⟨65535, by decide⟩ =
    .error (.ub .signedOverflow) := C88_uint16_overflow _ _ (by decide)

/-- 16 * 16 is 0 modulo 256. -/
example : Promoted.mult (Mat.const ⟨16, by decide⟩ : Mat (NInt .uint8) 1 1) (Mat.const ⟨16, by decide⟩) =
    (.ok (Mat.const ⟨0, by decide⟩) : Res (Mat (NInt .uint8) 1 1)) := by decide +kernel

example : Promoted.div none (Mat.const ⟨-128, by decide⟩ : Mat (NInt .int8) 1 1) ⟨-1, by decide⟩ =
    .ok (Mat.const ⟨-128, by decide⟩) := by decide +kernel

example : Promoted.abs (Mat.const ⟨-128, by decide⟩ : Mat (NInt .int8) 1 1) =
    .ok (Mat.const ⟨-128, by decide⟩) := by decide +kernel

end MatrixLibs
