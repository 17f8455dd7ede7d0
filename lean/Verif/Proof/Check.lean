import Verif.Proof.StandardStats
import Verif.Proof.StandardLu
import Verif.Proof.EnvOps
import Verif.Proof.Scan
import Verif.Proof.Nested

/-!
# Checking results: products of factors, inverses and solutions in the standard model, and `compare` in an environment
-/

namespace MatrixLibs

set_option linter.unusedSectionVars false

open CScalar (ofInt)

namespace Standard

variable {T : Type} [Inhabited T] [CScalar T] [Standard T] {n p : Nat}

theorem pow_pred_le (n : Nat) : (1 + u T) ^ (n - 1) ≤ (1 + u T) ^ n := by
  have hu := u_nonneg (T := T)
  exact pow_le_pow_right₀ (by linarith) (Nat.sub_le n 1)

theorem lu_product_err {A L U P : Mat T n n} (hlu : lu A = .ok (L, U)) (hP : mult L U = .ok P) (i j : Fin n) :
    |val (P i j) - val (A i j)| ≤ 2 * ((1 + u T) ^ n - 1) * (∑ k, |val (L i k)| * |val (U k j)|) +
      (2 * n + |val (U j j)|) * (1 + u T) ^ n * h T := by
  have h1 := lu_err hlu i j
  have h2 := mult_err hP i j
  have h3 := abs_sub_le (val (P i j)) (∑ k, val (L i k) * val (U k j)) (val (A i j))
  have h4 : (n : ℝ) * (1 + u T) ^ (n - 1) * h T ≤ n * (1 + u T) ^ n * h T := by
    have := pow_pred_le (T := T) n
    have := h_nonneg (T := T)
    gcongr
  linarith

theorem chol_product_err {A L P : Mat T n n} (hL : chol A = .ok L) (hP : mult L L.transpose = .ok P)
    (hA : ∀ i j, val (A i j) = val (A j i)) (i j : Fin n) :
    |val (P i j) - val (A i j)| ≤ ((1 + u T) ^ n + (1 + u T) ^ (n + 2) - 2) * (∑ k, |val (L i k)| * |val (L j k)|) +
      (2 * n + |val (L (min i j) (min i j))|) * (1 + u T) ^ n * h T := by
  have h1 : |(∑ k, val (L i k) * val (L j k)) - val (A i j)| ≤
      ((1 + u T) ^ (n + 2) - 1) * (∑ k, |val (L i k)| * |val (L j k)|) +
        (n + |val (L (min i j) (min i j))|) * (1 + u T) ^ n * h T := by
    rcases le_total j i with h | h
    · rw [min_eq_right h]
      exact chol_err hL i j h
    · rw [min_eq_left h, hA i j]
      have := chol_err hL j i h
      rw [Finset.sum_congr rfl fun k _ => mul_comm (val (L j k)) (val (L i k)),
        Finset.sum_congr rfl fun k _ => mul_comm |val (L j k)| |val (L i k)|] at this
      exact this
  have h2 := mult_err hP i j
  simp only [Matrix.transpose_apply] at h2
  have h3 := abs_sub_le (val (P i j)) (∑ k, val (L i k) * val (L j k)) (val (A i j))
  have h4 : (n : ℝ) * (1 + u T) ^ (n - 1) * h T ≤ n * (1 + u T) ^ n * h T := by
    have := pow_pred_le (T := T) n
    have := h_nonneg (T := T)
    gcongr
  linarith

/-- A product with an approximation of the second factor. -/
theorem mult_near_err {m : Nat} {A : Mat T n m} {B : Mat T m p} {P : Mat T n p} (hP : mult A B = .ok P) {X : Mat ℝ m p}
    {β : Fin m → Fin p → ℝ} (hβ : ∀ i j, |val (B i j) - X i j| ≤ β i j) (i : Fin n) (j : Fin p) :
    |val (P i j) - (A.map val * X) i j| ≤ (∑ k, |val (A i k)| * β k j) +
      ((1 + u T) ^ m - 1) * (∑ k, |val (A i k)| * |val (B k j)|) + m * (1 + u T) ^ (m - 1) * h T := by
  have h2 := mult_err hP i j
  have h3 := abs_sub_le (val (P i j)) (∑ k, val (A i k) * val (B k j)) ((A.map val * X) i j)
  have h4 : |(∑ k, val (A i k) * val (B k j)) - (A.map val * X) i j| ≤ ∑ k, |val (A i k)| * β k j := by
    rw [Matrix.mul_apply, ← Finset.sum_sub_distrib]
    refine (Finset.abs_sum_le_sum_abs _ _).trans (Finset.sum_le_sum fun k _ => ?_)
    rw [Matrix.map_apply, ← mul_sub, abs_mul]
    exact mul_le_mul_of_nonneg_left (hβ k j) (abs_nonneg _)
  linarith

/-- A product with an approximation of the first factor. -/
theorem mult_near_err' {m : Nat} {A : Mat T n m} {B : Mat T m p} {P : Mat T n p} (hP : mult A B = .ok P) {X : Mat ℝ n m}
    {β : Fin n → Fin m → ℝ} (hβ : ∀ i j, |val (A i j) - X i j| ≤ β i j) (i : Fin n) (j : Fin p) :
    |val (P i j) - (X * B.map val) i j| ≤ (∑ k, β i k * |val (B k j)|) +
      ((1 + u T) ^ m - 1) * (∑ k, |val (A i k)| * |val (B k j)|) + m * (1 + u T) ^ (m - 1) * h T := by
  have h2 := mult_err hP i j
  have h3 := abs_sub_le (val (P i j)) (∑ k, val (A i k) * val (B k j)) ((X * B.map val) i j)
  have h4 : |(∑ k, val (A i k) * val (B k j)) - (X * B.map val) i j| ≤ ∑ k, β i k * |val (B k j)| := by
    rw [Matrix.mul_apply, ← Finset.sum_sub_distrib]
    refine (Finset.abs_sum_le_sum_abs _ _).trans (Finset.sum_le_sum fun k _ => ?_)
    rw [Matrix.map_apply, ← sub_mul, abs_mul]
    exact mul_le_mul_of_nonneg_right (hβ i k) (abs_nonneg _)
  linarith

end Standard

section
variable {e : FpEnv} {F : Fmt} {r c n m p : Nat}

namespace FpEnv
open Fl

theorem abs_flush_le (a : Fl F) : |a.flush.val| ≤ |a.val| := by
  cases a with
  | fin s N h =>
    rw [flush_fin]
    split
    · rw [val_nought, abs_zero]
      exact abs_nonneg _
    · exact le_rfl
  | _ => exact le_rfl

theorem abs_seen_le (a : Fl F) : |e.val a| ≤ |a.val| := by
  unfold val seen
  split
  · exact abs_flush_le a
  · exact le_rfl

theorem flush_abs (a : Fl F) : a.abs.flush.val = |a.flush.val| := by
  cases a with
  | fin s N h =>
    rw [flush_fin, show (fin s N h : Fl F).abs = fin false N h from rfl, flush_fin]
    split
    · rw [val_nought, val_nought, abs_zero]
    · rw [← abs_val]
      rfl
  | inf s => cases s <;> simp [Fl.abs, Fl.flush, Fl.val]
  | nan => simp [Fl.abs, Fl.flush, Fl.val]

theorem val_abs (a : Fl F) : e.val a.abs = |e.val a| := by
  unfold val seen
  split
  · exact flush_abs a
  · exact Fl.abs_val a

/-- Within a number of the format the result of a subtraction stays within it. -/
theorem sub_within {a b t : Fl F} (ha : a.Finite) (hb : b.Finite) (ht : t.Finite) (h : |e.val a - e.val b| ≤ t.val) :
    (e.sub a b).Finite ∧ |(e.sub a b).val| ≤ t.val := by
  obtain ⟨h1, h2⟩ := abs_le.mp h
  have hf : Faithful (e.val a - e.val b) (subBy e.mode (e.seen a) (e.seen b)) :=
    (subBy_rounded ((finite_seen e).mpr ha) ((finite_seen e).mpr hb)).faithful
  have l1 := hf.of_above t (.inr ⟨ht, h2⟩)
  have l2 := hf.of_below t.neg (.inr ⟨(neg_finite _).mpr ht, by rw [neg_val]; exact h1⟩)
  have hr : (subBy e.mode (e.seen a) (e.seen b)).Finite ∧ |(subBy e.mode (e.seen a) (e.seen b)).val| ≤ t.val := by
    generalize subBy e.mode (e.seen a) (e.seen b) = r at *
    have hrf : r.Finite := by
      match r, t, ht, l1, l2 with
      | .fin _ _ _, _, _, _, _ => trivial
      | .nan, _, _, l1, _ => exact absurd rfl l1.ne_nan.1
      | .inf false, .fin s N hN, _, l1, _ =>
        have := signed_lt_bound (s := s) hN
        rcases l1 with l | l <;> simp [Fl.lt, Fl.eq, Fl.key] at l <;> rw [show signed false F.bound = (F.bound : Int) from rfl] at l <;>
          omega
      | .inf true, .fin s N hN, _, _, l2 =>
        have := signed_lt_bound (s := !s) hN
        rcases l2 with l | l <;> simp [Fl.lt, Fl.eq, Fl.key, Fl.neg] at l <;>
          rw [show signed true F.bound = -(F.bound : Int) from rfl] at l <;> omega
    refine ⟨hrf, abs_le.mpr ⟨?_, ?_⟩⟩
    · rw [← neg_val]
      exact (le_iff ((neg_finite _).mpr ht) hrf).mp l2
    · exact (le_iff hrf ht).mp l1
  have hs : e.sub a b = if e.ftz.isSome then (subBy e.mode (e.seen a) (e.seen b)).flush else subBy e.mode (e.seen a) (e.seen b) := by
    unfold sub add
    rw [seen_neg]
    rfl
  rw [hs]
  split
  · exact ⟨finite_flush.mpr hr.1, (abs_flush_le _).trans hr.2⟩
  · exact hr

theorem seen_finite_val {a : Fl F} (ha : a.Finite) : (e.seen a).Finite ∧ (e.seen a).val = e.val a :=
  ⟨(finite_seen e).mpr ha, rfl⟩

end FpEnv

theorem env_compare_ok (A B : Mat (Fl F) r c) (eps : Fl F) :
    ∃ b, compare (T := InEnv e F) A B eps = .ok b ∧
      (b = true ↔ ∀ i j, (e.seen eps).lt (e.seen (e.sub (A i j) (B i j)).abs) = false) := by
  unfold compare compareLoop
  refine scan_ok (fun it jt => do
      let d ← CScalar.abs (T := InEnv e F) (← CScalar.sub (T := InEnv e F) (← rd A it jt) (← rd B it jt))
      if CScalar.lt (T := InEnv e F) eps d then .ok (.ret false)
      else .ok (.cont ())) (fun i j => (e.seen eps).lt (e.seen (e.sub (A i j) (B i j)).abs) = false) ?_ ?_
  · intro a b h
    rw [rd_fin, ok_bind, rd_fin, ok_bind]
    show (if (e.seen eps).lt (e.seen (e.sub (A a b) (B a b)).abs) = true then _ else _) = _
    rw [h]
    rfl
  · intro a b h
    rw [rd_fin, ok_bind, rd_fin, ok_bind]
    show (if (e.seen eps).lt (e.seen (e.sub (A a b) (B a b)).abs) = true then _ else _) = _
    rw [(Bool.not_eq_false _).mp h]
    rfl

/-- What is within the tolerance is accepted. -/
theorem env_compare_true {A B : Mat (Fl F) r c} {eps : Fl F} (hA : ∀ i j, (A i j).Finite) (hB : ∀ i j, (B i j).Finite)
    (he : eps.Finite) (h : ∀ i j, |e.val (A i j) - e.val (B i j)| ≤ e.val eps) :
    compare (T := InEnv e F) A B eps = .ok true := by
  obtain ⟨b, hb, h'⟩ := env_compare_ok (e := e) A B eps
  rw [hb]
  congr 1
  rw [h']
  intro i j
  obtain ⟨s1, s2⟩ := FpEnv.sub_within (hA i j) (hB i j) ((FpEnv.finite_seen e).mpr he) (h i j)
  rw [← Bool.not_eq_true, Fl.lt_iff ((FpEnv.finite_seen e).mpr he) ((FpEnv.finite_seen e).mpr ((Fl.abs_finite _).mpr s1)), not_lt]
  refine (le_abs_self _).trans (FpEnv.abs_seen_le (e := e) _ |>.trans ?_)
  rw [Fl.abs_val, abs_abs]
  exact s2

theorem FpEnv.sub_ok_finite {a b : Fl F} (h : e.AddOk a b.neg) : (e.sub a b).Finite := by
  obtain ⟨_, _, _, _, _, _, _, _, _, _, _, ho⟩ := FpEnv.add_outcome h
  rcases ho with ⟨hN, h⟩ | ⟨_, _, h⟩
  · unfold FpEnv.sub; rw [h]; trivial
  · unfold FpEnv.sub; rw [h]; trivial

theorem FpEnv.add_ok_finite {a b : Fl F} (h : e.AddOk a b) : (e.add a b).Finite := by
  obtain ⟨_, _, _, _, _, _, _, _, _, _, _, ho⟩ := FpEnv.add_outcome h
  rcases ho with ⟨hN, h⟩ | ⟨_, _, h⟩ <;> rw [h] <;> trivial

/-- What holds of 0 and of every sum holds of the elements of a product. -/
theorem mult_last {T : Type} [Inhabited T] [CScalar T] {Q : T → Prop} (h0 : Q (ofInt 0))
    (hadd : ∀ a b v : T, CScalar.add a b = .ok v → Q v) {A : Mat T n m} {B : Mat T m p} {P : Mat T n p}
    (hP : mult A B = .ok P) (i : Fin n) (j : Fin p) : Q (P i j) := by
  have h1 := ((mult_elementwise A B).1 P).mp hP i j
  unfold dotFrom at h1
  refine wp_ok_elim (Q := Q) (E := fun _ => True) (wp_forUp (fun _ s => Q s) (Nat.zero_le _) h0 ?_ fun _ h => h) h1
  intro k s _ hk _
  rw [rd_eq i.2 hk, ok_bind, rd_eq hk j.2, ok_bind, wp_bind]
  refine wp_mono (wp_self _) (fun t _ => ?_) fun _ _ => trivial
  exact wp_mono (wp_self _) (fun v hv => hadd _ _ _ hv) fun _ _ => trivial

/-- The elements of a product without exceptions are finite. -/
theorem trapped_mult_finite {A : Mat (Fl F) n m} {B : Mat (Fl F) m p} {P : Mat (Fl F) n p}
    (hP : mult (T := Trapped e F) A B = .ok P) (i : Fin n) (j : Fin p) : (P i j).Finite := by
  refine mult_last (T := Trapped e F) (Q := fun v : Fl F => v.Finite) Fl.zero_finite ?_ hP i j
  intro (a : Fl F) (b : Fl F) (v : Fl F) hv
  obtain ⟨h, hv'⟩ := guarded_ok (show e.trapAdd a b = .ok v from hv)
  rw [hv']
  exact FpEnv.add_ok_finite h

/-- A scan that returns `true` has not returned early at any element. -/
theorem scan_true {body : Nat → Nat → Res (Ctl Unit Bool)} (hret : ∀ a b v, body a b = .ok (.ret v) → v = false)
    (h : (do
      match ← forRet 0 r () fun it _ => forRet 0 c () fun jt _ => body it jt with
      | .ret b => .ok b
      | .cont _ => .ok true) = (.ok true : Res Bool)) (i : Fin r) (j : Fin c) : body i j = .ok (.cont ()) := by
  suffices hw : wp (do
      match ← forRet 0 r () fun it _ => forRet 0 c () fun jt _ => body it jt with
      | .ret b => .ok b
      | .cont _ => .ok true) (fun v => v = true → ∀ (a : Fin r) (b : Fin c), body a b = .ok (.cont ())) (fun _ => True) from
    wp_ok_elim hw h rfl i j
  rw [wp_bind]
  refine wp_forRet (fun it _ => ∀ a : Fin r, a.val < it → ∀ b : Fin c, body a b = .ok (.cont ())) (fun v => v = false)
    (Nat.zero_le _) (fun a h => by omega) ?_ ?_ ?_
  · intro it _ _ hit hI
    refine wp_forRet (fun jt _ => ∀ b : Fin c, b.val < jt → body it b = .ok (.cont ())) (fun v => v = false) (Nat.zero_le _)
      (fun b h => by omega) ?_ ?_ fun v h => h
    · intro jt _ _ hjt hJ
      refine wp_mono (wp_self _) (fun v hv => ?_) fun _ _ => trivial
      cases v with
      | ret v => exact hret _ _ _ hv
      | cont _ =>
        intro b hb
        rcases Nat.lt_succ_iff_lt_or_eq.mp hb with h | h
        · exact hJ b h
        · rw [h]
          exact hv
    · intro _ hJ a ha b
      rcases Nat.lt_succ_iff_lt_or_eq.mp ha with h | h
      · exact hI a h b
      · rw [h]
        exact hJ b b.2
  · intro _ h _ a b
    exact h a a.2 b
  · rintro v rfl h
    cases h

theorem compare_accepted {T : Type} [Inhabited T] [CScalar T] {A B : Mat T r c} {eps : T} (h : compare A B eps = .ok true)
    (i : Fin r) (j : Fin c) : ∃ d x, CScalar.sub (A i j) (B i j) = .ok d ∧ CScalar.abs d = .ok x ∧ CScalar.lt eps x = false := by
  unfold compare compareLoop at h
  have hb := scan_true (body := fun it jt => do
      let d ← CScalar.abs (← CScalar.sub (← rd A it jt) (← rd B it jt))
      if CScalar.lt eps d then .ok (.ret false)
      else .ok (.cont ())) ?_ h i j
  · rw [rd_fin, ok_bind, rd_fin, ok_bind] at hb
    obtain ⟨d, hd, hb⟩ := bind_ok_elim hb
    obtain ⟨x, hx, hb⟩ := bind_ok_elim hb
    refine ⟨d, x, hd, hx, ?_⟩
    split at hb
    · cases hb
    · next hlt => exact (Bool.not_eq_true _).mp hlt
  · intro a b v hv
    obtain ⟨_, _, hv⟩ := bind_ok_elim hv
    obtain ⟨_, _, hv⟩ := bind_ok_elim hv
    obtain ⟨_, _, hv⟩ := bind_ok_elim hv
    obtain ⟨_, _, hv⟩ := bind_ok_elim hv
    split at hv
    · injection hv with hv; injection hv with hv; exact hv.symm
    · injection hv with hv; cases hv

/-- What is accepted without exceptions is near the tolerance. -/
theorem trapped_compare_true {A B : Mat (Fl F) r c} {eps : Fl F} (he : eps.Finite)
    (h : compare (T := Trapped e F) A B eps = .ok true) (i : Fin r) (j : Fin c) :
    (A i j).Finite ∧ (B i j).Finite ∧ |e.val (A i j) - e.val (B i j)| ≤ (1 + e.u F) * e.val eps + e.d' F := by
  obtain ⟨(d : Fl F), (x : Fl F), hd, hx, hlt⟩ := compare_accepted (T := Trapped e F) h i j
  have hd : e.trapSub (A i j) (B i j) = .ok d := hd
  have hlt : (e.seen eps).lt (e.seen x) = false := hlt
  have hx' : d.abs = x := by injection hx
  subst hx'
  have hn := trapSub_near hd
  obtain ⟨hok, hd'⟩ := guarded_ok hd
  have hf : d.Finite := by rw [hd']; exact FpEnv.sub_ok_finite hok
  have hfin : (A i j).Finite ∧ (B i j).Finite := by
    unfold FpEnv.AddOk at hok
    rw [FpEnv.seen_neg] at hok
    rw [← FpEnv.finite_seen e (a := A i j), ← FpEnv.finite_seen e (a := B i j)]
    generalize e.seen (A i j) = a at hok ⊢
    generalize e.seen (B i j) = b at hok ⊢
    match a, b, hok with
    | .fin .., .fin .., _ => exact ⟨trivial, trivial⟩
  refine ⟨hfin.1, hfin.2, ?_⟩
  rw [← Bool.not_eq_true, Fl.lt_iff ((FpEnv.finite_seen e).mpr he) ((FpEnv.finite_seen e).mpr ((Fl.abs_finite _).mpr hf)), not_lt] at hlt
  have hv : (e.seen d.abs).val = |e.val d| := FpEnv.val_abs d
  rw [hv] at hlt
  have hr := hn.res
  have hu := e.u_nonneg (F := F)
  rw [abs_sub_comm] at hr
  have h1 : |e.val (A i j) - e.val (B i j)| ≤ |e.val d| + |e.val (A i j) - e.val (B i j) - e.val d| := by
    have := abs_add_le (e.val d) (e.val (A i j) - e.val (B i j) - e.val d)
    rwa [add_sub_cancel] at this
  have hlt' : |e.val d| ≤ e.val eps := hlt
  have := mul_le_mul_of_nonneg_left hlt' hu
  linarith

end
end MatrixLibs
