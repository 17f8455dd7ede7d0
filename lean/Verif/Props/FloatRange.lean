import Verif.Proof.FloatTrack
import Mathlib.LinearAlgebra.Matrix.Notation

/-!
# Properties C66, C67, C71 to C73: range, sign and accuracy of floating point results

`F.maxFinite` is the largest finite number of the format.
-/

namespace MatrixLibs

set_option linter.unusedSectionVars false

variable {F : Fmt} {r c n m p : Nat}

/-! ## C66, C67: when results are finite -/

/-- C66: an element of the product of finite matrices is finite if its error bound stays within
the range. -/
theorem C66_mul_finite (A : Mat (Fl F) n m) (B : Mat (Fl F) m p) (hA : ∀ i k, (A i k).Finite)
    (hB : ∀ k j, (B k j).Finite) :
    ∃ P, opMul A B = .ok P ∧ ∀ a b,
      (1 + F.u) ^ m * ∑ k, |(A a k).val| * |(B k b).val| + m * (1 + F.u) ^ (m - 1) * F.eta ≤
        F.maxFinite → (P a b).Finite := by
  refine ⟨_, Fl.mult_eq A B, fun a b hb => ?_⟩
  show (Fl.fsum (Fl.terms A B a b)).Finite
  have hu := Fl.u_nonneg F
  have he := Fl.eta_nonneg F
  have hq : (1 : ℝ) ≤ (1 + F.u) ^ (m - 1) := Fl.one_add_u_pow F (m - 1)
  have hX : ∀ k, |(A a k).val| * |(B k b).val| ≤ ∑ k, |(A a k).val| * |(B k b).val| := fun k =>
    Finset.single_le_sum (f := fun k => |(A a k).val| * |(B k b).val|)
      (fun k _ => mul_nonneg (abs_nonneg _) (abs_nonneg _)) (Finset.mem_univ k)
  have hX0 : 0 ≤ ∑ k, |(A a k).val| * |(B k b).val| :=
    Finset.sum_nonneg fun k _ => mul_nonneg (abs_nonneg _) (abs_nonneg _)
  have hm := Fl.one_add_u_pow F m
  have ht : ∀ k, ((A a k).mul (B k b)).Finite := fun k => by
    refine Fl.mul_finite_of_le (hA a k) (hB k b) ?_
    have h1 := hX k
    have h2 : 0 ≤ (m : ℝ) * (1 + F.u) ^ (m - 1) * F.eta := by positivity
    nlinarith
  refine Fl.fsum_finite_of_le _ ?_ ?_
  · intro x hx
    obtain ⟨k, -, rfl⟩ := List.mem_map.mp hx
    exact ht k
  · rcases Nat.eq_zero_or_pos m with rfl | hmp
    · simp [Fl.terms]
      exact (Fl.maxFinite_pos F).le
    refine le_trans ?_ hb
    have hlen : (Fl.terms A B a b).length = m := by simp [Fl.terms]
    have e3 : ((Fl.terms A B a b).map fun x => |x.val|).sum =
        ∑ k, |((A a k).mul (B k b)).val| := by
      unfold Fl.terms
      rw [List.map_map, Fl.sum_finRange]
      rfl
    rw [hlen, e3]
    have e5 : ∑ k, |((A a k).mul (B k b)).val| ≤
        (1 + F.u) * ∑ k, |(A a k).val| * |(B k b).val| + m * F.eta := by
      rw [Finset.mul_sum]
      calc _ ≤ ∑ k : Fin m, ((1 + F.u) * (|(A a k).val| * |(B k b).val|) + F.eta) := by
            refine Finset.sum_le_sum fun k _ => ?_
            have h1 := Fl.mul_err (ht k)
            have h2 := abs_sub_abs_le_abs_sub ((A a k).mul (B k b)).val ((A a k).val * (B k b).val)
            rw [abs_mul] at h1 h2
            linarith
        _ = _ := by
            rw [Finset.sum_add_distrib, Finset.sum_const, Finset.card_univ, Fintype.card_fin,
              nsmul_eq_mul]
    have e6 : (1 + F.u) ^ m = (1 + F.u) ^ (m - 1) * (1 + F.u) := by
      rw [← pow_succ, Nat.sub_add_cancel hmp]
    rw [e6]
    have := mul_le_mul_of_nonneg_left e5 (by linarith : 0 ≤ (1 + F.u) ^ (m - 1))
    nlinarith

/-- C67: the mean of finite elements is finite if the sum of absolute values stays away from the
limit of the range. -/
theorem C67_mean_finite (A : Mat (Fl F) r c) (h0 : r * c ≠ 0) (hn : r * c ≤ 2 ^ F.p)
    (hA : ∀ i j, (A i j).Finite)
    (hb : (1 + F.u) ^ (r * c - 1) * ∑ i, ∑ j, |(A i j).val| ≤ F.maxFinite) :
    ∃ μ, mean A = .ok μ ∧ μ.Finite := by
  refine ⟨_, Fl.mean_eq A, ?_⟩
  have hsum : (1 + F.u) ^ ((rowMajor A).length - 1) * ((rowMajor A).map fun x => |x.val|).sum ≤
      F.maxFinite := by
    rw [rowMajor_length, rowMajor_sum A fun x => |x.val|]
    exact hb
  have hf := Fl.fsum_finite_of_le (rowMajor A) (fun x hx => by
    obtain ⟨i, j, rfl⟩ := (mem_rowMajor A x).mp hx
    exact hA i j) hsum
  obtain ⟨n1, n2⟩ := Fl.val_ofInt_exact (F := F) (r * c : Nat) (by rwa [Int.natAbs_natCast])
  rw [Int.cast_natCast] at n2
  have hN : (1 : ℝ) ≤ (r * c : Nat) := by exact_mod_cast Nat.pos_of_ne_zero h0
  refine (Fl.div_rounded hf n1 (by rw [n2]; positivity)).finite ?_
  rw [n2, abs_div, abs_of_nonneg (by linarith : (0 : ℝ) ≤ (r * c : Nat))]
  refine (div_le_self (abs_nonneg _) hN).trans ((Fl.fsum_abs_le _ hf).trans hsum)

/-! ## C71: variance and standard deviation -/

namespace Fl

theorem add_ne_nan {a b : Fl F} (ha : a ≠ .nan) (hb : b.Finite) : a.add b ≠ .nan := by
  match a, b, ha, hb with
  | .inf s, .fin .., _, _ => intro h; cases h
  | .fin .., .fin .., _, _ => exact roundInt_ne_nan

theorem fsum_ne_nan (l : List (Fl F)) (h : ∀ x ∈ l, x.Finite) : fsum l ≠ .nan := by
  induction l using List.reverseRecOn with
  | nil =>
    intro h
    have : (ofInt 0 : Fl F) = .nan := h
    rw [ofInt_zero'] at this
    cases this
  | append_singleton l x ih =>
    rw [fsum_concat]
    exact add_ne_nan (ih fun y hy => h y (by simp [hy])) (h x (by simp))

theorem sub_ne_nan' {a b : Fl F} (ha : a.Finite) (hb : b ≠ .nan) : a.sub b ≠ .nan := by
  match a, b, ha, hb with
  | .fin .., .inf s, _, _ => intro h; cases h
  | .fin .., .fin .., _, _ => exact roundInt_ne_nan

theorem div_ne_nan {a b : Fl F} (ha : a ≠ .nan) (hb : b.Finite) (h0 : b.val ≠ 0) :
    a.div b ≠ .nan := by
  match a, b, ha, hb with
  | .inf s, .fin .., _, _ => intro h; cases h
  | .fin s M hM, .fin t N hN, _, _ =>
    intro h
    have hN0 : N ≠ 0 := by
      rintro rfl
      apply h0
      simp [val, signed]
    simp only [div, if_neg hN0] at h
    exact pack_ne_nan h

end Fl

/-- C71: the variance of finite elements is never negative and never NaN (it may overflow to
infinity), and the standard deviation is its correctly rounded square root. -/
theorem C71_var (A : Mat (Fl F) r c) (h0 : r * c ≠ 0) (hn : r * c ≤ 2 ^ F.p)
    (hA : ∀ i j, (A i j).Finite) :
    ∃ v s, var A = .ok v ∧ stddev A = .ok s ∧
      ((v.Finite ∧ 0 ≤ v.val ∧ Fl.Rounded (Real.sqrt v.val) s) ∨
        (v = .inf false ∧ s = .inf false)) := by
  obtain ⟨μ, hμ, hv⟩ := Fl.var_eq A
  have hfin : ∀ x ∈ rowMajor A, x.Finite := fun x hx => by
    obtain ⟨i, j, rfl⟩ := (mem_rowMajor A x).mp hx
    exact hA i j
  obtain ⟨n1, n2⟩ := Fl.val_ofInt_exact (F := F) (r * c : Nat) (by rwa [Int.natAbs_natCast])
  rw [Int.cast_natCast] at n2
  have hN : (0 : ℝ) < (r * c : Nat) := by exact_mod_cast Nat.pos_of_ne_zero h0
  have hN0 : (Fl.ofInt (r * c : Nat) : Fl F).val ≠ 0 := by rw [n2]; exact hN.ne'
  have hμ' : μ ≠ .nan := by
    rw [Fl.mean_eq] at hμ
    rw [← Except.ok.inj hμ]
    exact Fl.div_ne_nan (Fl.fsum_ne_nan _ hfin) n1 hN0
  have hs : (Fl.fsum ((rowMajor A).map fun x => (x.sub μ).mul (x.sub μ))).NonNeg := by
    refine Fl.fsum_nonNeg _ fun y hy => ?_
    obtain ⟨x, hx, rfl⟩ := List.mem_map.mp hy
    exact Fl.sq_nonNeg _ (Fl.sub_ne_nan' (hfin x hx) hμ')
  have hd := (hs.div_count (Nat.pos_of_ne_zero h0)).resolve_right
    (Fl.div_ne_nan (by
      rcases hs with ⟨h, -⟩ | h
      · intro e; rw [e] at h; exact h
      · rw [h]; intro e; cases e) n1 hN0)
  refine ⟨_, _, hv, by unfold stddev; rw [hv]; rfl, ?_⟩
  rcases hd with ⟨h1, h2⟩ | h
  · exact .inl ⟨h1, h2, Fl.sqrt_rounded h1 h2⟩
  · right
    rw [h]
    exact ⟨rfl, rfl⟩

/-- A matrix that meets the hypotheses: the variance of 1 and 4 is 2.25, the deviation 1.5. -/
example : var (!![Fl.ofInt 1, Fl.ofInt 4] : Mat (Fl binary32) 1 2) =
    .ok (Fl.div (Fl.ofInt 9) (Fl.ofInt 4)) := by decide +kernel
example : stddev (!![Fl.ofInt 1, Fl.ofInt 4] : Mat (Fl binary32) 1 2) =
    .ok (Fl.div (Fl.ofInt 3) (Fl.ofInt 2)) := by decide +kernel
/-- The mean of equal elements can lie below all of them, and their variance need not be zero. -/
example : mean (!![Fl.ofInt 16777214, Fl.ofInt 16777214, Fl.ofInt 16777214] :
    Mat (Fl binary32) 1 3) = .ok (Fl.ofInt 16777213) := by decide +kernel
example : var (!![Fl.ofInt 16777214, Fl.ofInt 16777214, Fl.ofInt 16777214] :
    Mat (Fl binary32) 1 3) = .ok (Fl.ofInt 1) := by decide +kernel

/-! ## C72: the identity matrix -/

/-- C72: multiplying a finite matrix by the identity, on either side, leaves every value. -/
theorem C72_mul_eye (A : Mat (Fl F) n m) (hA : ∀ i k, (A i k).Finite) :
    (∃ P, (do opMul A (← eye1 m)) = .ok P ∧ ∀ i j, (P i j).Finite ∧ (P i j).val = (A i j).val) ∧
      (∃ P, (do opMul (← eye1 n) A) = .ok P ∧ ∀ i j, (P i j).Finite ∧ (P i j).val = (A i j).val)
      := by
  constructor
  · unfold eye1 opMul
    rw [eye_ok, ok_bind]
    refine ⟨_, Fl.mult_eq A _, fun i j => ?_⟩
    refine Fl.fsum_single _ j (A i j) (hA i j) (fun k => ?_) (fun k => ?_)
    · show ((A i k).mul (if k = j then Fl.ofInt 1 else Fl.ofInt 0)).Finite
      split
      · exact (Fl.mul_one_val (hA i k)).1
      · exact (Fl.mul_zero_val (hA i k)).1
    · show ((A i k).mul (if k = j then Fl.ofInt 1 else Fl.ofInt 0)).val = _
      split
      · next h => rw [(Fl.mul_one_val (hA i k)).2, h]
      · exact (Fl.mul_zero_val (hA i k)).2
  · unfold eye1 opMul
    rw [eye_ok, ok_bind]
    refine ⟨_, Fl.mult_eq _ A, fun i j => ?_⟩
    refine Fl.fsum_single _ i (A i j) (hA i j) (fun k => ?_) (fun k => ?_)
    · show (Fl.mul (if i = k then Fl.ofInt 1 else Fl.ofInt 0) (A k j)).Finite
      rw [Fl.mul_comm']
      split
      · exact (Fl.mul_one_val (hA k j)).1
      · exact (Fl.mul_zero_val (hA k j)).1
    · show (Fl.mul (if i = k then Fl.ofInt 1 else Fl.ofInt 0) (A k j)).val = _
      rw [Fl.mul_comm']
      by_cases h : i = k
      · rw [if_pos h, if_pos h.symm, (Fl.mul_one_val (hA k j)).2, h]
      · rw [if_neg h, if_neg (fun e => h e.symm)]
        exact (Fl.mul_zero_val (hA k j)).2

/-- The sign of a zero is lost, and an infinity becomes NaN. -/
example : (do opMul (!![.fin true 0 Fl.rep_zero] : Mat (Fl binary32) 1 1) (← eye1 1)) =
    .ok !![Fl.ofInt 0] := by decide +kernel
example : (do opMul (!![.inf false, Fl.ofInt 2] : Mat (Fl binary32) 1 2) (← eye1 2)) =
    .ok !![.inf false, .nan] := by decide +kernel

/-! ## C73: accuracy of the closed-form determinants -/

/-- C73: a finite 2x2 determinant is exact up to the rounding of two products and a difference. -/
theorem C73_det2 (A : Mat (Fl F) 2 2) :
    ∃ d, det A = .ok d ∧ (d.Finite →
      |d.val - ((A 0 0).val * (A 1 1).val - (A 0 1).val * (A 1 0).val)| ≤
        ((1 + F.u) ^ 2 - 1) *
          (|(A 0 0).val| * |(A 1 1).val| + |(A 0 1).val| * |(A 1 0).val|) +
          2 * (1 + F.u) * F.eta) := by
  refine ⟨((A 0 0).mul (A 1 1)).sub ((A 0 1).mul (A 1 0)), rfl, fun h => ?_⟩
  obtain ⟨h1, h2⟩ := Fl.sub_finite h
  have t1 := (Fl.Tracks.exact (Fl.mul_finite h1).1).mul_exact h1
  have t2 := (Fl.Tracks.exact (Fl.mul_finite h2).1).mul_exact h2
  have := (t1.sub t2 h).err
  refine this.trans (le_of_eq ?_)
  ring

/-- The sum of the absolute values of the six products of a 3x3 determinant. -/
noncomputable def perm3 (A : Mat (Fl F) 3 3) : ℝ :=
  |(A 0 0).val| * |(A 1 1).val| * |(A 2 2).val| + |(A 0 1).val| * |(A 1 2).val| * |(A 2 0).val| +
  |(A 0 2).val| * |(A 1 0).val| * |(A 2 1).val| + |(A 0 2).val| * |(A 1 1).val| * |(A 2 0).val| +
  |(A 0 1).val| * |(A 1 0).val| * |(A 2 2).val| + |(A 0 0).val| * |(A 1 2).val| * |(A 2 1).val|

/-- C73: a finite 3x3 determinant is exact up to the rounding of the products and sums. -/
theorem C73_det3 (A : Mat (Fl F) 3 3) :
    ∃ d, det A = .ok d ∧ (d.Finite →
      |d.val - (A.map Fl.val).det| ≤ ((1 + F.u) ^ 7 - 1) * perm3 A +
        6 * (1 + F.u) ^ 6 * (1 + |(A 2 0).val| + |(A 2 1).val| + |(A 2 2).val|) * F.eta) := by
  refine ⟨(((((((A 0 0).mul (A 1 1)).mul (A 2 2)).add (((A 0 1).mul (A 1 2)).mul (A 2 0))).add
    (((A 0 2).mul (A 1 0)).mul (A 2 1))).sub (((A 0 2).mul (A 1 1)).mul (A 2 0))).sub
    (((A 0 1).mul (A 1 0)).mul (A 2 2))).sub (((A 0 0).mul (A 1 2)).mul (A 2 1)), rfl, fun h => ?_⟩
  have H := h
  obtain ⟨h, hf⟩ := Fl.sub_finite h
  have H5 := h
  obtain ⟨h, he⟩ := Fl.sub_finite h
  have H4 := h
  obtain ⟨h, hd⟩ := Fl.sub_finite h
  have H3 := h
  obtain ⟨h, hc⟩ := Fl.add_finite h
  have H2 := h
  obtain ⟨ha, hb⟩ := Fl.add_finite h
  have hu := Fl.u_nonneg F
  have hη := Fl.eta_nonneg F
  have z0 := abs_nonneg (A 2 0).val
  have z1 := abs_nonneg (A 2 1).val
  have z2 := abs_nonneg (A 2 2).val
  have prod : ∀ {x y z : Fl F}, ((x.mul y).mul z).Finite →
      |z.val| ≤ |(A 2 0).val| + |(A 2 1).val| + |(A 2 2).val| →
      Fl.Tracks ((x.mul y).mul z) (x.val * y.val * z.val) (|x.val| * |y.val| * |z.val|) 2
        ((1 + F.u) * (1 + |(A 2 0).val| + |(A 2 1).val| + |(A 2 2).val|) * F.eta) := by
    intro x y z hxyz hz
    have hxy := (Fl.mul_finite hxyz).1
    have := ((Fl.Tracks.exact (Fl.mul_finite hxy).1).mul_exact hxy).mul_exact hxyz
    refine this.weaken le_rfl ?_
    have h1 := mul_le_mul_of_nonneg_left hz hη
    have h2 := mul_le_mul_of_nonneg_left h1 hu
    have h3 := mul_nonneg hu hη
    nlinarith
  have t1 := prod ha (by linarith)
  have t2 := prod hb (by linarith)
  have t3 := (prod hc (by linarith)).mono (show 2 ≤ 3 by omega)
  have t4 := (prod hd (by linarith)).mono (show 2 ≤ 4 by omega)
  have t5 := (prod he (by linarith)).mono (show 2 ≤ 5 by omega)
  have t6 := (prod hf (by linarith)).mono (show 2 ≤ 6 by omega)
  have t := (((((t1.add t2 H2).add t3 H3).sub t4 H4).sub t5 H5).sub t6 H).err
  rw [Matrix.det_fin_three]
  simp only [Matrix.map_apply]
  refine le_trans (le_of_eq ?_) (t.trans ?_)
  · congr 1
    ring
  · refine add_le_add (le_of_eq (by unfold perm3; ring)) ?_
    have hK : 0 ≤ (1 + F.u) * (1 + |(A 2 0).val| + |(A 2 1).val| + |(A 2 2).val|) * F.eta := by
      positivity
    have e : 6 * (1 + F.u) ^ 6 * (1 + |(A 2 0).val| + |(A 2 1).val| + |(A 2 2).val|) * F.eta =
        6 * (1 + F.u) ^ 5 *
          ((1 + F.u) * (1 + |(A 2 0).val| + |(A 2 1).val| + |(A 2 2).val|) * F.eta) := by ring
    rw [e]
    generalize (1 + F.u) * (1 + |(A 2 0).val| + |(A 2 1).val| + |(A 2 2).val|) * F.eta = K at *
    have q : ∀ k, k ≤ 5 → (1 + F.u) ^ k * K ≤ (1 + F.u) ^ 5 * K := fun k hk =>
      mul_le_mul_of_nonneg_right (pow_le_pow_right₀ (by linarith) hk) hK
    have q1 := q 1 (by omega)
    have q2 := q 2 (by omega)
    have q3 := q 3 (by omega)
    have q4 := q 4 (by omega)
    nlinarith

/-- A determinant that is rounded: `4097 * 4097 - 4096 * 4098 = 1`, but the `float` result is 0. -/
example : det (!![Fl.ofInt 4097, Fl.ofInt 4096; Fl.ofInt 4098, Fl.ofInt 4097] :
    Mat (Fl binary32) 2 2) = .ok (Fl.ofInt 0) := by decide +kernel

end MatrixLibs
