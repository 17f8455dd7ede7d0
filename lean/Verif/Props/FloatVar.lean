import Verif.Props.Float
import Verif.Props.FloatRange
import Verif.Proof.FloatRes
import Verif.Spec.FloatStats

/-!
# Property C85: accuracy of the floating point variance and standard deviation
-/

namespace MatrixLibs

set_option linter.unusedSectionVars false

variable {F : Fmt} {r c : Nat}

namespace Fl

/-- Error of a rounded squared difference. -/
theorem sqdiff_err {x m : Fl F} (h : ((x.sub m).mul (x.sub m)).Finite) :
    |((x.sub m).mul (x.sub m)).val - (x.val - m.val) ^ 2| ≤
      ((1 + F.u) ^ 3 - 1) * (x.val - m.val) ^ 2 + F.eta := by
  have hu := u_nonneg F
  have e1 := mul_err h
  have e2 := sub_err (mul_finite h).1
  generalize ((x.sub m).mul (x.sub m)).val = t at *
  generalize (x.sub m).val = d at *
  generalize x.val - m.val = y at *
  generalize F.eta = η at *
  generalize F.u = u at *
  have a1 : |d| ≤ (1 + u) * |y| := by
    have := abs_sub_abs_le_abs_sub d y
    linarith
  have a2 : |d * d - y ^ 2| ≤ u * (2 + u) * y ^ 2 := by
    have : d * d - y ^ 2 = (d - y) * (d + y) := by ring
    rw [this, abs_mul]
    have a3 : |d + y| ≤ (2 + u) * |y| := (abs_add_le _ _).trans (by linarith)
    calc |d - y| * |d + y| ≤ (u * |y|) * ((2 + u) * |y|) :=
          mul_le_mul e2 a3 (abs_nonneg _) (by positivity)
      _ = u * (2 + u) * |y| ^ 2 := by ring
      _ = _ := by rw [sq_abs]
  have a4 : |d * d| ≤ (1 + u) ^ 2 * y ^ 2 := by
    rw [abs_mul, ← sq_abs y]
    nlinarith [abs_nonneg d, abs_nonneg y]
  have a5 := abs_sub_le t (d * d) (y ^ 2)
  have a6 := mul_le_mul_of_nonneg_left a4 hu
  nlinarith

/-- Error of the sum of squared differences. -/
theorem sqdiff_sum_err (l : List (Fl F)) (m : Fl F)
    (h : (fsum (l.map fun x => (x.sub m).mul (x.sub m))).Finite) :
    |(fsum (l.map fun x => (x.sub m).mul (x.sub m))).val -
        (l.map fun x => (x.val - m.val) ^ 2).sum| ≤
      ((1 + F.u) ^ (l.length - 1 + 3) - 1) * (l.map fun x => (x.val - m.val) ^ 2).sum +
        (1 + F.u) ^ (l.length - 1) * (l.length * F.eta) := by
  have hu := u_nonneg F
  have e1 := fsum_err _ h
  have hf := fsum_finite _ h
  rw [List.length_map, List.map_map, List.map_map] at e1
  have e2 : |(l.map (val ∘ fun x => (x.sub m).mul (x.sub m))).sum -
      (l.map fun x => (x.val - m.val) ^ 2).sum| ≤
      ((1 + F.u) ^ 3 - 1) * (l.map fun x => (x.val - m.val) ^ 2).sum + l.length * F.eta := by
    clear e1 h
    induction l with
    | nil => simp
    | cons a l ih =>
      have h1 := ih (fun x hx => hf x (by rw [List.map_cons]; exact List.mem_cons_of_mem _ hx))
      have h2 := sqdiff_err (hf ((a.sub m).mul (a.sub m)) (by rw [List.map_cons]; exact List.mem_cons_self))
      simp only [List.map_cons, List.sum_cons, List.length_cons, Nat.cast_add, Nat.cast_one,
        Function.comp_apply]
      rw [add_sub_add_comm]
      refine (abs_add_le _ _).trans ?_
      have := add_le_add h2 h1
      refine this.trans (le_of_eq ?_)
      ring
  have e3 : (l.map ((fun x => |x.val|) ∘ fun x => (x.sub m).mul (x.sub m))).sum ≤
      (1 + F.u) ^ 3 * (l.map fun x => (x.val - m.val) ^ 2).sum + l.length * F.eta := by
    clear e1 e2 h
    induction l with
    | nil => simp
    | cons a l ih =>
      have h1 := ih (fun x hx => hf x (by rw [List.map_cons]; exact List.mem_cons_of_mem _ hx))
      have h2 := sqdiff_err (hf ((a.sub m).mul (a.sub m)) (by rw [List.map_cons]; exact List.mem_cons_self))
      simp only [List.map_cons, List.sum_cons, List.length_cons, Nat.cast_add, Nat.cast_one,
        Function.comp_apply]
      have h3 := abs_sub_abs_le_abs_sub ((a.sub m).mul (a.sub m)).val ((a.val - m.val) ^ 2)
      rw [abs_of_nonneg (sq_nonneg (a.val - m.val))] at h3
      have : |((a.sub m).mul (a.sub m)).val| ≤ (1 + F.u) ^ 3 * (a.val - m.val) ^ 2 + F.eta := by
        linarith
      refine (add_le_add this h1).trans (le_of_eq ?_)
      ring
  have e7 := one_add_u_pow F (l.length - 1)
  rw [pow_add]
  generalize (1 + F.u) ^ (l.length - 1) = q at *
  generalize (fsum (l.map fun x => (x.sub m).mul (x.sub m))).val = s at *
  generalize (l.map fun x => (x.val - m.val) ^ 2).sum = Y at *
  generalize (l.map (val ∘ fun x => (x.sub m).mul (x.sub m))).sum = T at *
  have a1 := abs_sub_le s T Y
  have a2 := mul_le_mul_of_nonneg_left e3 (by linarith : 0 ≤ q - 1)
  nlinarith

end Fl

/-- The mean squared distance from any number is the variance and the squared distance of that
number from the mean. -/
theorem sq_about (A : Mat (Fl F) r c) (h0 : r * c ≠ 0) (m : ℝ) :
    (∑ i, ∑ j, ((A i j).val - m) ^ 2) / (r * c) = exactVar A + (m - exactMean A) ^ 2 := by
  have hN : (r * c : ℝ) ≠ 0 := by exact_mod_cast h0
  have hS : ∑ i, ∑ j, (A i j).val = exactMean A * (r * c) := by
    unfold exactMean
    rw [div_mul_cancel₀ _ hN]
  have key : ∑ i, ∑ j, ((A i j).val - m) ^ 2 = ∑ i, ∑ j, ((A i j).val - exactMean A) ^ 2 +
      (r * c) * (m - exactMean A) ^ 2 := by
    have h1 : ∀ i j, ((A i j).val - m) ^ 2 = ((A i j).val - exactMean A) ^ 2 +
        ((2 * (exactMean A - m)) * (A i j).val + ((m - exactMean A) * (m + exactMean A))) := by
      intro i j; ring
    simp only [h1, Finset.sum_add_distrib, ← Finset.mul_sum, hS, Finset.sum_const,
      Finset.card_univ, Fintype.card_fin, nsmul_eq_mul]
    ring
  rw [key, add_div, mul_div_cancel_left₀ _ hN]
  rfl

/-- C85: a finite floating point variance of at most `2^p` elements is the exact variance up to
`N+3` roundings, the squared error of the mean (the mean is subtracted before squaring) and
underflow. -/
theorem C85_var_error (A : Mat (Fl F) r c) (h0 : r * c ≠ 0) (hn : r * c ≤ 2 ^ F.p) :
    ∃ v, var A = .ok v ∧ (v.Finite →
      |v.val - exactVar A| ≤ varErr A) := by
  unfold varErr
  obtain ⟨μ', hμ', hm⟩ := C67_mean_error A h0 hn
  obtain ⟨μ, hμ, hv⟩ := Fl.var_eq A
  obtain rfl : μ' = μ := by
    rw [hμ'] at hμ
    exact Except.ok.inj hμ
  refine ⟨_, hv, fun hf => ?_⟩
  have hS := Fl.div_finite_left hf
  have hu := Fl.u_nonneg F
  have hne : 0 < (rowMajor A).length := by
    rw [rowMajor_length]; exact Nat.pos_of_ne_zero h0
  have hμf : μ'.Finite := by
    obtain ⟨x, hx⟩ := List.exists_mem_of_length_pos hne
    exact (Fl.sub_finite (Fl.mul_finite (Fl.fsum_finite _ hS _
      (List.mem_map.mpr ⟨x, hx, rfl⟩))).1).2
  have hme : |μ'.val - exactMean A| ≤ meanErr A := hm hμf
  have hsq : (μ'.val - exactMean A) ^ 2 ≤ meanErr A ^ 2 := by
    rw [← sq_abs]
    exact pow_le_pow_left₀ (abs_nonneg _) hme 2
  have hD := sq_about A h0 μ'.val
  obtain ⟨n1, n2⟩ := Fl.val_ofInt_exact (F := F) (r * c : Nat) (by rwa [Int.natAbs_natCast])
  rw [Int.cast_natCast] at n2
  have hN : (0 : ℝ) < (r * c : Nat) := by exact_mod_cast Nat.pos_of_ne_zero h0
  have e1 := (Fl.div_rounded hS n1 (by rw [n2]; exact hN.ne')).err hf
  have e2 := Fl.sqdiff_sum_err _ _ hS
  rw [rowMajor_length, rowMajor_sum A fun x => (x.val - μ'.val) ^ 2] at e2
  have e7 := Fl.one_add_u_pow F (r * c - 1)
  have hp : r * c - 1 + 1 = r * c := Nat.sub_add_cancel (Nat.pos_of_ne_zero h0)
  have e6 : (1 + F.u) ^ (r * c) = (1 + F.u) ^ (r * c - 1) * (1 + F.u) := by
    rw [← pow_succ, hp]
  rw [n2] at e1
  rw [← Nat.cast_mul] at hD
  rw [pow_add] at e2 ⊢
  rw [e6]
  have hV : 0 ≤ exactVar A := by
    unfold exactVar
    positivity
  have hη := Fl.eta_nonneg F
  have hδ := sq_nonneg (μ'.val - exactMean A)
  generalize (1 + F.u) ^ (r * c - 1) = q at *
  generalize ((Fl.fsum ((rowMajor A).map fun x => (x.sub μ').mul (x.sub μ'))).div
    (Fl.ofInt ↑(r * c))).val = v at *
  generalize (Fl.fsum ((rowMajor A).map fun x => (x.sub μ').mul (x.sub μ'))).val = s at *
  generalize (∑ i, ∑ j, ((A i j).val - μ'.val) ^ 2) = Y at *
  generalize (μ'.val - exactMean A) ^ 2 = δ at *
  generalize meanErr A ^ 2 = Δ at *
  generalize exactVar A = V at *
  generalize ((r * c : Nat) : ℝ) = N at *
  generalize F.eta = η at *
  have a2 : |s / N - Y / N| ≤ (q * (1 + F.u) ^ 3 - 1) * (Y / N) + q * η := by
    rw [← sub_div, abs_div, abs_of_pos hN]
    calc |s - Y| / N ≤ ((q * (1 + F.u) ^ 3 - 1) * Y + q * (N * η)) / N :=
          div_le_div_of_nonneg_right e2 hN.le
      _ = _ := by field_simp
  rw [hD] at a2
  have b1 : 0 ≤ q * (1 + F.u) ^ 3 := by positivity
  generalize hg : q * (1 + F.u) ^ 3 = g at *
  have e8 : q * (1 + F.u) * (1 + F.u) ^ 3 = g * (1 + F.u) := by rw [← hg]; ring
  rw [e8]
  generalize s / N = t at *
  generalize F.u = u at *
  have a3 := abs_sub_le v t V
  have a4 : |t - V| ≤ |t - (V + δ)| + δ := by
    have := abs_sub_le t (V + δ) V
    rw [add_sub_cancel_left, abs_of_nonneg hδ] at this
    exact this
  have a5 : |t| ≤ g * (V + δ) + q * η := by
    have := abs_sub_abs_le_abs_sub t (V + δ)
    rw [abs_of_nonneg (add_nonneg hV hδ)] at this
    linarith
  have a6 := mul_le_mul_of_nonneg_left a5 hu
  have a7 : g * (1 + u) * δ ≤ g * (1 + u) * Δ := mul_le_mul_of_nonneg_left hsq (by positivity)
  nlinarith

/-- C85: a finite standard deviation is the square root of the exact variance up to one rounding
and the error of the variance. -/
theorem C85_stddev_error (A : Mat (Fl F) r c) (h0 : r * c ≠ 0) (hn : r * c ≤ 2 ^ F.p) :
    ∃ s, stddev A = .ok s ∧ (s.Finite →
      |s.val - Real.sqrt (exactVar A)| ≤
        F.u * Real.sqrt (exactVar A) + (1 + F.u) * Real.sqrt (varErr A) + F.eta ∧
      (0 < exactVar A → |s.val - Real.sqrt (exactVar A)| ≤
        F.u * Real.sqrt (exactVar A) + (1 + F.u) * (varErr A / Real.sqrt (exactVar A)) +
          F.eta)) := by
  obtain ⟨v, hv, he⟩ := C85_var_error A h0 hn
  refine ⟨v.sqrt, by unfold stddev; rw [hv]; rfl, fun hf => ?_⟩
  obtain ⟨hvf, hv0⟩ := Fl.sqrt_arg hf
  have e1 := (Fl.sqrt_rounded hvf hv0).err hf
  rw [abs_of_nonneg (Real.sqrt_nonneg _)] at e1
  have e2 := he hvf
  have hu := Fl.u_nonneg F
  have hV : 0 ≤ exactVar A := by
    unfold exactVar
    positivity
  have hs := Real.sq_sqrt hv0
  have hS := Real.sq_sqrt hV
  have hp := Real.sqrt_nonneg v.val
  have hP := Real.sqrt_nonneg (exactVar A)
  have key : ∀ d : ℝ, |Real.sqrt v.val - Real.sqrt (exactVar A)| ≤ d →
      |v.sqrt.val - Real.sqrt (exactVar A)| ≤
        F.u * Real.sqrt (exactVar A) + (1 + F.u) * d + F.eta := by
    intro d hd
    have a1 := abs_sub_le v.sqrt.val (Real.sqrt v.val) (Real.sqrt (exactVar A))
    have a2 : Real.sqrt v.val ≤ Real.sqrt (exactVar A) + d := by
      have := (abs_le.mp hd).2
      linarith
    have a3 := mul_le_mul_of_nonneg_left a2 hu
    linarith
  have fac : |v.val - exactVar A| = |Real.sqrt v.val - Real.sqrt (exactVar A)| *
      (Real.sqrt v.val + Real.sqrt (exactVar A)) := by
    rw [← abs_of_nonneg (add_nonneg hp hP), ← abs_mul]
    congr 1
    nlinarith [hS, hs]
  refine ⟨key _ ?_, fun hpos => key _ ?_⟩
  · refine Real.le_sqrt_of_sq_le (le_trans ?_ e2)
    rw [fac, sq]
    refine mul_le_mul_of_nonneg_left ?_ (abs_nonneg _)
    rw [abs_le]
    constructor <;> linarith
  · have hpos' := Real.sqrt_pos.mpr hpos
    rw [le_div_iff₀ hpos']
    refine le_trans ?_ e2
    rw [fac]
    exact mul_le_mul_of_nonneg_left (by linarith) (abs_nonneg _)

/-- The hypotheses are met, with a result that is not exact: the variance of 0, 0 and 1 is 2/9. -/
example : ∃ v, var (!![Fl.ofInt 0, Fl.ofInt 0, Fl.ofInt 1] : Mat (Fl binary32) 1 3) = .ok v ∧
    v.Finite := ⟨_, rfl, by decide +kernel⟩

/-- The squared error of the mean is needed: equal elements have variance 0, but `float` returns
1. -/
example : var (!![Fl.ofInt 16777214, Fl.ofInt 16777214, Fl.ofInt 16777214] :
    Mat (Fl binary32) 1 3) = .ok (Fl.ofInt 1) := by decide +kernel

end MatrixLibs
