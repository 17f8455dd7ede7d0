import Verif.Proof.FloatMat
import Verif.Proof.Scan
import Verif.Spec.Float
import Mathlib.LinearAlgebra.Matrix.Notation

/-!
# Properties C42, C64 to C70: matrices of `float` and `double`

`Fl F` is an IEEE 754 binary format; `binary32` is `float`, `binary64` is `double`. `a.val` is the
real value of a finite number, `F.u` the unit roundoff, `F.eta` half the smallest positive number.
-/

namespace MatrixLibs

set_option linter.unusedSectionVars false

variable {F : Fmt} {r c n m p : Nat}

/-! ## C42: compare -/

/-- C42, exact behaviour: `compare` is true iff no rounded difference compares greater than
`eps`. -/
theorem C42_compare_partial (A B : Mat (Fl F) r c) (eps : Fl F) :
    ∃ b, compare A B eps = .ok b ∧
      (b = true ↔ ∀ i j, eps.lt ((A i j).sub (B i j)).abs = false) := by
  unfold compare compareLoop
  refine scan_ok (fun it jt => do
      let d ← CScalar.abs (← CScalar.sub (← rd A it jt) (← rd B it jt))
      if CScalar.lt eps d then .ok (.ret false)
      else .ok (.cont ())) (fun i j => eps.lt ((A i j).sub (B i j)).abs = false) ?_ ?_
  · intro a b h
    rw [rd_fin, ok_bind, rd_fin, ok_bind]
    show (if eps.lt ((A a b).sub (B a b)).abs = true then _ else _) = _
    rw [h]
    rfl
  · intro a b h
    rw [rd_fin, ok_bind, rd_fin, ok_bind]
    show (if eps.lt ((A a b).sub (B a b)).abs = true then _ else _) = _
    rw [(Bool.not_eq_false _).mp h]
    rfl

theorem Fl.not_lt_nan (a : Fl F) : a.lt .nan = false := by
  cases a <;> rfl

theorem Fl.nan_not_lt (a : Fl F) : Fl.lt .nan a = false := by
  cases a <;> rfl

/-- C42 is false: a matrix of NaNs compares equal to every matrix with every tolerance. -/
theorem C42_false (B : Mat (Fl F) r c) (eps : Fl F) : compare (Mat.const .nan) B eps = .ok true := by
  obtain ⟨b, hb, h⟩ := C42_compare_partial (Mat.const .nan) B eps
  rw [hb]
  congr 1
  rw [h]
  intro i j
  show eps.lt (Fl.sub .nan (B i j)).abs = false
  rw [Fl.nan_sub]
  exact Fl.not_lt_nan eps

/-- C42 is false: with a NaN tolerance all matrices compare equal. -/
theorem C42_false_tolerance (A B : Mat (Fl F) r c) : compare A B .nan = .ok true := by
  obtain ⟨b, hb, h⟩ := C42_compare_partial A B .nan
  rw [hb]
  congr 1
  rw [h]
  exact fun i j => Fl.nan_not_lt _

theorem Fl.u_lt_one (F : Fmt) : F.u < 1 := by
  unfold Fmt.u
  rw [div_lt_one (by positivity)]
  exact one_lt_pow₀ (by norm_num) (by have := F.hp; omega)

theorem Fl.lt_inf {a : Fl F} (ha : a.Finite) : a.lt (.inf false) = true := by
  match a, ha with
  | .fin s N h, _ =>
    simp only [Fl.lt, Fl.key, decide_eq_true_eq]
    exact (Fl.signed_lt_bound h).1

theorem Fl.sub_ne_nan {a b : Fl F} (ha : a.Finite) (hb : b.Finite) : a.sub b ≠ .nan := by
  match a, b, ha, hb with
  | .fin s M hM, .fin t N hN, _, _ => exact Fl.roundInt_ne_nan

/-- C42 for finite matrices and tolerance: differences within the tolerance are accepted; accepted
differences are within the tolerance up to the rounding of the subtraction. -/
theorem C42_compare_finite_partial (A B : Mat (Fl F) r c) (eps : Fl F)
    (hA : ∀ i j, (A i j).Finite) (hB : ∀ i j, (B i j).Finite) (he : eps.Finite) :
    ∃ b, compare A B eps = .ok b ∧
      ((∀ i j, |(A i j).val - (B i j).val| ≤ eps.val) → b = true) ∧
      (b = true → ∀ i j, |(A i j).val - (B i j).val| * (1 - F.u) ≤ eps.val) := by
  obtain ⟨b, hb, h⟩ := C42_compare_partial A B eps
  refine ⟨b, hb, fun hle => h.mpr fun i j => ?_, fun ht i j => ?_⟩
  · obtain ⟨h1, h2⟩ := (Fl.sub_rounded (hA i j) (hB i j)).le he ((hle i j).trans (le_abs_self _))
    rw [← Bool.not_eq_true, Fl.lt_iff he ((Fl.abs_finite _).mpr h1), not_lt, Fl.abs_val]
    have : 0 ≤ eps.val := (abs_nonneg _).trans (hle i j)
    rwa [abs_of_nonneg this] at h2
  · have h1 := h.mp ht i j
    have hf : ((A i j).sub (B i j)).Finite := by
      cases hs : (A i j).sub (B i j) with
      | nan => exact absurd hs (Fl.sub_ne_nan (hA i j) (hB i j))
      | inf s =>
        rw [hs] at h1
        have := Fl.lt_inf he
        rw [show (Fl.inf s : Fl F).abs = .inf false from rfl, this] at h1
        cases h1
      | fin s N hN => trivial
    rw [← Bool.not_eq_true, Fl.lt_iff he ((Fl.abs_finite _).mpr hf), not_lt, Fl.abs_val] at h1
    have h2 := Fl.sub_err hf
    have h3 := abs_sub_abs_le_abs_sub ((A i j).val - (B i j).val) ((A i j).sub (B i j)).val
    rw [abs_sub_comm (_ - _)] at h3
    nlinarith

example : compare (!![Fl.ofInt 3, .nan] : Mat (Fl binary32) 1 2) !![Fl.ofInt 3, Fl.ofInt 7]
    (Fl.ofInt 0) = .ok true := by decide +kernel
example : compare (!![Fl.ofInt 3, .inf false] : Mat (Fl binary32) 1 2) !![Fl.ofInt 3, .inf false]
    (Fl.ofInt 0) = .ok true := by decide +kernel
example : compare (!![Fl.ofInt 3, Fl.ofInt 5] : Mat (Fl binary32) 1 2) !![Fl.ofInt 3, Fl.ofInt 7]
    (Fl.ofInt 1) = .ok false := by decide +kernel
example : compare (!![Fl.ofInt 3, Fl.ofInt 5] : Mat (Fl binary64) 1 2) !![Fl.ofInt 3, Fl.ofInt 7]
    (Fl.ofInt 2) = .ok true := by decide +kernel

/-! ## C64: no undefined behaviour on floating point elements -/

section
variable {i j : Nat}

/-- C64: addition, subtraction, multiplication and absolute value always return. -/
theorem C64_arith (A B : Mat (Fl F) i j) (C : Mat (Fl F) j n) (s : Fl F) :
    Returns (opAdd A B) ∧ Returns (opSub A B) ∧ Returns (opMul A C) ∧ Returns (opAddScalar A s) ∧
      Returns (opSubScalar A s) ∧ Returns (opMulScalar A s) ∧ Returns (abs A) :=
  ⟨(safe_sum A B).returns, (safe_sub A B).returns, (safe_mult A C).returns,
    (safe_sumScalar A s).returns, (safe_subScalar A s).returns, (safe_multScalar A s).returns,
    (safe_abs A).returns⟩

/-- C64: division by a scalar returns unless the scalar is a zero; then it terminates, or rethrows
the exception being handled. -/
theorem C64_div (handled : Option Exc) (A : Mat (Fl F) i j) (s : Fl F) :
    ((Fl.eq s (Fl.ofInt 0)) = false → Returns (opDiv handled A s)) ∧
      ReturnsOrThrows (opDiv handled A s) := by
  refine ⟨fun h => ?_, (safe_div handled A s).returnsOrThrows⟩
  refine ⟨.of fun a b => (A a b).div s, ?_⟩
  exact (div_elementwise handled A s h).eq_ok fun _ _ => rfl

/-- C64: the determinant always returns (a float, possibly NaN). -/
theorem C64_det (A : Mat (Fl F) n n) : Returns (det A) := (safe_detA A).returns

/-- C64: the inverse returns or throws; there is no undefined behaviour for any contents. -/
theorem C64_inv (handled : Option Exc) (A : Mat (Fl F) n n) (hn : n ≠ 0) :
    ReturnsOrThrows (inv handled A) :=
  (safe_inv handled A fun h => absurd h hn).returnsOrThrows

/-- C64: `lu` returns or throws. -/
theorem C64_lu (A : Mat (Fl F) n n) : ReturnsOrThrows (lu A) := (safe_lu A).returnsOrThrows

/-- C64: `chol` always returns, also for matrices that are not positive definite. -/
theorem C64_chol (A : Mat (Fl F) n n) : Returns (chol A) := (safe_chol A).returns

/-- C64: `pow` returns or throws, except for the most negative exponent. -/
theorem C64_pow (handled : Option Exc) (w : Nat) (A : Mat (Fl F) n n) (p : Int) (hn : n ≠ 0)
    (hp : p ≠ expMin w) : ReturnsOrThrows (pow handled w A p) :=
  (safe_pow handled w A p (fun h => absurd h hn) (fun h => absurd h hp)).returnsOrThrows

/-- C64: the convolutions always return. -/
theorem C64_conv (A : Mat (Fl F) i j) (B : Mat (Fl F) n n) (k : Mat (Fl F) 3 3)
    (hi : i + 1 < 2 ^ 32) (hj : j + 1 < 2 ^ 32) (hn : 2 ≤ n) (hn' : n < 2 ^ 32) :
    Returns (conv2 A k) ∧ Returns (conv2_full A k) ∧ Returns (conv2_valid B k) :=
  ⟨(safe_conv2 A k (by omega) (by omega)).returns, (safe_conv2_full A k hi hj).returns,
    (safe_conv2_valid B k hn hn').returns⟩

/-- C64: the statistics always return, also for empty matrices (NaN). -/
theorem C64_stats (A : Mat (Fl F) i j) :
    Returns (mean A) ∧ Returns (var A) ∧ Returns (stddev A) :=
  ⟨(safe_mean A).returns, (safe_var A).returns, (safe_stddev A).returns⟩

/-- C64: comparison, symmetry test and the 2x2 Strassen product always return. -/
theorem C64_misc (A B : Mat (Fl F) i j) (eps : Fl F) (C : Mat (Fl F) n n) (D E : Mat (Fl F) 2 2) :
    Returns (compare A B eps) ∧ Returns (isSymetric C) ∧ Returns (strassen D E) :=
  ⟨(safe_compare A B eps).returns, (safe_isSymetric C).returns, (safe_strassen D E).returns⟩

end

example : det (!![Fl.ofInt 1, Fl.ofInt 2; Fl.ofInt 3, Fl.ofInt 4] : Mat (Fl binary32) 2 2) =
    .ok (Fl.ofInt (-2)) := by decide +kernel
example : det (!![.inf false, .inf false; .inf false, .inf true] : Mat (Fl binary32) 2 2) =
    .ok (.inf true) := by decide +kernel
/-- A 1x1 zero matrix has an inverse: infinity. -/
example : inv none (!![Fl.ofInt 0] : Mat (Fl binary32) 1 1) = .ok !![.inf false] := by
  decide +kernel
/-- The Cholesky factor of a matrix that is not positive definite is NaN. -/
example : chol (!![Fl.ofInt (-1)] : Mat (Fl binary32) 1 1) = .ok !![.nan] := by decide +kernel

/-! ## C65: elementwise operations are correctly rounded -/

/-- C65: every element of `A + B` is the exact sum, correctly rounded. -/
theorem C65_add (A B : Mat (Fl F) r c) :
    ∃ C, opAdd A B = .ok C ∧ ∀ i j, (A i j).Finite → (B i j).Finite →
      Fl.Rounded ((A i j).val + (B i j).val) (C i j) :=
  ⟨_, Fl.sum_eq A B, fun _ _ hA hB => Fl.add_rounded hA hB⟩

/-- C65: every element of `A - B` is the exact difference, correctly rounded. -/
theorem C65_sub (A B : Mat (Fl F) r c) :
    ∃ C, opSub A B = .ok C ∧ ∀ i j, (A i j).Finite → (B i j).Finite →
      Fl.Rounded ((A i j).val - (B i j).val) (C i j) :=
  ⟨_, Fl.sub_eq A B, fun _ _ hA hB => Fl.sub_rounded hA hB⟩

/-- C65: every element of `A + s` is the exact sum, correctly rounded. -/
theorem C65_add_scalar (A : Mat (Fl F) r c) (s : Fl F) (hs : s.Finite) :
    ∃ C, opAddScalar A s = .ok C ∧ ∀ i j, (A i j).Finite →
      Fl.Rounded ((A i j).val + s.val) (C i j) :=
  ⟨_, Fl.sumScalar_eq A s, fun _ _ hA => Fl.add_rounded hA hs⟩

/-- C65: every element of `A - s` is the exact difference, correctly rounded. -/
theorem C65_sub_scalar (A : Mat (Fl F) r c) (s : Fl F) (hs : s.Finite) :
    ∃ C, opSubScalar A s = .ok C ∧ ∀ i j, (A i j).Finite →
      Fl.Rounded ((A i j).val - s.val) (C i j) :=
  ⟨_, Fl.subScalar_eq A s, fun _ _ hA => Fl.sub_rounded hA hs⟩

/-- C65: every element of `A * s` is the exact product, correctly rounded. -/
theorem C65_mul_scalar (A : Mat (Fl F) r c) (s : Fl F) (hs : s.Finite) :
    ∃ C, opMulScalar A s = .ok C ∧ ∀ i j, (A i j).Finite →
      Fl.Rounded ((A i j).val * s.val) (C i j) :=
  ⟨_, Fl.multScalar_eq A s, fun _ _ hA => Fl.mul_rounded hA hs⟩

theorem Fl.eq_zero_iff {s : Fl F} (hs : s.Finite) : s.eq (Fl.ofInt 0) = true ↔ s.val = 0 := by
  rw [Fl.eq_iff hs Fl.zero_finite, Fl.zero_val]

/-- C65: every element of `A / s` is the exact quotient, correctly rounded. -/
theorem C65_div_scalar (handled : Option Exc) (A : Mat (Fl F) r c) (s : Fl F) (hs : s.Finite)
    (h0 : s.val ≠ 0) :
    ∃ C, opDiv handled A s = .ok C ∧ ∀ i j, (A i j).Finite →
      Fl.Rounded ((A i j).val / s.val) (C i j) := by
  refine ⟨.of fun a b => (A a b).div s, ?_, fun _ _ hA => Fl.div_rounded hA hs h0⟩
  have h : s.eq (Fl.ofInt 0) = false := by
    rw [← Bool.not_eq_true, Fl.eq_zero_iff hs]
    exact h0
  exact (div_elementwise handled A s h).eq_ok fun _ _ => rfl

/-- C65: the absolute value is exact. -/
theorem C65_abs (A : Mat (Fl F) r c) :
    ∃ C, abs A = .ok C ∧ ∀ i j, (A i j).Finite → (C i j).Finite ∧ (C i j).val = |(A i j).val| :=
  ⟨.of fun a b => (A a b).abs, (abs_elementwise A).eq_ok fun _ _ => rfl,
    fun _ _ h => ⟨(Fl.abs_finite _).mpr h, Fl.abs_val _⟩⟩

/-- C65: addition is commutative, bit for bit. -/
theorem C65_add_comm (A B : Mat (Fl F) r c) : opAdd A B = opAdd B A := by
  unfold opAdd
  rw [Fl.sum_eq, Fl.sum_eq]
  congr 1
  ext a b
  exact Fl.add_comm' _ _

/-- C65: `A - A` is `+0` everywhere for a finite `A`. -/
theorem C65_sub_self (A : Mat (Fl F) r c) (h : ∀ i j, (A i j).Finite) :
    opSub A A = zeros (T := Fl F) r c := by
  unfold opSub
  rw [Fl.sub_eq, zeros_ok]
  congr 1
  ext a b
  show (A a b).sub (A a b) = Fl.ofInt 0
  have := h a b
  match A a b, this with
  | .fin s N hN, _ =>
    simp only [Fl.sub, Fl.neg, Fl.add]
    rw [Fl.ofInt_zero]
    have e : Fl.signed s N + Fl.signed (!s) N = 0 := by
      cases s <;> simp [Fl.signed]
    rw [e]
    unfold Fl.roundInt
    rw [if_pos rfl]
    cases s <;> rfl

/-- C65: an element of `A - B` is a zero iff the two elements are equal: differences never
underflow. -/
theorem C65_sub_zero_iff (A B : Mat (Fl F) r c) :
    ∃ C, opSub A B = .ok C ∧ ∀ i j, (A i j).Finite → (B i j).Finite →
      ((C i j).eq (Fl.ofInt 0) = true ↔ (A i j).eq (B i j) = true) := by
  refine ⟨_, Fl.sub_eq A B, fun i j hA hB => ?_⟩
  rw [Fl.eq_iff hA hB]
  show ((A i j).sub (B i j)).eq (Fl.ofInt 0) = true ↔ _
  constructor
  · intro h
    have hf : ((A i j).sub (B i j)).Finite := by
      cases hs : (A i j).sub (B i j) with
      | nan => exact absurd hs (Fl.sub_ne_nan hA hB)
      | inf s =>
        rw [hs, Fl.ofInt_zero'] at h
        simp only [Fl.eq, Fl.key, decide_eq_true_eq] at h
        have := Fl.bound_pos F
        cases s <;> simp [Fl.signed] at h <;> omega
      | fin s N hN => trivial
    have h1 := (Fl.eq_zero_iff hf).mp h
    have h2 := Fl.sub_err hf
    rw [h1, zero_sub, abs_neg] at h2
    have h3 := Fl.u_lt_one F
    have h4 := abs_nonneg ((A i j).val - (B i j).val)
    have : |(A i j).val - (B i j).val| = 0 := by nlinarith
    exact sub_eq_zero.mp (abs_eq_zero.mp this)
  · intro h
    have := Fl.sub_rounded hA hB
    rw [h, sub_self] at this
    obtain ⟨h1, h2⟩ := this.exact 0 (by simp) Fl.rep_zero
    exact (Fl.eq_zero_iff h1).mpr h2

/-- C65: transposition reverses products, bit for bit: `trans(A * B) == trans(B) * trans(A)`. -/
theorem C65_trans_mul (A : Mat (Fl F) n m) (B : Mat (Fl F) m p) :
    (do trans (← opMul A B)) = (do opMul (← trans B) (← trans A)) := by
  unfold opMul
  rw [Fl.mult_eq, trans_ok, trans_ok, ok_bind, ok_bind, ok_bind, trans_ok, Fl.mult_eq]
  congr 1
  ext a b
  show Fl.fsum (Fl.terms A B b a) = Fl.fsum (Fl.terms B.transpose A.transpose a b)
  congr 1
  unfold Fl.terms
  congr 1
  funext k
  exact Fl.mul_comm' _ _

/-- Addition is not associative: `(2^24 + 1) + 1` and `2^24 + (1 + 1)` differ in `float`. -/
example : opAdd (!![Fl.ofInt 16777216] : Mat (Fl binary32) 1 1) !![Fl.ofInt 1] =
    .ok !![Fl.ofInt 16777216] := by decide +kernel
example : opAdd (!![Fl.ofInt 16777216] : Mat (Fl binary32) 1 1) !![Fl.ofInt 2] =
    .ok !![Fl.ofInt 16777218] := by decide +kernel
/-- 1/3 in `float`: `11184811 * 2^-25`. -/
example : opDiv none (!![Fl.ofInt 1] : Mat (Fl binary32) 1 1) (Fl.ofInt 3) =
    .ok !![Fl.div (Fl.ofInt 11184811) (Fl.ofInt (2 ^ 25))] := by decide +kernel
/-- The smallest positive `float` halves to zero, but its difference to another number does not
vanish. -/
example : opMulScalar (!![Fl.pack false 1] : Mat (Fl binary32) 1 1)
    (Fl.div (Fl.ofInt 1) (Fl.ofInt 2)) = .ok !![Fl.ofInt 0] := by decide +kernel
example : opSub (!![Fl.pack false 3] : Mat (Fl binary32) 1 1) !![Fl.pack false 2] =
    .ok !![Fl.pack false 1] := by decide +kernel

/-! ## C66: error of the product -/

namespace Fl

theorem terms_err (A : Mat (Fl F) n m) (B : Mat (Fl F) m p) (a : Fin n) (b : Fin p)
    (h : (fsum (terms A B a b)).Finite) :
    |(fsum (terms A B a b)).val - ∑ k, (A a k).val * (B k b).val| ≤
      ((1 + F.u) ^ m - 1) * ∑ k, |(A a k).val| * |(B k b).val| +
        m * (1 + F.u) ^ (m - 1) * F.eta := by
  have hu := u_nonneg F
  have he := eta_nonneg F
  rcases Nat.eq_zero_or_pos m with rfl | hm
  · simp [terms, fsum, zero_val]
  have hfin := fsum_finite _ h
  have e1 := fsum_err _ h
  have hlen : (terms A B a b).length = m := by simp [terms]
  rw [hlen] at e1
  have ht : ∀ k, ((A a k).mul (B k b)).Finite := fun k =>
    hfin _ (List.mem_map.mpr ⟨k, List.mem_finRange k, rfl⟩)
  have e2 : ((terms A B a b).map val).sum = ∑ k, ((A a k).mul (B k b)).val := by
    unfold terms
    rw [List.map_map, sum_finRange]
    rfl
  have e3 : ((terms A B a b).map fun x => |x.val|).sum = ∑ k, |((A a k).mul (B k b)).val| := by
    unfold terms
    rw [List.map_map, sum_finRange]
    rfl
  rw [e2, e3] at e1
  have e4 : |∑ k, ((A a k).mul (B k b)).val - ∑ k, (A a k).val * (B k b).val| ≤
      F.u * ∑ k, |(A a k).val| * |(B k b).val| + m * F.eta := by
    rw [← Finset.sum_sub_distrib]
    refine (Finset.abs_sum_le_sum_abs _ _).trans ?_
    rw [Finset.mul_sum]
    calc _ ≤ ∑ k : Fin m, (F.u * (|(A a k).val| * |(B k b).val|) + F.eta) := by
          refine Finset.sum_le_sum fun k _ => ?_
          rw [← abs_mul]
          exact mul_err (ht k)
      _ = _ := by
          rw [Finset.sum_add_distrib, Finset.sum_const, Finset.card_univ, Fintype.card_fin,
            nsmul_eq_mul]
  have e5 : ∑ k, |((A a k).mul (B k b)).val| ≤
      (1 + F.u) * ∑ k, |(A a k).val| * |(B k b).val| + m * F.eta := by
    rw [Finset.mul_sum]
    calc _ ≤ ∑ k : Fin m, ((1 + F.u) * (|(A a k).val| * |(B k b).val|) + F.eta) := by
          refine Finset.sum_le_sum fun k _ => ?_
          have h1 := mul_err (ht k)
          have h2 := abs_sub_abs_le_abs_sub ((A a k).mul (B k b)).val ((A a k).val * (B k b).val)
          rw [abs_mul] at h1 h2
          linarith
      _ = _ := by
          rw [Finset.sum_add_distrib, Finset.sum_const, Finset.card_univ, Fintype.card_fin,
            nsmul_eq_mul]
  have e6 : (1 + F.u) ^ m = (1 + F.u) ^ (m - 1) * (1 + F.u) := by
    rw [← pow_succ, Nat.sub_add_cancel hm]
  have e7 := one_add_u_pow F (m - 1)
  rw [e6]
  generalize (1 + F.u) ^ (m - 1) = q at *
  have a1 := mul_le_mul_of_nonneg_left e5 (by linarith : 0 ≤ q - 1)
  have a2 := abs_sub_le (fsum (terms A B a b)).val (∑ k, ((A a k).mul (B k b)).val)
    (∑ k, (A a k).val * (B k b).val)
  nlinarith

end Fl

/-- C66: a finite element of `A * B` is the exact dot product up to the standard bound, which is
proportional to the sum of the absolute values of its terms. `m` is the common dimension. -/
theorem C66_mul_error (A : Mat (Fl F) n m) (B : Mat (Fl F) m p) :
    ∃ P, opMul A B = .ok P ∧ ∀ a b, (P a b).Finite →
      |(P a b).val - ∑ k, (A a k).val * (B k b).val| ≤
        ((1 + F.u) ^ m - 1) * ∑ k, |(A a k).val| * |(B k b).val| +
          m * (1 + F.u) ^ (m - 1) * F.eta :=
  ⟨_, Fl.mult_eq A B, fun a b h => Fl.terms_err A B a b h⟩

/-- The hypothesis is met: a product with a rounded, finite element, and one that overflows. -/
example : opMul (!![Fl.ofInt 16777216, Fl.ofInt 1] : Mat (Fl binary32) 1 2)
    !![Fl.ofInt 1; Fl.ofInt 1] = .ok !![Fl.ofInt 16777216] := by decide +kernel
example : opMul (!![Fl.ofInt (2 ^ 100), Fl.ofInt 1] : Mat (Fl binary32) 1 2)
    !![Fl.ofInt (2 ^ 100); Fl.ofInt 1] = .ok !![.inf false] := by decide +kernel

/-! ## C67: error of the mean -/

/-- C67: a finite mean of at most `2^p` elements is the exact mean up to the standard bound. -/
theorem C67_mean_error (A : Mat (Fl F) r c) (h0 : r * c ≠ 0) (hn : r * c ≤ 2 ^ F.p) :
    ∃ μ, mean A = .ok μ ∧ (μ.Finite →
      |μ.val - (∑ i, ∑ j, (A i j).val) / (r * c)| ≤
        ((1 + F.u) ^ (r * c) - 1) * ((∑ i, ∑ j, |(A i j).val|) / (r * c)) + F.eta) := by
  refine ⟨_, Fl.mean_eq A, fun hf => ?_⟩
  have hS := Fl.div_finite_left hf
  have hu := Fl.u_nonneg F
  obtain ⟨n1, n2⟩ := Fl.val_ofInt_exact (F := F) (r * c : Nat) (by rwa [Int.natAbs_natCast])
  rw [Int.cast_natCast] at n2
  have hN : (0 : ℝ) < (r * c : Nat) := by exact_mod_cast Nat.pos_of_ne_zero h0
  have e1 := (Fl.div_rounded hS n1 (by rw [n2]; exact hN.ne')).err hf
  have e2 := Fl.fsum_err _ hS
  rw [rowMajor_length, rowMajor_sum A Fl.val, rowMajor_sum A fun x => |x.val|] at e2
  have e3 := Fl.abs_sum_le (rowMajor A)
  rw [rowMajor_sum A Fl.val, rowMajor_sum A fun x => |x.val|] at e3
  have e7 := Fl.one_add_u_pow F (r * c - 1)
  have e6 : (1 + F.u) ^ (r * c) = (1 + F.u) ^ (r * c - 1) * (1 + F.u) := by
    rw [← pow_succ, Nat.sub_add_cancel (Nat.pos_of_ne_zero h0)]
  rw [e6]
  rw [n2] at e1
  rw [← Nat.cast_mul]
  generalize (1 + F.u) ^ (r * c - 1) = q at *
  generalize ((Fl.fsum (rowMajor A)).div (Fl.ofInt ↑(r * c))).val = μ at *
  generalize (Fl.fsum (rowMajor A)).val = s at *
  generalize (∑ i, ∑ j, (A i j).val) = S at *
  generalize (∑ i, ∑ j, |(A i j).val|) = B at *
  generalize ((r * c : Nat) : ℝ) = N at *
  have hs : |s| ≤ q * B := by
    have := abs_sub_abs_le_abs_sub s S
    linarith
  have a1 : |s / N| ≤ q * (B / N) := by
    rw [abs_div, abs_of_pos hN, ← mul_div_assoc]
    exact div_le_div_of_nonneg_right hs hN.le
  have a2 : |s / N - S / N| ≤ (q - 1) * (B / N) := by
    rw [← sub_div, abs_div, abs_of_pos hN, ← mul_div_assoc]
    exact div_le_div_of_nonneg_right e2 hN.le
  have a3 := abs_sub_le μ (s / N) (S / N)
  have a4 := mul_le_mul_of_nonneg_left a1 hu
  nlinarith

/-- The mean of 1, 1 and 2 in `float`, `11184811 * 2^-23`, is not exact. -/
example : mean (!![Fl.ofInt 1, Fl.ofInt 1, Fl.ofInt 2] : Mat (Fl binary32) 1 3) =
    .ok (Fl.div (Fl.ofInt 11184811) (Fl.ofInt (2 ^ 23))) := by decide +kernel
/-- The mean of large finite elements overflows. -/
example : mean (!![Fl.ofInt (2 ^ 127), Fl.ofInt (2 ^ 127)] : Mat (Fl binary32) 1 2) =
    .ok (.inf false) := by decide +kernel

/-! ## C68: non-finite elements are not masked -/

/-- C68: sums, differences and products are only finite if everything they are computed from
is. -/
theorem C68_arith (A B : Mat (Fl F) r c) :
    (∃ C, opAdd A B = .ok C ∧ ∀ i j, (C i j).Finite → (A i j).Finite ∧ (B i j).Finite) ∧
      (∃ C, opSub A B = .ok C ∧ ∀ i j, (C i j).Finite → (A i j).Finite ∧ (B i j).Finite) :=
  ⟨⟨_, Fl.sum_eq A B, fun _ _ h => Fl.add_finite h⟩, ⟨_, Fl.sub_eq A B, fun _ _ h => Fl.sub_finite h⟩⟩

/-- C68: an element of `A * B` is only finite if its row of `A` and column of `B` are. -/
theorem C68_mul (A : Mat (Fl F) n m) (B : Mat (Fl F) m p) :
    ∃ P, opMul A B = .ok P ∧ ∀ a b, (P a b).Finite → ∀ k, (A a k).Finite ∧ (B k b).Finite :=
  ⟨_, Fl.mult_eq A B, fun _ _ h k => Fl.mul_finite
    (Fl.fsum_finite _ h _ (List.mem_map.mpr ⟨k, List.mem_finRange k, rfl⟩))⟩

/-- C68: a NaN in a row of `A` or a column of `B` makes the element of the product NaN. -/
theorem C68_mul_nan (A : Mat (Fl F) n m) (B : Mat (Fl F) m p) :
    ∃ P, opMul A B = .ok P ∧ ∀ a b k, A a k = .nan ∨ B k b = .nan → P a b = .nan := by
  refine ⟨_, Fl.mult_eq A B, fun a b k h => Fl.fsum_nan _ (List.mem_map.mpr
    ⟨k, List.mem_finRange k, ?_⟩)⟩
  rcases h with h | h
  · rw [h, Fl.nan_mul]
  · rw [h, Fl.mul_nan]

theorem Fl.sqrt_finite {a : Fl F} (h : a.sqrt.Finite) : a.Finite := by
  cases a with
  | nan => exact h
  | inf s => cases s <;> exact h
  | fin s N hN => trivial

/-- C68: the mean is only finite if all elements are. -/
theorem C68_mean (A : Mat (Fl F) r c) :
    ∃ μ, mean A = .ok μ ∧ (μ.Finite → ∀ i j, (A i j).Finite) :=
  ⟨_, Fl.mean_eq A, fun h i j =>
    Fl.fsum_finite _ (Fl.div_finite_left h) _ ((mem_rowMajor A _).mpr ⟨i, j, rfl⟩)⟩

/-- C68: the variance and the standard deviation are only finite if all elements are. -/
theorem C68_var (A : Mat (Fl F) r c) :
    ∃ v s, var A = .ok v ∧ stddev A = .ok s ∧ (v.Finite → ∀ i j, (A i j).Finite) ∧
      (s.Finite → ∀ i j, (A i j).Finite) := by
  obtain ⟨μ, -, hv⟩ := Fl.var_eq A
  have key : ((Fl.fsum ((rowMajor A).map fun x => (x.sub μ).mul (x.sub μ))).div
      (Fl.ofInt (r * c : Nat))).Finite → ∀ i j, (A i j).Finite := by
    intro h i j
    have := Fl.fsum_finite _ (Fl.div_finite_left h) _
      (List.mem_map.mpr ⟨A i j, (mem_rowMajor A _).mpr ⟨i, j, rfl⟩, rfl⟩)
    exact (Fl.sub_finite (Fl.mul_finite this).1).1
  refine ⟨_, _, hv, ?_, key, fun h => key (Fl.sqrt_finite h)⟩
  unfold stddev
  rw [hv]
  rfl

/-- C68: the mean is NaN if an element is. -/
theorem C68_mean_nan (A : Mat (Fl F) r c) (h : ∃ i j, A i j = .nan) : mean A = .ok .nan := by
  obtain ⟨i, j, h⟩ := h
  rw [Fl.mean_eq, Fl.fsum_nan _ ((mem_rowMajor A _).mpr ⟨i, j, h⟩), Fl.nan_div]

/-- C68: a NaN in either operand makes the element of the sum and of the difference NaN. -/
theorem C68_arith_nan (A B : Mat (Fl F) r c) :
    (∃ C, opAdd A B = .ok C ∧ ∀ i j, A i j = .nan ∨ B i j = .nan → C i j = .nan) ∧
      (∃ C, opSub A B = .ok C ∧ ∀ i j, A i j = .nan ∨ B i j = .nan → C i j = .nan) := by
  refine ⟨⟨_, Fl.sum_eq A B, fun i j h => ?_⟩, ⟨_, Fl.sub_eq A B, fun i j h => ?_⟩⟩
  · show Fl.add (A i j) (B i j) = .nan
    rcases h with h | h
    · rw [h, Fl.nan_add]
    · rw [h, Fl.add_nan]
  · show Fl.sub (A i j) (B i j) = .nan
    rcases h with h | h
    · rw [h, Fl.nan_sub]
    · rw [h, Fl.sub_nan]

/-- C68: the variance and the standard deviation are NaN if an element is. -/
theorem C68_var_nan (A : Mat (Fl F) r c) (h : ∃ i j, A i j = .nan) : var A = .ok .nan ∧ stddev A = .ok .nan := by
  obtain ⟨i, j, h⟩ := h
  obtain ⟨μ, -, hv⟩ := Fl.var_eq A
  have hn : var A = .ok .nan := by
    rw [hv, Fl.fsum_nan _ (List.mem_map.mpr ⟨.nan, (mem_rowMajor A _).mpr ⟨i, j, h⟩, ?_⟩), Fl.nan_div]
    rw [Fl.nan_sub, Fl.nan_mul]
  refine ⟨hn, ?_⟩
  unfold stddev
  rw [hn]
  rfl

/-- C68: the closed-form determinants are NaN if an element is. -/
theorem C68_det_nan (A : Mat (Fl F) 2 2) (B : Mat (Fl F) 3 3) :
    ((∃ i j, A i j = .nan) → det A = .ok .nan) ∧ ((∃ i j, B i j = .nan) → det B = .ok .nan) := by
  constructor
  · rintro ⟨i, j, h⟩
    have e : det A = .ok (((A 0 0).mul (A 1 1)).sub ((A 0 1).mul (A 1 0))) := rfl
    rw [e]
    fin_cases i <;> fin_cases j <;>
      simp only [Fin.zero_eta, Fin.mk_one, Fin.isValue] at h <;>
      simp only [h, Fl.nan_mul, Fl.mul_nan, Fl.nan_sub, Fl.sub_nan]
  · rintro ⟨i, j, h⟩
    have e : ∃ d, det B = .ok d ∧ d = ((((((((B 0 0).mul (B 1 1)).mul (B 2 2)).add (((B 0 1).mul (B 1 2)).mul (B 2 0))).add
        (((B 0 2).mul (B 1 0)).mul (B 2 1))).sub (((B 0 2).mul (B 1 1)).mul (B 2 0))).sub (((B 0 1).mul (B 1 0)).mul (B 2 2))).sub
        (((B 0 0).mul (B 1 2)).mul (B 2 1))) := ⟨_, rfl, rfl⟩
    obtain ⟨d, e, hd⟩ := e
    rw [e, hd]
    fin_cases i <;> fin_cases j <;>
      simp only [Fin.zero_eta, Fin.mk_one, Fin.reduceFinMk, Fin.isValue] at h <;>
      simp only [h, Fl.nan_mul, Fl.mul_nan, Fl.nan_sub, Fl.sub_nan, Fl.nan_add, Fl.add_nan]

/-- C68: the closed-form determinants are only finite if all elements are. -/
theorem C68_det2 (A : Mat (Fl F) 2 2) :
    ∃ d, det A = .ok d ∧ (d.Finite → ∀ i j, (A i j).Finite) := by
  refine ⟨_, rfl, fun h => ?_⟩
  obtain ⟨h1, h2⟩ := Fl.sub_finite h
  obtain ⟨a, d⟩ := Fl.mul_finite h1
  obtain ⟨b, c⟩ := Fl.mul_finite h2
  intro i j
  fin_cases i <;> fin_cases j
  · exact a
  · exact b
  · exact c
  · exact d

/-- C68: the closed-form determinants are only finite if all elements are. -/
theorem C68_det3 (A : Mat (Fl F) 3 3) :
    ∃ d, det A = .ok d ∧ (d.Finite → ∀ i j, (A i j).Finite) := by
  refine ⟨_, rfl, fun h => ?_⟩
  obtain ⟨h, -⟩ := Fl.sub_finite h
  obtain ⟨h, h5⟩ := Fl.sub_finite h
  obtain ⟨h, -⟩ := Fl.sub_finite h
  obtain ⟨h, h3⟩ := Fl.add_finite h
  obtain ⟨h1, h2⟩ := Fl.add_finite h
  obtain ⟨h1, i⟩ := Fl.mul_finite h1
  obtain ⟨a, e⟩ := Fl.mul_finite h1
  obtain ⟨h2, g⟩ := Fl.mul_finite h2
  obtain ⟨b, f⟩ := Fl.mul_finite h2
  obtain ⟨h3, hh⟩ := Fl.mul_finite h3
  obtain ⟨c, d⟩ := Fl.mul_finite h3
  intro x y
  fin_cases x <;> fin_cases y
  · exact a
  · exact b
  · exact c
  · exact d
  · exact e
  · exact f
  · exact g
  · exact hh
  · exact i

/-- The general determinant can mask a NaN: this one is 0. -/
example : det (!![Fl.ofInt 0, Fl.ofInt 1, Fl.ofInt 0, Fl.ofInt 0;
    Fl.ofInt 0, Fl.ofInt 0, Fl.ofInt 0, .nan;
    Fl.ofInt 0, Fl.ofInt 0, Fl.ofInt 1, Fl.ofInt 0;
    Fl.ofInt 0, Fl.ofInt 0, Fl.ofInt 0, Fl.ofInt 1] : Mat (Fl binary32) 4 4) =
    .ok (.fin true 0 Fl.rep_zero) := by decide +kernel

example : mean (!![Fl.ofInt 1, .nan] : Mat (Fl binary64) 1 2) = .ok .nan := by decide +kernel
example : opMul (!![Fl.ofInt 0, Fl.ofInt 1] : Mat (Fl binary64) 1 2) !![.inf true; Fl.ofInt 1] =
    .ok !![.nan] := by decide +kernel

/-! ## C69: integers -/

/-- C69: matrices of integers multiply exactly if, in every dot product, the absolute values of
the terms add up to at most `2^p` (`2^24` for `float`, `2^53` for `double`). -/
theorem C69_mul_int (A : Mat (Fl F) n m) (B : Mat (Fl F) m p) (X : Matrix (Fin n) (Fin m) ℤ)
    (Y : Matrix (Fin m) (Fin p) ℤ) (hA : ∀ i k, (A i k).Finite ∧ (A i k).val = X i k)
    (hB : ∀ k j, (B k j).Finite ∧ (B k j).val = Y k j)
    (hsum : ∀ i j, ∑ k, |X i k| * |Y k j| ≤ 2 ^ F.p) :
    ∃ P, opMul A B = .ok P ∧ ∀ i j, (P i j).Finite ∧ (P i j).val = ((X * Y) i j : ℤ) := by
  refine ⟨_, Fl.mult_eq A B, fun a b => ?_⟩
  show (Fl.fsum (Fl.terms A B a b)).Finite ∧ (Fl.fsum (Fl.terms A B a b)).val = _
  have hterm : ∀ k, ((A a k).mul (B k b)).Finite ∧
      ((A a k).mul (B k b)).val = ((X a k * Y k b : ℤ) : ℝ) := by
    intro k
    have hr := Fl.mul_rounded (hA a k).1 (hB k b).1
    rw [(hA a k).2, (hB k b).2, ← Int.cast_mul] at hr
    have hle : (X a k * Y k b).natAbs ≤ 2 ^ F.p := by
      have h1 : |X a k| * |Y k b| ≤ ∑ k, |X a k| * |Y k b| :=
        Finset.single_le_sum (f := fun k => |X a k| * |Y k b|)
          (fun k _ => mul_nonneg (abs_nonneg _) (abs_nonneg _)) (Finset.mem_univ k)
      have h2 := h1.trans (hsum a b)
      rw [← abs_mul, Int.abs_eq_natAbs] at h2
      exact_mod_cast h2
    refine hr.exact _ ?_ (Fl.rep_int hle)
    rw [Nat.cast_mul, Nat.cast_natAbs, Int.cast_abs]
  have := Fl.fsum_int (Fl.terms A B a b) (fun x => ⌊x.val⌋) ?_ ?_
  · refine ⟨this.1, this.2.trans ?_⟩
    congr 1
    unfold Fl.terms
    rw [List.map_map, Fl.sum_finRange, Matrix.mul_apply]
    refine Finset.sum_congr rfl fun k _ => ?_
    simp only [Function.comp]
    rw [(hterm k).2, Int.floor_intCast]
  · intro x hx
    obtain ⟨k, -, rfl⟩ := List.mem_map.mp hx
    refine ⟨(hterm k).1, ?_⟩
    rw [(hterm k).2, Int.floor_intCast]
  · unfold Fl.terms
    rw [List.map_map, Fl.sum_finRange]
    have h1 := hsum a b
    have h2 : ∑ k, ((fun x : Fl F => ⌊x.val⌋.natAbs) ∘ fun k => (A a k).mul (B k b)) k =
        ∑ k, (X a k * Y k b).natAbs := by
      refine Finset.sum_congr rfl fun k _ => ?_
      simp only [Function.comp]
      rw [(hterm k).2, Int.floor_intCast]
    rw [h2]
    have h3 : ((∑ k, (X a k * Y k b).natAbs : Nat) : ℤ) = ∑ k, |X a k| * |Y k b| := by
      rw [Nat.cast_sum]
      refine Finset.sum_congr rfl fun k _ => ?_
      rw [← abs_mul, Int.abs_eq_natAbs]
    rw [← h3] at h1
    exact_mod_cast h1

/-- The bound is sharp: with a sum of `2^24 + 1` the `float` product is not exact. -/
example : opMul (!![Fl.ofInt 4096, Fl.ofInt 1] : Mat (Fl binary32) 1 2)
    !![Fl.ofInt 4096; Fl.ofInt 1] = .ok !![Fl.ofInt 16777216] := by decide +kernel
/-- The hypotheses are met by converted integer matrices. -/
example : ∃ P, opMul (!![Fl.ofInt 3, Fl.ofInt (-4)] : Mat (Fl binary32) 1 2)
    !![Fl.ofInt 5; Fl.ofInt 6] = .ok P ∧ (P 0 0).Finite ∧ (P 0 0).val = (-9 : ℤ) := by
  have h := fun k hk => Fl.val_ofInt_exact (F := binary32) k hk
  obtain ⟨P, hP, h⟩ := C69_mul_int (F := binary32) (!![Fl.ofInt 3, Fl.ofInt (-4)])
    !![Fl.ofInt 5; Fl.ofInt 6] !![3, -4] !![5; 6]
    (by intro i k; fin_cases i; fin_cases k; exacts [h 3 (by decide), h (-4) (by decide)])
    (by intro i k; fin_cases k; fin_cases i; exacts [h 5 (by decide), h 6 (by decide)])
    (by intro i j; fin_cases i; fin_cases j; decide)
  exact ⟨P, hP, (h 0 0).1, (h 0 0).2⟩

/-! ## C70: compare on integer matrices -/

section
variable {w : Nat} [Inhabited (SInt w)]

/-- C70, exact behaviour: if no difference overflows, `compare` on integer matrices is true iff no
absolute difference, converted to `float`, is greater than the tolerance. -/
theorem C70_compare_int (A B : Mat (SInt w) r c) (eps : Fl binary32)
    (hfit : ∀ i j, InRange w |(A i j).val - (B i j).val|) :
    ∃ b, compareInt A B eps = .ok b ∧
      (b = true ↔ ∀ i j, eps.lt (Fl.ofInt |(A i j).val - (B i j).val|) = false) := by
  unfold compareInt compareLoop
  have hstep : ∀ (a : Fin r) (b : Fin c), (do
      let d ← CScalar.abs (← CScalar.sub (← rd A a.val b.val) (← rd B a.val b.val))
      if eps.lt (Fl.ofInt d.val) then .ok (.ret false)
      else .ok (.cont ()) : Res (Ctl Unit Bool)) =
      if eps.lt (Fl.ofInt |(A a b).val - (B a b).val|) then .ok (.ret false)
      else .ok (.cont ()) := by
    intro a b
    have h1 := hfit a b
    have h2 : InRange w ((A a b).val - (B a b).val) := by
      unfold InRange at *
      obtain ⟨l, u⟩ := h1
      have h3 := abs_lt.mp u
      exact ⟨h3.1.le, h3.2⟩
    rw [rd_fin, ok_bind, rd_fin, ok_bind]
    have e1 : CScalar.sub (A a b) (B a b) = .ok ⟨_, h2⟩ := dif_pos h2
    have e2 : CScalar.abs (⟨_, h2⟩ : SInt w) = .ok ⟨_, h1⟩ := dif_pos h1
    rw [e1, ok_bind, e2, ok_bind]
  refine scan_ok (fun it jt => do
      let d ← CScalar.abs (← CScalar.sub (← rd A it jt) (← rd B it jt))
      if eps.lt (Fl.ofInt d.val) then .ok (.ret false)
      else .ok (.cont ()))
    (fun i j => eps.lt (Fl.ofInt |(A i j).val - (B i j).val|) = false) ?_ ?_
  · intro a b h
    rw [hstep, h]
    rfl
  · intro a b h
    rw [hstep, (Bool.not_eq_false _).mp h]
    rfl

/-- C70 for a finite tolerance: differences within the tolerance are accepted; accepted differences
are within the tolerance up to the conversion to `float`; up to `2^24` there is no conversion
error. -/
theorem C70_compare_int_partial (A B : Mat (SInt w) r c) (eps : Fl binary32) (he : eps.Finite)
    (hfit : ∀ i j, InRange w |(A i j).val - (B i j).val|) :
    ∃ b, compareInt A B eps = .ok b ∧
      ((∀ i j, (|(A i j).val - (B i j).val| : ℤ) ≤ eps.val) → b = true) ∧
      (b = true → ∀ i j, |(A i j).val - (B i j).val| ≤ 2 ^ 24 →
        (|(A i j).val - (B i j).val| : ℤ) ≤ eps.val) ∧
      (b = true → ∀ i j, (|(A i j).val - (B i j).val| : ℤ) * (1 - binary32.u) ≤ eps.val) := by
  obtain ⟨b, hb, h⟩ := C70_compare_int A B eps hfit
  have hnn : ∀ i j, (0 : ℝ) ≤ (|(A i j).val - (B i j).val| : ℤ) := fun i j => by
    exact_mod_cast abs_nonneg _
  refine ⟨b, hb, fun hle => h.mpr fun i j => ?_, fun ht i j hs => ?_, fun ht i j => ?_⟩
  · have hd := hle i j
    have := hnn i j
    generalize |(A i j).val - (B i j).val| = d at *
    obtain ⟨h1, h2⟩ := (Fl.ofInt_rounded (F := binary32) d).le he (by
      rw [abs_of_nonneg this]; exact hd.trans (le_abs_self _))
    rw [← Bool.not_eq_true, Fl.lt_iff he h1, not_lt]
    rw [abs_of_nonneg (this.trans hd)] at h2
    exact (le_abs_self _).trans h2
  · have h1 := h.mp ht i j
    generalize hd : |(A i j).val - (B i j).val| = d at *
    have h0 : 0 ≤ d := by rw [← hd]; exact abs_nonneg _
    obtain ⟨h2, h3⟩ := Fl.val_ofInt_exact (F := binary32) d (by
      show d.natAbs ≤ 2 ^ 24
      omega)
    rwa [← Bool.not_eq_true, Fl.lt_iff he h2, not_lt, h3] at h1
  · have h1 := h.mp ht i j
    have h0 := hnn i j
    generalize |(A i j).val - (B i j).val| = d at *
    have hr := Fl.ofInt_rounded (F := binary32) d
    have hf : (Fl.ofInt d : Fl binary32).Finite := by
      cases hs : (Fl.ofInt d : Fl binary32) with
      | nan => exact absurd hs Fl.roundInt_ne_nan
      | inf s =>
        have hs' : s = false := by
          rw [hs] at hr
          obtain ⟨N, -, ⟨-, s', h', e, -⟩ | ⟨-, s', e, h⟩⟩ := hr
          · cases e
          · cases e
            rw [← Bool.not_eq_true, h]
            exact not_lt.mpr h0
        rw [hs, hs', Fl.lt_inf he] at h1
        cases h1
      | fin s N hN => trivial
    rw [← Bool.not_eq_true, Fl.lt_iff he hf, not_lt] at h1
    have e := hr.err_units hf (d * binary32.unit) (by push_cast; ring)
    rw [abs_of_nonneg h0] at e
    have := (abs_le.mp e).1
    nlinarith

/-- C70 is false above `2^24`: a difference of `2^24 + 1` is accepted with tolerance `2^24`. -/
theorem C70_false [Inhabited (SInt 32)] :
    compareInt (Mat.const ⟨16777217, by decide⟩ : Mat (SInt 32) 1 1)
      (Mat.const ⟨0, by decide⟩) (Fl.ofInt 16777216) = .ok true := by
  obtain ⟨b, hb, h⟩ := C70_compare_int (Mat.const ⟨16777217, by decide⟩ : Mat (SInt 32) 1 1)
    (Mat.const ⟨0, by decide⟩) (Fl.ofInt 16777216) (fun _ _ => by
      show InRange 32 |(16777217 : Int) - 0|
      decide)
  rw [hb]
  congr 1
  rw [h]
  intro i j
  show (Fl.ofInt 16777216 : Fl binary32).lt (Fl.ofInt |(16777217 : Int) - 0|) = false
  decide +kernel

/-- C70: the only way to stop is the overflow of a difference. -/
theorem C70_compare_int_fault (A B : Mat (SInt w) r c) (eps : Fl binary32) (e : Stop)
    (h : compareInt A B eps = .error e) : e = .ub .signedOverflow := by
  suffices hw : wp (compareInt A B eps) (fun _ => True) (· = .ub .signedOverflow) by
    rw [h] at hw
    exact hw
  have hc : ∀ k : Int, wp (SInt.checked k : Res (SInt w)) (fun _ => True) (· = .ub .signedOverflow) := by
    intro k
    unfold SInt.checked
    split <;> trivial
  unfold compareInt compareLoop
  rw [wp_bind]
  refine (wp_mono (Q := fun _ => True) ?_ (fun x _ => ?_) (fun _ h => h))
  · refine wp_forRet (fun _ _ => True) (fun _ => True) (Nat.zero_le _) trivial ?_
      (fun _ _ => trivial) (fun _ _ => trivial)
    intro it _ _ hit _
    refine wp_forRet (fun _ _ => True) (fun _ => True) (Nat.zero_le _) trivial ?_
      (fun _ _ => trivial) (fun _ _ => trivial)
    intro jt _ _ hjt _
    rw [rd_eq hit hjt, ok_bind, rd_eq hit hjt, ok_bind]
    rw [wp_bind]
    refine (wp_mono (hc _) (fun d _ => ?_) (fun _ h => h))
    rw [wp_bind]
    refine (wp_mono (hc _) (fun d _ => ?_) (fun _ h => h))
    split <;> trivial
  · cases x <;> trivial

/-- Differences of one are within `1` and not within `0`. -/
example : compareInt (.of fun _ _ => SInt.wrap 7 : Mat (SInt 32) 1 2) (.of fun _ _ => SInt.wrap 6)
      (Fl.ofInt 1) = .ok true ∧
    compareInt (.of fun _ _ => SInt.wrap 7 : Mat (SInt 32) 1 2) (.of fun _ _ => SInt.wrap 6)
      (Fl.ofInt 0) = .ok false := by
  constructor <;> decide +kernel

end

end MatrixLibs
