import Verif.Proof.CholRoot
import Verif.Props.Chol
import Verif.Props.Float
import Mathlib.Analysis.SpecialFunctions.Trigonometric.Basic

/-!
# Properties C136–C138: matrices of complex numbers
-/

namespace MatrixLibs

set_option linter.unusedSectionVars false

/-! ## C136 -/

namespace Overload

/-- Functions that compare an element with a literal, or multiply or divide a literal by it or it by one. -/
def Fn.MixesInt : Fn → Prop
  | .div | .lu | .inv _ | .pow _ => True
  | .det n => n ≠ 1 ∧ n ≠ 2 ∧ n ≠ 3
  | _ => False

/-- Functions that divide an element by a `std::size_t`. -/
def Fn.MixesSize : Fn → Prop
  | .mean | .var | .stddev => True
  | _ => False

/-- Functions that order elements. -/
def Fn.NeedsOrder : Fn → Prop
  | .median | .histogram | .cumulative_histogram => True
  | _ => False

theorem met_same (t : STy) : Need.met (.op (.cplx t) (.cplx t)) = true := by
  simp [Need.met, complexCands, viableOp, SPat.deduce]

theorem met_left (t : STy) (b : Nat) : Need.met (.op (.cplx t) (.base b)) = decide (t = .base b) := by
  simp [Need.met, complexCands, viableOp, SPat.deduce]

theorem met_right (t : STy) (b : Nat) : Need.met (.op (.base b) (.cplx t)) = decide (t = .base b) := by
  simp [Need.met, complexCands, viableOp, SPat.deduce, eq_comm]

theorem met_less (t : STy) : Need.met (.less (.cplx t)) = false := rfl

theorem own_int (g : Fn) (h1 : ¬ g.NeedsOrder) (h2 : ¬ g.MixesSize) :
    ∀ q ∈ g.own (.cplx .int), q.met = true := by
  have m1 : Need.met (.op (.cplx .int) (.cplx .int)) = true := met_same _
  have m2 : Need.met (.op (.cplx .int) .int) = true := (met_left _ 0).trans (by decide)
  have m3 : Need.met (.op .int (.cplx .int)) = true := (met_right _ 0).trans (by decide)
  cases g
  case det n =>
    by_cases h3 : n = 1
    · simp [Fn.own, h3]
    by_cases h4 : n = 2 ∨ n = 3 <;> simp [Fn.own, h3, h4, m1, m2]
  case inv n =>
    by_cases h3 : n = 1
    · simp [Fn.own, h3, m3]
    by_cases h4 : n = 2 ∨ n = 3 <;> simp [Fn.own, h3, h4, m1, m2, m3]
  all_goals first
    | exact absurd trivial h1
    | exact absurd trivial h2
    | simp [Fn.own, m1, m2]

theorem own_base (t : Nat) (g : Fn) : ∀ q ∈ g.own (.base t), q.met = true := by
  have m : ∀ a b, Need.met (.op (.base a) (.base b)) = true := fun _ _ => rfl
  have m' : ∀ a, Need.met (.less (.base a)) = true := fun _ => rfl
  cases g
  case det n =>
    by_cases h3 : n = 1
    · simp [Fn.own, h3]
    by_cases h4 : n = 2 ∨ n = 3 <;> simp [Fn.own, h3, h4, m, STy.int]
  case inv n =>
    by_cases h3 : n = 1
    · simp [Fn.own, h3, m, STy.int]
    by_cases h4 : n = 2 ∨ n = 3 <;> simp [Fn.own, h3, h4, m, STy.int]
  all_goals simp [Fn.own, m, m', STy.int, STy.size]

theorem reach_plain (k : Nat) : ∀ f : Fn, ¬ f.NeedsOrder → ¬ f.MixesSize →
    ∀ g ∈ f.reach k, ¬ g.NeedsOrder ∧ ¬ g.MixesSize := by
  induction k with
  | zero =>
    intro f h1 h2 g hg
    simp only [Fn.reach, List.mem_singleton] at hg
    rw [hg]
    exact ⟨h1, h2⟩
  | succ k ih =>
    intro f h1 h2 g hg
    simp only [Fn.reach, List.mem_cons, List.mem_flatMap] at hg
    rcases hg with rfl | ⟨f', hf', hg⟩
    · exact ⟨h1, h2⟩
    · have : ¬ f'.NeedsOrder ∧ ¬ f'.MixesSize := by
        cases f
        case det n =>
          by_cases h3 : n = 1 ∨ n = 2 ∨ n = 3 <;> simp [Fn.calls, h3] at hf'
          subst hf'
          exact ⟨id, id⟩
        case inv n =>
          by_cases h3 : n = 1
          · simp [Fn.calls, h3] at hf'
            subst hf'
            exact ⟨id, id⟩
          by_cases h4 : n = 2 ∨ n = 3 <;> simp [Fn.calls, h3, h4] at hf'
          · rcases hf' with rfl | rfl <;> exact ⟨id, id⟩
          · rcases hf' with rfl | rfl | rfl | rfl | rfl <;> exact ⟨id, id⟩
        all_goals simp [Fn.calls, Fn.NeedsOrder, Fn.MixesSize] at h1 h2 hf'
        all_goals try (rcases hf' with rfl | rfl | rfl | rfl <;> exact ⟨id, id⟩)
      exact ih f' this.1 this.2 g hg

theorem compiles_all (T : STy) (f : Fn) :
    f.compiles T = true ↔ ∀ g ∈ f.reach 4, ∀ q ∈ g.own T, q.met = true := by
  simp [Fn.compiles, List.all_eq_true]

end Overload

open Overload in
/-- C136: which functions can be used with matrices of `std::complex<t>`: not those that need an order; those that divide by
a `std::size_t` (`mean`, `var`, `stddev`) only if `t` is `std::size_t`; and those that mix the elements with `int` literals
(division, `lu`, `inv`, `pow` and, except for 1x1, 2x2 and 3x3 matrices, `det`) only if `t` is `int`. -/
theorem C136_complex_functions (t : STy) (f : Fn) :
    f.compiles (.cplx t) = true ↔
      ¬ f.NeedsOrder ∧ (f.MixesSize → t = .size) ∧ (f.MixesInt → t = .int) := by
  rw [compiles_all]
  cases f
  case det n =>
    by_cases h1 : n = 1
    · subst h1
      simp [Fn.reach, Fn.calls, Fn.own, Fn.NeedsOrder, Fn.MixesSize, Fn.MixesInt]
    by_cases h2 : n = 2
    · subst h2
      simp [Fn.reach, Fn.calls, Fn.own, Fn.NeedsOrder, Fn.MixesSize, Fn.MixesInt, met_same]
    by_cases h3 : n = 3
    · subst h3
      simp [Fn.reach, Fn.calls, Fn.own, Fn.NeedsOrder, Fn.MixesSize, Fn.MixesInt, met_same]
    simp [Fn.reach, Fn.calls, Fn.own, Fn.NeedsOrder, Fn.MixesSize, Fn.MixesInt, met_same, h1, h2, h3,
      STy.int, met_left]
  case inv n =>
    constructor
    · intro h
      refine ⟨id, fun h => h.elim, fun _ => ?_⟩
      by_cases h1 : n = 1
      · have := h (.inv n) (by simp [Fn.reach]) (.op .int (.cplx t)) (by simp [Fn.own, h1])
        exact of_decide_eq_true ((met_right t 0).symm.trans this)
      by_cases h2 : n = 2 ∨ n = 3
      · have := h (.inv n) (by simp [Fn.reach]) (.op (.cplx t) .int) (by simp [Fn.own, h1, h2])
        exact of_decide_eq_true ((met_left t 0).symm.trans this)
      · have := h (.inv n) (by simp [Fn.reach]) (.op .int (.cplx t)) (by simp [Fn.own, h1, h2])
        exact of_decide_eq_true ((met_right t 0).symm.trans this)
    · rintro ⟨-, -, h⟩ g hg
      rw [h trivial]
      have := reach_plain 4 (.inv n) id id g hg
      exact own_int g this.1 this.2
  case pow n =>
    constructor
    · intro h
      refine ⟨id, fun h => h.elim, fun _ => ?_⟩
      have hm : Fn.inv n ∈ (Fn.pow n).reach 4 := by simp [Fn.reach, Fn.calls]
      by_cases h1 : n = 1
      · have := h (.inv n) hm (.op .int (.cplx t)) (by simp [Fn.own, h1])
        exact of_decide_eq_true ((met_right t 0).symm.trans this)
      by_cases h2 : n = 2 ∨ n = 3
      · have := h (.inv n) hm (.op (.cplx t) .int) (by simp [Fn.own, h1, h2])
        exact of_decide_eq_true ((met_left t 0).symm.trans this)
      · have := h (.inv n) hm (.op .int (.cplx t)) (by simp [Fn.own, h1, h2])
        exact of_decide_eq_true ((met_right t 0).symm.trans this)
    · rintro ⟨-, -, h⟩ g hg
      rw [h trivial]
      have := reach_plain 4 (.pow n) id id g hg
      exact own_int g this.1 this.2
  all_goals
    simp [Fn.reach, Fn.calls, Fn.own, Fn.NeedsOrder, Fn.MixesSize, Fn.MixesInt, met_same, STy.int,
      STy.size, met_left, met_less]

open Overload in
/-- C136: every function can be used with the built-in types, as far as the operators are concerned. -/
theorem C136_real_functions (t : Nat) (f : Fn) : f.compiles (.base t) = true := by
  rw [compiles_all]
  intro g _ q hq
  exact own_base t g q hq

/-- Two cases: `lu` is not available for `std::complex<double>`, `chol` is. -/
example : (Overload.Fn.lu).compiles (.cplx (.base 7)) = false ∧
    (Overload.Fn.chol).compiles (.cplx (.base 7)) = true := by decide

/-! ## C137 -/

section
attribute [local instance] complexScalar

theorem complex_root (a : ℂ) : a ^ (2⁻¹ : ℂ) * a ^ (2⁻¹ : ℂ) = a := by
  rw [← sq]
  exact Complex.cpow_nat_inv_pow a two_ne_zero

theorem complex_root_half (a : ℂ) : RightHalf (a ^ (2⁻¹ : ℂ)) := by
  by_cases h : a = 0
  · rw [h, Complex.zero_cpow (by norm_num)]
    exact Or.inr ⟨rfl, le_rfl⟩
  rw [Complex.cpow_def_of_ne_zero h]
  have him : (Complex.log a * 2⁻¹).im = a.arg / 2 := by
    rw [show (2⁻¹ : ℂ) = ((2⁻¹ : ℝ) : ℂ) by simp, Complex.im_mul_ofReal, Complex.log_im]
    ring
  unfold RightHalf
  rw [Complex.exp_re, Complex.exp_im, him]
  have h1 := Complex.neg_pi_lt_arg a
  have h2 := Complex.arg_le_pi a
  have hpos := Real.exp_pos (Complex.log a * 2⁻¹).re
  rcases h2.lt_or_eq with h2 | h2
  · left
    exact mul_pos hpos (Real.cos_pos_of_mem_Ioo ⟨by linarith, by linarith⟩)
  · right
    rw [h2, Real.cos_pi_div_two, Real.sin_pi_div_two, mul_zero, mul_one]
    exact ⟨rfl, hpos.le⟩

instance : ExactRoot ℂ RightHalf where
  add_eq _ _ := rfl
  sub_eq _ _ := rfl
  mul_eq _ _ := rfl
  ofInt_eq _ := rfl
  div_eq a b h := by simp [CScalar.div, h]
  div_zero a := by simp [CScalar.div]
  sqrt_eq a := ⟨_, rfl, complex_root a, complex_root_half a⟩

theorem rightHalf_inj (x y : ℂ) (hx : RightHalf x) (hy : RightHalf y) (h : x * x = y * y) : x = y := by
  rcases mul_self_eq_mul_self_iff.mp h with h | h
  · exact h
  · unfold RightHalf at hx hy
    rw [h, Complex.neg_re, Complex.neg_im] at hx
    have h1 : y.re = 0 := by rcases hx with hx | hx <;> rcases hy with hy | hy <;> linarith
    have h2 : y.im = 0 := by rcases hx with hx | hx <;> rcases hy with hy | hy <;> linarith
    have : y = 0 := Complex.ext h1 h2
    rw [h, this, neg_zero]

variable {n : Nat}

/-- C137: `chol` of a symmetric (not: Hermitian) complex matrix returns exactly if the leading principal minors of the
orders `1` to `n - 1` are not zero. -/
theorem C137_chol_returns (A : Mat ℂ n n) (hsym : ∀ i j, A i j = A j i) :
    (∃ L, chol A = .ok L) ↔ ∀ k (hk : k < n), 1 ≤ k → leadingMinor A k hk.le ≠ 0 := by
  constructor
  · rintro ⟨L, hL⟩ k hk h1
    have hI := wp_ok_elim (wp_root_chol (P := RightHalf) A hsym) hL
    rw [hI.minor hsym k hk.le hk.le]
    refine Finset.prod_ne_zero_iff.mpr fun q _ => pow_ne_zero 2 ?_
    have hq := q.2
    exact hI.piv ⟨q.val + 1, by omega⟩ (Fin.castLE hk.le q)
      ⟨by rw [Fin.le_def]; simp, Or.inl (by dsimp only; omega)⟩ (by rw [Fin.lt_def]; simp)
  · intro h
    cases hc : chol A with
    | ok L => exact ⟨L, rfl⟩
    | error e =>
      obtain ⟨-, k, hk, h1, h0⟩ := wp_error_elim (wp_root_chol (P := RightHalf) A hsym) hc
      exact absurd h0 (h k hk h1)

/-- C137: whatever `chol(A)` returns for complex elements is lower triangular, its diagonal consists of principal square
roots, and `L * trans(L)` (the transpose, without conjugation) agrees with `A` on and below the diagonal. -/
theorem C137_chol (A L : Mat ℂ n n) (h : chol A = .ok L) :
    IsLower L ∧ (∀ i, RightHalf (L i i)) ∧ ∀ i j, j ≤ i → (L * L.transpose) i j = A i j := by
  have hl := C39_chol_lower A (.of fun i j => if j ≤ i then A i j else A j i)
    (fun i j hij => by rw [Matrix.of_apply, if_pos hij])
  have hsym : ∀ i j : Fin n, (Matrix.of fun i j => if j ≤ i then A i j else A j i : Mat ℂ n n) i j =
      (Matrix.of fun i j => if j ≤ i then A i j else A j i : Mat ℂ n n) j i := by
    intro i j
    rw [Matrix.of_apply, Matrix.of_apply]
    rcases lt_trichotomy i j with hij | rfl | hij
    · rw [if_neg (not_le.mpr hij), if_pos hij.le]
    · rfl
    · rw [if_pos hij.le, if_neg (not_le.mpr hij)]
  rw [hl] at h
  have hI := wp_ok_elim (wp_root_chol (P := RightHalf) _ hsym) h
  refine ⟨fun i p hip => hI.zero i p (fun h' => absurd h'.1 (not_le.mpr hip)),
    fun i => hI.diag i ((written_all i i).mpr le_rfl), fun i j hji => ?_⟩
  rw [Matrix.mul_apply]
  have := hI.prod i j ((written_all i j).mpr hji)
  rw [Matrix.of_apply, if_pos hji] at this
  exact this

/-- C137: for a symmetric matrix the product is `A`. -/
theorem C137_chol_symmetric (A L : Mat ℂ n n) (hsym : ∀ i j, A i j = A j i) (h : chol A = .ok L) :
    L * L.transpose = A := by
  obtain ⟨-, -, hp⟩ := C137_chol A L h
  ext i j
  rcases le_total j i with hji | hij
  · exact hp i j hji
  · have hT : (L * L.transpose) i j = (L * L.transpose) j i := by
      rw [Matrix.mul_apply, Matrix.mul_apply]
      refine Finset.sum_congr rfl (fun k _ => ?_)
      rw [Matrix.transpose_apply, Matrix.transpose_apply, mul_comm]
    rw [hT, hp j i hij, hsym]

/-- C137: the factor is determined by the product: a lower triangular matrix with principal roots on the diagonal, none of
them zero, is the factor of `L * trans(L)`. -/
theorem C137_chol_unique (L : Mat ℂ n n) (hlow : IsLower L) (hd : ∀ i, L i i ≠ 0)
    (hP : ∀ i, RightHalf (L i i)) : chol (L * L.transpose) = .ok L := by
  have hsym : ∀ i j, (L * L.transpose) i j = (L * L.transpose) j i := by
    intro i j
    rw [Matrix.mul_apply, Matrix.mul_apply]
    exact Finset.sum_congr rfl (fun k _ => mul_comm _ _)
  have hminor : ∀ k (hk : k ≤ n), leadingMinor (L * L.transpose) k hk ≠ 0 := by
    intro k hk
    classical
    rw [@leadingMinor_eq_prods ℂ _ _ (fieldScalar ℂ) (fieldScalar_exact ℂ) n (L * L.transpose) L
      L.transpose k hk (fun i p _ h => hlow i p h) (fun p q _ h => hlow q p h) (fun i q _ _ => rfl)]
    exact mul_ne_zero (Finset.prod_ne_zero_iff.mpr fun q _ => hd _)
      (Finset.prod_ne_zero_iff.mpr fun q _ => hd _)
  obtain ⟨M, hM⟩ := (C137_chol_returns _ hsym).mpr fun k hk _ => hminor k hk.le
  have hI := wp_ok_elim (wp_root_chol (P := RightHalf) _ hsym) hM
  obtain ⟨hMlow, hMP, -⟩ := C137_chol _ M hM
  have hMp := C137_chol_symmetric _ M hsym hM
  have hMd : ∀ i, M i i ≠ 0 := by
    have := hminor n le_rfl
    rw [hI.minor hsym n le_rfl le_rfl] at this
    intro i h0
    have := Finset.prod_ne_zero_iff.mp this i (Finset.mem_univ i)
    rw [Fin.castLE_rfl] at this
    exact this (by simp [h0])
  rw [hM, root_unique (P := RightHalf) L M hlow hMlow hd hMd hP hMP rightHalf_inj hMp.symm]

/-- C137: on real matrices the complex instantiation computes what the real one does. -/
theorem C137_chol_real (A L : Mat ℝ n n) (hsym : ∀ i j, A i j = A j i) (h : chol A = .ok L)
    (hd : ∀ i, 0 < L i i) :
    chol (A.map (fun x => (x : ℂ))) = .ok (L.map (fun x => (x : ℂ))) := by
  obtain ⟨hlow, -, hprod⟩ := (C38_chol_unique A L).mp ⟨h, hd, hsym⟩
  have e : A.map (fun x => (x : ℂ)) =
      (L.map (fun x => (x : ℂ))) * (L.map (fun x => (x : ℂ)) : Mat ℂ n n).transpose := by
    rw [← hprod]
    ext i j
    rw [Matrix.map_apply, Matrix.mul_apply, Matrix.mul_apply]
    push_cast
    rfl
  rw [e]
  refine C137_chol_unique _ (fun i p hip => ?_) (fun i => ?_) fun i => ?_
  · rw [Matrix.map_apply, hlow i p hip, Complex.ofReal_zero]
  · rw [Matrix.map_apply]
    exact Complex.ofReal_ne_zero.mpr (hd i).ne'
  · rw [Matrix.map_apply]
    exact Or.inl (by rw [Complex.ofReal_re]; exact hd i)

/-- C137: what `chol` is usually expected to do with complex matrices, `L * L^H == A` for Hermitian `A`, it does only for
real matrices. -/
theorem C137_not_hermitian (A L : Mat ℂ n n) (h : chol A = .ok L) (hA : L * L.conjTranspose = A) :
    ∀ i j, (A i j).im = 0 := by
  obtain ⟨-, -, hp⟩ := C137_chol A L h
  have hreal : ∀ i k, (L i k).im = 0 := by
    intro i
    have h1 : ∑ k, L i k * L i k = A i i := by
      rw [← hp i i le_rfl, Matrix.mul_apply]; rfl
    have h2 : ∑ k, L i k * star (L i k) = A i i := by
      conv_rhs => rw [← hA]
      rw [Matrix.mul_apply]; rfl
    have h3 : ∑ k, (2 * (L i k).im ^ 2) = 0 := by
      have := congrArg Complex.re (h2.trans h1.symm)
      rw [Complex.re_sum, Complex.re_sum, ← sub_eq_zero, ← Finset.sum_sub_distrib] at this
      rw [← this]
      refine Finset.sum_congr rfl fun k _ => ?_
      simp only [Complex.mul_re, Complex.star_def, Complex.conj_re, Complex.conj_im]
      ring
    intro k
    have := (Finset.sum_eq_zero_iff_of_nonneg fun k _ => by positivity).mp h3 k (Finset.mem_univ k)
    have h4 : (L i k).im ^ 2 = 0 := by linarith
    exact pow_eq_zero_iff two_ne_zero |>.mp h4
  intro i j
  rw [← hA, Matrix.mul_apply, Complex.im_sum]
  refine Finset.sum_eq_zero fun k _ => ?_
  rw [Matrix.conjTranspose_apply, Complex.mul_im, Complex.star_def, Complex.conj_im, hreal, hreal]
  simp

/-- C137: `isSymetric` asks for `A == trans(A)`, so a Hermitian matrix passes only if it is real. -/
theorem C137_isSymetric (A : Mat ℂ n n) (hA : A.conjTranspose = A) :
    isSymetric A = .ok true ↔ ∀ i j, (A i j).im = 0 := by
  rw [C36_isSymetric_trans A (fun a b => by simp [CScalar.eq]), trans_ok]
  have hc : ∀ i j, star (A j i) = A i j := fun i j => by
    conv_rhs => rw [← hA]
    rfl
  constructor
  · intro h i j
    have h1 : A.transpose = A := Except.ok.inj h
    have h2 : A j i = A i j := congrFun (congrFun h1 i) j
    have h3 := hc i j
    rw [h2, Complex.star_def] at h3
    exact Complex.conj_eq_iff_im.mp h3
  · intro h
    congr 1
    ext i j
    rw [Matrix.transpose_apply, ← hc i j, Complex.star_def, Complex.conj_eq_iff_im.mpr (h j i)]

/-- A Hermitian positive definite matrix for which `chol` returns, and what follows. -/
example : (∃ L, chol (!![2, Complex.I; -Complex.I, 2] : Mat ℂ 2 2) = .ok L) ∧
    ∀ L, chol (!![2, Complex.I; -Complex.I, 2] : Mat ℂ 2 2) = .ok L →
      L * L.conjTranspose ≠ !![2, Complex.I; -Complex.I, 2] := by
  constructor
  · have e := C39_chol_lower (!![2, Complex.I; -Complex.I, 2] : Mat ℂ 2 2)
      !![2, -Complex.I; -Complex.I, 2] (by simp [Fin.forall_fin_two])
    rw [e]
    refine (C137_chol_returns _ (by simp [Fin.forall_fin_two])).mpr ?_
    intro k hk h1
    obtain rfl : k = 1 := by omega
    simp [leadingMinor]
  · intro L hL h
    have := C137_not_hermitian _ L hL h 0 1
    simp at this

end

/-! ## C138 -/

namespace Cx
variable {F : Fmt} {lib : CxLib F} {n m p : Nat}

theorem mul_re {a b : Cx lib} (h : (a.mul b).re.Finite) :
    (a.mul b).re = (a.re.mul b.re).sub (a.im.mul b.im) := by
  unfold mul at h ⊢
  dsimp only at h ⊢
  split
  · next hn =>
    rw [if_pos hn] at h
    change (lib.fix a.pair b.pair).1.Finite at h
    cases hf : (lib.fix a.pair b.pair).1 with
    | fin s N h' => exact absurd hf (lib.fix_re _ _ _ _ _)
    | nan => rw [hf] at h; exact h.elim
    | inf s => rw [hf] at h; exact h.elim
  · rfl

theorem mul_im {a b : Cx lib} (h : (a.mul b).im.Finite) :
    (a.mul b).im = (a.re.mul b.im).add (a.im.mul b.re) := by
  unfold mul at h ⊢
  dsimp only at h ⊢
  split
  · next hn =>
    rw [if_pos hn] at h
    change (lib.fix a.pair b.pair).2.Finite at h
    cases hf : (lib.fix a.pair b.pair).2 with
    | fin s N h' => exact absurd hf (lib.fix_im _ _ _ _ _)
    | nan => rw [hf] at h; exact h.elim
    | inf s => rw [hf] at h; exact h.elim
  · rfl

/-- The elements of a product, part by part. -/
theorem mult_eq (A : Mat (Cx lib) n m) (B : Mat (Cx lib) m p) :
    mult A B = .ok (.of fun a b =>
      ⟨Fl.fsum ((List.finRange m).map fun k => ((A a k).mul (B k b)).re),
       Fl.fsum ((List.finRange m).map fun k => ((A a k).mul (B k b)).im)⟩) := by
  refine (mult_elementwise A B).eq_ok fun a b => ?_
  show dotFrom A B _ a b = _
  unfold dotFrom
  rw [forUp_foldlM]
  have h1 := foldlM_ok (List.finRange m) (CScalar.ofInt 0 : Cx lib)
    (fun (s : Cx lib) (k : Fin m) => do
      CScalar.add s (← CScalar.mul (← rd A a.val k.val) (← rd B k.val b.val)))
    (fun s k => ⟨s.re.add ((A a k).mul (B k b)).re, s.im.add ((A a k).mul (B k b)).im⟩) ?_
  · rw [h1]
    refine congrArg Except.ok ?_
    have : ∀ (l : List (Fin m)) (s : Cx lib),
        l.foldl (fun (s : Cx lib) k =>
          (⟨s.re.add ((A a k).mul (B k b)).re, s.im.add ((A a k).mul (B k b)).im⟩ : Cx lib)) s =
        ⟨l.foldl (fun s k => s.add ((A a k).mul (B k b)).re) s.re,
         l.foldl (fun s k => s.add ((A a k).mul (B k b)).im) s.im⟩ := by
      intro l
      induction l with
      | nil => intro s; rfl
      | cons k l ih => intro s; rw [List.foldl_cons, ih]; rfl
    refine (this _ _).trans ?_
    show _ = (⟨Fl.fsum _, Fl.fsum _⟩ : Cx lib)
    unfold Fl.fsum
    rw [List.foldl_map, List.foldl_map]
    rfl
  · intro s k
    rw [rd_fin, rd_fin]
    rfl

/-- The error of a sum of rounded sums (`sg = 1`) or differences (`sg = -1`) of two rounded products. -/
theorem pairs_err (x y z w : Fin m → Fl F) (t : Fin m → Fl F) (sg : ℝ) (hsg : |sg| = 1)
    (h : (Fl.fsum ((List.finRange m).map t)).Finite)
    (ht : ∀ k, (t k).Finite → ((x k).mul (y k)).Finite ∧ ((z k).mul (w k)).Finite ∧
      |(t k).val - (((x k).mul (y k)).val + sg * ((z k).mul (w k)).val)| ≤
        F.u * |((x k).mul (y k)).val + sg * ((z k).mul (w k)).val|) :
    |(Fl.fsum ((List.finRange m).map t)).val -
        ∑ k, ((x k).val * (y k).val + sg * ((z k).val * (w k).val))| ≤
      ((1 + F.u) ^ (m + 1) - 1) * ∑ k, (|(x k).val| * |(y k).val| + |(z k).val| * |(w k).val|) +
        2 * m * (1 + F.u) ^ m * F.eta := by
  have hu := Fl.u_nonneg F
  have he := Fl.eta_nonneg F
  rcases Nat.eq_zero_or_pos m with rfl | hm
  · simp [Fl.fsum, Fl.zero_val]
  have hfin := Fl.fsum_finite _ h
  have htf : ∀ k, (t k).Finite := fun k => hfin _ (List.mem_map.mpr ⟨k, List.mem_finRange k, rfl⟩)
  have e1 := Fl.fsum_err _ h
  rw [List.length_map, List.length_finRange, List.map_map, List.map_map, Fl.sum_finRange,
    Fl.sum_finRange] at e1
  simp only [Function.comp_apply] at e1
  set S := ∑ k, (|(x k).val| * |(y k).val| + |(z k).val| * |(w k).val|) with hS
  have hterm : ∀ k, |(t k).val - ((x k).val * (y k).val + sg * ((z k).val * (w k).val))| ≤
      ((1 + F.u) ^ 2 - 1) * (|(x k).val| * |(y k).val| + |(z k).val| * |(w k).val|) +
        2 * (1 + F.u) * F.eta := by
    intro k
    obtain ⟨f1, f2, h3⟩ := ht k (htf k)
    have m1 := Fl.mul_err f1
    have m2 := Fl.mul_err f2
    rw [abs_mul] at m1 m2
    generalize ((x k).mul (y k)).val = a at *
    generalize ((z k).mul (w k)).val = b at *
    have d : |(a + sg * b) - ((x k).val * (y k).val + sg * ((z k).val * (w k).val))| ≤
        F.u * (|(x k).val| * |(y k).val| + |(z k).val| * |(w k).val|) + 2 * F.eta := by
      have : (a + sg * b) - ((x k).val * (y k).val + sg * ((z k).val * (w k).val)) =
          (a - (x k).val * (y k).val) + sg * (b - (z k).val * (w k).val) := by ring
      rw [this]
      refine (abs_add_le _ _).trans ?_
      rw [abs_mul, hsg, one_mul]
      linarith
    have g : |(x k).val * (y k).val + sg * ((z k).val * (w k).val)| ≤
        |(x k).val| * |(y k).val| + |(z k).val| * |(w k).val| := by
      refine (abs_add_le _ _).trans ?_
      rw [abs_mul, abs_mul, abs_mul, hsg, one_mul]
    have d2 := abs_sub_le (t k).val (a + sg * b) ((x k).val * (y k).val + sg * ((z k).val * (w k).val))
    have d3 := abs_sub_abs_le_abs_sub (a + sg * b)
      ((x k).val * (y k).val + sg * ((z k).val * (w k).val))
    have d4 : |a + sg * b| ≤ (1 + F.u) * (|(x k).val| * |(y k).val| + |(z k).val| * |(w k).val|) +
        2 * F.eta := by linarith
    have d5 := mul_le_mul_of_nonneg_left d4 hu
    nlinarith
  have e4 : |∑ k, (t k).val - ∑ k, ((x k).val * (y k).val + sg * ((z k).val * (w k).val))| ≤
      ((1 + F.u) ^ 2 - 1) * S + m * (2 * (1 + F.u) * F.eta) := by
    rw [← Finset.sum_sub_distrib]
    refine (Finset.abs_sum_le_sum_abs _ _).trans ((Finset.sum_le_sum fun k _ => hterm k).trans ?_)
    rw [Finset.sum_add_distrib, Finset.sum_const, Finset.card_univ, Fintype.card_fin, nsmul_eq_mul,
      ← Finset.mul_sum]
  have e5 : ∑ k, |(t k).val| ≤ (1 + F.u) ^ 2 * S + m * (2 * (1 + F.u) * F.eta) := by
    have : ∀ k, |(t k).val| ≤ (1 + F.u) ^ 2 *
        (|(x k).val| * |(y k).val| + |(z k).val| * |(w k).val|) + 2 * (1 + F.u) * F.eta := by
      intro k
      have h1 := hterm k
      have h2 := abs_sub_abs_le_abs_sub (t k).val
        ((x k).val * (y k).val + sg * ((z k).val * (w k).val))
      have g : |(x k).val * (y k).val + sg * ((z k).val * (w k).val)| ≤
          |(x k).val| * |(y k).val| + |(z k).val| * |(w k).val| := by
        refine (abs_add_le _ _).trans ?_
        rw [abs_mul, abs_mul, abs_mul, hsg, one_mul]
      linarith
    refine (Finset.sum_le_sum fun k _ => this k).trans ?_
    rw [Finset.sum_add_distrib, Finset.sum_const, Finset.card_univ, Fintype.card_fin, nsmul_eq_mul,
      ← Finset.mul_sum]
  have e6 : (1 + F.u) ^ (m + 1) = (1 + F.u) ^ (m - 1) * (1 + F.u) ^ 2 := by
    rw [← pow_add]; congr 1; omega
  have e8 : (1 + F.u) ^ m = (1 + F.u) ^ (m - 1) * (1 + F.u) := by
    rw [← pow_succ, Nat.sub_add_cancel hm]
  have e7 := Fl.one_add_u_pow F (m - 1)
  rw [e6, e8]
  generalize (1 + F.u) ^ (m - 1) = q at *
  have a1 := mul_le_mul_of_nonneg_left e5 (by linarith : 0 ≤ q - 1)
  have a2 := abs_sub_le (Fl.fsum ((List.finRange m).map t)).val (∑ k, (t k).val)
    (∑ k, ((x k).val * (y k).val + sg * ((z k).val * (w k).val)))
  nlinarith

/-- Products, sums and differences of integers of at most `p` bits are exact. -/
theorem rounded_int {r : Fl F} {z : ℤ} (hr : Fl.Rounded (z : ℝ) r) (h : |z| ≤ 2 ^ F.p) :
    r.Finite ∧ r.val = z := by
  rw [Int.abs_eq_natAbs] at h
  refine hr.exact (z.natAbs * F.unit) ?_ (Fl.rep_int (by exact_mod_cast h))
  rw [Nat.cast_mul, Nat.cast_natAbs, Int.cast_abs]

theorem mul_int {a b : Fl F} {x y : ℤ} (ha : a.Finite) (hb : b.Finite) (ea : a.val = x)
    (eb : b.val = y) (h : |x * y| ≤ 2 ^ F.p) :
    (a.mul b).Finite ∧ (a.mul b).val = ((x * y : ℤ) : ℝ) := by
  have hr := Fl.mul_rounded ha hb
  rw [ea, eb, ← Int.cast_mul] at hr
  exact rounded_int hr h

theorem add_int {a b : Fl F} {x y : ℤ} (ha : a.Finite) (hb : b.Finite) (ea : a.val = x)
    (eb : b.val = y) (h : |x + y| ≤ 2 ^ F.p) :
    (a.add b).Finite ∧ (a.add b).val = ((x + y : ℤ) : ℝ) := by
  have hr := Fl.add_rounded ha hb
  rw [ea, eb, ← Int.cast_add] at hr
  exact rounded_int hr h

theorem sub_int {a b : Fl F} {x y : ℤ} (ha : a.Finite) (hb : b.Finite) (ea : a.val = x)
    (eb : b.val = y) (h : |x - y| ≤ 2 ^ F.p) :
    (a.sub b).Finite ∧ (a.sub b).val = ((x - y : ℤ) : ℝ) := by
  have hr := Fl.sub_rounded ha hb
  rw [ea, eb, ← Int.cast_sub] at hr
  exact rounded_int hr h

/-- A sum of integers whose absolute values add up to at most `2^p` is exact. -/
theorem fsum_ints (t : Fin m → Fl F) (z : Fin m → ℤ) (h : ∀ k, (t k).Finite ∧ (t k).val = z k)
    (hb : ∑ k, |z k| ≤ 2 ^ F.p) :
    (Fl.fsum ((List.finRange m).map t)).Finite ∧
      (Fl.fsum ((List.finRange m).map t)).val = ((∑ k, z k : ℤ) : ℝ) := by
  have := Fl.fsum_int ((List.finRange m).map t) (fun x => ⌊x.val⌋) ?_ ?_
  · refine ⟨this.1, this.2.trans ?_⟩
    congr 1
    rw [List.map_map, Fl.sum_finRange]
    refine Finset.sum_congr rfl fun k _ => ?_
    rw [Function.comp_apply, (h k).2, Int.floor_intCast]
  · intro x hx
    obtain ⟨k, -, rfl⟩ := List.mem_map.mp hx
    exact ⟨(h k).1, by rw [(h k).2, Int.floor_intCast]⟩
  · rw [List.map_map, Fl.sum_finRange]
    have e : ∑ k, |z k| = ((∑ k, ((fun x : Fl F => ⌊x.val⌋.natAbs) ∘ t) k : ℕ) : ℤ) := by
      rw [Nat.cast_sum]
      refine Finset.sum_congr rfl fun k _ => ?_
      rw [Function.comp_apply, (h k).2, Int.floor_intCast, Int.abs_eq_natAbs]
    rw [e] at hb
    exact_mod_cast hb

end Cx

section
variable {F : Fmt} {lib : CxLib F} {n m p : Nat}

/-- C138: in a product of complex floating point matrices, a finite real or imaginary part of an element is that of the
exact product up to a bound proportional to the sum of the absolute values of the terms it consists of. -/
theorem C138_complex_mul_error (A : Mat (Cx lib) n m) (B : Mat (Cx lib) m p) :
    ∃ P, opMul A B = .ok P ∧ ∀ a b,
      ((P a b).re.Finite →
        |(P a b).re.val - (∑ k, (A a k).val * (B k b).val).re| ≤
          ((1 + F.u) ^ (m + 1) - 1) *
            ∑ k, (|(A a k).re.val| * |(B k b).re.val| + |(A a k).im.val| * |(B k b).im.val|) +
          2 * m * (1 + F.u) ^ m * F.eta) ∧
      ((P a b).im.Finite →
        |(P a b).im.val - (∑ k, (A a k).val * (B k b).val).im| ≤
          ((1 + F.u) ^ (m + 1) - 1) *
            ∑ k, (|(A a k).re.val| * |(B k b).im.val| + |(A a k).im.val| * |(B k b).re.val|) +
          2 * m * (1 + F.u) ^ m * F.eta) := by
  refine ⟨_, Cx.mult_eq A B, fun a b => ⟨fun h => ?_, fun h => ?_⟩⟩
  · have := Cx.pairs_err (fun k => (A a k).re) (fun k => (B k b).re) (fun k => (A a k).im)
      (fun k => (B k b).im) (fun k => ((A a k).mul (B k b)).re) (-1) (by norm_num) h ?_
    · rw [Complex.re_sum]
      simp only [Cx.val, Complex.mul_re]
      simp only [neg_one_mul, ← sub_eq_add_neg] at this
      exact this
    · intro k hk
      have e := Cx.mul_re hk
      rw [e] at hk ⊢
      have hf := Fl.sub_finite hk
      refine ⟨hf.1, hf.2, ?_⟩
      rw [neg_one_mul, ← sub_eq_add_neg]
      exact Fl.sub_err hk
  · have := Cx.pairs_err (fun k => (A a k).re) (fun k => (B k b).im) (fun k => (A a k).im)
      (fun k => (B k b).re) (fun k => ((A a k).mul (B k b)).im) 1 (by norm_num) h ?_
    · rw [Complex.im_sum]
      simp only [Cx.val, Complex.mul_im]
      simp only [one_mul] at this
      exact this
    · intro k hk
      have e := Cx.mul_im hk
      rw [e] at hk ⊢
      have hf := Fl.add_finite hk
      refine ⟨hf.1, hf.2, ?_⟩
      rw [one_mul]
      exact Fl.add_err hk

/-- C138: sums and differences are correctly rounded in both parts. -/
theorem C138_complex_sum (A B : Mat (Cx lib) n m) :
    ∃ S D, opAdd A B = .ok S ∧ opSub A B = .ok D ∧ ∀ a b,
      (S a b).re = (A a b).re.add (B a b).re ∧ (S a b).im = (A a b).im.add (B a b).im ∧
      (D a b).re = (A a b).re.sub (B a b).re ∧ (D a b).im = (A a b).im.sub (B a b).im :=
  ⟨_, _, (sum_elementwise A B).eq_ok fun _ _ => rfl, (sub_elementwise A B).eq_ok fun _ _ => rfl,
    fun _ _ => ⟨rfl, rfl, rfl, rfl⟩⟩

/-- C138: in a product with a number, the parts of an element are those of the textbook formula unless that gives NaN for
both of them. -/
theorem C138_complex_scalar (A : Mat (Cx lib) n m) (s : Cx lib) :
    ∃ R, opMulScalar A s = .ok R ∧ ∀ a b,
      ¬ ((((A a b).re.mul s.re).sub ((A a b).im.mul s.im)) = .nan ∧
        (((A a b).re.mul s.im).add ((A a b).im.mul s.re)) = .nan) →
      (R a b).re = ((A a b).re.mul s.re).sub ((A a b).im.mul s.im) ∧
      (R a b).im = ((A a b).re.mul s.im).add ((A a b).im.mul s.re) := by
  refine ⟨_, (multScalar_elementwise A s).eq_ok (R := .of fun a b => (A a b).mul s)
    fun _ _ => rfl, fun a b h => ?_⟩
  have e : (A a b).mul s = ⟨((A a b).re.mul s.re).sub ((A a b).im.mul s.im),
      ((A a b).re.mul s.im).add ((A a b).im.mul s.re)⟩ := if_neg h
  exact ⟨congrArg Cx.re e, congrArg Cx.im e⟩

/-- An element with an infinite part, for which only one part of the formula is NaN: `(∞ + 0i) * (1 + 0i)`. -/
example : ((Fl.inf false : Fl binary32).mul (Fl.ofInt 1)).sub ((Fl.ofInt 0).mul (Fl.ofInt 0)) = .inf false ∧
    ((Fl.inf false : Fl binary32).mul (Fl.ofInt 0)).add ((Fl.ofInt 0).mul (Fl.ofInt 1)) = .nan := by
  decide +kernel

/-- C138: matrices of Gaussian integers multiply exactly if the magnitudes of the terms of each part add up to at most
`2^p`. -/
theorem C138_complex_int (A : Mat (Cx lib) n m) (B : Mat (Cx lib) m p)
    (X X' : Matrix (Fin n) (Fin m) ℤ) (Y Y' : Matrix (Fin m) (Fin p) ℤ)
    (hA : ∀ i k, (A i k).re.Finite ∧ (A i k).re.val = X i k ∧ (A i k).im.Finite ∧ (A i k).im.val = X' i k)
    (hB : ∀ k j, (B k j).re.Finite ∧ (B k j).re.val = Y k j ∧ (B k j).im.Finite ∧ (B k j).im.val = Y' k j)
    (hre : ∀ i j, ∑ k, (|X i k| * |Y k j| + |X' i k| * |Y' k j|) ≤ 2 ^ F.p)
    (him : ∀ i j, ∑ k, (|X i k| * |Y' k j| + |X' i k| * |Y k j|) ≤ 2 ^ F.p) :
    ∃ P, opMul A B = .ok P ∧ ∀ i j, (P i j).re.Finite ∧ (P i j).im.Finite ∧
      (P i j).val = ∑ k, (A i k).val * (B k j).val := by
  refine ⟨_, Cx.mult_eq A B, fun a b => ?_⟩
  have hrt : ∀ k, (((A a k).re.mul (B k b).re).sub ((A a k).im.mul (B k b).im)).Finite ∧
      (((A a k).re.mul (B k b).re).sub ((A a k).im.mul (B k b).im)).val =
        ((X a k * Y k b - X' a k * Y' k b : ℤ) : ℝ) := by
    intro k
    have h1 : |X a k| * |Y k b| + |X' a k| * |Y' k b| ≤ 2 ^ F.p :=
      (Finset.single_le_sum (f := fun k => |X a k| * |Y k b| + |X' a k| * |Y' k b|)
        (fun k _ => by positivity) (Finset.mem_univ k)).trans (hre a b)
    rw [← abs_mul, ← abs_mul] at h1
    have m1 := Cx.mul_int (hA a k).1 (hB k b).1 (hA a k).2.1 (hB k b).2.1
      (by have := abs_nonneg (X' a k * Y' k b); omega)
    have m2 := Cx.mul_int (hA a k).2.2.1 (hB k b).2.2.1 (hA a k).2.2.2 (hB k b).2.2.2
      (by have := abs_nonneg (X a k * Y k b); omega)
    exact Cx.sub_int m1.1 m2.1 m1.2 m2.2 ((abs_sub _ _).trans h1)
  have hit : ∀ k, (((A a k).re.mul (B k b).im).add ((A a k).im.mul (B k b).re)).Finite ∧
      (((A a k).re.mul (B k b).im).add ((A a k).im.mul (B k b).re)).val =
        ((X a k * Y' k b + X' a k * Y k b : ℤ) : ℝ) := by
    intro k
    have h1 : |X a k| * |Y' k b| + |X' a k| * |Y k b| ≤ 2 ^ F.p :=
      (Finset.single_le_sum (f := fun k => |X a k| * |Y' k b| + |X' a k| * |Y k b|)
        (fun k _ => by positivity) (Finset.mem_univ k)).trans (him a b)
    rw [← abs_mul, ← abs_mul] at h1
    have m1 := Cx.mul_int (hA a k).1 (hB k b).2.2.1 (hA a k).2.1 (hB k b).2.2.2
      (by have := abs_nonneg (X' a k * Y k b); omega)
    have m2 := Cx.mul_int (hA a k).2.2.1 (hB k b).1 (hA a k).2.2.2 (hB k b).2.1
      (by have := abs_nonneg (X a k * Y' k b); omega)
    exact Cx.add_int m1.1 m2.1 m1.2 m2.2 ((abs_add_le _ _).trans h1)
  have hmul : ∀ k, (A a k).mul (B k b) = ⟨((A a k).re.mul (B k b).re).sub ((A a k).im.mul (B k b).im),
      ((A a k).re.mul (B k b).im).add ((A a k).im.mul (B k b).re)⟩ := by
    intro k
    refine if_neg fun h => ?_
    have := (hrt k).1
    rw [h.1] at this
    exact this
  have r1 := Cx.fsum_ints (fun k => ((A a k).mul (B k b)).re) (fun k => X a k * Y k b - X' a k * Y' k b)
    (fun k => by rw [hmul]; exact hrt k)
    ((Finset.sum_le_sum fun k _ => (abs_sub _ _).trans (by rw [abs_mul, abs_mul])).trans (hre a b))
  have r2 := Cx.fsum_ints (fun k => ((A a k).mul (B k b)).im) (fun k => X a k * Y' k b + X' a k * Y k b)
    (fun k => by rw [hmul]; exact hit k)
    ((Finset.sum_le_sum fun k _ => (abs_add_le _ _).trans (by rw [abs_mul, abs_mul])).trans (him a b))
  refine ⟨r1.1, r2.1, Complex.ext (r1.2.trans ?_) (r2.2.trans ?_)⟩
  · rw [Complex.re_sum, Int.cast_sum]
    refine Finset.sum_congr rfl fun k _ => ?_
    simp only [Cx.val, Complex.mul_re, (hA a k).2.1, (hA a k).2.2.2, (hB k b).2.1, (hB k b).2.2.2]
    push_cast; ring
  · rw [Complex.im_sum, Int.cast_sum]
    refine Finset.sum_congr rfl fun k _ => ?_
    simp only [Cx.val, Complex.mul_im, (hA a k).2.1, (hA a k).2.2.2, (hB k b).2.1, (hB k b).2.2.2]
    push_cast; ring

/-- A library as required; the product of `2 + 3i` and `1 - i`. -/
example : ∃ lib : CxLib binary32,
    opMul (!![⟨Fl.ofInt 2, Fl.ofInt 3⟩] : Mat (Cx lib) 1 1) !![⟨Fl.ofInt 1, Fl.ofInt (-1)⟩] =
      .ok !![⟨Fl.ofInt 5, Fl.ofInt 1⟩] := by
  refine ⟨⟨fun _ _ => (.nan, .nan), by simp, by simp, fun a _ => a, fun a => a, fun a => a.1⟩, ?_⟩
  decide +kernel

end

end MatrixLibs
