import Verif.Proof.Chol
import Mathlib.Algebra.Order.Star.Real

/-!
# Properties C36–C39: symmetry test and Cholesky factorisation
-/

namespace MatrixLibs

set_option linter.unusedSectionVars false

/-! ## C36 -/

section
variable {T : Type} [Inhabited T] [CScalar T] {n : Nat}

/-- C36, for an arbitrary `==`: the test compares exactly the pairs below the diagonal. -/
theorem C36_isSymetric_pairs (A : Mat T n n) :
    ∃ b, isSymetric A = .ok b ∧
      (b = true ↔ ∀ i j : Fin n, j < i → CScalar.eq (A i j) (A j i) = true) := by
  suffices h : wp (isSymetric A) (fun b => b = true ↔
      ∀ i j : Fin n, j < i → CScalar.eq (A i j) (A j i) = true) (fun _ => False) by
    obtain ⟨b, hb, h⟩ := wp_total h
    exact ⟨b, hb, h⟩
  unfold isSymetric
  rcases Nat.eq_zero_or_pos n with rfl | hn
  · exact ⟨fun _ i => i.elim0, fun _ => rfl⟩
  rw [wp_bind]
  refine wp_forRet
    (fun i _ => ∀ a b : Fin n, a.val < i → b < a → CScalar.eq (A a b) (A b a) = true)
    (fun v => v = false ∧ ∃ a b : Fin n, b < a ∧ CScalar.eq (A a b) (A b a) = false)
    hn ?_ ?_ ?_ ?_
  · intro a b ha hb
    rw [Fin.lt_def] at hb
    omega
  · intro i _ _ hi hI
    refine wp_forRet
      (fun j _ => ∀ b : Fin n, b.val < j → CScalar.eq (A ⟨i, hi⟩ b) (A b ⟨i, hi⟩) = true)
      (fun v => v = false ∧ ∃ a b : Fin n, b < a ∧ CScalar.eq (A a b) (A b a) = false)
      (Nat.zero_le _) (fun b h => by omega) ?_ ?_ (fun v h => h)
    · intro j _ _ hj hJ
      have hjn : j < n := lt_trans hj hi
      rw [rd_eq hi hjn, ok_bind, rd_eq hjn hi, ok_bind]
      split
      · next hne =>
        refine ⟨rfl, ⟨i, hi⟩, ⟨j, hjn⟩, hj, ?_⟩
        simpa using hne
      · next hne =>
        intro b hb
        rcases Nat.lt_succ_iff_lt_or_eq.mp hb with h | h
        · exact hJ b h
        · have hb' : b = ⟨j, hjn⟩ := Fin.ext h
          rw [hb']
          simpa using hne
    · intro _ hJ a b ha hb
      rcases Nat.lt_succ_iff_lt_or_eq.mp ha with h | h
      · exact hI a b h hb
      · have ha' : a = ⟨i, hi⟩ := Fin.ext h
        subst ha'
        exact hJ b hb
  · intro _ h
    exact ⟨fun _ i j hij => h i j i.2 hij, fun _ => rfl⟩
  · rintro v ⟨rfl, a, b, hab, hne⟩
    refine ⟨fun h => by simp at h, fun h => ?_⟩
    have h' := h a b hab
    rw [hne] at h'
    exact h'

/-- C36: `isSymetric(A)` is true iff `A` equals its transpose, for every element type whose `==`
is equality. -/
theorem C36_isSymetric (A : Mat T n n) (heq : ∀ a b : T, CScalar.eq a b = true ↔ a = b) :
    ∃ b, isSymetric A = .ok b ∧ (b = true ↔ A = A.transpose) := by
  obtain ⟨b, hb, h⟩ := C36_isSymetric_pairs A
  refine ⟨b, hb, h.trans ⟨fun h => ?_, fun h i j _ => ?_⟩⟩
  · ext i j
    rw [Matrix.transpose_apply]
    rcases lt_trichotomy i j with hij | rfl | hij
    · exact ((heq _ _).mp (h j i hij)).symm
    · rfl
    · exact (heq _ _).mp (h i j hij)
  · rw [heq]
    exact congrFun (congrFun h i) j

/-- C36, with the library's own `trans` and `==`: `isSymetric(A) == (A == trans(A))`. -/
theorem C36_isSymetric_trans (A : Mat T n n) (heq : ∀ a b : T, CScalar.eq a b = true ↔ a = b) :
    isSymetric A = .ok true ↔ trans A = .ok A := by
  obtain ⟨b, hb, h⟩ := C36_isSymetric A heq
  rw [hb, trans_ok]
  constructor
  · intro h'
    cases h'
    rw [← h.mp rfl]
  · intro h'
    have h'' := Except.ok.inj h'
    rw [h.mpr h''.symm]

end

example : isSymetric (!![1, 2, 3; 2, 4, 5; 3, 5, 6] : Mat ℚ 3 3) = .ok true := by decide +kernel
example : isSymetric (!![1, 2, 3; 2, 4, 5; 3, 7, 6] : Mat ℚ 3 3) = .ok false := by decide +kernel
example : isSymetric (!![1, 2; 2, 4] : Mat (BitVec 32) 2 2) = .ok true := by decide +kernel
example (a b : SInt 32) : CScalar.eq a b = true ↔ a = b := by
  cases a; cases b; simp [CScalar.eq]

/-! ## C37 -/

section
variable {K : Type} [Field K] [LinearOrder K] [IsStrictOrderedRing K] [Inhabited K] [CScalar K]
  [ExactSqrt K] {n : Nat}

/-- C37: whatever `chol(A)` returns is lower triangular with non-negative diagonal, and
`L * trans(L)` agrees with `A` on and below the diagonal. -/
theorem C37_chol (A L : Mat K n n) (h : chol A = .ok L) :
    IsLower L ∧ (∀ i, 0 ≤ L i i) ∧ ∀ i j, j ≤ i → (L * L.transpose) i j = A i j := by
  have hI := wp_ok_elim (wp_chol A) h
  refine ⟨fun i p hip => hI.zero i p (fun h' => absurd h'.1 (not_le.mpr hip)),
    fun i => hI.diag i ((written_all i i).mpr le_rfl), fun i j hji => ?_⟩
  rw [Matrix.mul_apply]
  exact hI.prod i j ((written_all i j).mpr hji)

/-- C37: for a symmetric matrix the product, computed by the library, is `A`. -/
theorem C37_chol_symmetric (A L : Mat K n n) (hA : isSymetric A = .ok true)
    (h : chol A = .ok L) : opMul L L.transpose = .ok A ∧ L * L.transpose = A := by
  obtain ⟨b, hb, hs⟩ := C36_isSymetric A (fun a b => ExactRing.eq_iff a b)
  rw [hb] at hA
  cases hA
  have hsym := hs.mp rfl
  have hprod : L * L.transpose = A := by
    obtain ⟨-, -, hp⟩ := C37_chol A L h
    ext i j
    rcases le_total j i with hji | hij
    · exact hp i j hji
    · have hT : (L * L.transpose) i j = (L * L.transpose) j i := by
        rw [Matrix.mul_apply, Matrix.mul_apply]
        refine Finset.sum_congr rfl (fun k _ => ?_)
        rw [Matrix.transpose_apply, Matrix.transpose_apply, mul_comm]
      rw [hT, hp j i hij]
      exact (congrFun (congrFun hsym i) j).symm
  exact ⟨(mult_ok L L.transpose).trans (by rw [hprod]), hprod⟩

/-- C37: when it does not return, it took the root of a negative number (or of a number without
a root in `K`) or divided by zero: it never throws. -/
theorem C37_chol_stops (A : Mat K n n) (e : Stop) (h : chol A = .error e) :
    e = .ub .divisionByZero ∨ e = .ub .domain := by
  have := wp_error_elim (wp_chol A) h
  exact this

end

example : chol (!![4, 12, -16; 12, 37, -43; -16, -43, 98] : Mat ℚ 3 3) =
    .ok !![2, 0, 0; 6, 1, 0; -8, 5, 3] := by decide +kernel
/-- The strict upper triangle is not looked at, so the product need not be `A`. -/
example : chol (!![4, 7; 2, 10] : Mat ℚ 2 2) = .ok !![2, 0; 1, 3] := by decide +kernel
example : chol (!![-1] : Mat ℚ 1 1) = .error (.ub .domain) := by decide +kernel
example : chol (!![0, 0; 1, 1] : Mat ℚ 2 2) = .error (.ub .divisionByZero) := by decide +kernel

/-! ## C38 -/

section
variable {n : Nat}

/-- C38: a symmetric real matrix is positive definite iff `chol` returns a factor with strictly
positive diagonal. -/
theorem C38_chol_posDef_iff (A : Mat ℝ n n) (hsym : ∀ i j, A i j = A j i) :
    IsPosDef A ↔ ∃ L, chol A = .ok L ∧ ∀ i, 0 < L i i := by
  constructor
  · intro hA
    obtain ⟨L, hL, -, h⟩ := wp_total (wp_chol_posDef A ((isPosDef_iff A).mp hA))
    exact ⟨L, hL, h⟩
  · rintro ⟨L, hL, hd⟩
    refine ⟨hsym, fun x hx => ?_⟩
    obtain ⟨hlow, -, hp⟩ := C37_chol A L hL
    have hprod : ∀ i j, A i j = ∑ k, L i k * L j k := by
      intro i j
      rcases le_total j i with h | h
      · rw [← hp i j h, Matrix.mul_apply]; rfl
      · rw [hsym, ← hp j i h, Matrix.mul_apply]
        exact Finset.sum_congr rfl (fun k _ => mul_comm _ _)
    -- the quadratic form is a sum of squares
    have hform : ∑ i, ∑ j, x i * A i j * x j = ∑ k, (∑ i, x i * L i k) ^ 2 := by
      calc ∑ i, ∑ j, x i * A i j * x j
          = ∑ i, ∑ j, ∑ k, (x i * L i k) * (x j * L j k) := by
            refine Finset.sum_congr rfl (fun i _ => Finset.sum_congr rfl (fun j _ => ?_))
            rw [hprod, Finset.mul_sum, Finset.sum_mul]
            exact Finset.sum_congr rfl (fun k _ => by ring)
        _ = ∑ k, ∑ i, ∑ j, (x i * L i k) * (x j * L j k) := by
            rw [Finset.sum_comm' (t' := Finset.univ) (s' := fun _ => Finset.univ) (by simp)]
            rw [Finset.sum_comm]
            rw [Finset.sum_congr rfl (fun i _ => Finset.sum_comm)]
            rw [Finset.sum_comm]
        _ = ∑ k, (∑ i, x i * L i k) ^ 2 := by
            refine Finset.sum_congr rfl (fun k _ => ?_)
            rw [sq, Finset.sum_mul]
            exact Finset.sum_congr rfl (fun i _ => by rw [Finset.mul_sum])
    rw [hform]
    refine lt_of_le_of_ne (Finset.sum_nonneg (fun k _ => sq_nonneg _)) ?_
    intro h0
    have hz := (Finset.sum_eq_zero_iff_of_nonneg (fun k _ => sq_nonneg _)).mp h0.symm
    -- the last non-zero coordinate contradicts the positive diagonal
    apply hx
    have key : ∀ m : Nat, ∀ k : Fin n, n ≤ k.val + m → x k = 0 := by
      intro m
      induction m with
      | zero => intro k hk; have := k.2; omega
      | succ m ih =>
        intro k hk
        have hs : ∑ i, x i * L i k = 0 := by
          have := hz k (Finset.mem_univ k)
          exact pow_eq_zero_iff (two_ne_zero) |>.mp this
        have hone : ∑ i, x i * L i k = x k * L k k := by
          refine Finset.sum_eq_single k (fun i _ hik => ?_) (fun h => absurd (Finset.mem_univ k) h)
          rcases lt_or_gt_of_ne hik with h | h
          · rw [hlow i k h, mul_zero]
          · rw [ih i (by rw [Fin.lt_def] at h; omega), zero_mul]
        rw [hone] at hs
        exact (mul_eq_zero.mp hs).resolve_right (ne_of_gt (hd k))
    funext k
    exact key n k (by omega)

/-- C38: the factor is the only lower triangular matrix with positive diagonal and product `A`. -/
theorem C38_chol_unique (A L : Mat ℝ n n) :
    (chol A = .ok L ∧ (∀ i, 0 < L i i) ∧ ∀ i j, A i j = A j i) ↔
      IsLower L ∧ (∀ i, 0 < L i i) ∧ L * L.transpose = A := by
  have hfac : ∀ M : Mat ℝ n n, chol A = .ok M → (∀ i j, A i j = A j i) →
      IsLower M ∧ M * M.transpose = A := by
    intro M hM hsym
    refine ⟨(C37_chol A M hM).1, (C37_chol_symmetric A M ?_ hM).2⟩
    obtain ⟨b, hb, hs⟩ := C36_isSymetric A (fun a b => ExactRing.eq_iff a b)
    rw [hb, hs.mpr]
    ext i j
    exact hsym i j
  constructor
  · rintro ⟨h, hd, hsym⟩
    exact ⟨(hfac L h hsym).1, hd, (hfac L h hsym).2⟩
  · rintro ⟨hlow, hd, hp⟩
    have hsym : ∀ i j, A i j = A j i := by
      intro i j
      rw [← hp, Matrix.mul_apply, Matrix.mul_apply]
      exact Finset.sum_congr rfl (fun k _ => mul_comm _ _)
    have hdet : ∀ i j, (L * L.transpose) i j = A i j := fun i j => by rw [hp]
    have hpd : A.PosDef := by
      rw [← hp]
      have hdetL : IsUnit L.det := by
        rw [Matrix.det_of_isLowerTriangular L (fun i p hip => hlow i p hip)]
        exact (Finset.prod_pos (fun i _ => hd i)).ne'.isUnit
      have hh : L * L.transpose = L * L.conjTranspose := by
        rw [Matrix.conjTranspose_eq_transpose_of_trivial]
      rw [hh]
      refine Matrix.PosDef.mul_conjTranspose_self L ?_
      exact Matrix.vecMul_injective_of_isUnit ((Matrix.isUnit_iff_isUnit_det L).mpr hdetL)
    obtain ⟨M, hM, -, hMd⟩ := wp_total (wp_chol_posDef A hpd)
    obtain ⟨hMlow, hMp⟩ := hfac M hM hsym
    have hLM : L = M := chol_unique L M hlow hMlow hd hMd (hp.trans hMp.symm)
    rw [hLM]
    exact ⟨hM, hMd, hsym⟩

/-- A concrete positive definite matrix. -/
theorem posDef_example : IsPosDef (!![2, 1; 1, 2] : Mat ℝ 2 2) := by
  refine ⟨by simp [Fin.forall_fin_two], fun x hx => ?_⟩
  have h : x 0 ≠ 0 ∨ x 1 ≠ 0 := by
    by_contra h
    push Not at h
    apply hx
    funext i
    fin_cases i
    · exact h.1
    · exact h.2
  have e : ∑ i, ∑ j, x i * (!![2, 1; 1, 2] : Mat ℝ 2 2) i j * x j =
      x 0 ^ 2 + x 1 ^ 2 + (x 0 + x 1) ^ 2 := by
    simp [Fin.sum_univ_two]
    ring
  rw [e]
  rcases h with h | h <;> positivity

example : ∃ L, chol (!![2, 1; 1, 2] : Mat ℝ 2 2) = .ok L ∧ ∀ i, 0 < L i i :=
  (C38_chol_posDef_iff _ posDef_example.1).mp posDef_example

end

/-! ## C39 -/

/-- C39: `chol(A)` does not depend on the strict upper triangle, for every element type. -/
theorem C39_chol_lower {T : Type} [Inhabited T] [CScalar T] {n : Nat} (A B : Mat T n n)
    (h : ∀ i j, j ≤ i → A i j = B i j) : chol A = chol B := by
  unfold chol
  refine forUp_congr (fun i L _ hi => forUp_congr (fun j L _ hj => ?_))
  have hjn : j < n := by omega
  unfold cholStep
  split
  · rw [rd_eq hi hi, rd_eq hi hi, h ⟨i, hi⟩ ⟨i, hi⟩ le_rfl]
  · rw [rd_eq hi hjn, rd_eq hi hjn,
      h ⟨i, hi⟩ ⟨j, hjn⟩ (by rw [Fin.le_def]; dsimp only; omega)]

example : ∀ i j : Fin 2, j ≤ i →
    (!![4, 7; 2, 10] : Mat ℚ 2 2) i j = (!![4, 2; 2, 10] : Mat ℚ 2 2) i j := by
  simp [Fin.forall_fin_two]

end MatrixLibs
