import Verif.Proof.IntChol

/-!
# Property C84: Cholesky factorisation of signed integer matrices
-/

namespace MatrixLibs

set_option linter.unusedSectionVars false

open CScalar (ofInt)

variable {w n : Nat}

/-- Integer square roots rounded down are unique. -/
theorem floorSqrt_unique {x y z : ℤ} (hx : 0 ≤ x) (hy : 0 ≤ y) (h1 : x ^ 2 ≤ z) (h2 : z < (x + 1) ^ 2)
    (h3 : y ^ 2 ≤ z) (h4 : z < (y + 1) ^ 2) : x = y := by
  have a : x < y + 1 := lt_of_pow_lt_pow_left₀ 2 (by omega) (h1.trans_lt h4)
  have b : y < x + 1 := lt_of_pow_lt_pow_left₀ 2 (by omega) (h3.trans_lt h2)
  omega

/-- Cells are determined by the cells before them. -/
theorem truncChol_unique {A L L' : Matrix (Fin n) (Fin n) ℤ} (i j : Fin n)
    (h : ∀ a b, b ≤ a → (a < i ∨ a = i ∧ b < j) → TruncCholCell A L a b)
    (h' : ∀ a b, b ≤ a → (a < i ∨ a = i ∧ b < j) → TruncCholCell A L' a b) :
    ∀ a b, b ≤ a → (a < i ∨ a = i ∧ b < j) → L a b = L' a b := by
  have key : ∀ m : Nat, ∀ a b : Fin n, a.val * n + b.val < m → b ≤ a →
      (a < i ∨ a = i ∧ b < j) → L a b = L' a b := by
    intro m
    induction m with
    | zero => intro a b hm; omega
    | succ m ih =>
      intro a b hm hba hab
      have hrow : ∀ p, p < b → L a p = L' a p := by
        intro p hp
        refine ih a p ?_ (hp.le.trans hba) ?_
        · rw [Fin.lt_def] at hp; omega
        · exact hab.imp id (fun h => ⟨h.1, hp.trans h.2⟩)
      rcases hba.eq_or_lt with rfl | hlt
      · have hs : (∑ p, if p < b then L b p * L b p else 0) =
            ∑ p, if p < b then L' b p * L' b p else 0 := by
          refine Finset.sum_congr rfl (fun p _ => ?_)
          split
          · next hp => rw [hrow p hp]
          · rfl
        obtain ⟨h1, h2, h3⟩ := (h b b le_rfl hab).1 rfl
        obtain ⟨h1', h2', h3'⟩ := (h' b b le_rfl hab).1 rfl
        rw [← hs] at h2' h3'
        exact floorSqrt_unique h1 h1' h2 h3 h2' h3'
      · have hai : a ≤ i := by
          rcases hab with h1 | h1
          · exact h1.le
          · exact h1.1.le
        have hcol : ∀ p, p ≤ b → L b p = L' b p := by
          intro p hp
          refine ih b p ?_ hp (Or.inl (lt_of_lt_of_le hlt hai))
          have h1 : (b.val + 1) * n ≤ a.val * n := Nat.mul_le_mul_right n hlt
          have h2 : (b.val + 1) * n = b.val * n + n := by ring
          have := p.2
          omega
        have hs : (∑ p, if p < b then L a p * L b p else 0) =
            ∑ p, if p < b then L' a p * L' b p else 0 := by
          refine Finset.sum_congr rfl (fun p _ => ?_)
          split
          · next hp => rw [hrow p hp, hcol p hp.le]
          · rfl
        rw [((h a b hba hab).2 hlt).2, ((h' a b hba hab).2 hlt).2, hs, hcol b le_rfl]
  exact fun a b hba hab => key _ a b (Nat.lt_succ_self _) hba hab

theorem IsTruncChol.unique {A L L' : Matrix (Fin n) (Fin n) ℤ} (h : IsTruncChol A L)
    (h' : IsTruncChol A L') : L = L' := by
  ext a b
  rcases lt_or_ge a b with hab | hab
  · rw [h.upper a b hab, h'.upper a b hab]
  · have key := truncChol_unique (n := n) (A := A) (L := L) (L' := L') a b
      (fun a b hba _ => h.cell a b hba) (fun a b hba _ => h'.cell a b hba)
    have hrow : ∀ p, p < b → L a p = L' a p := fun p hp =>
      key a p (hp.le.trans hab) (Or.inr ⟨rfl, hp⟩)
    rcases hab.eq_or_lt with rfl | hlt
    · have hs : (∑ p, if p < b then L b p * L b p else 0) =
          ∑ p, if p < b then L' b p * L' b p else 0 := by
        refine Finset.sum_congr rfl (fun p _ => ?_)
        split
        · next hp => rw [hrow p hp]
        · rfl
      obtain ⟨h1, h2, h3⟩ := (h.cell b b le_rfl).1 rfl
      obtain ⟨h1', h2', h3'⟩ := (h'.cell b b le_rfl).1 rfl
      rw [← hs] at h2' h3'
      exact floorSqrt_unique h1 h1' h2 h3 h2' h3'
    · have hs : (∑ p, if p < b then L a p * L b p else 0) =
          ∑ p, if p < b then L' a p * L' b p else 0 := by
        refine Finset.sum_congr rfl (fun p _ => ?_)
        split
        · next hp => rw [hrow p hp, key b p hp.le (Or.inl hlt)]
        · rfl
      rw [((h.cell a b hab).2 hlt).2, ((h'.cell a b hab).2 hlt).2, hs,
        key b b le_rfl (Or.inl hlt)]

/-- The elements of `L * Lᵀ` on and below the diagonal. -/
theorem mul_transpose_lower {L : Matrix (Fin n) (Fin n) ℤ} (hL : ∀ a b, a < b → L a b = 0)
    (a b : Fin n) : (L * L.transpose) a b =
      (∑ p, if p < b then L a p * L b p else 0) + L a b * L b b := by
  rw [Matrix.mul_apply]
  simp only [Matrix.transpose_apply]
  exact sum_splitZ b (fun p => L a p * L b p) (fun p hp => by rw [hL b p hp, mul_zero])

/-- C84: what `chol` of a signed integer matrix with diagonal below `2^52` (any `int` is) returns:
the unique lower triangular matrix whose cells are those of the Cholesky recurrence with square
roots rounded down and quotients truncated toward zero. -/
theorem C84_chol (hw : 2 ≤ w) (A L : Mat (SInt w) n n) (hA : ∀ i, (A i i).val < 2 ^ 52)
    (h : chol A = .ok L) :
    IsTruncChol (A.map SInt.val) (L.map SInt.val) ∧
      ∀ L', IsTruncChol (A.map SInt.val) L' → L' = L.map SInt.val := by
  have h1 : IsTruncChol (A.map SInt.val) (L.map SInt.val) := by
    have := wp_ok_elim (wp_chol_signed hw A hA) h
    exact this
  exact ⟨h1, fun L' h2 => h2.unique h1⟩

/-- C84: how far `L * trans(L)` can be from the lower half of `A`: on the diagonal it is not above
`A` and below it by at most `2 * L i i`; under the diagonal it differs by less than `L j j`. -/
theorem C84_error (hw : 2 ≤ w) (A L : Mat (SInt w) n n) (hA : ∀ i, (A i i).val < 2 ^ 52)
    (h : chol A = .ok L) (i j : Fin n) :
    (0 ≤ (A i i).val - (L.map SInt.val * (L.map SInt.val).transpose) i i ∧
      (A i i).val - (L.map SInt.val * (L.map SInt.val).transpose) i i ≤ 2 * (L i i).val) ∧
    (j < i →
      |(A i j).val - (L.map SInt.val * (L.map SInt.val).transpose) i j| < (L j j).val) := by
  have h1 := (C84_chol hw A L hA h).1
  refine ⟨?_, fun hij => ?_⟩
  · obtain ⟨h2, h3, h4⟩ := (h1.cell i i le_rfl).1 rfl
    rw [mul_transpose_lower h1.upper]
    simp only [Matrix.map_apply] at h2 h3 h4 ⊢
    constructor <;> nlinarith
  · obtain ⟨h2, h3⟩ := (h1.cell i j hij.le).2 hij
    have hpos : 0 < (L j j).val := lt_of_le_of_ne ((h1.cell j j le_rfl).1 rfl).1 (Ne.symm h2)
    have e : (A i j).val - (L.map SInt.val * (L.map SInt.val).transpose) i j =
        ((A i j).val - ∑ p, if p < j then (L.map SInt.val) i p * (L.map SInt.val) j p else 0).tmod
          (L j j).val := by
      rw [mul_transpose_lower h1.upper, h3, Int.tmod_def]
      simp only [Matrix.map_apply]
      ring
    rw [e, Int.abs_eq_natAbs, Int.natAbs_tmod]
    have h5 : 0 < (L j j).val.natAbs := Int.natAbs_pos.mpr h2
    calc (((_ : Nat) % (L j j).val.natAbs : Nat) : Int) < ((L j j).val.natAbs : Int) := by
          exact_mod_cast Nat.mod_lt _ h5
      _ = (L j j).val := by omega

/-- C84: if the lower half of `A` is that of `L₀ * L₀ᵀ` for an integer lower triangular `L₀` with
positive diagonal, `chol` returns exactly `L₀` or some intermediate value overflows. -/
theorem C84_exact (hw : 2 ≤ w) (A : Mat (SInt w) n n) (hA : ∀ i, (A i i).val < 2 ^ 52)
    (L₀ : Matrix (Fin n) (Fin n) ℤ) (hL : ∀ a b, a < b → L₀ a b = 0) (hd : ∀ a, 0 < L₀ a a)
    (hA0 : ∀ i j, j ≤ i → (A i j).val = (L₀ * L₀.transpose) i j) :
    (∃ L, chol A = .ok L ∧ L.map SInt.val = L₀) ∨ chol A = .error (.ub .signedOverflow) := by
  have h0 : IsTruncChol (A.map SInt.val) L₀ := by
    refine ⟨hL, fun a b hba => ⟨fun hab => ?_, fun hab => ⟨(hd b).ne', ?_⟩⟩⟩
    · rw [Matrix.map_apply, hA0 a a le_rfl, mul_transpose_lower hL]
      have := hd a
      refine ⟨this.le, by rw [add_sub_cancel_left, pow_two], ?_⟩
      rw [add_sub_cancel_left]
      nlinarith
    · rw [Matrix.map_apply, hA0 a b hba, mul_transpose_lower hL, add_sub_cancel_left,
        Int.mul_tdiv_cancel _ (hd b).ne']
  cases h : chol A with
  | ok L => exact Or.inl ⟨L, rfl, ((C84_chol hw A L hA h).2 L₀ h0).symm⟩
  | error e =>
    right
    have he : IntCholStop A e := by
      have := wp_error_elim (wp_chol_signed hw A hA) h
      exact this
    rcases he with he | ⟨L, i, j, hji, hc, ⟨-, rfl, h1⟩ | ⟨-, hij, h1⟩⟩
    · rw [he]
    · exfalso
      have hu := truncChol_unique j j hc (fun a b hba _ => h0.cell a b hba)
      have hs : (∑ p, if p < j then L j p * L j p else 0) =
          ∑ p, if p < j then L₀ j p * L₀ j p else 0 := by
        refine Finset.sum_congr rfl (fun p _ => ?_)
        split
        · next hp => rw [hu j p hp.le (Or.inr ⟨rfl, hp⟩)]
        · rfl
      rw [hs, hA0 j j le_rfl, mul_transpose_lower hL] at h1
      have := hd j
      nlinarith
    · exfalso
      have hu := truncChol_unique i j hc (fun a b hba _ => h0.cell a b hba)
      rw [hu j j le_rfl (Or.inl hij)] at h1
      exact (hd j).ne' h1

/-- C84: so for a symmetric `A` whose `chol` is regular, `L * trans(L)` is `A` exactly if `A` has an
integer Cholesky factorisation. -/
theorem C84_exact_iff (hw : 2 ≤ w) (A L : Mat (SInt w) n n) (hA : ∀ i, (A i i).val < 2 ^ 52)
    (hreg : ∀ i, (L i i).val ≠ 0) (h : chol A = .ok L) :
    L.map SInt.val * (L.map SInt.val).transpose = A.map SInt.val ↔
      ∃ L₀ : Matrix (Fin n) (Fin n) ℤ, (∀ a b, a < b → L₀ a b = 0) ∧ (∀ a, 0 < L₀ a a) ∧
        A.map SInt.val = L₀ * L₀.transpose := by
  have h1 := (C84_chol hw A L hA h).1
  constructor
  · intro he
    refine ⟨L.map SInt.val, h1.upper, fun a => ?_, he.symm⟩
    exact lt_of_le_of_ne ((h1.cell a a le_rfl).1 rfl).1 (Ne.symm (hreg a))
  · rintro ⟨L₀, hL, hd, hA0⟩
    rcases C84_exact hw A hA L₀ hL hd (fun i j _ => congrFun (congrFun hA0 i) j) with
      ⟨L', hr, e⟩ | hr
    · rw [h] at hr
      cases hr
      rw [e, hA0]
    · rw [h] at hr
      cases hr

/-- C84: otherwise some intermediate overflowed, or at some cell `(i, j)`, the cells before it being
those of the recurrence, the number under the square root is negative or the divisor is `0`. -/
theorem C84_stops (hw : 2 ≤ w) (A : Mat (SInt w) n n) (hA : ∀ i, (A i i).val < 2 ^ 52) (e : Stop)
    (h : chol A = .error e) :
    e = .ub .signedOverflow ∨ ∃ (L : Matrix (Fin n) (Fin n) ℤ) (i j : Fin n), j ≤ i ∧
      (∀ a b, b ≤ a → (a < i ∨ a = i ∧ b < j) → TruncCholCell (A.map SInt.val) L a b) ∧
      (e = .ub .domain ∧ j = i ∧ (A i i).val < ∑ p, (if p < i then L i p * L i p else 0) ∨
        e = .ub .divisionByZero ∧ j < i ∧ L j j = 0) := by
  have := wp_error_elim (wp_chol_signed hw A hA) h
  exact this

/-- The claims hold for `int` without a condition on the diagonal. -/
theorem C84_int (A : Mat (SInt 32) n n) (i : Fin n) : (A i i).val < 2 ^ 52 := by
  have := (A i i).inRange.2
  norm_num at this ⊢
  omega

/-- An exact factorisation. -/
example : chol (!![mkInt 4, mkInt 2, mkInt (-2); mkInt 2, mkInt 10, mkInt 8; mkInt (-2), mkInt 8, mkInt 26] :
    Mat (SInt 32) 3 3) = .ok !![mkInt 2, mkInt 0, mkInt 0; mkInt 1, mkInt 3, mkInt 0;
      mkInt (-1), mkInt 3, mkInt 4] := by decide +kernel

/-- C84, findings: for integer elements `chol` of a positive definite matrix can take the square
root of a negative number, divide by zero, or return a singular factor; over the reals none of this
happens (C38). -/
theorem C84_posdef_undefined :
    chol (!![mkInt 3, mkInt 2; mkInt 2, mkInt 2] : Mat (SInt 32) 2 2) = .error (.ub .domain) ∧
    chol (!![mkInt 2, mkInt 1, mkInt 0; mkInt 1, mkInt 1, mkInt 0; mkInt 0, mkInt 0, mkInt 1] :
      Mat (SInt 32) 3 3) = .error (.ub .divisionByZero) ∧
    chol (!![mkInt 2, mkInt 1; mkInt 1, mkInt 1] : Mat (SInt 32) 2 2) =
      .ok !![mkInt 1, mkInt 0; mkInt 1, mkInt 0] := by
  refine ⟨?_, ?_, ?_⟩ <;> decide +kernel

end MatrixLibs
