import Verif.Proof.IntLu

/-!
# Property C83: LU factorisation of signed integer matrices
-/

namespace MatrixLibs

set_option linter.unusedSectionVars false

open CScalar (ofInt)

variable {w n : Nat}

/-- Column `q` of `U` is determined by the columns of `L` before it. -/
theorem luCol_unique {L U L' U' : Matrix (Fin n) (Fin n) ℤ} (q : Fin n)
    (hu : ∀ i p, i < p → L i p = 0) (hu' : ∀ i p, i < p → L' i p = 0)
    (hd : ∀ p, L p p = 1) (hd' : ∀ p, L' p p = 1)
    (hprev : ∀ i p : Fin n, p < q → L i p = L' i p)
    (h : ∀ i, i ≤ q → ∑ p, L i p * U p q = ∑ p, L' i p * U' p q) :
    ∀ i, i ≤ q → U i q = U' i q := by
  have hU : ∀ t : Nat, ∀ i : Fin n, i.val < t → i ≤ q → U i q = U' i q := by
    intro t
    induction t with
    | zero => intro i hi; omega
    | succ t iht =>
      intro i hi hiq
      have h1 := h i hiq
      rw [sum_splitZ i _ (fun p hp => by rw [hu i p hp, zero_mul]),
        sum_splitZ i (fun p => L' i p * U' p q) (fun p hp => by rw [hu' i p hp, zero_mul]),
        hd, hd', one_mul, one_mul] at h1
      have h2 : (∑ p, if p < i then L i p * U p q else 0) =
          ∑ p, if p < i then L' i p * U' p q else 0 := by
        refine Finset.sum_congr rfl (fun p _ => ?_)
        split
        · next hp =>
          rw [hprev i p (lt_of_lt_of_le hp hiq),
            iht p (by rw [Fin.lt_def] at hp; omega) (le_of_lt (lt_of_lt_of_le hp hiq))]
        · rfl
      rw [h2] at h1
      exact add_left_cancel h1
  exact fun i => hU (i.val + 1) i (Nat.lt_succ_self _)

/-- The truncated factorisation is unique: at most one pair can be returned. -/
theorem IsTruncLu.unique {A L U L' U' : Matrix (Fin n) (Fin n) ℤ} {k : Nat}
    (h : IsTruncLu A L U k) (h' : IsTruncLu A L' U' k) :
    ∀ q : Fin n, q.val < k → (∀ i, U i q = U' i q) ∧ ∀ i, L i q = L' i q := by
  have key : ∀ m : Nat, m ≤ k → ∀ q : Fin n, q.val < m →
      (∀ i, U i q = U' i q) ∧ ∀ i, L i q = L' i q := by
    intro m
    induction m with
    | zero => intro _ q hq; omega
    | succ m ih =>
      intro hm q hq
      have hLprev : ∀ i p : Fin n, p < q → L i p = L' i p := fun i p hp =>
        (ih (by omega) p (by rw [Fin.lt_def] at hp; omega)).2 i
      have hUall : ∀ i, U i q = U' i q := by
        intro i
        by_cases hiq : i ≤ q
        · exact luCol_unique q h.L_upper h'.L_upper h.L_diag h'.L_diag hLprev
            (fun i hi => (h.upper i q (by omega) hi).trans (h'.upper i q (by omega) hi).symm) i hiq
        · rw [h.U_lower i q (not_le.mp hiq), h'.U_lower i q (not_le.mp hiq)]
      refine ⟨hUall, ?_⟩
      intro i
      rcases lt_trichotomy i q with hi | hi | hi
      · rw [h.L_upper i q hi, h'.L_upper i q hi]
      · subst hi
        rw [h.L_diag, h'.L_diag]
      · rw [h.lower i q (by omega) hi, h'.lower i q (by omega) hi, hUall q]
        congr 2
        refine Finset.sum_congr rfl (fun p _ => ?_)
        split
        · next hp => rw [hLprev i p hp, hUall p]
        · rfl
  exact fun q hq => key k le_rfl q hq

/-- Below the diagonal `A - L * U` is the remainder of the division that gave `L i j`. -/
theorem IsTruncLu.residual {A L U : Matrix (Fin n) (Fin n) ℤ} (h : IsTruncLu A L U n)
    (i j : Fin n) (hij : j < i) :
    A i j - (L * U) i j = (A i j - ∑ p, if p < j then L i p * U p j else 0).tmod (U j j) := by
  rw [Matrix.mul_apply, sum_splitZ j _ (fun p hp => by rw [h.U_lower p j hp, mul_zero]),
    Int.tmod_def, ← h.lower i j j.2 hij]
  ring

/-- C83: what `lu` of a signed integer matrix returns: `L` unit lower triangular, `U` upper
triangular with a diagonal free of zeros, the unique pair with `L * U = A` on and above the
diagonal and with multipliers truncated toward zero. -/
theorem C83_lu (hw : 2 ≤ w) (A L U : Mat (SInt w) n n) (h : lu A = .ok (L, U)) :
    IsTruncLu (A.map SInt.val) (L.map SInt.val) (U.map SInt.val) n ∧
    ∀ L' U', IsTruncLu (A.map SInt.val) L' U' n → L' = L.map SInt.val ∧ U' = U.map SInt.val := by
  have h1 : IsTruncLu (A.map SInt.val) (L.map SInt.val) (U.map SInt.val) n :=
    (show _ from by have := wp_ok_elim (wp_lu_signed hw A) h; exact this)
  refine ⟨h1, fun L' U' h2 => ⟨?_, ?_⟩⟩
  · ext i q; exact (h2.unique h1 q q.2).2 i
  · ext i q; exact (h2.unique h1 q q.2).1 i

/-- C83: how far `L * U` can be from `A`: equal on and above the diagonal, and below it off by less
than the pivot of the column. -/
theorem C83_error (hw : 2 ≤ w) (A L U : Mat (SInt w) n n) (h : lu A = .ok (L, U)) (i j : Fin n) :
    (i ≤ j → (L.map SInt.val * U.map SInt.val) i j = (A i j).val) ∧
    (j < i → |(A i j).val - (L.map SInt.val * U.map SInt.val) i j| < |(U j j).val|) := by
  have h1 := (C83_lu hw A L U h).1
  refine ⟨fun hij => ?_, fun hij => ?_⟩
  · rw [Matrix.mul_apply]
    exact h1.upper i j j.2 hij
  · have h2 := h1.residual i j hij
    rw [Matrix.map_apply] at h2
    rw [h2]
    have h3 : (U j j).val ≠ 0 := h1.U_diag j j.2
    rw [Int.abs_eq_natAbs, Int.abs_eq_natAbs, Int.natAbs_tmod]
    have : 0 < (U j j).val.natAbs := Int.natAbs_pos.mpr h3
    exact_mod_cast Nat.mod_lt _ this

/-- C83: if `A` is a product of an integer unit lower triangular and an integer upper triangular
matrix with no zero on its diagonal, `lu` returns exactly these or some intermediate value overflows. -/
theorem C83_exact (hw : 2 ≤ w) (A : Mat (SInt w) n n) (L₀ U₀ : Matrix (Fin n) (Fin n) ℤ)
    (hL : (∀ i p, i < p → L₀ i p = 0) ∧ ∀ p, L₀ p p = 1)
    (hU : (∀ p q, q < p → U₀ p q = 0) ∧ ∀ q, U₀ q q ≠ 0)
    (hA : A.map SInt.val = L₀ * U₀) :
    (∃ L U, lu A = .ok (L, U) ∧ L.map SInt.val = L₀ ∧ U.map SInt.val = U₀) ∨
      lu A = .error (.ub .signedOverflow) := by
  have h0 : ∀ k, IsTruncLu (A.map SInt.val) L₀ U₀ k := by
    intro k
    refine ⟨hL.1, hL.2, hU.1, fun q _ => hU.2 q, ?_, ?_⟩
    · intro i j _ _
      rw [hA, Matrix.mul_apply]
    · intro i j _ hij
      rw [hA, Matrix.mul_apply, sum_splitZ j _ (fun p hp => by rw [hU.1 p j hp, mul_zero]),
        add_sub_cancel_left, Int.mul_tdiv_cancel _ (hU.2 j)]
  have hwp := wp_lu_signed hw A
  cases h : lu A with
  | ok s =>
    obtain ⟨L, U⟩ := s
    obtain ⟨-, h2⟩ := C83_lu hw A L U h
    obtain ⟨h3, h4⟩ := h2 L₀ U₀ (h0 n)
    exact Or.inl ⟨L, U, rfl, h3.symm, h4.symm⟩
  | error e =>
    right
    have he : IntLuStop A e := wp_error_elim hwp h
    rcases he with he | ⟨-, L, U, j, h1, h2, h3⟩
    · rw [he]
    · exfalso
      have h4 := luCol_unique (U := U) (U' := U₀) j h1.L_upper hL.1 h1.L_diag hL.2
        (fun i p hp => (h1.unique (h0 j.val) p hp).2 i)
        (fun i hi => (h2 i hi).trans (((h0 n).upper i j j.2 hi).symm)) j le_rfl
      exact hU.2 j (h4 ▸ h3)

/-- C83: so `L * U` is `A` exactly if `A` has an integer factorisation of this form. -/
theorem C83_exact_iff (hw : 2 ≤ w) (A L U : Mat (SInt w) n n) (h : lu A = .ok (L, U)) :
    L.map SInt.val * U.map SInt.val = A.map SInt.val ↔
      ∃ L₀ U₀ : Matrix (Fin n) (Fin n) ℤ, ((∀ i p, i < p → L₀ i p = 0) ∧ ∀ p, L₀ p p = 1) ∧
        ((∀ p q, q < p → U₀ p q = 0) ∧ ∀ q, U₀ q q ≠ 0) ∧ A.map SInt.val = L₀ * U₀ := by
  have h1 := (C83_lu hw A L U h).1
  constructor
  · intro he
    exact ⟨_, _, ⟨h1.L_upper, h1.L_diag⟩, ⟨h1.U_lower, fun q => h1.U_diag q q.2⟩, he.symm⟩
  · rintro ⟨L₀, U₀, hL, hU, hA⟩
    rcases C83_exact hw A L₀ U₀ hL hU hA with ⟨L', U', hr, e1, e2⟩ | hr
    · rw [h] at hr
      cases hr
      rw [hA, e1, e2]
    · rw [h] at hr
      cases hr

/-- C83: otherwise some intermediate overflowed, or a pivot of the truncated factorisation is
`0`: the columns before `j` are as in `C83_lu`, column `j` of `L * U` is that of `A` down to the
diagonal, and `U j j = 0`. -/
theorem C83_stops (hw : 2 ≤ w) (A : Mat (SInt w) n n) (e : Stop) (h : lu A = .error e) :
    e = .ub .signedOverflow ∨
    e = .throws (.overflow_error "Divide by zero exception") ∧
      ∃ (L U : Matrix (Fin n) (Fin n) ℤ) (j : Fin n), IsTruncLu (A.map SInt.val) L U j.val ∧
        (∀ i, i ≤ j → ∑ p, L i p * U p j = (A i j).val) ∧ U j j = 0 := by
  have := wp_error_elim (wp_lu_signed hw A) h
  exact this

/-- An exact factorisation. -/
example : lu (!![mkInt 2, mkInt 1, mkInt 3; mkInt 4, mkInt 1, mkInt 1; mkInt (-2), mkInt 2, mkInt 5] :
    Mat (SInt 32) 3 3) = .ok (!![mkInt 1, mkInt 0, mkInt 0; mkInt 2, mkInt 1, mkInt 0;
      mkInt (-1), mkInt (-3), mkInt 1], !![mkInt 2, mkInt 1, mkInt 3; mkInt 0, mkInt (-1), mkInt (-5);
      mkInt 0, mkInt 0, mkInt (-7)]) := by decide +kernel

/-- C83, findings: with integer elements `lu` throws for a matrix all of whose leading minors are
non-zero, and returns for a singular one; neither happens over a field (C33, C34). -/
theorem C83_differs_from_field :
    lu (!![mkInt 2, mkInt 1; mkInt 3, mkInt 1] : Mat (SInt 32) 2 2) =
      .error (.throws (.overflow_error "Divide by zero exception")) ∧
    lu (!![mkInt 2, mkInt 4; mkInt 1, mkInt 2] : Mat (SInt 32) 2 2) =
      .ok (!![mkInt 1, mkInt 0; mkInt 0, mkInt 1], !![mkInt 2, mkInt 4; mkInt 0, mkInt 2]) := by
  constructor <;> decide +kernel

end MatrixLibs
