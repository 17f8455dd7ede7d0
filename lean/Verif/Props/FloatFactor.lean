import Verif.Proof.FloatDet
import Verif.Proof.FloatRound
import Verif.Props.Det
import Mathlib.LinearAlgebra.Matrix.Block
import Mathlib.LinearAlgebra.Matrix.Determinant.Misc
import Mathlib.LinearAlgebra.Matrix.Notation

/-!
# Floating point factorisations: lu, chol and the general determinant (C74 to C76)
-/

namespace MatrixLibs

variable {F : Fmt} {n : Nat}

/-- C74: if `lu` returns finite factors, `L` is unit lower triangular, `U` is upper triangular, and
their exact product is the argument up to rounding. -/
theorem C74_lu_backward (A L U : Mat (Fl F) n n) (h : lu A = .ok (L, U))
    (hL : ∀ i j, (L i j).Finite) (hU : ∀ i j, (U i j).Finite) :
    (∀ i, (L i i).val = 1) ∧ (∀ i j, i < j → (L i j).val = 0) ∧ (∀ i j, j < i → (U i j).val = 0) ∧
    ∀ i j, |((L.map Fl.val) * (U.map Fl.val)) i j - (A i j).val| ≤
      ((1 + F.u) ^ n - 1) * ∑ k, |(L i k).val| * |(U k j).val| +
        (n + |(U j j).val|) * (1 + F.u) ^ n * F.eta := by
  have hc := Fl.wp_lu A
  rw [h, wp_ok] at hc
  replace hc : Fl.LuCells A n L U := hc
  refine ⟨fun i => ?_, fun i j hij => ?_, fun i j hji => ?_, fun i j => ?_⟩
  · exact Fl.lu_diag hc hU i
  · have := hc.Lupper i j hij
    rw [this, Fl.zero_val]
  · have := hc.Ulower i j hji
    rw [this, Fl.zero_val]
  · rw [Matrix.mul_apply]
    exact Fl.lu_backward hc hL hU i j

/-- C74: `lu` of floating point elements either returns two matrices or throws the
divide-by-zero exception. -/
theorem C74_lu_stops (A : Mat (Fl F) n n) :
    (∃ L U, lu A = .ok (L, U)) ∨ lu A = .error (.throws divideByZeroException) := by
  have hc := Fl.wp_lu A
  cases h : lu A with
  | ok s => exact .inl ⟨s.1, s.2, rfl⟩
  | error e =>
    rw [h] at hc
    exact .inr (congrArg _ hc)

example : lu (!![Fl.ofInt 3, Fl.ofInt 1; Fl.ofInt 1, Fl.ofInt 1] : Mat (Fl binary32) 2 2) =
    .ok (!![Fl.ofInt 1, Fl.ofInt 0; (Fl.ofInt 11184811).div (Fl.ofInt 33554432), Fl.ofInt 1],
      !![Fl.ofInt 3, Fl.ofInt 1; Fl.ofInt 0, (Fl.ofInt 11184810).div (Fl.ofInt 16777216)]) := by
  decide +kernel

/-- C75: `chol` of floating point elements always returns. If its result is finite, it is lower
triangular with a diagonal that is not negative, and its exact product with its transpose is the
argument up to rounding, on and below the diagonal. -/
theorem C75_chol_backward (A : Mat (Fl F) n n) :
    ∃ L, chol A = .ok L ∧ ((∀ i j, (L i j).Finite) →
      (∀ i j, i < j → (L i j).val = 0) ∧ (∀ i, 0 ≤ (L i i).val) ∧
      ∀ i j, j ≤ i → |((L.map Fl.val) * (L.map Fl.val).transpose) i j - (A i j).val| ≤
        ((1 + F.u) ^ (n + 2) - 1) * ∑ k, |(L i k).val| * |(L j k).val| +
          (n + |(L j j).val|) * (1 + F.u) ^ n * F.eta) := by
  have hc := Fl.wp_chol A
  cases h : chol A with
  | error e =>
    rw [h] at hc
    exact hc.elim
  | ok L =>
    rw [h, wp_ok] at hc
    refine ⟨L, rfl, fun hL => ⟨fun i j hij => ?_, fun i => ?_, fun i j hji => ?_⟩⟩
    · rw [hc.upper i j hij, Fl.zero_val]
    · exact Fl.chol_diag_nonneg hc i (hL i i)
    · rw [Matrix.mul_apply]
      exact Fl.chol_backward hc i j hji (hL i j) (hL j j)

example : chol (!![Fl.ofInt 2, Fl.ofInt 0; Fl.ofInt 1, Fl.ofInt 2] : Mat (Fl binary32) 2 2) =
    .ok (!![(Fl.ofInt 11863283).div (Fl.ofInt 8388608), Fl.ofInt 0;
      (Fl.ofInt 11863283).div (Fl.ofInt 16777216),
      (Fl.ofInt 10273905).div (Fl.ofInt 8388608)]) := by
  decide +kernel

namespace Fl

theorem sqrt_neg {a : Fl F} (h : a.lt (ofInt 0) = true) : a.sqrt = .nan := by
  rw [ofInt_zero'] at h
  match a with
  | .nan => rfl
  | .inf true => rfl
  | .inf false => simp [lt, key, signed] at h; omega
  | .fin s N hN =>
    cases s
    · simp [lt, key, signed] at h; omega
    · simp [lt, key, signed] at h
      have : N ≠ 0 := by omega
      simp [sqrt, this]

theorem sub_neg {a s : Fl F} (h : a.lt (ofInt 0) = true) (hs : s.NonNeg) :
    (a.sub s).lt (ofInt 0) = true := by
  have hinf : lt (.inf true : Fl F) (ofInt 0) = true := by
    rw [ofInt_zero']
    have : 0 < F.bound := by unfold Fmt.bound; positivity
    simpa [lt, key, signed] using this
  match a with
  | .nan => cases s <;> cases h
  | .inf true =>
    rcases hs with ⟨hf, -⟩ | rfl
    · match s, hf with
      | .fin .., _ => exact hinf
    · exact hinf
  | .inf false => rw [ofInt_zero'] at h; simp [lt, key, signed] at h; omega
  | .fin t N hN =>
    rcases hs with ⟨hf, h0⟩ | rfl
    · have ha : (Fl.fin t N hN).Finite := trivial
      rw [lt_iff ha zero_finite, zero_val] at h
      have hr := sub_rounded ha hf
      by_cases hfin : ((Fl.fin t N hN).sub s).Finite
      · rw [lt_iff hfin zero_finite, zero_val]
        obtain ⟨M, hM, e⟩ := fin_rep ha
        exact (hr.upper hfin hM.2 e (by linarith)).trans_lt h
      · obtain ⟨K, -, ⟨-, s', h', e, -⟩ | ⟨-, s', e, hs'⟩⟩ := hr
        · rw [e] at hfin
          exact absurd trivial hfin
        · rw [e, hs'.mpr (by linarith)]
          exact hinf
    · exact hinf

theorem chol_negative {A L : Mat (Fl F) n n} (hc : CholCells A n 0 L) (i : Fin n)
    (h : (A i i).lt (ofInt 0) = true) : L i i = .nan := by
  rw [hc.diag i (.inl i.2)]
  by_cases hn : Fl.nan ∈ ((List.finRange i.val).map fun p => L i ⟨p.val, lt_trans p.2 i.2⟩)
  · obtain ⟨p, hp, hpn⟩ := List.mem_map.mp hn
    have : cholS L i i = .nan := by
      unfold cholS
      refine fsum_nan _ (List.mem_map.mpr ⟨p, hp, ?_⟩)
      simp only [hpn]
      rfl
    rw [this, sub_nan]
    rfl
  · refine sqrt_neg (sub_neg h ?_)
    unfold cholS
    refine fsum_nonNeg _ fun x hx => ?_
    obtain ⟨p, hp, rfl⟩ := List.mem_map.mp hx
    refine sq_nonNeg _ fun e => hn ?_
    exact List.mem_map.mpr ⟨p, hp, e⟩

end Fl

/-- C75: a negative diagonal element of the argument (`-inf` included) makes that of the factor NaN, whatever the
other elements are. -/
theorem C75_chol_negative (A : Mat (Fl F) n n) (i : Fin n) (h : (A i i).lt (Fl.ofInt 0) = true) :
    ∃ L, chol A = .ok L ∧ L i i = .nan := by
  obtain ⟨L, hL, hc⟩ := wp_total (Fl.wp_chol A)
  exact ⟨L, hL, Fl.chol_negative hc i h⟩

example : ((!![.ofInt 1, .ofInt 0; .ofInt 2, .inf true] : Mat (Fl binary32) 2 2) 1 1).lt (Fl.ofInt 0) = true := by
  decide +kernel

/-- An indefinite matrix gives a NaN, not an error. -/
example : chol (!![Fl.ofInt (-1)] : Mat (Fl binary32) 1 1) = .ok !![.nan] := by decide +kernel

/-! ## C76: the general determinant -/

/-- Every finite determinant of a finite matrix with `n ≥ 4` is within half the sum of the absolute
values of the products of the determinant. (For `n ≤ 3` the error is a few roundings of that
sum, see C73.) -/
def C76_claim (F : Fmt) : Prop :=
  ∀ (n : Nat), 4 ≤ n → ∀ (A : Mat (Fl F) n n) (d : Fl F), (∀ i j, (A i j).Finite) → det A = .ok d →
    d.Finite → |d.val - (A.map Fl.val).det| ≤
      1 / 2 * ∑ σ : Equiv.Perm (Fin n), ∏ i, |(A (σ i) i).val|

/-- A small pivot is used although a larger one is available. -/
def c76Witness : Mat (Fl binary32) 4 4 :=
  !![(Fl.ofInt 1).div (Fl.ofInt 1073741824), Fl.ofInt 1, Fl.ofInt 1, Fl.ofInt 0;
     Fl.ofInt 1, Fl.ofInt 0, Fl.ofInt 0, Fl.ofInt 0;
     Fl.ofInt 1, Fl.ofInt 0, Fl.ofInt 1, Fl.ofInt 0;
     Fl.ofInt 0, Fl.ofInt 0, Fl.ofInt 0, Fl.ofInt 1]

theorem c76_vals : c76Witness.map Fl.val =
    !![1 / 1073741824, 1, 1, 0; 1, 0, 0, 0; 1, 0, 1, 0; 0, 0, 0, 1] := by
  have h1 : ((Fl.ofInt 1 : Fl binary32)).val = 1 := Fl.one_val.2
  have h0 : ((Fl.ofInt 0 : Fl binary32)).val = 0 := Fl.zero_val
  have hs : ((Fl.ofInt 1 : Fl binary32).div (Fl.ofInt 1073741824)).val = 1 / 1073741824 := by
    have : (Fl.ofInt 1 : Fl binary32).div (Fl.ofInt 1073741824) =
        .fin false (2 ^ 119) (by decide +kernel) := by
      decide +kernel
    rw [this]
    norm_num [Fl.val, Fl.signed, Fmt.unit, binary32]
  ext i j
  fin_cases i <;> fin_cases j <;> simp [c76Witness, h1, h0, hs]

theorem c76_det : det c76Witness = .ok (.fin false 0 Fl.rep_zero) := by decide +kernel

theorem c76_exact : (c76Witness.map Fl.val).det = -1 := by
  rw [c76_vals]
  simp [Matrix.det_succ_row_zero, Fin.sum_univ_succ, Fin.succAbove]

/-- C76 is false: the determinant of `c76Witness` is -1, the only product that is not zero is -1,
and `det` returns zero. -/
theorem C76_false : ¬ C76_claim binary32 := by
  intro h
  have hfin : ∀ i j, (c76Witness i j).Finite := by
    intro i
    fin_cases i <;> decide +kernel
  have hsum : ∑ σ : Equiv.Perm (Fin 4), ∏ i, |(c76Witness (σ i) i).val| = 1 := by
    have e : ∀ i j, (c76Witness i j).val = (((!![1 / 1073741824, 1, 1, 0; 1, 0, 0, 0; 1, 0, 1, 0;
        0, 0, 0, 1] : Matrix (Fin 4) (Fin 4) ℚ) i j : ℚ) : ℝ) := by
      intro i j
      have := congrFun (congrFun c76_vals i) j
      rw [Matrix.map_apply] at this
      rw [this]
      fin_cases i <;> fin_cases j <;> simp
    have q : ∑ σ : Equiv.Perm (Fin 4), ∏ i, |(!![1 / 1073741824, 1, 1, 0; 1, 0, 0, 0; 1, 0, 1, 0;
        0, 0, 0, 1] : Matrix (Fin 4) (Fin 4) ℚ) (σ i) i| = 1 := by decide +kernel
    simp only [e]
    exact_mod_cast q
  have := h 4 le_rfl c76Witness _ hfin c76_det trivial
  rw [c76_exact, hsum] at this
  norm_num [Fl.val, Fl.signed] at this

/-- `inv` rejects `c76Witness`, a matrix with determinant -1, as singular. -/
example : inv none c76Witness = .error .terminates := by decide +kernel

theorem det_general {T : Type} [Inhabited T] [CScalar T] {n : Nat} (A : Mat T n n) (hn : 4 ≤ n) :
    det A = detN A := by
  match n, A, hn with
  | _ + 4, A, _ => rfl

/-- C76, for triangular matrices (upper or lower) without zeros on the diagonal: a finite
determinant is the product of the diagonal up to the rounding of the products. Missing: other
matrices, for which the claim is false. -/
theorem C76_det_triangular_partial (hn : 4 ≤ n) (A : Mat (Fl F) n n) (hA : ∀ i j, (A i j).Finite)
    (htri : (∀ i j, i < j → (A i j).val = 0) ∨ (∀ i j, j < i → (A i j).val = 0))
    (hd : ∀ i, (A i i).val ≠ 0) :
    ∃ d, det A = .ok d ∧ (d.Finite → ∀ M : ℝ, 1 ≤ M → (∀ i, |(A i i).val| ≤ M) →
      |d.val - (A.map Fl.val).det| ≤ ((1 + F.u) ^ n - 1) * |(A.map Fl.val).det| +
        n * ((1 + F.u) ^ n * M ^ n * F.eta)) := by
  obtain ⟨B, hB, e⟩ := Fl.detN_tri A hA htri hd
  refine ⟨_, (det_general A hn).trans e, fun hf M hM hAM => ?_⟩
  have hp := Fl.div_finite_left hf
  have h := (Fl.dprod_tracks B hM (fun i => by rw [(hB i).2]; exact hAM i) hp).err
  rw [(Fl.div_one_val hp).2]
  have hdet : (A.map Fl.val).det = ∏ i, (B i i).val := by
    have : (A.map Fl.val).det = ∏ i, (A.map Fl.val) i i := by
      rcases htri with h | h
      · exact Matrix.det_of_isLowerTriangular _ (fun i j hij => h i j hij)
      · exact Matrix.det_of_isUpperTriangular (fun i j hij => h i j hij)
    rw [this]
    exact Finset.prod_congr rfl (fun i _ => (hB i).2.symm)
  rw [hdet]
  exact h

example : det (!![Fl.ofInt 4097, Fl.ofInt 1, Fl.ofInt 2, Fl.ofInt 3;
      Fl.ofInt 0, Fl.ofInt 4097, Fl.ofInt 5, Fl.ofInt 7;
      Fl.ofInt 0, Fl.ofInt 0, Fl.ofInt 1, Fl.ofInt 9;
      Fl.ofInt 0, Fl.ofInt 0, Fl.ofInt 0, Fl.ofInt 3] : Mat (Fl binary32) 4 4) =
    .ok (Fl.ofInt 50356224) := by decide +kernel

end MatrixLibs
