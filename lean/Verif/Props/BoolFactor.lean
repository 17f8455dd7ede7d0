import Verif.Proof.BoolFactor
import Verif.Proof.Safety
import Verif.Props.Chol
import Verif.Props.Safety
import Verif.Props.BoolConv
import Verif.Props.BoolDet
import Verif.Props.BoolStats

/-!
# Properties C121 and C122: factorisations of `bool` matrices, and no undefined behaviour
-/

namespace MatrixLibs

set_option linter.unusedSectionVars false

open Promo (load store sqrtTo)
open CScalar (ofInt)

variable {i j n m p : Nat}

/-! ## C121: LU -/

/-- The recurrence determines the factors. -/
theorem IsBoolLu.unique {A L U L' U' : Mat Bool n n} {k : Nat} (h : IsBoolLu A L U k) (h' : IsBoolLu A L' U' k) :
    ∀ q : Fin n, q.val < k → (∀ i, U i q = U' i q) ∧ ∀ i, L i q = L' i q := by
  intro q
  obtain ⟨m, hm⟩ : ∃ m, m = q.val := ⟨_, rfl⟩
  induction m using Nat.strong_induction_on generalizing q with
  | _ m ih =>
    intro hq
    have hLprev : ∀ i p : Fin n, p < q → L i p = L' i p := fun i p hp =>
      (ih p.val (by rw [Fin.lt_def] at hp; omega) p rfl (by rw [Fin.lt_def] at hp; omega)).2 i
    have hUcol : ∀ s : Nat, ∀ i : Fin n, i.val = s → U i q = U' i q := by
      intro s
      induction s using Nat.strong_induction_on with
      | _ s ihs =>
        intro i hi
        by_cases hiq : i ≤ q
        · rw [h.upper i q hq hiq, h'.upper i q hq hiq]
          congr 1
          refine orTo_congr (m := i.val) (m' := i.val) fun p => and_congr_right fun hp => ?_
          rw [hLprev i p (lt_of_lt_of_le hp hiq), ihs p.val (by omega) p rfl]
        · rw [h.U_lower i q (not_le.mp hiq), h'.U_lower i q (not_le.mp hiq)]
    have hU : ∀ i, U i q = U' i q := fun i => hUcol i.val i rfl
    refine ⟨hU, fun i => ?_⟩
    by_cases hqi : q ≤ i
    · rw [h.lower i q hq hqi, h'.lower i q hq hqi]
      congr 1
      refine orTo_congr (m := q.val) (m' := q.val) fun p => and_congr_right fun hp => ?_
      rw [hLprev i p hp, hU p]
    · rw [h.L_upper i q (not_le.mp hqi), h'.L_upper i q (not_le.mp hqi)]

/-- C121: what `lu` returns: the pair determined by the recurrence in which sums are disjunctions and differences are
exclusive disjunctions. -/
theorem C121_lu (A L U : Mat Bool n n) (h : Promoted.lu A = .ok (L, U)) :
    IsBoolLu A L U n ∧ ∀ L' U', IsBoolLu A L' U' n → L' = L ∧ U' = U := by
  have h1 : IsBoolLu A L U n := by
    have := wp_ok_elim (wp_lu_bool A) h
    exact this
  refine ⟨h1, fun L' U' h2 => ⟨?_, ?_⟩⟩
  · ext i q; exact (h2.unique h1 q q.2).2 i
  · ext i q; exact (h2.unique h1 q q.2).1 i

/-- C121: both factors have a true diagonal. -/
theorem C121_lu_diag (A L U : Mat Bool n n) (h : Promoted.lu A = .ok (L, U)) (q : Fin n) :
    L q q = true ∧ U q q = true := by
  have h1 := (C121_lu A L U h).1
  refine ⟨?_, h1.U_diag q q.2⟩
  rw [h1.lower q q q.2 le_rfl, ← h1.upper q q q.2 le_rfl]
  exact h1.U_diag q q.2

/-- C121: `L * U` is true wherever `A` is true. -/
theorem C121_lu_product (A L U : Mat Bool n n) (h : Promoted.lu A = .ok (L, U)) :
    ∃ P, Promoted.mult L U = .ok P ∧ ∀ a b, A a b = true → P a b = true := by
  have h1 := (C121_lu A L U h).1
  have hd := C121_lu_diag A L U h
  refine ⟨_, bool_mult L U, fun a b hab => ?_⟩
  rw [boolMul_iff]
  rcases le_total a b with hle | hle
  · by_cases hs : ∃ p, p < a ∧ L a p = true ∧ U p b = true
    · obtain ⟨p, -, h2⟩ := hs
      exact ⟨p, h2⟩
    · refine ⟨a, (hd a).1, ?_⟩
      rw [h1.upper a b b.2 hle, hab, decide_eq_false hs]
      rfl
  · by_cases hs : ∃ p, p < b ∧ L a p = true ∧ U p b = true
    · obtain ⟨p, -, h2⟩ := hs
      exact ⟨p, h2⟩
    · refine ⟨b, ?_, (hd b).2⟩
      rw [h1.lower a b b.2 hle, hab, decide_eq_false hs]
      rfl

/-- C121, finding: it can be true elsewhere too. -/
theorem C121_lu_wrong : ∃ A L U : Mat Bool 2 2, Promoted.lu A = .ok (L, U) ∧
    Promoted.mult L U = .ok (.of fun _ _ => true) ∧ A 1 1 = false :=
  ⟨!![true, true; true, false], !![true, false; true, true], !![true, true; false, true],
    by decide +kernel, by decide +kernel, rfl⟩

/-- C121: `lu` otherwise throws, when a pivot of the recurrence is false. -/
theorem C121_lu_stops (A : Mat Bool n n) (e : Stop) (h : Promoted.lu A = .error e) :
    e = .throws (.overflow_error "Divide by zero exception") ∧
      ∃ (L U : Mat Bool n n) (j : Fin n), IsBoolLu A L U j.val ∧
        (∀ i, i ≤ j → U i j = (A i j ^^ decide (∃ p, p < i ∧ L i p = true ∧ U p j = true))) ∧ U j j = false := by
  have := wp_error_elim (wp_lu_bool A) h
  exact this

/-! ## C121: Cholesky and symmetry -/

/-- Cells are determined by the cells before them. -/
theorem boolChol_unique {A L L' : Mat Bool n n} (h : IsBoolChol A L) (h' : IsBoolChol A L') : L = L' := by
  have key : ∀ m : Nat, ∀ a b : Fin n, a.val * n + b.val < m → b ≤ a → L a b = L' a b := by
    intro m
    induction m with
    | zero => intro a b hm; omega
    | succ m ih =>
      intro a b hm hba
      rw [(h.cell a b hba).2, (h'.cell a b hba).2]
      congr 1
      refine orTo_congr (m := b.val) (m' := b.val) fun p => and_congr_right fun hp => ?_
      have hb : b.val * n + p.val < m := by
        have : b.val * n ≤ a.val * n := Nat.mul_le_mul_right n hba
        omega
      rw [ih a p (by omega) (le_trans (le_of_lt hp) hba), ih b p hb (le_of_lt hp)]
  ext a b
  by_cases hab : b ≤ a
  · exact key _ a b (Nat.lt_succ_self _) hab
  · rw [h.upper a b (not_le.mp hab), h'.upper a b (not_le.mp hab)]

/-- C121: what `chol` returns: the lower triangular matrix determined by the recurrence. -/
theorem C121_chol (A L : Mat Bool n n) (h : Promoted.chol A = .ok L) :
    IsBoolChol A L ∧ ∀ L', IsBoolChol A L' → L' = L := by
  have h1 : IsBoolChol A L := by
    have := wp_ok_elim (wp_chol_bool A) h
    exact this
  exact ⟨h1, fun L' h' => boolChol_unique h' h1⟩

/-- C121: if `A` is symmetric, `L * trans(L)` is true wherever `A` is true. -/
theorem C121_chol_product (A L : Mat Bool n n) (hA : Promoted.isSymetric A = .ok true) (h : Promoted.chol A = .ok L) :
    ∃ P, (do Promoted.mult L (← trans L)) = .ok P ∧ ∀ a b, A a b = true → P a b = true := by
  have hsym : ∀ a b, A a b = A b a := by
    let _ := Promoted.keyScalar Bool
    obtain ⟨r, hr, hiff⟩ := C36_isSymetric A (fun a b => by cases a <;> cases b <;> decide)
    have hr' : Promoted.isSymetric A = .ok r := hr
    rw [hA] at hr'
    have := hiff.mp (Except.ok.inj hr').symm
    exact fun a b => congrFun (congrFun this a) b
  have h1 := (C121_chol A L h).1
  refine ⟨boolMul L L.transpose, by rw [trans_ok, ok_bind, bool_mult], ?_⟩
  have low : ∀ a b, b ≤ a → A a b = true → ∃ k, L a k = true ∧ L b k = true := by
    intro a b hba hab
    by_cases hs : ∃ p, p < b ∧ L a p = true ∧ L b p = true
    · obtain ⟨p, -, h2⟩ := hs
      exact ⟨p, h2⟩
    · have hv : L a b = true := by
        rw [(h1.cell a b hba).2, hab, decide_eq_false hs]
        rfl
      refine ⟨b, hv, ?_⟩
      rcases hba.eq_or_lt with rfl | hlt
      · exact hv
      · exact (h1.cell a b hba).1 hlt
  intro a b hab
  rw [boolMul_iff]
  rcases le_total b a with hle | hle
  · exact low a b hle hab
  · obtain ⟨k, h2, h3⟩ := low b a hle (hsym a b ▸ hab)
    exact ⟨k, h3, h2⟩

/-- C121, finding: it can be true elsewhere too, for a symmetric matrix. -/
theorem C121_chol_wrong : ∃ A L : Mat Bool 2 2, Promoted.isSymetric A = .ok true ∧ Promoted.chol A = .ok L ∧
    (do Promoted.mult L (← trans L)) = .ok (.of fun _ _ => true) ∧ A 1 1 = false :=
  ⟨!![true, true; true, false], !![true, false; true, true], by decide +kernel, by decide +kernel, by decide +kernel, rfl⟩

/-- C121: `chol` otherwise divides by zero, at a false pivot of the recurrence. No square root has a domain error: the
root of -1 is a NaN, which converts to true. -/
theorem C121_chol_stops (A : Mat Bool n n) (e : Stop) (h : Promoted.chol A = .error e) :
    e = .ub .divisionByZero ∧ ∃ (L : Mat Bool n n) (i j : Fin n), j < i ∧
      (∀ a b, b ≤ a → (a < i ∨ a = i ∧ b < j) → BoolCholCell A L a b) ∧ L j j = false := by
  have := wp_error_elim (wp_chol_bool A) h
  exact this

/-- C121: `isSymetric(A)` is true exactly if `A` equals its transpose. -/
theorem C121_isSymetric (A : Mat Bool n n) :
    ∃ r, Promoted.isSymetric A = .ok r ∧ (r = true ↔ A = A.transpose) := by
  let _ := Promoted.keyScalar Bool
  exact C36_isSymetric A (fun a b => by cases a <;> cases b <;> decide)

/-! ## C121: `strassen` -/

/-- C121, finding: `strassen(A, B)` returns, but it is not `A * B`. -/
theorem C121_strassen_wrong : ∃ A B : Mat Bool 2 2, Promoted.mult A B = .ok A ∧
    Promoted.strassen A B = .ok (.of fun _ _ => true) ∧ A 0 1 = false :=
  ⟨!![true, false; true, true], !![true, false; false, true], by decide +kernel, by decide +kernel, rfl⟩

/-! ## C118: negative powers -/

/-- C118: `pow(A, -p)`, `p > 0`, is the power `p` of `inv(A)`: its walks of `p` steps. -/
theorem C118_pow_neg (handled : Option Exc) (w : Nat) (A B : Mat Bool n n) (hB : Promoted.invN handled A = .ok B)
    (p : Nat) (hp : 0 < p) (hmin : -(p : Int) ≠ expMin w) :
    ∃ P, Promoted.pow handled w A (-(p : Int)) = .ok P ∧ ∀ a b, P a b = true ↔ Walk B p a b := by
  have h2 : (-(p : Int)).natAbs = p := by omega
  unfold Promoted.pow
  rw [h2, Promoted.powFuel_neg _ _ _ _ _ (by omega) hmin, hB, ok_bind, h2]
  refine wp_total (bool_powStep B handled w p _ (bool_powFuel B handled w (p / 2) _ ?_))
  rcases (show p = 1 ∨ 2 ≤ p by omega) with rfl | h
  · decide
  · rw [Nat.log2_def p, if_pos h]
    omega

/-- C118: if `inv(A)` throws, so does every negative power. -/
theorem C118_pow_throws (handled : Option Exc) (w : Nat) (A : Mat Bool n n) (e : Stop)
    (hA : Promoted.invN handled A = .error e) (p : Int) (hp : p < 0) : Promoted.pow handled w A p = .error e := by
  unfold Promoted.pow
  by_cases hmin : p = expMin w
  · rw [hmin, Promoted.powFuel_min, hA]
    rfl
  · rw [Promoted.powFuel_neg _ _ _ _ _ hp hmin, hA]
    rfl

/-! ## C122: no undefined behaviour -/

/-- C122: for every content of the matrices, these functions return. -/
theorem C122_returns (handled : Option Exc) (A B : Mat Bool i j) (C : Mat Bool n m) (D : Mat Bool m p)
    (S V : Mat Bool 2 2) (Q : Mat Bool n n) (s : Bool) (w k : Nat) (eps : Fl binary32) (K : Mat Bool 3 3)
    (hi : i ≤ 2 ^ 31) (hj : j ≤ 2 ^ 31) :
    (∃ R, Promoted.sum A B = .ok R) ∧ (∃ R, Promoted.sub A B = .ok R) ∧ (∃ R, Promoted.sumScalar A s = .ok R) ∧
    (∃ R, Promoted.subScalar A s = .ok R) ∧ (∃ R, Promoted.mult C D = .ok R) ∧
    (∃ R, Promoted.multScalar A s = .ok R) ∧ (∃ R, Promoted.abs A = .ok R) ∧ (∃ R, Promoted.strassen S V = .ok R) ∧
    (∃ d, Promoted.det Q = .ok d) ∧ (∃ R, Promoted.pow handled w Q (k : Int) = .ok R) ∧
    (∃ R, Promoted.conv2 A K = .ok R) ∧ (∃ R, Promoted.conv2_full A K = .ok R) ∧
    (∃ r, Promoted.isSymetric Q = .ok r) ∧ (∃ r, Promoted.compareBool A B eps = .ok r) := by
  refine ⟨⟨_, (C115_add_sub A B).1⟩, ⟨_, (C115_add_sub A B).2⟩, ⟨_, (C115_scalar A s).1⟩, ⟨_, (C115_scalar A s).2.1⟩,
    (C116_mul C D).imp fun _ h => h.1, ⟨_, (C115_scalar A s).2.2⟩, ⟨_, C115_abs A⟩, ?_, C117_det_returns Q,
    (C116_pow handled w Q k).imp fun _ h => h.1, (C119_conv2 A K hi hj).imp fun _ h => h.1,
    (C119_conv2_full A K hi hj).imp fun _ h => h.1, (C121_isSymetric Q).imp fun _ h => h.1,
    (bool_compare_scan A B eps).imp fun _ h => h.1⟩
  have key : ∀ a b c d e f g h : Bool,
      (Promoted.strassen !![a, b; c, d] !![e, f; g, h]).toOption.isSome = true := by decide +kernel
  have h := key (S 0 0) (S 0 1) (S 1 0) (S 1 1) (V 0 0) (V 0 1) (V 1 0) (V 1 1)
  rw [← Matrix.eta_fin_two S, ← Matrix.eta_fin_two V] at h
  cases hr : Promoted.strassen S V with
  | ok R => exact ⟨R, rfl⟩
  | error e => rw [hr] at h; cases h

/-- C122: with an exception being handled, division, `lu`, the inverse and negative powers (`n ≥ 4`) return or throw. -/
theorem C122_throws (e : Exc) (A : Mat Bool i j) (s : Bool) (Q : Mat Bool n n) (W : Mat Bool (m + 4) (m + 4)) (w : Nat)
    (k : Int) (hk : k ≠ expMin w) :
    ((∃ R, Promoted.div (some e) A s = .ok R) ∨ Promoted.div (some e) A s = .error (.throws e)) ∧
    ((∃ R, Promoted.lu Q = .ok R) ∨
      Promoted.lu Q = .error (.throws (.overflow_error "Divide by zero exception"))) ∧
    ((∃ R, Promoted.invN (some e) W = .ok R) ∨ Promoted.invN (some e) W = .error (.throws e)) ∧
    ((∃ R, Promoted.pow (some e) w W k = .ok R) ∨ Promoted.pow (some e) w W k = .error (.throws e)) := by
  have hinv : (∃ R, Promoted.invN (some e) W = .ok R) ∨ Promoted.invN (some e) W = .error (.throws e) := by
    by_cases hd : Odd (bits W).det
    · rcases (show m = 0 ∨ 5 ≤ m + 4 by omega) with rfl | h5
      · exact .inl ⟨_, (C118_inv4 (some e) W).trans (if_pos hd)⟩
      · exact .inl ⟨_, (C118_inv_adjugate (some e) h5 W).trans (if_pos hd)⟩
    · exact .inr (C118_inv_even (some e) (by omega) W (Int.not_odd_iff_even.mp hd))
  refine ⟨?_, ?_, hinv, ?_⟩
  · cases s with
    | true => exact .inl ⟨_, (C115_div (some e) A).1⟩
    | false => exact .inr (C115_div (some e) A).2
  · cases h : Promoted.lu Q with
    | ok R => exact .inl ⟨R, rfl⟩
    | error e => exact .inr (by rw [(C121_lu_stops Q e h).1])
  · rcases lt_or_ge k 0 with h0 | h0
    · obtain ⟨q, rfl⟩ : ∃ q : Nat, k = -(q : Int) := ⟨k.natAbs, by omega⟩
      rcases hinv with ⟨B, hB⟩ | hB
      · exact .inl ((C118_pow_neg (some e) w W B hB q (by omega) hk).imp fun _ h => h.1)
      · exact .inr (C118_pow_throws (some e) w W _ hB _ h0)
    · obtain ⟨q, rfl⟩ := Int.eq_ofNat_of_zero_le h0
      exact .inl ((C116_pow (some e) w W q).imp fun _ h => h.1)

/-- C122: the statistics of a matrix that is not empty return. -/
theorem C122_statistics (A : Mat Bool i j) (h0 : i * j ≠ 0) (hij : i * j < 2 ^ 64) (sort : List Bool → List Bool)
    (hsort : Sorts sort) :
    (∃ x, Promoted.mean A = .ok x) ∧ (∃ x, Promoted.var A = .ok x) ∧ (∃ x, Promoted.stddev A = .ok x) ∧
    (∃ x, Promoted.median sort A = .ok x) ∧ (∃ h, Promoted.histogram A = .ok h) ∧
    (∃ h, Promoted.cumulative_histogram A = .ok h) := by
  obtain ⟨h, c, hh, hc, -⟩ := C120_cumulative A hij
  exact ⟨⟨_, bool_mean_value A h0⟩, ⟨_, (C120_var_stddev A h0).1⟩, ⟨_, (C120_var_stddev A h0).2⟩,
    ⟨_, C120_median sort hsort A h0 hij⟩, ⟨h, hh⟩, ⟨c, hc⟩⟩

/-- `chol` is not among these functions: the first pivot is 0. -/
example : Promoted.chol (!![false, true; true, true] : Mat Bool 2 2) = .error (.ub .divisionByZero) := by
  decide +kernel

end MatrixLibs
