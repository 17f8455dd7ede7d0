import Verif.Proof.FloatSignDet
import Verif.Proof.FloatMat
import Verif.Props.Float
import Mathlib.LinearAlgebra.Matrix.Notation

/-!
# Property C127: changing the sign of floating point matrices

`N` is `A * -1` throughout. Results are compared up to the sign of zeros (`Fl.Same`); `MatSign true X Y` says that `Y`
is `-X`, `MatSign false X Y` that `Y` is `X`. `BothDo` says that both calls return such results, or that both stop in
the same way.
-/

namespace MatrixLibs

set_option linter.unusedSectionVars false

variable {F : Fmt} {r c n m p : Nat}

theorem Fl.roundQuot_mul {N b : Nat} (h : F.Rep N) (hb : 0 < b) : Fl.roundQuot F (N * b) b = N := by
  obtain ⟨-, hd⟩ := h
  unfold Fl.roundQuot Fl.roundMag
  rw [Nat.mul_div_cancel _ hb]
  dsimp only
  have e : N / 2 ^ F.ulpExp N * 2 ^ F.ulpExp N = N := Nat.div_mul_cancel hd
  have hlt : Ord.compare (2 * (N * b)) ((2 * (N / 2 ^ F.ulpExp N) + 1) * 2 ^ F.ulpExp N * b) = .lt := by
    rw [Nat.compare_eq_lt, add_mul, mul_assoc 2, e, add_mul, one_mul, mul_assoc]
    have : 0 < 2 ^ F.ulpExp N * b := by positivity
    omega
  rw [hlt]
  exact e

theorem Fl.rep_unit : F.Rep F.unit := by
  have h1 := F.hp
  have h2 := F.he
  unfold Fmt.Rep Fmt.bound Fmt.ulpExp Fmt.unit
  rw [Nat.log2_two_pow]
  exact ⟨Nat.pow_lt_pow_right (by norm_num) (by omega), pow_dvd_pow 2 (by omega)⟩

theorem Fl.minus_one_eq : (Fl.ofInt (-1) : Fl F) = .fin true F.unit Fl.rep_unit := by
  have hu : 0 < F.unit := by unfold Fmt.unit; positivity
  unfold Fl.ofInt Fl.roundInt
  rw [if_neg (by omega)]
  have e1 : ((-1 : Int) * (F.unit : Int)).natAbs = F.unit * 1 := by omega
  have e2 : decide ((-1 : Int) * (F.unit : Int) < 0) = true := by simp [hu]
  rw [e1, e2, Fl.roundQuot_mul Fl.rep_unit one_pos]
  unfold Fl.pack
  rw [dif_pos Fl.rep_unit]

theorem Fl.mul_minus_one (a : Fl F) : a.mul (Fl.ofInt (-1)) = a.neg := by
  have hu : 0 < F.unit := by unfold Fmt.unit; positivity
  rw [Fl.minus_one_eq]
  cases a with
  | nan => rfl
  | inf s =>
    show (if F.unit = 0 then _ else _) = _
    rw [if_neg hu.ne', Bool.xor_true]
    rfl
  | fin s N h =>
    show Fl.pack _ (Fl.roundQuot F (N * F.unit) F.unit) = _
    rw [Fl.roundQuot_mul h hu, Bool.xor_true]
    unfold Fl.pack
    rw [dif_pos h]
    rfl

/-- C127: `A * -1` changes the sign of every element, without rounding; doing it twice restores the matrix. -/
theorem C127_neg (A : Mat (Fl F) r c) :
    opMulScalar A (Fl.ofInt (-1)) = .ok (A.map Fl.neg) ∧
      (do opMulScalar (← opMulScalar A (Fl.ofInt (-1))) (Fl.ofInt (-1))) = .ok A := by
  have h : ∀ B : Mat (Fl F) r c, opMulScalar B (Fl.ofInt (-1)) = .ok (B.map Fl.neg) := fun B =>
    (Fl.multScalar_eq B _).trans (congrArg Except.ok (by ext i j; exact Fl.mul_minus_one _))
  refine ⟨h A, ?_⟩
  rw [h A, ok_bind, h]
  congr 1
  ext i j
  show (A i j).neg.neg = A i j
  cases A i j <;> simp [Fl.neg]

theorem neg_gr {A N : Mat (Fl F) r c} (h : opMulScalar A (Fl.ofInt (-1)) = .ok N) : MGr true A N := by
  rw [(C127_neg A).1] at h
  cases h
  exact fun i j => Fl.gr_neg _

theorem both_sign {s t : Bool} {x y : Res (Mat (Fl F) r c)} (h : BothDo (MGr s) x y) (e : s = t) :
    BothDo (MatSign t) x y := by
  subst e
  exact both_mono h fun _ _ h => (mgr_iff s _ _).mpr h

theorem both_same {s t : Bool} {x y : Res (Fl F)} (h : BothDo (Fl.Gr s) x y) (e : s = t) :
    BothDo (Fl.SameSign t) x y := by
  subst e
  exact both_mono h fun _ _ h => (Fl.gr_iff s _ _).mpr h

/-- C127: sums and differences of negated matrices are the negated sums and differences. -/
theorem C127_add_sub (A B N M : Mat (Fl F) r c) (hA : opMulScalar A (Fl.ofInt (-1)) = .ok N)
    (hB : opMulScalar B (Fl.ofInt (-1)) = .ok M) :
    BothDo (MatSign true) (opAdd A B) (opAdd N M) ∧ BothDo (MatSign true) (opSub A B) (opSub N M) :=
  ⟨both_sign (both_sum (neg_gr hA) (neg_gr hB)) rfl, both_sign (both_matSub (neg_gr hA) (neg_gr hB)) rfl⟩

/-- C127: products: one negated factor negates the product, two leave it. -/
theorem C127_mul (A N : Mat (Fl F) n m) (B M : Mat (Fl F) m p) (hA : opMulScalar A (Fl.ofInt (-1)) = .ok N)
    (hB : opMulScalar B (Fl.ofInt (-1)) = .ok M) :
    BothDo (MatSign true) (opMul A B) (opMul N B) ∧ BothDo (MatSign true) (opMul A B) (opMul A M) ∧
      BothDo (MatSign false) (opMul A B) (opMul N M) :=
  ⟨both_sign (both_mult (neg_gr hA) (mgr_refl B)) rfl, both_sign (both_mult (mgr_refl A) (neg_gr hB)) rfl,
    both_sign (both_mult (neg_gr hA) (neg_gr hB)) rfl⟩

/-- C127: the same of `strassen`. -/
theorem C127_strassen (A N B M : Mat (Fl F) 2 2) (hA : opMulScalar A (Fl.ofInt (-1)) = .ok N)
    (hB : opMulScalar B (Fl.ofInt (-1)) = .ok M) :
    BothDo (MatSign true) (strassen A B) (strassen N B) ∧ BothDo (MatSign true) (strassen A B) (strassen A M) ∧
      BothDo (MatSign false) (strassen A B) (strassen N M) :=
  ⟨both_sign (both_strassen (neg_gr hA) (mgr_refl B)) rfl, both_sign (both_strassen (mgr_refl A) (neg_gr hB)) rfl,
    both_sign (both_strassen (neg_gr hA) (neg_gr hB)) rfl⟩

/-- C127: the three convolutions: a negated matrix or a negated kernel negates the result. -/
theorem C127_conv2 (A N : Mat (Fl F) r c) (K M : Mat (Fl F) 3 3) (hA : opMulScalar A (Fl.ofInt (-1)) = .ok N)
    (hK : opMulScalar K (Fl.ofInt (-1)) = .ok M) :
    BothDo (MatSign true) (conv2 A K) (conv2 N K) ∧ BothDo (MatSign true) (conv2 A K) (conv2 A M) ∧
      BothDo (MatSign false) (conv2 A K) (conv2 N M) :=
  ⟨both_sign (both_conv2 (neg_gr hA) (mgr_refl K)) rfl, both_sign (both_conv2 (mgr_refl A) (neg_gr hK)) rfl,
    both_sign (both_conv2 (neg_gr hA) (neg_gr hK)) rfl⟩

theorem C127_conv2_full (A N : Mat (Fl F) r c) (K M : Mat (Fl F) 3 3) (hA : opMulScalar A (Fl.ofInt (-1)) = .ok N)
    (hK : opMulScalar K (Fl.ofInt (-1)) = .ok M) :
    BothDo (MatSign true) (conv2_full A K) (conv2_full N K) ∧ BothDo (MatSign true) (conv2_full A K) (conv2_full A M) ∧
      BothDo (MatSign false) (conv2_full A K) (conv2_full N M) :=
  ⟨both_sign (both_conv2_full (neg_gr hA) (mgr_refl K)) rfl, both_sign (both_conv2_full (mgr_refl A) (neg_gr hK)) rfl,
    both_sign (both_conv2_full (neg_gr hA) (neg_gr hK)) rfl⟩

theorem C127_conv2_valid (A N : Mat (Fl F) n n) (K M : Mat (Fl F) 3 3) (hA : opMulScalar A (Fl.ofInt (-1)) = .ok N)
    (hK : opMulScalar K (Fl.ofInt (-1)) = .ok M) :
    BothDo (MatSign true) (conv2_valid A K) (conv2_valid N K) ∧
      BothDo (MatSign true) (conv2_valid A K) (conv2_valid A M) ∧
      BothDo (MatSign false) (conv2_valid A K) (conv2_valid N M) :=
  ⟨both_sign (both_conv2_valid (neg_gr hA) (mgr_refl K)) rfl, both_sign (both_conv2_valid (mgr_refl A) (neg_gr hK)) rfl,
    both_sign (both_conv2_valid (neg_gr hA) (neg_gr hK)) rfl⟩

/-- C127: the mean changes sign, variance and standard deviation do not. -/
theorem C127_stats (A N : Mat (Fl F) r c) (hA : opMulScalar A (Fl.ofInt (-1)) = .ok N) :
    BothDo (Fl.SameSign true) (mean A) (mean N) ∧ BothDo (Fl.SameSign false) (var A) (var N) ∧
      BothDo (Fl.SameSign false) (stddev A) (stddev N) :=
  ⟨both_same (both_mean (neg_gr hA)) rfl, both_same (both_var (neg_gr hA)) rfl, both_same (both_stddev (neg_gr hA)) rfl⟩

/-- C127: the determinant changes sign exactly for odd sizes. -/
theorem C127_det (A N : Mat (Fl F) n n) (hA : opMulScalar A (Fl.ofInt (-1)) = .ok N) :
    BothDo (Fl.SameSign (decide (n % 2 = 1))) (det A) (det N) :=
  both_same (both_det (neg_gr hA)) (by rw [par_eq, Bool.true_and])

/-- C127: the inverse changes sign, and is refused for `-A` exactly if it is for `A`. -/
theorem C127_inv (handled : Option Exc) (A N : Mat (Fl F) n n) (hA : opMulScalar A (Fl.ofInt (-1)) = .ok N) :
    BothDo (MatSign true) (inv handled A) (inv handled N) := by
  rw [(C127_neg A).1] at hA
  cases hA
  exact both_sign (both_inv_neg handled A) rfl

/-- C127: in the LU factorisation of `-A`, L is the same and U changes sign. -/
theorem C127_lu (A N : Mat (Fl F) n n) (hA : opMulScalar A (Fl.ofInt (-1)) = .ok N) :
    BothDo (fun x y => MatSign false x.1 y.1 ∧ MatSign true x.2 y.2) (lu A) (lu N) :=
  both_mono (both_lu (neg_gr hA)) fun _ _ h => ⟨(mgr_iff _ _ _).mpr h.1, (mgr_iff _ _ _).mpr h.2⟩

/-- C127: powers change sign exactly for odd exponents, negative ones included. -/
theorem C127_pow (handled : Option Exc) (w : Nat) (A N : Mat (Fl F) n n) (p : Int)
    (hA : opMulScalar A (Fl.ofInt (-1)) = .ok N) :
    BothDo (MatSign (decide (p.natAbs % 2 = 1))) (pow handled w A p) (pow handled w N p) := by
  rw [(C127_neg A).1] at hA
  cases hA
  exact both_sign (both_pow_neg handled w A p) (by rw [par_eq, Bool.true_and])

/-- C127: a negated matrix is symmetric exactly if the matrix is. -/
theorem C127_isSymetric (A N : Mat (Fl F) n n) (hA : opMulScalar A (Fl.ofInt (-1)) = .ok N) :
    isSymetric N = isSymetric A := by
  have h := both_isSymetric (neg_gr hA)
  cases h1 : isSymetric A <;> cases h2 : isSymetric N <;> rw [h1, h2] at h
  · exact congrArg Except.error h.symm
  · exact h.elim
  · exact h.elim
  · exact congrArg Except.ok h.symm

/-- C127: `abs` gives the same. -/
theorem C127_abs (A N : Mat (Fl F) r c) (hA : opMulScalar A (Fl.ofInt (-1)) = .ok N) : abs N = abs A := by
  have h : ∀ B : Mat (Fl F) r c, abs B = .ok (.of fun a b => (B a b).abs) := fun B =>
    (abs_elementwise B).eq_ok fun _ _ => rfl
  rw [h, h]
  exact congrArg Except.ok (by ext i j; exact ((neg_gr hA) i j).abs.symm)

/-- C127: so does comparing with a tolerance. -/
theorem C127_compare (A B N M : Mat (Fl F) r c) (eps : Fl F) (hA : opMulScalar A (Fl.ofInt (-1)) = .ok N)
    (hB : opMulScalar B (Fl.ofInt (-1)) = .ok M) : compare N M eps = compare A B eps := by
  have h : BothDo (· = ·) (compare A B eps) (compare N M eps) := by
    unfold compare compareLoop
    refine both_bind (both_forRet (I := fun _ _ => True) (V := (· = ·)) trivial fun i _ _ _ _ =>
      both_forRet trivial fun j _ _ _ _ => both_bind (both_rd (neg_gr hA) i j) fun x x' hx =>
        both_bind (both_rd (neg_gr hB) i j) fun y y' hy => both_bind (both_sub hx hy) fun d d' hd =>
        both_bind (R := (· = ·)) hd.abs fun e e' he => ?_) fun a b h => ?_
    · subst he
      split
      · exact CtlBoth.ret rfl
      · exact CtlBoth.cont trivial
    · cases h with
      | ret h => subst h; rfl
      | cont h => rfl
  cases h1 : compare A B eps <;> cases h2 : compare N M eps <;> rw [h1, h2] at h
  · exact congrArg Except.error h.symm
  · exact h.elim
  · exact h.elim
  · exact congrArg Except.ok h.symm

/-- The sign of zeros can differ: the sum of 1 and -1 is +0, and so is that of -1 and 1. -/
example : ∃ S S' : Mat (Fl binary32) 1 1,
    opAdd (Mat.const (Fl.ofInt 1) : Mat (Fl binary32) 1 1) (Mat.const (Fl.ofInt (-1))) = .ok S ∧
    opAdd (Mat.const (Fl.ofInt (-1)) : Mat (Fl binary32) 1 1) (Mat.const (Fl.ofInt 1)) = .ok S' ∧
    S' = S ∧ S' 0 0 ≠ (S 0 0).neg :=
  ⟨Mat.const (Fl.ofInt 0), Mat.const (Fl.ofInt 0), by decide +kernel, by decide +kernel, rfl, by decide +kernel⟩

/-- A matrix of odd size, with rounding errors. -/
example : ∃ d d' : Fl binary32,
    det (!![Fl.ofInt 16777217, Fl.ofInt 1, Fl.ofInt 2; Fl.ofInt 3, Fl.ofInt 7, Fl.ofInt 1; Fl.ofInt 1, Fl.ofInt 1,
      Fl.ofInt 5] : Mat (Fl binary32) 3 3) = .ok d ∧
    det (!![Fl.ofInt (-16777217), Fl.ofInt (-1), Fl.ofInt (-2); Fl.ofInt (-3), Fl.ofInt (-7), Fl.ofInt (-1);
      Fl.ofInt (-1), Fl.ofInt (-1), Fl.ofInt (-5)] : Mat (Fl binary32) 3 3) = .ok d' ∧ d' = d.neg ∧
    d ≠ Fl.ofInt 0 :=
  ⟨_, _, rfl, rfl, by decide +kernel, by decide +kernel⟩

end MatrixLibs
