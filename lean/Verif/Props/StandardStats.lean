import Verif.Proof.StandardDet
import Verif.Props.Standard
import Verif.Props.Env
import Verif.Props.FloatElim
import Verif.Props.FloatDetForward

/-!
# Property C158: variances, general determinants and inverses in every arithmetic of the standard model
-/

namespace MatrixLibs

set_option linter.unusedSectionVars false
set_option exponentiation.threshold 300

open Standard (val u h trueVar varBound det2Bound det3Bound detNBound quotBound Bounded)

section
variable {T : Type} [Inhabited T] [CScalar T] [Standard T] {n m r c : Nat} (handled : Option Exc)

/-- C158: variances. -/
theorem C158_var (A : Mat T r c) (v : T) (hv : var A = .ok v) (h0 : r * c ≠ 0) : |val v - trueVar A| ≤ varBound A :=
  Standard.var_err hv h0

/-- C158: standard deviations. The second bound is better unless the variance is near 0. -/
theorem C158_stddev (A : Mat T r c) (s : T) (hs : stddev A = .ok s) (h0 : r * c ≠ 0) :
    |val s - Real.sqrt (trueVar A)| ≤ u T * val s + Real.sqrt (varBound A) ∧
      (0 < trueVar A → |val s - Real.sqrt (trueVar A)| ≤ u T * val s + varBound A / Real.sqrt (trueVar A)) :=
  Standard.stddev_err hs h0

/-- C158: from 4x4 on a determinant that is returned is, up to its product loop, the exact determinant of a matrix near. -/
theorem C158_det_backward (A : Mat T n n) (D : T) (hn : 4 ≤ n) (hD : det A = .ok D) (G μ : ℝ) (hμ : 0 < μ)
    (hb : Bounded A G μ) :
    ∃ E : Matrix (Fin n) (Fin n) ℝ, (∀ i j, |E i j| ≤ Standard.elimEps T n G μ) ∧
      |val D - (A.map val + E).det| ≤ ((1 + u T) ^ (n + 1) - 1) * |(A.map val + E).det| +
        (n + 1) * ((1 + u T) ^ (n + 1) * (max 1 G) ^ n * h T) :=
  Standard.det_backward hn hD hμ hb

/-- C158: and near the exact determinant. -/
theorem C158_det_forward (A : Mat T n n) (D : T) (hn : 4 ≤ n) (hD : det A = .ok D) (G μ : ℝ) (hμ : 0 < μ) (hb : Bounded A G μ) :
    |val D - (A.map val).det| ≤ detNBound T (A.map val) G μ :=
  Standard.det_forward hn hD hμ hb

/-- C158: inverses of 1x1 matrices. -/
theorem C158_inv1 (A B : Mat T 1 1) (hB : inv handled A = .ok B) :
    val (A 0 0) ≠ 0 ∧ |val (B 0 0) - (A.map val)⁻¹ 0 0| ≤ u T * |(A.map val)⁻¹ 0 0| + Standard.e T :=
  Standard.inv1_err hB

/-- C158: inverses of 2x2 matrices. -/
theorem C158_inv2 (A B : Mat T 2 2) (hB : inv handled A = .ok B) (hlt : det2Bound T (A.map val) < |(A.map val).det|)
    (i j : Fin 2) :
    |val (B i j) - (A.map val)⁻¹ i j| ≤ quotBound T ((A.map val)⁻¹ i j) (A.map val).det 0 (det2Bound T (A.map val)) :=
  Standard.inv2_err hB hlt i j

/-- C158: inverses of 3x3 matrices. -/
theorem C158_inv3 (A B : Mat T 3 3) (hB : inv handled A = .ok B) (hlt : det3Bound T (A.map val) < |(A.map val).det|)
    (i j : Fin 3) :
    |val (B i j) - (A.map val)⁻¹ i j| ≤ quotBound T ((A.map val)⁻¹ i j) (A.map val).det
      (det2Bound T ((A.map val).submatrix j.succAbove i.succAbove)) (det3Bound T (A.map val)) :=
  Standard.inv3_err hB hlt i j

/-- C158: inverses of 4x4 matrices. -/
theorem C158_inv4 (A B : Mat T 4 4) (hB : inv handled A = .ok B) (G μ : ℝ) (hμ : 0 < μ) (hb : Bounded A G μ)
    (hlt : detNBound T (A.map val) G μ < |(A.map val).det|) (i j : Fin 4) :
    let M := (A.map val).submatrix j.succAbove i.succAbove
    |val (B i j) - (A.map val)⁻¹ i j| ≤ quotBound T ((A.map val)⁻¹ i j) (A.map val).det
      (det3Bound T M + u T * (|M.det| + det3Bound T M) + Standard.e T) (detNBound T (A.map val) G μ) :=
  Standard.invN_err (m := 0) hB (fun _ hD => Standard.det_forward le_rfl hD hμ hb) hlt i j fun _ hx => Standard.det3_err hx

/-- C158: inverses from 5x5 on: the eliminations of the matrix and of the minor are bounded. -/
theorem C158_inv5 (A B : Mat T (m + 5) (m + 5)) (hB : inv handled A = .ok B) (G μ : ℝ) (hμ : 0 < μ) (hb : Bounded A G μ)
    (hlt : detNBound T (A.map val) G μ < |(A.map val).det|) (i j : Fin (m + 5))
    (hm : Bounded (A.submatrix j.succAbove i.succAbove) G μ) :
    let M : Mat ℝ (m + 4) (m + 4) := (A.map val).submatrix j.succAbove i.succAbove
    |val (B i j) - (A.map val)⁻¹ i j| ≤ quotBound T ((A.map val)⁻¹ i j) (A.map val).det
      (detNBound T M G μ + u T * (|M.det| + detNBound T M G μ) + Standard.e T) (detNBound T (A.map val) G μ) :=
  Standard.invN_err (m := m + 1) hB (fun _ hD => Standard.det_forward (by omega) hD hμ hb) hlt i j fun _ hx =>
    Standard.det_forward (by omega) hx hμ hm

end

/-! ## In the floating point environments -/

section
variable {F : Fmt} {n r c : Nat} (e : FpEnv)

/-- C158: a call in a floating point environment that raises no exception returns what it returns with exceptions trapped, so
the bounds above hold in every environment. -/
theorem C158_env (handled : Option Exc) (A : Mat (Fl F) r c) (Q R : Mat (Fl F) n n) (v : Fl F) :
    (var (T := Trapped e F) A = .ok v → var (T := InEnv e F) A = .ok v) ∧
    (stddev (T := Trapped e F) A = .ok v → stddev (T := InEnv e F) A = .ok v) ∧
    (det (T := Trapped e F) Q = .ok v → det (T := InEnv e F) Q = .ok v) ∧
    (inv (T := Trapped e F) handled Q = .ok R → inv (T := InEnv e F) handled Q = .ok R) :=
  ⟨fun h => env_num (env_var (env_mat e A)) h, fun h => env_num (env_stddev (env_mat e A)) h,
    fun h => env_num (sim_det (env_mat e Q)) h, fun h => env_res (sim_inv handled (env_mat e Q)) h⟩

end

/-! ## The hypotheses are met -/

/-- Rounding to nearest without switches. -/
def c158Env : FpEnv := ⟨.nearest, false, none⟩

/-- Three numbers in binary32: the mean 1/3 and the variance 2/9 are rounded. -/
def c158Data : Mat (Fl binary32) 1 3 := .of ![![Fl.ofInt 0, Fl.ofInt 0, Fl.ofInt 1]]

example : (match var (T := Trapped c158Env binary32) c158Data with | .ok _ => true | .error _ => false) = true ∧
    (match stddev (T := Trapped c158Env binary32) c158Data with | .ok _ => true | .error _ => false) = true := by
  decide +kernel

/-- Matrices with exact inverses that are not numbers of the format. -/
def c158Two : Mat (Fl binary32) 2 2 := .of ![![Fl.ofInt 2, Fl.ofInt 1], ![Fl.ofInt 1, Fl.ofInt 2]]

def c158Three : Mat (Fl binary32) 3 3 :=
  .of ![![Fl.ofInt 2, Fl.ofInt 1, Fl.ofInt 0], ![Fl.ofInt 1, Fl.ofInt 2, Fl.ofInt 1], ![Fl.ofInt 0, Fl.ofInt 1, Fl.ofInt 2]]

example : (inv (T := Trapped c158Env binary32) none (.of ![![Fl.ofInt 3]] : Mat (Fl binary32) 1 1)).isOk = true ∧
    (inv (T := Trapped c158Env binary32) none c158Two).isOk = true ∧
    (inv (T := Trapped c158Env binary32) none c158Three).isOk = true ∧
    (inv (T := Trapped c158Env binary32) none c101Example).isOk = true := by
  decide +kernel

/-- The bounds of the errors of their determinants are below the determinants 3 and 4. -/
example : det2Bound (Trapped c158Env binary32) (c158Two.map Fl.val) < |(c158Two.map Fl.val).det| ∧
    det3Bound (Trapped c158Env binary32) (c158Three.map Fl.val) < |(c158Three.map Fl.val).det| := by
  have hη := binary32_eta_le
  have hη0 := Fl.eta_nonneg binary32
  have hu : u (Trapped c158Env binary32) = 1 / 2 ^ 24 := binary32_u
  have hh : h (Trapped c158Env binary32) = binary32.eta := trapped_h c158Env binary32
  have v0 : (Fl.ofInt 0 : Fl binary32).val = 0 := (Fl.val_ofInt_exact (F := binary32) 0 (by decide)).2.trans (by norm_num)
  have v1 : (Fl.ofInt 1 : Fl binary32).val = 1 := (Fl.val_ofInt_exact (F := binary32) 1 (by decide)).2.trans (by norm_num)
  have v2 : (Fl.ofInt 2 : Fl binary32).val = 2 := (Fl.val_ofInt_exact (F := binary32) 2 (by decide)).2.trans (by norm_num)
  have e2 : c158Two.map Fl.val = !![2, 1; 1, 2] := by
    ext i j
    fin_cases i <;> fin_cases j <;> first | exact v1 | exact v2
  have e3 : c158Three.map Fl.val = !![2, 1, 0; 1, 2, 1; 0, 1, 2] := by
    ext i j
    fin_cases i <;> fin_cases j <;> first | exact v0 | exact v1 | exact v2
  rw [e2, e3]
  unfold det2Bound det3Bound Standard.perm3
  rw [hu, hh]
  generalize binary32.eta = η at *
  constructor
  · rw [Matrix.det_fin_two]
    norm_num at *
    linarith
  · rw [Matrix.det_fin_three]
    norm_num at *
    simp
    norm_num
    linarith

theorem c158_mul {F : Fmt} (a b : Fl F) : c158Env.mul a b = a.mul b := by
  refine Eq.trans ?_ (Fl.mulBy_nearest a b)
  cases a <;> cases b <;> rfl

theorem c158_divide {F : Fmt} (a b : Fl F) : c158Env.div a b = a.div b := by
  refine Eq.trans ?_ (Fl.divBy_nearest a b)
  cases a with
  | fin s M hM =>
    cases b with
    | fin t N hN =>
      show (if N ≠ 0 ∧ false = true then _ else _) = _
      rw [if_neg (by simp)]
      rfl
    | _ => rfl
  | _ => cases b <;> rfl

theorem c158_sub {F : Fmt} (a b : Fl F) : c158Env.sub a b = a.sub b := Fl.subBy_nearest a b

/-- Without exceptions the elimination in this environment is the one of C101. -/
theorem c158_steps {F : Fmt} {n : Nat} {A : Mat (Fl F) n n} {k : Nat} {σ : Int} {S : Mat (Fl F) n n}
    (h : Standard.Steps (T := Trapped c158Env F) A k σ S) : ElimSteps A k σ S := by
  have hcell : ∀ {s a b c s' : Fl F}, Standard.elimCell (T := Trapped c158Env F) s a b c = .ok s' →
      s' = s.sub ((a.mul b).div c) := by
    intro s a b c s' h
    unfold Standard.elimCell at h
    obtain ⟨(p : Fl F), hp, h⟩ := Standard.bind_ok h
    obtain ⟨(q : Fl F), hq, h⟩ := Standard.bind_ok h
    have e1 : p = a.mul b := (guarded_ok (show c158Env.trapMul (F := F) a b = Except.ok p from hp)).2.trans (c158_mul _ _)
    have e2 : q = Fl.div (F := F) p c := (guarded_ok (show c158Env.trapDiv (F := F) p c = Except.ok q from hq)).2.trans (c158_divide _ _)
    have e3 : s' = Fl.sub (F := F) s q := (guarded_ok (show c158Env.trapSub (F := F) s q = Except.ok s' from h)).2.trans (c158_sub _ _)
    rw [e3, e2, e1]
  induction h with
  | start => exact .start
  | @step k σ S S' p hS hp hnz hfirst hS' ih =>
    have : S' = elimStep (F := F) S k p := by
      ext i j
      have := hS' i j
      unfold elimStep
      rw [Matrix.of_apply]
      dsimp only at this ⊢
      split at this
      · next h1 =>
        rw [if_pos h1]
        split at this
        · next h2 =>
          rw [if_pos h2]
          exact hcell this
        · next h2 =>
          rw [if_neg h2]
          split at this
          · next h3 => rw [if_pos h3]; exact this
          · next h3 => rw [if_neg h3]; exact this
      · next h1 =>
        rw [if_neg h1]
        exact this
    subst this
    exact .step p ih hp (Bool.eq_false_iff.mp hnz) (fun i h1 h2 => hfirst i h1 h2)

theorem c158_bounded {F : Fmt} {n : Nat} {A : Mat (Fl F) n n} {G μ : ℝ} (h : ElimBounded A G μ) :
    Bounded (T := Trapped c158Env F) A G μ := fun k σ S hS => by
  obtain ⟨h1, h2⟩ := h k σ S (c158_steps hS)
  exact ⟨fun i j => (h1 i j).2, h2⟩

theorem c158_val {F : Fmt} {n : Nat} (A : Mat (Fl F) n n) : A.map (val (T := Trapped c158Env F)) = A.map Fl.val := rfl

/-- The example of C126 meets the hypotheses: its inverse is returned, its elimination and those of its minors are bounded, and
the bound of the error of its determinant is below its determinant. -/
example (i j : Fin 5) :
    (inv (T := Trapped c158Env binary32) none c126Example).isOk = true ∧
    Bounded (T := Trapped c158Env binary32) c126Example 2 1 ∧
    Bounded (T := Trapped c158Env binary32) (c126Example.submatrix j.succAbove i.succAbove) 2 1 ∧
    detNBound (Trapped c158Env binary32) (c126Example.map Fl.val) 2 1 < |(c126Example.map Fl.val).det| := by
  refine ⟨by decide +kernel, c158_bounded c126Example_bounded, c158_bounded (c126Example_minors j i), ?_⟩
  have hs : ∀ i j, (c126Int i j).natAbs ≤ 2 ^ 24 := by decide +kernel
  have hm : c126Example.map Fl.val = c126Int.map (Int.castRingHom ℝ) := by
    ext i j
    exact (Fl.val_ofInt_exact (F := binary32) _ (hs i j)).2
  have hdet : (c126Example.map Fl.val).det = 1 := by
    rw [hm, ← RingHom.mapMatrix_apply, ← RingHom.map_det, show c126Int.det = 1 by decide +kernel]
    norm_num
  have hη := binary32_eta_le
  have hη0 := Fl.eta_nonneg binary32
  have hu : u (Trapped c158Env binary32) = 1 / 2 ^ 24 := binary32_u
  have hh : h (Trapped c158Env binary32) = binary32.eta := trapped_h c158Env binary32
  have hε : Standard.elimEps (Trapped c158Env binary32) 5 2 1 ≤ 1 / 10 ^ 5 := by
    unfold Standard.elimEps
    rw [hu, hh]
    norm_num at hη ⊢
    linarith
  have hε0 : 0 ≤ Standard.elimEps (Trapped c158Env binary32) 5 2 1 := by
    unfold Standard.elimEps
    rw [hu, hh]
    positivity
  have hA : ∀ i j, |(c126Example.map Fl.val) i j| ≤ 2 := fun i j => ((c126Example_bounded 0 _ _ ElimSteps.start).1 i j).2
  unfold detNBound
  rw [hdet, hu, hh]
  generalize Standard.elimEps (Trapped c158Env binary32) 5 2 1 = ε at *
  have h1 := permAbs_growth (c126Example.map Fl.val) hA hε0
  have h2 := permAbs_le (c126Example.map Fl.val) hA hε0
  change Standard.permAbs _ _ - Standard.permAbs _ _ ≤ _ at h1
  change Standard.permAbs _ _ ≤ _ at h2
  have h3 : (2 + ε) ^ 5 ≤ (2 + 1 / 10 ^ 5) ^ 5 := pow_le_pow_left₀ (by linarith) (by linarith) 5
  have h5 : (Nat.factorial 5 : ℝ) = 120 := by norm_num [Nat.factorial]
  have hmax : max (1 : ℝ) 2 = 2 := by norm_num
  rw [h5] at h1 h2
  rw [hmax]
  generalize Standard.permAbs (c126Example.map Fl.val) ε = P at *
  generalize Standard.permAbs (c126Example.map Fl.val) 0 = P0 at *
  generalize (2 + ε) ^ 5 = Q at *
  generalize binary32.eta = η at *
  norm_num at *
  linarith

end MatrixLibs
