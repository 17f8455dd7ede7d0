import Verif.Proof.Check
import Verif.Props.StandardStats

/-!
# Property C159: products of computed factors, inverses and solutions, and what `compare` tells about them
-/

namespace MatrixLibs

set_option linter.unusedSectionVars false
set_option exponentiation.threshold 300

open Standard (val u h det2Bound quotBound)

section
variable {T : Type} [Inhabited T] [CScalar T] [Standard T] {n m p : Nat}

/-- C159: the computed product of the factors of `lu` is near the matrix. -/
theorem C159_lu (A L U P : Mat T n n) (hlu : lu A = .ok (L, U)) (hP : mult L U = .ok P) (i j : Fin n) :
    |val (P i j) - val (A i j)| ≤ 2 * ((1 + u T) ^ n - 1) * (∑ k, |val (L i k)| * |val (U k j)|) +
      (2 * n + |val (U j j)|) * (1 + u T) ^ n * h T :=
  Standard.lu_product_err hlu hP i j

/-- C159: the computed product of the factor of `chol` and its transpose is near the symmetric matrix. -/
theorem C159_chol (A L Lt P : Mat T n n) (hA : ∀ i j, val (A i j) = val (A j i)) (hL : chol A = .ok L) (ht : trans L = .ok Lt)
    (hP : mult L Lt = .ok P) (i j : Fin n) :
    |val (P i j) - val (A i j)| ≤ ((1 + u T) ^ n + (1 + u T) ^ (n + 2) - 2) * (∑ k, |val (L i k)| * |val (L j k)|) +
      (2 * n + |val (L (min i j) (min i j))|) * (1 + u T) ^ n * h T := by
  rw [trans_ok] at ht
  injection ht with ht
  subst ht
  exact Standard.chol_product_err hL hP hA i j

/-- C159: the computed product of a matrix and a computed inverse with errors of at most `β` is near the identity. (`C158_inv1`
to `C158_inv5` bound these errors.) -/
theorem C159_inverse (A B P : Mat T n n) (β : Fin n → Fin n → ℝ) (hdet : (A.map val).det ≠ 0)
    (hβ : ∀ i j, |val (B i j) - (A.map val)⁻¹ i j| ≤ β i j) (hP : mult A B = .ok P) (i j : Fin n) :
    |val (P i j) - (1 : Matrix (Fin n) (Fin n) ℝ) i j| ≤ (∑ k, |val (A i k)| * β k j) +
      ((1 + u T) ^ n - 1) * (∑ k, |val (A i k)| * |val (B k j)|) + n * (1 + u T) ^ (n - 1) * h T := by
  have := Standard.mult_near_err hP hβ i j
  rwa [Matrix.mul_nonsing_inv _ (Ne.isUnit hdet)] at this

/-- C159: and so is the product in the other order. -/
theorem C159_inverse_left (A B P : Mat T n n) (β : Fin n → Fin n → ℝ) (hdet : (A.map val).det ≠ 0)
    (hβ : ∀ i j, |val (B i j) - (A.map val)⁻¹ i j| ≤ β i j) (hP : mult B A = .ok P) (i j : Fin n) :
    |val (P i j) - (1 : Matrix (Fin n) (Fin n) ℝ) i j| ≤ (∑ k, β i k * |val (A k j)|) +
      ((1 + u T) ^ n - 1) * (∑ k, |val (B i k)| * |val (A k j)|) + n * (1 + u T) ^ (n - 1) * h T := by
  have := Standard.mult_near_err' hP hβ i j
  rwa [Matrix.nonsing_inv_mul _ (Ne.isUnit hdet)] at this

/-- C159: the computed product of a computed inverse and right hand sides is near the solution of the linear systems. -/
theorem C159_solve (A B : Mat T n n) (R S : Mat T n p) (β : Fin n → Fin n → ℝ)
    (hβ : ∀ i j, |val (B i j) - (A.map val)⁻¹ i j| ≤ β i j) (hS : mult B R = .ok S) (X : Matrix (Fin n) (Fin p) ℝ)
    (hdet : (A.map val).det ≠ 0) (hX : A.map val * X = R.map val) (i : Fin n) (j : Fin p) :
    |val (S i j) - X i j| ≤ (∑ k, β i k * |val (R k j)|) +
      ((1 + u T) ^ n - 1) * (∑ k, |val (B i k)| * |val (R k j)|) + n * (1 + u T) ^ (n - 1) * h T := by
  have := Standard.mult_near_err' hS hβ i j
  rwa [← hX, ← Matrix.mul_assoc, Matrix.nonsing_inv_mul _ (Ne.isUnit hdet), Matrix.one_mul] at this

/-- C159: 2x2 inverses, with the bound of their errors. -/
theorem C159_inverse2 (handled : Option Exc) (A B P : Mat T 2 2) (hB : inv handled A = .ok B) (hP : mult A B = .ok P)
    (hlt : det2Bound T (A.map val) < |(A.map val).det|) (i j : Fin 2) :
    |val (P i j) - (1 : Matrix (Fin 2) (Fin 2) ℝ) i j| ≤
      (∑ k, |val (A i k)| * quotBound T ((A.map val)⁻¹ k j) (A.map val).det 0 (det2Bound T (A.map val))) +
      ((1 + u T) ^ 2 - 1) * (∑ k, |val (A i k)| * |val (B k j)|) + 2 * (1 + u T) * h T := by
  have h0 : (A.map val).det ≠ 0 := by
    intro h0
    rw [h0, abs_zero] at hlt
    have hu := Standard.u_nonneg (T := T)
    have hh := Standard.h_nonneg (T := T)
    have : 0 ≤ det2Bound T (A.map val) := by
      unfold det2Bound
      have : 1 ≤ (1 + u T) ^ 2 := one_le_pow₀ (by linarith)
      have : 0 ≤ (1 + u T) ^ 2 - 1 := by linarith
      positivity
    linarith
  have := C159_inverse A B P _ h0 (fun i j => Standard.inv2_err hB hlt i j) hP i j
  simpa using this

end

/-! ## `compare` in the floating point environments -/

section
variable {e : FpEnv} {F : Fmt} {n m r c : Nat}

/-- C159: matrices whose elements differ by at most the tolerance are accepted, in every rounding mode and with every switch. -/
theorem C159_compare (A B : Mat (Fl F) r c) (eps : Fl F) (hA : ∀ i j, (A i j).Finite) (hB : ∀ i j, (B i j).Finite)
    (he : eps.Finite) (h : ∀ i j, |e.val (A i j) - e.val (B i j)| ≤ e.val eps) :
    compare (T := InEnv e F) A B eps = .ok true :=
  env_compare_true hA hB he h

/-- C159: matrices accepted without an overflow differ by at most the tolerance up to the error of one subtraction. -/
theorem C159_compare_sound (A B : Mat (Fl F) r c) (eps : Fl F) (he : eps.Finite)
    (h : compare (T := Trapped e F) A B eps = .ok true) :
    compare (T := InEnv e F) A B eps = .ok true ∧ ∀ i j, (A i j).Finite ∧ (B i j).Finite ∧
      |e.val (A i j) - e.val (B i j)| ≤ (1 + e.u F) * e.val eps + e.eta F := by
  have hd : e.d' F ≤ e.eta F := by rw [← e.eta_eq]; linarith [e.e'_nonneg (F := F)]
  have hs : ∀ i j, (A i j).Finite ∧ (B i j).Finite ∧ |e.val (A i j) - e.val (B i j)| ≤ (1 + e.u F) * e.val eps + e.eta F :=
    fun i j =>
      let ⟨h1, h2, h3⟩ := trapped_compare_true he h i j
      ⟨h1, h2, h3.trans (by linarith)⟩
  refine ⟨?_, hs⟩
  obtain ⟨b, hb, hb'⟩ := env_compare_ok (e := e) A B eps
  rw [hb]
  congr 1
  rw [hb']
  intro i j
  obtain ⟨(d : Fl F), (x : Fl F), hd, hx, hlt⟩ := compare_accepted (T := Trapped e F) h i j
  have hd : e.trapSub (A i j) (B i j) = .ok d := hd
  have hlt : (e.seen eps).lt (e.seen x) = false := hlt
  have hx' : d.abs = x := by injection hx
  subst hx'
  obtain ⟨_, hd'⟩ := guarded_ok hd
  rw [← hd']
  exact hlt

/-- C159: a program that factors a matrix, multiplies the factors and compares the product with the matrix finds them equal
within every tolerance not below the bound of `C159_lu`. -/
theorem C159_lu_check (A L U P : Mat (Fl F) n n) (eps : Fl F) (hlu : lu (T := Trapped e F) A = .ok (L, U))
    (hP : mult (T := Trapped e F) L U = .ok P) (hA : ∀ i j, (A i j).Finite) (he : eps.Finite)
    (hb : ∀ i j, 2 * ((1 + e.u F) ^ n - 1) * (∑ k, |e.val (L i k)| * |e.val (U k j)|) +
      (2 * n + |e.val (U j j)|) * (1 + e.u F) ^ n * e.eta F ≤ e.val eps) :
    lu (T := InEnv e F) A = .ok (L, U) ∧ mult (T := InEnv e F) L U = .ok P ∧ compare (T := InEnv e F) P A eps = .ok true := by
  refine ⟨(C151_lu e A L U hlu).1, (C151_mult e L U P hP).1, env_compare_true (trapped_mult_finite hP) hA he fun i j => ?_⟩
  refine le_trans ?_ (hb i j)
  rw [← trapped_h]
  exact C159_lu (T := Trapped e F) A L U P hlu hP i j

/-- C159: the same with a Cholesky decomposition. -/
theorem C159_chol_check (A L Lt P : Mat (Fl F) n n) (eps : Fl F) (hs : ∀ i j, e.val (A i j) = e.val (A j i))
    (hL : chol (T := Trapped e F) A = .ok L) (ht : trans (T := Trapped e F) L = .ok Lt)
    (hP : mult (T := Trapped e F) L Lt = .ok P) (hA : ∀ i j, (A i j).Finite) (he : eps.Finite)
    (hb : ∀ i j, ((1 + e.u F) ^ n + (1 + e.u F) ^ (n + 2) - 2) * (∑ k, |e.val (L i k)| * |e.val (L j k)|) +
      (2 * n + |e.val (L (min i j) (min i j))|) * (1 + e.u F) ^ n * e.eta F ≤ e.val eps) :
    chol (T := InEnv e F) A = .ok L ∧ mult (T := InEnv e F) L Lt = .ok P ∧ compare (T := InEnv e F) P A eps = .ok true := by
  refine ⟨(C151_chol e A L hL).1, (C151_mult e L Lt P hP).1, env_compare_true (trapped_mult_finite hP) hA he fun i j => ?_⟩
  refine le_trans ?_ (hb i j)
  rw [← trapped_h]
  exact C159_chol (T := Trapped e F) A L Lt P hs hL ht hP i j

/-- C159: the same with the inverse of a 2x2 matrix and the identity. -/
theorem C159_inverse2_check (handled : Option Exc) (A B P I : Mat (Fl F) 2 2) (eps : Fl F)
    (hB : inv (T := Trapped e F) handled A = .ok B) (hP : mult (T := Trapped e F) A B = .ok P)
    (hI : eye1 (T := InEnv e F) 2 = .ok I) (he : eps.Finite)
    (hlt : det2Bound (Trapped e F) (A.map e.val) < |(A.map e.val).det|)
    (hb : ∀ i j, (∑ k, |e.val (A i k)| * quotBound (Trapped e F) ((A.map e.val)⁻¹ k j) (A.map e.val).det 0
        (det2Bound (Trapped e F) (A.map e.val))) +
      ((1 + e.u F) ^ 2 - 1) * (∑ k, |e.val (A i k)| * |e.val (B k j)|) + 2 * (1 + e.u F) * e.eta F ≤ e.val eps) :
    inv (T := InEnv e F) handled A = .ok B ∧ mult (T := InEnv e F) A B = .ok P ∧ compare (T := InEnv e F) P I eps = .ok true := by
  have hI' : ∀ i j, I i j = if i = j then Fl.ofInt 1 else Fl.ofInt 0 := by
    unfold eye1 at hI
    rw [eye_ok] at hI
    injection hI with hI
    subst hI
    intro i j
    rfl
  refine ⟨(C158_env e handled A A B (Fl.ofInt 0)).2.2.2 hB, (C151_mult e A B P hP).1,
    env_compare_true (trapped_mult_finite hP) (fun i j => ?_) he fun i j => ?_⟩
  · rw [hI' i j]
    split
    · exact (Fl.val_ofInt_exact (F := F) 1 Nat.one_le_two_pow).1
    · exact Fl.zero_finite
  · refine le_trans ?_ (hb i j)
    rw [← trapped_h]
    have h1 := C159_inverse2 (T := Trapped e F) handled A B P hB hP hlt i j
    have h2 : e.val (I i j) = (1 : Matrix (Fin 2) (Fin 2) ℝ) i j := by
      rw [hI' i j, Matrix.one_apply]
      split
      · exact FpEnv.val_one e
      · exact FpEnv.val_zero e
    rw [h2]
    exact h1

end

/-! ## The hypotheses are met -/

/-- A matrix with rounded factors and a rounded inverse. -/
def c159A : Mat (Fl binary32) 2 2 := .of ![![Fl.ofInt 3, Fl.ofInt 1], ![Fl.ofInt 1, Fl.ofInt 3]]

/-- The tolerance 2^-10. -/
def c159Eps : Fl binary32 := .fin false (2 ^ 139) (by decide +kernel)

theorem c159Eps_val : c159Eps.val = 1 / 1024 := by
  unfold c159Eps
  rw [Fl.val_fin, show binary32.unit = 2 ^ 149 from by decide +kernel]
  norm_num [Fl.sgn]

theorem c159_small {x : Fl binary32} (h : x.Finite ∧ (Fl.ofInt 4 : Fl binary32).lt x.abs = false) : |x.val| ≤ 4 := by
  obtain ⟨h1, h2⟩ := h
  obtain ⟨f, v⟩ := Fl.val_ofInt_exact (F := binary32) 4 (by decide)
  rw [← Bool.not_eq_true, Fl.lt_iff f ((Fl.abs_finite _).mpr h1), not_lt, v, Fl.abs_val] at h2
  simpa using h2

/-- The number is finite and at most 4 in magnitude. -/
def c159Num (x : Fl binary32) : Bool := decide x.Finite && !(Fl.ofInt 4 : Fl binary32).lt x.abs

/-- Every element of the matrix is at most 4 in magnitude. -/
def c159Small (M : Mat (Fl binary32) 2 2) : Bool := c159Num (M 0 0) && c159Num (M 0 1) && c159Num (M 1 0) && c159Num (M 1 1)

/-- The same number. -/
def c159Same (x y : Fl binary32) : Bool := decide (x = y)

theorem c159Same_eq {x y : Fl binary32} (h : c159Same x y = true) : y = x := (of_decide_eq_true h).symm

theorem c159Small_le {M : Mat (Fl binary32) 2 2} (h : c159Small M = true) (i j : Fin 2) : |(M i j).val| ≤ 4 := by
  unfold c159Small at h
  rw [Bool.and_eq_true, Bool.and_eq_true, Bool.and_eq_true] at h
  have hn : ∀ {x : Fl binary32}, c159Num x = true → |x.val| ≤ 4 := by
    intro x hx
    unfold c159Num at hx
    rw [Bool.and_eq_true, Bool.not_eq_true'] at hx
    exact c159_small ⟨of_decide_eq_true hx.1, hx.2⟩
  obtain ⟨⟨⟨h1, h2⟩, h3⟩, h4⟩ := h
  fin_cases i <;> fin_cases j
  · exact hn h1
  · exact hn h2
  · exact hn h3
  · exact hn h4

/-- The factors, not all of them exact, and their product. -/
example : ∃ L U P : Mat (Fl binary32) 2 2, lu (T := Trapped c158Env binary32) c159A = .ok (L, U) ∧
    mult (T := Trapped c158Env binary32) L U = .ok P ∧ L 1 0 = Fl.div (Fl.ofInt 1) (Fl.ofInt 3) ∧
    compare (T := InEnv c158Env binary32) P c159A c159Eps = .ok true := by
  have hd : (match lu (T := Trapped c158Env binary32) c159A with
    | .ok (L, U) => (mult (T := Trapped c158Env binary32) L U).isOk && c159Small L && c159Small U &&
        c159Same (Fl.div (Fl.ofInt 1) (Fl.ofInt 3)) (L 1 0)
    | .error _ => false) = true := by decide +kernel
  split at hd
  · next L U hlu =>
    rw [Bool.and_eq_true, Bool.and_eq_true, Bool.and_eq_true] at hd
    obtain ⟨⟨⟨hP, hL⟩, hU⟩, h3⟩ := hd
    cases hm : mult (T := Trapped c158Env binary32) L U with
    | error _ => rw [hm] at hP; cases hP
    | ok P =>
      refine ⟨L, U, P, hlu, hm, c159Same_eq h3, (C159_lu_check c159A L U P c159Eps hlu hm ?_ trivial ?_).2.2⟩
      · intro i j
        fin_cases i <;> fin_cases j <;> decide +kernel
      · intro i j
        have hL' := c159Small_le hL
        have hU' := c159Small_le hU
        have hη := binary32_eta_le
        have hη0 := Fl.eta_nonneg binary32
        have hu : c158Env.u binary32 = 1 / 2 ^ 24 := binary32_u
        have hh : c158Env.eta binary32 = binary32.eta := rfl
        have hv : c158Env.val c159Eps = 1 / 1024 := c159Eps_val
        have hs : ∑ k, |c158Env.val (L i k)| * |c158Env.val (U k j)| ≤ 32 := by
          rw [Fin.sum_univ_two]
          have a1 : |c158Env.val (L i 0)| * |c158Env.val (U 0 j)| ≤ 4 * 4 :=
            mul_le_mul (hL' i 0) (hU' 0 j) (abs_nonneg _) (by norm_num)
          have a2 : |c158Env.val (L i 1)| * |c158Env.val (U 1 j)| ≤ 4 * 4 :=
            mul_le_mul (hL' i 1) (hU' 1 j) (abs_nonneg _) (by norm_num)
          linarith
        have hj : |c158Env.val (U j j)| ≤ 4 := hU' j j
        rw [hu, hh, hv]
        generalize (∑ k, |c158Env.val (L i k)| * |c158Env.val (U k j)|) = S at *
        have hj0 := abs_nonneg (c158Env.val (U j j))
        generalize |c158Env.val (U j j)| = w at *
        generalize binary32.eta = η at *
        have h1 : (2 * (2 : ℕ) + w) * (1 + 1 / 2 ^ 24) ^ 2 * η ≤ 8 * 2 * η := by
          refine mul_le_mul_of_nonneg_right (mul_le_mul (by push_cast; linarith) (by norm_num) (by positivity) (by norm_num)) hη0
        norm_num at *
        linarith
  · cases hd

/-- The Cholesky factor, with the rounded root of 3, and its product with its transpose. -/
example : ∃ L Lt P : Mat (Fl binary32) 2 2, chol (T := Trapped c158Env binary32) c159A = .ok L ∧
    trans (T := Trapped c158Env binary32) L = .ok Lt ∧ mult (T := Trapped c158Env binary32) L Lt = .ok P ∧
    L 0 0 = Fl.sqrt (Fl.ofInt 3) ∧ compare (T := InEnv c158Env binary32) P c159A c159Eps = .ok true := by
  have hd : (match chol (T := Trapped c158Env binary32) c159A with
    | .ok L => (mult (T := Trapped c158Env binary32) L L.transpose).isOk && c159Small L &&
        c159Same (Fl.sqrt (Fl.ofInt 3)) (L 0 0)
    | .error _ => false) = true := by decide +kernel
  split at hd
  · next L hL =>
    rw [Bool.and_eq_true, Bool.and_eq_true] at hd
    obtain ⟨⟨hP, hS⟩, h3⟩ := hd
    cases hm : mult (T := Trapped c158Env binary32) L L.transpose with
    | error _ => rw [hm] at hP; cases hP
    | ok P =>
      have ht : trans (T := Trapped c158Env binary32) L = .ok L.transpose := trans_ok _
      refine ⟨L, L.transpose, P, hL, ht, hm, c159Same_eq h3, (C159_chol_check c159A L L.transpose P c159Eps ?_ hL ht hm ?_ trivial ?_).2.2⟩
      · intro i j
        fin_cases i <;> fin_cases j <;> rfl
      · intro i j
        fin_cases i <;> fin_cases j <;> decide +kernel
      · intro i j
        have hL' := c159Small_le hS
        have hη := binary32_eta_le
        have hη0 := Fl.eta_nonneg binary32
        have hu : c158Env.u binary32 = 1 / 2 ^ 24 := binary32_u
        have hh : c158Env.eta binary32 = binary32.eta := rfl
        have hv : c158Env.val c159Eps = 1 / 1024 := c159Eps_val
        have hs : ∑ k, |c158Env.val (L i k)| * |c158Env.val (L j k)| ≤ 32 := by
          rw [Fin.sum_univ_two]
          have a1 : |c158Env.val (L i 0)| * |c158Env.val (L j 0)| ≤ 4 * 4 :=
            mul_le_mul (hL' i 0) (hL' j 0) (abs_nonneg _) (by norm_num)
          have a2 : |c158Env.val (L i 1)| * |c158Env.val (L j 1)| ≤ 4 * 4 :=
            mul_le_mul (hL' i 1) (hL' j 1) (abs_nonneg _) (by norm_num)
          linarith
        have hj : |c158Env.val (L (min i j) (min i j))| ≤ 4 := hL' _ _
        rw [hu, hh, hv]
        generalize (∑ k, |c158Env.val (L i k)| * |c158Env.val (L j k)|) = S at *
        have hj0 := abs_nonneg (c158Env.val (L (min i j) (min i j)))
        generalize |c158Env.val (L (min i j) (min i j))| = w at *
        generalize binary32.eta = η at *
        have h1 : (2 * (2 : ℕ) + w) * (1 + 1 / 2 ^ 24) ^ 2 * η ≤ 8 * 2 * η := by
          refine mul_le_mul_of_nonneg_right (mul_le_mul (by push_cast; linarith) (by norm_num) (by positivity) (by norm_num)) hη0
        norm_num at *
        linarith
  · cases hd

/-- A comparison without an overflow, of matrices that differ. -/
example : compare (T := Trapped c158Env binary32) (.of ![![Fl.div (Fl.ofInt 1) (Fl.ofInt 3)]] : Mat (Fl binary32) 1 1)
    (.of ![![Fl.div (Fl.ofInt 333) (Fl.ofInt 1000)]] : Mat (Fl binary32) 1 1) c159Eps = .ok true ∧
    compare (T := Trapped envFast binary32) (.of ![![Fl.div (Fl.ofInt 1) (Fl.ofInt 3)]] : Mat (Fl binary32) 1 1)
    (.of ![![Fl.div (Fl.ofInt 332) (Fl.ofInt 1000)]] : Mat (Fl binary32) 1 1) c159Eps = .ok false := by
  have hd : (match compare (T := Trapped c158Env binary32) (.of ![![Fl.div (Fl.ofInt 1) (Fl.ofInt 3)]] : Mat (Fl binary32) 1 1)
      (.of ![![Fl.div (Fl.ofInt 333) (Fl.ofInt 1000)]] : Mat (Fl binary32) 1 1) c159Eps,
      compare (T := Trapped envFast binary32) (.of ![![Fl.div (Fl.ofInt 1) (Fl.ofInt 3)]] : Mat (Fl binary32) 1 1)
      (.of ![![Fl.div (Fl.ofInt 332) (Fl.ofInt 1000)]] : Mat (Fl binary32) 1 1) c159Eps with
    | .ok a, .ok b => a && !b
    | _, _ => false) = true := by decide +kernel
  split at hd
  · next a b h1 h2 =>
    rw [h1, h2]
    cases a <;> cases b <;> first | exact ⟨rfl, rfl⟩ | cases hd
  · cases hd

/-- The inverse, with rounded elements, and its product with the matrix. -/
example : ∃ B P I : Mat (Fl binary32) 2 2, inv (T := Trapped c158Env binary32) none c158Two = .ok B ∧
    mult (T := Trapped c158Env binary32) c158Two B = .ok P ∧ eye1 (T := InEnv c158Env binary32) 2 = .ok I ∧
    B 0 0 = Fl.div (Fl.ofInt 2) (Fl.ofInt 3) ∧ compare (T := InEnv c158Env binary32) P I c159Eps = .ok true := by
  have hd : (match inv (T := Trapped c158Env binary32) none c158Two with
    | .ok B => (mult (T := Trapped c158Env binary32) c158Two B).isOk && c159Small B &&
        c159Same (Fl.div (Fl.ofInt 2) (Fl.ofInt 3)) (B 0 0)
    | .error _ => false) = true := by decide +kernel
  split at hd
  · next B hB =>
    rw [Bool.and_eq_true, Bool.and_eq_true] at hd
    obtain ⟨⟨hP, hS⟩, h3⟩ := hd
    cases hm : mult (T := Trapped c158Env binary32) c158Two B with
    | error _ => rw [hm] at hP; cases hP
    | ok P =>
      have hS' := c159Small_le hS
      have hη := binary32_eta_le
      have hη0 := Fl.eta_nonneg binary32
      have hu : u (Trapped c158Env binary32) = 1 / 2 ^ 24 := binary32_u
      have hu' : c158Env.u binary32 = 1 / 2 ^ 24 := binary32_u
      have hh : h (Trapped c158Env binary32) = binary32.eta := trapped_h c158Env binary32
      have hh' : c158Env.eta binary32 = binary32.eta := rfl
      have he : Standard.e (Trapped c158Env binary32) ≤ binary32.eta := by
        have : Standard.e (Trapped c158Env binary32) + Standard.d (Trapped c158Env binary32) = binary32.eta := hh
        linarith [Standard.d_nonneg (T := Trapped c158Env binary32)]
      have hv : c158Env.val c159Eps = 1 / 1024 := c159Eps_val
      have v1 : (Fl.ofInt 1 : Fl binary32).val = 1 := (Fl.val_ofInt_exact (F := binary32) 1 (by decide)).2.trans (by norm_num)
      have v2 : (Fl.ofInt 2 : Fl binary32).val = 2 := (Fl.val_ofInt_exact (F := binary32) 2 (by decide)).2.trans (by norm_num)
      have e2 : c158Two.map c158Env.val = !![2, 1; 1, 2] := by
        ext i j
        fin_cases i <;> fin_cases j <;> first | exact v1 | exact v2
      have e2' : ∀ i j, |c158Env.val (c158Two i j)| ≤ 2 := by
        intro i j
        have : c158Env.val (c158Two i j) = (!![2, 1; 1, 2] : Mat ℝ 2 2) i j := congrFun (congrFun e2 i) j
        rw [this]
        fin_cases i <;> fin_cases j <;> norm_num
      have hD : (!![2, 1; 1, 2] : Mat ℝ 2 2).det = 3 := by rw [Matrix.det_fin_two]; norm_num
      have hi : ∀ i j, |(!![2, 1; 1, 2] : Mat ℝ 2 2)⁻¹ i j| ≤ 1 := by
        intro i j
        rw [Matrix.inv_def, Matrix.adjugate_fin_two, hD]
        fin_cases i <;> fin_cases j <;> norm_num [Ring.inverse_eq_inv']
      have hb : det2Bound (Trapped c158Env binary32) (!![2, 1; 1, 2] : Mat ℝ 2 2) ≤ 1 / 2 ^ 20 := by
        unfold det2Bound
        rw [hu, hh]
        generalize binary32.eta = η at *
        norm_num at *
        linarith
      have hb0 : 0 ≤ det2Bound (Trapped c158Env binary32) (!![2, 1; 1, 2] : Mat ℝ 2 2) := by
        unfold det2Bound
        rw [hu, hh]
        generalize binary32.eta = η at *
        norm_num
        linarith
      refine ⟨B, P, _, hB, hm, eye_ok (T := InEnv c158Env binary32) 2 _, c159Same_eq h3,
        (C159_inverse2_check none c158Two B P _ c159Eps hB hm (eye_ok (T := InEnv c158Env binary32) 2 _) trivial ?_ ?_).2.2⟩
      · rw [e2, hD]
        norm_num at hb ⊢
        linarith
      · intro i j
        rw [e2, hD]
        have hq : ∀ k, quotBound (Trapped c158Env binary32) ((!![2, 1; 1, 2] : Mat ℝ 2 2)⁻¹ k j) 3 0
            (det2Bound (Trapped c158Env binary32) (!![2, 1; 1, 2] : Mat ℝ 2 2)) ≤ 1 / 2 ^ 18 := by
          intro k
          unfold quotBound
          have h1 := hi k j
          have h0 := abs_nonneg ((!![2, 1; 1, 2] : Mat ℝ 2 2)⁻¹ k j)
          rw [hu]
          generalize |(!![2, 1; 1, 2] : Mat ℝ 2 2)⁻¹ k j| = x at *
          generalize det2Bound (Trapped c158Env binary32) (!![2, 1; 1, 2] : Mat ℝ 2 2) = E at *
          have h2 : (0 + x * E) / (|3| - E) ≤ (1 / 2 ^ 20) / 1 := by
            refine div_le_div₀ (by norm_num) ?_ (by norm_num) ?_
            · nlinarith
            · norm_num at hb ⊢
              linarith
          have h3 : (1 + 1 / 2 ^ 24) * ((0 + x * E) / (|3| - E)) ≤ (1 + 1 / 2 ^ 24) * ((1 / 2 ^ 20) / 1) :=
            mul_le_mul_of_nonneg_left h2 (by norm_num)
          generalize (1 + 1 / 2 ^ 24) * ((0 + x * E) / (|3| - E)) = y at *
          norm_num at *
          linarith
        have hq0 : ∀ k, |c158Env.val (c158Two i k)| * quotBound (Trapped c158Env binary32) ((!![2, 1; 1, 2] : Mat ℝ 2 2)⁻¹ k j) 3 0
            (det2Bound (Trapped c158Env binary32) (!![2, 1; 1, 2] : Mat ℝ 2 2)) ≤ 2 * (1 / 2 ^ 18) := by
          intro k
          refine (mul_le_mul_of_nonneg_left (hq k) (abs_nonneg _)).trans ?_
          exact mul_le_mul_of_nonneg_right (e2' i k) (by norm_num)
        have hs : ∀ k, |c158Env.val (c158Two i k)| * |c158Env.val (B k j)| ≤ 2 * 4 := fun k =>
          mul_le_mul (e2' i k) (hS' k j) (abs_nonneg _) (by norm_num)
        have q0 := hq0 0
        have q1 := hq0 1
        have s0 := hs 0
        have s1 := hs 1
        rw [Fin.sum_univ_two, Fin.sum_univ_two, hu', hh', hv]
        generalize |c158Env.val (c158Two i 0)| * quotBound (Trapped c158Env binary32) _ _ _ _ = a0 at *
        generalize |c158Env.val (c158Two i 1)| * quotBound (Trapped c158Env binary32) _ _ _ _ = a1 at *
        generalize |c158Env.val (c158Two i 0)| * |c158Env.val (B 0 j)| = b0 at *
        generalize |c158Env.val (c158Two i 1)| * |c158Env.val (B 1 j)| = b1 at *
        generalize binary32.eta = η at *
        clear hb hb0 hi hD e2 e2' hS' hs hq0 hq hS
        norm_num at *
        linarith
  · cases hd

end MatrixLibs
