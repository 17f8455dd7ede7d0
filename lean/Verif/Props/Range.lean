import Verif.Proof.Range
import Verif.Props.StandardPow
import Verif.Props.Check
import Verif.Props.StandardStats

/-!
# Property C164: bounded elements do not overflow
-/

namespace MatrixLibs

set_option linter.unusedSectionVars false
set_option exponentiation.threshold 300

open Fl Range FpEnv

variable {F : Fmt} {n m p r c : Nat} {x y : ℝ} {t : ℤ} (e : FpEnv)

/-- C164: the largest number is what its name says: it is a number of the format, and no number is larger. -/
theorem C164_largest : (∃ a : Fl F, a.Finite ∧ a.val = F.largest) ∧ ∀ a : Fl F, a.Finite → a.AtMost F.largest := by
  have hu := unit_posR F
  have h1 : (F.top : ℝ) / F.unit = F.largest := by rw [top_real]; field_simp
  refine ⟨⟨.fin false F.top F.top_rep, trivial, by rw [val_fin_false, h1]⟩, fun a ha => ⟨ha, ?_⟩⟩
  obtain ⟨s, N, hN, rfl⟩ := Silent.finite_fin ha
  rw [abs_val_fin, ← h1]
  have h3 : N ≤ F.top := le_top hN
  gcongr

/-- C164: sums and differences, and those with a scalar. -/
theorem C164_sum (A B : Mat (Fl F) r c) (s : Fl F) (k : Nat) (hA : ElementsAtMost x A) (hB : ElementsAtMost y B) (hs : s.AtMost y)
    (hxy : x + y ≤ k * 2 ^ t) (hr : F.Room k t) :
    (∃ S : Mat (Fl F) r c, sum (T := Trapped e F) A B = .ok S ∧ sum (T := InEnv e F) A B = .ok S ∧ ElementsAtMost (k * 2 ^ t) S) ∧
    (∃ S : Mat (Fl F) r c, sub (T := Trapped e F) A B = .ok S ∧ sub (T := InEnv e F) A B = .ok S ∧ ElementsAtMost (k * 2 ^ t) S) ∧
    (∃ S : Mat (Fl F) r c, sumScalar (T := Trapped e F) A s = .ok S ∧ sumScalar (T := InEnv e F) A s = .ok S ∧
      ElementsAtMost (k * 2 ^ t) S) ∧
    (∃ S : Mat (Fl F) r c, subScalar (T := Trapped e F) A s = .ok S ∧ subScalar (T := InEnv e F) A s = .ok S ∧
      ElementsAtMost (k * 2 ^ t) S) := by
  obtain ⟨S1, h1, k1⟩ := sum_range (e := e) hA hB hxy hr.number
  obtain ⟨S2, h2, k2⟩ := sub_range (e := e) hA hB hxy hr.number
  obtain ⟨S3, h3, k3⟩ := sumScalar_range (e := e) hA hs hxy hr.number
  obtain ⟨S4, h4, k4⟩ := subScalar_range (e := e) hA hs hxy hr.number
  exact ⟨⟨S1, h1, env_res (sim_sum (env_mat e A) (env_mat e B)) h1, k1⟩,
    ⟨S2, h2, env_res (sim_sub (env_mat e A) (env_mat e B)) h2, k2⟩,
    ⟨S3, h3, env_res (sim_sumScalar (T := Trapped e F) (U := InEnv e F) (s := s) (s' := s) (env_mat e A) rfl) h3, k3⟩,
    ⟨S4, h4, env_res (sim_subScalar (T := Trapped e F) (U := InEnv e F) (s := s) (s' := s) (env_mat e A) rfl) h4, k4⟩⟩

/-- C164: products with a scalar. -/
theorem C164_multScalar (A : Mat (Fl F) r c) (s : Fl F) (k : Nat) (hA : ElementsAtMost x A) (hs : s.AtMost y)
    (hxy : x * y ≤ k * 2 ^ t) (hr : F.Room k t) :
    ∃ S : Mat (Fl F) r c, multScalar (T := Trapped e F) A s = .ok S ∧ multScalar (T := InEnv e F) A s = .ok S ∧
      ElementsAtMost (k * 2 ^ t) S := by
  obtain ⟨S, h, k⟩ := multScalar_range (e := e) hA hs hxy hr.number
  exact ⟨S, h, env_res (sim_multScalar (T := Trapped e F) (U := InEnv e F) (s := s) (s' := s) (env_mat e A) rfl) h, k⟩

/-- C164: quotients by a number of at least the size `y`. -/
theorem C164_div (handled : Option Exc) (A : Mat (Fl F) r c) (s : Fl F) (k : Nat) (hA : ElementsAtMost x A) (hs : s.Finite)
    (h0 : 0 < y) (hy : y ≤ |e.val s|) (hxy : x ≤ k * 2 ^ t * y) (hr : F.Room k t) :
    ∃ S : Mat (Fl F) r c, div (T := Trapped e F) handled A s = .ok S ∧ div (T := InEnv e F) handled A s = .ok S ∧
      ElementsAtMost (k * 2 ^ t) S := by
  obtain ⟨S, h, k⟩ := div_range (e := e) handled hA hs h0 hy hxy hr.number
  exact ⟨S, h, env_res (sim_div (T := Trapped e F) (U := InEnv e F) handled (s := s) (s' := s) (env_mat e A) rfl) h, k⟩

/-- C164: comparisons. What differs by at most the tolerance is accepted, what is accepted differs by at most the tolerance up to
the error of one subtraction. -/
theorem C164_compare (A B : Mat (Fl F) r c) (eps : Fl F) (k : Nat) (hA : ElementsAtMost x A) (hB : ElementsAtMost y B)
    (hxy : x + y ≤ k * 2 ^ t) (hr : F.Room k t) (he : eps.Finite) :
    ∃ b, compare (T := Trapped e F) A B eps = .ok b ∧ compare (T := InEnv e F) A B eps = .ok b ∧
      ((∀ i j, |e.val (A i j) - e.val (B i j)| ≤ e.val eps) → b = true) ∧
      (b = true → ∀ i j, |e.val (A i j) - e.val (B i j)| ≤ (1 + e.u F) * e.val eps + e.eta F) := by
  obtain ⟨b, h1, h2⟩ := compare_range (e := e) eps hA hB hxy hr.number
  obtain ⟨b', h3, h4⟩ := env_compare_ok (e := e) A B eps
  obtain rfl : b = b' := Bool.eq_iff_iff.mpr (h2.trans h4.symm)
  refine ⟨b, h1, h3, fun h => ?_, fun h i j => ?_⟩
  · have h5 := C159_compare (e := e) A B eps (fun i j => (hA i j).1) (fun i j => (hB i j).1) he h
    rw [h3] at h5
    injection h5
  · subst h
    exact ((C159_compare_sound (e := e) A B eps he h1).2 i j).2.2

/-- C164: products. -/
theorem C164_mult (A : Mat (Fl F) n m) (B : Mat (Fl F) m p) (hA : ElementsAtMost x A) (hB : ElementsAtMost y B)
    (hxy : x * y ≤ 2 ^ t) (hr : F.Room m t) :
    ∃ P : Mat (Fl F) n p, mult (T := Trapped e F) A B = .ok P ∧ mult (T := InEnv e F) A B = .ok P ∧ ElementsAtMost (m * 2 ^ t) P := by
  obtain ⟨P, h, k⟩ := mult_range (e := e) hA hB hxy hr
  exact ⟨P, h, env_res (sim_mult (env_mat e A) (env_mat e B)) h, k⟩

/-- C164: so the error bound of products holds for bounded elements without looking at flags. -/
theorem C164_mult_accurate (A : Mat (Fl F) n m) (B : Mat (Fl F) m p) (hA : ElementsAtMost x A) (hB : ElementsAtMost y B)
    (hxy : x * y ≤ 2 ^ t) (hr : F.Room m t) :
    ∃ P : Mat (Fl F) n p, mult (T := InEnv e F) A B = .ok P ∧ ∀ i j, |e.val (P i j) - ∑ k, e.val (A i k) * e.val (B k j)| ≤
      ((1 + e.u F) ^ m - 1) * (∑ k, |e.val (A i k)| * |e.val (B k j)|) + m * (1 + e.u F) ^ (m - 1) * e.eta F := by
  obtain ⟨P, h1, _, _⟩ := C164_mult e A B hA hB hxy hr
  obtain ⟨h2, h3⟩ := C151_mult e A B P h1
  exact ⟨P, h2, h3⟩

/-- C164: and those of determinants and means. -/
theorem C164_accurate (A : Mat (Fl F) 2 2) (hA : ElementsAtMost x A) (hx : x * x ≤ 2 ^ t) (hr : F.Room 2 t)
    (M : Mat (Fl F) r c) (hM : ElementsAtMost (2 ^ t) M) (h0 : r * c ≠ 0) (hrc : F.Room (r * c) t) :
    (∃ D : Fl F, det (T := InEnv e F) A = .ok D ∧ |e.val D - (A.map e.val).det| ≤
      ((1 + e.u F) ^ 2 - 1) * (|e.val (A 0 0)| * |e.val (A 1 1)| + |e.val (A 0 1)| * |e.val (A 1 0)|) +
        2 * (1 + e.u F) * e.eta F) ∧
    ∃ μ : Fl F, mean (T := InEnv e F) M = .ok μ ∧ |e.val μ - (∑ a, ∑ b, e.val (M a b)) / ((r * c : Nat) : ℝ)| ≤
      ((1 + e.u F) ^ (r * c + 2) - 1) * ((∑ a, ∑ b, |e.val (M a b)|) / ((r * c : Nat) : ℝ)) +
        ((1 + e.u F) ^ (r * c + 1) + 1) * e.eta F := by
  obtain ⟨D, h1, _⟩ := det2_range (e := e) hA hx hr
  obtain ⟨μ, h2, _⟩ := mean_range (e := e) hM h0 hrc
  exact ⟨⟨D, C151_det2 e A D h1⟩, ⟨μ, C151_mean e M μ h2 h0⟩⟩

/-- C164: and of determinants of 3x3 matrices. -/
theorem C164_det3_accurate (A : Mat (Fl F) 3 3) (hA : ElementsAtMost (2 ^ t) A) (hr : F.Room 6 (3 * t)) :
    ∃ D : Fl F, det (T := InEnv e F) A = .ok D ∧ |e.val D - (A.map e.val).det| ≤
      ((1 + e.u F) ^ 7 - 1) * Standard.perm3 (A.map e.val) +
        6 * (1 + e.u F) ^ 6 * (1 + |e.val (A 2 0)| + |e.val (A 2 1)| + |e.val (A 2 2)|) * e.eta F := by
  have h1 := F.hp
  have h2 := F.he
  have h3 := hr.2.1
  have hz := one_room (hr.root (s := 2 * t) (by omega) (by omega)) (by omega)
  obtain ⟨D, h, _⟩ := det3_range (e := e) (x := 2 ^ t) (t := 3 * t) hA
    (le_of_eq (by rw [← zpow_add₀ (by norm_num), two_mul])) hz
    (le_of_eq (by rw [← zpow_add₀ (by norm_num)]; congr 1; ring)) hr
  exact ⟨D, C151_det3 e A D h⟩

/-- C164: convolutions. -/
theorem C164_conv2 (A : Mat (Fl F) r c) (k : Mat (Fl F) 3 3) (hA : ElementsAtMost x A) (hk : ElementsAtMost y k)
    (hxy : x * y ≤ 2 ^ t) (hr : F.Room 9 t) (hi : r ≤ 2 ^ 31) (hj : c ≤ 2 ^ 31) :
    (∃ S : Mat (Fl F) r c, conv2 (T := Trapped e F) A k = .ok S ∧ conv2 (T := InEnv e F) A k = .ok S ∧
      ElementsAtMost (9 * 2 ^ t) S) ∧
    ∃ S : Mat (Fl F) (r + 2) (c + 2), conv2_full (T := Trapped e F) A k = .ok S ∧ conv2_full (T := InEnv e F) A k = .ok S ∧
      ElementsAtMost (9 * 2 ^ t) S := by
  rw [mul_comm] at hxy
  obtain ⟨S, h1, k1⟩ := conv2_range (e := e) hA hk hxy hr hi hj
  obtain ⟨S', h2, k2⟩ := conv2_full_range (e := e) hA hk hxy hr hi hj
  exact ⟨⟨S, h1, env_res (sim_conv2 (env_mat e A) (env_mat e k)) h1, k1⟩,
    ⟨S', h2, env_res (sim_conv2_full (env_mat e A) (env_mat e k)) h2, k2⟩⟩

/-- C164: `conv2_valid`. -/
theorem C164_conv2_valid (A : Mat (Fl F) (m + 2) (m + 2)) (k : Mat (Fl F) 3 3) (hA : ElementsAtMost x A) (hk : ElementsAtMost y k)
    (hxy : x * y ≤ 2 ^ t) (hr : F.Room 9 t) (hm : m + 2 ≤ 2 ^ 31) :
    ∃ V : Mat (Fl F) m m, conv2_valid (T := Trapped e F) A k = .ok V ∧ conv2_valid (T := InEnv e F) A k = .ok V ∧
      ElementsAtMost (9 * 2 ^ t) V := by
  rw [mul_comm] at hxy
  obtain ⟨V, h, q⟩ := conv2_valid_range (e := e) hA hk hxy hr hm
  exact ⟨V, h, env_res (sim_conv2_valid (env_mat e A) (env_mat e k)) h, q⟩

/-- C164: determinants of 2x2 matrices. -/
theorem C164_det2 (A : Mat (Fl F) 2 2) (hA : ElementsAtMost x A) (hx : x * x ≤ 2 ^ t) (hr : F.Room 2 t) :
    ∃ D : Fl F, det (T := Trapped e F) A = .ok D ∧ det (T := InEnv e F) A = .ok D ∧ D.AtMost (2 * 2 ^ t) := by
  obtain ⟨D, h, k⟩ := det2_range (e := e) hA hx hr
  exact ⟨D, h, env_num (sim_det (env_mat e A)) h, k⟩

/-- C164: determinants of 3x3 matrices. -/
theorem C164_det3 (A : Mat (Fl F) 3 3) (hA : ElementsAtMost (2 ^ t) A) (hr : F.Room 6 (3 * t)) :
    ∃ D : Fl F, det (T := Trapped e F) A = .ok D ∧ det (T := InEnv e F) A = .ok D ∧ D.AtMost (6 * 2 ^ (3 * t)) := by
  have h1 := F.hp
  have h2 := F.he
  have h3 := hr.2.1
  have hz := one_room (hr.root (s := 2 * t) (by omega) (by omega)) (by omega)
  obtain ⟨D, h, k⟩ := det3_range (e := e) (x := 2 ^ t) (t := 3 * t) hA
    (le_of_eq (by rw [← zpow_add₀ (by norm_num), two_mul])) hz
    (le_of_eq (by rw [← zpow_add₀ (by norm_num)]; congr 1; ring)) hr
  exact ⟨D, h, env_num (sim_det (env_mat e A)) h, k⟩

/-- C164: Strassen products. -/
theorem C164_strassen (A B : Mat (Fl F) 2 2) (u v : ℤ) (hA : ElementsAtMost (2 ^ u) A) (hB : ElementsAtMost (2 ^ v) B)
    (hu : F.Room 2 u) (hv : F.Room 2 v) (hr : F.Room 12 (u + v)) :
    ∃ P : Mat (Fl F) 2 2, strassen (T := Trapped e F) A B = .ok P ∧ strassen (T := InEnv e F) A B = .ok P ∧
      ElementsAtMost (12 * 2 ^ (u + v)) P := by
  obtain ⟨P, h, k⟩ := strassen_range (e := e) hA hB hu hv hr
  exact ⟨P, h, env_res (sim_strassen (T := Trapped e F) (U := InEnv e F) (env_mat e A) (env_mat e B)) h, k⟩

/-- C164: powers of matrices of at most `2^s` rows. -/
theorem C164_pow (handled : Option Exc) (w : Nat) (A : Mat (Fl F) n n) (s t q : Nat) (hn : n ≤ 2 ^ s) (hs : s ≤ F.p)
    (hA : ElementsAtMost (2 ^ t) A) (hq : 1 ≤ q) (hr : (2 : ℝ) ^ (s * (q - 1) + t * q) ≤ F.largest) :
    ∃ P : Mat (Fl F) n n, pow (T := Trapped e F) handled w A q = .ok P ∧ pow (T := InEnv e F) handled w A q = .ok P ∧
      ElementsAtMost (2 ^ (s * (q - 1) + t * q)) P := by
  obtain ⟨P, h, k⟩ := powFuel_range (e := e) hn hs hA handled w q (q.log2 + 2) hq (by omega) hr
  exact ⟨P, h, env_res (sim_pow (T := Trapped e F) (U := InEnv e F) handled w (env_mat e A) q) h, k⟩

/-- C164: means. -/
theorem C164_mean (A : Mat (Fl F) r c) (hA : ElementsAtMost (2 ^ t) A) (h0 : r * c ≠ 0) (hr : F.Room (r * c) t) :
    ∃ μ : Fl F, mean (T := Trapped e F) A = .ok μ ∧ mean (T := InEnv e F) A = .ok μ ∧ μ.AtMost (2 ^ t) := by
  obtain ⟨μ, h, k⟩ := mean_range (e := e) hA h0 hr
  exact ⟨μ, h, env_num (env_mean (env_mat e A)) h, k⟩

/-- C164: variances and standard deviations. The variance is not negative. -/
theorem C164_var (A : Mat (Fl F) r c) (hA : ElementsAtMost (2 ^ t) A) (h0 : r * c ≠ 0) (hr : F.Room (r * c) (2 * t + 2)) :
    (∃ v : Fl F, var (T := Trapped e F) A = .ok v ∧ var (T := InEnv e F) A = .ok v ∧ v.AtMost (2 ^ (2 * t + 2)) ∧ 0 ≤ v.val) ∧
    ∃ d : Fl F, stddev (T := Trapped e F) A = .ok d ∧ stddev (T := InEnv e F) A = .ok d := by
  have h1 := F.hp
  have h2 := F.he
  have h3 := hr.2.1
  have q1 : F.Room (r * c) t := hr.root (by omega) (by omega)
  have q2 : F.Room 1 (t + 1) := (hr.root (s := t + 1) (by omega) (by omega)).mono (by omega)
  obtain ⟨v, h4, h5, h6⟩ := var_range (e := e) hA h0 q1 hr q2
  obtain ⟨d, h7⟩ := stddev_range (e := e) hA h0 q1 hr q2
  exact ⟨⟨v, h4, env_num (env_var (env_mat e A)) h4, h5, h6⟩, d, h7, env_num (env_stddev (env_mat e A)) h7⟩

/-- C164: the error bounds of convolutions and Strassen products. -/
theorem C164_conv2_accurate (A : Mat (Fl F) r c) (k : Mat (Fl F) 3 3) (hA : ElementsAtMost x A) (hk : ElementsAtMost y k)
    (hxy : x * y ≤ 2 ^ t) (hr : F.Room 9 t) (hi : r ≤ 2 ^ 31) (hj : c ≤ 2 ^ 31) :
    ∃ S : Mat (Fl F) r c, conv2 (T := InEnv e F) A k = .ok S ∧
      ∀ i j, |e.val (S i j) - correlateAt (A.map e.val) (k.map e.val) i.val j.val| ≤
        ((1 + e.u F) ^ 9 - 1) * correlateAt (A.map fun x => |e.val x|) (k.map fun x => |e.val x|) i.val j.val +
          9 * (1 + e.u F) ^ 8 * e.eta F := by
  obtain ⟨⟨S, h1, _⟩, _⟩ := C164_conv2 e A k hA hk hxy hr hi hj
  exact ⟨S, C151_conv2 e A k S h1 hi hj⟩

theorem C164_strassen_accurate (A B : Mat (Fl F) 2 2) (u v : ℤ) (hA : ElementsAtMost (2 ^ u) A) (hB : ElementsAtMost (2 ^ v) B)
    (hu : F.Room 2 u) (hv : F.Room 2 v) (hr : F.Room 12 (u + v)) :
    ∃ P : Mat (Fl F) 2 2, strassen (T := InEnv e F) A B = .ok P ∧ ∀ i j, |e.val (P i j) - (A.map e.val * B.map e.val) i j| ≤
      ((1 + e.u F) ^ 6 - 1) * (12 * (2 ^ u * 2 ^ v)) + (1 + e.u F) ^ 5 *
        (5 * (2 ^ u + 2 ^ v) * Standard.d (Trapped e F) + 2 * Standard.d (Trapped e F) ^ 2 + 4 * e.eta F) := by
  obtain ⟨P, h1, h2, _⟩ := C164_strassen e A B u v hA hB hu hv hr
  refine ⟨P, h2, fun i j => ?_⟩
  rw [← trapped_h]
  exact C160_strassen (T := Trapped e F) A B P _ _ (fun i j => (FpEnv.abs_seen_le (e := e) _).trans (hA i j).2)
    (fun i j => (FpEnv.abs_seen_le (e := e) _).trans (hB i j).2) h1 i j

/-- C164: the error bound of powers. -/
theorem C164_pow_accurate (handled : Option Exc) (w : Nat) (A : Mat (Fl F) n n) (s t q : Nat) (hn : n ≤ 2 ^ s) (hs : s ≤ F.p)
    (hA : ElementsAtMost (2 ^ t) A) (hq : 1 ≤ q) (hr : (2 : ℝ) ^ (s * (q - 1) + t * q) ≤ F.largest) :
    ∃ P : Mat (Fl F) n n, pow (T := InEnv e F) handled w A q = .ok P ∧ ∀ i j, |e.val (P i j) - (A.map e.val ^ q) i j| ≤
      ((1 + e.u F) ^ (n * (q - 1)) - 1) * ((A.map fun x => |e.val x|) ^ q) i j +
        (1 + e.u F) ^ (n * (q - 1)) * ((1 + (n : ℝ) ^ 2 * e.eta F) ^ (q - 1) - 1) * (2 ^ s * 2 ^ t) ^ q / n := by
  obtain ⟨P, h1, h2, _⟩ := C164_pow e handled w A s t q hn hs hA hq hr
  refine ⟨P, h2, fun i j => ?_⟩
  have each : ∀ a b, |e.val (A a b)| ≤ 2 ^ t := fun a b => (FpEnv.abs_seen_le (e := e) _).trans (hA a b).2
  have hn' : (n : ℝ) ≤ 2 ^ s := by exact_mod_cast hn
  have total : ∀ f : Fin n → ℝ, (∀ a, f a ≤ 2 ^ t) → ∑ a, f a ≤ 2 ^ s * 2 ^ t := by
    intro f hf
    calc ∑ a, f a ≤ ∑ _a : Fin n, (2 : ℝ) ^ t := Finset.sum_le_sum fun a _ => hf a
      _ = n * 2 ^ t := by simp
      _ ≤ 2 ^ s * 2 ^ t := by gcongr
  rw [← trapped_h]
  exact C160_pow (T := Trapped e F) handled w A P (2 ^ s * 2 ^ t)
    (one_le_mul_of_one_le_of_one_le (one_le_pow₀ (by norm_num)) (one_le_pow₀ (by norm_num)))
    (fun i => total _ fun j => each i j) (fun j => total _ fun i => each i j) q hq h1 i j

/-- C164: the error bounds of variances and standard deviations. -/
theorem C164_var_accurate (A : Mat (Fl F) r c) (hA : ElementsAtMost (2 ^ t) A) (h0 : r * c ≠ 0) (hr : F.Room (r * c) (2 * t + 2)) :
    (∃ v : Fl F, var (T := InEnv e F) A = .ok v ∧
      |e.val v - Standard.trueVar (T := Trapped e F) A| ≤ Standard.varBound (T := Trapped e F) A) ∧
    ∃ d : Fl F, stddev (T := InEnv e F) A = .ok d ∧
      |e.val d - Real.sqrt (Standard.trueVar (T := Trapped e F) A)| ≤
        e.u F * e.val d + Real.sqrt (Standard.varBound (T := Trapped e F) A) := by
  obtain ⟨⟨v, h1, h2, _⟩, ⟨d, h3, h4⟩⟩ := C164_var e A hA h0 hr
  exact ⟨⟨v, h2, C158_var (T := Trapped e F) A v h1 h0⟩, ⟨d, h4, (C158_stddev (T := Trapped e F) A d h3 h0).1⟩⟩

/-! ## Instances -/

/-- C164: `float` elements of at most `2^50` and rows of at most `2^24` elements: no product overflows, whatever the
environment. -/
theorem C164_float (A : Mat (Fl binary32) n m) (B : Mat (Fl binary32) m p) (hA : ElementsAtMost (2 ^ 50) A)
    (hB : ElementsAtMost (2 ^ 50) B) (hm : m ≤ 2 ^ 24) :
    ∃ P : Mat (Fl binary32) n p, mult (T := Trapped e binary32) A B = .ok P ∧ mult (T := InEnv e binary32) A B = .ok P ∧
      ElementsAtMost (m * 2 ^ 100) P := by
  have hm' : (m : ℝ) ≤ 2 ^ 24 := by exact_mod_cast hm
  obtain ⟨P, h1, h2, h3⟩ := C164_mult e (t := 100) A B hA hB (by norm_num)
    ⟨hm, by simp [binary32], by
      unfold Fmt.largest
      norm_num [binary32]
      linarith⟩
  exact ⟨P, h1, h2, fun i j => (h3 i j).mono (le_of_eq (by norm_num))⟩

/-- A row of two numbers `2^63`. -/
def rangeRow : Mat (Fl binary32) 1 2 := Mat.const (Fl.ofInt (2 ^ 63))
/-- A column of two numbers `2^64`. -/
def rangeCol : Mat (Fl binary32) 2 1 := Mat.const (Fl.ofInt (2 ^ 64))

/-- C164: the bound cannot be dropped: with elements of `2^63` and `2^64` the sum of two products is `2^128`, above the largest
`float`, and overflows. -/
theorem C164_overflow : (∀ P, mult (T := Trapped .default binary32) rangeRow rangeCol ≠ .ok P) ∧ ¬ binary32.Room 2 127 := by
  constructor
  · have : mult (T := Trapped .default binary32) rangeRow rangeCol = .error (.ub .domain) := by decide +kernel
    intro P h
    rw [this] at h
    cases h
  · rintro ⟨_, _, h⟩
    unfold Fmt.largest at h
    norm_num [binary32] at h

/-- The hypotheses can be met: every matrix of small integers is bounded. -/
example : ElementsAtMost (2 ^ 2) (Mat.const (Fl.ofInt 3) : Mat (Fl binary32) 2 2) := by
  intro i j
  have := val_ofInt_exact (F := binary32) 3 (by decide)
  refine ⟨this.1, ?_⟩
  show |(Fl.ofInt 3 : Fl binary32).val| ≤ _
  rw [this.2]
  norm_num

example : binary32.Room 6 (3 * 40) ∧ binary32.Room 9 100 ∧ binary32.Room 12 (60 + 60) ∧ binary32.Room 1000 (2 * 50 + 2) := by
  unfold Fmt.Room Fmt.largest
  norm_num [binary32]

end MatrixLibs
