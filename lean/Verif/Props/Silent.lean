import Verif.Proof.Silent
import Verif.Props.Arith
import Verif.Props.Det
import Verif.Props.Inv
import Verif.Props.Lu
import Verif.Props.Chol
import Verif.Props.Preds
import Verif.Props.Pow
import Verif.Props.Conv
import Verif.Props.Stats

/-!
# Calls that raise no floating point exception are exact (C162)

`f (T := Silent e F) A = .ok R` says that the call, in the floating point environment `e`, returns `R` and raises no exception
on the way.
-/

namespace MatrixLibs

set_option linter.unusedSectionVars false

open Silent

/-- C162: operations on finite numbers raise no exception exactly if their result is finite and the exact one. -/
theorem C162_exact (e : FpEnv) {F : Fmt} (a b : Fl F) (n : Nat) (ha : a.Finite) (hb : b.Finite) :
    ((∃ v, CScalar.add (T := Silent e F) a b = .ok v) ↔ (e.add a b).Finite ∧ (e.add a b).val = e.val a + e.val b) ∧
    ((∃ v, CScalar.sub (T := Silent e F) a b = .ok v) ↔ (e.sub a b).Finite ∧ (e.sub a b).val = e.val a - e.val b) ∧
    ((∃ v, CScalar.mul (T := Silent e F) a b = .ok v) ↔ (e.mul a b).Finite ∧ (e.mul a b).val = e.val a * e.val b) ∧
    ((∃ v, CScalar.div (T := Silent e F) a b = .ok v) ↔
      e.val b ≠ 0 ∧ (e.div a b).Finite ∧ (e.div a b).val = e.val a / e.val b) ∧
    ((∃ v, CScalar.sqrt (T := Silent e F) a = .ok v) ↔
      0 ≤ e.val a ∧ (e.sqrt a).Finite ∧ (e.sqrt a).val = Real.sqrt (e.val a)) ∧
    ((∃ v, CScalar.divSize (T := Silent e F) a n = .ok v) ↔ n ≠ 0 ∧ (Fl.ofIntBy e.mode n : Fl F).Finite ∧
      (Fl.ofIntBy e.mode n : Fl F).val = n ∧ (e.div a (Fl.ofIntBy e.mode n)).Finite ∧
        (e.div a (Fl.ofIntBy e.mode n)).val = e.val a / n) :=
  ⟨(returns_guarded _ _).trans (add_iff ha hb), (returns_guarded _ _).trans (sub_iff ha hb),
    (returns_guarded _ _).trans (mul_iff ha hb), (returns_guarded _ _).trans (div_iff ha hb),
    (returns_guarded _ _).trans (sqrt_iff ha), (returns_guarded _ _).trans (divSize_iff ha)⟩

section
variable {e : FpEnv} {F : Fmt} {n m p r c : Nat} (hd : e.ReadsResults)

include hd

/-- C162: sums, differences and products with numbers. -/
theorem C162_elementwise (A B R : Mat (Fl F) r c) (s : Fl F) (hA : AllFinite A) (hB : AllFinite B) (hs : s.Finite) :
    (sum (T := Silent e F) A B = .ok R →
      sum (T := InEnv e F) A B = .ok R ∧ AllFinite R ∧ e.read R = e.read A + e.read B) ∧
    (sub (T := Silent e F) A B = .ok R →
      sub (T := InEnv e F) A B = .ok R ∧ AllFinite R ∧ e.read R = e.read A - e.read B) ∧
    (multScalar (T := Silent e F) A s = .ok R →
      multScalar (T := InEnv e F) A s = .ok R ∧ AllFinite R ∧ e.read R = e.val s • e.read A) := by
  have := simRing (F := F) hd
  refine ⟨fun h => ⟨same_res (sim_sum (same_mat e A) (same_mat e B)) h, ?_⟩,
    fun h => ⟨same_res (sim_sub (same_mat e A) (same_mat e B)) h, ?_⟩,
    fun h => ⟨same_res (sim_multScalar (T := Silent e F) (U := InEnv e F) (s := s) (s' := s) (same_mat e A) rfl) h, ?_⟩⟩
  · obtain ⟨h1, h2⟩ := read_res (sim_sum (read_mat hA) (read_mat hB)) h
    rw [sum_ok] at h2
    exact ⟨h1, (Except.ok.inj h2).symm⟩
  · obtain ⟨h1, h2⟩ := read_res (sim_sub (read_mat hA) (read_mat hB)) h
    rw [sub_ok] at h2
    exact ⟨h1, (Except.ok.inj h2).symm⟩
  · obtain ⟨h1, h2⟩ := read_res (sim_multScalar (T := Silent e F) (U := ℝ) (s := s) (s' := e.val s) (read_mat hA) ⟨hs, rfl⟩) h
    obtain ⟨R', h3, -, h4⟩ := C18_mul_scalar (e.read A) (e.val s)
    rw [show multScalar (e.read A) (e.val s) = .ok R' from h3] at h2
    refine ⟨h1, ?_⟩
    rw [← Except.ok.inj h2]
    ext i j
    rw [h4, mul_comm]
    rfl

/-- C162: division by a number. -/
theorem C162_div (handled : Option Exc) (A R : Mat (Fl F) r c) (s : Fl F) (hA : AllFinite A) (hs : s.Finite)
    (h : div (T := Silent e F) handled A s = .ok R) :
    div (T := InEnv e F) handled A s = .ok R ∧ AllFinite R ∧ (e.val s ≠ 0 → ∀ i j, e.val (R i j) = e.val (A i j) / e.val s) := by
  have := simRing (F := F) hd
  have := simOrd (e := e) (F := F)
  have := simField (F := F) hd
  refine ⟨same_res (sim_div (T := Silent e F) (U := InEnv e F) handled (s := s) (s' := s) (same_mat e A) rfl) h, ?_⟩
  obtain ⟨h1, h2⟩ := read_res (sim_div (T := Silent e F) (U := ℝ) handled (s := s) (s' := e.val s) (read_mat hA) ⟨hs, rfl⟩) h
  refine ⟨h1, fun h0 i j => ?_⟩
  obtain ⟨R', h3, h4⟩ := C22_div_field handled (e.read A) (e.val s) h0
  rw [show div handled (e.read A) (e.val s) = .ok R' from h3] at h2
  have := congrFun (congrFun (Except.ok.inj h2) i) j
  rw [h4] at this
  exact this.symm

/-- C162: products. -/
theorem C162_mult (A : Mat (Fl F) n m) (B : Mat (Fl F) m p) (R : Mat (Fl F) n p) (hA : AllFinite A) (hB : AllFinite B)
    (h : mult (T := Silent e F) A B = .ok R) :
    mult (T := InEnv e F) A B = .ok R ∧ AllFinite R ∧ e.read R = e.read A * e.read B := by
  have := simRing (F := F) hd
  refine ⟨same_res (sim_mult (same_mat e A) (same_mat e B)) h, ?_⟩
  obtain ⟨h1, h2⟩ := read_res (sim_mult (read_mat hA) (read_mat hB)) h
  rw [mult_ok] at h2
  exact ⟨h1, (Except.ok.inj h2).symm⟩

/-- C162: Strassen's products, that are then those of `A * B`. -/
theorem C162_strassen (A B R : Mat (Fl F) 2 2) (hA : AllFinite A) (hB : AllFinite B)
    (h : strassen (T := Silent e F) A B = .ok R) :
    strassen (T := InEnv e F) A B = .ok R ∧ AllFinite R ∧ e.read R = e.read A * e.read B := by
  have := simRing (F := F) hd
  refine ⟨same_res (sim_strassen (same_mat e A) (same_mat e B)) h, ?_⟩
  obtain ⟨h1, h2⟩ := read_res (sim_strassen (read_mat hA) (read_mat hB)) h
  obtain ⟨R', h3, h4⟩ := C21_strassen (e.read A) (e.read B)
  rw [h3, ← h4] at h2
  rw [show opMul (e.read A) (e.read B) = _ from mult_ok _ _] at h2
  exact ⟨h1, (Except.ok.inj h2).symm⟩

/-- C162: determinants of any size. -/
theorem C162_det (A : Mat (Fl F) n n) (D : Fl F) (hA : AllFinite A) (h : det (T := Silent e F) A = .ok D) :
    det (T := InEnv e F) A = .ok D ∧ D.Finite ∧ e.val D = (e.read A).det := by
  have := simRing (F := F) hd
  have := simOrd (e := e) (F := F)
  have := simField (F := F) hd
  refine ⟨same_num (sim_det (same_mat e A)) h, ?_⟩
  obtain ⟨h1, h2⟩ := read_num (sim_det (read_mat hA)) h
  rw [C26_det] at h2
  exact ⟨h1, (Except.ok.inj h2).symm⟩

/-- C162: what `inv` returns is the inverse. -/
theorem C162_inv (handled : Option Exc) (A B : Mat (Fl F) n n) (hA : AllFinite A)
    (h : inv (T := Silent e F) handled A = .ok B) :
    inv (T := InEnv e F) handled A = .ok B ∧ AllFinite B ∧ e.read A * e.read B = 1 ∧ e.read B * e.read A = 1 := by
  have := simRing (F := F) hd
  have := simOrd (e := e) (F := F)
  have := simField (F := F) hd
  refine ⟨same_res (sim_inv (T := Silent e F) (U := InEnv e F) handled (same_mat e A)) h, ?_⟩
  obtain ⟨h1, h2⟩ := read_res (sim_inv (T := Silent e F) (U := ℝ) handled (read_mat hA)) h
  exact ⟨h1, C30_inv_sound handled _ _ h2⟩

/-- C162: `inv` throws or terminates the program on singular matrices only. -/
theorem C162_inv_throws (handled : Option Exc) (hn : 1 ≤ n) (A : Mat (Fl F) n n) (hA : AllFinite A) (s : Stop)
    (hs : ∀ k, s ≠ .ub k) (h : inv (T := Silent e F) handled A = .error s) :
    inv (T := InEnv e F) handled A = .error s ∧ (e.read A).det = 0 := by
  have := simRing (F := F) hd
  have := simOrd (e := e) (F := F)
  have := simField (F := F) hd
  refine ⟨stop (sim_inv (T := Silent e F) (U := InEnv e F) handled (same_mat e A)) h hs, ?_⟩
  have h2 := stop (sim_inv (T := Silent e F) (U := ℝ) handled (read_mat hA)) h hs
  by_contra h0
  rw [inv_ok handled hn _ h0] at h2
  cases h2

/-- C162: LU factors. -/
theorem C162_lu (A L U : Mat (Fl F) n n) (hA : AllFinite A) (h : lu (T := Silent e F) A = .ok (L, U)) :
    lu (T := InEnv e F) A = .ok (L, U) ∧ AllFinite L ∧ AllFinite U ∧ IsUnitLower (e.read L) ∧ IsRegularUpper (e.read U) ∧
      e.read L * e.read U = e.read A := by
  have := simRing (F := F) hd
  have := simOrd (e := e) (F := F)
  have := simField (F := F) hd
  refine ⟨same_pair (sim_lu (T := Silent e F) (U := InEnv e F) (same_mat e A)) h, ?_⟩
  obtain ⟨h1, h2, h3⟩ := read_pair (sim_lu (T := Silent e F) (U := ℝ) (read_mat hA)) h
  exact ⟨h1, h2, C33_lu _ _ _ h3⟩

/-- C162: `lu` throws only if a leading minor is zero. -/
theorem C162_lu_throws (A : Mat (Fl F) n n) (hA : AllFinite A)
    (h : lu (T := Silent e F) A = .error (.throws (.overflow_error "Divide by zero exception"))) :
    lu (T := InEnv e F) A = .error (.throws (.overflow_error "Divide by zero exception")) ∧
      ∃ k, ∃ hk : k ≤ n, 1 ≤ k ∧ leadingMinor (e.read A) k hk = 0 := by
  have := simRing (F := F) hd
  have := simOrd (e := e) (F := F)
  have := simField (F := F) hd
  exact ⟨stop (sim_lu (T := Silent e F) (U := InEnv e F) (same_mat e A)) h (by simp),
    (C34_lu_throws_iff _).mp (stop (sim_lu (T := Silent e F) (U := ℝ) (read_mat hA)) h (by simp))⟩

/-- C162: Cholesky factors. -/
theorem C162_chol (A L : Mat (Fl F) n n) (hA : AllFinite A) (h : chol (T := Silent e F) A = .ok L) :
    chol (T := InEnv e F) A = .ok L ∧ AllFinite L ∧ IsLower (e.read L) ∧ (∀ i, 0 ≤ e.val (L i i)) ∧
      ∀ i j, j ≤ i → (e.read L * (e.read L).transpose) i j = e.val (A i j) := by
  have := simRing (F := F) hd
  have := simOrd (e := e) (F := F)
  have := simField (F := F) hd
  refine ⟨same_res (sim_chol (same_mat e A)) h, ?_⟩
  obtain ⟨h1, h2⟩ := read_res (sim_chol (read_mat hA)) h
  exact ⟨h1, C37_chol _ _ h2⟩

/-- C162: powers. -/
theorem C162_pow (handled : Option Exc) (w : Nat) (A R : Mat (Fl F) n n) (hA : AllFinite A) (q : Nat)
    (h : pow (T := Silent e F) handled w A q = .ok R) :
    pow (T := InEnv e F) handled w A q = .ok R ∧ AllFinite R ∧ e.read R = e.read A ^ q := by
  have := simRing (F := F) hd
  have := simOrd (e := e) (F := F)
  have := simField (F := F) hd
  refine ⟨same_res (sim_pow (T := Silent e F) (U := InEnv e F) handled w (same_mat e A) q) h, ?_⟩
  obtain ⟨h1, h2⟩ := read_res (sim_pow (T := Silent e F) (U := ℝ) handled w (read_mat hA) q) h
  rw [C43_pow] at h2
  exact ⟨h1, (Except.ok.inj h2).symm⟩

/-- C162: powers with a negative exponent. -/
theorem C162_pow_negative (handled : Option Exc) (w : Nat) (hn : 1 ≤ n) (A R : Mat (Fl F) n n) (hA : AllFinite A) (q : Nat)
    (hq : 1 ≤ q) (hw : q < 2 ^ (w - 1)) (h : pow (T := Silent e F) handled w A (-(q : Int)) = .ok R) :
    pow (T := InEnv e F) handled w A (-(q : Int)) = .ok R ∧ AllFinite R ∧ (e.read A).det ≠ 0 ∧
      e.read R = (e.read A)⁻¹ ^ q := by
  have := simRing (F := F) hd
  have := simOrd (e := e) (F := F)
  have := simField (F := F) hd
  refine ⟨same_res (sim_pow (T := Silent e F) (U := InEnv e F) handled w (same_mat e A) _) h, ?_⟩
  obtain ⟨h1, h2⟩ := read_res (sim_pow (T := Silent e F) (U := ℝ) handled w (read_mat hA) _) h
  have h0 : (e.read A).det ≠ 0 := by
    intro h0
    have h3 := C31_inv_singular_partial handled hn (e.read A) h0
    have h4 : ∃ s, inv handled (e.read A) = .error s := by
      rw [h3]
      split
      · exact ⟨_, rfl⟩
      · split
        · exact ⟨_, rfl⟩
        · split <;> exact ⟨_, rfl⟩
    obtain ⟨s, hs⟩ := h4
    rw [C45_pow_inv_fails handled w (e.read A) _ (by omega) s hs] at h2
    cases h2
  rw [C43_pow_negative handled w hn _ h0 q hq hw] at h2
  exact ⟨h1, h0, (Except.ok.inj h2).symm⟩

/-- C162: `compare` decides the real inequalities. -/
theorem C162_compare (A B : Mat (Fl F) r c) (eps : Fl F) (hA : AllFinite A) (hB : AllFinite B) (he : eps.Finite) (b : Bool)
    (h : compare (T := Silent e F) A B eps = .ok b) :
    compare (T := InEnv e F) A B eps = .ok b ∧ (b = true ↔ ∀ i j, |e.val (A i j) - e.val (B i j)| ≤ e.val eps) := by
  have := simRing (F := F) hd
  have := simOrd (e := e) (F := F)
  constructor
  · obtain ⟨b', h1, rfl⟩ := (sim_compare (T := Silent e F) (U := InEnv e F) (e := eps) (e' := eps)
      (same_mat e A) (same_mat e B) rfl).ok_elim h
    exact h1
  · obtain ⟨b', h1, rfl⟩ := (sim_compare (T := Silent e F) (U := ℝ) (e := eps) (e' := e.val eps)
      (read_mat hA) (read_mat hB) ⟨he, rfl⟩).ok_elim h
    obtain ⟨b', h2, h3⟩ := C41_compare (e.read A) (e.read B) (e.val eps)
    rw [h1] at h2
    cases h2
    exact h3

/-- C162: the convolutions. -/
theorem C162_conv2 (A : Mat (Fl F) r c) (k : Mat (Fl F) 3 3) (S : Mat (Fl F) r c) (hA : AllFinite A) (hk : AllFinite k)
    (hr : r ≤ 2 ^ 31) (hc : c ≤ 2 ^ 31) (h : conv2 (T := Silent e F) A k = .ok S) :
    conv2 (T := InEnv e F) A k = .ok S ∧ AllFinite S ∧ ∀ (a : Fin r) (b : Fin c),
      e.val (S a b) = ∑ u : Fin 3, ∑ v : Fin 3,
        e.val (k u v) * padded (e.read A) ((a.val : ℤ) + u.val - 1) ((b.val : ℤ) + v.val - 1) := by
  have := simRing (F := F) hd
  refine ⟨same_res (sim_conv2 (same_mat e A) (same_mat e k)) h, ?_⟩
  obtain ⟨h1, h2⟩ := read_res (sim_conv2 (read_mat hA) (read_mat hk)) h
  obtain ⟨S', h3, h4⟩ := C46_conv2 (e.read A) (e.read k) hr hc
  rw [h3] at h2
  cases h2
  exact ⟨h1, h4⟩

/-- C162: the full convolution. -/
theorem C162_conv2_full (A : Mat (Fl F) r c) (k : Mat (Fl F) 3 3) (S : Mat (Fl F) (r + 2) (c + 2)) (hA : AllFinite A)
    (hk : AllFinite k) (hr : r ≤ 2 ^ 31) (hc : c ≤ 2 ^ 31) (h : conv2_full (T := Silent e F) A k = .ok S) :
    conv2_full (T := InEnv e F) A k = .ok S ∧ AllFinite S ∧ ∀ (a : Fin (r + 2)) (b : Fin (c + 2)),
      e.val (S a b) = ∑ u : Fin 3, ∑ v : Fin 3,
        e.val (k u v) * padded (e.read A) ((a.val : ℤ) + u.val - 2) ((b.val : ℤ) + v.val - 2) := by
  have := simRing (F := F) hd
  refine ⟨same_res (sim_conv2_full (same_mat e A) (same_mat e k)) h, ?_⟩
  obtain ⟨h1, h2⟩ := read_res (sim_conv2_full (read_mat hA) (read_mat hk)) h
  obtain ⟨S', h3, h4⟩ := C48_conv2_full (e.read A) (e.read k) hr hc
  rw [h3] at h2
  cases h2
  exact ⟨h1, h4⟩

/-- C162: the valid part of the convolution. -/
theorem C162_conv2_valid (A : Mat (Fl F) (m + 2) (m + 2)) (k : Mat (Fl F) 3 3) (V : Mat (Fl F) m m) (hA : AllFinite A)
    (hk : AllFinite k) (hm : m + 2 ≤ 2 ^ 31) (h : conv2_valid (T := Silent e F) A k = .ok V) :
    conv2_valid (T := InEnv e F) A k = .ok V ∧ AllFinite V ∧ ∀ a b : Fin m,
      e.val (V a b) = ∑ u : Fin 3, ∑ v : Fin 3,
        e.val (k u v) * e.val (A ⟨a.val + u.val, by omega⟩ ⟨b.val + v.val, by omega⟩) := by
  have := simRing (F := F) hd
  refine ⟨same_res (sim_conv2_valid (same_mat e A) (same_mat e k)) h, ?_⟩
  obtain ⟨h1, h2⟩ := read_res (sim_conv2_valid (read_mat hA) (read_mat hk)) h
  obtain ⟨V', h3, h4⟩ := C49_conv2_valid_window (e.read A) (e.read k) hm
  rw [h3] at h2
  cases h2
  exact ⟨h1, h4⟩

/-- C162: the mean. -/
theorem C162_mean (A : Mat (Fl F) r c) (M : Fl F) (hA : AllFinite A) (h0 : r * c ≠ 0)
    (h : mean (T := Silent e F) A = .ok M) :
    mean (T := InEnv e F) A = .ok M ∧ M.Finite ∧ e.val M = (∑ i, ∑ j, e.val (A i j)) / (r * c) := by
  refine ⟨same_num (same_mean (same_mat e A)) h, ?_⟩
  obtain ⟨h1, h2⟩ := read_num (Silent.sim_mean hd (read_mat hA)) h
  rw [C55_mean _ h0] at h2
  exact ⟨h1, (Except.ok.inj h2).symm⟩

/-- C162: the variance and the standard deviation. -/
theorem C162_var (A : Mat (Fl F) r c) (V : Fl F) (hA : AllFinite A) (h0 : r * c ≠ 0) :
    (var (T := Silent e F) A = .ok V → var (T := InEnv e F) A = .ok V ∧ V.Finite ∧ e.val V =
      (∑ i, ∑ j, (e.val (A i j) - (∑ i, ∑ j, e.val (A i j)) / (r * c)) ^ 2) / (r * c)) ∧
    (stddev (T := Silent e F) A = .ok V → stddev (T := InEnv e F) A = .ok V ∧ V.Finite ∧ 0 ≤ e.val V ∧ e.val V ^ 2 =
      (∑ i, ∑ j, (e.val (A i j) - (∑ i, ∑ j, e.val (A i j)) / (r * c)) ^ 2) / (r * c)) := by
  obtain ⟨μ, hμ, hv⟩ := C58_var (e.read A) h0
  rw [C55_mean _ h0] at hμ
  cases hμ
  refine ⟨fun h => ⟨same_num (same_var (same_mat e A)) h, ?_⟩, fun h => ⟨same_num (same_stddev (same_mat e A)) h, ?_⟩⟩
  · obtain ⟨h1, h2⟩ := read_num (Silent.sim_var hd (read_mat hA)) h
    rw [hv] at h2
    exact ⟨h1, (Except.ok.inj h2).symm⟩
  · obtain ⟨h1, h2⟩ := read_num (Silent.sim_stddev hd (read_mat hA)) h
    unfold stddev at h2
    rw [hv] at h2
    have hn : 0 ≤ (∑ i, ∑ j, (e.val (A i j) - (∑ i, ∑ j, e.val (A i j)) / (r * c)) ^ 2) / ((r : ℝ) * c) := by positivity
    have h3 : (if 0 ≤ (∑ i, ∑ j, (e.val (A i j) - (∑ i, ∑ j, e.val (A i j)) / (r * c)) ^ 2) / ((r : ℝ) * c)
      then .ok (Real.sqrt ((∑ i, ∑ j, (e.val (A i j) - (∑ i, ∑ j, e.val (A i j)) / (r * c)) ^ 2) / ((r : ℝ) * c)))
      else .error (.ub .domain) : Res ℝ) = .ok (e.val V) := h2
    rw [if_pos hn] at h3
    have h4 := (Except.ok.inj h3).symm
    rw [h4]
    exact ⟨h1, Real.sqrt_nonneg _, Real.sq_sqrt hn⟩

end

/-- Rounding upwards, FTZ and DAZ. -/
private def c162Env : FpEnv := ⟨.up, true, some .after⟩

/-- Halves. -/
private def c162Half (k : Int) : Fl binary32 := Fl.div (Fl.ofInt k) (Fl.ofInt 2)

private def c162A : Mat (Fl binary32) 4 4 :=
  .of ![![c162Half 1, c162Half 2, c162Half 4, c162Half 3], ![c162Half 2, c162Half 3, c162Half 1, c162Half 5],
    ![c162Half (-1), c162Half 4, c162Half 2, c162Half 0], ![c162Half 3, c162Half 1, c162Half 1, c162Half 7]]

private def c162B : Mat (Fl binary32) 2 2 := .of ![![c162Half 8, c162Half 4], ![c162Half 4, c162Half 10]]

private def c162C : Mat (Fl binary32) 2 2 := .of ![![c162Half 1, c162Half 3], ![c162Half 3, c162Half 1]]

private def c162Max : Mat (Fl binary32) 1 1 := .of ![![Fl.ofInt (2 ^ 127)]]

/-- The hypotheses are met: `9/4` is the determinant of a `4 × 4` matrix of halves, computed by elimination, and an inverse,
factors, powers, a comparison, a convolution and a standard deviation raise no exception. -/
example : c162Env.ReadsResults ∧ AllFinite c162A ∧ AllFinite c162B ∧ AllFinite c162C ∧
    det (T := Silent c162Env binary32) c162A = .ok (show Silent c162Env binary32 from
      (Fl.div (Fl.ofInt 9) (Fl.ofInt 4) : Fl binary32)) ∧
    (inv (T := Silent c162Env binary32) none c162B).isOk = true ∧
    (lu (T := Silent c162Env binary32) c162B).isOk = true ∧
    (chol (T := Silent c162Env binary32) c162B).isOk = true ∧
    (pow (T := Silent c162Env binary32) none 32 c162B 5).isOk = true ∧
    (pow (T := Silent c162Env binary32) none 32 c162B (-3)).isOk = true ∧
    (compare (T := Silent c162Env binary32) c162B c162C (c162Half 7)).isOk = true ∧
    (conv2 (T := Silent c162Env binary32) c162B (Mat.const (c162Half 3))).isOk = true ∧
    (stddev (T := Silent c162Env binary32) c162C).isOk = true := by
  refine ⟨by decide, ?_, ?_, ?_, ?_, ?_, ?_, ?_, ?_, ?_, ?_, ?_, ?_⟩ <;> decide +kernel

/-- What raises an exception is not silent: factors with thirds, a sum that overflows, the root of a variance. -/
example : lu (T := Silent c162Env binary32) c162A = .error (.ub .domain) ∧
    sum (T := Silent c162Env binary32) c162Max c162Max = .error (.ub .domain) ∧
    stddev (T := Silent c162Env binary32) c162B = .error (.ub .domain) := by
  refine ⟨?_, ?_, ?_⟩ <;> decide +kernel

/-- A singular matrix whose inverse throws without an exception flag. -/
example : inv (T := Silent c162Env binary32) none (Mat.const (c162Half 3) : Mat (Fl binary32) 2 2) =
    .error (.throws (.overflow_error "Divide by zero exception")) ∧
    lu (T := Silent c162Env binary32) (Mat.const (c162Half 3) : Mat (Fl binary32) 2 2) =
    .error (.throws (.overflow_error "Divide by zero exception")) := by
  constructor <;> decide +kernel

end MatrixLibs
