import Verif.Proof.Carry
import Verif.Props.Silent
import Verif.Props.FloatTwice

/-!
# Calls without exceptions do not depend on the floating point environment or the format (C163)

`f (T := Silent e F) A = .ok R` says that the call in the environment `e` returns `R` and raises no exception (C162).
-/

namespace MatrixLibs

set_option linter.unusedSectionVars false

open Carry

section
variable {F G : Fmt} {e e' : FpEnv} {n m p r c : Nat} (W : F.Within G) (C : e.Carries e')

include W C

/-- C163: sums, differences, products and multiples. -/
theorem C163_ring {A B : Mat (Fl F) r c} {A' B' : Mat (Fl G) r c} {D : Mat (Fl F) c m} {D' : Mat (Fl G) c m} {s : Fl F}
    {s' : Fl G} (hA : SameNumbers e e' A A') (hB : SameNumbers e e' B B') (hD : SameNumbers e e' D D') (hs : s.Finite)
    (hs' : s'.Finite) (h : e.val s = e'.val s') :
    CarriesOver (e := e) (e' := e') (sum (T := Silent e F) A B) (sum (T := Silent e' G) A' B') ∧
    CarriesOver (e := e) (e' := e') (sub (T := Silent e F) A B) (sub (T := Silent e' G) A' B') ∧
    CarriesOver (e := e) (e' := e') (mult (T := Silent e F) A D) (mult (T := Silent e' G) A' D') ∧
    CarriesOver (e := e) (e' := e') (multScalar (T := Silent e F) A s) (multScalar (T := Silent e' G) A' s') := by
  have := simRing W C
  exact ⟨over (sim_sum (mat_rel hA) (mat_rel hB)), over (MatrixLibs.sim_sub (mat_rel hA) (mat_rel hB)),
    over (sim_mult (mat_rel hA) (mat_rel hD)),
    over (sim_multScalar (T := Silent e F) (U := Silent e' G) (s := s) (s' := s') (mat_rel hA) ⟨hs, hs', h⟩)⟩

/-- C163: division by a number. -/
theorem C163_div (handled : Option Exc) {A : Mat (Fl F) r c} {A' : Mat (Fl G) r c} {s : Fl F} {s' : Fl G}
    (hA : SameNumbers e e' A A') (hs : s.Finite) (hs' : s'.Finite) (h : e.val s = e'.val s') :
    CarriesOver (e := e) (e' := e') (div (T := Silent e F) handled A s) (div (T := Silent e' G) handled A' s') := by
  have := simRing W C
  have := simOrd (F := F) (G := G) (e := e) (e' := e')
  have := simField W C
  exact over (sim_div (T := Silent e F) (U := Silent e' G) handled (s := s) (s' := s') (mat_rel hA) ⟨hs, hs', h⟩)

/-- C163: Strassen products. -/
theorem C163_strassen {A B : Mat (Fl F) 2 2} {A' B' : Mat (Fl G) 2 2} (hA : SameNumbers e e' A A')
    (hB : SameNumbers e e' B B') :
    CarriesOver (e := e) (e' := e') (strassen (T := Silent e F) A B) (strassen (T := Silent e' G) A' B') := by
  have := simRing W C
  exact over (sim_strassen (mat_rel hA) (mat_rel hB))

/-- C163: determinants. -/
theorem C163_det {A : Mat (Fl F) n n} {A' : Mat (Fl G) n n} (hA : SameNumbers e e' A A') :
    CarriesNumber (e := e) (e' := e') (det (T := Silent e F) A) (det (T := Silent e' G) A') := by
  have := simRing W C
  have := simOrd (F := F) (G := G) (e := e) (e' := e')
  have := simField W C
  exact number (sim_det (mat_rel hA))

/-- C163: inverses. -/
theorem C163_inv (handled : Option Exc) {A : Mat (Fl F) n n} {A' : Mat (Fl G) n n} (hA : SameNumbers e e' A A') :
    CarriesOver (e := e) (e' := e') (inv (T := Silent e F) handled A) (inv (T := Silent e' G) handled A') := by
  have := simRing W C
  have := simOrd (F := F) (G := G) (e := e) (e' := e')
  have := simField W C
  exact over (sim_inv handled (mat_rel hA))

/-- C163: powers with any exponent. -/
theorem C163_pow (handled : Option Exc) (w : Nat) (q : Int) {A : Mat (Fl F) n n} {A' : Mat (Fl G) n n}
    (hA : SameNumbers e e' A A') :
    CarriesOver (e := e) (e' := e') (pow (T := Silent e F) handled w A q) (pow (T := Silent e' G) handled w A' q) := by
  have := simRing W C
  have := simOrd (F := F) (G := G) (e := e) (e' := e')
  have := simField W C
  exact over (sim_pow (T := Silent e F) (U := Silent e' G) handled w (mat_rel hA) q)

/-- C163: LU factors. -/
theorem C163_lu {A : Mat (Fl F) n n} {A' : Mat (Fl G) n n} (hA : SameNumbers e e' A A') :
    (∀ L U : Mat (Fl F) n n, lu (T := Silent e F) A = .ok (L, U) → ∃ L' U' : Mat (Fl G) n n,
      lu (T := Silent e' G) A' = .ok (L', U') ∧ SameNumbers e e' L L' ∧ SameNumbers e e' U U') ∧
    ∀ s, (∀ k, s ≠ .ub k) → lu (T := Silent e F) A = .error s → lu (T := Silent e' G) A' = .error s := by
  have := simRing W C
  have := simOrd (F := F) (G := G) (e := e) (e' := e')
  have := simField W C
  have h := sim_lu (T := Silent e F) (U := Silent e' G) (mat_rel hA)
  refine ⟨fun L U hx => ?_, fun s hs hx => Silent.stop h hx hs⟩
  obtain ⟨⟨L', U'⟩, hy, hl, hu⟩ := h.ok_elim hx
  exact ⟨L', U', hy, rel_mat hl, rel_mat hu⟩

/-- C163: Cholesky factors. -/
theorem C163_chol {A : Mat (Fl F) n n} {A' : Mat (Fl G) n n} (hA : SameNumbers e e' A A') :
    CarriesOver (e := e) (e' := e') (chol (T := Silent e F) A) (chol (T := Silent e' G) A') := by
  have := simRing W C
  have := simOrd (F := F) (G := G) (e := e) (e' := e')
  have := simField W C
  exact over (sim_chol (mat_rel hA))

/-- C163: `compare` gives the same answer. -/
theorem C163_compare {A B : Mat (Fl F) r c} {A' B' : Mat (Fl G) r c} {eps : Fl F} {eps' : Fl G}
    (hA : SameNumbers e e' A A') (hB : SameNumbers e e' B B') (hs : eps.Finite) (hs' : eps'.Finite)
    (h : e.val eps = e'.val eps') (b : Bool) (hb : compare (T := Silent e F) A B eps = .ok b) :
    compare (T := Silent e' G) A' B' eps' = .ok b := by
  have := simRing W C
  have := simOrd (F := F) (G := G) (e := e) (e' := e')
  obtain ⟨b', h1, rfl⟩ := (sim_compare (T := Silent e F) (U := Silent e' G) (e := eps) (e' := eps')
    (mat_rel hA) (mat_rel hB) ⟨hs, hs', h⟩).ok_elim hb
  exact h1

/-- C163: convolutions. -/
theorem C163_conv2 {A : Mat (Fl F) r c} {A' : Mat (Fl G) r c} {B : Mat (Fl F) n n} {B' : Mat (Fl G) n n} {k : Mat (Fl F) 3 3}
    {k' : Mat (Fl G) 3 3} (hA : SameNumbers e e' A A') (hB : SameNumbers e e' B B') (hk : SameNumbers e e' k k') :
    CarriesOver (e := e) (e' := e') (conv2 (T := Silent e F) A k) (conv2 (T := Silent e' G) A' k') ∧
    CarriesOver (e := e) (e' := e') (conv2_full (T := Silent e F) A k) (conv2_full (T := Silent e' G) A' k') ∧
    CarriesOver (e := e) (e' := e') (conv2_valid (T := Silent e F) B k) (conv2_valid (T := Silent e' G) B' k') := by
  have := simRing W C
  exact ⟨over (sim_conv2 (mat_rel hA) (mat_rel hk)), over (sim_conv2_full (mat_rel hA) (mat_rel hk)),
    over (sim_conv2_valid (mat_rel hB) (mat_rel hk))⟩

/-- C163: means, variances and standard deviations. -/
theorem C163_stats {A : Mat (Fl F) r c} {A' : Mat (Fl G) r c} (hA : SameNumbers e e' A A') :
    CarriesNumber (e := e) (e' := e') (mean (T := Silent e F) A) (mean (T := Silent e' G) A') ∧
    CarriesNumber (e := e) (e' := e') (var (T := Silent e F) A) (var (T := Silent e' G) A') ∧
    CarriesNumber (e := e) (e' := e') (stddev (T := Silent e F) A) (stddev (T := Silent e' G) A') :=
  ⟨number (Carry.sim_mean W C (mat_rel hA)), number (Carry.sim_var W C (mat_rel hA)),
    number (Carry.sim_stddev W C (mat_rel hA))⟩

end

/-! ## The cases -/

/-- C163: from any environment without flushing to any other. -/
theorem C163_modes (F : Fmt) {e e' : FpEnv} (h : e.daz = false) (h' : e'.daz = false) (hf : e'.ftz = none) :
    F.Within F ∧ e.Carries e' ∧ ∀ {r c : Nat} (A : Mat (Fl F) r c), AllFinite A → SameNumbers e e' A A := by
  refine ⟨⟨le_rfl, le_rfl⟩, ⟨fun h1 => ?_, fun h1 => ?_, .inl hf⟩, fun A hA => ⟨hA, hA, ?_⟩⟩
  · rw [h] at h1; cases h1
  · rw [h'] at h1; cases h1
  · ext i j
    show (e.seen (A i j)).val = (e'.seen (A i j)).val
    unfold FpEnv.seen
    rw [h, h']

/-- C163: from an environment that flushes to any other, if no element is subnormal. -/
theorem C163_flushing (F : Fmt) {e e' : FpEnv} (h : e.ftz.isSome = true) (h' : e'.ReadsResults) :
    F.Within F ∧ e.Carries e' ∧ ∀ {r c : Nat} (A : Mat (Fl F) r c), AllFinite A → (∀ i j, ¬ (A i j).Subnormal) →
      SameNumbers e e' A A := by
  refine ⟨⟨le_rfl, le_rfl⟩, ⟨fun _ => h, h', .inr h⟩, fun A hA hs => ⟨hA, hA, ?_⟩⟩
  ext i j
  show (e.seen (A i j)).val = (e'.seen (A i j)).val
  rw [FpEnv.seen_not_subnormal (hs i j), FpEnv.seen_not_subnormal (hs i j)]

/-- C163: from `float` to `double`, the elements being converted. -/
theorem C163_double {e e' : FpEnv} (h : e.daz = false) (h' : e'.daz = false) (hf : e'.ftz = none) :
    binary32.Within binary64 ∧ e.Carries e' ∧ ∀ {r c : Nat} (A : Mat (Fl binary32) r c), AllFinite A →
      SameNumbers e e' A (A.map (Fl.conv binary64)) := by
  refine ⟨⟨by decide, by decide⟩, (C163_modes binary32 h h' hf).2.1, fun A hA => ⟨hA, fun i j => ?_, ?_⟩⟩
  · exact ((C142_conv (G := binary64) (A i j)).2 wide_float_double).1.mpr (hA i j)
  · ext i j
    have := ((C142_conv (G := binary64) (A i j)).2 wide_float_double).2
    show (e.seen (A i j)).val = (e'.seen ((A i j).conv binary64)).val
    unfold FpEnv.seen
    rw [h, h']
    exact this.symm

/-- C163: whether `det` raises an exception does not depend on the rounding mode, and neither does the number if it does not. -/
theorem C163_det_modes {F : Fmt} {n : Nat} (m m' : RMode) (A : Mat (Fl F) n n) (hA : AllFinite A) (x : ℝ) :
    (∃ d : Fl F, det (T := Silent ⟨m, false, none⟩ F) A = .ok d ∧ d.val = x) ↔
      ∃ d : Fl F, det (T := Silent ⟨m', false, none⟩ F) A = .ok d ∧ d.val = x := by
  have key : ∀ m m' : RMode, (∃ d : Fl F, det (T := Silent ⟨m, false, none⟩ F) A = .ok d ∧ d.val = x) →
      ∃ d : Fl F, det (T := Silent ⟨m', false, none⟩ F) A = .ok d ∧ d.val = x := by
    rintro m m' ⟨d, hd, hx⟩
    obtain ⟨W, C, hS⟩ := C163_modes F (e := ⟨m, false, none⟩) (e' := ⟨m', false, none⟩) rfl rfl rfl
    obtain ⟨d', h1, -, -, h2⟩ := (C163_det W C (hS A hA)).returns d hd
    exact ⟨d', h1, (h2.symm.trans hx : _)⟩
  exact ⟨key m m', key m' m⟩

/-- C163: the same for `inv`. -/
theorem C163_inv_modes {F : Fmt} {n : Nat} (handled : Option Exc) (m m' : RMode) (A : Mat (Fl F) n n) (hA : AllFinite A)
    (X : Matrix (Fin n) (Fin n) ℝ) :
    (∃ B : Mat (Fl F) n n, inv (T := Silent ⟨m, false, none⟩ F) handled A = .ok B ∧ ∀ i j, (B i j).val = X i j) ↔
      ∃ B : Mat (Fl F) n n, inv (T := Silent ⟨m', false, none⟩ F) handled A = .ok B ∧ ∀ i j, (B i j).val = X i j := by
  have key : ∀ m m' : RMode,
      (∃ B : Mat (Fl F) n n, inv (T := Silent ⟨m, false, none⟩ F) handled A = .ok B ∧ ∀ i j, (B i j).val = X i j) →
      ∃ B : Mat (Fl F) n n, inv (T := Silent ⟨m', false, none⟩ F) handled A = .ok B ∧ ∀ i j, (B i j).val = X i j := by
    rintro m m' ⟨d, hd, hx⟩
    obtain ⟨W, C, hS⟩ := C163_modes F (e := ⟨m, false, none⟩) (e' := ⟨m', false, none⟩) rfl rfl rfl
    obtain ⟨d', h1, h2⟩ := (C163_inv W C handled (hS A hA)).returns d hd
    exact ⟨d', h1, fun i j => ((congrFun (congrFun h2.same i) j).symm.trans (hx i j) : _)⟩
  exact ⟨key m m', key m' m⟩

/-- Rounding upwards. -/
private def c163Up : FpEnv := ⟨.up, false, none⟩

/-- The hypotheses are met: the Cholesky factor of a matrix, computed in `float` while rounding upwards, is also found in
`double` in the default environment. -/
example : ∃ L : Mat (Fl binary32) 2 2, chol (T := Silent c163Up binary32) (.of ![![Fl.ofInt 4, Fl.ofInt 2],
      ![Fl.ofInt 2, Fl.div (Fl.ofInt 10) (Fl.ofInt 8)]]) = .ok L ∧
    ∃ L' : Mat (Fl binary64) 2 2, chol (T := Silent FpEnv.default binary64) ((.of ![![Fl.ofInt 4, Fl.ofInt 2],
      ![Fl.ofInt 2, Fl.div (Fl.ofInt 10) (Fl.ofInt 8)]] : Mat (Fl binary32) 2 2).map (Fl.conv binary64)) = .ok L' ∧
    SameNumbers c163Up FpEnv.default L L' := by
  have h0 : (chol (T := Silent c163Up binary32) (.of ![![Fl.ofInt 4, Fl.ofInt 2],
      ![Fl.ofInt 2, Fl.div (Fl.ofInt 10) (Fl.ofInt 8)]])).isOk = true := by decide +kernel
  have hF : AllFinite (.of ![![Fl.ofInt 4, Fl.ofInt 2],
      ![Fl.ofInt 2, Fl.div (Fl.ofInt 10) (Fl.ofInt 8)]] : Mat (Fl binary32) 2 2) := by decide +kernel
  cases h : chol (T := Silent c163Up binary32) (.of ![![Fl.ofInt 4, Fl.ofInt 2],
      ![Fl.ofInt 2, Fl.div (Fl.ofInt 10) (Fl.ofInt 8)]]) with
  | error s => rw [h] at h0; cases h0
  | ok L =>
    obtain ⟨W, C, hS⟩ := C163_double (e := c163Up) (e' := FpEnv.default) rfl rfl rfl
    exact ⟨L, rfl, (C163_chol W C (hS _ hF)).returns L h⟩

end MatrixLibs
