import Verif.Spec.Width
import Verif.Props.Mode
import Verif.Props.Range

/-!
# Property C166: enclosures of bounded elements are narrow
-/

namespace MatrixLibs

set_option linter.unusedSectionVars false
set_option exponentiation.threshold 300

open Fl Range FpEnv

variable {F : Fmt} {n m p r c : Nat} {x y : ℝ} {t : ℤ}

/-- A mode, nothing flushed. -/
abbrev FpEnv.ofMode (d : RMode) : FpEnv := ⟨d, false, none⟩

theorem ofMode_u {d : RMode} (h : d = .down ∨ d = .up) : (FpEnv.ofMode d).u F = F.step := by
  rcases h with rfl | rfl <;> rfl

theorem ofMode_eta {d : RMode} (h : d = .down ∨ d = .up) : (FpEnv.ofMode d).eta F = F.smallest := by
  rcases h with rfl | rfl <;> rfl

theorem ofMode_val (d : RMode) : ((FpEnv.ofMode d).val : Fl F → ℝ) = Fl.val := rfl

/-- From an enclosure and error bounds. -/
theorem narrow_of {call : RMode → Res (Mat (Fl F) r c)} {X W : Mat ℝ r c} (h : Enclosed call X)
    (hf : ∀ d, ∃ P, call d = .ok P ∧ MatFinite P)
    (hw : ∀ d, d = .down ∨ d = .up → ∃ P, call d = .ok P ∧ ∀ i j, |(P i j).val - X i j| ≤ W i j) :
    EnclosedWithin call X (.of fun i j => 2 * W i j) := by
  obtain ⟨lo, hi, e1, e2, b1, b2, b3⟩ := h
  obtain ⟨P1, f1, g1⟩ := hf .down
  obtain ⟨P2, f2, g2⟩ := hf .up
  obtain ⟨P3, f3, g3⟩ := hw .down (.inl rfl)
  obtain ⟨P4, f4, g4⟩ := hw .up (.inr rfl)
  rw [e1] at f1 f3
  rw [e2] at f2 f4
  cases f1; cases f2; cases f3; cases f4
  refine ⟨lo, hi, e1, e2, fun i j => ?_, fun d => ?_⟩
  · have hl : (lo i j).val ≤ X i j := by
      rcases b1 i j with h | ⟨-, h⟩
      · have := g1 i j; rw [h] at this; exact this.elim
      · exact h
    have hu : X i j ≤ (hi i j).val := by
      rcases b2 i j with h | ⟨-, h⟩
      · have := g2 i j; rw [h] at this; exact this.elim
      · exact h
    have h1 := abs_le.mp (g3 i j)
    have h2 := abs_le.mp (g4 i j)
    refine ⟨g1 i j, g2 i j, hl, hu, ?_⟩
    show _ ≤ 2 * W i j
    linarith
  · obtain ⟨P, e3, h3⟩ := b3 d
    obtain ⟨P', f, g⟩ := hf d
    rw [e3] at f
    cases f
    refine ⟨P, e3, fun i j => ?_⟩
    rcases h3 i j with h | ⟨h4, h5⟩
    · have := g i j; rw [h] at this; exact this.elim
    · exact ⟨g i j, (le_iff (g1 i j) (g i j)).mp h4, (le_iff (g i j) (g2 i j)).mp h5⟩

theorem mult_mode (d : RMode) (A : Mat (Fl F) n m) (B : Mat (Fl F) m p) :
    mult (T := Moded d F) A B = mult (T := InEnv (.ofMode d) F) A B := by
  have h := no_flush d F
  show @mult (Fl F) _ (modeScalar d F) n m p A B = @mult (Fl F) _ (envScalar (.ofMode d) F) n m p A B
  rw [← h]

/-- C166: matrix products. -/
theorem C166_mult (A : Mat (Fl F) n m) (B : Mat (Fl F) m p) (hA : ElementsAtMost x A) (hB : ElementsAtMost y B)
    (hxy : x * y ≤ 2 ^ t) (hr : F.Room m t) :
    EnclosedWithin (fun d => mult (T := Moded d F) A B) (A.map Fl.val * B.map Fl.val)
      (.of fun i j => 2 * (((1 + F.step) ^ m - 1) * (∑ k, |(A i k).val| * |(B k j).val|) +
        m * (1 + F.step) ^ (m - 1) * F.smallest)) := by
  refine narrow_of (W := .of fun i j => _) (C149_mult A B (fun i j => (hA i j).1) fun i j => (hB i j).1) (fun d => ?_) fun d hd => ?_
  · obtain ⟨P, -, h, k⟩ := C164_mult (.ofMode d) A B hA hB hxy hr
    exact ⟨P, (mult_mode d A B).trans h, fun i j => (k i j).1⟩
  · obtain ⟨P, h, k⟩ := C164_mult_accurate (.ofMode d) A B hA hB hxy hr
    refine ⟨P, (mult_mode d A B).trans h, fun i j => ?_⟩
    have := k i j
    rw [ofMode_u hd, ofMode_eta hd] at this
    exact this

/-- From an enclosure and error bounds in the vocabulary of environments. -/
theorem narrow_by {call : RMode → Res (Mat (Fl F) r c)} {X : Mat ℝ r c} (W : ℝ → ℝ → Mat ℝ r c) (h : Enclosed call X)
    (hw : ∀ d, ∃ P, call d = .ok P ∧ MatFinite P ∧ ∀ i j, |(P i j).val - X i j| ≤ W ((ofMode d).u F) ((ofMode d).eta F) i j) :
    EnclosedWithin call X (.of fun i j => 2 * W F.step F.smallest i j) := by
  refine narrow_of h (fun d => ?_) fun d hd => ?_
  · obtain ⟨P, h1, h2, _⟩ := hw d
    exact ⟨P, h1, h2⟩
  · obtain ⟨P, h1, _, h2⟩ := hw d
    rw [ofMode_u hd, ofMode_eta hd] at h2
    exact ⟨P, h1, h2⟩

/-- C166: sums and differences. -/
theorem C166_sum (A B : Mat (Fl F) r c) (k : Nat) (hA : ElementsAtMost x A) (hB : ElementsAtMost y B) (hxy : x + y ≤ k * 2 ^ t)
    (hr : F.Room k t) :
    EnclosedWithin (fun d => sum (T := Moded d F) A B) (.of fun i j => (A i j).val + (B i j).val)
      (.of fun i j => 2 * (F.step * |(A i j).val + (B i j).val| + F.smallest)) ∧
    EnclosedWithin (fun d => MatrixLibs.sub (T := Moded d F) A B) (.of fun i j => (A i j).val - (B i j).val)
      (.of fun i j => 2 * (F.step * |(A i j).val - (B i j).val| + F.smallest)) := by
  have fA : MatFinite A := fun i j => (hA i j).1
  have fB : MatFinite B := fun i j => (hB i j).1
  constructor
  · refine narrow_by (fun u v => .of fun i j => u * |(A i j).val + (B i j).val| + v) (C149_sum A B fA fB) fun d => ?_
    obtain ⟨S, h, k⟩ := sum_range (e := ofMode d) hA hB hxy hr.number
    obtain ⟨h1, h2⟩ := (C151_elementwise (ofMode d) A B S (Fl.ofInt 0)).1 h
    refine ⟨S, Eq.trans ?_ h1, fun i j => (k i j).1, h2⟩
    show @sum (Fl F) _ (modeScalar d F) r c A B = @sum (Fl F) _ (envScalar (.ofMode d) F) r c A B
    rw [← no_flush d F]
  · refine narrow_by (fun u v => .of fun i j => u * |(A i j).val - (B i j).val| + v) (C149_sub A B fA fB) fun d => ?_
    obtain ⟨S, h, k⟩ := sub_range (e := ofMode d) hA hB hxy hr.number
    obtain ⟨h1, h2⟩ := (C151_elementwise (ofMode d) A B S (Fl.ofInt 0)).2.1 h
    refine ⟨S, Eq.trans ?_ h1, fun i j => (k i j).1, h2⟩
    show @MatrixLibs.sub (Fl F) _ (modeScalar d F) r c A B = @MatrixLibs.sub (Fl F) _ (envScalar (.ofMode d) F) r c A B
    rw [← no_flush d F]

/-- C166: sums and differences with a number. -/
theorem C166_sumScalar (A : Mat (Fl F) r c) (s : Fl F) (k : Nat) (hA : ElementsAtMost x A) (hs : s.AtMost y) (hxy : x + y ≤ k * 2 ^ t)
    (hr : F.Room k t) :
    EnclosedWithin (fun d => sumScalar (T := Moded d F) A s) (.of fun i j => (A i j).val + s.val)
      (.of fun i j => 2 * (F.step * |(A i j).val + s.val| + F.smallest)) ∧
    EnclosedWithin (fun d => subScalar (T := Moded d F) A s) (.of fun i j => (A i j).val - s.val)
      (.of fun i j => 2 * (F.step * |(A i j).val - s.val| + F.smallest)) := by
  have fA : MatFinite A := fun i j => (hA i j).1
  constructor
  · refine narrow_by (fun u v => .of fun i j => u * |(A i j).val + s.val| + v) (C149_sumScalar A s fA hs.1) fun d => ?_
    obtain ⟨S, h, k⟩ := sumScalar_range (e := ofMode d) hA hs hxy hr.number
    have h1 := env_res (sim_sumScalar (T := Trapped (ofMode d) F) (U := InEnv (ofMode d) F) (s := s) (s' := s) (env_mat _ A) rfl) h
    refine ⟨S, Eq.trans ?_ h1, fun i j => (k i j).1, fun i j =>
      ((C151_near (ofMode d) _ _ _).1 (ew_ok (sumScalar_elementwise (T := Trapped (ofMode d) F) A s) h i j)).2⟩
    show @sumScalar (Fl F) _ (modeScalar d F) r c A s = @sumScalar (Fl F) _ (envScalar (.ofMode d) F) r c A s
    rw [← no_flush d F]
  · refine narrow_by (fun u v => .of fun i j => u * |(A i j).val - s.val| + v) (C149_subScalar A s fA hs.1) fun d => ?_
    obtain ⟨S, h, k⟩ := subScalar_range (e := ofMode d) hA hs hxy hr.number
    have h1 := env_res (sim_subScalar (T := Trapped (ofMode d) F) (U := InEnv (ofMode d) F) (s := s) (s' := s) (env_mat _ A) rfl) h
    refine ⟨S, Eq.trans ?_ h1, fun i j => (k i j).1, fun i j =>
      ((C151_near (ofMode d) _ _ _).2.1 (ew_ok (subScalar_elementwise (T := Trapped (ofMode d) F) A s) h i j)).2⟩
    show @subScalar (Fl F) _ (modeScalar d F) r c A s = @subScalar (Fl F) _ (envScalar (.ofMode d) F) r c A s
    rw [← no_flush d F]

/-- C166: products with a number. -/
theorem C166_multScalar (A : Mat (Fl F) r c) (s : Fl F) (k : Nat) (hA : ElementsAtMost x A) (hs : s.AtMost y)
    (hxy : x * y ≤ k * 2 ^ t) (hr : F.Room k t) :
    EnclosedWithin (fun d => multScalar (T := Moded d F) A s) (.of fun i j => (A i j).val * s.val)
      (.of fun i j => 2 * (F.step * |(A i j).val * s.val| + F.smallest)) := by
  refine narrow_by (fun u v => .of fun i j => u * |(A i j).val * s.val| + v) (C149_multScalar A s (fun i j => (hA i j).1) hs.1) fun d => ?_
  obtain ⟨S, h, k⟩ := multScalar_range (e := ofMode d) hA hs hxy hr.number
  obtain ⟨h1, h2⟩ := (C151_elementwise (ofMode d) A A S s).2.2 h
  refine ⟨S, Eq.trans ?_ h1, fun i j => (k i j).1, h2⟩
  show @multScalar (Fl F) _ (modeScalar d F) r c A s = @multScalar (Fl F) _ (envScalar (.ofMode d) F) r c A s
  rw [← no_flush d F]

/-- C166: quotients by a number of at least the size `y`. -/
theorem C166_div (handled : Option Exc) (A : Mat (Fl F) r c) (s : Fl F) (k : Nat) (hA : ElementsAtMost x A) (hs : s.Finite)
    (h0 : 0 < y) (hy : y ≤ |s.val|) (hxy : x ≤ k * 2 ^ t * y) (hr : F.Room k t) :
    EnclosedWithin (fun d => MatrixLibs.div (T := Moded d F) handled A s) (.of fun i j => (A i j).val / s.val)
      (.of fun i j => 2 * (F.step * |(A i j).val / s.val| + F.smallest)) := by
  have hne : s.val ≠ 0 := by
    intro h
    rw [h, abs_zero] at hy
    linarith
  refine narrow_by (fun u v => .of fun i j => u * |(A i j).val / s.val| + v) (C149_div handled A s (fun i j => (hA i j).1) hs hne) fun d => ?_
  obtain ⟨S, h, k⟩ := div_range (e := ofMode d) handled hA hs h0 hy hxy hr.number
  have h1 := env_res (sim_div (T := Trapped (ofMode d) F) (U := InEnv (ofMode d) F) handled (s := s) (s' := s) (env_mat _ A) rfl) h
  refine ⟨S, Eq.trans ?_ h1, fun i j => (k i j).1, fun i j => ((C151_near (ofMode d) _ _ _).2.2.2.1
    (ew_ok (div_elementwise (T := Trapped (ofMode d) F) handled A s (ne_zero (e := ofMode d) hs h0 hy)) h i j)).2.2⟩
  show @MatrixLibs.div (Fl F) _ (modeScalar d F) r c handled A s = @MatrixLibs.div (Fl F) _ (envScalar (.ofMode d) F) r c handled A s
  rw [← no_flush d F]

/-- C166: convolutions. -/
theorem C166_conv2 (A : Mat (Fl F) r c) (k : Mat (Fl F) 3 3) (hA : ElementsAtMost x A) (hk : ElementsAtMost y k)
    (hxy : x * y ≤ 2 ^ t) (hr : F.Room 9 t) (hi : r ≤ 2 ^ 31) (hj : c ≤ 2 ^ 31) :
    EnclosedWithin (fun d => conv2 (T := Moded d F) A k) (.of fun i j => correlateAt (A.map Fl.val) (k.map Fl.val) i.val j.val)
      (.of fun i j => 2 * (((1 + F.step) ^ 9 - 1) * correlateAt (A.map fun x => |x.val|) (k.map fun x => |x.val|) i.val j.val +
        9 * (1 + F.step) ^ 8 * F.smallest)) ∧
    EnclosedWithin (fun d => conv2_full (T := Moded d F) A k)
      (.of fun i j => correlateAt (A.map Fl.val) (k.map Fl.val) ((i.val : ℤ) - 1) ((j.val : ℤ) - 1))
      (.of fun i j => 2 * (((1 + F.step) ^ 9 - 1) *
        correlateAt (A.map fun x => |x.val|) (k.map fun x => |x.val|) ((i.val : ℤ) - 1) ((j.val : ℤ) - 1) +
          9 * (1 + F.step) ^ 8 * F.smallest)) := by
  have fA : MatFinite A := fun i j => (hA i j).1
  have fk : MatFinite k := fun i j => (hk i j).1
  constructor
  · refine narrow_by (fun u v => .of fun i j => ((1 + u) ^ 9 - 1) *
      correlateAt (A.map fun x => |x.val|) (k.map fun x => |x.val|) i.val j.val + 9 * (1 + u) ^ 8 * v)
      (C149_conv2 A k fA fk hi hj) fun d => ?_
    obtain ⟨⟨S, h, -, q⟩, -⟩ := C164_conv2 (ofMode d) A k hA hk hxy hr hi hj
    obtain ⟨h1, h2⟩ := C151_conv2 (ofMode d) A k S h hi hj
    refine ⟨S, Eq.trans ?_ h1, fun i j => (q i j).1, h2⟩
    show @conv2 (Fl F) _ (modeScalar d F) r c A k = @conv2 (Fl F) _ (envScalar (.ofMode d) F) r c A k
    rw [← no_flush d F]
  · refine narrow_by (fun u v => .of fun i j => ((1 + u) ^ 9 - 1) *
      correlateAt (A.map fun x => |x.val|) (k.map fun x => |x.val|) ((i.val : ℤ) - 1) ((j.val : ℤ) - 1) + 9 * (1 + u) ^ 8 * v)
      (C149_conv2_full A k fA fk hi hj) fun d => ?_
    obtain ⟨-, ⟨S, h, -, q⟩⟩ := C164_conv2 (ofMode d) A k hA hk hxy hr hi hj
    obtain ⟨h1, h2⟩ := C151_conv2_full (ofMode d) A k S h hi hj
    refine ⟨S, Eq.trans ?_ h1, fun i j => (q i j).1, h2⟩
    show @conv2_full (Fl F) _ (modeScalar d F) r c A k = @conv2_full (Fl F) _ (envScalar (.ofMode d) F) r c A k
    rw [← no_flush d F]

/-- C166: valid parts of convolutions. -/
theorem C166_conv2_valid (A : Mat (Fl F) (m + 2) (m + 2)) (k : Mat (Fl F) 3 3) (hA : ElementsAtMost x A) (hk : ElementsAtMost y k)
    (hxy : x * y ≤ 2 ^ t) (hr : F.Room 9 t) (hm : m + 2 ≤ 2 ^ 31) :
    EnclosedWithin (fun d => conv2_valid (T := Moded d F) A k) (r := m) (c := m)
      (.of fun i j => ∑ u : Fin 3, ∑ v : Fin 3, (k u v).val * (A ⟨i.val + u.val, by omega⟩ ⟨j.val + v.val, by omega⟩).val)
      (.of fun i j => 2 * (((1 + F.step) ^ 9 - 1) * (∑ u : Fin 3, ∑ v : Fin 3,
        |(k u v).val| * |(A ⟨i.val + u.val, by omega⟩ ⟨j.val + v.val, by omega⟩).val|) + 9 * (1 + F.step) ^ 8 * F.smallest)) := by
  refine narrow_by (r := m) (c := m) (fun a b => .of fun (i j : Fin m) => ((1 + a) ^ 9 - 1) * (∑ u : Fin 3, ∑ v : Fin 3,
        |(k u v).val| * |(A ⟨i.val + u.val, by omega⟩ ⟨j.val + v.val, by omega⟩).val|) + 9 * (1 + a) ^ 8 * b)
    (C149_conv2_valid A k (fun i j => (hA i j).1) (fun i j => (hk i j).1) hm) fun d => ?_
  obtain ⟨S, h, -, q⟩ := C164_conv2_valid (ofMode d) A k hA hk hxy hr hm
  obtain ⟨h1, h2⟩ := C151_conv2_valid (ofMode d) A k S h hm
  refine ⟨S, Eq.trans ?_ h1, fun i j => (q i j).1, h2⟩
  show @conv2_valid (Fl F) _ (modeScalar d F) (m + 2) A k = @conv2_valid (Fl F) _ (envScalar (.ofMode d) F) (m + 2) A k
  rw [← no_flush d F]

/-- C166: means. -/
theorem C166_mean (A : Mat (Fl F) r c) (hA : ElementsAtMost (2 ^ t) A) (h0 : r * c ≠ 0) (hr : F.Room (r * c) t) :
    ∃ lo hi : Fl F, mean (T := Moded .down F) A = .ok lo ∧ mean (T := Moded .up F) A = .ok hi ∧ lo.Finite ∧ hi.Finite ∧
      lo.val ≤ (∑ i, ∑ j, (A i j).val) / ((r * c : Nat) : ℝ) ∧ (∑ i, ∑ j, (A i j).val) / ((r * c : Nat) : ℝ) ≤ hi.val ∧
      hi.val - lo.val ≤ 2 * (((1 + F.step) ^ (r * c + 2) - 1) * ((∑ a, ∑ b, |(A a b).val|) / ((r * c : Nat) : ℝ)) +
        ((1 + F.step) ^ (r * c + 1) + 1) * F.smallest) ∧
      ∀ d, ∃ μ : Fl F, mean (T := Moded d F) A = .ok μ ∧ μ.Finite ∧ lo.val ≤ μ.val ∧ μ.val ≤ hi.val := by
  obtain ⟨lo, hi, e1, e2, b1, b2, b3⟩ := C149_mean A (fun i j => (hA i j).1) h0 hr.1
  have hm : ∀ d, mean (T := Moded d F) A = mean (T := InEnv (ofMode d) F) A := fun d => by
    show @mean (Fl F) (modeScalar d F) r c A = @mean (Fl F) (envScalar (.ofMode d) F) r c A
    rw [← no_flush d F]
  have key : ∀ d, ∃ μ : Fl F, mean (T := Moded d F) A = .ok μ ∧ μ.Finite ∧
      |μ.val - (∑ a, ∑ b, (A a b).val) / ((r * c : Nat) : ℝ)| ≤
        ((1 + (ofMode d).u F) ^ (r * c + 2) - 1) * ((∑ a, ∑ b, |(A a b).val|) / ((r * c : Nat) : ℝ)) +
          ((1 + (ofMode d).u F) ^ (r * c + 1) + 1) * (ofMode d).eta F := fun d => by
    obtain ⟨μ, h, -, q⟩ := C164_mean (ofMode d) A hA h0 hr
    obtain ⟨h1, h2⟩ := C151_mean (ofMode d) A μ h h0
    exact ⟨μ, (hm d).trans h1, q.1, h2⟩
  have inj : ∀ {v w : Fl F} {x : Res (Fl F)}, x = .ok v → x = .ok w → v = w := fun h h' => by
    rw [h] at h'
    injection h'
  obtain ⟨lo', f1, g1, k1⟩ := key .down
  obtain ⟨hi', f2, g2, k2⟩ := key .up
  obtain rfl := inj e1 f1
  obtain rfl := inj e2 f2
  rw [ofMode_u (.inl rfl), ofMode_eta (.inl rfl)] at k1
  rw [ofMode_u (.inr rfl), ofMode_eta (.inr rfl)] at k2
  have hl := b1.resolve_left fun h => by rw [h] at g1; exact g1
  have hu := b2.resolve_left fun h => by rw [h] at g2; exact g2
  refine ⟨lo, hi, e1, e2, g1, g2, hl.2, hu.2, ?_, fun d => ?_⟩
  · have h1 := abs_le.mp k1
    have h2 := abs_le.mp k2
    linarith
  · obtain ⟨μ, e3, h3⟩ := b3 d
    obtain ⟨μ', f3, g3, -⟩ := key d
    obtain rfl := inj e3 f3
    rcases h3 with h | ⟨h4, h5⟩
    · rw [h] at g3; exact g3.elim
    · exact ⟨μ, e3, g3, (le_iff g1 g3).mp h4, (le_iff g3 g2).mp h5⟩

/-- C166: an exact result that is an integer is known as soon as the enclosure is narrower than 1: it is the only integer
between the two results. -/
theorem C166_integer {call : RMode → Res (Mat (Fl F) r c)} {X W : Mat ℝ r c} (h : EnclosedWithin call X W)
    (i : Fin r) (j : Fin c) (hW : W i j < 1) (z : ℤ) (hz : X i j = z) :
    ∃ lo hi, call .down = .ok lo ∧ call .up = .ok hi ∧ ∀ k : ℤ, ((lo i j).val ≤ k ∧ k ≤ (hi i j).val) ↔ k = z := by
  obtain ⟨lo, hi, e1, e2, h1, -⟩ := h
  refine ⟨lo, hi, e1, e2, fun k => ?_⟩
  obtain ⟨-, -, h2, h3, h4⟩ := h1 i j
  rw [hz] at h2 h3
  constructor
  · rintro ⟨h5, h6⟩
    have a1 : (k : ℝ) < z + 1 := by linarith
    have a2 : (z : ℝ) < k + 1 := by linarith
    have b1 : k < z + 1 := by exact_mod_cast a1
    have b2 : z < k + 1 := by exact_mod_cast a2
    omega
  · rintro rfl
    exact ⟨h2, h3⟩

/-! ## Instances -/

theorem EnclosedWithin.mono {call : RMode → Res (Mat (Fl F) r c)} {X W W' : Mat ℝ r c} (h : EnclosedWithin call X W)
    (hW : ∀ i j, W i j ≤ W' i j) : EnclosedWithin call X W' := by
  obtain ⟨lo, hi, e1, e2, h1, h2⟩ := h
  refine ⟨lo, hi, e1, e2, fun i j => ?_, h2⟩
  obtain ⟨a, b, c, d, e⟩ := h1 i j
  exact ⟨a, b, c, d, e.trans (hW i j)⟩

theorem pow_step_le {u : ℝ} (h0 : 0 ≤ u) : ∀ m : Nat, 2 * m * u ≤ 1 → (1 + u) ^ m ≤ 1 + 2 * m * u
  | 0, _ => by simp
  | m + 1, h => by
    push_cast at h ⊢
    have h1 : 2 * m * u ≤ 1 := by linarith
    have ih := pow_step_le h0 m h1
    rw [pow_succ]
    have h2 : (1 + u) ^ m * (1 + u) ≤ (1 + 2 * m * u) * (1 + u) := by gcongr
    have h3 : 2 * m * u * u ≤ 1 * u := by gcongr
    nlinarith

/-- C166: `float` elements of at most 1, and rows of at most `2^22` elements: the products rounded downward and upward differ
by at most `m^2 / 2^20`. -/
theorem C166_float (A : Mat (Fl binary32) n m) (B : Mat (Fl binary32) m p) (hA : ElementsAtMost 1 A) (hB : ElementsAtMost 1 B)
    (hm : m ≤ 2 ^ 22) :
    EnclosedWithin (fun d => mult (T := Moded d binary32) A B) (A.map Fl.val * B.map Fl.val) (.of fun _ _ => (m : ℝ) ^ 2 / 2 ^ 20) := by
  have hm' : (m : ℝ) ≤ 2 ^ 22 := by exact_mod_cast hm
  have h0 : (0 : ℝ) ≤ m := Nat.cast_nonneg m
  refine (C166_mult (t := 0) A B hA hB (by norm_num) ⟨hm.trans (by decide), by simp [binary32], ?_⟩).mono fun i j => ?_
  · unfold Fmt.largest
    norm_num [binary32]
    linarith
  have hs : binary32.step = 1 / 2 ^ 23 := by
    unfold Fmt.step Fmt.u
    norm_num [binary32]
  have hl : binary32.smallest = 1 / 2 ^ 149 := by
    unfold Fmt.smallest Fmt.eta Fmt.unit
    norm_num [binary32]
  rw [hs, hl]
  show 2 * _ ≤ (m : ℝ) ^ 2 / 2 ^ 20
  have hu : 2 * (m : ℝ) * (1 / 2 ^ 23) ≤ 1 := by linarith
  have h1 := pow_step_le (u := 1 / 2 ^ 23) (by positivity) m hu
  have h2 : (1 + 1 / 2 ^ 23 : ℝ) ^ (m - 1) ≤ 2 := by
    refine (pow_le_pow_right₀ (by norm_num) (Nat.sub_le m 1)).trans (h1.trans ?_)
    linarith
  have h3 : ∑ k, |(A i k).val| * |(B k j).val| ≤ m := by
    refine (Finset.sum_le_sum fun k _ => mul_le_one₀ (hA i k).2 (abs_nonneg _) (hB k j).2).trans ?_
    simp
  have h4 : 0 ≤ ∑ k, |(A i k).val| * |(B k j).val| := Finset.sum_nonneg fun k _ => by positivity
  have h5 : ((1 + 1 / 2 ^ 23 : ℝ) ^ m - 1) * (∑ k, |(A i k).val| * |(B k j).val|) ≤ (2 * m * (1 / 2 ^ 23)) * m :=
    mul_le_mul (by linarith) h3 h4 (by positivity)
  have h6 : (m : ℝ) * (1 + 1 / 2 ^ 23 : ℝ) ^ (m - 1) * (1 / 2 ^ 149) ≤ m * 2 * (1 / 2 ^ 149) := by gcongr
  have h7 : (m : ℝ) ≤ (m : ℝ) ^ 2 := by
    rcases Nat.eq_zero_or_pos m with h | h
    · simp [h]
    · have : (1 : ℝ) ≤ m := by exact_mod_cast h
      nlinarith
  have h8 : (m : ℝ) * 2 * (1 / 2 ^ 149) ≤ (m : ℝ) ^ 2 * (1 / 2 ^ 22) := by
    have : (m : ℝ) * 2 * (1 / 2 ^ 149) ≤ m * (1 / 2 ^ 22) := by
      rw [mul_assoc]
      gcongr
      norm_num
    exact this.trans (by gcongr)
  have h9 : (m : ℝ) ^ 2 / 2 ^ 20 = 2 * ((2 * m * (1 / 2 ^ 23)) * m + (m : ℝ) ^ 2 * (1 / 2 ^ 22)) := by
    ring
  rw [h9]
  linarith

/-- C166: without the bounds it is false: a sum that overflows has no finite enclosure. -/
theorem C166_overflow (X W : Mat ℝ 1 1) : ¬ EnclosedWithin (fun d => sum (T := Moded d binary32)
    !![Fl.fin false _ (Fmt.top_rep _)] !![Fl.fin false _ (Fmt.top_rep _)]) X W := by
  rintro ⟨lo, hi, -, e, h, -⟩
  have e' : sum (T := Moded .up binary32) !![Fl.fin false _ (Fmt.top_rep _)] !![Fl.fin false _ (Fmt.top_rep _)] =
      .ok !![(.inf false : Fl binary32)] := by decide +kernel
  have e'' : (Except.ok !![(.inf false : Fl binary32)] : Res (Mat (Fl binary32) 1 1)) = .ok hi := e'.symm.trans e
  injection e'' with e''
  have := (h 0 0).2.1
  rw [← e''] at this
  exact this

/-- A case: the enclosure of 1/3. -/
example : ∃ lo hi : Fl binary32, MatrixLibs.div (T := Moded .down binary32) none !![Fl.ofInt 1] (Fl.ofInt 3 : Fl binary32) = .ok !![lo] ∧
    MatrixLibs.div (T := Moded .up binary32) none !![Fl.ofInt 1] (Fl.ofInt 3 : Fl binary32) = .ok !![hi] ∧ lo.lt hi = true :=
  ⟨pack false (11184810 * 2 ^ 124), pack false (11184811 * 2 ^ 124), by decide +kernel, by decide +kernel, by decide +kernel⟩

end MatrixLibs
