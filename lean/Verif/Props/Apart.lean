import Verif.Spec.Apart
import Verif.Props.Range
import Verif.Props.RangeInv

/-!
# Property C167: results in two floating point environments are close
-/

namespace MatrixLibs

set_option linter.unusedSectionVars false
set_option exponentiation.threshold 300

open Fl Range FpEnv

variable {F : Fmt} {n m p r c : Nat} {x y : ℝ} {t : ℤ} (e f : FpEnv)

/-- C167: what is lost when a result is read. -/
theorem C167_lost (a : Fl F) (ha : a.Finite) : |a.val - e.val a| ≤ e.lost F := by
  unfold lost
  by_cases hd : e.daz = true
  · rw [if_pos hd]
    by_cases hs : a.Subnormal
    · have h := ((C151_operands e a).1 hd hs).2.1
      show |a.val - (e.seen a).val| ≤ _
      rw [h, sub_zero]
      exact hs.2.2.le
    · have h := (C151_operands e a).2 (.inr hs)
      show |a.val - (e.seen a).val| ≤ _
      rw [h, sub_self, abs_zero]
      have := unit_posR F
      unfold Fmt.minNormal
      positivity
  · have h := (C151_operands e a).2 (.inl (by simpa using hd))
    show |a.val - (e.seen a).val| ≤ _
    rw [h, sub_self, abs_zero, if_neg hd]

variable {e f}

theorem NoSubnormal.read {A : Mat (Fl F) r c} (h : NoSubnormal A) (e : FpEnv) (i : Fin r) (j : Fin c) :
    e.val (A i j) = (A i j).val := by
  show (e.seen (A i j)).val = _
  rw [(C151_operands e (A i j)).2 (.inr (h i j))]

theorem NoSubnormal.map {A : Mat (Fl F) r c} (h : NoSubnormal A) (e : FpEnv) : A.map e.val = A.map Fl.val := by
  ext i j
  exact h.read e i j

theorem NoSubnormal.map_abs {A : Mat (Fl F) r c} (h : NoSubnormal A) (e : FpEnv) :
    (A.map fun x => |e.val x|) = A.map fun x => |x.val| := by
  ext i j
  exact congrArg (fun v : ℝ => |v|) (h.read e i j)

theorem near_both {a b : Fl F} {X w v : ℝ} (ha : a.Finite) (hb : b.Finite) (h1 : |e.val a - X| ≤ w) (h2 : |f.val b - X| ≤ v) :
    |a.val - b.val| ≤ (w + e.lost F) + (v + f.lost F) := by
  have h3 := abs_le.mp (C167_lost e a ha)
  have h4 := abs_le.mp (C167_lost f b hb)
  have h5 := abs_le.mp h1
  have h6 := abs_le.mp h2
  exact abs_le.mpr ⟨by linarith, by linarith⟩

theorem apart_of {call : FpEnv → Res (Mat (Fl F) r c)} {X : Mat ℝ r c} {W : FpEnv → Mat ℝ r c}
    (h : ∀ e, ∃ P, call e = .ok P ∧ MatFinite P ∧ ∀ i j, |e.val (P i j) - X i j| ≤ W e i j) :
    Apart (call e) (call f) (.of fun i j => (W e i j + e.lost F) + (W f i j + f.lost F)) := by
  obtain ⟨P, h1, h2, h3⟩ := h e
  obtain ⟨Q, h4, h5, h6⟩ := h f
  exact ⟨P, Q, h1, h4, fun i j => ⟨h2 i j, h5 i j, near_both (h2 i j) (h5 i j) (h3 i j) (h6 i j)⟩⟩

theorem numbers_of {call : FpEnv → Res (Fl F)} {X : ℝ} {w : FpEnv → ℝ}
    (h : ∀ e, ∃ v, call e = .ok v ∧ v.Finite ∧ |e.val v - X| ≤ w e) :
    NumbersApart (call e) (call f) ((w e + e.lost F) + (w f + f.lost F)) := by
  obtain ⟨P, h1, h2, h3⟩ := h e
  obtain ⟨Q, h4, h5, h6⟩ := h f
  exact ⟨P, Q, h1, h4, h2, h5, near_both h2 h5 h3 h6⟩

variable (e f)

/-- C167: products. -/
theorem C167_mult (A : Mat (Fl F) n m) (B : Mat (Fl F) m p) (hA : ElementsAtMost x A) (hB : ElementsAtMost y B)
    (hxy : x * y ≤ 2 ^ t) (hr : F.Room m t) (sA : NoSubnormal A) (sB : NoSubnormal B) :
    Apart (mult (T := InEnv e F) A B) (mult (T := InEnv f F) A B)
      (.of fun i j => (dotError e F m (∑ k, |(A i k).val| * |(B k j).val|) + e.lost F) +
        (dotError f F m (∑ k, |(A i k).val| * |(B k j).val|) + f.lost F)) := by
  refine apart_of (call := fun e => mult (T := InEnv e F) A B) (X := A.map Fl.val * B.map Fl.val)
    (W := fun e => .of fun i j => dotError e F m (∑ k, |(A i k).val| * |(B k j).val|)) fun e => ?_
  obtain ⟨P, h1, h2, h3⟩ := C164_mult e A B hA hB hxy hr
  obtain ⟨-, h4⟩ := C151_mult e A B P h1
  refine ⟨P, h2, fun i j => (h3 i j).1, fun i j => ?_⟩
  have h5 := h4 i j
  simp only [sA.read, sB.read] at h5
  exact h5

/-- C167: convolutions. -/
theorem C167_conv2 (A : Mat (Fl F) r c) (k : Mat (Fl F) 3 3) (hA : ElementsAtMost x A) (hk : ElementsAtMost y k)
    (hxy : x * y ≤ 2 ^ t) (hr : F.Room 9 t) (hi : r ≤ 2 ^ 31) (hj : c ≤ 2 ^ 31) (sA : NoSubnormal A) (sk : NoSubnormal k) :
    Apart (conv2 (T := InEnv e F) A k) (conv2 (T := InEnv f F) A k)
      (.of fun i j => (dotError e F 9 (correlateAt (A.map fun x => |x.val|) (k.map fun x => |x.val|) i.val j.val) + e.lost F) +
        (dotError f F 9 (correlateAt (A.map fun x => |x.val|) (k.map fun x => |x.val|) i.val j.val) + f.lost F)) := by
  refine apart_of (call := fun e => conv2 (T := InEnv e F) A k)
    (X := .of fun i j => correlateAt (A.map Fl.val) (k.map Fl.val) i.val j.val)
    (W := fun e => .of fun i j => dotError e F 9 (correlateAt (A.map fun x => |x.val|) (k.map fun x => |x.val|) i.val j.val)) fun e => ?_
  obtain ⟨⟨S, h1, h2, h3⟩, -⟩ := C164_conv2 e A k hA hk hxy hr hi hj
  obtain ⟨-, h4⟩ := C151_conv2 e A k S h1 hi hj
  rw [sA.map, sk.map, sA.map_abs, sk.map_abs] at h4
  refine ⟨S, h2, fun i j => (h3 i j).1, fun i j => ?_⟩
  have h5 := h4 i j
  show _ ≤ dotError _ _ _ _
  unfold dotError
  norm_num at h5 ⊢
  exact h5

/-- C167: full convolutions. -/
theorem C167_conv2_full (A : Mat (Fl F) r c) (k : Mat (Fl F) 3 3) (hA : ElementsAtMost x A) (hk : ElementsAtMost y k)
    (hxy : x * y ≤ 2 ^ t) (hr : F.Room 9 t) (hi : r ≤ 2 ^ 31) (hj : c ≤ 2 ^ 31) (sA : NoSubnormal A) (sk : NoSubnormal k) :
    Apart (conv2_full (T := InEnv e F) A k) (conv2_full (T := InEnv f F) A k)
      (.of fun i j => (dotError e F 9 (correlateAt (A.map fun x => |x.val|) (k.map fun x => |x.val|) ((i.val : ℤ) - 1) ((j.val : ℤ) - 1)) +
          e.lost F) +
        (dotError f F 9 (correlateAt (A.map fun x => |x.val|) (k.map fun x => |x.val|) ((i.val : ℤ) - 1) ((j.val : ℤ) - 1)) + f.lost F)) := by
  refine apart_of (call := fun e => conv2_full (T := InEnv e F) A k)
    (X := .of fun i j => correlateAt (A.map Fl.val) (k.map Fl.val) ((i.val : ℤ) - 1) ((j.val : ℤ) - 1))
    (W := fun e => .of fun i j =>
      dotError e F 9 (correlateAt (A.map fun x => |x.val|) (k.map fun x => |x.val|) ((i.val : ℤ) - 1) ((j.val : ℤ) - 1))) fun e => ?_
  obtain ⟨-, ⟨S, h1, h2, h3⟩⟩ := C164_conv2 e A k hA hk hxy hr hi hj
  obtain ⟨-, h4⟩ := C151_conv2_full e A k S h1 hi hj
  rw [sA.map, sk.map, sA.map_abs, sk.map_abs] at h4
  refine ⟨S, h2, fun i j => (h3 i j).1, fun i j => ?_⟩
  have h5 := h4 i j
  show _ ≤ dotError _ _ _ _
  unfold dotError
  norm_num at h5 ⊢
  exact h5

/-- C167: valid parts of convolutions. -/
theorem C167_conv2_valid (A : Mat (Fl F) (m + 2) (m + 2)) (k : Mat (Fl F) 3 3) (hA : ElementsAtMost x A) (hk : ElementsAtMost y k)
    (hxy : x * y ≤ 2 ^ t) (hr : F.Room 9 t) (hm : m + 2 ≤ 2 ^ 31) (sA : NoSubnormal A) (sk : NoSubnormal k) :
    Apart (r := m) (c := m) (conv2_valid (T := InEnv e F) A k) (conv2_valid (T := InEnv f F) A k)
      (.of fun i j => (dotError e F 9 (∑ u : Fin 3, ∑ v : Fin 3,
          |(k u v).val| * |(A ⟨i.val + u.val, by omega⟩ ⟨j.val + v.val, by omega⟩).val|) + e.lost F) +
        (dotError f F 9 (∑ u : Fin 3, ∑ v : Fin 3,
          |(k u v).val| * |(A ⟨i.val + u.val, by omega⟩ ⟨j.val + v.val, by omega⟩).val|) + f.lost F)) := by
  refine apart_of (r := m) (c := m) (call := fun e => conv2_valid (T := InEnv e F) A k)
    (X := .of fun (i j : Fin m) => ∑ u : Fin 3, ∑ v : Fin 3, (k u v).val * (A ⟨i.val + u.val, by omega⟩ ⟨j.val + v.val, by omega⟩).val)
    (W := fun e => .of fun (i j : Fin m) => dotError e F 9 (∑ u : Fin 3, ∑ v : Fin 3,
      |(k u v).val| * |(A ⟨i.val + u.val, by omega⟩ ⟨j.val + v.val, by omega⟩).val|)) fun e => ?_
  obtain ⟨S, h1, h2, h3⟩ := C164_conv2_valid e A k hA hk hxy hr hm
  obtain ⟨-, h4⟩ := C151_conv2_valid e A k S h1 hm
  refine ⟨S, h2, fun i j => (h3 i j).1, fun i j => ?_⟩
  have h5 := h4 i j
  simp only [sA.read, sk.read] at h5
  exact h5

/-- C167: products by `strassen`. -/
theorem C167_strassen (A B : Mat (Fl F) 2 2) (u v : ℤ) (hA : ElementsAtMost (2 ^ u) A) (hB : ElementsAtMost (2 ^ v) B)
    (hu : F.Room 2 u) (hv : F.Room 2 v) (hr : F.Room 12 (u + v)) (sA : NoSubnormal A) (sB : NoSubnormal B) :
    Apart (strassen (T := InEnv e F) A B) (strassen (T := InEnv f F) A B)
      (.of fun _ _ => (strassenError e F u v + e.lost F) + (strassenError f F u v + f.lost F)) := by
  refine apart_of (call := fun e => strassen (T := InEnv e F) A B) (X := A.map Fl.val * B.map Fl.val)
    (W := fun e => .of fun _ _ => strassenError e F u v) fun e => ?_
  obtain ⟨P, h1, h2, h3⟩ := C164_strassen e A B u v hA hB hu hv hr
  obtain ⟨P', h4, h5⟩ := C164_strassen_accurate e A B u v hA hB hu hv hr
  rw [h2] at h4
  cases h4
  rw [sA.map, sB.map] at h5
  exact ⟨P, h2, fun i j => (h3 i j).1, h5⟩

/-- C167: determinants of 2x2 matrices. -/
theorem C167_det2 (A : Mat (Fl F) 2 2) (hA : ElementsAtMost x A) (hx : x * x ≤ 2 ^ t) (hr : F.Room 2 t) (sA : NoSubnormal A) :
    NumbersApart (det (T := InEnv e F) A) (det (T := InEnv f F) A)
      ((dotError e F 2 (|(A 0 0).val| * |(A 1 1).val| + |(A 0 1).val| * |(A 1 0).val|) + e.lost F) +
        (dotError f F 2 (|(A 0 0).val| * |(A 1 1).val| + |(A 0 1).val| * |(A 1 0).val|) + f.lost F)) := by
  refine numbers_of (call := fun e => det (T := InEnv e F) A) (X := (A.map Fl.val).det)
    (w := fun e => dotError e F 2 (|(A 0 0).val| * |(A 1 1).val| + |(A 0 1).val| * |(A 1 0).val|)) fun e => ?_
  obtain ⟨D, h1, h2, h3⟩ := C164_det2 e A hA hx hr
  obtain ⟨-, h4⟩ := C151_det2 e A D h1
  rw [sA.map] at h4
  simp only [sA.read] at h4
  refine ⟨D, h2, h3.1, ?_⟩
  unfold dotError
  norm_num at h4 ⊢
  exact h4

/-- C167: determinants of 3x3 matrices. -/
theorem C167_det3 (A : Mat (Fl F) 3 3) (hA : ElementsAtMost (2 ^ t) A) (hr : F.Room 6 (3 * t)) (sA : NoSubnormal A) :
    NumbersApart (det (T := InEnv e F) A) (det (T := InEnv f F) A)
      ((det3Error e F (A.map Fl.val) + e.lost F) + (det3Error f F (A.map Fl.val) + f.lost F)) := by
  refine numbers_of (call := fun e => det (T := InEnv e F) A) (X := (A.map Fl.val).det)
    (w := fun e => det3Error e F (A.map Fl.val)) fun e => ?_
  obtain ⟨D, h1, h2, h3⟩ := C164_det3 e A hA hr
  obtain ⟨-, h4⟩ := C151_det3 e A D h1
  rw [sA.map] at h4
  simp only [sA.read] at h4
  exact ⟨D, h2, h3.1, h4⟩

/-- C167: means. -/
theorem C167_mean (A : Mat (Fl F) r c) (hA : ElementsAtMost (2 ^ t) A) (h0 : r * c ≠ 0) (hr : F.Room (r * c) t) (sA : NoSubnormal A) :
    NumbersApart (mean (T := InEnv e F) A) (mean (T := InEnv f F) A)
      ((meanError e F (r * c) ((∑ a, ∑ b, |(A a b).val|) / ((r * c : Nat) : ℝ)) + e.lost F) +
        (meanError f F (r * c) ((∑ a, ∑ b, |(A a b).val|) / ((r * c : Nat) : ℝ)) + f.lost F)) := by
  refine numbers_of (call := fun e => mean (T := InEnv e F) A) (X := (∑ a, ∑ b, (A a b).val) / ((r * c : Nat) : ℝ))
    (w := fun e => meanError e F (r * c) ((∑ a, ∑ b, |(A a b).val|) / ((r * c : Nat) : ℝ))) fun e => ?_
  obtain ⟨μ, h1, h2, h3⟩ := C164_mean e A hA h0 hr
  obtain ⟨-, h4⟩ := C151_mean e A μ h1 h0
  simp only [sA.read] at h4
  exact ⟨μ, h2, h3.1, h4⟩

/-- C167: powers. -/
theorem C167_pow (handled : Option Exc) (w : Nat) (A : Mat (Fl F) n n) (s t q : Nat) (hn : n ≤ 2 ^ s) (hs : s ≤ F.p)
    (hA : ElementsAtMost (2 ^ t) A) (hq : 1 ≤ q) (hr : (2 : ℝ) ^ (s * (q - 1) + t * q) ≤ F.largest) (sA : NoSubnormal A) :
    Apart (pow (T := InEnv e F) handled w A q) (pow (T := InEnv f F) handled w A q)
      (.of fun i j => (powError e F n s t q (((A.map fun x => |x.val|) ^ q) i j) + e.lost F) +
        (powError f F n s t q (((A.map fun x => |x.val|) ^ q) i j) + f.lost F)) := by
  refine apart_of (call := fun e => pow (T := InEnv e F) handled w A q) (X := A.map Fl.val ^ q)
    (W := fun e => .of fun i j => powError e F n s t q (((A.map fun x => |x.val|) ^ q) i j)) fun e => ?_
  obtain ⟨P, h1, h2, h3⟩ := C164_pow e handled w A s t q hn hs hA hq hr
  obtain ⟨P', h4, h5⟩ := C164_pow_accurate e handled w A s t q hn hs hA hq hr
  rw [h2] at h4
  cases h4
  rw [sA.map, sA.map_abs] at h5
  exact ⟨P, h2, fun i j => (h3 i j).1, h5⟩

/-- C167: inverses of 2x2 matrices whose determinant exceeds the error bounds of both environments by `y`. -/
theorem C167_inv2 (handled : Option Exc) (A : Mat (Fl F) 2 2) (k : Nat) (s : ℤ) (hA : ElementsAtMost x A) (hx : x * x ≤ 2 ^ t)
    (hr : F.Room 2 t) (h0 : 0 < y)
    (hy : ∀ d, d = e ∨ d = f →
      dotError d F 2 (|(A 0 0).val| * |(A 1 1).val| + |(A 0 1).val| * |(A 1 0).val|) + y ≤ |(A.map Fl.val).det|)
    (hk : x ≤ k * 2 ^ s * y) (hs : F.Room k s) (sA : NoSubnormal A) :
    Apart (inv (T := InEnv e F) handled A) (inv (T := InEnv f F) handled A) (.of fun i j =>
      (Standard.quotBound (Trapped e F) ((A.map Fl.val)⁻¹ i j) (A.map Fl.val).det 0 (Standard.det2Bound (Trapped e F) (A.map Fl.val)) + e.lost F) +
      (Standard.quotBound (Trapped f F) ((A.map Fl.val)⁻¹ i j) (A.map Fl.val).det 0 (Standard.det2Bound (Trapped f F) (A.map Fl.val)) + f.lost F)) := by
  have key : ∀ d, d = e ∨ d = f → ∃ B : Mat (Fl F) 2 2, inv (T := InEnv d F) handled A = .ok B ∧ MatFinite B ∧
      ∀ i j, |d.val (B i j) - (A.map Fl.val)⁻¹ i j| ≤
        Standard.quotBound (Trapped d F) ((A.map Fl.val)⁻¹ i j) (A.map Fl.val).det 0 (Standard.det2Bound (Trapped d F) (A.map Fl.val)) := by
    intro d hd
    have h1 := hy d hd
    have h2 : ((1 + d.u F) ^ 2 - 1) * (|d.val (A 0 0)| * |d.val (A 1 1)| + |d.val (A 0 1)| * |d.val (A 1 0)|) +
        2 * (1 + d.u F) * d.eta F + y ≤ |(A.map d.val).det| := by
      rw [sA.map]
      simp only [sA.read]
      unfold dotError at h1
      norm_num at h1 ⊢
      exact h1
    obtain ⟨B, -, h3, h4, h5⟩ := C165_inv2 d handled A k hA hx hr h0 h2 hk hs
    rw [sA.map] at h5
    exact ⟨B, h3, fun i j => (h4 i j).1, h5⟩
  obtain ⟨P, h1, h2, h3⟩ := key e (.inl rfl)
  obtain ⟨Q, h4, h5, h6⟩ := key f (.inr rfl)
  exact ⟨P, Q, h1, h4, fun i j => ⟨h2 i j, h5 i j, near_both (h2 i j) (h5 i j) (h3 i j) (h6 i j)⟩⟩

/-- C167: inverses of 3x3 matrices whose determinant exceeds the error bounds of both environments by `y`. -/
theorem C167_inv3 (handled : Option Exc) (A : Mat (Fl F) 3 3) (k : Nat) (s : ℤ) (hA : ElementsAtMost (2 ^ t) A)
    (hr : F.Room 6 (3 * t)) (h0 : 0 < y)
    (hy : ∀ d, d = e ∨ d = f → det3Error d F (A.map Fl.val) + y ≤ |(A.map Fl.val).det|)
    (hk : 2 * 2 ^ (2 * t) ≤ k * 2 ^ s * y) (hs : F.Room k s) (sA : NoSubnormal A) :
    Apart (inv (T := InEnv e F) handled A) (inv (T := InEnv f F) handled A) (.of fun i j =>
      (Standard.quotBound (Trapped e F) ((A.map Fl.val)⁻¹ i j) (A.map Fl.val).det
        (Standard.det2Bound (Trapped e F) ((A.map Fl.val).submatrix j.succAbove i.succAbove))
        (Standard.det3Bound (Trapped e F) (A.map Fl.val)) + e.lost F) +
      (Standard.quotBound (Trapped f F) ((A.map Fl.val)⁻¹ i j) (A.map Fl.val).det
        (Standard.det2Bound (Trapped f F) ((A.map Fl.val).submatrix j.succAbove i.succAbove))
        (Standard.det3Bound (Trapped f F) (A.map Fl.val)) + f.lost F)) := by
  have key : ∀ d, d = e ∨ d = f → ∃ B : Mat (Fl F) 3 3, inv (T := InEnv d F) handled A = .ok B ∧ MatFinite B ∧
      ∀ i j, |d.val (B i j) - (A.map Fl.val)⁻¹ i j| ≤
        Standard.quotBound (Trapped d F) ((A.map Fl.val)⁻¹ i j) (A.map Fl.val).det
          (Standard.det2Bound (Trapped d F) ((A.map Fl.val).submatrix j.succAbove i.succAbove))
          (Standard.det3Bound (Trapped d F) (A.map Fl.val)) := by
    intro d hd
    have h1 := hy d hd
    have h2 : ((1 + d.u F) ^ 7 - 1) * Standard.perm3 (A.map d.val) +
        6 * (1 + d.u F) ^ 6 * (1 + |d.val (A 2 0)| + |d.val (A 2 1)| + |d.val (A 2 2)|) * d.eta F + y ≤ |(A.map d.val).det| := by
      rw [sA.map]
      simp only [sA.read]
      exact h1
    obtain ⟨B, -, h3, h4, h5⟩ := C165_inv3 d handled A k hA hr h0 h2 hk hs
    rw [sA.map] at h5
    exact ⟨B, h3, fun i j => (h4 i j).1, h5⟩
  obtain ⟨P, h1, h2, h3⟩ := key e (.inl rfl)
  obtain ⟨Q, h4, h5, h6⟩ := key f (.inr rfl)
  exact ⟨P, Q, h1, h4, fun i j => ⟨h2 i j, h5 i j, near_both (h2 i j) (h5 i j) (h3 i j) (h6 i j)⟩⟩

/-- C167: so a product may be compared with one computed elsewhere: `compare`, in the default environment, accepts two products
of the same matrices from any two environments if the tolerance is not below the bound. -/
theorem C167_golden (A : Mat (Fl F) n m) (B : Mat (Fl F) m p) (eps : Fl F) (hA : ElementsAtMost x A) (hB : ElementsAtMost y B)
    (hxy : x * y ≤ 2 ^ t) (hr : F.Room (2 * m) t) (sA : NoSubnormal A) (sB : NoSubnormal B) (he : eps.Finite)
    (hw : ∀ i j, (dotError e F m (∑ k, |(A i k).val| * |(B k j).val|) + e.lost F) +
      (dotError f F m (∑ k, |(A i k).val| * |(B k j).val|) + f.lost F) ≤ eps.val) :
    ∃ P Q : Mat (Fl F) n p, mult (T := InEnv e F) A B = .ok P ∧ mult (T := InEnv f F) A B = .ok Q ∧
      compare (T := InEnv .default F) P Q eps = .ok true := by
  have hm : F.Room m t := hr.mono (by omega)
  obtain ⟨P, Q, h1, h2, h3⟩ := C167_mult e f A B hA hB hxy hm sA sB
  obtain ⟨P', -, h4, h5⟩ := C164_mult e A B hA hB hxy hm
  obtain ⟨Q', -, h6, h7⟩ := C164_mult f A B hA hB hxy hm
  rw [h1] at h4
  rw [h2] at h6
  cases h4
  cases h6
  obtain ⟨b, -, h8, h9, -⟩ := C164_compare .default P Q eps (2 * m) h5 h7 (by push_cast; linarith) hr he
  refine ⟨P, Q, h1, h2, ?_⟩
  rw [h8, h9 fun i j => ?_]
  exact (h3 i j).2.2.trans (hw i j)

/-! ## Instances -/

theorem pow_small_le {u : ℝ} (h0 : 0 ≤ u) : ∀ m : Nat, 2 * m * u ≤ 1 → (1 + u) ^ m ≤ 1 + 2 * m * u
  | 0, _ => by simp
  | m + 1, h => by
    push_cast at h ⊢
    have h1 : 2 * m * u ≤ 1 := by linarith
    have ih := pow_small_le h0 m h1
    rw [pow_succ]
    have h2 : (1 + u) ^ m * (1 + u) ≤ (1 + 2 * m * u) * (1 + u) := by gcongr
    have h3 : 2 * m * u * u ≤ 1 * u := by gcongr
    nlinarith

theorem float_error (S : ℝ) (h1 : 1 ≤ m) (hm : m ≤ 2 ^ 22) (h0 : 0 ≤ S) (hS : S ≤ m) :
    dotError e binary32 m S + e.lost binary32 ≤ (m : ℝ) ^ 2 / 2 ^ 21 := by
  have hm' : (m : ℝ) ≤ 2 ^ 22 := by exact_mod_cast hm
  have h1' : (1 : ℝ) ≤ m := by exact_mod_cast h1
  have hmin : binary32.minNormal = 1 / 2 ^ 126 := by
    unfold Fmt.minNormal Fmt.unit
    norm_num [binary32]
  have hu : e.u binary32 ≤ 1 / 2 ^ 23 := by
    unfold FpEnv.u Fmt.u
    split <;> norm_num [binary32]
  have hu0 : 0 ≤ e.u binary32 := e.u_nonneg
  have he : e.eta binary32 ≤ 1 / 2 ^ 125 := by
    unfold FpEnv.eta
    rw [hmin]
    unfold Fmt.eta Fmt.unit
    split
    · norm_num
    · split <;> norm_num [binary32]
  have he0 : 0 ≤ e.eta binary32 := by
    unfold FpEnv.eta
    rw [hmin]
    unfold Fmt.eta
    have := unit_posR binary32
    split
    · norm_num
    · split <;> positivity
  have hl : e.lost binary32 ≤ 1 / 2 ^ 126 := by
    unfold lost
    rw [hmin]
    split <;> norm_num
  have h2 : 2 * (m : ℝ) * e.u binary32 ≤ 2 * m * (1 / 2 ^ 23) := by gcongr
  have h3 : 2 * (m : ℝ) * (1 / 2 ^ 23) ≤ 1 := by linarith
  have h4 := pow_small_le hu0 m (h2.trans h3)
  have h5 : (1 + e.u binary32) ^ (m - 1) ≤ 2 := by
    refine (pow_le_pow_right₀ (by linarith) (Nat.sub_le m 1)).trans (h4.trans ?_)
    linarith
  have h6 : ((1 + e.u binary32) ^ m - 1) * S ≤ (2 * m * (1 / 2 ^ 23)) * m :=
    mul_le_mul (by linarith) hS h0 (by positivity)
  have h7 : (m : ℝ) * (1 + e.u binary32) ^ (m - 1) * e.eta binary32 ≤ m * 2 * (1 / 2 ^ 125) := by gcongr
  have h8 : (m : ℝ) ≤ (m : ℝ) ^ 2 := by nlinarith
  have h9 : (m : ℝ) ^ 2 / 2 ^ 21 = (2 * m * (1 / 2 ^ 23)) * m + (m : ℝ) ^ 2 * (1 / 2 ^ 22) := by ring
  have h10 : (m : ℝ) * 2 * (1 / 2 ^ 125) + 1 / 2 ^ 126 ≤ (m : ℝ) * (1 / 2 ^ 22) := by
    have : (m : ℝ) * 2 * (1 / 2 ^ 125) + m * (1 / 2 ^ 126) ≤ (m : ℝ) * (1 / 2 ^ 22) := by
      rw [mul_assoc, ← mul_add]
      gcongr
      norm_num
    have h11 : (1 : ℝ) * (1 / 2 ^ 126) ≤ m * (1 / 2 ^ 126) := by gcongr
    linarith
  have h12 : (m : ℝ) * (1 / 2 ^ 22) ≤ (m : ℝ) ^ 2 * (1 / 2 ^ 22) := by gcongr
  unfold dotError
  rw [h9]
  linarith

/-- C167: products of `float` matrices with normal elements of at most 1, and rows of at most `2^22` elements, differ in any two
environments by at most `m^2 / 2^20`. -/
theorem C167_float (A : Mat (Fl binary32) n m) (B : Mat (Fl binary32) m p) (hA : ElementsAtMost 1 A) (hB : ElementsAtMost 1 B)
    (h1 : 1 ≤ m) (hm : m ≤ 2 ^ 22) (sA : NoSubnormal A) (sB : NoSubnormal B) :
    Apart (mult (T := InEnv e binary32) A B) (mult (T := InEnv f binary32) A B) (.of fun _ _ => (m : ℝ) ^ 2 / 2 ^ 20) := by
  have hm' : (m : ℝ) ≤ 2 ^ 22 := by exact_mod_cast hm
  obtain ⟨P, Q, e1, e2, h⟩ := C167_mult e f (t := 0) A B hA hB (by norm_num) ⟨hm.trans (by decide), by simp [binary32], by
    unfold Fmt.largest
    norm_num [binary32]
    linarith⟩ sA sB
  refine ⟨P, Q, e1, e2, fun i j => ?_⟩
  obtain ⟨h2, h3, h4⟩ := h i j
  refine ⟨h2, h3, h4.trans ?_⟩
  have h5 : ∑ k, |(A i k).val| * |(B k j).val| ≤ m := by
    refine (Finset.sum_le_sum fun k _ => mul_le_one₀ (hA i k).2 (abs_nonneg _) (hB k j).2).trans ?_
    simp
  have h6 : 0 ≤ ∑ k, |(A i k).val| * |(B k j).val| := Finset.sum_nonneg fun k _ => by positivity
  have h7 := float_error e _ h1 hm h6 h5
  have h8 := float_error f _ h1 hm h6 h5
  show (dotError e binary32 m (∑ k, |(A i k).val| * |(B k j).val|) + _) + (dotError f binary32 m _ + _) ≤ (m : ℝ) ^ 2 / 2 ^ 20
  have h9 : (m : ℝ) ^ 2 / 2 ^ 20 = (m : ℝ) ^ 2 / 2 ^ 21 + (m : ℝ) ^ 2 / 2 ^ 21 := by ring
  rw [h9]
  linarith

/-- The smallest positive `float`. -/
def apartTiny : Mat (Fl binary32) 1 1 := !![pack false 1]
/-- `2^100`. -/
def apartHuge : Mat (Fl binary32) 1 1 := !![pack false (2 ^ 249)]

/-- C167: subnormal elements must be excluded: where they are read as zero, the product of `2^-149` and `2^100` is zero instead of
`2^-49`. -/
theorem C167_subnormal : ¬ NoSubnormal apartTiny ∧
    ∃ P Q : Mat (Fl binary32) 1 1, mult (T := InEnv .default binary32) apartTiny apartHuge = .ok P ∧
      mult (T := InEnv ⟨.nearest, true, none⟩ binary32) apartTiny apartHuge = .ok Q ∧ (P 0 0).val = 1 / 2 ^ 49 ∧ (Q 0 0).val = 0 := by
  have r1 : binary32.Rep 1 := by decide +kernel
  have r2 : binary32.Rep (2 ^ 100) := by decide +kernel
  constructor
  · intro h
    apply h 0 0
    have e1 : apartTiny 0 0 = .fin false 1 r1 := by
      show pack (F := binary32) false 1 = _
      unfold pack
      rw [dif_pos r1]
    rw [e1]
    refine ⟨trivial, ?_, ?_⟩
    · rw [val_fin_false]
      norm_num [Fmt.unit, binary32]
    · rw [val_fin_false]
      unfold Fmt.minNormal
      norm_num [Fmt.unit, binary32]
  · refine ⟨!![pack false (2 ^ 100)], !![nought false], by decide +kernel, by decide +kernel, ?_, val_nought false⟩
    show (pack (F := binary32) false (2 ^ 100)).val = _
    unfold pack
    rw [dif_pos r2, val_fin_false]
    norm_num [Fmt.unit, binary32]

/-- The hypotheses can be met: 1 is normal. -/
example : NoSubnormal (Mat.const (Fl.ofInt 1) : Mat (Fl binary32) 2 3) ∧ ElementsAtMost 1 (Mat.const (Fl.ofInt 1) : Mat (Fl binary32) 2 3) := by
  have h := val_ofInt_exact (F := binary32) 1 (by decide)
  refine ⟨fun i j hs => ?_, fun i j => ⟨h.1, ?_⟩⟩
  · have h1 := hs.2.2
    change |(Fl.ofInt 1 : Fl binary32).val| < _ at h1
    rw [h.2] at h1
    unfold Fmt.minNormal Fmt.unit at h1
    norm_num [binary32] at h1
  · show |(Fl.ofInt 1 : Fl binary32).val| ≤ _
    rw [h.2]
    norm_num

end MatrixLibs
