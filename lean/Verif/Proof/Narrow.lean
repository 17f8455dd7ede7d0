import Verif.Spec.Narrow
import Verif.Proof.Arith

/-!
# Promoted arithmetic
-/

namespace MatrixLibs

set_option linter.unusedSectionVars false

open Promo (load store sqrtTo)
open CScalar (ofInt)

/-! ## The types -/

namespace Narrow
variable (t : Narrow)

theorem conv_modEq (k : ℤ) : t.conv k ≡ k [ZMOD 2 ^ t.w] := by
  unfold conv
  split
  · have := Int.bmod_emod (x := k) (m := 2 ^ t.w)
    push_cast at this
    exact this
  · exact Int.mod_modEq _ _

/-- Two values of the type that are congruent are equal. -/
theorem has_unique {x y : ℤ} (hx : t.Has x) (hy : t.Has y) (h : x ≡ y [ZMOD 2 ^ t.w]) : x = y := by
  have h1 := h.dvd
  have h2 : |y - x| < 2 ^ t.w := by
    have h3 : (2 : ℤ) ^ t.w = 2 * 2 ^ (t.w - 1) := by
      rw [← pow_succ', Nat.sub_add_cancel t.pos]
    unfold Has min max at hx hy
    split at hx
    · next hs =>
      rw [if_pos hs, if_pos hs] at hy
      rw [abs_lt]; omega
    · next hs =>
      rw [if_neg hs, if_neg hs] at hy
      rw [abs_lt]; omega
  have := Int.eq_zero_of_abs_lt_dvd h1 h2
  omega

theorem conv_of_has {k : ℤ} (h : t.Has k) : t.conv k = k :=
  t.has_unique (t.conv_has k) h (t.conv_modEq k)

theorem has_bounds {k : ℤ} (h : t.Has k) : -32768 ≤ k ∧ k ≤ 65535 := by
  unfold Has min max at h
  have h1 : (2 : ℤ) ^ (t.w - 1) ≤ 2 ^ 15 := by
    have := t.le
    exact_mod_cast Nat.pow_le_pow_right (by norm_num) (by omega)
  have h2 : (2 : ℤ) ^ t.w ≤ 2 ^ 16 := by
    have := t.le
    exact_mod_cast Nat.pow_le_pow_right (by norm_num) (by omega)
  norm_num at *
  split at h <;> omega

theorem signed_bounds (hs : t.signed = true) {k : ℤ} (h : t.Has k) : -32768 ≤ k ∧ k ≤ 32767 := by
  unfold Has min max at h
  have h1 : (2 : ℤ) ^ (t.w - 1) ≤ 2 ^ 15 := by
    have := t.le
    exact_mod_cast Nat.pow_le_pow_right (by norm_num) (by omega)
  rw [if_pos hs, if_pos hs] at h
  norm_num at h1
  omega

theorem unsigned_bounds (hs : t.signed = false) {k : ℤ} (h : t.Has k) : 0 ≤ k := by
  unfold Has min at h
  simp [hs] at h
  exact h.1

theorem is8_bounds (h8 : t.Is8) {k : ℤ} (h : t.Has k) : -128 ≤ k ∧ k ≤ 255 := by
  unfold Has min max at h
  rcases h8 with rfl | rfl <;> norm_num [int8, uint8] at h <;> omega

theorem has_zero : t.Has 0 := by
  unfold Has min max
  have h1 : (0 : ℤ) < 2 ^ (t.w - 1) := by positivity
  have h2 : (0 : ℤ) < 2 ^ t.w := by positivity
  split <;> omega

end Narrow

variable {t : Narrow}

theorem NInt.ext_val {a b : NInt t} (h : a.val = b.val) : a = b := by
  cases a; cases b; simp only [NInt.mk.injEq]; exact h

theorem NInt.ofInt_modEq (k : ℤ) : (NInt.ofInt k : NInt t).val ≡ k [ZMOD 2 ^ t.w] := t.conv_modEq k

theorem NInt.ofInt_val {k : ℤ} (h : t.Has k) : (NInt.ofInt k : NInt t).val = k := t.conv_of_has h

theorem NInt.ofInt_of_modEq {k : ℤ} {x : NInt t} (h : x.val ≡ k [ZMOD 2 ^ t.w]) : NInt.ofInt k = x :=
  NInt.ext_val (t.has_unique (t.conv_has k) x.has ((t.conv_modEq k).trans h.symm))

theorem WrapsTo.unique {r c : Nat} {R S : Mat (NInt t) r c} {f : Fin r → Fin c → ℤ}
    (hR : WrapsTo R f) (hS : WrapsTo S f) : R = S := by
  ext a b
  exact NInt.ext_val (t.has_unique (R a b).has (S a b).has ((hR a b).trans (hS a b).symm))

/-- If the exact values are values of the type, they are the elements. -/
theorem WrapsTo.exact {r c : Nat} {R : Mat (NInt t) r c} {f : Fin r → Fin c → ℤ} (hR : WrapsTo R f)
    (a : Fin r) (b : Fin c) (h : t.Has (f a b)) : (R a b).val = f a b :=
  t.has_unique (R a b).has h (hR a b)

@[simp] theorem load_val (a : NInt t) : (load a : SInt 32).val = a.val := rfl

theorem store_eq (p : SInt 32) : (store p : NInt t) = NInt.ofInt p.val := rfl

theorem store_modEq (p : SInt 32) : (store p : NInt t).val ≡ p.val [ZMOD 2 ^ t.w] := t.conv_modEq _

theorem int_ofInt (k : ℤ) (h1 : -(2 ^ 31) ≤ k) (h2 : k < 2 ^ 31) : (ofInt k : SInt 32).val = k := by
  show Int.bmod k (2 ^ 32) = k
  rw [Int.bmod_def]
  norm_num at *
  split <;> omega

theorem lit_zero : (Promoted.lit 0 : NInt t).val = 0 := by
  unfold Promoted.lit
  rw [store_eq, int_ofInt 0 (by norm_num) (by norm_num), NInt.ofInt_val t.has_zero]

theorem lit_modEq (k : ℤ) (h1 : -(2 ^ 31) ≤ k) (h2 : k < 2 ^ 31) :
    (Promoted.lit k : NInt t).val ≡ k [ZMOD 2 ^ t.w] := by
  unfold Promoted.lit
  have := store_modEq (t := t) (ofInt k : SInt 32)
  rwa [int_ofInt k h1 h2] at this

/-- An `int` operation with exact result `k`. -/
theorem checked_ok {k : ℤ} (h : InRange 32 k) : (SInt.checked k : Res (SInt 32)) = .ok ⟨k, h⟩ := by
  unfold SInt.checked
  rw [dif_pos h]

theorem inRange32 {k : ℤ} (h1 : -2147483648 ≤ k) (h2 : k ≤ 2147483647) : InRange 32 k := by
  unfold InRange
  norm_num
  omega

/-! ## Exact values of `int` expressions -/

/-- The stops of an `int` expression that does not overflow if `G` holds. -/
def OverflowUnless (G : Prop) (e : Stop) : Prop := e = .ub .signedOverflow ∧ ¬ G

/-- The expression has the exact value `v`, whose magnitude is at most `b` if `G` holds. -/
structure Bnd (G : Prop) (p : SInt 32) (v b : ℤ) : Prop where
  val : p.val = v
  abs_le : G → |v| ≤ b

/-- The magnitudes of the values of `t` are at most `β` if `G` holds. -/
def Guard (t : Narrow) (G : Prop) (β : ℤ) : Prop := G → ∀ x, t.Has x → |x| ≤ β

theorem guard8 (t : Narrow) : Guard t t.Is8 255 := by
  intro h8 x hx
  have := t.is8_bounds h8 hx
  rw [abs_le]
  omega

theorem guard_signed (t : Narrow) : Guard t (t.signed = true ∨ t.Is8) 32768 := by
  intro h x hx
  rw [abs_le]
  rcases h with h | h
  · have := t.signed_bounds h hx
    omega
  · have := t.is8_bounds h hx
    omega

section
variable {G : Prop} {p q : SInt 32} {x y a b β : ℤ}

theorem Bnd.load (hG : Guard t G β) (z : NInt t) : Bnd G (load z) z.val β :=
  ⟨rfl, fun h => hG h _ z.has⟩

theorem wp_checked {k c : ℤ} (hk : G → |k| ≤ c) (hc : c ≤ 2147483647) :
    wp (SInt.checked k : Res (SInt 32)) (fun r => Bnd G r k c) (OverflowUnless G) := by
  refine wp_mono (checked_iff k) (fun r hr => ⟨hr.1, hk⟩) (fun e he => ⟨he.1, fun h => he.2 ?_⟩)
  have := abs_le.mp (hk h)
  exact inRange32 (by omega) (by omega)

theorem Bnd.wp_add (hp : Bnd G p x a) (hq : Bnd G q y b) (h : a + b ≤ 2147483647) :
    wp (CScalar.add p q) (fun r => Bnd G r (x + y) (a + b)) (OverflowUnless G) := by
  show wp (SInt.checked (p.val + q.val)) _ _
  rw [hp.val, hq.val]
  exact wp_checked (fun g => (abs_add_le x y).trans (add_le_add (hp.abs_le g) (hq.abs_le g))) h

theorem Bnd.wp_sub (hp : Bnd G p x a) (hq : Bnd G q y b) (h : a + b ≤ 2147483647) :
    wp (CScalar.sub p q) (fun r => Bnd G r (x - y) (a + b)) (OverflowUnless G) := by
  show wp (SInt.checked (p.val - q.val)) _ _
  rw [hp.val, hq.val]
  exact wp_checked (fun g => (abs_sub x y).trans (add_le_add (hp.abs_le g) (hq.abs_le g))) h

theorem Bnd.wp_mul (hp : Bnd G p x a) (hq : Bnd G q y b) (h : a * b ≤ 2147483647) :
    wp (CScalar.mul p q) (fun r => Bnd G r (x * y) (a * b)) (OverflowUnless G) := by
  show wp (SInt.checked (p.val * q.val)) _ _
  rw [hp.val, hq.val]
  refine wp_checked (fun g => ?_) h
  rw [abs_mul]
  exact mul_le_mul (hp.abs_le g) (hq.abs_le g) (abs_nonneg _) ((abs_nonneg _).trans (hp.abs_le g))

theorem Bnd.store (hp : Bnd G p x a) : (store p : NInt t).val ≡ x [ZMOD 2 ^ t.w] := by
  have := store_modEq (t := t) p
  rwa [hp.val] at this

end

/-! ## Elementwise functions -/

namespace Promoted

section generic
variable {T P : Type} [Inhabited T] [CScalar P] [Promo T P] {i j : Nat}

theorem sum_elementwise (A B : Mat T i j) :
    ElementwiseOf (T := T) (fun a b => do .ok (store (← CScalar.add (load (A a b)) (load (B a b))))) (sum A B) := by
  have := elementwise_loop (T := T) (valueInit i j)
    (g := fun it jt => do .ok (store (← CScalar.add (load (← rd A it jt)) (load (← rd B it jt)))))
    (f := fun a b => do .ok (store (← CScalar.add (load (A a b)) (load (B a b)))))
    (fun a b => by simp only [rd_fin, ok_bind])
  simpa only [sum, bind_assoc, ok_bind] using this

theorem sumScalar_elementwise (A : Mat T i j) (s : T) :
    ElementwiseOf (T := T) (fun a b => do .ok (store (← CScalar.add (load (A a b)) (load s)))) (sumScalar A s) := by
  have := elementwise_loop (T := T) (valueInit i j)
    (g := fun it jt => do .ok (store (← CScalar.add (load (← rd A it jt)) (load s))))
    (f := fun a b => do .ok (store (← CScalar.add (load (A a b)) (load s))))
    (fun a b => by simp only [rd_fin, ok_bind])
  simpa only [sumScalar, bind_assoc, ok_bind] using this

theorem sub_elementwise (A B : Mat T i j) :
    ElementwiseOf (T := T) (fun a b => do .ok (store (← CScalar.sub (load (A a b)) (load (B a b))))) (sub A B) := by
  have := elementwise_loop (T := T) (valueInit i j)
    (g := fun it jt => do .ok (store (← CScalar.sub (load (← rd A it jt)) (load (← rd B it jt)))))
    (f := fun a b => do .ok (store (← CScalar.sub (load (A a b)) (load (B a b)))))
    (fun a b => by simp only [rd_fin, ok_bind])
  simpa only [sub, bind_assoc, ok_bind] using this

theorem subScalar_elementwise (A : Mat T i j) (s : T) :
    ElementwiseOf (T := T) (fun a b => do .ok (store (← CScalar.sub (load (A a b)) (load s)))) (subScalar A s) := by
  have := elementwise_loop (T := T) (valueInit i j)
    (g := fun it jt => do .ok (store (← CScalar.sub (load (← rd A it jt)) (load s))))
    (f := fun a b => do .ok (store (← CScalar.sub (load (A a b)) (load s))))
    (fun a b => by simp only [rd_fin, ok_bind])
  simpa only [subScalar, bind_assoc, ok_bind] using this

theorem multScalar_elementwise (A : Mat T i j) (s : T) :
    ElementwiseOf (T := T) (fun a b => do .ok (store (← CScalar.mul (load (A a b)) (load s)))) (multScalar A s) := by
  have := elementwise_loop (T := T) (valueInit i j)
    (g := fun it jt => do .ok (store (← CScalar.mul (load (← rd A it jt)) (load s))))
    (f := fun a b => do .ok (store (← CScalar.mul (load (A a b)) (load s))))
    (fun a b => by simp only [rd_fin, ok_bind])
  simpa only [multScalar, bind_assoc, ok_bind] using this

theorem div_elementwise (h : Option Exc) (A : Mat T i j) (s : T)
    (hs : CScalar.eq (load s) (ofInt 0 : P) = false) :
    ElementwiseOf (T := T) (fun a b => do .ok (store (← CScalar.div (load (A a b)) (load s)))) (div h A s) := by
  have := elementwise_loop (T := T) (valueInit i j)
    (g := fun it jt => do .ok (store (← CScalar.div (load (← rd A it jt)) (load s))))
    (f := fun a b => do .ok (store (← CScalar.div (load (A a b)) (load s))))
    (fun a b => by simp only [rd_fin, ok_bind])
  simpa [div, bind_assoc, hs] using this

theorem abs_elementwise (A : Mat T i j) :
    ElementwiseOf (T := T) (fun a b => do .ok (store (← CScalar.abs (load (A a b))))) (abs A) := by
  have := elementwise_loop (Mat.const none : Mat (Option T) i j)
    (g := fun it jt => do .ok (some (store (← CScalar.abs (load (← rd A it jt))))))
    (f := fun a b => do .ok (some (store (← CScalar.abs (load (A a b))))))
    (fun a b => by simp only [rd_fin, ok_bind])
  unfold abs
  refine ElementwiseOf.copyOut ?_
  simpa only [bind_assoc, ok_bind] using this

/-! ## Multiplication -/

/-- The dot product, every partial sum stored. -/
def dotFrom {n m p : Nat} (A : Mat T n m) (B : Mat T m p) (start : T) (i j : Nat) : Res T :=
  forUp 0 m start fun k acc => do
    let t ← CScalar.mul (load (← rd A i k)) (load (← rd B k j))
    .ok (store (← CScalar.add (load acc) t))

theorem mult_elementwise {n m p : Nat} (A : Mat T n m) (B : Mat T m p) :
    ElementwiseOf (T := T) (fun a b => dotFrom A B (lit 0) a b) (mult A B) := by
  unfold mult
  have hz : (zeros n p : Res (Mat T n p)) = .ok (Mat.const (lit 0)) := fill_ok _ _ _
  rw [hz, ok_bind]
  have h1 := elementwise_loop (Mat.const (lit 0) : Mat T n p)
    (g := fun it jt => dotFrom A B (lit 0) it jt)
    (f := fun a b => dotFrom A B (lit 0) a b) (fun a b => rfl)
  rw [fill_acc (g := fun it jt => dotFrom A B (lit 0) it jt)]
  · exact h1
  · intro a b S hS
    rw [cell_loop (h := fun k v => do
      let t ← CScalar.mul (load (← rd A a.val k)) (load (← rd B k b.val))
      .ok (store (← CScalar.add (load v) t))) a b, hS]
    · rfl
    · intro k S
      simp only [rd_fin, ok_bind, bind_assoc]

end generic

end Promoted

end MatrixLibs
