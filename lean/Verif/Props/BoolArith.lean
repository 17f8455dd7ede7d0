import Verif.Proof.Bool
import Verif.Proof.NarrowPow
import Mathlib.Logic.Relation
import Mathlib.LinearAlgebra.Matrix.Notation

/-!
# Properties C115 and C116: arithmetic on `bool` matrices
-/

namespace MatrixLibs

set_option linter.unusedSectionVars false

open Promo (load store)
open CScalar (ofInt)

variable {i j n m p q : Nat}

/-! ## C115: element by element -/

/-- C115: `A + B` is the disjunction, `A - B` the exclusive disjunction of the elements. -/
theorem C115_add_sub (A B : Mat Bool i j) :
    Promoted.sum A B = .ok (.of fun a b => A a b || B a b) ∧
    Promoted.sub A B = .ok (.of fun a b => A a b ^^ B a b) :=
  ⟨((Promoted.sum_elementwise A B).1 _).mpr fun a b => bool_add (A a b) (B a b),
    ((Promoted.sub_elementwise A B).1 _).mpr fun a b => bool_sub (A a b) (B a b)⟩

/-- C115: the same with a scalar; `A * s` is the conjunction. -/
theorem C115_scalar (A : Mat Bool i j) (s : Bool) :
    Promoted.sumScalar A s = .ok (.of fun a b => A a b || s) ∧
    Promoted.subScalar A s = .ok (.of fun a b => A a b ^^ s) ∧
    Promoted.multScalar A s = .ok (.of fun a b => A a b && s) :=
  ⟨((Promoted.sumScalar_elementwise A s).1 _).mpr fun a b => bool_add (A a b) s,
    ((Promoted.subScalar_elementwise A s).1 _).mpr fun a b => bool_sub (A a b) s,
    ((Promoted.multScalar_elementwise A s).1 _).mpr fun a b => bool_mul (A a b) s⟩

/-- C115: `A++` returns a matrix that is true everywhere, `A--` the complement of `A`; neither changes `A`. -/
theorem C115_inc_dec (A : Mat Bool i j) :
    Promoted.opPostInc A = .ok (A, .of fun _ _ => true) ∧
    Promoted.opPostDec A = .ok (A, .of fun a b => !A a b) := by
  unfold Promoted.opPostInc Promoted.opPostDec
  rw [bool_lit_one, (C115_scalar A true).1, (C115_scalar A true).2.1]
  constructor
  · show Except.ok _ = Except.ok _
    congr 2
    ext a b
    exact Bool.or_true _
  · show Except.ok _ = Except.ok _
    congr 2
    ext a b
    exact Bool.xor_true _

/-- C115: division by `true` changes nothing; division by `false` is the bare `throw` of every division by zero. -/
theorem C115_div (handled : Option Exc) (A : Mat Bool i j) :
    Promoted.div handled A true = .ok A ∧
    Promoted.div handled A false = match handled with
      | some e => .error (.throws e)
      | none => .error .terminates := by
  refine ⟨((Promoted.div_elementwise handled A true (by decide +kernel)).1 A).mpr fun a b => bool_div_true _, ?_⟩
  unfold Promoted.div
  rw [if_pos (by decide +kernel)]
  cases handled <;> rfl

/-- C115: `abs(A)` is `A`. -/
theorem C115_abs (A : Mat Bool i j) : Promoted.abs A = .ok A :=
  ((Promoted.abs_elementwise A).1 A).mpr fun _ _ => bool_abs _

/-- C115: subtraction does not undo addition, addition does not undo subtraction: `A - B + B` is `A + B`, and
`A + B - B` is `A` without `B`. -/
theorem C115_no_inverse (A B : Mat Bool i j) :
    (do Promoted.sum (← Promoted.sub A B) B) = Promoted.sum A B ∧
    (do Promoted.sub (← Promoted.sum A B) B) = .ok (.of fun a b => A a b && !B a b) := by
  rw [(C115_add_sub A B).1, (C115_add_sub A B).2, ok_bind, ok_bind, (C115_add_sub _ B).1, (C115_add_sub _ B).2]
  constructor
  · congr 1
    ext a b
    simp only [Matrix.of_apply]
    cases A a b <;> cases B a b <;> rfl
  · congr 1
    ext a b
    simp only [Matrix.of_apply]
    cases A a b <;> cases B a b <;> rfl

/-- C115: `zeros`, `ones` and `eye`. -/
theorem C115_contents :
    (Promoted.zeros i j : Res (Mat Bool i j)) = .ok (.of fun _ _ => false) ∧
    (Promoted.ones i i : Res (Mat Bool i i)) = .ok (.of fun _ _ => true) ∧
    (Promoted.eye1 n : Res (Mat Bool n n)) = .ok (.of fun a b => decide (a = b)) := by
  refine ⟨?_, ?_, ?_⟩
  · unfold Promoted.zeros
    rw [fill_ok, bool_lit_zero]
    rfl
  · rw [Promoted.ones_fill, bool_lit_one]
    rfl
  · rw [Promoted.eye1_eq, bool_lit_zero, bool_lit_one]
    congr 1

example : Promoted.sum !![true, false; true, true] !![true, true; false, false] =
    .ok (!![true, true; true, true] : Mat Bool 2 2) := by decide +kernel
example : Promoted.sub !![true, false; false, true] !![true, true; false, false] =
    .ok (!![false, true; false, true] : Mat Bool 2 2) := by decide +kernel

/-! ## C116: products and powers -/

/-- C116: `A * B` is the product of Boolean matrices, for every size; it always returns. -/
theorem C116_mul (A : Mat Bool n m) (B : Mat Bool m p) :
    ∃ P, Promoted.mult A B = .ok P ∧ ∀ a b, P a b = true ↔ ∃ k, A a k = true ∧ B k b = true :=
  ⟨_, bool_mult A B, boolMul_iff A B⟩

/-- C116: it is associative, distributes over `+`, and `eye()` is neutral. -/
theorem C116_laws (A : Mat Bool n m) (B C : Mat Bool m p) (D : Mat Bool p q) :
    (do Promoted.mult (← Promoted.mult A B) D) = (do Promoted.mult A (← Promoted.mult B D)) ∧
    (do Promoted.mult A (← Promoted.sum B C)) = (do Promoted.sum (← Promoted.mult A B) (← Promoted.mult A C)) ∧
    (do Promoted.mult (← Promoted.sum B C) D) = (do Promoted.sum (← Promoted.mult B D) (← Promoted.mult C D)) ∧
    (do Promoted.mult A (← Promoted.eye1 m)) = .ok A ∧ (do Promoted.mult (← Promoted.eye1 n) A) = .ok A := by
  refine ⟨?_, ?_, ?_, ?_, ?_⟩
  · simp only [bool_mult, ok_bind, boolMul_assoc]
  · simp only [bool_mult, ok_bind, (C115_add_sub _ _).1]
    congr 1
    ext a b
    rw [Bool.eq_iff_iff]
    simp only [Matrix.of_apply, boolMul_iff, Bool.or_eq_true]
    constructor
    · rintro ⟨k, h, h1 | h1⟩
      · exact .inl ⟨k, h, h1⟩
      · exact .inr ⟨k, h, h1⟩
    · rintro (⟨k, h, h1⟩ | ⟨k, h, h1⟩)
      · exact ⟨k, h, .inl h1⟩
      · exact ⟨k, h, .inr h1⟩
  · simp only [bool_mult, ok_bind, (C115_add_sub _ _).1]
    congr 1
    ext a b
    rw [Bool.eq_iff_iff]
    simp only [Matrix.of_apply, boolMul_iff, Bool.or_eq_true]
    constructor
    · rintro ⟨k, h1 | h1, h⟩
      · exact .inl ⟨k, h1, h⟩
      · exact .inr ⟨k, h1, h⟩
    · rintro (⟨k, h1, h⟩ | ⟨k, h1, h⟩)
      · exact ⟨k, .inl h1, h⟩
      · exact ⟨k, .inr h1, h⟩
  · rw [(C115_contents (i := m) (j := m)).2.2, ok_bind, bool_mult]
    congr 1
    ext a b
    rw [Bool.eq_iff_iff, boolMul_iff]
    simp
  · rw [(C115_contents (i := n) (j := n)).2.2, ok_bind, bool_mult]
    congr 1
    ext a b
    rw [Bool.eq_iff_iff, boolMul_iff]
    simp

section walks
variable (A : Mat Bool n n)

theorem walk_zero (a b : Fin n) : Walk A 0 a b ↔ a = b := by
  constructor
  · rintro ⟨v, rfl, h, -⟩
    exact h
  · rintro rfl
    exact ⟨fun _ => a, rfl, rfl, fun k hk => absurd hk (Nat.not_lt_zero k)⟩

theorem walk_succ (p : Nat) (a b : Fin n) : Walk A (p + 1) a b ↔ ∃ k, Walk A p a k ∧ A k b = true := by
  constructor
  · rintro ⟨v, h0, hp, h⟩
    exact ⟨v p, ⟨v, h0, rfl, fun k hk => h k (by omega)⟩, hp ▸ h p (by omega)⟩
  · rintro ⟨k, ⟨v, h0, rfl, h⟩, hk⟩
    refine ⟨fun x => if x ≤ p then v x else b, by simp [h0], by simp, fun x hx => ?_⟩
    rcases Nat.lt_succ_iff_lt_or_eq.mp hx with h1 | rfl
    · simp only [if_pos (show x ≤ p by omega), if_pos (show x + 1 ≤ p by omega)]
      exact h x h1
    · simp only [le_refl, if_true, if_neg (show ¬ x + 1 ≤ x by omega)]
      exact hk

theorem walk_one (a b : Fin n) : Walk A 1 a b ↔ A a b = true := by
  rw [walk_succ]
  simp only [walk_zero, exists_eq_left']

theorem walk_add (p q : Nat) (a b : Fin n) : Walk A (p + q) a b ↔ ∃ k, Walk A p a k ∧ Walk A q k b := by
  induction q generalizing b with
  | zero => simp only [add_zero, walk_zero, exists_eq_right]
  | succ q ih =>
    rw [← add_assoc, walk_succ]
    constructor
    · rintro ⟨k, h, hk⟩
      obtain ⟨l, h1, h2⟩ := (ih k).mp h
      exact ⟨l, h1, (walk_succ A q l b).mpr ⟨k, h2, hk⟩⟩
    · rintro ⟨l, h1, h2⟩
      obtain ⟨k, h3, hk⟩ := (walk_succ A q l b).mp h2
      exact ⟨k, (ih k).mpr ⟨l, h1, h3⟩, hk⟩

theorem bool_powStep (handled : Option Exc) (w p d : Nat)
    (ih : wp (Promoted.powFuel handled w d A ((p / 2 : Nat) : Int))
      (fun P => ∀ a b, P a b = true ↔ Walk A (p / 2) a b) (fun _ => False)) :
    wp (Promoted.powStep handled w d A p) (fun P => ∀ a b, P a b = true ↔ Walk A p a b) (fun _ => False) := by
  unfold Promoted.powStep
  rw [wp_bind]
  refine wp_mono ih ?_ (fun _ h => h)
  intro P hP
  have hsq : ∀ a b, boolMul P P a b = true ↔ Walk A (p / 2 + p / 2) a b := by
    intro a b
    simp only [boolMul_iff, hP, walk_add]
  split
  · next h2 =>
    rw [bool_mult, wp_ok]
    rwa [show p / 2 + p / 2 = p by omega] at hsq
  · next h2 =>
    rw [bool_mult, ok_bind, bool_mult, wp_ok]
    intro a b
    rw [boolMul_iff]
    simp only [hsq]
    rw [← walk_succ, show p / 2 + p / 2 + 1 = p by omega]

theorem bool_powFuel (handled : Option Exc) (w : Nat) :
    ∀ p d : Nat, p.log2 + 1 ≤ d → wp (Promoted.powFuel handled w d A (p : Int))
      (fun P => ∀ a b, P a b = true ↔ Walk A p a b) (fun _ => False) := by
  intro p
  induction p using Nat.strong_induction_on with
  | _ p ih =>
    intro d hd
    obtain ⟨d, rfl⟩ : ∃ k, d = k + 1 := ⟨d - 1, by omega⟩
    rcases (show p = 0 ∨ p = 1 ∨ 2 ≤ p by omega) with rfl | rfl | hp
    · rw [Promoted.powFuel, if_pos Nat.cast_zero, (C115_contents (i := n) (j := n)).2.2, wp_ok]
      intro a b
      rw [walk_zero, Matrix.of_apply, decide_eq_true_iff]
    · rw [Promoted.powFuel, if_neg (by omega), if_pos Nat.cast_one, wp_ok]
      exact fun a b => (walk_one A a b).symm
    · have hlog : p.log2 = (p / 2).log2 + 1 := by
        rw [Nat.log2_def, if_pos hp]
      rw [Promoted.powFuel_step _ _ _ _ _ hp]
      exact bool_powStep A handled w p d (ih (p / 2) (by omega) d (by omega))

end walks

/-- C116: `pow(A, p)`, `p ≥ 0`, is true at `(a, b)` exactly if the graph whose adjacency matrix is `A` has a walk of
`p` steps from `a` to `b`. (It compiles for `n ≥ 4`.) -/
theorem C116_pow (handled : Option Exc) (w : Nat) (A : Mat Bool n n) (p : Nat) :
    ∃ P, Promoted.pow handled w A (p : Int) = .ok P ∧ ∀ a b, P a b = true ↔ Walk A p a b := by
  unfold Promoted.pow
  rw [Int.natAbs_natCast]
  exact wp_total (bool_powFuel A handled w p _ (by omega))

theorem walk_short (A : Mat Bool n n) (a b : Fin n) (l : Nat) (h : Walk A l a b) : ∃ k, k + 1 ≤ n ∧ Walk A k a b := by
  classical
  let l0 := Nat.find (⟨l, h⟩ : ∃ l, Walk A l a b)
  have h0 : Walk A l0 a b := Nat.find_spec (⟨l, h⟩ : ∃ l, Walk A l a b)
  refine ⟨l0, ?_, h0⟩
  by_contra hc
  obtain ⟨v, hv0, hvl, hv⟩ := h0
  obtain ⟨x, y, hxy, he⟩ := Fintype.exists_ne_map_eq_of_card_lt (fun k : Fin (l0 + 1) => v k.val)
    (by rw [Fintype.card_fin, Fintype.card_fin]; omega)
  have key : ∀ x y : Nat, x < y → y ≤ l0 → v x = v y → False := by
    intro x y hxy hy he
    have h1 : Walk A x a (v x) := ⟨v, hv0, rfl, fun k hk => hv k (by omega)⟩
    have h2 : Walk A (l0 - y) (v x) b := by
      refine ⟨fun k => v (y + k), he.symm, ?_, fun k hk => hv (y + k) (by omega)⟩
      show v (y + (l0 - y)) = b
      rw [Nat.add_sub_cancel' hy, hvl]
    have h3 := (walk_add A x (l0 - y) a b).mpr ⟨_, h1, h2⟩
    exact Nat.find_min (⟨l, h⟩ : ∃ l, Walk A l a b) (m := x + (l0 - y)) (show _ < l0 by omega) h3
  rcases Nat.lt_or_gt_of_ne (fun h => hxy (Fin.ext h)) with h | h
  · exact key x y h (by omega) he
  · exact key y x h (by omega) he.symm

theorem walk_reflTrans (A : Mat Bool n n) (a b : Fin n) :
    (∃ l, Walk A l a b) ↔ Relation.ReflTransGen (fun x y => A x y = true) a b := by
  constructor
  · rintro ⟨l, h⟩
    induction l generalizing b with
    | zero => rw [(walk_zero A a b).mp h]
    | succ l ih =>
      obtain ⟨k, h1, h2⟩ := (walk_succ A l a b).mp h
      exact (ih k h1).tail h2
  · intro h
    induction h with
    | refl => exact ⟨0, (walk_zero A a a).mpr rfl⟩
    | tail _ h2 ih =>
      obtain ⟨l, hl⟩ := ih
      exact ⟨l + 1, (walk_succ A l a _).mpr ⟨_, hl, h2⟩⟩

theorem walk_lazy (A : Mat Bool n n) (p : Nat) (a b : Fin n) :
    Walk (.of fun x y => A x y || decide (x = y)) p a b ↔ ∃ l ≤ p, Walk A l a b := by
  induction p generalizing b with
  | zero =>
    rw [walk_zero]
    constructor
    · rintro rfl
      exact ⟨0, le_rfl, (walk_zero A a a).mpr rfl⟩
    · rintro ⟨l, hl, h⟩
      obtain rfl : l = 0 := by omega
      exact (walk_zero A a b).mp h
  | succ p ih =>
    rw [walk_succ]
    constructor
    · rintro ⟨k, h1, h2⟩
      obtain ⟨l, hl, h⟩ := (ih k).mp h1
      rw [Matrix.of_apply, Bool.or_eq_true, decide_eq_true_iff] at h2
      rcases h2 with h2 | rfl
      · exact ⟨l + 1, by omega, (walk_succ A l a b).mpr ⟨k, h, h2⟩⟩
      · exact ⟨l, by omega, h⟩
    · rintro ⟨l, hl, h⟩
      rcases Nat.lt_or_ge l (p + 1) with hl' | hl'
      · exact ⟨b, (ih b).mpr ⟨l, by omega, h⟩, by simp⟩
      · obtain rfl : l = p + 1 := by omega
        obtain ⟨k, h1, h2⟩ := (walk_succ A p a b).mp h
        exact ⟨k, (ih k).mpr ⟨p, le_rfl, h1⟩, by rw [Matrix.of_apply, h2, Bool.true_or]⟩

/-- C116: `pow(A + eye(), p)` with `p ≥ n - 1` is reachability: true at `(a, b)` exactly if `b` can be reached from `a`
along edges of `A`. -/
theorem C116_closure (handled : Option Exc) (w : Nat) (A : Mat Bool n n) (p : Nat) (hp : n ≤ p + 1) :
    ∃ P, (do Promoted.pow handled w (← Promoted.sum A (← Promoted.eye1 n)) (p : Int)) = .ok P ∧
      ∀ a b, P a b = true ↔ Relation.ReflTransGen (fun x y => A x y = true) a b := by
  rw [(C115_contents (i := n) (j := n)).2.2, ok_bind, (C115_add_sub _ _).1, ok_bind]
  obtain ⟨P, h1, h2⟩ := C116_pow handled w (.of fun x y => A x y || decide (x = y)) p
  refine ⟨P, h1, fun a b => ?_⟩
  rw [h2, walk_lazy, ← walk_reflTrans]
  constructor
  · rintro ⟨l, -, h⟩
    exact ⟨l, h⟩
  · rintro ⟨l, h⟩
    obtain ⟨k, hk, h⟩ := walk_short A a b l h
    exact ⟨k, by omega, h⟩

/-- A cycle of four nodes: after 3 steps, then reachability. -/
example : Promoted.pow none 32 (Matrix.of fun a b => decide (b = a + 1) : Mat Bool 4 4) 3 =
    .ok (Matrix.of fun a b => decide (b = a + 3)) := by decide +kernel
example : Promoted.pow none 32 (Matrix.of fun a b => decide (b = a + 1) || decide (a = b) : Mat Bool 4 4) 3 =
    .ok (Matrix.of fun _ _ => true) := by decide +kernel

/-- C116: only permutation matrices have an inverse for this product, on either side. -/
theorem C116_units (A : Mat Bool n n) :
    (∃ B, Promoted.mult A B = Promoted.eye1 n) ↔ IsPermutation A := by
  rw [(C115_contents (i := n) (j := n)).2.2]
  simp only [bool_mult]
  constructor
  · rintro ⟨B, h⟩
    have hB : ∀ a b, (∃ k, A a k = true ∧ B k b = true) ↔ a = b := by
      intro a b
      rw [← boolMul_iff, Except.ok.inj h, Matrix.of_apply, decide_eq_true_iff]
    choose s hs1 hs2 using fun a => (hB a a).mpr rfl
    have hinj : Function.Injective s := fun a b h => (hB a b).mp ⟨s a, hs1 a, h ▸ hs2 b⟩
    have hbij : Function.Bijective s := Finite.injective_iff_bijective.mp hinj
    refine ⟨Equiv.ofBijective s hbij, fun a b => ⟨fun h => ?_, fun h => ?_⟩⟩
    · obtain ⟨c, rfl⟩ := hbij.2 b
      have := (hB a c).mp ⟨s c, h, hs2 c⟩
      rw [this]
      rfl
    · rw [h]
      exact hs1 a
  · rintro ⟨σ, h⟩
    refine ⟨A.transpose, congrArg Except.ok ?_⟩
    ext a b
    rw [Bool.eq_iff_iff, boolMul_iff, Matrix.of_apply, decide_eq_true_iff]
    simp only [Matrix.transpose_apply, h]
    constructor
    · rintro ⟨k, rfl, h⟩
      exact σ.injective h
    · rintro rfl
      exact ⟨_, rfl, rfl⟩

end MatrixLibs
