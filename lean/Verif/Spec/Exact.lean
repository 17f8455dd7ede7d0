import Verif.Model.Scalar
import Verif.Proof.Wp
import Mathlib.Algebra.Field.Basic
import Mathlib.Algebra.Order.Field.Basic
import Mathlib.Algebra.Ring.PUnit
import Mathlib.Tactic.Ring
import Mathlib.Tactic.Positivity

/-!
# What "exact arithmetic" means for an element type

Hypotheses of the property theorems on the element type, with the instances that satisfy them.
-/

namespace MatrixLibs

/-- The operations of `K` return the mathematical results of the ring `K` and never stop. -/
class ExactRing (K : Type) [Ring K] [CScalar K] : Prop where
  add_eq : ∀ a b : K, CScalar.add a b = .ok (a + b)
  sub_eq : ∀ a b : K, CScalar.sub a b = .ok (a - b)
  mul_eq : ∀ a b : K, CScalar.mul a b = .ok (a * b)
  neg_eq : ∀ a : K, CScalar.neg a = .ok (-a)
  ofInt_eq : ∀ k : Int, (CScalar.ofInt k : K) = (k : K)
  eq_iff : ∀ a b : K, CScalar.eq a b = true ↔ a = b

/-- ... and division is the division of the field `K`, undefined for a zero divisor. -/
class ExactField (K : Type) [Field K] [CScalar K] : Prop extends ExactRing K where
  div_eq : ∀ a b : K, b ≠ 0 → CScalar.div a b = .ok (a / b)
  div_zero : ∀ a : K, CScalar.div a 0 = .error (.ub .divisionByZero)
  divSize_eq : ∀ (a : K) (n : Nat), n ≠ 0 → CScalar.divSize a n = .ok (a / (n : K))
  divSize_zero : ∀ a : K, CScalar.divSize a 0 = .error (.ub .divisionByZero)

/-- ... and `<`, `std::abs` are those of the ordered field `K`. -/
class ExactOrdered (K : Type) [Field K] [LinearOrder K] [CScalar K] : Prop
    extends ExactField K where
  lt_iff : ∀ a b : K, CScalar.lt a b = true ↔ a < b
  abs_eq : ∀ a : K, CScalar.abs a = .ok |a|

/-- ... and `sqrt`, when it returns, returns the non-negative square root. -/
class ExactSqrt (K : Type) [Field K] [LinearOrder K] [CScalar K] : Prop
    extends ExactOrdered K where
  sqrt_sound : ∀ a b : K, CScalar.sqrt a = .ok b → 0 ≤ b ∧ b * b = a
  sqrt_stop : ∀ (a : K) (e : Stop), CScalar.sqrt a = .error e → e = .ub .domain

/-- The stops a scalar operation may cause. -/
def ScalarStop (e : Stop) : Prop :=
  e = .ub .signedOverflow ∨ e = .ub .divisionByZero ∨ e = .ub .domain ∨ e = .illFormed

/-- An element type whose operations are arbitrary except that they do not, by themselves, access
memory out of bounds, throw or hang. All instances of the model satisfy it. -/
class ScalarStops (T : Type) [CScalar T] : Prop where
  add : ∀ a b : T, wp (CScalar.add a b) (fun _ => True) ScalarStop
  sub : ∀ a b : T, wp (CScalar.sub a b) (fun _ => True) ScalarStop
  mul : ∀ a b : T, wp (CScalar.mul a b) (fun _ => True) ScalarStop
  div : ∀ a b : T, wp (CScalar.div a b) (fun _ => True) ScalarStop
  neg : ∀ a : T, wp (CScalar.neg a) (fun _ => True) ScalarStop
  abs : ∀ a : T, wp (CScalar.abs a) (fun _ => True) ScalarStop
  sqrt : ∀ a : T, wp (CScalar.sqrt a) (fun _ => True) ScalarStop
  divSize : ∀ (a : T) (n : Nat), wp (CScalar.divSize a n) (fun _ => True) ScalarStop

/-- An interpretation `val` of the element type in a ring `R`: every ring operation either returns
a value with the exact interpretation or stops in a way listed in `Bad`. -/
structure RingSem (T R : Type) [CScalar T] [Ring R] where
  val : T → R
  Bad : Stop → Prop
  add : ∀ a b : T, wp (CScalar.add a b) (fun c => val c = val a + val b) Bad
  sub : ∀ a b : T, wp (CScalar.sub a b) (fun c => val c = val a - val b) Bad
  mul : ∀ a b : T, wp (CScalar.mul a b) (fun c => val c = val a * val b) Bad
  neg : ∀ a : T, wp (CScalar.neg a) (fun c => val c = -val a) Bad
  ofInt : ∀ k : Int, -1 ≤ k → k ≤ 1 → val (CScalar.ofInt k) = (k : R)

/-! ## Instances -/

instance (w : Nat) : ExactRing (BitVec w) where
  add_eq _ _ := rfl
  sub_eq _ _ := rfl
  mul_eq _ _ := rfl
  neg_eq _ := rfl
  ofInt_eq _ := rfl
  eq_iff a b := by simp [CScalar.eq]

instance : ExactSqrt ℚ where
  add_eq _ _ := rfl
  sub_eq _ _ := rfl
  mul_eq _ _ := rfl
  neg_eq _ := rfl
  ofInt_eq _ := rfl
  eq_iff a b := by simp [CScalar.eq]
  div_eq a b h := by simp [CScalar.div, h]
  div_zero a := by simp [CScalar.div]
  divSize_eq a n h := by simp [CScalar.divSize, h]
  divSize_zero a := by simp [CScalar.divSize]
  lt_iff a b := by simp [CScalar.lt]
  abs_eq a := rfl
  sqrt_sound a b h := by
    simp only [CScalar.sqrt] at h
    split at h
    · next h' =>
      cases h
      refine ⟨?_, h'.2⟩
      unfold Rat.sqrt
      have h1 : (0 : ℤ) ≤ Int.sqrt a.num := Int.sqrt_nonneg _
      exact Rat.mkRat_nonneg h1 _
    · cases h
  sqrt_stop a e h := by
    simp only [CScalar.sqrt] at h
    split at h
    · cases h
    · cases h; rfl

instance : ExactSqrt ℝ where
  add_eq _ _ := rfl
  sub_eq _ _ := rfl
  mul_eq _ _ := rfl
  neg_eq _ := rfl
  ofInt_eq _ := rfl
  eq_iff a b := by simp [CScalar.eq]
  div_eq a b h := by simp [CScalar.div, h]
  div_zero a := by simp [CScalar.div]
  divSize_eq a n h := by simp [CScalar.divSize, h]
  divSize_zero a := by simp [CScalar.divSize]
  lt_iff a b := by simp [CScalar.lt]
  abs_eq a := rfl
  sqrt_sound a b h := by
    simp only [CScalar.sqrt] at h
    split at h
    · next h' =>
      cases h
      exact ⟨Real.sqrt_nonneg a, Real.mul_self_sqrt h'⟩
    · cases h
  sqrt_stop a e h := by
    simp only [CScalar.sqrt] at h
    split at h
    · cases h
    · cases h; rfl

theorem real_sqrt_total (a : ℝ) (h : 0 ≤ a) : CScalar.sqrt a = .ok (Real.sqrt a) := by
  simp [CScalar.sqrt, h]

/-- Any field as an element type in exact arithmetic (no order: `<` is constantly false, `std::abs`
and `sqrt` are not available). Shows that the field theorems are not about `ℚ` and `ℝ` only. -/
@[reducible] def fieldScalar (K : Type) [Field K] [DecidableEq K] : CScalar K where
  add a b := .ok (a + b)
  sub a b := .ok (a - b)
  mul a b := .ok (a * b)
  div a b := if b = 0 then .error (.ub .divisionByZero) else .ok (a / b)
  neg a := .ok (-a)
  ofInt k := (k : K)
  eq a b := decide (a = b)
  lt _ _ := false
  abs _ := .error .illFormed
  sqrt _ := .error .illFormed
  divSize a n := if n = 0 then .error (.ub .divisionByZero) else .ok (a / (n : K))

theorem fieldScalar_exact (K : Type) [Field K] [DecidableEq K] :
    @ExactField K _ (fieldScalar K) :=
  letI := fieldScalar K
  { add_eq := fun _ _ => rfl
    sub_eq := fun _ _ => rfl
    mul_eq := fun _ _ => rfl
    neg_eq := fun _ => rfl
    ofInt_eq := fun _ => rfl
    eq_iff := fun a b => by simp [CScalar.eq]
    div_eq := fun a b h => by simp [CScalar.div, h]
    div_zero := fun a => by simp [CScalar.div]
    divSize_eq := fun a n h => by simp [CScalar.divSize, h]
    divSize_zero := fun a => by simp [CScalar.divSize] }

theorem unsignedOf_stop (w : Nat) (o : Option Nat) : wp (unsignedOf w o) (fun _ => True) ScalarStop := by
  unfold unsignedOf
  split
  · split <;> simp [wp, ScalarStop]
  · simp [wp, ScalarStop]

theorem ofTrunc_stop (w : Nat) (o : Option Nat) :
    wp (SInt.ofTrunc o : Res (SInt w)) (fun _ => True) ScalarStop := by
  unfold SInt.ofTrunc
  split
  · split <;> simp [ScalarStop]
  · simp [ScalarStop]

instance (w : Nat) : ScalarStops (BitVec w) where
  add _ _ := trivial
  sub _ _ := trivial
  mul _ _ := trivial
  div a b := by
    simp only [CScalar.div]; split <;> simp [wp, ScalarStop]
  neg _ := trivial
  abs _ := by simp [CScalar.abs, ScalarStop]
  sqrt a := unsignedOf_stop w (sqrtTrunc a.toNat)
  divSize a n := by
    simp only [CScalar.divSize]; split <;> simp [wp, ScalarStop]

theorem checked_wp (w : Nat) (k : Int) :
    wp (SInt.checked (w := w) k) (fun c => c.val = k) (fun e => e = .ub .signedOverflow) := by
  unfold SInt.checked
  split <;> simp [wp]

theorem checked_stop (w : Nat) (k : Int) :
    wp (SInt.checked (w := w) k) (fun _ => True) ScalarStop :=
  wp_mono (checked_wp w k) (fun _ _ => trivial) (fun e h => by simp [ScalarStop, h])

instance (w : Nat) : ScalarStops (SInt w) where
  add _ _ := checked_stop w _
  sub _ _ := checked_stop w _
  mul _ _ := checked_stop w _
  div a b := by
    simp only [CScalar.div]; split
    · simp [wp, ScalarStop]
    · exact checked_stop w _
  neg _ := checked_stop w _
  abs _ := checked_stop w _
  sqrt a := ofTrunc_stop w (sqrtTrunc a.val)
  divSize a n := by
    simp only [CScalar.divSize]; split <;> simp [wp, ScalarStop]

instance : ScalarStops ℚ where
  add _ _ := trivial
  sub _ _ := trivial
  mul _ _ := trivial
  div a b := by
    simp only [CScalar.div]; split <;> simp [wp, ScalarStop]
  neg _ := trivial
  abs _ := trivial
  sqrt a := by
    simp only [CScalar.sqrt]; split <;> simp [wp, ScalarStop]
  divSize a n := by
    simp only [CScalar.divSize]; split <;> simp [wp, ScalarStop]

instance : ScalarStops ℝ where
  add _ _ := trivial
  sub _ _ := trivial
  mul _ _ := trivial
  div a b := by
    simp only [CScalar.div]; split <;> simp [wp, ScalarStop]
  neg _ := trivial
  abs _ := trivial
  sqrt a := by
    simp only [CScalar.sqrt]; split <;> simp [wp, ScalarStop]
  divSize a n := by
    simp only [CScalar.divSize]; split <;> simp [wp, ScalarStop]

theorem bmod_small {w : Nat} (hw : 2 ≤ w) {k : Int} (h1 : -1 ≤ k) (h2 : k ≤ 1) :
    Int.bmod k (2 ^ w) = k := by
  have hp : (4 : Nat) ≤ 2 ^ w := by
    calc 4 = 2 ^ 2 := rfl
      _ ≤ 2 ^ w := Nat.pow_le_pow_right (by norm_num) hw
  rw [Int.bmod_eq_of_le_mul_two]
  · have : (4 : Int) ≤ ((2 ^ w : Nat) : Int) := by exact_mod_cast hp
    omega
  · have : (4 : Int) ≤ ((2 ^ w : Nat) : Int) := by exact_mod_cast hp
    omega

/-- Exact arithmetic interprets an element as itself and never stops. -/
def RingSem.exact (K : Type) [Ring K] [CScalar K] [ExactRing K] : RingSem K K where
  val := id
  Bad _ := False
  add a b := by rw [ExactRing.add_eq]; simp
  sub a b := by rw [ExactRing.sub_eq]; simp
  mul a b := by rw [ExactRing.mul_eq]; simp
  neg a := by rw [ExactRing.neg_eq]; simp
  ofInt k _ _ := by rw [ExactRing.ofInt_eq]; rfl

/-- Signed integers: the exact integer, or signed overflow. -/
def RingSem.signed (w : Nat) (hw : 2 ≤ w) : RingSem (SInt w) ℤ where
  val := SInt.val
  Bad e := e = .ub .signedOverflow
  add _ _ := checked_wp w _
  sub _ _ := checked_wp w _
  mul _ _ := checked_wp w _
  neg _ := checked_wp w _
  ofInt k h1 h2 := by
    show Int.bmod k (2 ^ w) = _
    rw [bmod_small hw h1 h2]; rfl

/-- Any element type: forget the values, keep the stops. -/
def RingSem.stops (T : Type) [CScalar T] [ScalarStops T] : RingSem T PUnit where
  val _ := 0
  Bad := ScalarStop
  add a b := wp_mono (ScalarStops.add a b) (fun _ _ => rfl) (fun _ h => h)
  sub a b := wp_mono (ScalarStops.sub a b) (fun _ _ => rfl) (fun _ h => h)
  mul a b := wp_mono (ScalarStops.mul a b) (fun _ _ => rfl) (fun _ h => h)
  neg a := wp_mono (ScalarStops.neg a) (fun _ _ => rfl) (fun _ h => h)
  ofInt _ _ _ := rfl

end MatrixLibs
