import Verif.Spec.Float

/-!
# Powers of two, and results that stay in the range of the format

Vocabulary of C148.
-/

namespace MatrixLibs

variable {F : Fmt}

/-- The quotient `a / b` of numbers of units (`b ≠ 0`) is at least the smallest normal number or is a number of the format. -/
def Fmt.NoUnderflow (F : Fmt) (a b : Nat) : Prop := 2 ^ (F.p - 1) * b ≤ a ∨ Fl.roundQuot F a b * b = a

instance (a b : Nat) : Decidable (F.NoUnderflow a b) := by unfold Fmt.NoUnderflow; infer_instance

/-- The product is finite and has not underflowed. -/
def Fl.MulInRange : Fl F → Fl F → Prop
  | .fin s M h, .fin t N h' => (Fl.mul (.fin s M h) (.fin t N h')).Finite ∧ F.NoUnderflow (M * N) F.unit
  | _, _ => False

/-- The quotient is finite and has not underflowed. -/
def Fl.DivInRange : Fl F → Fl F → Prop
  | .fin s M h, .fin t N h' => (Fl.div (.fin s M h) (.fin t N h')).Finite ∧ F.NoUnderflow (M * F.unit) N
  | _, _ => False

instance (a b : Fl F) : Decidable (Fl.MulInRange a b) := by cases a <;> cases b <;> unfold Fl.MulInRange <;> infer_instance
instance (a b : Fl F) : Decidable (Fl.DivInRange a b) := by cases a <;> cases b <;> unfold Fl.DivInRange <;> infer_instance

/-- `a` if `p`, else stop. -/
def guarded {α : Type} (p : Prop) [Decidable p] (a : α) : Res α := if p then .ok a else .error (.ub .domain)

namespace Fl

/-- `a + b`, if that is finite (it never underflows). -/
def gAdd (a b : Fl F) : Res (Fl F) := guarded (a.add b).Finite (a.add b)
/-- `a - b`, if that is finite (it never underflows). -/
def gSub (a b : Fl F) : Res (Fl F) := guarded (a.sub b).Finite (a.sub b)
/-- `a * b`, if it is in range. -/
def gMul (a b : Fl F) : Res (Fl F) := guarded (a.MulInRange b) (a.mul b)
/-- `a / b`, if it is in range. -/
def gDiv (a b : Fl F) : Res (Fl F) := guarded (a.DivInRange b) (a.div b)
/-- `sqrt(a)`, if that is finite (it never underflows). -/
def gSqrt (a : Fl F) : Res (Fl F) := guarded a.sqrt.Finite a.sqrt

end Fl

/-- Floating point numbers with operations that stop if the result leaves the range. A call on such numbers returns a
value if no operation in it leaves the range. -/
def Guarded (F : Fmt) : Type := Fl F

instance : Inhabited (Guarded F) := inferInstanceAs (Inhabited (Fl F))

instance guardedScalar (F : Fmt) : CScalar (Guarded F) where
  add := Fl.gAdd (F := F)
  sub := Fl.gSub (F := F)
  mul := Fl.gMul (F := F)
  div := Fl.gDiv (F := F)
  neg a := .ok (Fl.neg (F := F) a)
  ofInt := Fl.ofInt (F := F)
  eq := Fl.eq (F := F)
  lt := Fl.lt (F := F)
  abs a := .ok (Fl.abs (F := F) a)
  sqrt := Fl.gSqrt (F := F)
  divSize a n := Fl.gDiv (F := F) a (Fl.ofInt n)

/-- The sign bit. -/
def Fl.signBit : Fl F → Bool
  | .nan => false
  | .inf s => s
  | .fin s _ _ => s

/-- Finite numbers: `b` is `2 ^ k * a`. -/
def Fl.TimesPow (k : ℤ) (a b : Fl F) : Prop := a.Finite ∧ b.Finite ∧ a.signBit = b.signBit ∧ b.val = 2 ^ k * a.val

/-- The same of all elements, with an exponent for each position. -/
def TimesPows {r c : Nat} (k : Fin r → Fin c → ℤ) (A B : Mat (Fl F) r c) : Prop := ∀ i j, (A i j).TimesPow (k i j) (B i j)

end MatrixLibs
