import Verif.Model.Scalar

/-!
# Which operation of the element type a call stopped like
-/

namespace MatrixLibs

/-- The operations of the element type that may stop. -/
inductive Op where
  | add | sub | mul | div | neg | abs | sqrt | divSize
  deriving DecidableEq

/-- The operation `o` stops in this way for some operands. -/
def Op.Stops (T : Type) [CScalar T] (o : Op) (e : Stop) : Prop :=
  match o with
  | .add => ∃ a b : T, CScalar.add a b = .error e
  | .sub => ∃ a b : T, CScalar.sub a b = .error e
  | .mul => ∃ a b : T, CScalar.mul a b = .error e
  | .div => ∃ a b : T, CScalar.div a b = .error e
  | .neg => ∃ a : T, CScalar.neg a = .error e
  | .abs => ∃ a : T, CScalar.abs a = .error e
  | .sqrt => ∃ a : T, CScalar.sqrt a = .error e
  | .divSize => ∃ (a : T) (n : Nat), CScalar.divSize a n = .error e

/-- One of the operations stops in this way. -/
def OneStops (T : Type) [CScalar T] (ops : List Op) (e : Stop) : Prop := ∃ o ∈ ops, o.Stops T e

/-- The call returns, or stops in a way in which one of these operations of the element type stops. -/
def OnlyStops (T : Type) [CScalar T] (ops : List Op) {α : Type} (x : Res α) : Prop :=
  ∀ e, x = .error e → OneStops T ops e

/-- What `throw;` does: it throws the exception being handled again, or calls `std::terminate` if there is none. -/
def rethrown : Option Exc → Stop
  | some e => .throws e
  | none => .terminates

end MatrixLibs
