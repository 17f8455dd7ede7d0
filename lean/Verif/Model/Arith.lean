import Verif.Model.Movement

/-!
# Elementwise arithmetic, multiplication, division, absolute value, Strassen

`matrix_sum.hpp`, `matrix_sub.hpp`, `matrix_mult.hpp`, `matrix_div.hpp`, `matrix_abs.hpp`,
`matrix_strassen.hpp`.
-/

namespace MatrixLibs

variable {T : Type} [Inhabited T] [CScalar T]

open CScalar (ofInt)

/-- `sum(A, B)`, `matrix_sum.hpp:32-45`. -/
def sum {i j : Nat} (A B : Mat T i j) : Res (Mat T i j) :=
  forUp 0 i (valueInit i j) fun it sum =>
    forUp 0 j sum fun jt sum => do
      wr sum it jt (← CScalar.add (← rd A it jt) (← rd B it jt))

/-- `sum(A, scalar)`, `matrix_sum.hpp:56-69`. -/
def sumScalar {i j : Nat} (A : Mat T i j) (scalar : T) : Res (Mat T i j) :=
  forUp 0 i (valueInit i j) fun it sum =>
    forUp 0 j sum fun jt sum => do
      wr sum it jt (← CScalar.add (← rd A it jt) scalar)

/-- `A + B`, `matrix_sum.hpp:80-84`. -/
def opAdd {i j : Nat} (A B : Mat T i j) : Res (Mat T i j) := sum A B

/-- `A + scalar`, `matrix_sum.hpp:95-99`. -/
def opAddScalar {i j : Nat} (A : Mat T i j) (scalar : T) : Res (Mat T i j) := sumScalar A scalar

/-- `scalar + A`, `matrix_sum.hpp:110-114`. -/
def opScalarAdd {i j : Nat} (scalar : T) (A : Mat T i j) : Res (Mat T i j) := sumScalar A scalar

/-- `A++`, `matrix_sum.hpp:125-129`. The operand is a `const` reference: the first component of
the result is the operand after the call, the second the returned value. -/
def opPostInc {i j : Nat} (A : Mat T i j) : Res (Mat T i j × Mat T i j) := do
  let v ← opAddScalar A (ofInt 1)
  .ok (A, v)

/-- `sub(A, B)`, `matrix_sub.hpp:32-45`. -/
def sub {i j : Nat} (A B : Mat T i j) : Res (Mat T i j) :=
  forUp 0 i (valueInit i j) fun it sub =>
    forUp 0 j sub fun jt sub => do
      wr sub it jt (← CScalar.sub (← rd A it jt) (← rd B it jt))

/-- `sub(A, scalar)`, `matrix_sub.hpp:56-69`. -/
def subScalar {i j : Nat} (A : Mat T i j) (scalar : T) : Res (Mat T i j) :=
  forUp 0 i (valueInit i j) fun it sub =>
    forUp 0 j sub fun jt sub => do
      wr sub it jt (← CScalar.sub (← rd A it jt) scalar)

/-- `A - B`, `matrix_sub.hpp:80-84`. -/
def opSub {i j : Nat} (A B : Mat T i j) : Res (Mat T i j) := sub A B

/-- `A - scalar`, `matrix_sub.hpp:95-99`. -/
def opSubScalar {i j : Nat} (A : Mat T i j) (scalar : T) : Res (Mat T i j) := subScalar A scalar

/-- `A--`, `matrix_sub.hpp:110-114`; operand after the call and returned value. -/
def opPostDec {i j : Nat} (A : Mat T i j) : Res (Mat T i j × Mat T i j) := do
  let v ← opSubScalar A (ofInt 1)
  .ok (A, v)

/-- `mult(A, B)`, `matrix_mult.hpp:32-48`. -/
def mult {n m p : Nat} (A : Mat T n m) (B : Mat T m p) : Res (Mat T n p) := do
  let prod ← zeros n p
  forUp 0 n prod fun i prod =>
    forUp 0 p prod fun j prod =>
      forUp 0 m prod fun k prod => do
        let t ← CScalar.mul (← rd A i k) (← rd B k j)
        wr prod i j (← CScalar.add (← rd prod i j) t)

/-- `mult(A, scalar)`, `matrix_mult.hpp:59-72`. -/
def multScalar {i j : Nat} (A : Mat T i j) (scalar : T) : Res (Mat T i j) :=
  forUp 0 i (valueInit i j) fun it prod =>
    forUp 0 j prod fun jt prod => do
      wr prod it jt (← CScalar.mul (← rd A it jt) scalar)

/-- `A * B`, `matrix_mult.hpp:83-87`. -/
def opMul {n m p : Nat} (A : Mat T n m) (B : Mat T m p) : Res (Mat T n p) := mult A B

/-- `A * scalar`, `matrix_mult.hpp:98-102`. -/
def opMulScalar {i j : Nat} (A : Mat T i j) (scalar : T) : Res (Mat T i j) := multScalar A scalar

/-- `scalar * A`, `matrix_mult.hpp:113-117`. -/
def opScalarMul {i j : Nat} (scalar : T) (A : Mat T i j) : Res (Mat T i j) := multScalar A scalar

/-- `throw;` without operand: rethrows the exception being handled, or calls `std::terminate` if
there is none. `handled` is the exception the calling context is handling, if any. -/
def bareThrow {α : Type} (handled : Option Exc) : Res α :=
  match handled with
  | some e => .error (.throws e)
  | none => .error .terminates

/-- `div(A, scalar)`, `matrix_div.hpp:32-48`. -/
def div {n m : Nat} (handled : Option Exc) (A : Mat T n m) (scalar : T) : Res (Mat T n m) :=
  if CScalar.eq scalar (ofInt 0) then bareThrow handled
  else
    forUp 0 n (valueInit n m) fun i prod =>
      forUp 0 m prod fun j prod => do
        wr prod i j (← CScalar.div (← rd A i j) scalar)

/-- `A / scalar`, `matrix_div.hpp:59-63`. -/
def opDiv {i j : Nat} (handled : Option Exc) (A : Mat T i j) (scalar : T) : Res (Mat T i j) :=
  div handled A scalar

/-- Reading a possibly uninitialised element. -/
def rdInit {r c : Nat} (A : Mat (Option T) r c) (i j : Nat) : Res T := do
  match ← rd A i j with
  | some v => .ok v
  | none => .error (.ub .uninitialised)

/-- Returning a matrix by value copies every element; an element without a value is an
uninitialised read. Elements are copied in row-major order. -/
def copyOut {r c : Nat} (A : Mat (Option T) r c) : Res (Mat T r c) :=
  forUp 0 r (valueInit r c) fun i B =>
    forUp 0 c B fun j B => do
      wr B i j (← rdInit A i j)

/-- `abs(A)`, `matrix_abs.hpp:31-43`. `absA` is declared without initialiser (line 34): its
elements start out as `none`. -/
def abs {i j : Nat} (A : Mat T i j) : Res (Mat T i j) := do
  let absA ← forUp 0 i (Mat.const none : Mat (Option T) i j) fun it absA =>
    forUp 0 j absA fun jt absA => do
      wr absA it jt (some (← CScalar.abs (← rd A it jt)))
  copyOut absA

/-- The 2x2 brace initialiser `{a, b, c, d}` (brace elision, row-major), as in
`matrix_inv.hpp:89-90`. -/
def brace2 (a b c d : T) : Mat T 2 2 :=
  .of fun i j => if i.val = 0 then (if j.val = 0 then a else b) else (if j.val = 0 then c else d)

/-- `strassen(A, B)`, `matrix_strassen.hpp:34-53`. -/
def strassen (A B : Mat T 2 2) : Res (Mat T 2 2) := do
  let a00 ← rd A 0 0
  let a01 ← rd A 0 1
  let a10 ← rd A 1 0
  let a11 ← rd A 1 1
  let b00 ← rd B 0 0
  let b01 ← rd B 0 1
  let b10 ← rd B 1 0
  let b11 ← rd B 1 1
  let M1 ← CScalar.mul a00 (← CScalar.sub b01 b11)
  let M2 ← CScalar.mul (← CScalar.add a00 a01) b11
  let M3 ← CScalar.mul (← CScalar.add a10 a11) b00
  let M4 ← CScalar.mul a11 (← CScalar.sub b10 b00)
  let M5 ← CScalar.mul (← CScalar.add a00 a11) (← CScalar.add b00 b11)
  let M6 ← CScalar.mul (← CScalar.sub a01 a11) (← CScalar.add b10 b11)
  let M7 ← CScalar.mul (← CScalar.sub a00 a10) (← CScalar.add b00 b01)
  let prod : Mat T 2 2 := valueInit 2 2
  let prod ← wr prod 0 0 (← CScalar.add (← CScalar.sub (← CScalar.add M5 M4) M2) M6)
  let prod ← wr prod 0 1 (← CScalar.add M1 M2)
  let prod ← wr prod 1 0 (← CScalar.add M3 M4)
  wr prod 1 1 (← CScalar.sub (← CScalar.add M1 M5) (← CScalar.add M3 M7))

end MatrixLibs
