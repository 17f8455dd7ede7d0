import Mathlib.LinearAlgebra.Matrix.Defs

/-!
# Outcomes, loops and element access

Shared vocabulary of the model: what a C++ call can do, `for` loops, and reads/writes of
`std::array<std::array<T, j>, i>` elements.
-/

namespace MatrixLibs

/-- Exceptions the library throws or that can be in flight when it is called.
`overflow_error` is the only one thrown by the library itself
(`matrix_inv.hpp:87,110`, `matrix_lu.hpp:62`); `other` stands for any exception of the caller. -/
inductive Exc where
  | overflow_error (what : String)
  | other (tag : Nat)
  deriving DecidableEq, Repr

/-- Kinds of undefined behaviour distinguished by the model. -/
inductive UB where
  /-- `std::array::operator[]` / `std::vector::operator[]` outside the array -/
  | outOfBounds
  /-- reading an element that was never written -/
  | uninitialised
  /-- signed integer overflow -/
  | signedOverflow
  /-- integer division by zero; in exact arithmetic: division by zero, which has no value there
  (an IEEE float would give an infinity or a NaN instead) -/
  | divisionByZero
  /-- argument outside the domain of `sqrt` in exact arithmetic, or a float-to-integer
  conversion whose value does not fit -/
  | domain
  /-- `std::map` or `std::sort` used with a `<` that is not a strict weak ordering of the elements -/
  | badOrder
  deriving DecidableEq, Repr

/-- Ways for a call not to return a value. -/
inductive Stop where
  /-- an exception leaves the call -/
  | throws (e : Exc)
  /-- `std::terminate` -/
  | terminates
  /-- undefined behaviour -/
  | ub (k : UB)
  /-- the template instantiation does not compile -/
  | illFormed
  /-- the fuel of a `while` loop or of a recursion is used up (proved unreachable) -/
  | diverges
  deriving DecidableEq, Repr

/-- Result of a C++ computation: `.ok v` returns `v`, `.error s` does not return. -/
abbrev Res := Except Stop

/-- The value of a `Matrix<T, r, c>` = `std::array<std::array<T, c>, r>`
(`matrix_type.hpp:35-36`). -/
abbrev Mat (T : Type) (r c : Nat) := Matrix (Fin r) (Fin c) T

variable {T : Type} {r c : Nat} {σ ρ : Type}

/-- The rvalue `A[i][j]`: `std::array::operator[]` twice, undefined outside the bounds. -/
def rd (A : Mat T r c) (i j : Nat) : Res T :=
  if h : i < r ∧ j < c then .ok (A ⟨i, h.1⟩ ⟨j, h.2⟩) else .error (.ub .outOfBounds)

/-- The matrix all of whose elements are `v`. -/
def Mat.const (v : T) : Mat T r c := .of fun _ _ => v

/-- The assignment `A[i][j] = v`. -/
def wr (A : Mat T r c) (i j : Nat) (v : T) : Res (Mat T r c) :=
  if i < r ∧ j < c then .ok (.of fun a b => if a.val = i ∧ b.val = j then v else A a b)
  else .error (.ub .outOfBounds)

/-- `cnt` iterations of a loop body, the counter starting at `k`. -/
def loopN (body : Nat → σ → Res σ) : (cnt k : Nat) → σ → Res σ
  | 0, _, s => .ok s
  | cnt + 1, k, s => do
    let s ← body k s
    loopN body cnt (k + 1) s

/-- `for (std::size_t k = lo; k < hi; k++) body`, the mutated locals threaded as `σ`.
`hi` is a `size_t` constant, so the counter does not wrap. -/
def forUp (lo hi : Nat) (s : σ) (body : Nat → σ → Res σ) : Res σ :=
  loopN body (hi - lo) lo s

/-- What a statement does: fall through with new locals, or `return` a value. -/
inductive Ctl (σ ρ : Type) where
  | cont (s : σ)
  | ret (v : ρ)

/-- `cnt` iterations of a loop body that may `return`. -/
def loopRetN (body : Nat → σ → Res (Ctl σ ρ)) : (cnt k : Nat) → σ → Res (Ctl σ ρ)
  | 0, _, s => .ok (.cont s)
  | cnt + 1, k, s => do
    match ← body k s with
    | .cont s => loopRetN body cnt (k + 1) s
    | .ret v => .ok (.ret v)

/-- `for (std::size_t k = lo; k < hi; k++) body` where the body may `return`. -/
def forRet (lo hi : Nat) (s : σ) (body : Nat → σ → Res (Ctl σ ρ)) : Res (Ctl σ ρ) :=
  loopRetN body (hi - lo) lo s

end MatrixLibs
