import Verif.Model.Stats
import Verif.Model.Det

/-!
# Benchmark code

`bench/inc/setRand.hpp`, the three access patterns of `bench/cache/cache.hpp` and the benchmark bodies
of `bench/det`, `bench/inv` and `bench/multiply`. `iters` is the number of times
`state.KeepRunning()` is true. The matrices are
declared without initialiser, so elements are `Option T`, `none` meaning indeterminate.
The random engine is an arbitrary sequence of draws.
-/

namespace MatrixLibs

variable {T : Type} [Inhabited T] [CScalar T] {row col : Nat}

open CScalar (ofInt)

/-- `setRand(A)`, `bench/inc/setRand.hpp:21-34` (and `37-50` for `int`): `draw k` is the `k`-th
value of `ud(dre)`. The second component counts the draws made. -/
def setRand (draw : Nat → T) (A : Mat (Option T) row col) : Res (Mat (Option T) row col × Nat) :=
  forUp 0 row (A, 0) fun it s =>
    forUp 0 col s fun jt (A, k) => do
      .ok (← wr A it jt (some (draw k)), k + 1)

/-- One pass of `row_major`, `bench/cache/cache.hpp:29-35`, from the current `sum`. -/
def rowMajorPass (A : Mat (Option T) row col) (sum : T) : Res T :=
  forUp 0 row sum fun i sum =>
    forUp 0 col sum fun j sum => do
      CScalar.add sum (← rdInit A i j)

/-- One pass of `col_major`, `bench/cache/cache.hpp:47-53`: the outer loop runs to `col`, the inner
one to `row`, and the access is `A[i][j]`. -/
def colMajorPass (A : Mat (Option T) row col) (sum : T) : Res T :=
  forUp 0 col sum fun i sum =>
    forUp 0 row sum fun j sum => do
      CScalar.add sum (← rdInit A i j)

/-- One pass of `rand_major`, `bench/cache/cache.hpp:77-83`; `rand j` is the `j`-th stored draw,
converted back to an index. -/
def randMajorPass (rand : Nat → Nat) (A : Mat (Option T) row col) (sum : T) : Res T :=
  forUp 0 row sum fun i sum =>
    forUp 0 col sum fun j sum => do
      CScalar.add sum (← rdInit A i (rand j))

/-- `row_major`, `bench/cache/cache.hpp:21-37`: `A` is never initialised, `iters` is the number of
times `state.KeepRunning()` is true. -/
def row_major (T : Type) [Inhabited T] [CScalar T] (row col iters : Nat) : Res T :=
  forUp 0 iters (ofInt 0) fun _ sum =>
    rowMajorPass (Mat.const none : Mat (Option T) row col) sum

/-- `col_major`, `bench/cache/cache.hpp:39-55`. -/
def col_major (T : Type) [Inhabited T] [CScalar T] (row col iters : Nat) : Res T :=
  forUp 0 iters (ofInt 0) fun _ sum =>
    colMajorPass (Mat.const none : Mat (Option T) row col) sum

/-- `rand_major`, `bench/cache/cache.hpp:57-85`; the draws lie in `[0, col]` (lines 64-68). -/
def rand_major (T : Type) [Inhabited T] [CScalar T] (row col iters : Nat) (rand : Nat → Nat) :
    Res T :=
  forUp 0 iters (ofInt 0) fun _ sum =>
    randMajorPass rand (Mat.const none : Mat (Option T) row col) sum

/-- `Matrix<…> A; setRand(A);`, `bench/det/det.hpp:24-26`, `bench/inv/inv.hpp:23-25`,
`bench/multiply/multiply.hpp:24-27`, `39-42`, `54-57`, followed by the first use of `A` as an initialised
matrix (`copyOut`; simplification: the copy into the parameter is made once, not in every iteration, since
the benchmarked functions do not change their arguments). -/
def randMatrix (draw : Nat → T) (row col : Nat) : Res (Mat T row col) := do
  let (A, _) ← setRand draw (Mat.const none)
  copyOut A

/-- `while (state.KeepRunning()) { f(…); }`: the result of the call is dropped. -/
def benchLoop {α : Type} (iters : Nat) (call : Res α) : Res Unit :=
  forUp 0 iters () fun _ _ => do
    let _ ← call
    .ok ()

/-- The `det` benchmark, `bench/det/det.hpp:22-33`. -/
def benchDet (draw : Nat → T) (n iters : Nat) : Res Unit := do
  let A ← randMatrix draw n n
  benchLoop iters (det A)

/-- The `inv` benchmark, `bench/inv/inv.hpp:21-32`. No exception is being handled when it runs. -/
def benchInv (draw : Nat → T) (n iters : Nat) : Res Unit := do
  let A ← randMatrix draw n n
  benchLoop iters (inv none A)

/-- The `multiply` benchmark, `bench/multiply/multiply.hpp:21-33`: whatever the template argument `T`, the
matrices are of `int` (here `SInt w`). `multiply_2_2`, lines 51-62, is the case `n = 2`. -/
def benchMultiply {w : Nat} [Inhabited (SInt w)] (draw draw' : Nat → SInt w) (n iters : Nat) : Res Unit := do
  let A ← randMatrix draw n n
  let B ← randMatrix draw' n n
  benchLoop iters (mult A B)

/-- `multiply_2_2_strassen`, `bench/multiply/multiply.hpp:36-47`. -/
def multiply_2_2_strassen {w : Nat} [Inhabited (SInt w)] (draw draw' : Nat → SInt w) (iters : Nat) : Res Unit := do
  let A ← randMatrix draw 2 2
  let B ← randMatrix draw' 2 2
  benchLoop iters (strassen A B)

end MatrixLibs
