import Verif.Model.Det

/-!
# Convolution

`matrix_conv2.hpp`. Row and column indices are `std::size_t` expressions that wrap modulo 2^64
(`it-1` with `it = 0`); they are converted to `int` when passed to the lambda `isOutOfRange`.
-/

namespace MatrixLibs

variable {T : Type} [Inhabited T] [CScalar T] {i j : Nat}

open CScalar (ofInt)

/-- `a + b` on `std::size_t`. -/
def szAdd (a b : Nat) : Nat := (a + b) % sizeMod

/-- `a - b` on `std::size_t` (for `b < 2^64`). -/
def szSub (a b : Nat) : Nat := (a + (sizeMod - b)) % sizeMod

/-- Conversion `std::size_t` to `int` (32 bits, modulo 2^32). -/
def szToInt (a : Nat) : Int := Int.bmod (a : Int) (2 ^ 32)

/-- `static_cast<unsigned int>(a)` of an `int`. -/
def intToUInt (a : Int) : Nat := (a % (2 ^ 32 : Int)).toNat

/-- The lambda `isOutOfRange(int a, int b)`, `matrix_conv2.hpp:42-62` and `94-114`: the number of
violated range conditions, used as a truth value. `i`, `j` are the template parameters; the
comparisons `>=` are done in `std::size_t`. -/
def isOutOfRange (i j : Nat) (a b : Int) : Nat :=
  let result := 0
  let result := if a < 0 then result + 1 else result
  let result := if b < 0 then result + 1 else result
  let result := if intToUInt a ≥ i then result + 1 else result
  let result := if intToUInt b ≥ j then result + 1 else result
  result

/-- `((isOutOfRange(a, b)) ? 0 : kernel[u][v] * A[a][b])`, `matrix_conv2.hpp:69-77,121-129`;
`a`, `b` are `std::size_t` values, converted to `int` for the test only. -/
def convTerm (A : Mat T i j) (kernel : Mat T 3 3) (u v a b : Nat) : Res T :=
  if isOutOfRange i j (szToInt a) (szToInt b) ≠ 0 then .ok (ofInt 0)
  else do CScalar.mul (← rd kernel u v) (← rd A a b)

/-- `result[it][jt] += x` -/
def addTo {r c : Nat} (result : Mat T r c) (it jt : Nat) (x : T) : Res (Mat T r c) := do
  wr result it jt (← CScalar.add (← rd result it jt) x)

/-- `conv2(A, kernel)`, `matrix_conv2.hpp:38-81`. -/
def conv2 (A : Mat T i j) (kernel : Mat T 3 3) : Res (Mat T i j) :=
  forUp 0 i (valueInit i j) fun it result =>
    forUp 0 j result fun jt result => do
      let result ← wr result it jt (ofInt 0)
      let result ← addTo result it jt (← convTerm A kernel 0 0 (szSub it 1) (szSub jt 1))
      let result ← addTo result it jt (← convTerm A kernel 0 1 (szSub it 1) jt)
      let result ← addTo result it jt (← convTerm A kernel 0 2 (szSub it 1) (szAdd jt 1))
      let result ← addTo result it jt (← convTerm A kernel 1 0 it (szSub jt 1))
      let result ← addTo result it jt (← convTerm A kernel 1 1 it jt)
      let result ← addTo result it jt (← convTerm A kernel 1 2 it (szAdd jt 1))
      let result ← addTo result it jt (← convTerm A kernel 2 0 (szAdd it 1) (szSub jt 1))
      let result ← addTo result it jt (← convTerm A kernel 2 1 (szAdd it 1) jt)
      addTo result it jt (← convTerm A kernel 2 2 (szAdd it 1) (szAdd jt 1))

/-- `conv2_full(A, kernel)`, `matrix_conv2.hpp:88-133`; `offset` is 1. -/
def conv2_full (A : Mat T i j) (kernel : Mat T 3 3) : Res (Mat T (i + 2) (j + 2)) :=
  let offset := 1
  forUp 0 (i + 2) (valueInit (i + 2) (j + 2)) fun it result =>
    forUp 0 (j + 2) result fun jt result => do
      let result ← wr result it jt (ofInt 0)
      let result ← addTo result it jt (← convTerm A kernel 0 0
        (szSub (szSub it 1) offset) (szSub (szSub jt 1) offset))
      let result ← addTo result it jt (← convTerm A kernel 0 1
        (szSub (szSub it 1) offset) (szSub jt offset))
      let result ← addTo result it jt (← convTerm A kernel 0 2
        (szSub (szSub it 1) offset) (szSub (szAdd jt 1) offset))
      let result ← addTo result it jt (← convTerm A kernel 1 0
        (szSub it offset) (szSub (szSub jt 1) offset))
      let result ← addTo result it jt (← convTerm A kernel 1 1
        (szSub it offset) (szSub jt offset))
      let result ← addTo result it jt (← convTerm A kernel 1 2
        (szSub it offset) (szSub (szAdd jt 1) offset))
      let result ← addTo result it jt (← convTerm A kernel 2 0
        (szSub (szAdd it 1) offset) (szSub (szSub jt 1) offset))
      let result ← addTo result it jt (← convTerm A kernel 2 1
        (szSub (szAdd it 1) offset) (szSub jt offset))
      addTo result it jt (← convTerm A kernel 2 2
        (szSub (szAdd it 1) offset) (szSub (szAdd jt 1) offset))

/-- `conv2_valid(A, kernel)`, `matrix_conv2.hpp:139-144`. `getminor` accepts square matrices only,
so it compiles only for `i = j`; `n` is both. The model is meant for `n ≥ 2` (for smaller `n` the
type `Matrix<T, i-2, j-2>` wraps and does not compile). -/
def conv2_valid {n : Nat} (A : Mat T n n) (kernel : Mat T 3 3) : Res (Mat T (n - 2) (n - 2)) := do
  let tmp1 ← getminor (← conv2 A kernel) (n - 1) (n - 1)
  getminor tmp1 0 0

end MatrixLibs
