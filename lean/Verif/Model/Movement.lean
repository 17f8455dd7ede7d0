import Verif.Model.Scalar

/-!
# Functions that only move elements

`matrix_fill.hpp`, `matrix_zeros.hpp`, `matrix_ones.hpp`, `matrix_eye.hpp`, `matrix_trans.hpp`,
`matrix_swap.hpp`, `matrix_concatenate.hpp` and `getminor` of `matrix_inv.hpp`.
They are modelled for every element type; `default` of `Inhabited T` stands for the
value-initialised `T{}` that `Matrix<..> X{}` stores before the loops overwrite it.
-/

namespace MatrixLibs

variable {T : Type}

/-- `Matrix<T, i, j> X{};`: every element value-initialised. -/
def valueInit [Inhabited T] (r c : Nat) : Mat T r c := Mat.const default

/-- `fill<T, i, j>(data)`, `matrix_fill.hpp:30-40`. The range-`for` over rows visits them in
order; `std::array::fill` (line 36) assigns every element of a row. -/
def fill [Inhabited T] (i j : Nat) (data : T) : Res (Mat T i j) :=
  forUp 0 i (valueInit i j) fun it A =>
    forUp 0 j A fun jt A => wr A it jt data

/-- `zeros<T, i, j>()`, `matrix_zeros.hpp:30-34`. -/
def zeros [Inhabited T] [CScalar T] (i j : Nat) : Res (Mat T i j) :=
  fill i j (CScalar.ofInt 0)

/-- `ones<k, i, j>()` with a numeric first argument, `matrix_ones.hpp:28-32`. The element type is
`unsigned int`; the unnamed first parameter `_k` is not used. -/
def onesUInt (_k i j : Nat) : Res (Mat (BitVec 32) i j) :=
  fill i j (CScalar.ofInt 1)

/-- `ones<T, i, j>()` with a type as first argument, `matrix_ones.hpp:34-38`. The declared return
type is `Matrix<T, i, i>` and the returned expression is a `Matrix<T, i, j>`: this compiles only
for `i = j`. -/
def ones [Inhabited T] [CScalar T] (i j : Nat) : Res (Mat T i i) :=
  if j = i then fill i i (CScalar.ofInt 1) else .error .illFormed

/-- `eye<T, n>(data)`, `matrix_eye.hpp:32-42`. -/
def eye [Inhabited T] [CScalar T] (n : Nat) (data : T) : Res (Mat T n n) := do
  let eye ← fill n n (CScalar.ofInt 0)
  forUp 0 n eye fun i eye => wr eye i i data

/-- `eye<T, n>()`: the default argument `T data = 1`, `matrix_eye.hpp:33`. -/
def eye1 [Inhabited T] [CScalar T] (n : Nat) : Res (Mat T n n) := eye n (CScalar.ofInt 1)

/-- `trans(A)`, `matrix_trans.hpp:31-44`. -/
def trans [Inhabited T] {n m : Nat} (A : Mat T n m) : Res (Mat T m n) :=
  forUp 0 n (valueInit m n) fun i transA =>
    forUp 0 m transA fun j transA => do
      wr transA j i (← rd A i j)

/-- `std::swap(A[i1][j1], A[i2][j2])`: read both elements, write both.
The references are bound before anything is written. -/
def swapElem {r c : Nat} (A : Mat T r c) (i1 j1 i2 j2 : Nat) : Res (Mat T r c) := do
  let x ← rd A i1 j1
  let y ← rd A i2 j2
  let A ← wr A i1 j1 y
  wr A i2 j2 x

/-- `swap_rows(A, row1, row2)`, `matrix_swap.hpp:32-42`; the final value of the reference
parameter is returned. -/
def swap_rows {row col : Nat} (A : Mat T row col) (row1 row2 : Nat) : Res (Mat T row col) :=
  if row1 ≠ row2 then
    forUp 0 col A fun i A => swapElem A row1 i row2 i
  else .ok A

/-- `swap_cols(A, col1, col2)`, `matrix_swap.hpp:54-64`; the range-`for` visits the rows in
order. -/
def swap_cols {row col : Nat} (A : Mat T row col) (col1 col2 : Nat) : Res (Mat T row col) :=
  if col1 ≠ col2 then
    forUp 0 row A fun i A => swapElem A i col1 i col2
  else .ok A

/-- `concatenate(A, B)` of two square matrices, `matrix_concatenate.hpp:35-68`.
`i-n` and `j-n` are evaluated for `i, j ≥ n` only, so they do not wrap. Line 63 reads `A`. -/
def concatenateSquare [Inhabited T] {n : Nat} (A B : Mat T n n) :
    Res (Mat T (n + n) n × Mat T n (n + n)) := do
  let first ← forUp 0 n (valueInit (n + n) n) fun i first =>
    forUp 0 n first fun j first => do
      wr first i j (← rd A i j)
  let first ← forUp n (n + n) first fun i first =>
    forUp 0 n first fun j first => do
      wr first i j (← rd B (i - n) j)
  let second ← forUp 0 n (valueInit n (n + n)) fun i second => do
    let second ← forUp 0 n second fun j second => do
      wr second i j (← rd A i j)
    forUp n (n + n) second fun j second => do
      wr second i j (← rd A i (j - n))
  .ok (first, second)

/-- `concatenate(A, B)` joining vertically, `matrix_concatenate.hpp:79-98`. -/
def concatenateRows [Inhabited T] {i1 i2 j : Nat} (A : Mat T i1 j) (B : Mat T i2 j) :
    Res (Mat T (i1 + i2) j) := do
  let result ← forUp 0 i1 (valueInit (i1 + i2) j) fun it result =>
    forUp 0 j result fun jt result => do
      wr result it jt (← rd A it jt)
  forUp i1 (i1 + i2) result fun it result =>
    forUp 0 j result fun jt result => do
      wr result it jt (← rd B (it - i1) jt)

/-- `concatenate(A, B)` joining horizontally, `matrix_concatenate.hpp:109-125`. -/
def concatenateCols [Inhabited T] {i j1 j2 : Nat} (A : Mat T i j1) (B : Mat T i j2) :
    Res (Mat T i (j1 + j2)) :=
  forUp 0 i (valueInit i (j1 + j2)) fun it result => do
    let result ← forUp 0 j1 result fun jt result => do
      wr result it jt (← rd A it jt)
    forUp j1 (j1 + j2) result fun jt result => do
      wr result it jt (← rd B it (jt - j1))

/-- `concatenateV(A, B)`, `matrix_concatenate.hpp:136-155`. -/
def concatenateV [Inhabited T] {n : Nat} (A B : Mat T n n) : Res (Mat T (n + n) n) := do
  let result ← forUp 0 n (valueInit (n + n) n) fun it result =>
    forUp 0 n result fun jt result => do
      wr result it jt (← rd A it jt)
  forUp n (n + n) result fun it result =>
    forUp 0 n result fun jt result => do
      wr result it jt (← rd B (it - n) jt)

/-- `concatenateH(A, B)`, `matrix_concatenate.hpp:166-182`. -/
def concatenateH [Inhabited T] {n : Nat} (A B : Mat T n n) : Res (Mat T n (n + n)) :=
  forUp 0 n (valueInit n (n + n)) fun i result => do
    let result ← forUp 0 n result fun j result => do
      wr result i j (← rd A i j)
    forUp n (n + n) result fun j result => do
      wr result i j (← rd B i (j - n))

/-- `getminor(A, i, j)`, `matrix_inv.hpp:33-55`. The locals `minor`, `rowCount` (and inside a row
`colCount`) are threaded. `n - 1` in the type wraps for `n = 0`, which does not compile; the model
is meant for `n ≥ 1`. -/
def getminor [Inhabited T] {n : Nat} (A : Mat T n n) (i j : Nat) :
    Res (Mat T (n - 1) (n - 1)) := do
  let s ← forUp 0 n ((valueInit (n - 1) (n - 1) : Mat T (n - 1) (n - 1)), 0)
    fun k (minor, rowCount) =>
      if k ≠ i then do
        let t ← forUp 0 n (minor, 0) fun l (minor, colCount) =>
          if l ≠ j then do
            let minor ← wr minor rowCount colCount (← rd A k l)
            .ok (minor, colCount + 1)
          else .ok (minor, colCount)
        .ok (t.1, rowCount + 1)
      else .ok (minor, rowCount)
  .ok s.1

end MatrixLibs
