import Verif.Model.Alloc
import Verif.Spec.Stops
import Mathlib.Logic.Function.Basic

/-!
# The functions again, counting the operations of the element type

These are the functions of `Verif.Model.Arith`, `Det`, `Conv` and `Stats` with a counter for each operation of the element
type. (`C147_same` proves that they return the same.) Comparisons are not counted.
-/

namespace MatrixLibs

/-- How often each operation has been performed. -/
abbrev Tally := Op → Nat

/-- Statements that count the operations they perform. -/
abbrev Counted := Run Tally

namespace Count

variable {T : Type} [Inhabited T] [CScalar T] {i j n : Nat} {σ ρ : Type}

open CScalar (ofInt)

/-- One more operation. -/
def tick (o : Op) : Counted Unit := fun k => (.ok (), Function.update k o (k o + 1))

/-- `a + b`, counted. -/
def cAdd (a b : T) : Counted T := do tick .add; liftRes (CScalar.add a b)
/-- `a - b`, counted. -/
def cSub (a b : T) : Counted T := do tick .sub; liftRes (CScalar.sub a b)
/-- `a * b`, counted. -/
def cMul (a b : T) : Counted T := do tick .mul; liftRes (CScalar.mul a b)
/-- `a / b`, counted. -/
def cDiv (a b : T) : Counted T := do tick .div; liftRes (CScalar.div a b)
/-- `-a`, counted. -/
def cNeg (a : T) : Counted T := do tick .neg; liftRes (CScalar.neg a)
/-- `std::abs(a)`, counted. -/
def cAbs (a : T) : Counted T := do tick .abs; liftRes (CScalar.abs a)
/-- `sqrt(a)`, counted. -/
def cSqrt (a : T) : Counted T := do tick .sqrt; liftRes (CScalar.sqrt a)
/-- `a / n` with a `std::size_t`, counted. -/
def cDivSize (a : T) (n : Nat) : Counted T := do tick .divSize; liftRes (CScalar.divSize a n)

/-- `cnt` iterations of a loop. -/
def loopN (body : Nat → σ → Counted σ) : (cnt k : Nat) → σ → Counted σ
  | 0, _, s => pure s
  | cnt + 1, k, s => do
    let s ← body k s
    loopN body cnt (k + 1) s

/-- `for (std::size_t k = lo; k < hi; k++) body`, as `MatrixLibs.forUp`. -/
def forUp (lo hi : Nat) (s : σ) (body : Nat → σ → Counted σ) : Counted σ := loopN body (hi - lo) lo s

/-- `cnt` iterations of a loop body that may `return`. -/
def loopRetN (body : Nat → σ → Counted (Ctl σ ρ)) : (cnt k : Nat) → σ → Counted (Ctl σ ρ)
  | 0, _, s => pure (.cont s)
  | cnt + 1, k, s => do
    match ← body k s with
    | .cont s => loopRetN body cnt (k + 1) s
    | .ret v => pure (.ret v)

/-- A `for` loop whose body may `return`, as `MatrixLibs.forRet`. -/
def forRet (lo hi : Nat) (s : σ) (body : Nat → σ → Counted (Ctl σ ρ)) : Counted (Ctl σ ρ) :=
  loopRetN body (hi - lo) lo s

/-- `sum(A, B)`, `matrix_sum.hpp:32-45`. -/
def sum {i j : Nat} (A B : Mat T i j) : Counted (Mat T i j) :=
  forUp 0 i (valueInit i j) fun it sum =>
    forUp 0 j sum fun jt sum => do
      liftRes <| wr sum it jt (← cAdd (← liftRes <| rd A it jt) (← liftRes <| rd B it jt))

/-- `sum(A, scalar)`, `matrix_sum.hpp:56-69`. -/
def sumScalar {i j : Nat} (A : Mat T i j) (scalar : T) : Counted (Mat T i j) :=
  forUp 0 i (valueInit i j) fun it sum =>
    forUp 0 j sum fun jt sum => do
      liftRes <| wr sum it jt (← cAdd (← liftRes <| rd A it jt) scalar)

/-- `sub(A, B)`, `matrix_sub.hpp:32-45`. -/
def sub {i j : Nat} (A B : Mat T i j) : Counted (Mat T i j) :=
  forUp 0 i (valueInit i j) fun it sub =>
    forUp 0 j sub fun jt sub => do
      liftRes <| wr sub it jt (← cSub (← liftRes <| rd A it jt) (← liftRes <| rd B it jt))

/-- `sub(A, scalar)`, `matrix_sub.hpp:56-69`. -/
def subScalar {i j : Nat} (A : Mat T i j) (scalar : T) : Counted (Mat T i j) :=
  forUp 0 i (valueInit i j) fun it sub =>
    forUp 0 j sub fun jt sub => do
      liftRes <| wr sub it jt (← cSub (← liftRes <| rd A it jt) scalar)

/-- `mult(A, B)`, `matrix_mult.hpp:32-48`. -/
def mult {n m p : Nat} (A : Mat T n m) (B : Mat T m p) : Counted (Mat T n p) := do
  let prod ← liftRes <| zeros n p
  forUp 0 n prod fun i prod =>
    forUp 0 p prod fun j prod =>
      forUp 0 m prod fun k prod => do
        let t ← cMul (← liftRes <| rd A i k) (← liftRes <| rd B k j)
        liftRes <| wr prod i j (← cAdd (← liftRes <| rd prod i j) t)

/-- `mult(A, scalar)`, `matrix_mult.hpp:59-72`. -/
def multScalar {i j : Nat} (A : Mat T i j) (scalar : T) : Counted (Mat T i j) :=
  forUp 0 i (valueInit i j) fun it prod =>
    forUp 0 j prod fun jt prod => do
      liftRes <| wr prod it jt (← cMul (← liftRes <| rd A it jt) scalar)

/-- `div(A, scalar)`, `matrix_div.hpp:32-48`. -/
def div {n m : Nat} (handled : Option Exc) (A : Mat T n m) (scalar : T) : Counted (Mat T n m) :=
  if CScalar.eq scalar (ofInt 0) then liftRes (bareThrow handled)
  else
    forUp 0 n (valueInit n m) fun i prod =>
      forUp 0 m prod fun j prod => do
        liftRes <| wr prod i j (← cDiv (← liftRes <| rd A i j) scalar)

/-- `abs(A)`, `matrix_abs.hpp:31-43`. `absA` is declared without initialiser (line 34): its
elements start out as `none`. -/
def abs {i j : Nat} (A : Mat T i j) : Counted (Mat T i j) := do
  let absA ← forUp 0 i (Mat.const none : Mat (Option T) i j) fun it absA =>
    forUp 0 j absA fun jt absA => do
      liftRes <| wr absA it jt (some (← cAbs (← liftRes <| rd A it jt)))
  liftRes <| copyOut absA

/-- `strassen(A, B)`, `matrix_strassen.hpp:34-53`. -/
def strassen (A B : Mat T 2 2) : Counted (Mat T 2 2) := do
  let a00 ← liftRes <| rd A 0 0
  let a01 ← liftRes <| rd A 0 1
  let a10 ← liftRes <| rd A 1 0
  let a11 ← liftRes <| rd A 1 1
  let b00 ← liftRes <| rd B 0 0
  let b01 ← liftRes <| rd B 0 1
  let b10 ← liftRes <| rd B 1 0
  let b11 ← liftRes <| rd B 1 1
  let M1 ← cMul a00 (← cSub b01 b11)
  let M2 ← cMul (← cAdd a00 a01) b11
  let M3 ← cMul (← cAdd a10 a11) b00
  let M4 ← cMul a11 (← cSub b10 b00)
  let M5 ← cMul (← cAdd a00 a11) (← cAdd b00 b11)
  let M6 ← cMul (← cSub a01 a11) (← cAdd b10 b11)
  let M7 ← cMul (← cSub a00 a10) (← cAdd b00 b01)
  let prod : Mat T 2 2 := valueInit 2 2
  let prod ← liftRes <| wr prod 0 0 (← cAdd (← cSub (← cAdd M5 M4) M2) M6)
  let prod ← liftRes <| wr prod 0 1 (← cAdd M1 M2)
  let prod ← liftRes <| wr prod 1 0 (← cAdd M3 M4)
  liftRes <| wr prod 1 1 (← cSub (← cAdd M1 M5) (← cAdd M3 M7))

/-- `det` of a 2x2 matrix, `matrix_det.hpp:46-53`. -/
def det2 (A : Mat T 2 2) : Counted T := do
  let a ← liftRes <| rd A 0 0
  let b ← liftRes <| rd A 0 1
  let c ← liftRes <| rd A 1 0
  let d ← liftRes <| rd A 1 1
  cSub (← cMul a d) (← cMul b c)

/-- `det` of a 3x3 matrix, `matrix_det.hpp:63-71`; `+` and `-` associate to the left. -/
def det3 (A : Mat T 3 3) : Counted T := do
  let a ← liftRes <| rd A 0 0
  let b ← liftRes <| rd A 0 1
  let c ← liftRes <| rd A 0 2
  let d ← liftRes <| rd A 1 0
  let e ← liftRes <| rd A 1 1
  let f ← liftRes <| rd A 1 2
  let g ← liftRes <| rd A 2 0
  let h ← liftRes <| rd A 2 1
  let i ← liftRes <| rd A 2 2
  let t ← cMul (← cMul a e) i
  let t ← cAdd t (← cMul (← cMul b f) g)
  let t ← cAdd t (← cMul (← cMul c d) h)
  let t ← cSub t (← cMul (← cMul c e) g)
  let t ← cSub t (← cMul (← cMul b d) i)
  cSub t (← cMul (← cMul a f) h)

/-- The lambda `prod` of `det`, `matrix_det.hpp:87-96`. -/
def detProd (A : Mat T n n) (factor : T) : Counted T := do
  let prod ← forUp 0 n (ofInt 1) fun i prod => do
    cMul prod (← liftRes <| rd A i i)
  cDiv prod factor

/-- The elimination loops of `det`, `matrix_det.hpp:127-138`. -/
def detEliminate (A : Mat T n n) (r pivot : Nat) : Counted (Mat T n n) :=
  forUp (pivot + 1) n A fun i A =>
    if i ≠ r then do
      let val ← liftRes <| rd A i pivot
      forUp pivot n A fun j A => do
        let q ← cDiv (← cMul val (← liftRes <| rd A r j)) (← liftRes <| rd A r pivot)
        liftRes <| wr A i j (← cSub (← liftRes <| rd A i j) q)
    else pure A

/-- The exchange of the pivot row with row `r`, `matrix_det.hpp:121-125`: returns the new `A` and
`factor`. -/
def detSwap (A : Mat T n n) (factor : T) (i r : Nat) : Counted (Mat T n n × T) :=
  if i ≠ r then do
    let A ← liftRes <| swap_rows A i r
    let factor ← cMul factor (ofInt (-1))
    pure (A, factor)
  else pure (A, factor)

/-- Body of the outer loop of the general `det`, `matrix_det.hpp:99-139`. -/
def detStep (r : Nat) (s : DetState T n) : Counted (Ctl (DetState T n) T) := do
  if n ≤ s.pivot then
    return .ret (← detProd s.A s.factor)
  match ← liftRes <| detSearch s.A r (n * n + 1) r s.pivot with
  | none => return .ret (← detProd s.A s.factor)
  | some (i, pivot) =>
    let (A, factor) ← detSwap s.A s.factor i r
    let A ← detEliminate A r pivot
    return .cont { A := A, factor := factor, pivot := pivot + 1 }

/-- The general `det`, `matrix_det.hpp:81-142` (parameter passed by value). -/
def detN (A : Mat T n n) : Counted T := do
  match ← forRet 0 n { A := A, factor := ofInt 1, pivot := 0 } detStep with
  | .ret v => pure v
  | .cont s => detProd s.A s.factor

/-- A call `det(A)`: the overload selected for each `n` (see `Verif.Model.Overload`). -/
def det : {n : Nat} → Mat T n n → Counted T
  | 1, A => liftRes <| det1 A
  | 2, A => det2 A
  | 3, A => det3 A
  | _, A => detN A

/-- `inv` of a 1x1 matrix, `matrix_inv.hpp:65-69`. -/
def inv1 (A : Mat T 1 1) : Counted (Mat T 1 1) := do
  let x ← cDiv (ofInt 1) (← liftRes <| det1 A)
  pure (Mat.const x)

/-- `inv` of a 2x2 matrix, `matrix_inv.hpp:80-93`. -/
def inv2 (handled : Option Exc) (A : Mat T 2 2) : Counted (Mat T 2 2) := do
  let detA ← det2 A
  if CScalar.eq detA (ofInt 0) then liftRes (.error (.throws divideByZeroException))
  else
    let x ← liftRes <| rd A 1 1
    let y ← cNeg (← liftRes <| rd A 0 1)
    let z ← cNeg (← liftRes <| rd A 1 0)
    let w ← liftRes <| rd A 0 0
    div handled (brace2 x y z w) detA

/-- `p*q - r*s`, the shape of every entry of `matrix_inv.hpp:118-120`. -/
def cross (p q r s : T) : Counted T := do
  cSub (← cMul p q) (← cMul r s)

/-- `inv` of a 3x3 matrix, `matrix_inv.hpp:104-123`. -/
def inv3 (handled : Option Exc) (A : Mat T 3 3) : Counted (Mat T 3 3) := do
  let detA ← det3 A
  if CScalar.eq detA (ofInt 0) then liftRes (.error (.throws divideByZeroException))
  else
    let a ← liftRes <| rd A 0 0
    let b ← liftRes <| rd A 0 1
    let c ← liftRes <| rd A 0 2
    let d ← liftRes <| rd A 1 0
    let e ← liftRes <| rd A 1 1
    let f ← liftRes <| rd A 1 2
    let g ← liftRes <| rd A 2 0
    let h ← liftRes <| rd A 2 1
    let i ← liftRes <| rd A 2 2
    let x00 ← cross e i f h
    let x01 ← cross c h b i
    let x02 ← cross b f c e
    let x10 ← cross f g d i
    let x11 ← cross a i c g
    let x12 ← cross c d a f
    let x20 ← cross d h e g
    let x21 ← cross b g a h
    let x22 ← cross a e b d
    div handled (brace3 x00 x01 x02 x10 x11 x12 x20 x21 x22) detA

/-- The general `inv`, `matrix_inv.hpp:132-145`. The determinants of the minors go through the
overload selected for size `n - 1`. -/
def invN (handled : Option Exc) (A : Mat T n n) : Counted (Mat T n n) := do
  let detA ← det A
  let invA ← forUp 0 n (valueInit n n) fun i invA =>
    forUp 0 n invA fun j invA => do
      let d ← det (← liftRes <| getminor A i j)
      liftRes <| wr invA i j (← cMul (ofInt (if (i + j) % 2 ≠ 0 then -1 else 1)) d)
  div handled (← liftRes <| trans invA) detA

/-- A call `inv(A)`: the overload selected for each `n` (see `Verif.Model.Overload`).
`inv` of a 0x0 matrix does not compile (`getminor` would have type `Matrix<T, 2^64-1, 2^64-1>`). -/
def inv (handled : Option Exc) : {n : Nat} → Mat T n n → Counted (Mat T n n)
  | 0, _ => liftRes (.error .illFormed)
  | 1, A => inv1 A
  | 2, A => inv2 handled A
  | 3, A => inv3 handled A
  | _, A => invN handled A

/-- The accumulation `sum = 0.0; for (p = 0; p < i; p++) sum += U[p][j] * L[i][p];`,
`matrix_lu.hpp:45-49` and `55-59`. -/
def luSum (L U : Mat T n n) (i j : Nat) : Counted T :=
  forUp 0 i (ofInt 0) fun p sum => do
    cAdd sum (← cMul (← liftRes <| rd U p j) (← liftRes <| rd L i p))

/-- First inner loop, `matrix_lu.hpp:43-51`. -/
def luUpper (A L : Mat T n n) (j : Nat) (U : Mat T n n) : Counted (Mat T n n) :=
  forUp 0 (j + 1) U fun i U => do
    let sum ← luSum L U i j
    liftRes <| wr U i j (← cSub (← liftRes <| rd A i j) sum)

/-- Second inner loop, `matrix_lu.hpp:53-65`. -/
def luLower (A U : Mat T n n) (j : Nat) (L : Mat T n n) : Counted (Mat T n n) :=
  forUp j n L fun i L => do
    let sum ← luSum L U i j
    let u ← liftRes <| rd U j j
    if CScalar.eq u (ofInt 0) then liftRes (.error (.throws divideByZeroException))
    else
      liftRes <| wr L i j (← cDiv (← cSub (← liftRes <| rd A i j) sum) u)

/-- `lu(A)`, `matrix_lu.hpp:34-68`; the pair `(L, U)`. -/
def lu (A : Mat T n n) : Counted (Mat T n n × Mat T n n) := do
  let L ← liftRes <| eye1 n
  let U ← liftRes <| zeros n n
  forUp 0 n (L, U) fun j (L, U) => do
    let U ← luUpper A L j U
    let L ← luLower A U j L
    pure (L, U)

/-- `sum = 0; for (k = 0; k < i; k++) sum += L[i][k] * L[j][k];`, `matrix_cholesky.hpp:67-71`
(with `j = i`) and `76-80`. -/
def cholSum (L : Mat T n n) (i j : Nat) : Counted T :=
  forUp 0 i (ofInt 0) fun k sum => do
    cAdd sum (← cMul (← liftRes <| rd L i k) (← liftRes <| rd L j k))

/-- Body of the inner loop of `chol`, `matrix_cholesky.hpp:65-82`. -/
def cholStep (A : Mat T n n) (i j : Nat) (L : Mat T n n) : Counted (Mat T n n) :=
  if j = i then do
    let sum ← cholSum L i i
    liftRes <| wr L i i (← cSqrt (← cSub (← liftRes <| rd A i i) sum))
  else do
    let sum ← cholSum L i j
    liftRes <| wr L i j (← cDiv (← cSub (← liftRes <| rd A i j) sum) (← liftRes <| rd L j j))

/-- `chol(A)`, `matrix_cholesky.hpp:54-86`; `L{}` stores `T{}`, the value 0. -/
def chol (A : Mat T n n) : Counted (Mat T n n) :=
  forUp 0 n (Mat.const (ofInt 0)) fun i L =>
    forUp 0 (i + 1) L fun j L => cholStep A i j L

/-- `pow(A, p)`, `matrix_pow.hpp:32-65`, for a signed exponent type `P` of `w ≥ 32` bits (for an
unsigned one `std::abs(p)` on line 50 is ambiguous and does not compile). The first argument is
fuel, `depth` in the theorems. `std::abs` of the minimum of `P` overflows. -/
def powFuel (handled : Option Exc) (w : Nat) : (depth : Nat) → Mat T n n → Int → Counted (Mat T n n)
  | 0, _, _ => liftRes (.error .diverges)
  | depth + 1, A, p =>
    if p = 0 then liftRes (eye1 n)
    else if p = 1 then pure A
    else do
      let (A, p) ←
        if p < 0 then do
          let A ← inv handled A
          if p = expMin w then liftRes (.error (.ub .signedOverflow))
          else pure (A, |p|)
        else pure (A, p)
      let _ ← liftRes <| ones (T := T) n n
      let powA ← powFuel handled w depth A (p.tdiv 2)
      if p.tmod 2 = 0 then mult powA powA
      else mult (← mult powA powA) A

/-- `pow(A, p)` with enough fuel for every exponent: the recursion halves `|p|`. -/
def pow (handled : Option Exc) (w : Nat) (A : Mat T n n) (p : Int) : Counted (Mat T n n) :=
  powFuel handled w (p.natAbs.log2 + 2) A p

/-- `((isOutOfRange(a, b)) ? 0 : kernel[u][v] * A[a][b])`, `matrix_conv2.hpp:69-77,121-129`;
`a`, `b` are `std::size_t` values, converted to `int` for the test only. -/
def convTerm (A : Mat T i j) (kernel : Mat T 3 3) (u v a b : Nat) : Counted T :=
  if isOutOfRange i j (szToInt a) (szToInt b) ≠ 0 then pure (ofInt 0)
  else do cMul (← liftRes <| rd kernel u v) (← liftRes <| rd A a b)

/-- `result[it][jt] += x` -/
def addTo {r c : Nat} (result : Mat T r c) (it jt : Nat) (x : T) : Counted (Mat T r c) := do
  liftRes <| wr result it jt (← cAdd (← liftRes <| rd result it jt) x)

/-- `conv2(A, kernel)`, `matrix_conv2.hpp:38-81`. -/
def conv2 (A : Mat T i j) (kernel : Mat T 3 3) : Counted (Mat T i j) :=
  forUp 0 i (valueInit i j) fun it result =>
    forUp 0 j result fun jt result => do
      let result ← liftRes <| wr result it jt (ofInt 0)
      let result ← addTo result it jt (← convTerm A kernel 0 0 (szSub it 1) (szSub jt 1))
      let result ← addTo result it jt (← convTerm A kernel 0 1 (szSub it 1) jt)
      let result ← addTo result it jt (← convTerm A kernel 0 2 (szSub it 1) (szAdd jt 1))
      let result ← addTo result it jt (← convTerm A kernel 1 0 it (szSub jt 1))
      let result ← addTo result it jt (← convTerm A kernel 1 1 it jt)
      let result ← addTo result it jt (← convTerm A kernel 1 2 it (szAdd jt 1))
      let result ← addTo result it jt (← convTerm A kernel 2 0 (szAdd it 1) (szSub jt 1))
      let result ← addTo result it jt (← convTerm A kernel 2 1 (szAdd it 1) jt)
      addTo result it jt (← convTerm A kernel 2 2 (szAdd it 1) (szAdd jt 1))

/-- `conv2_full(A, kernel)`, `matrix_conv2.hpp:88-133`; `offset` is 1. -/
def conv2_full (A : Mat T i j) (kernel : Mat T 3 3) : Counted (Mat T (i + 2) (j + 2)) :=
  let offset := 1
  forUp 0 (i + 2) (valueInit (i + 2) (j + 2)) fun it result =>
    forUp 0 (j + 2) result fun jt result => do
      let result ← liftRes <| wr result it jt (ofInt 0)
      let result ← addTo result it jt (← convTerm A kernel 0 0
        (szSub (szSub it 1) offset) (szSub (szSub jt 1) offset))
      let result ← addTo result it jt (← convTerm A kernel 0 1
        (szSub (szSub it 1) offset) (szSub jt offset))
      let result ← addTo result it jt (← convTerm A kernel 0 2
        (szSub (szSub it 1) offset) (szSub (szAdd jt 1) offset))
      let result ← addTo result it jt (← convTerm A kernel 1 0
        (szSub it offset) (szSub (szSub jt 1) offset))
      let result ← addTo result it jt (← convTerm A kernel 1 1
        (szSub it offset) (szSub jt offset))
      let result ← addTo result it jt (← convTerm A kernel 1 2
        (szSub it offset) (szSub (szAdd jt 1) offset))
      let result ← addTo result it jt (← convTerm A kernel 2 0
        (szSub (szAdd it 1) offset) (szSub (szSub jt 1) offset))
      let result ← addTo result it jt (← convTerm A kernel 2 1
        (szSub (szAdd it 1) offset) (szSub jt offset))
      addTo result it jt (← convTerm A kernel 2 2
        (szSub (szAdd it 1) offset) (szSub (szAdd jt 1) offset))

/-- `conv2_valid(A, kernel)`, `matrix_conv2.hpp:139-144`. `getminor` accepts square matrices only,
so it compiles only for `i = j`; `n` is both. The model is meant for `n ≥ 2` (for smaller `n` the
type `Matrix<T, i-2, j-2>` wraps and does not compile). -/
def conv2_valid {n : Nat} (A : Mat T n n) (kernel : Mat T 3 3) : Counted (Mat T (n - 2) (n - 2)) := do
  let tmp1 ← liftRes <| getminor (← conv2 A kernel) (n - 1) (n - 1)
  liftRes <| getminor tmp1 0 0

/-- `mean(A)`, `matrix_mean.hpp:31-43`; `T result{}` is 0, the division is `T / size_t`. -/
def mean (A : Mat T i j) : Counted T := do
  let result ← forUp 0 i (ofInt 0) fun it result =>
    forUp 0 j result fun jt result => do
      cAdd result (← liftRes <| rd A it jt)
  cDivSize result (i * j)

/-- `median(A)`, `matrix_median.hpp:30-58`; `sort` as in `stdSort`. `floor(size / 2)` converts through `double`, which is exact below 2^53. The two
conditions of the `if` are exhaustive, so line 57 is unreachable. -/
def median (sort : List T → List T) (A : Mat T i j) : Counted T := do
  let size := i * j
  let v ← forUp 0 i [] fun it v =>
    forUp 0 j v fun jt v => do
      pure (v ++ [← liftRes <| rd A it jt])
  let v ← liftRes <| stdSort sort A v
  if size % 2 = 0 then
    let x ← liftRes <| vecRd v (size / 2)
    let y ← liftRes <| vecRd v (szSub (size / 2) 1)
    cDiv (← cAdd x y) (ofInt 2)
  else
    liftRes <| vecRd v (size / 2)

/-- `var(A)`, `matrix_var.hpp:31-44`. -/
def var (A : Mat T i j) : Counted T := do
  let meanA ← mean A
  let result ← forUp 0 i (ofInt 0) fun it result =>
    forUp 0 j result fun jt result => do
      let d ← cSub (← liftRes <| rd A it jt) meanA
      let e ← cSub (← liftRes <| rd A it jt) meanA
      cAdd result (← cMul d e)
  cDivSize result (i * j)

/-- `stddev(A)`, `matrix_stddev.hpp:31-35`. -/
def stddev (A : Mat T i j) : Counted T := do
  cSqrt (← var A)

/-- The loops of `compare`, `matrix_utils.hpp:52-62`; `exceeds d` is the comparison
`d > epsilon`, whose operands are converted to their common type. -/
def compareLoop (exceeds : T → Bool) (A B : Mat T i j) : Counted Bool := do
  let c ← forRet 0 i () fun it _ =>
    forRet 0 j () fun jt _ => do
      let d ← cAbs (← cSub (← liftRes <| rd A it jt) (← liftRes <| rd B it jt))
      if exceeds d then pure (.ret false)
      else pure (.cont ())
  match c with
  | .ret b => pure b
  | .cont _ => pure true

end Count

end MatrixLibs
