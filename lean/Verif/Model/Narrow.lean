import Verif.Model.Stats

/-!
# Element types that are promoted

`char`, `signed char`, `unsigned char`, `short` and `unsigned short` elements are promoted to `int` before any
arithmetic: an expression over them has type `int`, and its value is converted back (modulo `2^w`) only where
the code stores it in a `T`, passes it as a `T` or returns it as a `T`. The functions of this file are the
functions of the headers again, with these conversions made explicit: `load` is the promotion of an element,
`store` the conversion back. `Verif.Proof.NarrowId` proves that they are the functions of the rest of the model
when both conversions are the identity.
-/

namespace MatrixLibs

/-! ## The types -/

/-- An integer type narrower than `int`: `signed char` is `⟨true, 8⟩`, `unsigned short` is `⟨false, 16⟩`.
`int` has 32 bits, the narrower types have at most 16. -/
structure Narrow where
  signed : Bool
  w : Nat
  pos : 1 ≤ w
  le : w ≤ 16

namespace Narrow

/-- `std::int8_t`. -/
def int8 : Narrow := ⟨true, 8, by omega, by omega⟩
/-- `std::uint8_t`. -/
def uint8 : Narrow := ⟨false, 8, by omega, by omega⟩
/-- `std::int16_t`. -/
def int16 : Narrow := ⟨true, 16, by omega, by omega⟩
/-- `std::uint16_t`. -/
def uint16 : Narrow := ⟨false, 16, by omega, by omega⟩

/-- Smallest value. -/
def min (t : Narrow) : Int := if t.signed then -(2 ^ (t.w - 1)) else 0

/-- Largest value. -/
def max (t : Narrow) : Int := if t.signed then 2 ^ (t.w - 1) - 1 else 2 ^ t.w - 1

/-- The values of the type. -/
def Has (t : Narrow) (k : Int) : Prop := t.min ≤ k ∧ k ≤ t.max

instance (t : Narrow) (k : Int) : Decidable (t.Has k) := by unfold Has; infer_instance

/-- Conversion of an integer: the value of the type that is congruent modulo `2^w` (implementation-defined for
signed types before C++20, two's complement on every supported compiler). -/
def conv (t : Narrow) (k : Int) : Int := if t.signed then Int.bmod k (2 ^ t.w) else k % 2 ^ t.w

theorem conv_has (t : Narrow) (k : Int) : t.Has (t.conv k) := by
  unfold Has min max conv
  split
  · have h := SInt.bmod_inRange (w := t.w) k
    unfold InRange at h
    omega
  · have h1 : (0 : Int) < 2 ^ t.w := by positivity
    have h2 := Int.emod_nonneg k h1.ne'
    have h3 := Int.emod_lt_of_pos k h1
    omega

theorem has_inRange (t : Narrow) {k : Int} (h : t.Has k) : InRange 32 k := by
  unfold Has min max at h
  unfold InRange
  have h1 : (2 : Int) ^ (t.w - 1) ≤ 2 ^ 31 := by
    have := t.le
    exact_mod_cast Nat.pow_le_pow_right (by norm_num) (by omega)
  have h2 : (2 : Int) ^ t.w ≤ 2 ^ 31 := by
    have := t.le
    exact_mod_cast Nat.pow_le_pow_right (by norm_num) (by omega)
  norm_num at *
  split at h <;> omega

end Narrow

/-- A value of the type `t`. -/
structure NInt (t : Narrow) where
  val : Int
  has : t.Has val
  deriving DecidableEq

/-- Conversion to `t`. -/
def NInt.ofInt {t : Narrow} (k : Int) : NInt t := ⟨t.conv k, t.conv_has k⟩

instance (t : Narrow) : Inhabited (NInt t) := ⟨NInt.ofInt 0⟩

/-- How elements `T` enter and leave expressions of type `P`. -/
class Promo (T : Type) (P : outParam Type) where
  /-- the promotion of an element -/
  load : T → P
  /-- the conversion of the value of an expression to the element type -/
  store : P → T
  /-- `T x = sqrt(p)`: through `double` for integers -/
  sqrtTo : P → Res T

/-- Narrow integers are promoted to `int` and converted back modulo `2^w`. The square root is a `double`; its
conversion truncates and is undefined if the element type does not have the value. -/
instance narrowPromo (t : Narrow) : Promo (NInt t) (SInt 32) where
  load a := ⟨a.val, t.has_inRange a.has⟩
  store p := NInt.ofInt p.val
  sqrtTo p := match sqrtTrunc p.val with
    | some k => if h : t.Has k then .ok ⟨k, h⟩ else .error (.ub .domain)
    | none => .error (.ub .domain)

/-- No promotion: the element types of the rest of the model. -/
@[reducible] def selfPromo (T : Type) [CScalar T] : Promo T T where
  load := id
  store := id
  sqrtTo := CScalar.sqrt

open Promo (load store sqrtTo)
open CScalar (ofInt)

namespace Promoted

variable {T P : Type} [Inhabited T] [CScalar P] [Promo T P]

/-- An `int` or `double` literal stored in an element. -/
def lit (k : Int) : T := store (ofInt k : P)

/-! ## Construction -/

/-- `zeros<T, i, j>()`, `matrix_zeros.hpp:30-34`. -/
def zeros (i j : Nat) : Res (Mat T i j) := fill i j (lit 0)

/-- `ones<T, i, j>()`, `matrix_ones.hpp:34-38`. -/
def ones (i j : Nat) : Res (Mat T i i) := if j = i then fill i i (lit 1) else .error .illFormed

/-- `eye<T, n>(data)`, `matrix_eye.hpp:32-42`. -/
def eye (n : Nat) (data : T) : Res (Mat T n n) := do
  let eye ← fill n n (lit 0)
  forUp 0 n eye fun i eye => wr eye i i data

/-- `eye<T, n>()`, `matrix_eye.hpp:33`. -/
def eye1 (n : Nat) : Res (Mat T n n) := eye n (lit 1)

/-! ## Arithmetic -/

variable {i j : Nat}

/-- `sum(A, B)` and `A + B`, `matrix_sum.hpp:32-45,80-84`. -/
def sum (A B : Mat T i j) : Res (Mat T i j) :=
  forUp 0 i (valueInit i j) fun it sum =>
    forUp 0 j sum fun jt sum => do
      wr sum it jt (store (← CScalar.add (load (← rd A it jt)) (load (← rd B it jt))))

/-- `sum(A, scalar)`, `A + scalar` and `scalar + A`, `matrix_sum.hpp:56-69,95-99,110-114`. -/
def sumScalar (A : Mat T i j) (scalar : T) : Res (Mat T i j) :=
  forUp 0 i (valueInit i j) fun it sum =>
    forUp 0 j sum fun jt sum => do
      wr sum it jt (store (← CScalar.add (load (← rd A it jt)) (load scalar)))

/-- `A++`, `matrix_sum.hpp:125-129`; operand after the call and returned value. -/
def opPostInc (A : Mat T i j) : Res (Mat T i j × Mat T i j) := do
  let v ← sumScalar A (lit 1)
  .ok (A, v)

/-- `sub(A, B)` and `A - B`, `matrix_sub.hpp:32-45,80-84`. -/
def sub (A B : Mat T i j) : Res (Mat T i j) :=
  forUp 0 i (valueInit i j) fun it sub =>
    forUp 0 j sub fun jt sub => do
      wr sub it jt (store (← CScalar.sub (load (← rd A it jt)) (load (← rd B it jt))))

/-- `sub(A, scalar)` and `A - scalar`, `matrix_sub.hpp:56-69,95-99`. -/
def subScalar (A : Mat T i j) (scalar : T) : Res (Mat T i j) :=
  forUp 0 i (valueInit i j) fun it sub =>
    forUp 0 j sub fun jt sub => do
      wr sub it jt (store (← CScalar.sub (load (← rd A it jt)) (load scalar)))

/-- `A--`, `matrix_sub.hpp:110-114`; operand after the call and returned value. -/
def opPostDec (A : Mat T i j) : Res (Mat T i j × Mat T i j) := do
  let v ← subScalar A (lit 1)
  .ok (A, v)

/-- `mult(A, B)` and `A * B`, `matrix_mult.hpp:32-48,83-87`: each `+=` stores. -/
def mult {n m p : Nat} (A : Mat T n m) (B : Mat T m p) : Res (Mat T n p) := do
  let prod ← zeros n p
  forUp 0 n prod fun i prod =>
    forUp 0 p prod fun j prod =>
      forUp 0 m prod fun k prod => do
        let t ← CScalar.mul (load (← rd A i k)) (load (← rd B k j))
        wr prod i j (store (← CScalar.add (load (← rd prod i j)) t))

/-- `mult(A, scalar)`, `A * scalar` and `scalar * A`, `matrix_mult.hpp:59-72,98-102,113-117`. -/
def multScalar (A : Mat T i j) (scalar : T) : Res (Mat T i j) :=
  forUp 0 i (valueInit i j) fun it prod =>
    forUp 0 j prod fun jt prod => do
      wr prod it jt (store (← CScalar.mul (load (← rd A it jt)) (load scalar)))

/-- `div(A, scalar)` and `A / scalar`, `matrix_div.hpp:32-48,59-63`. -/
def div {n m : Nat} (handled : Option Exc) (A : Mat T n m) (scalar : T) : Res (Mat T n m) :=
  if CScalar.eq (load scalar) (ofInt 0 : P) then bareThrow handled
  else
    forUp 0 n (valueInit n m) fun i prod =>
      forUp 0 m prod fun j prod => do
        wr prod i j (store (← CScalar.div (load (← rd A i j)) (load scalar)))

/-- `abs(A)`, `matrix_abs.hpp:31-43`: `std::abs` of a narrow integer is that of its promotion, also for
unsigned types. -/
def abs (A : Mat T i j) : Res (Mat T i j) := do
  let absA ← forUp 0 i (Mat.const none : Mat (Option T) i j) fun it absA =>
    forUp 0 j absA fun jt absA => do
      wr absA it jt (some (store (← CScalar.abs (load (← rd A it jt)))))
  copyOut absA

/-- `strassen(A, B)`, `matrix_strassen.hpp:34-53`: `M1` to `M7` are declared `T`, so they are stored; sums of
elements inside the products are not. -/
def strassen (A B : Mat T 2 2) : Res (Mat T 2 2) := do
  let a00 := load (← rd A 0 0)
  let a01 := load (← rd A 0 1)
  let a10 := load (← rd A 1 0)
  let a11 := load (← rd A 1 1)
  let b00 := load (← rd B 0 0)
  let b01 := load (← rd B 0 1)
  let b10 := load (← rd B 1 0)
  let b11 := load (← rd B 1 1)
  let M1 : T := store (← CScalar.mul a00 (← CScalar.sub b01 b11))
  let M2 : T := store (← CScalar.mul (← CScalar.add a00 a01) b11)
  let M3 : T := store (← CScalar.mul (← CScalar.add a10 a11) b00)
  let M4 : T := store (← CScalar.mul a11 (← CScalar.sub b10 b00))
  let M5 : T := store (← CScalar.mul (← CScalar.add a00 a11) (← CScalar.add b00 b11))
  let M6 : T := store (← CScalar.mul (← CScalar.sub a01 a11) (← CScalar.add b10 b11))
  let M7 : T := store (← CScalar.mul (← CScalar.sub a00 a10) (← CScalar.add b00 b01))
  let prod : Mat T 2 2 := valueInit 2 2
  let prod ← wr prod 0 0
    (store (← CScalar.add (← CScalar.sub (← CScalar.add (load M5) (load M4)) (load M2)) (load M6)))
  let prod ← wr prod 0 1 (store (← CScalar.add (load M1) (load M2)))
  let prod ← wr prod 1 0 (store (← CScalar.add (load M3) (load M4)))
  wr prod 1 1
    (store (← CScalar.sub (← CScalar.add (load M1) (load M5)) (← CScalar.add (load M3) (load M7))))

/-! ## Determinant -/

/-- `det` of a 1x1 matrix, `matrix_det.hpp:32-36`. -/
def det1 (A : Mat T 1 1) : Res T := rd A 0 0

/-- `det` of a 2x2 matrix, `matrix_det.hpp:46-53`: the whole expression is an `int`, converted on return. -/
def det2 (A : Mat T 2 2) : Res T := do
  let a := load (← rd A 0 0)
  let b := load (← rd A 0 1)
  let c := load (← rd A 1 0)
  let d := load (← rd A 1 1)
  let t ← CScalar.sub (← CScalar.mul a d) (← CScalar.mul b c)
  .ok (store t)

/-- `det` of a 3x3 matrix, `matrix_det.hpp:63-71`. -/
def det3 (A : Mat T 3 3) : Res T := do
  let a := load (← rd A 0 0)
  let b := load (← rd A 0 1)
  let c := load (← rd A 0 2)
  let d := load (← rd A 1 0)
  let e := load (← rd A 1 1)
  let f := load (← rd A 1 2)
  let g := load (← rd A 2 0)
  let h := load (← rd A 2 1)
  let i := load (← rd A 2 2)
  let t ← CScalar.mul (← CScalar.mul a e) i
  let t ← CScalar.add t (← CScalar.mul (← CScalar.mul b f) g)
  let t ← CScalar.add t (← CScalar.mul (← CScalar.mul c d) h)
  let t ← CScalar.sub t (← CScalar.mul (← CScalar.mul c e) g)
  let t ← CScalar.sub t (← CScalar.mul (← CScalar.mul b d) i)
  let t ← CScalar.sub t (← CScalar.mul (← CScalar.mul a f) h)
  .ok (store t)

variable {n : Nat}

/-- The lambda `prod` of `det`, `matrix_det.hpp:87-96`: `T prod` stores each product, the quotient is an `int`
that `return prod();` converts. -/
def detProd (A : Mat T n n) (factor : T) : Res T := do
  let prod ← forUp 0 n (lit 1 : T) fun i prod => do
    .ok (store (← CScalar.mul (load prod) (load (← rd A i i))))
  .ok (store (← CScalar.div (load prod) (load factor)))

/-- The pivot search of `det`, `matrix_det.hpp:107-119`, see `MatrixLibs.detSearch`. -/
def detSearch (A : Mat T n n) (r : Nat) : (fuel i pivot : Nat) → Res (Option (Nat × Nat))
  | 0, _, _ => .error .diverges
  | fuel + 1, i, pivot => do
    if CScalar.eq (load (← rd A i pivot)) (ofInt 0 : P) then
      let i := i + 1
      if n = i then
        let i := r
        let pivot := pivot + 1
        if n = pivot then .ok none
        else detSearch A r fuel i pivot
      else detSearch A r fuel i pivot
    else .ok (some (i, pivot))

/-- The elimination loops of `det`, `matrix_det.hpp:127-138`: `val * A[r][j] / A[r][pivot]` is an `int`
expression, the difference is stored. -/
def detEliminate (A : Mat T n n) (r pivot : Nat) : Res (Mat T n n) :=
  forUp (pivot + 1) n A fun i A =>
    if i ≠ r then do
      let val ← rd A i pivot
      forUp pivot n A fun j A => do
        let q ← CScalar.div (← CScalar.mul (load val) (load (← rd A r j))) (load (← rd A r pivot))
        wr A i j (store (← CScalar.sub (load (← rd A i j)) q))
    else .ok A

/-- The exchange of rows of `det`, `matrix_det.hpp:121-125`. -/
def detSwap (A : Mat T n n) (factor : T) (i r : Nat) : Res (Mat T n n × T) :=
  if i ≠ r then do
    let A ← swap_rows A i r
    let factor := store (← CScalar.mul (load factor) (ofInt (-1)))
    .ok (A, factor)
  else .ok (A, factor)

/-- Body of the outer loop of the general `det`, `matrix_det.hpp:99-139`. -/
def detStep (r : Nat) (s : DetState T n) : Res (Ctl (DetState T n) T) := do
  if n ≤ s.pivot then
    return .ret (← detProd s.A s.factor)
  match ← detSearch s.A r (n * n + 1) r s.pivot with
  | none => return .ret (← detProd s.A s.factor)
  | some (i, pivot) =>
    let (A, factor) ← detSwap s.A s.factor i r
    let A ← detEliminate A r pivot
    return .cont { A := A, factor := factor, pivot := pivot + 1 }

/-- The general `det`, `matrix_det.hpp:81-142`. -/
def detN (A : Mat T n n) : Res T := do
  match ← forRet 0 n { A := A, factor := lit 1, pivot := 0 } detStep with
  | .ret v => .ok v
  | .cont s => detProd s.A s.factor

/-- A call `det(A)`. -/
def det : {n : Nat} → Mat T n n → Res T
  | 1, A => det1 A
  | 2, A => det2 A
  | 3, A => det3 A
  | _, A => detN A

/-! ## Inverse -/

/-- The general `inv`, `matrix_inv.hpp:132-145`. (For sizes 1 to 3 `inv` of a narrow type does not compile: the
braces of `matrix_inv.hpp:68,89-90,117-120` hold `int` expressions, and narrowing is not allowed there. GCC only
warns about it; that extension is not modelled.) -/
def invN (handled : Option Exc) (A : Mat T n n) : Res (Mat T n n) := do
  let detA ← det A
  let invA ← forUp 0 n (valueInit n n) fun i invA =>
    forUp 0 n invA fun j invA => do
      let d ← det (← getminor A i j)
      wr invA i j (store (← CScalar.mul (ofInt (if (i + j) % 2 ≠ 0 then -1 else 1)) (load d)))
  div handled (← trans invA) detA

/-! ## Factorisations -/

/-- `sum = 0.0; for (p = 0; p < i; p++) sum += U[p][j] * L[i][p];`, `matrix_lu.hpp:45-49,55-59`. -/
def luSum (L U : Mat T n n) (i j : Nat) : Res T :=
  forUp 0 i (lit 0) fun p sum => do
    let t ← CScalar.mul (load (← rd U p j)) (load (← rd L i p))
    .ok (store (← CScalar.add (load sum) t))

/-- First inner loop, `matrix_lu.hpp:43-51`. -/
def luUpper (A L : Mat T n n) (j : Nat) (U : Mat T n n) : Res (Mat T n n) :=
  forUp 0 (j + 1) U fun i U => do
    let sum ← luSum L U i j
    wr U i j (store (← CScalar.sub (load (← rd A i j)) (load sum)))

/-- Second inner loop, `matrix_lu.hpp:53-65`. -/
def luLower (A U : Mat T n n) (j : Nat) (L : Mat T n n) : Res (Mat T n n) :=
  forUp j n L fun i L => do
    let sum ← luSum L U i j
    let u ← rd U j j
    if CScalar.eq (load u) (ofInt 0 : P) then .error (.throws divideByZeroException)
    else
      wr L i j (store (← CScalar.div (← CScalar.sub (load (← rd A i j)) (load sum)) (load u)))

/-- `lu(A)`, `matrix_lu.hpp:34-68`; the pair `(L, U)`. -/
def lu (A : Mat T n n) : Res (Mat T n n × Mat T n n) := do
  let L ← eye1 n
  let U ← zeros n n
  forUp 0 n (L, U) fun j (L, U) => do
    let U ← luUpper A L j U
    let L ← luLower A U j L
    .ok (L, U)

/-- `isSymetric(A)`, `matrix_cholesky.hpp:29-45`. -/
def isSymetric (A : Mat T n n) : Res Bool := do
  let c ← forRet 1 n () fun i _ =>
    forRet 0 i () fun j _ => do
      if !(CScalar.eq (load (← rd A i j)) (load (← rd A j i))) then .ok (.ret false)
      else .ok (.cont ())
  match c with
  | .ret b => .ok b
  | .cont _ => .ok true

/-- `sum = 0; for (k = 0; k < i; k++) sum += L[i][k] * L[j][k];`, `matrix_cholesky.hpp:67-71,76-80`. -/
def cholSum (L : Mat T n n) (i j : Nat) : Res T :=
  forUp 0 i (lit 0) fun k sum => do
    let t ← CScalar.mul (load (← rd L i k)) (load (← rd L j k))
    .ok (store (← CScalar.add (load sum) t))

/-- Body of the inner loop of `chol`, `matrix_cholesky.hpp:65-82`. -/
def cholStep (A : Mat T n n) (i j : Nat) (L : Mat T n n) : Res (Mat T n n) :=
  if j = i then do
    let sum ← cholSum L i i
    wr L i i (← sqrtTo (← CScalar.sub (load (← rd A i i)) (load sum)))
  else do
    let sum ← cholSum L i j
    wr L i j (store (← CScalar.div (← CScalar.sub (load (← rd A i j)) (load sum)) (load (← rd L j j))))

/-- `chol(A)`, `matrix_cholesky.hpp:54-86`. -/
def chol (A : Mat T n n) : Res (Mat T n n) :=
  forUp 0 n (Mat.const (lit 0)) fun i L =>
    forUp 0 (i + 1) L fun j L => cholStep A i j L

/-! ## Convolution -/

/-- `((isOutOfRange(a, b)) ? 0 : kernel[u][v] * A[a][b])`, an `int` expression,
`matrix_conv2.hpp:69-77,121-129`. -/
def convTerm (A : Mat T i j) (kernel : Mat T 3 3) (u v a b : Nat) : Res P :=
  if isOutOfRange i j (szToInt a) (szToInt b) ≠ 0 then .ok (ofInt 0)
  else do CScalar.mul (load (← rd kernel u v)) (load (← rd A a b))

/-- `result[it][jt] += x` with an `int` `x`. -/
def addTo {r c : Nat} (result : Mat T r c) (it jt : Nat) (x : P) : Res (Mat T r c) := do
  wr result it jt (store (← CScalar.add (load (← rd result it jt)) x))

/-- `conv2(A, kernel)`, `matrix_conv2.hpp:38-81`. -/
def conv2 (A : Mat T i j) (kernel : Mat T 3 3) : Res (Mat T i j) :=
  forUp 0 i (valueInit i j) fun it result =>
    forUp 0 j result fun jt result => do
      let result ← wr result it jt (lit 0)
      let result ← addTo result it jt (← convTerm A kernel 0 0 (szSub it 1) (szSub jt 1))
      let result ← addTo result it jt (← convTerm A kernel 0 1 (szSub it 1) jt)
      let result ← addTo result it jt (← convTerm A kernel 0 2 (szSub it 1) (szAdd jt 1))
      let result ← addTo result it jt (← convTerm A kernel 1 0 it (szSub jt 1))
      let result ← addTo result it jt (← convTerm A kernel 1 1 it jt)
      let result ← addTo result it jt (← convTerm A kernel 1 2 it (szAdd jt 1))
      let result ← addTo result it jt (← convTerm A kernel 2 0 (szAdd it 1) (szSub jt 1))
      let result ← addTo result it jt (← convTerm A kernel 2 1 (szAdd it 1) jt)
      addTo result it jt (← convTerm A kernel 2 2 (szAdd it 1) (szAdd jt 1))

/-- `conv2_full(A, kernel)`, `matrix_conv2.hpp:88-133`; `offset` is 1. -/
def conv2_full (A : Mat T i j) (kernel : Mat T 3 3) : Res (Mat T (i + 2) (j + 2)) :=
  let offset := 1
  forUp 0 (i + 2) (valueInit (i + 2) (j + 2)) fun it result =>
    forUp 0 (j + 2) result fun jt result => do
      let result ← wr result it jt (lit 0)
      let result ← addTo result it jt (← convTerm A kernel 0 0
        (szSub (szSub it 1) offset) (szSub (szSub jt 1) offset))
      let result ← addTo result it jt (← convTerm A kernel 0 1
        (szSub (szSub it 1) offset) (szSub jt offset))
      let result ← addTo result it jt (← convTerm A kernel 0 2
        (szSub (szSub it 1) offset) (szSub (szAdd jt 1) offset))
      let result ← addTo result it jt (← convTerm A kernel 1 0
        (szSub it offset) (szSub (szSub jt 1) offset))
      let result ← addTo result it jt (← convTerm A kernel 1 1
        (szSub it offset) (szSub jt offset))
      let result ← addTo result it jt (← convTerm A kernel 1 2
        (szSub it offset) (szSub (szAdd jt 1) offset))
      let result ← addTo result it jt (← convTerm A kernel 2 0
        (szSub (szAdd it 1) offset) (szSub (szSub jt 1) offset))
      let result ← addTo result it jt (← convTerm A kernel 2 1
        (szSub (szAdd it 1) offset) (szSub jt offset))
      addTo result it jt (← convTerm A kernel 2 2
        (szSub (szAdd it 1) offset) (szSub (szAdd jt 1) offset))

/-- `conv2_valid(A, kernel)`, `matrix_conv2.hpp:139-144`. -/
def conv2_valid {n : Nat} (A : Mat T n n) (kernel : Mat T 3 3) : Res (Mat T (n - 2) (n - 2)) := do
  let tmp1 ← getminor (← conv2 A kernel) (n - 1) (n - 1)
  getminor tmp1 0 0

/-! ## Statistics and predicates -/

/-- `mean(A)`, `matrix_mean.hpp:31-43`: `result` is a `T` and stores every partial sum; `result / (i*j)` is
computed in `std::size_t` and converted on return. (`CScalar.divSize` of the promoted value converts the quotient
to `int` first; converting that to the narrower type gives the same.) -/
def mean (A : Mat T i j) : Res T := do
  let result ← forUp 0 i (lit 0 : T) fun it result =>
    forUp 0 j result fun jt result => do
      .ok (store (← CScalar.add (load result) (load (← rd A it jt))))
  .ok (store (← CScalar.divSize (load result) (i * j)))

/-- `median(A)`, `matrix_median.hpp:30-58`: the sum of the two middle elements and its half are `int`. The
elements of integer types are strictly weakly ordered, so the sort is always defined. -/
def median (sort : List T → List T) (A : Mat T i j) : Res T := do
  let size := i * j
  let v ← forUp 0 i [] fun it v =>
    forUp 0 j v fun jt v => do
      .ok (v ++ [← rd A it jt])
  let v := sort v
  if size % 2 = 0 then
    let x ← vecRd v (size / 2)
    let y ← vecRd v (szSub (size / 2) 1)
    .ok (store (← CScalar.div (← CScalar.add (load x) (load y)) (ofInt 2)))
  else
    vecRd v (size / 2)

/-- Operations on two elements, each promoted, with the value converted back. Used for the keys of a `std::map`,
whose comparison `std::less<T>` is the `<` of the promoted values. -/
@[reducible] def keyScalar (T : Type) {P : Type} [CScalar P] [Promo T P] : CScalar T where
  add a b := do .ok (store (← CScalar.add (load a) (load b)))
  sub a b := do .ok (store (← CScalar.sub (load a) (load b)))
  mul a b := do .ok (store (← CScalar.mul (load a) (load b)))
  div a b := do .ok (store (← CScalar.div (load a) (load b)))
  neg a := do .ok (store (← CScalar.neg (load a)))
  ofInt k := lit k
  eq a b := CScalar.eq (load a) (load b)
  lt a b := CScalar.lt (load a) (load b)
  abs a := do .ok (store (← CScalar.abs (load a)))
  sqrt a := sqrtTo (load a)
  divSize a n := do .ok (store (← CScalar.divSize (load a) n))

/-- `histogram(A)`, `matrix_histogram.hpp:31-43`, see `MatrixLibs.histogram`. -/
def histogram (A : Mat T i j) : Res (SizeMap T) :=
  letI := keyScalar T
  MatrixLibs.histogram A

/-- `cumulative_histogram(A)`, `matrix_histogram.hpp:54-67`, see `MatrixLibs.cumulative_histogram`. -/
def cumulative_histogram (A : Mat T i j) : Res (SizeMap T) :=
  letI := keyScalar T
  MatrixLibs.cumulative_histogram A

/-- `var(A)`, `matrix_var.hpp:31-44`: the squared difference is an `int`, each `+=` stores. -/
def var (A : Mat T i j) : Res T := do
  let meanA ← mean A
  let result ← forUp 0 i (lit 0 : T) fun it result =>
    forUp 0 j result fun jt result => do
      let d ← CScalar.sub (load (← rd A it jt)) (load meanA)
      let e ← CScalar.sub (load (← rd A it jt)) (load meanA)
      .ok (store (← CScalar.add (load result) (← CScalar.mul d e)))
  .ok (store (← CScalar.divSize (load result) (i * j)))

/-- `stddev(A)`, `matrix_stddev.hpp:31-35`. -/
def stddev (A : Mat T i j) : Res T := do
  sqrtTo (load (← var A))

/-- `compare(A, B, epsilon)`, `matrix_utils.hpp:49-63`; `exceeds` is the comparison of the absolute difference
with `epsilon`. -/
def compareLoop (exceeds : P → Bool) (A B : Mat T i j) : Res Bool := do
  let c ← forRet 0 i () fun it _ =>
    forRet 0 j () fun jt _ => do
      let d ← CScalar.abs (← CScalar.sub (load (← rd A it jt)) (load (← rd B it jt)))
      if exceeds d then .ok (.ret false)
      else .ok (.cont ())
  match c with
  | .ret b => .ok b
  | .cont _ => .ok true

/-- `compare(A, B, epsilon)`, `matrix_utils.hpp:49-63`, for narrow elements, signed or not: the difference is an
`int`, so `std::abs` is not ambiguous, and it is converted to `float` for the comparison. -/
def compare {t : Narrow} (A B : Mat (NInt t) i j) (epsilon : Fl binary32) : Res Bool :=
  compareLoop (fun d : SInt 32 => epsilon.lt (Fl.ofInt d.val)) A B

/-! ## Power -/

/-- `pow(A, p)`, `matrix_pow.hpp:32-65`, for `n ≥ 4` and a signed exponent type of `w ≥ 32` bits. (Its
instantiation contains a call of `inv`, which does not compile for smaller `n`.) -/
def powFuel (handled : Option Exc) (w : Nat) : (depth : Nat) → Mat T n n → Int → Res (Mat T n n)
  | 0, _, _ => .error .diverges
  | depth + 1, A, p =>
    if p = 0 then eye1 n
    else if p = 1 then .ok A
    else do
      let (A, p) ←
        if p < 0 then do
          let A ← invN handled A
          if p = expMin w then .error (.ub .signedOverflow)
          else pure (A, |p|)
        else pure (A, p)
      let _ ← ones (T := T) n n
      let powA ← powFuel handled w depth A (p.tdiv 2)
      if p.tmod 2 = 0 then mult powA powA
      else mult (← mult powA powA) A

/-- `pow(A, p)` with enough fuel. -/
def pow (handled : Option Exc) (w : Nat) (A : Mat T n n) (p : Int) : Res (Mat T n n) :=
  powFuel handled w (p.natAbs.log2 + 2) A p

end Promoted

/-! ## Powers with an exponent narrower than `int` -/

section
variable {T : Type} [Inhabited T] [CScalar T] {n : Nat}

/-- `pow(A, p)`, `matrix_pow.hpp:32-65`, for an exponent of a type `e` narrower than `int`: `std::abs(p)` is an
`int`, which line 50 converts back to `e` (so unsigned exponents compile); `p/2` is an `int` too, so the recursive
call of line 55 is the one for `int` exponents. -/
def powNarrow (handled : Option Exc) {e : Narrow} (A : Mat T n n) (p : NInt e) : Res (Mat T n n) :=
  if p.val = 0 then eye1 n
  else if p.val = 1 then .ok A
  else do
    let (A, p) ←
      if p.val < 0 then do
        let A ← inv handled A
        pure (A, (NInt.ofInt |p.val| : NInt e))
      else pure (A, p)
    let _ ← ones (T := T) n n
    let powA ← pow handled 32 A (p.val.tdiv 2)
    if p.val.tmod 2 = 0 then opMul powA powA
    else opMul (← opMul powA powA) A

end

end MatrixLibs
