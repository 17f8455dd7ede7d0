import Verif.Model.Arith

/-!
# Determinant, inverse, LU, Cholesky, power

`matrix_det.hpp`, `matrix_inv.hpp`, `matrix_lu.hpp`, `matrix_cholesky.hpp`, `matrix_pow.hpp`.
-/

namespace MatrixLibs

variable {T : Type} [Inhabited T] [CScalar T]

open CScalar (ofInt)

/-! ## det -/

/-- `det` of a 1x1 matrix, `matrix_det.hpp:32-36`. -/
def det1 (A : Mat T 1 1) : Res T := rd A 0 0

/-- `det` of a 2x2 matrix, `matrix_det.hpp:46-53`. -/
def det2 (A : Mat T 2 2) : Res T := do
  let a ← rd A 0 0
  let b ← rd A 0 1
  let c ← rd A 1 0
  let d ← rd A 1 1
  CScalar.sub (← CScalar.mul a d) (← CScalar.mul b c)

/-- `det` of a 3x3 matrix, `matrix_det.hpp:63-71`; `+` and `-` associate to the left. -/
def det3 (A : Mat T 3 3) : Res T := do
  let a ← rd A 0 0
  let b ← rd A 0 1
  let c ← rd A 0 2
  let d ← rd A 1 0
  let e ← rd A 1 1
  let f ← rd A 1 2
  let g ← rd A 2 0
  let h ← rd A 2 1
  let i ← rd A 2 2
  let t ← CScalar.mul (← CScalar.mul a e) i
  let t ← CScalar.add t (← CScalar.mul (← CScalar.mul b f) g)
  let t ← CScalar.add t (← CScalar.mul (← CScalar.mul c d) h)
  let t ← CScalar.sub t (← CScalar.mul (← CScalar.mul c e) g)
  let t ← CScalar.sub t (← CScalar.mul (← CScalar.mul b d) i)
  CScalar.sub t (← CScalar.mul (← CScalar.mul a f) h)

variable {n : Nat}

/-- The lambda `prod` of `det`, `matrix_det.hpp:87-96`. -/
def detProd (A : Mat T n n) (factor : T) : Res T := do
  let prod ← forUp 0 n (ofInt 1) fun i prod => do
    CScalar.mul prod (← rd A i i)
  CScalar.div prod factor

/-- The pivot search `while` of `det`, `matrix_det.hpp:107-119`. `some (i, pivot)`: the loop
ended; `none`: `return prod()` of line 116 was reached. The first argument is fuel. -/
def detSearch (A : Mat T n n) (r : Nat) : (fuel i pivot : Nat) → Res (Option (Nat × Nat))
  | 0, _, _ => .error .diverges
  | fuel + 1, i, pivot => do
    if CScalar.eq (← rd A i pivot) (ofInt 0) then
      let i := i + 1
      if n = i then
        let i := r
        let pivot := pivot + 1
        if n = pivot then .ok none
        else detSearch A r fuel i pivot
      else detSearch A r fuel i pivot
    else .ok (some (i, pivot))

/-- The elimination loops of `det`, `matrix_det.hpp:127-138`. -/
def detEliminate (A : Mat T n n) (r pivot : Nat) : Res (Mat T n n) :=
  forUp (pivot + 1) n A fun i A =>
    if i ≠ r then do
      let val ← rd A i pivot
      forUp pivot n A fun j A => do
        let q ← CScalar.div (← CScalar.mul val (← rd A r j)) (← rd A r pivot)
        wr A i j (← CScalar.sub (← rd A i j) q)
    else .ok A

/-- Locals of the general `det` that survive an iteration: `A`, `factor`, `pivot`. -/
structure DetState (T : Type) (n : Nat) where
  A : Mat T n n
  factor : T
  pivot : Nat

/-- The exchange of the pivot row with row `r`, `matrix_det.hpp:121-125`: returns the new `A` and
`factor`. -/
def detSwap (A : Mat T n n) (factor : T) (i r : Nat) : Res (Mat T n n × T) :=
  if i ≠ r then do
    let A ← swap_rows A i r
    let factor ← CScalar.mul factor (ofInt (-1))
    .ok (A, factor)
  else .ok (A, factor)

/-- Body of the outer loop of the general `det`, `matrix_det.hpp:99-139`. -/
def detStep (r : Nat) (s : DetState T n) : Res (Ctl (DetState T n) T) := do
  if n ≤ s.pivot then
    return .ret (← detProd s.A s.factor)
  match ← detSearch s.A r (n * n + 1) r s.pivot with
  | none => return .ret (← detProd s.A s.factor)
  | some (i, pivot) =>
    let (A, factor) ← detSwap s.A s.factor i r
    let A ← detEliminate A r pivot
    return .cont { A := A, factor := factor, pivot := pivot + 1 }

/-- The general `det`, `matrix_det.hpp:81-142` (parameter passed by value). -/
def detN (A : Mat T n n) : Res T := do
  match ← forRet 0 n { A := A, factor := ofInt 1, pivot := 0 } detStep with
  | .ret v => .ok v
  | .cont s => detProd s.A s.factor

/-- A call `det(A)`: the overload selected for each `n` (see `Verif.Model.Overload`). -/
def det : {n : Nat} → Mat T n n → Res T
  | 1, A => det1 A
  | 2, A => det2 A
  | 3, A => det3 A
  | _, A => detN A

/-! ## inv -/

/-- `std::overflow_error("Divide by zero exception")`, `matrix_inv.hpp:87,110`,
`matrix_lu.hpp:62`. -/
def divideByZeroException : Exc := .overflow_error "Divide by zero exception"

/-- `inv` of a 1x1 matrix, `matrix_inv.hpp:65-69`. -/
def inv1 (A : Mat T 1 1) : Res (Mat T 1 1) := do
  let x ← CScalar.div (ofInt 1) (← det1 A)
  .ok (Mat.const x)

/-- `inv` of a 2x2 matrix, `matrix_inv.hpp:80-93`. -/
def inv2 (handled : Option Exc) (A : Mat T 2 2) : Res (Mat T 2 2) := do
  let detA ← det2 A
  if CScalar.eq detA (ofInt 0) then .error (.throws divideByZeroException)
  else
    let x ← rd A 1 1
    let y ← CScalar.neg (← rd A 0 1)
    let z ← CScalar.neg (← rd A 1 0)
    let w ← rd A 0 0
    opDiv handled (brace2 x y z w) detA

/-- The 3x3 brace initialiser (row-major), as in `matrix_inv.hpp:117-120`. -/
def brace3 (x00 x01 x02 x10 x11 x12 x20 x21 x22 : T) : Mat T 3 3 := .of fun i j =>
  if i.val = 0 then (if j.val = 0 then x00 else if j.val = 1 then x01 else x02)
  else if i.val = 1 then (if j.val = 0 then x10 else if j.val = 1 then x11 else x12)
  else (if j.val = 0 then x20 else if j.val = 1 then x21 else x22)

/-- `p*q - r*s`, the shape of every entry of `matrix_inv.hpp:118-120`. -/
def cross (p q r s : T) : Res T := do
  CScalar.sub (← CScalar.mul p q) (← CScalar.mul r s)

/-- `inv` of a 3x3 matrix, `matrix_inv.hpp:104-123`. -/
def inv3 (handled : Option Exc) (A : Mat T 3 3) : Res (Mat T 3 3) := do
  let detA ← det3 A
  if CScalar.eq detA (ofInt 0) then .error (.throws divideByZeroException)
  else
    let a ← rd A 0 0
    let b ← rd A 0 1
    let c ← rd A 0 2
    let d ← rd A 1 0
    let e ← rd A 1 1
    let f ← rd A 1 2
    let g ← rd A 2 0
    let h ← rd A 2 1
    let i ← rd A 2 2
    let x00 ← cross e i f h
    let x01 ← cross c h b i
    let x02 ← cross b f c e
    let x10 ← cross f g d i
    let x11 ← cross a i c g
    let x12 ← cross c d a f
    let x20 ← cross d h e g
    let x21 ← cross b g a h
    let x22 ← cross a e b d
    opDiv handled (brace3 x00 x01 x02 x10 x11 x12 x20 x21 x22) detA

/-- The general `inv`, `matrix_inv.hpp:132-145`. The determinants of the minors go through the
overload selected for size `n - 1`. -/
def invN (handled : Option Exc) (A : Mat T n n) : Res (Mat T n n) := do
  let detA ← det A
  let invA ← forUp 0 n (valueInit n n) fun i invA =>
    forUp 0 n invA fun j invA => do
      let d ← det (← getminor A i j)
      wr invA i j (← CScalar.mul (ofInt (if (i + j) % 2 ≠ 0 then -1 else 1)) d)
  opDiv handled (← trans invA) detA

/-- A call `inv(A)`: the overload selected for each `n` (see `Verif.Model.Overload`).
`inv` of a 0x0 matrix does not compile (`getminor` would have type `Matrix<T, 2^64-1, 2^64-1>`). -/
def inv (handled : Option Exc) : {n : Nat} → Mat T n n → Res (Mat T n n)
  | 0, _ => .error .illFormed
  | 1, A => inv1 A
  | 2, A => inv2 handled A
  | 3, A => inv3 handled A
  | _, A => invN handled A

/-! ## lu -/

/-- The accumulation `sum = 0.0; for (p = 0; p < i; p++) sum += U[p][j] * L[i][p];`,
`matrix_lu.hpp:45-49` and `55-59`. -/
def luSum (L U : Mat T n n) (i j : Nat) : Res T :=
  forUp 0 i (ofInt 0) fun p sum => do
    CScalar.add sum (← CScalar.mul (← rd U p j) (← rd L i p))

/-- First inner loop, `matrix_lu.hpp:43-51`. -/
def luUpper (A L : Mat T n n) (j : Nat) (U : Mat T n n) : Res (Mat T n n) :=
  forUp 0 (j + 1) U fun i U => do
    let sum ← luSum L U i j
    wr U i j (← CScalar.sub (← rd A i j) sum)

/-- Second inner loop, `matrix_lu.hpp:53-65`. -/
def luLower (A U : Mat T n n) (j : Nat) (L : Mat T n n) : Res (Mat T n n) :=
  forUp j n L fun i L => do
    let sum ← luSum L U i j
    let u ← rd U j j
    if CScalar.eq u (ofInt 0) then .error (.throws divideByZeroException)
    else
      wr L i j (← CScalar.div (← CScalar.sub (← rd A i j) sum) u)

/-- `lu(A)`, `matrix_lu.hpp:34-68`; the pair `(L, U)`. -/
def lu (A : Mat T n n) : Res (Mat T n n × Mat T n n) := do
  let L ← eye1 n
  let U ← zeros n n
  forUp 0 n (L, U) fun j (L, U) => do
    let U ← luUpper A L j U
    let L ← luLower A U j L
    .ok (L, U)

/-! ## Cholesky -/

/-- `isSymetric(A)`, `matrix_cholesky.hpp:29-45`. -/
def isSymetric (A : Mat T n n) : Res Bool := do
  let c ← forRet 1 n () fun i _ =>
    forRet 0 i () fun j _ => do
      if !(CScalar.eq (← rd A i j) (← rd A j i)) then .ok (.ret false)
      else .ok (.cont ())
  match c with
  | .ret b => .ok b
  | .cont _ => .ok true

/-- `sum = 0; for (k = 0; k < i; k++) sum += L[i][k] * L[j][k];`, `matrix_cholesky.hpp:67-71`
(with `j = i`) and `76-80`. -/
def cholSum (L : Mat T n n) (i j : Nat) : Res T :=
  forUp 0 i (ofInt 0) fun k sum => do
    CScalar.add sum (← CScalar.mul (← rd L i k) (← rd L j k))

/-- Body of the inner loop of `chol`, `matrix_cholesky.hpp:65-82`. -/
def cholStep (A : Mat T n n) (i j : Nat) (L : Mat T n n) : Res (Mat T n n) :=
  if j = i then do
    let sum ← cholSum L i i
    wr L i i (← CScalar.sqrt (← CScalar.sub (← rd A i i) sum))
  else do
    let sum ← cholSum L i j
    wr L i j (← CScalar.div (← CScalar.sub (← rd A i j) sum) (← rd L j j))

/-- `chol(A)`, `matrix_cholesky.hpp:54-86`; `L{}` stores `T{}`, the value 0. -/
def chol (A : Mat T n n) : Res (Mat T n n) :=
  forUp 0 n (Mat.const (ofInt 0)) fun i L =>
    forUp 0 (i + 1) L fun j L => cholStep A i j L

/-! ## pow -/

/-- Smallest value of the signed exponent type `P` of `w` bits. -/
def expMin (w : Nat) : Int := -(2 ^ (w - 1))

/-- `pow(A, p)`, `matrix_pow.hpp:32-65`, for a signed exponent type `P` of `w ≥ 32` bits (for an
unsigned one `std::abs(p)` on line 50 is ambiguous and does not compile). The first argument is
fuel, `depth` in the theorems. `std::abs` of the minimum of `P` overflows. -/
def powFuel (handled : Option Exc) (w : Nat) : (depth : Nat) → Mat T n n → Int → Res (Mat T n n)
  | 0, _, _ => .error .diverges
  | depth + 1, A, p =>
    if p = 0 then eye1 n
    else if p = 1 then .ok A
    else do
      let (A, p) ←
        if p < 0 then do
          let A ← inv handled A
          if p = expMin w then .error (.ub .signedOverflow)
          else pure (A, |p|)
        else pure (A, p)
      let _ ← ones (T := T) n n
      let powA ← powFuel handled w depth A (p.tdiv 2)
      if p.tmod 2 = 0 then opMul powA powA
      else opMul (← opMul powA powA) A

/-- `pow(A, p)` with enough fuel for every exponent: the recursion halves `|p|`. -/
def pow (handled : Option Exc) (w : Nat) (A : Mat T n n) (p : Int) : Res (Mat T n n) :=
  powFuel handled w (p.natAbs.log2 + 2) A p

end MatrixLibs
