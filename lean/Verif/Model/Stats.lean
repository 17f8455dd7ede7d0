import Verif.Model.Conv
import Verif.Model.Scalar

/-!
# Histogram, statistics, predicates, printing

`matrix_histogram.hpp`, `matrix_mean.hpp`, `matrix_median.hpp`, `matrix_var.hpp`,
`matrix_stddev.hpp`, `matrix_utils.hpp`, `matrix_print.hpp`.
-/

namespace MatrixLibs

variable {T : Type} [Inhabited T] [CScalar T] {i j : Nat}

open CScalar (ofInt)

/-! ## histogram -/

/-- `<` is a strict weak ordering of the elements of `A`: irreflexive, transitive, and being neither less nor
greater is transitive. `std::map` and `std::sort` require it of their keys (C++11 [associative.reqmts],
[alg.sorting]). It fails for floating point elements with NaNs. -/
def StrictWeak (A : Mat T i j) : Prop :=
  ∀ a b, CScalar.lt (A a b) (A a b) = false ∧ ∀ a' b' a'' b'',
    (CScalar.lt (A a b) (A a' b') = true → CScalar.lt (A a' b') (A a'' b'') = true →
      CScalar.lt (A a b) (A a'' b'') = true) ∧
    (CScalar.lt (A a b) (A a' b') = false ∧ CScalar.lt (A a' b') (A a b) = false →
      CScalar.lt (A a' b') (A a'' b'') = false ∧ CScalar.lt (A a'' b'') (A a' b') = false →
      CScalar.lt (A a b) (A a'' b'') = false ∧ CScalar.lt (A a'' b'') (A a b) = false)

instance (A : Mat T i j) : Decidable (StrictWeak A) := by unfold StrictWeak; infer_instance

/-- `std::map<T, std::size_t>`: the entries in iteration (key) order. -/
abbrev SizeMap (T : Type) := List (T × Nat)

/-- `m[k] = f(m[k])` on a `std::map`: `operator[]` finds the entry equivalent to `k` under `<`, or
inserts `(k, 0)` at its place in key order; then the mapped value is updated. -/
def SizeMap.update (m : SizeMap T) (k : T) (f : Nat → Nat) : SizeMap T :=
  match m with
  | [] => [(k, f 0)]
  | (k', c) :: t =>
    if CScalar.lt k k' then (k, f 0) :: (k', c) :: t
    else if CScalar.lt k' k then (k', c) :: SizeMap.update t k f
    else (k', f c) :: t

/-- `histogram(A)`, `matrix_histogram.hpp:31-43`; the counts are `std::size_t` and wrap. The elements become
keys of a `std::map`: undefined if they are not ordered. -/
def histogram (A : Mat T i j) : Res (SizeMap T) :=
  if StrictWeak A then
    forUp 0 i [] fun it h =>
      forUp 0 j h fun jt h => do
        let x ← rd A it jt
        .ok (h.update x fun c => szAdd c 1)
  else .error (.ub .badOrder)

/-- `cumulative_histogram(A)`, `matrix_histogram.hpp:54-67`; the range-`for` visits the entries in
key order. -/
def cumulative_histogram (A : Mat T i j) : Res (SizeMap T) := do
  let histA ← histogram A
  let s := histA.foldl
    (fun (s : SizeMap T × Nat) (p : T × Nat) =>
      let cumul_sum := szAdd s.2 p.2
      (s.1.update p.1 fun _ => cumul_sum, cumul_sum))
    ([], 0)
  .ok s.1

/-! ## statistics -/

/-- `mean(A)`, `matrix_mean.hpp:31-43`; `T result{}` is 0, the division is `T / size_t`. -/
def mean (A : Mat T i j) : Res T := do
  let result ← forUp 0 i (ofInt 0) fun it result =>
    forUp 0 j result fun jt result => do
      CScalar.add result (← rd A it jt)
  CScalar.divSize result (i * j)

/-- `v[k]` of a `std::vector`. -/
def vecRd (v : List T) (k : Nat) : Res T :=
  match v[k]? with
  | some x => .ok x
  | none => .error (.ub .outOfBounds)

/-- `std::sort(v.begin(), v.end())`, `matrix_median.hpp:45`, of the elements `v` of `A`: `sort` stands for its
effect, which is undefined if the elements are not ordered. -/
def stdSort (sort : List T → List T) (A : Mat T i j) (v : List T) : Res (List T) :=
  if StrictWeak A then .ok (sort v) else .error (.ub .badOrder)

/-- `median(A)`, `matrix_median.hpp:30-58`; `sort` as in `stdSort`. `floor(size / 2)` converts through `double`, which is exact below 2^53. The two
conditions of the `if` are exhaustive, so line 57 is unreachable. -/
def median (sort : List T → List T) (A : Mat T i j) : Res T := do
  let size := i * j
  let v ← forUp 0 i [] fun it v =>
    forUp 0 j v fun jt v => do
      .ok (v ++ [← rd A it jt])
  let v ← stdSort sort A v
  if size % 2 = 0 then
    let x ← vecRd v (size / 2)
    let y ← vecRd v (szSub (size / 2) 1)
    CScalar.div (← CScalar.add x y) (ofInt 2)
  else
    vecRd v (size / 2)

/-- `var(A)`, `matrix_var.hpp:31-44`. -/
def var (A : Mat T i j) : Res T := do
  let meanA ← mean A
  let result ← forUp 0 i (ofInt 0) fun it result =>
    forUp 0 j result fun jt result => do
      let d ← CScalar.sub (← rd A it jt) meanA
      let e ← CScalar.sub (← rd A it jt) meanA
      CScalar.add result (← CScalar.mul d e)
  CScalar.divSize result (i * j)

/-- `stddev(A)`, `matrix_stddev.hpp:31-35`. -/
def stddev (A : Mat T i j) : Res T := do
  CScalar.sqrt (← var A)

/-! ## predicates -/

/-- `A == B` of `std::array<std::array<..>>`: elementwise `==`, row-major. -/
def arrayEq (A B : Mat T i j) : Res Bool := do
  let c ← forRet 0 i () fun it _ =>
    forRet 0 j () fun jt _ => do
      if CScalar.eq (← rd A it jt) (← rd B it jt) then .ok (.cont ())
      else .ok (.ret false)
  match c with
  | .ret b => .ok b
  | .cont _ => .ok true

/-- `isIdentity(A)`, `matrix_utils.hpp:32-38`. The `static_cast` on line 36 only compiles when the
element type is `unsigned int`, where it is the identity. -/
def isIdentity {n : Nat} (A : Mat (BitVec 32) n n) : Res Bool := do
  let identity ← eye1 (T := BitVec 32) n
  arrayEq A identity

/-- The loops of `compare`, `matrix_utils.hpp:52-62`; `exceeds d` is the comparison
`d > epsilon`, whose operands are converted to their common type. -/
def compareLoop (exceeds : T → Bool) (A B : Mat T i j) : Res Bool := do
  let c ← forRet 0 i () fun it _ =>
    forRet 0 j () fun jt _ => do
      let d ← CScalar.abs (← CScalar.sub (← rd A it jt) (← rd B it jt))
      if exceeds d then .ok (.ret false)
      else .ok (.cont ())
  match c with
  | .ret b => .ok b
  | .cont _ => .ok true

/-- `compare(A, B, epsilon)`, `matrix_utils.hpp:49-63`, for element types that every `float`
converts to exactly (`float`, `double`, exact arithmetic): `epsilon` is converted to `T`. -/
def compare (A B : Mat T i j) (epsilon : T) : Res Bool :=
  compareLoop (fun d => CScalar.lt epsilon d) A B

/-- `compare(A, B, epsilon)`, `matrix_utils.hpp:49-63`, for signed integer elements: the absolute
difference is converted to `float` for the comparison. (`std::abs` of an `unsigned` is ambiguous, so
`compare` does not compile for unsigned elements.) -/
def compareInt {w : Nat} [Inhabited (SInt w)] (A B : Mat (SInt w) i j) (epsilon : Fl binary32) :
    Res Bool :=
  compareLoop (fun d => epsilon.lt (Fl.ofInt d.val)) A B

/-! ## print -/

/-- `print(A)`, `matrix_print.hpp:69-81` with `print_num` (36-40) and `print_endl` (42-45).
`fmt` is what `std::cout << num` writes; the result is what has been written, starting from
`out`. -/
def print (fmt : T → List Char) (out : List Char) (A : Mat T i j) : Res (List Char) :=
  forUp 0 i out fun it out => do
    let out ← forUp 0 j out fun jt out => do
      let tmp ← rd A it jt
      .ok (out ++ fmt tmp ++ [' '])
    .ok (out ++ ['\n'])

end MatrixLibs
