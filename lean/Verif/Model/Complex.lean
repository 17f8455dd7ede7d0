import Verif.Model.Scalar
import Verif.Model.Stats
import Mathlib.Analysis.SpecialFunctions.Pow.Complex

/-!
# `std::complex` elements

`matrix_type.hpp:24` includes `<complex>`, so the templates can be instantiated with `std::complex<T>`. Modelled
here: which of the expressions of the library that mix the element type with other types compile, complex numbers in
exact arithmetic, and pairs of floating point numbers.
-/

namespace MatrixLibs

namespace Overload

/-- Types of scalars: `std::complex<T>` and all others, which are told apart by a number. -/
inductive STy where
  | base (t : Nat)
  | cplx (T : STy)
  deriving DecidableEq, Repr

/-- `int`, the type of the literals `0`, `1`, `2`. -/
def STy.int : STy := .base 0

/-- `std::size_t`, the type of `i*j`. -/
def STy.size : STy := .base 1

/-- Types of the parameters of the operators in `<complex>`: `const T&` and `const complex<T>&`. -/
inductive SPat where
  | var
  | cplx
  deriving DecidableEq, Repr

/-- Deduction of `T` from an argument. -/
def SPat.deduce : SPat → STy → Option STy
  | .var, t => some t
  | .cplx, .cplx t => some t
  | .cplx, .base _ => none

/-- The binary operators `+ - * / == !=` for `std::complex`, [complex.ops]: each has these three templates. -/
def complexCands : List (SPat × SPat) := [(.cplx, .cplx), (.cplx, .var), (.var, .cplx)]

/-- Deduction succeeds: both arguments give the same `T`. -/
def viableOp (p : SPat × SPat) (a b : STy) : Bool :=
  match p.1.deduce a, p.2.deduce b with
  | some s, some t => decide (s = t)
  | _, _ => false

/-- What an expression asks of its operand types. -/
inductive Need where
  /-- one of `+ - * / == !=` -/
  | op (a b : STy)
  /-- `a < b` for two operands of type `a` -/
  | less (a : STy)
  deriving DecidableEq, Repr

/-- The expression compiles: the built-in operators take all types other than `std::complex` (which has no conversion to
them); for `std::complex` one of the templates must be viable. There is no `<` for `std::complex`. -/
def Need.met : Need → Bool
  | .op (.base _) (.base _) => true
  | .op a b => complexCands.any fun p => viableOp p a b
  | .less (.base _) => true
  | .less (.cplx _) => false

/-- The function templates of the library; `det`, `inv` and `pow` of an `n`x`n` matrix. -/
inductive Fn where
  | fill | zeros | ones | eye | trans | swap_rows | swap_cols | concatenate | getminor
  | sum | sub | incDec | mult | multScalar | strassen | div | abs | compare | isSymetric | chol
  | conv2 | conv2_full | conv2_valid | print
  | det (n : Nat) | inv (n : Nat) | pow (n : Nat) | lu
  | mean | var | stddev | median | histogram | cumulative_histogram
  deriving DecidableEq, Repr

/-- The operators applied to elements in each function. Assignments and initialisations from `int` and `double`
literals are not listed: `std::complex` converts from them, as the conditional expressions of `conv2` do
(`matrix_conv2.hpp:69-77`). -/
def Fn.own (T : STy) : Fn → List Need
  -- `matrix_fill.hpp:31-40`, `matrix_zeros.hpp:31-34`, `matrix_ones.hpp:35-38`, `matrix_eye.hpp:33-42`,
  -- `matrix_trans.hpp:32-44`, `matrix_swap.hpp:33-64`, `matrix_concatenate.hpp:36-182`, `matrix_inv.hpp:34-55`
  | .fill | .zeros | .ones | .eye | .trans | .swap_rows | .swap_cols | .concatenate | .getminor => []
  -- `matrix_abs.hpp:39`: `std::abs` of a complex number returns the underlying type, which converts back
  | .abs => []
  -- `matrix_print.hpp:39`
  | .print => []
  -- `matrix_sum.hpp:41,65,128`, `matrix_sub.hpp:41,65,113`, `matrix_mult.hpp:43,68`, `matrix_strassen.hpp:39-50`
  | .sum | .sub | .incDec | .mult | .multScalar | .strassen => [.op T T]
  -- `matrix_div.hpp:35,44`: `scalar == 0`
  | .div => [.op T .int, .op T T]
  -- `matrix_utils.hpp:56`: the difference; its absolute value is not complex
  | .compare => [.op T T]
  -- `matrix_cholesky.hpp:38`, `70-81`
  | .isSymetric | .chol => [.op T T]
  -- `matrix_conv2.hpp:69-77`, `121-129`
  | .conv2 | .conv2_full => [.op T T]
  | .conv2_valid => []
  -- `matrix_det.hpp:35`, `52`, `70`, `107` (`A[i][pivot] == 0`) and `134`
  | .det n => if n = 1 then [] else if n = 2 ∨ n = 3 then [.op T T] else [.op T .int, .op T T]
  -- `matrix_inv.hpp:68` (`1/det(A)`), `85` and `108` (`detA == 0`), `118-120`, `141` (`(...) ? -1 : 1) * det(...)`)
  | .inv n =>
    if n = 1 then [.op .int T] else if n = 2 ∨ n = 3 then [.op T .int, .op T T] else [.op .int T]
  | .pow _ => []
  -- `matrix_lu.hpp:48-64`: `U[j][j] == 0`
  | .lu => [.op T T, .op T .int]
  -- `matrix_mean.hpp:39-42`: `result / (i*j)`
  | .mean => [.op T T, .op T .size]
  -- `matrix_var.hpp:40-43`
  | .var => [.op T T, .op T .size]
  | .stddev => []
  -- `matrix_median.hpp:45,49`: `std::sort` and `(...) / 2`
  | .median => [.less T, .op T T, .op T .int]
  -- `matrix_histogram.hpp:34`: `std::map<T, std::size_t>`
  | .histogram | .cumulative_histogram => [.less T]

/-- The functions of the library called with elements of the same type. -/
def Fn.calls : Fn → List Fn
  -- `matrix_zeros.hpp:33`, `matrix_ones.hpp:37`, `matrix_eye.hpp:35`
  | .zeros | .ones | .eye => [.fill]
  -- `matrix_sum.hpp:128`, `matrix_sub.hpp:113`
  | .incDec => [.sum, .sub]
  -- `matrix_mult.hpp:35`
  | .mult => [.zeros]
  -- `matrix_conv2.hpp:142-143`
  | .conv2_valid => [.conv2, .getminor]
  -- `matrix_det.hpp:123`
  | .det n => if n = 1 ∨ n = 2 ∨ n = 3 then [] else [.swap_rows]
  -- `matrix_inv.hpp:68`, `84-91`, `107-122`, `136-144`
  | .inv n =>
    if n = 1 then [.det 1]
    else if n = 2 ∨ n = 3 then [.det n, .div] else [.det n, .getminor, .det (n - 1), .trans, .div]
  -- `matrix_pow.hpp:37,49,53,58`; the recursion adds nothing
  | .pow n => [.eye, .inv n, .ones, .mult]
  -- `matrix_lu.hpp:37-38`
  | .lu => [.eye, .zeros]
  -- `matrix_var.hpp:35`, `matrix_stddev.hpp:34`, `matrix_histogram.hpp:59`
  | .var => [.mean]
  | .stddev => [.var]
  | .cumulative_histogram => [.histogram]
  | _ => []

/-- The functions reached by at most `k` nested calls. -/
def Fn.reach : Nat → Fn → List Fn
  | 0, f => [f]
  | k + 1, f => f :: f.calls.flatMap (reach k)

/-- The instantiation for the element type `T` compiles. Calls nest at most four deep: `pow`, `inv`, `det`, `swap_rows`
or `pow`, `eye`, `fill`. -/
def Fn.compiles (T : STy) (f : Fn) : Bool := (f.reach 4).all fun g => (g.own T).all Need.met

end Overload

/-! ## Exact complex numbers -/

open Classical in
/-- `std::complex<T>` in exact arithmetic: `sqrt` is the principal square root, `std::abs` the modulus; a quotient by a
`std::size_t` does not compile, and `<` (which does not exist) is constantly false. As in exact real arithmetic a zero
divisor has no quotient. -/
@[reducible] noncomputable def complexScalar : CScalar ℂ where
  add a b := .ok (a + b)
  sub a b := .ok (a - b)
  mul a b := .ok (a * b)
  div a b := if b = 0 then .error (.ub .divisionByZero) else .ok (a / b)
  neg a := .ok (-a)
  ofInt k := (k : ℂ)
  eq a b := decide (a = b)
  lt _ _ := false
  abs a := .ok (‖a‖ : ℂ)
  sqrt a := .ok (a ^ (2⁻¹ : ℂ))
  divSize _ _ := .error .illFormed

/-- `compare(A, B, epsilon)`, `matrix_utils.hpp:49-63`, for complex elements: `std::abs` of the difference is a real number,
which is compared with `epsilon`. -/
noncomputable def compareCplx {i j : Nat} (A B : Mat ℂ i j) (epsilon : ℝ) : Res Bool :=
  @compareLoop ℂ complexScalar i j (fun d => decide (epsilon < d.re)) A B

/-! ## Complex numbers with floating point parts -/

/-- What the standard library does beyond the arithmetic of the parts. -/
structure CxLib (F : Fmt) where
  /-- The product when the textbook formula gives NaN for both parts: Annex G of the C standard then looks for an
  infinite result, so neither part is finite. -/
  fix : Fl F × Fl F → Fl F × Fl F → Fl F × Fl F
  fix_re : ∀ a b s N h, (fix a b).1 ≠ .fin s N h
  fix_im : ∀ a b s N h, (fix a b).2 ≠ .fin s N h
  /-- Quotient, root and modulus: not specified any further. -/
  div : Fl F × Fl F → Fl F × Fl F → Fl F × Fl F
  sqrt : Fl F × Fl F → Fl F × Fl F
  abs : Fl F × Fl F → Fl F

/-- A `std::complex<float>` or `std::complex<double>`. -/
structure Cx {F : Fmt} (lib : CxLib F) where
  re : Fl F
  im : Fl F
  deriving DecidableEq

namespace Cx
variable {F : Fmt} {lib : CxLib F}

instance : Inhabited (Cx lib) := ⟨⟨Fl.ofInt 0, Fl.ofInt 0⟩⟩

/-- Both parts. -/
def pair (a : Cx lib) : Fl F × Fl F := (a.re, a.im)

/-- The complex number with given parts. -/
def ofPair (p : Fl F × Fl F) : Cx lib := ⟨p.1, p.2⟩

/-- `a * b` by the textbook formula, Annex G.5.1 of the C standard. -/
def mul (a b : Cx lib) : Cx lib :=
  let x := (a.re.mul b.re).sub (a.im.mul b.im)
  let y := (a.re.mul b.im).add (a.im.mul b.re)
  if x = .nan ∧ y = .nan then .ofPair (lib.fix a.pair b.pair) else ⟨x, y⟩

end Cx

/-- Elements of type `std::complex<float>` or `std::complex<double>`; sums, differences, negation and comparison work on the
parts. As above, a quotient by a `std::size_t` does not compile and there is no `<`. -/
instance cxScalar {F : Fmt} (lib : CxLib F) : CScalar (Cx lib) where
  add a b := .ok ⟨a.re.add b.re, a.im.add b.im⟩
  sub a b := .ok ⟨a.re.sub b.re, a.im.sub b.im⟩
  mul a b := .ok (a.mul b)
  div a b := .ok (.ofPair (lib.div a.pair b.pair))
  neg a := .ok ⟨a.re.neg, a.im.neg⟩
  ofInt k := ⟨Fl.ofInt k, Fl.ofInt 0⟩
  eq a b := a.re.eq b.re && a.im.eq b.im
  lt _ _ := false
  abs a := .ok ⟨lib.abs a.pair, Fl.ofInt 0⟩
  sqrt a := .ok (.ofPair (lib.sqrt a.pair))
  divSize _ _ := .error .illFormed

end MatrixLibs
