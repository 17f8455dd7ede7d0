import Verif.Model.Float
import Verif.Model.Narrow
import Mathlib.Data.Int.Log
import Mathlib.Data.Rat.Floor
import Mathlib.Data.Nat.Digits.Defs

/-!
# What `std::cout << num` writes

The library prints numbers with `std::cout << num` (`print_num`, `matrix_print.hpp:36-40`), so what is written is
decided by the type of the element and the C++ standard (`[ostream.formatted]`, `[facet.num.put.virtuals]`, and the
conversions of C's `printf` it refers to). Simplifications: the stream is in its initial state (decimal, precision 6, no
width, no flags; the library never changes these), the locale is `"C"`, the stream does not fail, bytes are the
characters with these codes, and a NaN is written without its sign.
-/

namespace MatrixLibs

/-- The character of a decimal digit. -/
def digitChar (d : Nat) : Char := Char.ofNat (48 + d)

/-- Decimal digits of a natural number, no leading zeros; zero is `0`. -/
def natChars (n : Nat) : List Char :=
  if n = 0 then ['0'] else (Nat.digits 10 n).reverse.map digitChar

/-- `std::cout << num` for `int`, `long`, `unsigned` and the like, and for `short` and `unsigned short`: conversion
`%d` or `%u`. Used by `print_num`, `matrix_print.hpp:36-40`. -/
def fmtInt (z : Int) : List Char := if z < 0 then '-' :: natChars z.natAbs else natChars z.natAbs

/-- `std::cout << num` for signed integers, used by `print_num`, `matrix_print.hpp:36-40`. -/
def fmtSInt {w : Nat} (x : SInt w) : List Char := fmtInt x.val

/-- `std::cout << num` for unsigned integers, used by `print_num`, `matrix_print.hpp:36-40`. -/
def fmtBitVec {w : Nat} (x : BitVec w) : List Char := fmtInt x.toNat

/-- `std::cout << num` for the narrow integers, used by `print_num`, `matrix_print.hpp:36-40`: the 8-bit types are
character types (`signed char`, `unsigned char`), for which `operator<<` writes the character with that code; the others
are written in decimal. -/
def fmtNInt {t : Narrow} (x : NInt t) : List Char :=
  if t.w = 8 then [Char.ofNat (x.val % 256).toNat] else fmtInt x.val

/-- The quotient `a / b`, rounded to nearest, ties to even. -/
def roundEven (a b : Nat) : Nat :=
  let k := a / b
  let r := a % b
  if 2 * r < b then k else if b < 2 * r then k + 1 else if k % 2 = 0 then k else k + 1

/-- Six significant digits of `a / b`, as a number `m` from 100000 to 999999, and the decimal exponent `X` of the
first of them: the number that `printf("%.5e")` writes is `m * 10^(X-5)`. -/
def sixDigits (a b : Nat) : Nat × Int :=
  let e := Int.log 10 ((a : ℚ) / b)
  let m := roundEven (a * 10 ^ (5 - e).toNat) (b * 10 ^ (e - 5).toNat)
  if m = 1000000 then (100000, e + 1) else (m, e)

/-- Trailing zeros are removed. -/
def dropZeros (l : List Char) : List Char := (l.reverse.dropWhile (· == '0')).reverse

/-- Integer part and fraction; a point only if there is a fraction. -/
def withPoint (ip fp : List Char) : List Char := if fp = [] then ip else ip ++ '.' :: fp

/-- Exponent: `e`, its sign and at least two digits. -/
def expChars (X : Int) : List Char :=
  'e' :: (if X < 0 then '-' else '+') ::
    (if X.natAbs < 10 then '0' :: natChars X.natAbs else natChars X.natAbs)

/-- The positive number `a / b`, conversion `%g`: fixed notation for exponents from -4 to 5, otherwise scientific
notation; trailing zeros of the fraction are removed. -/
def fmtPos (a b : Nat) : List Char :=
  let (m, X) := sixDigits a b
  let ds := natChars m
  if X < -4 ∨ 6 ≤ X then withPoint (ds.take 1) (dropZeros (ds.drop 1)) ++ expChars X
  else if X < 0 then withPoint ['0'] (List.replicate (-X - 1).toNat '0' ++ dropZeros ds)
  else withPoint (ds.take (X.toNat + 1)) (dropZeros (ds.drop (X.toNat + 1)))

/-- `std::cout << num` for `float` and `double`: conversion `%g` with the precision 6 (a `float` is converted to
`double` first, which does not change its value). Used by `print_num`, `matrix_print.hpp:36-40`. -/
def fmtFl {F : Fmt} : Fl F → List Char
  | .nan => ['n', 'a', 'n']
  | .inf s => if s then ['-', 'i', 'n', 'f'] else ['i', 'n', 'f']
  | .fin s N _ =>
    let ds := if N = 0 then ['0'] else fmtPos N F.unit
    if s then '-' :: ds else ds

end MatrixLibs
