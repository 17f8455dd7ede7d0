/-!
# Translation units that include headers of the library

`#include` directives, include guards, and the names that a header's definitions look up. A template of the library is
checked twice: where it is defined, every name that does not depend on its parameters must be declared, and so must the
names of templates that it calls with explicit arguments (`fill<T, i, j>(0)` is not an expression otherwise); where it is
called, the functions it calls on its arguments must be found. `Matrix` is an alias of `std::array`, so lookup by the
types of the arguments reaches `std` and not `mlib` (`Model/Lookup.lean`): what a template of the library finds in `mlib`
are the functions declared *before its own definition*.

A definition is represented by the names it uses. Simplified: overloads of a name that stand in the same header are
distinguished where the caller can only mean one of them; a function's calls of itself are left out; `std::size_t` is
taken as declared by every standard header and by the user's; overloads of `std::abs` are not distinguished.
-/

namespace MatrixLibs.Incl

/-- Standard headers: those that `matrix_type.hpp:19-24` and `matrix_print.hpp:30` include, and three that declare names
which the library uses without including them. -/
inductive StdHdr
  | array | utility | cmath | algorithm | map | complex | iostream
  | vector | stdexcept | mathH
  deriving DecidableEq, Repr

/-- Names declared in standard headers and used by the library. `floor` and `sqrt` are those of the global namespace:
the library calls them unqualified. -/
inductive StdName
  | array | pair | make_pair | swap | abs | sort | map | cout
  | vector | overflow_error | floor | sqrt
  deriving DecidableEq, Repr

/-- The headers in `/repo/matrix`. -/
inductive Hdr
  | all | type | abs | cholesky | concatenate | conv2 | det | div | eye | fill | histogram | inv | lu | mean | median
  | mult | ones | pow | print | stddev | strassen | sub | sum | swap | trans | utils | var | zeros
  deriving DecidableEq, Repr

/-- What the headers define. -/
inductive Name
  | Matrix | abs | isSymetric | chol
  | concatenate | concatenateRows | concatenateCols | concatenateV | concatenateH
  | conv2 | conv2_full | conv2_valid
  | det1 | det2 | det3 | det
  | div | opDiv | eye | fill | histogram | cumulative_histogram
  | getminor | inv1 | inv2 | inv3 | inv
  | lu | mean | median
  | mult | multScalar | opMul | opMulScalar | opScalarMul
  | onesUnsigned | ones | pow
  | print_num | print_endl | print
  | stddev | strassen
  | sub | subScalar | opSub | opSubScalar | opDec
  | sum | sumScalar | opAdd | opAddScalar | opScalarAdd | opInc
  | swap_rows | swap_cols | trans | isIdentity | compare | var | zeros
  deriving DecidableEq, Repr

/-- A definition. -/
structure Def where
  name : Name
  /-- library names that must be declared where the definition stands -/
  parse : List Name := []
  /-- standard names that must be declared where the definition stands -/
  parseStd : List StdName := []
  /-- library functions called on arguments whose types depend on the parameters -/
  call : List Name := []
  /-- the same, standard functions -/
  callStd : List StdName := []
  /-- `static`: internal linkage -/
  static : Bool := false
  /-- not a template -/
  plain : Bool := false
  /-- the body sends to `std::cout` -/
  sends : Bool := false

/-- A line of a header or of the user's file. -/
inductive Line
  | inc (h : Hdr)
  | std (s : StdHdr)
  | define (m : String)
  | defn (d : Def)

/-- The macro that enables output, `matrix.hpp:19`, `matrix_print.hpp:28`. -/
def streamMacro : String := "PRINT_IOSTREAM_ENABLE"

/-- The include guards: lines 14 to 17 of each header. -/
def guard : Hdr → String
  | .all => "MATRIX_HPP_"
  | .type => "MATRIX_TYPE_HPP_"
  | .abs => "MATRIX_ABS_HPP_"
  | .cholesky => "MATRIX_MATRIX_CHOLESKY_HPP_"
  | .concatenate => "MATRIX_CONCATENATE_HPP_"
  | .conv2 => "MATRIX_MATRIX_CONV2_HPP_"
  | .det => "MATRIX_MATRIX_DET_HPP_"
  | .div => "MATRIX_MATRIX_DIV_HPP_"
  | .eye => "MATRIX_MATRIX_EYE_HPP_"
  | .fill => "MATRIX_MATRIX_FILL_HPP_"
  | .histogram => "MATRIX_HISTOGRAM_HPP_"
  | .inv => "MATRIX_MATRIX_INV_HPP_"
  | .lu => "MATRIX_MATRIX_LU_HPP_"
  | .mean => "MATRIX_MEAN_HPP_"
  | .median => "MATRIX_FILTERS_HPP_"
  | .mult => "MATRIX_MATRIX_MULT_HPP_"
  | .ones => "MATRIX_MATRIX_ONES_HPP_"
  | .pow => "MATRIX_MATRIX_POW_HPP_"
  | .print => "MATRIX_PRINT_HPP_"
  | .stddev => "MATRIX_STDDEV_HPP_"
  | .strassen => "MATRIX_STRASSEN_HPP_"
  | .sub => "MATRIX_SUB_HPP_"
  | .sum => "MATRIX_SUM_HPP_"
  | .swap => "MATRIX_SWAP_HPP_"
  | .trans => "MATRIX_TRANS_HPP_"
  | .utils => "MATRIX_UTILS_HPP_"
  | .var => "MATRIX_VAR_HPP_"
  | .zeros => "MATRIX_MATRIX_ZEROS_HPP_"

/-- The library headers that each header includes, in order. -/
def includes : Hdr → List Hdr
  /- `matrix.hpp:21-47` -/
  | .all => [.type, .abs, .cholesky, .concatenate, .conv2, .det, .div, .eye, .fill, .histogram, .inv, .lu, .mean, .median,
      .mult, .ones, .pow, .print, .stddev, .strassen, .sub, .sum, .swap, .trans, .utils, .var, .zeros]
  | .abs => [.type]           -- `matrix_abs.hpp:19`
  | .conv2 => [.type, .inv]   -- `matrix_conv2.hpp:18-19`
  | .det => [.swap]           -- `matrix_det.hpp:18`
  | .div => [.type]           -- `matrix_div.hpp:18`
  | .eye => [.fill]           -- `matrix_eye.hpp:18`
  | .histogram => [.type]     -- `matrix_histogram.hpp:18`
  | .inv => [.div, .det, .trans]  -- `matrix_inv.hpp:18-20`
  | .lu => [.eye, .zeros]     -- `matrix_lu.hpp:18-19`
  | .mean => [.type]          -- `matrix_mean.hpp:18`
  | .median => [.type]        -- `matrix_median.hpp:18`
  | .pow => [.inv]            -- `matrix_pow.hpp:18`
  | .print => [.type]         -- `matrix_print.hpp:17`
  | .stddev => [.var]         -- `matrix_stddev.hpp:18`
  | .strassen => [.type]      -- `matrix_strassen.hpp:18`
  | .sub => [.type]           -- `matrix_sub.hpp:18`
  | .sum => [.type]           -- `matrix_sum.hpp:18`
  | .trans => [.type]         -- `matrix_trans.hpp:18`
  | .utils => [.eye]          -- `matrix_utils.hpp:18`
  | .var => [.type]           -- `matrix_var.hpp:18`
  | .type | .cholesky | .concatenate | .fill | .mult | .ones | .swap | .zeros => []

/-- The standard headers that each header includes, after those of the library; `on` says whether `PRINT_IOSTREAM_ENABLE`
is defined. -/
def stds (on : Bool) : Hdr → List StdHdr
  | .type => [.array, .utility, .cmath, .algorithm, .map, .complex]  -- `matrix_type.hpp:19-24`
  | .print => if on then [.iostream] else []                         -- `matrix_print.hpp:28-30`
  | _ => []

/-- The definitions of each header, in order; `on` says whether `PRINT_IOSTREAM_ENABLE` is defined. -/
def defs (on : Bool) : Hdr → List Def
  | .all => []
  /- `matrix_type.hpp:35-36` -/
  | .type => [{ name := .Matrix, parseStd := [.array] }]
  /- `matrix_abs.hpp:31-43` -/
  | .abs => [{ name := .abs, parse := [.Matrix], parseStd := [.abs] }]
  /- `matrix_cholesky.hpp:29-45`, `54-86` -/
  | .cholesky => [
      { name := .isSymetric, parse := [.Matrix] },
      { name := .chol, parse := [.Matrix], callStd := [.sqrt] }]
  /- `matrix_concatenate.hpp:35-68`, `79-98`, `109-125`, `136-155`, `166-182`; the declaration of `concatenateH` at
  `23-24` adds nothing that is used before its definition. -/
  | .concatenate => [
      { name := .concatenate, parse := [.Matrix], parseStd := [.pair] },
      { name := .concatenateRows, parse := [.Matrix] },
      { name := .concatenateCols, parse := [.Matrix] },
      { name := .concatenateV, parse := [.Matrix] },
      { name := .concatenateH, parse := [.Matrix] }]
  /- `matrix_conv2.hpp:38-81`, `88-133`, `139-144` -/
  | .conv2 => [
      { name := .conv2, parse := [.Matrix] },
      { name := .conv2_full, parse := [.Matrix] },
      { name := .conv2_valid, parse := [.Matrix], call := [.getminor, .conv2] }]
  /- `matrix_det.hpp:32-36`, `46-53`, `63-71`, `81-142` -/
  | .det => [
      { name := .det1, parse := [.Matrix] },
      { name := .det2, parse := [.Matrix] },
      { name := .det3, parse := [.Matrix] },
      { name := .det, parse := [.Matrix], call := [.swap_rows] }]
  /- `matrix_div.hpp:32-48`, `59-63` -/
  | .div => [
      { name := .div, parse := [.Matrix], static := true },
      { name := .opDiv, parse := [.Matrix], call := [.div] }]
  /- `matrix_eye.hpp:32-42` -/
  | .eye => [{ name := .eye, parse := [.Matrix, .fill] }]
  /- `matrix_fill.hpp:30-40` -/
  | .fill => [{ name := .fill, parse := [.Matrix] }]
  /- `matrix_histogram.hpp:31-43`, `54-67` -/
  | .histogram => [
      { name := .histogram, parse := [.Matrix], parseStd := [.map] },
      { name := .cumulative_histogram, parse := [.Matrix], parseStd := [.map], call := [.histogram] }]
  /- `matrix_inv.hpp:33-55`, `65-69`, `80-93`, `104-123`, `132-145` -/
  | .inv => [
      { name := .getminor, parse := [.Matrix], static := true },
      { name := .inv1, parse := [.Matrix], call := [.det1] },
      { name := .inv2, parse := [.Matrix], parseStd := [.overflow_error], call := [.det2] },
      { name := .inv3, parse := [.Matrix], parseStd := [.overflow_error], call := [.det3, .opDiv] },
      { name := .inv, parse := [.Matrix], call := [.det, .det3, .getminor, .trans, .opDiv] }]
  /- `matrix_lu.hpp:34-68` -/
  | .lu => [{ name := .lu, parse := [.Matrix, .eye, .zeros], parseStd := [.pair, .overflow_error, .make_pair] }]
  /- `matrix_mean.hpp:31-43` -/
  | .mean => [{ name := .mean, parse := [.Matrix] }]
  /- `matrix_median.hpp:30-58`. The argument of `floor` is a `std::size_t`: not dependent. -/
  | .median => [{ name := .median, parse := [.Matrix], parseStd := [.vector, .sort, .floor] }]
  /- `matrix_mult.hpp:32-48`, `59-72`, `83-87`, `98-102`, `113-117` -/
  | .mult => [
      { name := .mult, parse := [.Matrix, .zeros], static := true },
      { name := .multScalar, parse := [.Matrix], static := true },
      { name := .opMul, parse := [.Matrix], call := [.mult] },
      { name := .opMulScalar, parse := [.Matrix], call := [.multScalar] },
      { name := .opScalarMul, parse := [.Matrix], call := [.multScalar] }]
  /- `matrix_ones.hpp:28-32`, `34-38` -/
  | .ones => [
      { name := .onesUnsigned, parse := [.Matrix, .fill] },
      { name := .ones, parse := [.Matrix, .fill] }]
  /- `matrix_pow.hpp:32-64` -/
  | .pow => [
      { name := .pow, parse := [.Matrix, .eye, .ones], parseStd := [.abs], call := [.inv1, .inv2, .inv3, .inv, .opMul] }]
  /- `matrix_print.hpp:36-45` or `54-63`, and `69-81`. `print_endl()` has no argument: not dependent. -/
  | .print => [
      { name := .print_num, parseStd := if on then [.cout] else [], static := true, sends := on },
      { name := .print_endl, parseStd := if on then [.cout] else [], static := true, plain := true, sends := on },
      { name := .print, parse := [.Matrix, .print_endl], call := [.print_num] }]
  /- `matrix_stddev.hpp:31-35` -/
  | .stddev => [{ name := .stddev, parse := [.Matrix], call := [.var], callStd := [.sqrt] }]
  /- `matrix_strassen.hpp:34-53` -/
  | .strassen => [{ name := .strassen, parse := [.Matrix] }]
  /- `matrix_sub.hpp:32-45`, `56-69`, `80-84`, `95-99`, `110-114` -/
  | .sub => [
      { name := .sub, parse := [.Matrix], static := true },
      { name := .subScalar, parse := [.Matrix], static := true },
      { name := .opSub, parse := [.Matrix], call := [.sub] },
      { name := .opSubScalar, parse := [.Matrix], call := [.subScalar] },
      { name := .opDec, parse := [.Matrix], call := [.opSubScalar] }]
  /- `matrix_sum.hpp:32-45`, `56-69`, `80-84`, `95-99`, `110-114`, `125-129` -/
  | .sum => [
      { name := .sum, parse := [.Matrix], static := true },
      { name := .sumScalar, parse := [.Matrix], static := true },
      { name := .opAdd, parse := [.Matrix], call := [.sum] },
      { name := .opAddScalar, parse := [.Matrix], call := [.sumScalar] },
      { name := .opScalarAdd, parse := [.Matrix], call := [.sumScalar] },
      { name := .opInc, parse := [.Matrix], call := [.opAddScalar] }]
  /- `matrix_swap.hpp:32-42`, `54-64` -/
  | .swap => [
      { name := .swap_rows, parse := [.Matrix], parseStd := [.swap] },
      { name := .swap_cols, parse := [.Matrix], parseStd := [.swap] }]
  /- `matrix_trans.hpp:31-44` -/
  | .trans => [{ name := .trans, parse := [.Matrix] }]
  /- `matrix_utils.hpp:32-38`, `49-63`. `uiA == identity` is `std`'s. -/
  | .utils => [
      { name := .isIdentity, parse := [.Matrix, .eye] },
      { name := .compare, parse := [.Matrix], parseStd := [.abs] }]
  /- `matrix_var.hpp:31-44` -/
  | .var => [{ name := .var, parse := [.Matrix], call := [.mean] }]
  /- `matrix_zeros.hpp:30-34` -/
  | .zeros => [{ name := .zeros, parse := [.Matrix, .fill] }]

/-- The lines of a header between `#define` of its guard and `#endif`. Every header includes first and defines after; only
`matrix.hpp:19` defines a macro. `on` is taken when the header is opened: `matrix_print.hpp` includes `matrix_type.hpp`
before it looks at the macro, which does not define it. -/
def lines (on : Bool) (h : Hdr) : List Line :=
  (if h = .all then [.define streamMacro] else []) ++ (includes h).map .inc ++ (stds on h).map .std ++
    (defs on h).map .defn

/-- What the compiler knows after some lines. -/
structure Known where
  /-- macros defined -/
  macros : List String := []
  /-- standard names declared -/
  std : List StdName := []
  /-- library names declared -/
  declared : List Name := []
  /-- functions of the library that can be called: every name they use was declared before them and can be called -/
  callable : List Name := []
  /-- functions of the library that send to `std::cout`, themselves or through those they call -/
  sending : List Name := []

/-- Why a translation unit is rejected. -/
inductive Err
  /-- nested deeper than the compiler allows -/
  | tooDeep
  /-- a second definition -/
  | redefined (n : Name)
  /-- a definition that uses undeclared names -/
  | undeclared (n : Name)
  deriving DecidableEq, Repr

/-- A definition is read. -/
def define (k : Known) (d : Def) : Except Err Known :=
  if d.name ∈ k.declared then .error (.redefined d.name)
  else if (∀ n ∈ d.parse, n ∈ k.declared) ∧ ∀ s ∈ d.parseStd, s ∈ k.std then
    .ok { k with
      declared := d.name :: k.declared
      callable :=
        if (∀ n ∈ d.parse ++ d.call, n ∈ k.callable) ∧ ∀ s ∈ d.callStd, s ∈ k.std then d.name :: k.callable
        else k.callable
      sending := if d.sends ∨ ∃ n ∈ d.parse ++ d.call, n ∈ k.sending then d.name :: k.sending else k.sending }
  else .error (.undeclared d.name)

/-- A line is read. `lib` says which of the names each standard header declares: the C++ standard allows a header to
declare more than it must. -/
def readLine (lib : StdHdr → List StdName) (open_ : Known → Hdr → Except Err Known) (k : Known) : Line → Except Err Known
  | .inc h => open_ k h
  | .std s => .ok { k with std := lib s ++ k.std }
  | .define m => .ok { k with macros := m :: k.macros }
  | .defn d => define k d

/-- A header is opened: `#ifndef` guard, `#define` guard, its lines. `depth` is how many levels of nesting the compiler
still allows. -/
def openHdr (lib : StdHdr → List StdName) : Nat → Known → Hdr → Except Err Known
  | 0, _, _ => .error .tooDeep
  | depth + 1, k, h =>
    if guard h ∈ k.macros then .ok k
    else (lines (decide (streamMacro ∈ k.macros)) h).foldlM (readLine lib (openHdr lib depth))
      { k with macros := guard h :: k.macros }

/-- A translation unit is compiled. -/
def compile (lib : StdHdr → List StdName) (depth : Nat) (u : List Line) : Except Err Known :=
  u.foldlM (readLine lib (openHdr lib depth)) {}

/-- What the C++11 standard requires the headers to declare, of the names the library uses. -/
def required : StdHdr → List StdName
  | .array => [.array]
  | .utility => [.pair, .make_pair, .swap]
  | .cmath => [.abs]
  | .algorithm => [.sort]
  | .map => [.map]
  | .complex => [.abs]
  | .iostream => [.cout]
  | .vector => [.vector]
  | .stdexcept => [.overflow_error]
  | .mathH => [.floor, .sqrt]

end MatrixLibs.Incl
