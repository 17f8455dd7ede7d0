import Verif.Model.Include

/-!
# What including a header brings and needs
-/

namespace MatrixLibs.Incl

/-- The headers whose contents are read when a header is the first to be included; itself among them. -/
def brings : Hdr → List Hdr
  | .all => [.type, .abs, .cholesky, .concatenate, .div, .swap, .det, .trans, .inv, .conv2, .fill, .eye, .histogram, .zeros,
      .lu, .mean, .median, .mult, .ones, .pow, .print, .var, .stddev, .strassen, .sub, .sum, .utils, .all]
  | .det => [.swap, .det]
  | .inv => [.type, .div, .swap, .det, .trans, .inv]
  | .conv2 => [.type, .div, .swap, .det, .trans, .inv, .conv2]
  | .pow => [.type, .div, .swap, .det, .trans, .inv, .pow]
  | .eye => [.fill, .eye]
  | .utils => [.fill, .eye, .utils]
  | .lu => [.fill, .eye, .zeros, .lu]
  | .stddev => [.type, .var, .stddev]
  | .type => [.type]
  | .cholesky => [.cholesky]
  | .concatenate => [.concatenate]
  | .fill => [.fill]
  | .mult => [.mult]
  | .ones => [.ones]
  | .swap => [.swap]
  | .zeros => [.zeros]
  | h => [.type, h]

/-- What must have been brought before a header can be included. -/
def needs : Hdr → List Hdr
  | .cholesky | .concatenate | .swap | .det | .fill | .eye | .utils | .lu => [.type]
  | .zeros | .ones => [.type, .fill]
  | .mult => [.type, .zeros]
  | .pow => [.eye, .ones]
  | _ => []

/-- One of the headers in the list brings `x`. -/
def Has (l : List Hdr) (x : Hdr) : Prop := ∃ h ∈ l, x ∈ brings h

/-- Every header in the list finds what it needs among those before it. -/
def Ordered (l : List Hdr) : Prop := ∀ l₁ h l₂, l = l₁ ++ h :: l₂ → ∀ x ∈ needs h, Has l₁ x

/-- The header that defines a name. -/
def home : Name → Hdr
  | .Matrix => .type
  | .abs => .abs
  | .isSymetric | .chol => .cholesky
  | .concatenate | .concatenateRows | .concatenateCols | .concatenateV | .concatenateH => .concatenate
  | .conv2 | .conv2_full | .conv2_valid => .conv2
  | .det1 | .det2 | .det3 | .det => .det
  | .div | .opDiv => .div
  | .eye => .eye
  | .fill => .fill
  | .histogram | .cumulative_histogram => .histogram
  | .getminor | .inv1 | .inv2 | .inv3 | .inv => .inv
  | .lu => .lu
  | .mean => .mean
  | .median => .median
  | .mult | .multScalar | .opMul | .opMulScalar | .opScalarMul => .mult
  | .onesUnsigned | .ones => .ones
  | .pow => .pow
  | .print_num | .print_endl | .print => .print
  | .stddev => .stddev
  | .strassen => .strassen
  | .sub | .subScalar | .opSub | .opSubScalar | .opDec => .sub
  | .sum | .sumScalar | .opAdd | .opAddScalar | .opScalarAdd | .opInc => .sum
  | .swap_rows | .swap_cols => .swap
  | .trans => .trans
  | .isIdentity | .compare => .utils
  | .var => .var
  | .zeros => .zeros

/-- `x` comes with `matrix.hpp`, or after `y`: the first header of the list that brings `x` is `matrix.hpp`, or one before
it brings `y`. -/
def Before (y x : Hdr) (l : List Hdr) : Prop :=
  ∃ l₁ h l₂, l = l₁ ++ h :: l₂ ∧ ¬ Has l₁ x ∧ x ∈ brings h ∧ (h = .all ∨ Has l₁ y)

/-- A translation unit: `#define PRINT_IOSTREAM_ENABLE 1` or not, standard headers that the user includes, then headers of
the library. -/
def unit (on : Bool) (s : List StdHdr) (l : List Hdr) : List Line :=
  (if on then [.define streamMacro] else []) ++ s.map .std ++ l.map .inc

/-- The standard headers of the user and of `matrix_type.hpp` declare every standard name that the library uses, and
`<iostream>` declares `std::cout`. -/
def Enough (lib : StdHdr → List StdName) (s : List StdHdr) : Prop :=
  (∀ n, n ≠ .cout → ∃ x ∈ s ++ [.array, .utility, .cmath, .algorithm, .map, .complex], n ∈ lib x) ∧
    .cout ∈ lib .iostream

end MatrixLibs.Incl
