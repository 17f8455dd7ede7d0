import Verif.Model.Include

/-!
# Where the user's files find the library's names, and programs of several files

The functions and operators of the library are members of the namespace `mlib` (every header but `matrix.hpp`), and
`Matrix<T, i, j>` is another name of `std::array<std::array<T, j>, i>` (`matrix_type.hpp:35-36`).
-/

namespace MatrixLibs.Incl

/-- Namespaces: `std`, `mlib`, and those of the user. -/
inductive Ns
  | std | mlib | user (i : Nat)
  deriving DecidableEq, Repr

/-- Types: arithmetic types; classes and enumerations of a namespace; specialisations of class templates of a namespace,
with one or two types as arguments; pointers. -/
inductive CTy
  | arith
  | cls (ns : Ns)
  | app (ns : Ns) (t : CTy)
  | app2 (ns : Ns) (t u : CTy)
  | ptr (t : CTy)

/-- The namespaces in which a function is looked up when it is called with an argument of the type: those of the class, of
its template and of the template's arguments. Simplified: base classes, nested classes and functions are left out. -/
def CTy.assoc : CTy → List Ns
  | .arith => []
  | .cls ns => [ns]
  | .app ns t => ns :: t.assoc
  | .app2 ns t u => ns :: (t.assoc ++ u.assoc)
  | .ptr t => t.assoc

/-- `mlib::Matrix<T, i, j>`, `matrix_type.hpp:35-36`. -/
def CTy.matrix (t : CTy) : CTy := .app .std (.app .std t)

/-- A scope of the user's file: a block or a namespace. -/
structure Scope where
  /-- names that the user declares in it -/
  own : List Name := []
  /-- names for which it has a using-declaration, `using mlib::...` -/
  decl : List Name := []
  /-- it is the namespace `mlib` itself, reopened -/
  mlib : Bool := false

/-- A place in the user's file: its scopes, from the innermost to the outermost but without the global namespace; what the
global namespace declares; and whether a directive `using namespace mlib` is visible, which makes the names of `mlib`
appear as members of the global namespace wherever the directive stands. -/
structure Place where
  scopes : List Scope := []
  global : Scope := {}
  directive : Bool := false

/-- Lookup of a name of `mlib` by scopes: the innermost scope that declares the name ends the search. True if what is found
comes from `mlib`. -/
def byScopes (n : Name) (global : Bool) : List Scope → Bool
  | [] => global
  | s :: ss => if s.mlib ∨ n ∈ s.decl then true else if n ∈ s.own then false else byScopes n global ss

/-- A call `n(args)`, or an operator, finds the library's function: by scopes, or in the namespaces of its arguments. -/
def Place.finds (p : Place) (n : Name) (args : List CTy) : Bool :=
  byScopes n (decide (n ∈ p.global.decl) || p.directive) p.scopes || decide (.mlib ∈ args.flatMap CTy.assoc)

/-! ## Linkage -/

/-- Something that a name refers to: functions declared `static` are different ones in each file of a program. -/
def entity (file : Nat) (n : Name) (static : Bool) : Name × Option Nat := (n, if static then some file else .none)

/-- The functions of the library that are declared `static`: `matrix_div.hpp:33`, `matrix_inv.hpp:34`,
`matrix_mult.hpp:33`, `60`, `matrix_print.hpp:37`, `42`, `55`, `60`, `matrix_sub.hpp:33`, `57`, `matrix_sum.hpp:33`, `57`. -/
def isStatic (on : Bool) (n : Name) : Bool :=
  [Hdr.type, .abs, .cholesky, .concatenate, .conv2, .det, .div, .eye, .fill, .histogram, .inv, .lu, .mean, .median, .mult, .ones,
    .pow, .print, .stddev, .strassen, .sub, .sum, .swap, .trans, .utils, .var, .zeros].any
    fun h => (defs on h).any fun d => decide (d.name = n) && d.static

/-- What the names in a definition refer to, in a file. -/
def refers (on : Bool) (file : Nat) (d : Def) : List (Name × Option Nat) :=
  (d.parse ++ d.call).map fun n => entity file n (isStatic on n)

/-- The definitions that a linker sees as strong symbols: neither templates nor `static`. -/
def strong (on : Bool) (h : Hdr) : List Name :=
  ((defs on h).filter fun d => d.plain && !d.static).map (·.name)

end MatrixLibs.Incl
