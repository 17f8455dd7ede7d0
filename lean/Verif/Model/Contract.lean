import Verif.Model.Scalar

/-!
# Contraction of floating point expressions

A compiler may evaluate `a*b + c`, as in `matrix_mult.hpp:43`, `matrix_lu.hpp:48,58`, `matrix_cholesky.hpp:70,79`,
`matrix_conv2.hpp:69-77`, `matrix_det.hpp:52,70` and `matrix_inv.hpp:118-120`, with a single rounding by a fused
multiply-add instruction (`FP_CONTRACT`, `-ffp-contract`; the default of GCC where the target has the instruction). It
decides so for each expression and, after unrolling, for each iteration. Here elements are expressions, and which sums
are contracted is an arbitrary function of the expression.
-/

namespace MatrixLibs

namespace Fl
variable {F : Fmt}

/-- `a*b + c`, rounded once. With an infinity or NaN among the factors their product is not rounded anyway. -/
def fma : Fl F → Fl F → Fl F → Fl F
  | .fin s M _, .fin t N _, .fin w K _ =>
    let z := signed (s ^^ t) (M * N) + signed w (K * F.unit)
    if z = 0 then pack ((s ^^ t) && w) 0 else pack (decide (z < 0)) (roundQuot F z.natAbs F.unit)
  | .fin .., .fin .., c => c
  | a, b, c => (a.mul b).add c

end Fl

/-- What becomes of a sum or difference: evaluated as written, or contracted with the product that is its left or right
operand (as written, if that operand is none). -/
inductive Fuse where
  | none | left | right

/-- How an element was computed. Elements that are not computed carry a number, by which choices can depend on them. -/
inductive Ex (F : Fmt) where
  | val (id : Nat) (a : Fl F)
  | add (x y : Ex F)
  | sub (x y : Ex F)
  | mul (x y : Ex F)
  | div (x y : Ex F)
  | neg (x : Ex F)
  | abs (x : Ex F)
  | sqrt (x : Ex F)

namespace Ex
variable {F : Fmt}

/-- Value of an expression and, if it is a product, the values of its factors. `o` says which sums are contracted. -/
def ev (o : Ex F → Fuse) : Ex F → Fl F × Option (Fl F × Fl F)
  | val _ a => (a, none)
  | add x y =>
    (match o (add x y), (ev o x).2, (ev o y).2 with
      | .left, some (a, b), _ => a.fma b (ev o y).1
      | .right, _, some (a, b) => a.fma b (ev o x).1
      | _, _, _ => (ev o x).1.add (ev o y).1, none)
  | sub x y =>
    (match o (sub x y), (ev o x).2, (ev o y).2 with
      | .left, some (a, b), _ => a.fma b (ev o y).1.neg
      | .right, _, some (a, b) => a.neg.fma b (ev o x).1
      | _, _, _ => (ev o x).1.sub (ev o y).1, none)
  | mul x y => ((ev o x).1.mul (ev o y).1, some ((ev o x).1, (ev o y).1))
  | div x y => ((ev o x).1.div (ev o y).1, none)
  | neg x => ((ev o x).1.neg, none)
  | abs x => ((ev o x).1.abs, none)
  | sqrt x => ((ev o x).1.sqrt, none)

/-- Value of an expression. -/
def eval (o : Ex F → Fuse) (x : Ex F) : Fl F := (ev o x).1

end Ex

instance (F : Fmt) : Inhabited (Ex F) := ⟨.val 0 (Fl.ofInt 0)⟩

/-- Floating point elements with contraction: operations build expressions, comparisons evaluate them. -/
@[reducible] def fusedScalar {F : Fmt} (o : Ex F → Fuse) : CScalar (Ex F) where
  add x y := .ok (.add x y)
  sub x y := .ok (.sub x y)
  mul x y := .ok (.mul x y)
  div x y := .ok (.div x y)
  neg x := .ok (.neg x)
  ofInt k := .val 0 (Fl.ofInt k)
  eq x y := (x.eval o).eq (y.eval o)
  lt x y := (x.eval o).lt (y.eval o)
  abs x := .ok (.abs x)
  sqrt x := .ok (.sqrt x)
  divSize x n := .ok (.div x (.val 0 (Fl.ofInt n)))

/-- Elements whose sums are contracted where `o` says so. The same expression is treated alike wherever it occurs. -/
def Fused {F : Fmt} (_o : Ex F → Fuse) : Type := Ex F

namespace Fused
variable {F : Fmt} {o : Ex F → Fuse}

instance : Inhabited (Fused o) := inferInstanceAs (Inhabited (Ex F))
instance : CScalar (Fused o) := fusedScalar o

/-- The value of an element. -/
def get (x : Fused o) : Fl F := Ex.eval o x

/-- An element in memory. -/
def mk (id : Nat) (a : Fl F) : Fused o := Ex.val id a

/-- A matrix in memory. -/
def load {r c : Nat} (id : Fin r → Fin c → Nat) (B : Mat (Fl F) r c) : Mat (Fused o) r c :=
  .of fun i j => mk (id i j) (B i j)

end Fused

end MatrixLibs
