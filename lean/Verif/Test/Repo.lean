import Verif.Model.Stats
import Verif.Model.Bench
import Verif.Props.Preds
import Verif.Props.Arith
import Mathlib.LinearAlgebra.Matrix.Notation

/-!
# The repository's own unit tests, run on the model

Each `example` is one assertion of `tst/*/*.cpp`, evaluated by the kernel on the `float` model (the
`int` and `unsigned` ones on theirs). These are tests of the model's fidelity, not properties: they
say that the model gives what the authors assert the code gives.
-/

namespace MatrixLibs.Test

open MatrixLibs

/-- `Matrix<float, r, c>` with a row-major list of integers. -/
def fm (r c : Nat) (l : List Int) : Mat (Fl binary32) r c :=
  .of fun a b => Fl.ofInt (l.getD (a.val * c + b.val) 0)

/-- A decimal literal `n / d`: a `double`, correctly rounded. -/
def dlit (q : Int × Nat) : Fl binary64 :=
  Fl.pack (decide (q.1 < 0)) (Fl.roundQuot binary64 (q.1.natAbs * binary64.unit) q.2)

/-- Conversion of a `double` to `float`. -/
def toFloat : Fl binary64 → Fl binary32
  | .nan => .nan
  | .inf s => .inf s
  | .fin s N _ => Fl.pack s (Fl.roundQuot binary32 (N * binary32.unit) binary64.unit)

/-- Initialiser `n / d` of a `float`: through `double`. -/
def lit (n : Int) (d : Nat) : Fl binary32 := toFloat (dlit (n, d))

/-- `Matrix<float, r, c>` with a row-major list of decimal literals over the denominator `d`. -/
def fd (r c : Nat) (d : Nat) (l : List Int) : Mat (Fl binary32) r c :=
  .of fun a b => lit (l.getD (a.val * c + b.val) 0) d

/-- `Matrix<int, r, c>`. -/
def im (r c : Nat) (l : List Int) : Mat (SInt 32) r c :=
  .of fun a b => SInt.wrap (l.getD (a.val * c + b.val) 0)

/-- `Matrix<unsigned, r, c>`. -/
def um (r c : Nat) (l : List Nat) : Mat (BitVec 32) r c :=
  .of fun a b => BitVec.ofNat 32 (l.getD (a.val * c + b.val) 0)

/-- `ASSERT_EQ` of two matrices that are results of calls. -/
def eqR {T : Type} [Inhabited T] [CScalar T] {r c : Nat} (x y : Res (Mat T r c)) : Res Bool := do
  arrayEq (← x) (← y)

/-- `compare` of two matrices that are results of calls. -/
def cmpR {r c : Nat} (x y : Res (Mat (Fl binary32) r c)) (n : Int) (d : Nat) : Res Bool := do
  compare (← x) (← y) (lit n d)

/-! ## cholesky.cpp -/

def cA := fm 3 3 [4, 12, -16, 12, 37, -43, -16, -43, 98]
def cLA := fm 3 3 [2, 0, 0, 6, 1, 0, -8, 5, 3]
def cB := fm 4 4 [1, 2, 4, 4, 2, 5, 9, 15, 4, 9, 42, 53, 4, 15, 53, 102]
def cLB := fm 4 4 [1, 0, 0, 0, 2, 1, 0, 0, 4, 1, 5, 0, 4, 7, 6, 1]

/-- `L * trans(L)`. -/
def llt {n : Nat} (x : Res (Mat (Fl binary32) n n)) : Res (Mat (Fl binary32) n n) := do
  let L ← x
  opMul L (← trans L)

example : isSymetric cA = .ok true := by decide +kernel
example : isSymetric cLA = .ok false := by decide +kernel
example : cmpR (llt (chol cA)) (llt (.ok cLA)) 1 100 = .ok true := by decide +kernel
example : cmpR (llt (chol cB)) (llt (.ok cLB)) 1 100 = .ok true := by decide +kernel

/-! ## compare.cpp -/

example : compare (fm 2 2 [1, 2, 0, 1]) (fm 2 2 [6, 1, -1, 0]) (lit 1 10000) = .ok false := by
  decide +kernel
example : compare (fd 2 2 1000000 [1000000, 2000005, 1000100, 1010000])
    (fd 2 2 1000000 [1100000, 2000009, 1000500, 1050000]) (lit 1 100000) = .ok false := by
  decide +kernel
example : compare (fd 2 2 10000 [-11000, -20000, -10001, -10100])
    (fd 2 2 10000 [-11000, -20000, -10001, -10100]) (lit 1 100) = .ok true := by decide +kernel
example : compare (fd 2 2 10000 [11000, 20000, 10001, 10100])
    (fd 2 2 10000 [-11000, -20000, -10001, -10100]) (lit 1 100) = .ok false := by decide +kernel

/-! ## concatenate.cpp -/

example : cmpR (.ok (fm 5 2 [4, 3, 6, 3, 10, 12, 15, 13, 17, 11]))
    (concatenateRows (fm 2 2 [4, 3, 6, 3]) (fm 3 2 [10, 12, 15, 13, 17, 11])) 1 10000 = .ok true := by
  decide +kernel
example : cmpR (.ok (fm 2 5 [4, 3, 1, 10, 12, 6, 3, 1, 15, 13]))
    (concatenateCols (fm 2 3 [4, 3, 1, 6, 3, 1]) (fm 2 2 [10, 12, 15, 13])) 1 10000 = .ok true := by
  decide +kernel
example : cmpR (.ok (fm 4 2 [4, 3, 6, 3, 10, 12, 15, 13]))
    (concatenateV (fm 2 2 [4, 3, 6, 3]) (fm 2 2 [10, 12, 15, 13])) 1 10000 = .ok true := by
  decide +kernel
example : cmpR (.ok (fm 2 4 [4, 3, 10, 12, 6, 3, 15, 13]))
    (concatenateH (fm 2 2 [4, 3, 6, 3]) (fm 2 2 [10, 12, 15, 13])) 1 10000 = .ok true := by
  decide +kernel
example : cmpR (.ok (fm 4 2 [4, 3, 6, 3, 10, 12, 15, 13]))
    (do .ok (← concatenateSquare (fm 2 2 [4, 3, 6, 3]) (fm 2 2 [10, 12, 15, 13])).1) 1 10000 =
    .ok true := by
  decide +kernel

/-! ## conv.cpp -/

def kA := fm 5 5 [9, 9, 9, 9, 9, 18, 18, 18, 27, 27, 9, 9, 9, 9, 9, 9, 9, 9, 9, 9, 9, 9, 9, 9, 9]
def kK := fd 3 3 100000000 (List.replicate 9 11111111)

example : cmpR (.ok (fm 5 5 [6, 9, 10, 11, 8, 8, 12, 13, 14, 10, 8, 12, 13, 14, 10, 6, 9, 9, 9, 6,
    4, 6, 6, 6, 4])) (conv2 kA kK) 1 10 = .ok true := by decide +kernel
example : cmpR (.ok (fm 7 7 [1, 2, 3, 3, 3, 2, 1, 3, 6, 9, 10, 11, 8, 4, 4, 8, 12, 13, 14, 10, 5,
    4, 8, 12, 13, 14, 10, 5, 3, 6, 9, 9, 9, 6, 3, 2, 4, 6, 6, 6, 4, 2, 1, 2, 3, 3, 3, 2, 1]))
    (conv2_full kA kK) 1 10000 = .ok true := by decide +kernel
example : cmpR (.ok (fm 3 3 [12, 13, 14, 12, 13, 14, 9, 9, 9])) (conv2_valid kA kK) 1 10000 =
    .ok true := by decide +kernel
example : cmpR (.ok (fm 5 5 [30, 20, 20, 20, 30, 20, 5, 1, 1, 16, 20, 5, 1, 41, 16, 20, 5, 1, 1, 16,
    30, 20, 20, 20, 30]))
    (conv2 (fm 5 5 [5, 5, 5, 5, 5, 5, 5, 5, 5, 5, 5, 5, 5, 9, 5, 5, 5, 5, 5, 5, 5, 5, 5, 5, 5])
      (fm 3 3 [-1, -1, -1, -1, 9, -1, -1, -1, -1])) 1 10000 = .ok true := by decide +kernel

/-! ## det.cpp -/

/-- `ASSERT_EQ(det(A), k)` with an integer literal `k` of `int` type, converted to `float`. -/
def detIs {n : Nat} (A : Mat (Fl binary32) n n) (k : Int) : Res Bool := do
  .ok ((← det A).eq (Fl.ofInt k))

/-- `static_cast<int>(x)` of a `float`: truncation. -/
def toInt : Fl binary32 → Option Int
  | .fin s N _ => some ((Fl.signed s N).tdiv binary32.unit)
  | _ => none

example : detIs (fm 2 2 [1, 2, 0, 1]) 1 = .ok true := by decide +kernel
example : detIs (fm 3 3 [1, 2, 1, 0, 1, -3, 3, 5, 1]) (-5) = .ok true := by decide +kernel
example : detIs (fm 4 4 [1, 2, 3, 4, 5, 6, 7, 8, 9, 10, 2, 2, 2, 1, -4, 0]) 196 = .ok true := by
  decide +kernel
example : detIs (fm 4 4 [1, 0, 4, -2, 0, -5, 3, 1, -4, 5, 1, 0, 1, 0, -1, 2]) (-225) = .ok true := by
  decide +kernel
example : (do .ok (toInt (← det (fm 5 5 [1, 0, 2, 3, 5, 7, 6, -4, 0, 1, -1, -4, 0, 5, 1,
    2, -4, 3, -5, 0, 1, 2, 5, -3, 0])))) = (.ok (some (-6040)) : Res (Option Int)) := by
  decide +kernel
example : (do .ok (toInt (← det (fm 9 9 [
     1,  0,  2,  3,  5, 4, 1,  0,  1,
     7,  6, -4,  0,  1, 6, 0,  0,  0,
    -1, -4,  0,  5,  1, 5, 4,  6,  2,
     2, -4,  3, -5,  0, 0, 0,  0, -1,
     1,  2,  5, -3,  0, 0, 0,  3, -3,
     7,  6, -4,  0,  1, 6, 0, -1,  0,
    -1, -7, -2,  5,  1, 2, 4,  5,  1,
     2, -4,  0, -5, -3, 0, 0,  0,  2,
     1,  5,  3, -3,  0, 0, 0,  3,  1])))) = (.ok (some 89931) : Res (Option Int)) := by
  decide +kernel

/-! ## equal.cpp, eye.cpp, fill.cpp -/

example : arrayEq (fm 2 2 [1, 2, 0, 1]) (fm 2 2 [1, 2, 0, 1]) = .ok true := by decide +kernel
example : arrayEq (fm 2 2 [1, 2, 0, 1]) (fm 2 2 [1, 2, 0, 0]) = .ok false := by decide +kernel
example : eqR (eye1 4) (.ok (fm 4 4 [1, 0, 0, 0, 0, 1, 0, 0, 0, 0, 1, 0, 0, 0, 0, 1])) = .ok true := by
  decide +kernel
example : eqR (eye 3 (Fl.ofInt 7)) (.ok (fm 3 3 [7, 0, 0, 0, 7, 0, 0, 0, 7])) = .ok true := by
  decide +kernel
example : eqR (fill 5 4 (lit 54 10)) (.ok (fd 5 4 10 (List.replicate 20 54))) = .ok true := by
  decide +kernel
example : eqR (fill 5 4 (lit 54 10))
    (.ok (fd 5 4 10 [54, 54, 54, 50, 54, 54, 54, 50, 54, 54, 54, 50, 54, 54, 54, 50, 54, 54, 54, 50])) =
    .ok false := by
  decide +kernel

/-! ## filters.cpp

`(x - c) < eps`: with an `int` constant in `float`, with a `double` constant in `double` (the
conversion of `x` is exact there). `std::sort` is insertion sort. -/

/-- Insertion sort by `<`. -/
def isort : List (Fl binary32) → List (Fl binary32)
  | [] => []
  | a :: l => insert a (isort l)
where
  insert (a : Fl binary32) : List (Fl binary32) → List (Fl binary32)
    | [] => [a]
    | b :: l => if b.lt a then b :: insert a l else a :: b :: l

/-- Conversion of a `float` to `double` (exact). -/
def toDouble : Fl binary32 → Fl binary64
  | .nan => .nan
  | .inf s => .inf s
  | .fin s N _ => Fl.pack s (N * binary64.unit / binary32.unit)

def below (x : Res (Fl binary32)) (c : Int) : Res Bool := do
  .ok (((← x).sub (Fl.ofInt c)).lt (lit 1 100))

def belowD (x : Res (Fl binary32)) (c : Fl binary64) : Res Bool := do
  .ok (((toDouble (← x)).sub c).lt (toDouble (lit 1 100)))

def sA := fm 3 3 [1, 2, 3, 4, 5, 6, 7, 8, 9]
def sB := fm 3 3 [2, 2, 2, 5, 5, 5, 8, 8, 8]

example : below (mean sA) 5 = .ok true := by decide +kernel
example : below (median isort sA) 5 = .ok true := by decide +kernel
example : belowD (var sA) (dlit (666667, 100000)) = .ok true := by decide +kernel
example : belowD (stddev sA) (dlit (666667, 100000)).sqrt = .ok true := by decide +kernel
example : below (mean sB) 5 = .ok true := by decide +kernel
example : below (median isort sB) 5 = .ok true := by decide +kernel
example : below (var sB) 6 = .ok true := by decide +kernel
example : belowD (stddev sB) (dlit (6, 1)).sqrt = .ok true := by decide +kernel

/-! ## getminor.cpp -/

def gA := fm 4 4 [1, 2, 3, 4, 2, 3, 1, 2, 1, 1, 1, -1, 1, 0, -2, -6]

example : cmpR (getminor sA 2 2) (.ok (fm 2 2 [1, 2, 4, 5])) 1 100 = .ok true := by decide +kernel
example : cmpR (getminor gA 0 0) (.ok (fm 3 3 [3, 1, 2, 1, 1, -1, 0, -2, -6])) 1 100 = .ok true := by
  decide +kernel
example : cmpR (getminor gA 1 1) (.ok (fm 3 3 [1, 3, 4, 1, 1, -1, 1, -2, -6])) 1 100 = .ok true := by
  decide +kernel

/-! ## histogram.cpp -/

example : histogram (fm 3 3 [1, 2, 2, 4, 4, 2, 7, 8, 4]) =
    .ok [(Fl.ofInt 1, 1), (Fl.ofInt 2, 3), (Fl.ofInt 4, 3), (Fl.ofInt 7, 1), (Fl.ofInt 8, 1)] := by
  decide +kernel

/-! ## identity.cpp (the 100x100 and 50x50 assertions through the theorem) -/

example : isIdentity (um 3 3 [1, 0, 0, 0, 1, 0, 0, 0, 1]) = .ok true := by decide +kernel
example : (do isIdentity (← onesUInt 0 4 4)) = .ok false := by decide +kernel
example : (do isIdentity (← eye1 (T := BitVec 32) 100)) = .ok true := by
  rw [eye1_exact, ok_bind]
  obtain ⟨b, hb, h⟩ := C40_isIdentity (1 : Mat (BitVec 32) 100 100)
  rw [hb, h.mpr fun i j => Matrix.one_apply]
example : (do isIdentity (← fill 50 50 1#32)) = .ok false := by
  rw [fill_ok, ok_bind]
  obtain ⟨b, hb, h⟩ := C40_isIdentity (Mat.const 1#32 : Mat (BitVec 32) 50 50)
  cases b with
  | false => exact hb
  | true => exact absurd (h.mp rfl 0 1) (by decide +kernel)

/-! ## inv.cpp -/

example : eqR (inv none (fm 2 2 [1, 2, 0, 1])) (.ok (fm 2 2 [1, -2, 0, 1])) = .ok true := by
  decide +kernel
example : cmpR (inv none (fm 3 3 [-2, 5, 1, 3, 0, 1, 1, 1, 2]))
    (.ok (fd 3 3 100 [5, 45, -25, 25, 25, -25, -15, -35, 75])) 1 100 = .ok true := by decide +kernel
example : cmpR (inv none gA)
    (.ok (fm 4 4 [22, -6, -26, 17, -17, 5, 20, -13, -1, 0, 2, -1, 4, -1, -5, 3])) 1 100 = .ok true := by
  decide +kernel

/-! ## lu.cpp -/

def lA := fm 3 3 [5, 3, 2, 1, 2, 0, 3, 0, 4]
def lB := fm 2 2 [4, 3, 6, 3]

/-- A `double` quotient of integer literals, converted to `float`. -/
def quo (a b : Int) : Fl binary32 := toFloat ((Fl.ofInt a).div (Fl.ofInt b))

example : cmpR (.ok !![quo 1 1, quo 0 1, quo 0 1; quo 1 5, quo 1 1, quo 0 1; quo 3 5, quo (-9) 7, quo 1 1])
    (do .ok (← lu lA).1) 1 10000 = .ok true := by decide +kernel
example : cmpR (.ok !![quo 5 1, quo 3 1, quo 2 1; quo 0 1, quo 7 5, quo (-2) 5; quo 0 1, quo 0 1, quo 16 7])
    (do .ok (← lu lA).2) 1 10000 = .ok true := by decide +kernel
example : cmpR (.ok !![quo 1 1, quo 1 1, quo (-1000) 1; quo 1 1, quo 7 5, quo (-2) 5; quo 1 1, quo 1 1, quo 1 1])
    (do .ok (← lu lA).2) 1 10000 = .ok false := by decide +kernel
example : cmpR (.ok (fd 2 2 10 [10, 0, 15, 10])) (do .ok (← lu lB).1) 1 10000 = .ok true := by
  decide +kernel
example : cmpR (.ok (fd 2 2 10 [40, 30, 0, -15])) (do .ok (← lu lB).2) 1 10000 = .ok true := by
  decide +kernel
example : cmpR (.ok (fm 2 2 [4, 12, 9, 12])) (do .ok (← lu lB).2) 1 10000 = .ok false := by
  decide +kernel

/-! ## mult.cpp -/

example : eqR (opMul (im 2 3 [1, 2, -1, 4, 0, 6]) (im 3 2 [1, 3, 0, -1, 4, 5]))
    (.ok (im 2 2 [-3, -4, 28, 42])) = .ok true := by decide +kernel
example : cmpR (opMul (fd 2 3 1000000 [1340000, 2091400, -1430140, 4000100, 100, 6000034])
      (fd 3 2 1000000 [1342300, 3094310, 654200, -1043910, 4035300, 5091341]))
    (.ok (fd 2 2 100000 [-260417, -531819, 2958130, 4292570])) 1 10000 = .ok true := by decide +kernel
example : eqR (strassen (im 2 2 [3, -4, 28, 42]) (im 2 2 [1, -4, 0, 4]))
    (opMul (im 2 2 [3, -4, 28, 42]) (im 2 2 [1, -4, 0, 4])) = .ok true := by decide +kernel
example : eqR (opMulScalar (fm 2 2 [6, 1, -1, 0]) (Fl.ofInt 2)) (.ok (fm 2 2 [12, 2, -2, 0])) =
    .ok true := by decide +kernel
example : eqR (opScalarMul (Fl.ofInt 2) (fm 2 2 [6, 1, -1, 0])) (.ok (fm 2 2 [12, 2, -2, 0])) =
    .ok true := by decide +kernel
example : eqR (opMulScalar (fm 2 2 [6, 1, -1, 0]) (Fl.ofInt 0)) (zeros 2 2) = .ok true := by
  decide +kernel

/-! ## ones.cpp, zeros.cpp -/

example : eqR (onesUInt 0 4 4) (.ok (um 4 4 (List.replicate 16 1))) = .ok true := by decide +kernel
example : eqR (onesUInt 0 1 1) (.ok (um 1 1 [1])) = .ok true := by decide +kernel
example : eqR (zeros 4 4) (.ok (um 4 4 [])) = .ok true := by decide +kernel
example : eqR (zeros 2 4) (.ok (um 2 4 [])) = .ok true := by decide +kernel
example : eqR (zeros 4 2) (.ok (um 4 2 [])) = .ok true := by decide +kernel
example : eqR (zeros 1 1) (.ok (um 1 1 [])) = .ok true := by decide +kernel

/-! ## pow.cpp -/

def pA := fm 2 2 [1, 2, 3, 4]

/-- `A * A * ... * A` with `k + 1` factors, from the left. -/
def prodR (A : Mat (Fl binary32) 2 2) : Nat → Res (Mat (Fl binary32) 2 2)
  | 0 => .ok A
  | k + 1 => do opMul (← prodR A k) A

example : eqR (eye1 2) (pow none 32 pA 0) = .ok true := by decide +kernel
example : eqR (prodR pA 0) (pow none 32 pA 1) = .ok true := by decide +kernel
example : eqR (prodR pA 1) (pow none 32 pA 2) = .ok true := by decide +kernel
example : eqR (prodR pA 2) (pow none 32 pA 3) = .ok true := by decide +kernel
example : eqR (prodR pA 3) (pow none 32 pA 4) = .ok true := by decide +kernel
example : eqR (prodR pA 4) (pow none 32 pA 5) = .ok true := by decide +kernel
example : eqR (do prodR (← inv none pA) 0) (pow none 32 pA (-1)) = .ok true := by decide +kernel
example : eqR (do prodR (← inv none pA) 1) (pow none 32 pA (-2)) = .ok true := by decide +kernel
example : eqR (do prodR (← inv none pA) 2) (pow none 32 pA (-3)) = .ok true := by decide +kernel
example : eqR (do prodR (← inv none pA) 3) (pow none 32 pA (-4)) = .ok true := by decide +kernel
example : eqR (do prodR (← inv none pA) 4) (pow none 32 pA (-5)) = .ok true := by decide +kernel

/-! ## sub.cpp, sum.cpp -/

def tA := fm 2 2 [6, 1, -1, 0]
def tB := fm 2 2 [1, 2, 0, 1]

example : eqR (opSubScalar tA (Fl.ofInt 1)) (.ok (fm 2 2 [5, 0, -2, -1])) = .ok true := by decide +kernel
example : cmpR (do .ok (← opPostDec tA).2) (.ok (fm 2 2 [5, 0, -2, -1])) 1 10000 = .ok true := by
  decide +kernel
example : eqR (opAdd tB tA) (.ok (fm 2 2 [7, 3, -1, 1])) = .ok true := by decide +kernel
example : cmpR (do .ok (← opPostInc tB).2) (.ok (fm 2 2 [2, 3, 1, 2])) 1 10000 = .ok true := by
  decide +kernel
example : eqR (opAddScalar tA (Fl.ofInt 1)) (.ok (fm 2 2 [7, 2, 0, 1])) = .ok true := by decide +kernel
example : eqR (opScalarAdd (Fl.ofInt 1) tA) (.ok (fm 2 2 [7, 2, 0, 1])) = .ok true := by decide +kernel

/-! ## swap.cpp, trans.cpp -/

def wA := fm 4 4 [1, 2, 3, 4, 5, 6, 7, 8, 9, 10, 2, 2, 2, 1, -4, 0]

example : eqR (swap_rows wA 0 2) (.ok (fm 4 4 [9, 10, 2, 2, 5, 6, 7, 8, 1, 2, 3, 4, 2, 1, -4, 0])) =
    .ok true := by decide +kernel
example : eqR (swap_rows (fm 2 4 [1, 2, 3, 4, 5, 6, 7, 8]) 0 1) (.ok (fm 2 4 [5, 6, 7, 8, 1, 2, 3, 4])) =
    .ok true := by decide +kernel
example : eqR (swap_rows (fm 4 3 [1, 2, 3, 5, 6, 7, 9, 10, 2, 2, 1, -4]) 0 2)
    (.ok (fm 4 3 [9, 10, 2, 5, 6, 7, 1, 2, 3, 2, 1, -4])) = .ok true := by decide +kernel
example : eqR (swap_cols wA 0 3) (.ok (fm 4 4 [4, 2, 3, 1, 8, 6, 7, 5, 2, 10, 2, 9, 0, 1, -4, 2])) =
    .ok true := by decide +kernel
example : eqR (swap_cols (fm 4 2 [1, 2, 5, 6, 9, 10, 2, 1]) 1 0)
    (.ok (fm 4 2 [2, 1, 6, 5, 10, 9, 1, 2])) = .ok true := by decide +kernel
example : eqR (swap_cols wA 0 0) (.ok wA) = .ok true := by decide +kernel
example : eqR (swap_rows wA 2 2) (.ok wA) = .ok true := by decide +kernel
example : eqR (trans (fm 3 3 [1, 2, 1, 0, 1, -3, 3, 5, 1])) (.ok (fm 3 3 [1, 0, 3, 2, 1, 5, 1, -3, 1])) =
    .ok true := by decide +kernel
example : eqR (trans (fm 2 3 [1, 2, 3, 4, 5, 6])) (.ok (fm 3 2 [1, 4, 2, 5, 3, 6])) = .ok true := by
  decide +kernel

end MatrixLibs.Test
