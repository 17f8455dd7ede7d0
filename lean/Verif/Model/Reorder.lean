import Verif.Model.Stats

/-!
# Sums evaluated in another order

The loops of `mult`, `conv2`, `conv2_full` and `mean` add terms from left to right, starting from 0. The C++ standard fixes this
order. A build with `-fassociative-math` (part of `-ffast-math`) or with vectorised or parallel reductions evaluates the same sum
in another order, with several partial sums. This file models these functions with the order of the additions as a parameter: an
arbitrary binary tree over the terms. The code as written is the tree `seq`.

Simplifications: the products are not regrouped, and sums are not factored; the outputs are written once per element; the sums in
`det`, `inv`, `lu`, `chol` and `var` keep their order.
-/

namespace MatrixLibs

open CScalar (ofInt)

/-- An order of evaluation of a sum. `term k` is the term number `k`, `start k` is that term added to a new accumulator that holds
0, `add` combines two partial sums. -/
inductive AddOrder where
  | term (k : Nat)
  | start (k : Nat)
  | add (l r : AddOrder)

namespace AddOrder

/-- The numbers of the terms, from left to right. -/
def terms : AddOrder → List Nat
  | term k => [k]
  | start k => [k]
  | add l r => l.terms ++ r.terms

/-- Every one of `m` terms is added exactly once (no condition if there is no term: then the order is not used). -/
def Adds (o : AddOrder) (m : Nat) : Prop := m = 0 ∨ o.terms.Perm (List.range m)

/-- The largest number of additions that a term passes through, not counting those to a new accumulator. -/
def depth : AddOrder → Nat
  | term _ => 0
  | start _ => 0
  | add l r => max l.depth r.depth + 1

/-- The sum of the terms `t` in the order `o`. -/
def eval {T : Type} [CScalar T] (t : Nat → Res T) : AddOrder → Res T
  | term k => t k
  | start k => do CScalar.add (ofInt 0) (← t k)
  | add l r => do
    let x ← l.eval t
    let y ← r.eval t
    CScalar.add x y

/-- The order of the code, for `m + 1` terms: from left to right, starting from 0. -/
def seq : Nat → AddOrder
  | 0 => start 0
  | m + 1 => add (seq m) (term (m + 1))

/-- Pairwise summation of the `2 ^ k` terms from number `off` on. -/
def pairs : Nat → Nat → AddOrder
  | 0, off => term off
  | k + 1, off => add (pairs k off) (pairs k (off + 2 ^ k))

/-- Lane `l` of a vectorised loop with `w` lanes: the terms `l`, `l + w`, .., `l + q * w` from left to right, starting from 0. -/
def lane (w l : Nat) : Nat → AddOrder
  | 0 => start l
  | q + 1 => add (lane w l q) (term (l + (q + 1) * w))

/-- A vectorised loop with `w` lanes over `w * (q + 1)` terms: the lanes `0`, .., `s`, then combined from left to right. -/
def lanes (w q : Nat) : Nat → AddOrder
  | 0 => lane w 0 q
  | s + 1 => add (lanes w q s) (lane w (s + 1) q)

end AddOrder

variable {T : Type} [Inhabited T] [CScalar T] {i j n m p : Nat}

/-- The sum of the first `m` terms of `t` in the order `o`; 0 if there are none. -/
def sumIn (m : Nat) (o : AddOrder) (t : Nat → Res T) : Res T :=
  if m = 0 then .ok (ofInt 0) else o.eval t

/-- `mult(A, B)`, `matrix_mult.hpp:32-48`; the sum of line 43 for element `(i, j)` in the order `o i j`. -/
def multIn (o : Nat → Nat → AddOrder) (A : Mat T n m) (B : Mat T m p) : Res (Mat T n p) := do
  let S ← zeros n p
  forUp 0 n S fun it S =>
    forUp 0 p S fun jt S => do
      wr S it jt (← sumIn m (o it jt) fun kt => do CScalar.mul (← rd A it kt) (← rd B kt jt))

/-- `it-1`, `it`, `it+1` in `std::size_t`, `matrix_conv2.hpp:69-77`. -/
def beside (it x : Nat) : Nat :=
  if x = 0 then szSub it 1 else if x = 1 then it else szAdd it 1

/-- `conv2(A, kernel)`, `matrix_conv2.hpp:38-81`; the sum of lines 69-77 in the order `o it jt`. -/
def conv2In (o : Nat → Nat → AddOrder) (A : Mat T i j) (kernel : Mat T 3 3) : Res (Mat T i j) :=
  forUp 0 i (valueInit i j) fun it result =>
    forUp 0 j result fun jt result => do
      wr result it jt (← sumIn 9 (o it jt) fun k =>
        convTerm A kernel (k / 3) (k % 3) (beside it (k / 3)) (beside jt (k % 3)))

/-- `conv2_full(A, kernel)`, `matrix_conv2.hpp:88-133`; the sum of lines 121-129 in the order `o it jt`. -/
def conv2FullIn (o : Nat → Nat → AddOrder) (A : Mat T i j) (kernel : Mat T 3 3) : Res (Mat T (i + 2) (j + 2)) :=
  forUp 0 (i + 2) (valueInit (i + 2) (j + 2)) fun it result =>
    forUp 0 (j + 2) result fun jt result => do
      wr result it jt (← sumIn 9 (o it jt) fun k =>
        convTerm A kernel (k / 3) (k % 3) (szSub (beside it (k / 3)) 1) (szSub (beside jt (k % 3)) 1))

/-- `mean(A)`, `matrix_mean.hpp:31-43`; the sum of line 39 over all elements in the order `o`. -/
def meanIn (o : AddOrder) (A : Mat T i j) : Res T := do
  let result ← sumIn (i * j) o fun k => rd A (k / j) (k % j)
  CScalar.divSize result (i * j)

end MatrixLibs
