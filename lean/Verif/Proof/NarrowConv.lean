import Verif.Model.Narrow
import Verif.Proof.Conv

/-!
# Convolution of promoted elements: one cell at a time
-/

namespace MatrixLibs

set_option linter.unusedSectionVars false

open Promo (load store)
open CScalar (ofInt)

variable {T P : Type} [Inhabited T] [CScalar P] [Promo T P] {i j : Nat}

/-- `result[it][jt] += t` for each term in turn. -/
def accumN {r c : Nat} (it jt : Nat) : List (Res P) → Mat T r c → Res (Mat T r c)
  | [], S => .ok S
  | x :: xs, S => do
    let S ← Promoted.addTo S it jt (← x)
    accumN it jt xs S

/-- The same on a scalar. -/
def accumValN : List (Res P) → T → Res T
  | [], v => .ok v
  | x :: xs, v => do
    let q ← CScalar.add (load v) (← x)
    accumValN xs (store q)

theorem accumN_eq {r c : Nat} {it jt : Nat} (hit : it < r) (hjt : jt < c) (xs : List (Res P)) :
    ∀ (v : T) (S : Mat T r c),
      (do let S ← wr S it jt v
          accumN it jt xs S) = (do wr S it jt (← accumValN xs v)) := by
  induction xs with
  | nil =>
    intro v S
    show (do let S ← wr S it jt v; .ok S) = wr S it jt v
    rw [wr_eq hit hjt, ok_bind]
  | cons x xs ih =>
    intro v S
    simp only [accumN, accumValN, bind_assoc]
    rw [wr_eq hit hjt, ok_bind]
    congr 1
    funext y
    unfold Promoted.addTo
    simp only [bind_assoc]
    rw [rd_eq hit hjt, ok_bind, Matrix.of_apply, if_pos ⟨rfl, rfl⟩]
    congr 1
    funext v'
    rw [← ih (store v') S, wr_eq hit hjt, wr_eq hit hjt, ok_bind, ok_bind]
    congr 1
    ext a b
    simp only [Matrix.of_apply]
    split
    · rfl
    · rfl

/-- The nine terms at `(a, b)`, in program order. -/
def convTermsN (A : Mat T i j) (k : Mat T 3 3) (a b : ℤ) : List (Res P) :=
  [Promoted.convTerm A k 0 0 (szOf (a - 1)) (szOf (b - 1)),
   Promoted.convTerm A k 0 1 (szOf (a - 1)) (szOf b),
   Promoted.convTerm A k 0 2 (szOf (a - 1)) (szOf (b + 1)),
   Promoted.convTerm A k 1 0 (szOf a) (szOf (b - 1)),
   Promoted.convTerm A k 1 1 (szOf a) (szOf b),
   Promoted.convTerm A k 1 2 (szOf a) (szOf (b + 1)),
   Promoted.convTerm A k 2 0 (szOf (a + 1)) (szOf (b - 1)),
   Promoted.convTerm A k 2 1 (szOf (a + 1)) (szOf b),
   Promoted.convTerm A k 2 2 (szOf (a + 1)) (szOf (b + 1))]

/-- The value of one cell. -/
def convCellN (A : Mat T i j) (k : Mat T 3 3) (a b : ℤ) : Res T :=
  accumValN (convTermsN A k a b) (Promoted.lit 0)

theorem sz_pred (n : Nat) (hn : n < sizeMod) : szSub n 1 = szOf ((n : ℤ) - 1) := by
  have := szSub_szOf n 1 (by unfold sizeMod; norm_num)
  rw [szOf_nat n hn] at this
  exact_mod_cast this

theorem sz_succ (n : Nat) (hn : n < sizeMod) : szAdd n 1 = szOf ((n : ℤ) + 1) := by
  have := szAdd_szOf n 1
  rw [szOf_nat n hn] at this
  exact_mod_cast this

theorem conv2_cellsN (A : Mat T i j) (k : Mat T 3 3) (hi : i ≤ sizeMod) (hj : j ≤ sizeMod) :
    Promoted.conv2 A k = (forUp 0 i (valueInit i j) fun it S =>
      forUp 0 j S fun jt S => do wr S it jt (← convCellN A k it jt)) := by
  unfold Promoted.conv2
  refine forUp_congr (fun it S _ hit => forUp_congr (fun jt S _ hjt => ?_))
  unfold convCellN
  rw [← accumN_eq hit hjt]
  have hit' : it < sizeMod := lt_of_lt_of_le hit hi
  have hjt' : jt < sizeMod := lt_of_lt_of_le hjt hj
  rw [sz_pred it hit', sz_pred jt hjt', sz_succ it hit', sz_succ jt hjt']
  unfold convTermsN
  simp only [accumN, bind_ok, szOf_nat it hit', szOf_nat jt hjt']

theorem conv2_full_cellsN (A : Mat T i j) (k : Mat T 3 3) (hi : i + 2 ≤ sizeMod)
    (hj : j + 2 ≤ sizeMod) :
    Promoted.conv2_full A k = (forUp 0 (i + 2) (valueInit (i + 2) (j + 2)) fun it S =>
      forUp 0 (j + 2) S fun jt S => do
        wr S it jt (← convCellN A k ((it : ℤ) - 1) ((jt : ℤ) - 1))) := by
  unfold Promoted.conv2_full
  refine forUp_congr (fun it S _ hit => forUp_congr (fun jt S _ hjt => ?_))
  unfold convCellN
  rw [← accumN_eq hit hjt]
  have h3 : ∀ a : ℤ, szSub (szOf a) 1 = szOf (a - 1) := by
    intro a
    have := szSub_szOf a 1 (by unfold sizeMod; norm_num)
    exact_mod_cast this
  have hit' : it < sizeMod := lt_of_lt_of_le hit hi
  have hjt' : jt < sizeMod := lt_of_lt_of_le hjt hj
  have h4 : ∀ a : ℤ, a + 1 - 1 = a - 1 + 1 := fun a => by ring
  simp only [sz_pred it hit', sz_pred jt hjt', sz_succ it hit', sz_succ jt hjt', h3, h4]
  unfold convTermsN
  simp only [accumN, bind_ok]

end MatrixLibs
