import Verif.Model.Overload
import Mathlib.Tactic.Cases

/-!
# Lemmas about overload resolution
-/

namespace MatrixLibs.Overload

theorem viable_square (r1 c1 r2 c2 : Nat) :
    viable [.var 0, .var 0, .var 0, .var 0] [r1, c1, r2, c2] =
      decide (r1 = c1 ∧ r1 = r2 ∧ r1 = c2) := by
  simp [viable, deduce, List.lookup, Bool.decide_and]

theorem viable_rows (r1 c1 r2 c2 : Nat) :
    viable [.var 0, .var 2, .var 1, .var 2] [r1, c1, r2, c2] = decide (c1 = c2) := by
  simp [viable, deduce, List.lookup]

theorem viable_cols (r1 c1 r2 c2 : Nat) :
    viable [.var 0, .var 1, .var 0, .var 2] [r1, c1, r2, c2] = decide (r1 = r2) := by
  simp [viable, deduce, List.lookup]

theorem viable_lit (k n m : Nat) : viable [.lit k, .lit k] [n, m] = decide (k = n ∧ k = m) := by
  simp [viable, deduce, Bool.decide_and]

theorem viable_gen (n m : Nat) : viable [.var 0, .var 0] [n, m] = decide (n = m) := by
  simp [viable, deduce, List.lookup]

/-- Resolution among `concatCands` as a function of which candidates are viable. -/
def pickConcat : Bool → Bool → Bool → Outcome Concat
  | true, true, true => .selected .square
  | true, _, _ => .selected .square
  | false, true, true => .ambiguous
  | false, true, false => .selected .rows
  | false, false, true => .selected .cols
  | false, false, false => .noMatch

theorem resolve_concat (r1 c1 r2 c2 : Nat) :
    resolve concatCands [r1, c1, r2, c2] =
      pickConcat (decide (r1 = c1 ∧ r1 = r2 ∧ r1 = c2)) (decide (c1 = c2)) (decide (r1 = r2)) := by
  unfold resolve concatCands
  simp only [List.filter_cons, List.filter_nil, viable_square, viable_rows, viable_cols]
  generalize decide (r1 = c1 ∧ r1 = r2 ∧ r1 = c2) = x
  generalize decide (c1 = c2) = y
  generalize decide (r1 = r2) = z
  revert x y z
  decide

theorem resolve_square (n : Nat) :
    resolve squareCands [n, n] = .selected
      (if n = 1 then .one else if n = 2 then .two else if n = 3 then .three else .general) := by
  unfold resolve squareCands
  simp only [List.filter_cons, List.filter_nil, viable_lit, viable_gen]
  by_cases h1 : n = 1
  · subst h1; decide
  by_cases h2 : n = 2
  · subst h2; decide
  by_cases h3 : n = 3
  · subst h3; decide
  have e1 : decide (1 = n ∧ 1 = n) = false := by simp; omega
  have e2 : decide (2 = n ∧ 2 = n) = false := by simp; omega
  have e3 : decide (3 = n ∧ 3 = n) = false := by simp; omega
  rw [e1, e2, e3, if_neg h1, if_neg h2, if_neg h3]
  decide

end MatrixLibs.Overload
