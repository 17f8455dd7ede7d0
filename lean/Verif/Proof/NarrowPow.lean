import Verif.Model.Narrow
import Verif.Proof.Elementwise
import Verif.Proof.Pow

/-!
# Powers of promoted elements: the steps of the recursion
-/

namespace MatrixLibs

set_option linter.unusedSectionVars false

open Promo (load store)
open CScalar (ofInt)

namespace Promoted

variable {T P : Type} [Inhabited T] [CScalar P] [Promo T P] {n : Nat}

/-- The halving step. -/
def powStep (handled : Option Exc) (w d : Nat) (A : Mat T n n) (p : Nat) : Res (Mat T n n) := do
  let powA ← powFuel handled w d A ((p / 2 : Nat) : Int)
  if p % 2 = 0 then mult powA powA
  else mult (← mult powA powA) A

theorem ones_fill : (ones n n : Res (Mat T n n)) = .ok (Mat.const (lit 1)) := by
  unfold ones
  rw [if_pos rfl, fill_ok]

theorem halving (handled : Option Exc) (w d : Nat) (A : Mat T n n) (p : Nat) :
    (do
      let _ ← ones (T := T) n n
      let powA ← powFuel handled w d A ((p : Int).tdiv 2)
      if (p : Int).tmod 2 = 0 then mult powA powA
      else mult (← mult powA powA) A) = powStep handled w d A p := by
  rw [ones_fill, ok_bind]
  have h1 : (p : Int).tdiv 2 = ((p / 2 : Nat) : Int) := by
    rw [Int.tdiv_eq_ediv_of_nonneg (by omega)]; rfl
  have h2 : (p : Int).tmod 2 = ((p % 2 : Nat) : Int) := by
    rw [Int.tmod_eq_emod_of_nonneg (by omega)]; rfl
  have h3 : ((p % 2 : Nat) : Int) = 0 ↔ p % 2 = 0 := by omega
  rw [h1, h2]
  unfold powStep
  simp only [h3]

theorem powFuel_step (handled : Option Exc) (w d : Nat) (A : Mat T n n) (p : Nat) (hp : 2 ≤ p) :
    powFuel handled w (d + 1) A (p : Int) = powStep handled w d A p := by
  rw [powFuel, if_neg (by omega), if_neg (by omega), if_neg (by omega)]
  exact halving handled w d A p

theorem powFuel_neg (handled : Option Exc) (w d : Nat) (A : Mat T n n) (p : Int) (hp : p < 0)
    (hmin : p ≠ expMin w) :
    powFuel handled w (d + 1) A p = (do
      let B ← invN handled A
      powStep handled w d B p.natAbs) := by
  rw [powFuel, if_neg (by omega), if_neg (by omega), if_pos hp]
  congr 1
  funext B
  rw [if_neg hmin]
  have h := halving handled w d B p.natAbs
  rw [← Int.abs_eq_natAbs] at h
  exact h

theorem powFuel_min (handled : Option Exc) (w d : Nat) (A : Mat T n n) :
    powFuel handled w (d + 1) A (expMin w) = (do
      let _ ← invN handled A
      .error (.ub .signedOverflow)) := by
  have hneg : expMin w < 0 := by
    unfold expMin
    have : (0 : Int) < 2 ^ (w - 1) := by positivity
    omega
  rw [powFuel, if_neg (by omega), if_neg (by omega), if_pos hneg]
  congr 1
  funext B
  rw [if_pos rfl, error_bind]

/-- `eye()` has 1 on the diagonal and 0 elsewhere. -/
theorem eye1_eq : (eye1 n : Res (Mat T n n)) = .ok (Matrix.of fun a b => if a = b then lit 1 else lit 0) := by
  unfold eye1 eye
  rw [fill_ok, ok_bind]
  apply wp_eq
  refine wp_forUp (fun k M => ∀ a b : Fin n, M a b = if a = b ∧ a.val < k then lit 1 else lit 0) (Nat.zero_le n)
    ?_ ?_ ?_
  · intro a b
    rw [if_neg (by omega)]
    rfl
  · intro k M _ hk hM
    rw [wr_eq hk hk, wp_ok]
    intro a b
    rw [Matrix.of_apply]
    by_cases hab : a.val = k ∧ b.val = k
    · rw [if_pos hab, if_pos ⟨Fin.ext (hab.1.trans hab.2.symm), by omega⟩]
    · rw [if_neg hab, hM]
      by_cases hc : a = b ∧ a.val < k
      · rw [if_pos hc, if_pos ⟨hc.1, by omega⟩]
      · rw [if_neg hc, if_neg]
        rintro ⟨rfl, h2⟩
        have h3 : ¬ a.val < k := fun h => hc ⟨rfl, h⟩
        exact hab ⟨by omega, by omega⟩
  · intro M hM
    ext a b
    rw [hM, Matrix.of_apply]
    by_cases hab : a = b
    · rw [if_pos ⟨hab, a.2⟩, if_pos hab]
    · rw [if_neg (fun h => hab h.1), if_neg hab]

end Promoted

end MatrixLibs
