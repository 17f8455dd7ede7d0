import Verif.Spec.Silent

/-!
# The same call in another floating point environment or in a wider format

Vocabulary of C163.
-/

namespace MatrixLibs

/-- `G` has at least the precision and the range of `F`. -/
structure Fmt.Within (F G : Fmt) : Prop where
  prec : F.p ≤ G.p
  range : F.emax ≤ G.emax

/-- Operations read the results of others unchanged in both environments, and the second flushes no results unless the first
does. -/
structure FpEnv.Carries (e e' : FpEnv) : Prop where
  reads : e.ReadsResults
  reads' : e'.ReadsResults
  flush : e'.ftz = none ∨ e.ftz.isSome = true

/-- Finite matrices from which operations read the same numbers. -/
structure SameNumbers {F G : Fmt} (e e' : FpEnv) {r c : Nat} (A : Mat (Fl F) r c) (A' : Mat (Fl G) r c) : Prop where
  finite : AllFinite A
  finite' : AllFinite A'
  same : e.read A = e'.read A'

/-- If the first call raises no exception then neither does the second, and both return the same numbers or both throw the same
exception. -/
structure CarriesOver {F G : Fmt} {e e' : FpEnv} {r c : Nat} (x : Res (Mat (Silent e F) r c)) (y : Res (Mat (Silent e' G) r c)) :
    Prop where
  returns : ∀ R : Mat (Fl F) r c, x = .ok R → ∃ R' : Mat (Fl G) r c, y = .ok R' ∧ SameNumbers e e' R R'
  stops : ∀ s, (∀ k, s ≠ .ub k) → x = .error s → y = .error s

/-- The same for calls that return a number. -/
structure CarriesNumber {F G : Fmt} {e e' : FpEnv} (x : Res (Silent e F)) (y : Res (Silent e' G)) : Prop where
  returns : ∀ d : Fl F, x = .ok d → ∃ d' : Fl G, y = .ok d' ∧ d.Finite ∧ d'.Finite ∧ e.val d = e'.val d'
  stops : ∀ s, (∀ k, s ≠ .ub k) → x = .error s → y = .error s

end MatrixLibs
