import Verif.Proof.Include
import Mathlib.Tactic.Tauto

/-!
# C155: including the headers
-/

namespace MatrixLibs

open Incl

variable {lib : StdHdr → List StdName} {on : Bool} {s : List StdHdr} {l : List Hdr} {depth : Nat} {k : Known}

/-- A file that includes headers of the library is accepted exactly if every header finds what it needs (the table
`needs`) among those included before it. -/
theorem C155_ordered (he : Enough lib s) (hd : 5 ≤ depth) : (∃ k, compile lib depth (unit on s l) = .ok k) ↔ Ordered l := by
  obtain ⟨h1, h2⟩ := unit_spec (lib := lib) (on := on) (l := l) he hd
  refine ⟨fun ⟨k, hk⟩ => ?_, fun ho => (h1 ho).imp fun _ h => h.1⟩
  by_cases ho : Ordered l
  · exact ho
  · obtain ⟨e, h, -⟩ := h2 ho
    rw [hk] at h; cases h

/-- No order and no repetition of includes defines anything twice or nests too deep: what is wrong with a file that is
rejected is an undeclared name. -/
theorem C155_guards (he : Enough lib s) (hd : 5 ≤ depth) {e : Err} (h : compile lib depth (unit on s l) = .error e) :
    ∃ n, e = .undeclared n := by
  obtain ⟨h1, h2⟩ := unit_spec (lib := lib) (on := on) (l := l) he hd
  by_cases ho : Ordered l
  · obtain ⟨k, hk, -⟩ := h1 ho
    rw [hk] at h; cases h
  · obtain ⟨e', h', q⟩ := h2 ho
    rw [h'] at h; cases h; exact q

theorem rep_of (he : Enough lib s) (hd : 5 ≤ depth) (h : compile lib depth (unit on s l) = .ok k) :
    Rep lib (on = true) k (l.foldl (step (on = true)) none) := by
  obtain ⟨k', h', r⟩ := (unit_spec (lib := lib) (on := on) (l := l) he hd).1 ((C155_ordered he hd).1 ⟨k, h⟩)
  rw [h] at h'; cases h'; exact r

/-- A function is declared exactly if one of the headers brings the header that defines it. -/
theorem C155_declared (he : Enough lib s) (hd : 5 ≤ depth) (h : compile lib depth (unit on s l) = .ok k) (n : Name) :
    n ∈ k.declared ↔ Has l (home n) := by
  rw [(rep_of he hd h).decl, fold_C]

/-- A function that is declared can be called; but `var` and `stddev` only if `matrix_mean.hpp` was read before
`matrix_var.hpp`, and `pow` only if `matrix_mult.hpp` was read before `matrix_pow.hpp`. -/
theorem C155_callable (he : Enough lib s) (hd : 5 ≤ depth) (h : compile lib depth (unit on s l) = .ok k) (n : Name) :
    n ∈ k.callable ↔ Has l (home n) ∧ (n = .var ∨ n = .stddev → Before .mean .var l) ∧ (n = .pow → Before .mult .pow l) := by
  have r := rep_of he hd h
  rw [r.call, Works, fold_C]
  refine and_congr_right fun hn => and_congr ⟨fun q e => ?_, fun q e => ?_⟩ ⟨fun q e => ?_, fun q e => ?_⟩
  · refine (fold_v ?_).1 (q e)
    rcases e with rfl | rfl
    · exact hn
    · exact (fold_C _).1 ((r.good _ ((fold_C _).2 hn)).1 _ (by decide))
  · refine (fold_v ?_).2 (q e)
    rcases e with rfl | rfl
    · exact hn
    · exact (fold_C _).1 ((r.good _ ((fold_C _).2 hn)).1 _ (by decide))
  · subst e; exact (fold_p hn).1 (q rfl)
  · subst e; exact (fold_p hn).2 (q rfl)

/-- `print` writes to `std::cout` exactly if the user has defined `PRINT_IOSTREAM_ENABLE` or `matrix.hpp` is included
before `matrix_print.hpp`; no other function of the library does. -/
theorem C155_print (he : Enough lib s) (hd : 5 ≤ depth) (h : compile lib depth (unit on s l) = .ok k) (n : Name) :
    n ∈ k.sending ↔ home n = .print ∧ Has l .print ∧ (on = true ∨ Before .all .print l) := by
  rw [(rep_of he hd h).send, fold_C]
  exact and_congr_right fun _ => and_congr_right fun hp => fold_s hp

theorem brings_of_all (x : Hdr) : x ∈ brings .all := by cases x <;> decide

/-- A file that includes `matrix.hpp` first, and then any headers any number of times, is accepted; every function is
declared and can be called, and `print` prints. -/
theorem C155_matrix_hpp (he : Enough lib s) (hd : 5 ≤ depth) (l : List Hdr) :
    ∃ k, compile lib depth (unit on s (.all :: l)) = .ok k ∧ (∀ n, n ∈ k.declared ∧ n ∈ k.callable) ∧ .print ∈ k.sending := by
  have has : ∀ l x, Has (.all :: l) x := fun l x => ⟨.all, List.mem_cons_self, brings_of_all x⟩
  have ho : Ordered (.all :: l) := by
    intro l₁ h l₂ e x hx
    rcases List.cons_eq_append_iff.1 e with ⟨rfl, e'⟩ | ⟨l', rfl, e'⟩
    · rw [List.cons.injEq] at e'
      obtain ⟨rfl, rfl⟩ := e'
      cases hx
    · exact has l' x
  have before : ∀ x y, Before y x (.all :: l) := fun x y =>
    ⟨[], .all, l, rfl, fun ⟨_, h, _⟩ => absurd h List.not_mem_nil, brings_of_all x, .inl rfl⟩
  obtain ⟨k, hk⟩ := (C155_ordered (on := on) he hd).2 ho
  exact ⟨k, hk, fun n => ⟨(C155_declared he hd hk n).2 (has l _),
    (C155_callable he hd hk n).2 ⟨has l _, fun _ => before _ _, fun _ => before _ _⟩⟩,
    (C155_print he hd hk _).2 ⟨rfl, has l _, .inr (before _ _)⟩⟩

/-- Including a header again changes nothing. -/
theorem C155_again (he : Enough lib s) (hd : 5 ≤ depth) {h : Hdr} (hl : h ∈ l) :
    compile lib depth (unit on s (l ++ [h])) = compile lib depth (unit on s l) := by
  have split : unit on s (l ++ [h]) = unit on s l ++ [.inc h] := by simp [unit]
  rw [compile, split, fold_append]
  cases hc : compile lib depth (unit on s l) with
  | error e =>
    rw [compile] at hc
    rw [hc]; rfl
  | ok k =>
    have r := rep_of he hd hc
    rw [compile] at hc
    rw [hc]
    show openHdr lib depth k h >>= pure = .ok k
    obtain ⟨d, rfl⟩ : ∃ d, depth = d + 1 := ⟨depth - 1, by omega⟩
    have : guard h ∈ k.macros := (r.mac h).2 ((step_G _ _ _).2 (.inr ⟨h, hl, self_brings h⟩))
    rw [openHdr, if_pos this]; rfl

/-- The headers that can be included alone. -/
theorem C155_alone (he : Enough lib s) (hd : 5 ≤ depth) (h : Hdr) : (∃ k, compile lib depth (unit on s [h]) = .ok k) ↔
    h ∉ [.cholesky, .concatenate, .det, .eye, .fill, .lu, .mult, .ones, .pow, .swap, .utils, .zeros] := by
  have : Ordered [h] ↔ needs h = [] := by
    constructor
    · intro ho
      refine List.eq_nil_iff_forall_not_mem.2 fun x hx => ?_
      obtain ⟨j, hj, -⟩ := ho [] h [] rfl x hx
      exact absurd hj List.not_mem_nil
    · intro hn l₁ h' l₂ e x hx
      rcases List.cons_eq_append_iff.1 e with ⟨rfl, e'⟩ | ⟨l', rfl, e'⟩
      · rw [List.cons.injEq] at e'
        obtain ⟨rfl, rfl⟩ := e'
        rw [hn] at hx; cases hx
      · simp at e'
  rw [C155_ordered he hd, this]
  cases h <;> decide

/-- `var` and `stddev` cannot be called in a file that includes `matrix_var.hpp` or `matrix_stddev.hpp` first, whatever it
includes after. -/
theorem C155_var_first (he : Enough lib s) (hd : 5 ≤ depth) {h : Hdr} (hh : h = .var ∨ h = .stddev)
    (hk : compile lib depth (unit on s (h :: l)) = .ok k) : .var ∉ k.callable ∧ .stddev ∉ k.callable := by
  have no : ¬ Before .mean .var (h :: l) := by
    rintro ⟨l₁, i, l₂, e, h1, h2, h3⟩
    rcases List.cons_eq_append_iff.1 e with ⟨rfl, e'⟩ | ⟨l', rfl, e'⟩
    · rw [List.cons.injEq] at e'
      rcases h3 with h3 | ⟨j, hj, -⟩
      · rcases hh with rfl | rfl <;> cases e'.1.symm.trans h3
      · cases hj
    · exact h1 ⟨h, List.mem_cons_self, by rcases hh with rfl | rfl <;> decide⟩
  exact ⟨fun q => no (((C155_callable he hd hk _).1 q).2.1 (.inl rfl)),
    fun q => no (((C155_callable he hd hk _).1 q).2.1 (.inr rfl))⟩

/-- `print` prints nothing in a file that includes `matrix_print.hpp` first and does not define `PRINT_IOSTREAM_ENABLE`. -/
theorem C155_print_first (he : Enough lib s) (hd : 5 ≤ depth) (hk : compile lib depth (unit false s (.print :: l)) = .ok k) :
    .print ∉ k.sending := by
  intro q
  rcases ((C155_print he hd hk _).1 q).2.2 with h | ⟨l₁, i, l₂, e, h1, h2, h3⟩
  · cases h
  · rcases List.cons_eq_append_iff.1 e with ⟨rfl, e'⟩ | ⟨l', rfl, e'⟩
    · rw [List.cons.injEq] at e'
      rcases h3 with h3 | ⟨j, hj, -⟩
      · cases e'.1.symm.trans h3
      · cases hj
    · exact h1 ⟨.print, List.mem_cons_self, by decide⟩

/-- What the C++11 standard requires of its headers is not enough: the library uses `std::vector`, `std::overflow_error`,
`::floor` and `::sqrt` without including their headers, and an implementation that declares no more than it must rejects
every file that includes `matrix.hpp` alone. -/
theorem C155_required (depth : Nat) (on : Bool) : ∃ e, compile required (depth + 5) (unit on [] [.all]) = .error e := by
  cases on <;> exact ⟨.undeclared .inv2, rfl⟩

/-- It is enough if the user includes `<vector>`, `<stdexcept>` and `<math.h>` before. -/
theorem C155_required_enough (hlib : ∀ x, ∀ n ∈ required x, n ∈ lib x) (hs : .vector ∈ s ∧ .stdexcept ∈ s ∧ .mathH ∈ s) :
    Enough lib s := by
  refine ⟨fun n hn => ?_, hlib _ _ (by decide)⟩
  cases n with
  | array => exact ⟨.array, by simp, hlib _ _ (by decide)⟩
  | pair => exact ⟨.utility, by simp, hlib _ _ (by decide)⟩
  | make_pair => exact ⟨.utility, by simp, hlib _ _ (by decide)⟩
  | swap => exact ⟨.utility, by simp, hlib _ _ (by decide)⟩
  | abs => exact ⟨.cmath, by simp, hlib _ _ (by decide)⟩
  | sort => exact ⟨.algorithm, by simp, hlib _ _ (by decide)⟩
  | map => exact ⟨.map, by simp, hlib _ _ (by decide)⟩
  | cout => exact absurd rfl hn
  | vector => exact ⟨.vector, by simp [hs.1], hlib _ _ (by decide)⟩
  | overflow_error => exact ⟨.stdexcept, by simp [hs.2.1], hlib _ _ (by decide)⟩
  | floor => exact ⟨.mathH, by simp [hs.2.2], hlib _ _ (by decide)⟩
  | sqrt => exact ⟨.mathH, by simp [hs.2.2], hlib _ _ (by decide)⟩

/-! ### Examples -/

/-- The hypotheses are met, e.g. when the user includes the three headers. -/
example : Enough required [.vector, .stdexcept, .mathH] := C155_required_enough (fun _ _ h => h) (by decide)

/-- The tests' files: `matrix.hpp` alone. -/
example : ∃ k, compile required 256 (unit false [.vector, .stdexcept, .mathH] [.all]) = .ok k ∧ .var ∈ k.callable ∧
    .print ∈ k.sending := ⟨_, rfl, by decide +kernel⟩

/-- `matrix_stddev.hpp` before `matrix.hpp`: accepted, but `stddev` cannot be called. -/
example : ∃ k, compile required 256 (unit false [.vector, .stdexcept, .mathH] [.stddev, .all]) = .ok k ∧
    .stddev ∈ k.declared ∧ .stddev ∉ k.callable := ⟨_, rfl, by decide +kernel⟩

/-- `matrix_print.hpp` before `matrix.hpp`: `print` can be called and does nothing. -/
example : ∃ k, compile required 256 (unit false [.vector, .stdexcept, .mathH] [.print, .all]) = .ok k ∧
    .print ∈ k.callable ∧ .print ∉ k.sending := ⟨_, rfl, by decide +kernel⟩

/-- The headers that `pow` needs, without `matrix_mult.hpp`. -/
example : ∃ k, compile required 256 (unit false [.vector, .stdexcept, .mathH] [.type, .eye, .ones, .pow, .all]) = .ok k ∧
    .pow ∈ k.declared ∧ .pow ∉ k.callable := ⟨_, rfl, by decide +kernel⟩

end MatrixLibs
