import Verif.Props.BoolArith
import Verif.Props.NarrowStats
import Verif.Props.NarrowHist
import Verif.Props.PrintNum

/-!
# Property C120: statistics, comparison and printing of `bool` matrices
-/

namespace MatrixLibs

set_option linter.unusedSectionVars false

open Promo (load store sqrtTo)
open CScalar (ofInt)

variable {i j : Nat}

theorem mul_one_sides {m n : Nat} (h : m * n = 1) : m = 1 ∧ n = 1 :=
  ⟨Nat.dvd_one.mp ⟨n, h.symm⟩, Nat.dvd_one.mp ⟨m, by rw [Nat.mul_comm]; exact h.symm⟩⟩

theorem bool_divSize (r : Bool) (n : Nat) (hn : n ≠ 0) :
    (do .ok (store (← CScalar.divSize (load r : SInt 32) n)) : Res Bool) = .ok (r && decide (n = 1)) := by
  have h1 : (CScalar.divSize (load r : SInt 32) n : Res (SInt 32)) =
      .ok (SInt.wrap ((load r : SInt 32).val % (sizeMod : Int) / (n : ℤ))) := if_neg hn
  rw [h1, ok_bind]
  congr 1
  show decide (Int.bmod ((load r : SInt 32).val % (sizeMod : Int) / (n : ℤ)) (2 ^ 32) ≠ 0) = _
  rw [bool_load]
  have hM : (sizeMod : ℤ) = 2 ^ 64 := by unfold sizeMod; norm_num
  cases r with
  | false => simp
  | true =>
    rw [hM, if_pos rfl, show (1 : ℤ) % 2 ^ 64 = 1 by norm_num]
    rcases (show n = 1 ∨ 2 ≤ n by omega) with rfl | h
    · decide +kernel
    · rw [Int.ediv_eq_zero_of_lt (by norm_num) (by omega)]
      have : ¬ n = 1 := by omega
      simp [this]

theorem bool_any (l : List Bool) (r : Bool) :
    l.foldl (fun s x => s || x) r = (r || decide (true ∈ l)) := by
  induction l generalizing r with
  | nil => simp
  | cons x l ih =>
    rw [List.foldl_cons, ih]
    cases r <;> cases x <;> simp

theorem bool_mean_value (A : Mat Bool i j) (h : i * j ≠ 0) :
    Promoted.mean A = .ok (decide (true ∈ rowMajor A) && decide (i * j = 1)) := by
  have e : Promoted.mean A = (do
      let s ← (rowMajor A).foldlM (fun (s x : Bool) =>
        do .ok (store (← CScalar.add (load s : SInt 32) (load x)))) (Promoted.lit 0)
      .ok (store (← CScalar.divSize (load s : SInt 32) (i * j)))) := by
    rw [← forElems]
    rfl
  rw [e, foldlM_ok _ _ _ (fun s x => s || x) (fun s x => bool_add s x), ok_bind, bool_any, bool_divSize _ _ h,
    bool_lit_zero, Bool.false_or]

/-- C120: `mean` of more than one element is false, whatever the elements are; of one element it is that element; of none
it divides by zero. -/
theorem C120_mean (A : Mat Bool i j) :
    (2 ≤ i * j → Promoted.mean A = .ok false) ∧
    (i * j = 1 → ∀ a b, Promoted.mean A = .ok (A a b)) ∧
    (i * j = 0 → Promoted.mean A = .error (.ub .divisionByZero)) := by
  refine ⟨fun h => ?_, fun h a b => ?_, fun h => ?_⟩
  · rw [bool_mean_value A (by omega), decide_eq_false (show ¬ i * j = 1 by omega), Bool.and_false]
  · rw [bool_mean_value A (by omega), decide_eq_true h, Bool.and_true]
    obtain ⟨rfl, rfl⟩ : i = 1 ∧ j = 1 := mul_one_sides h
    congr 1
    rw [Bool.eq_iff_iff, decide_eq_true_iff, mem_rowMajor]
    constructor
    · rintro ⟨x, y, hxy⟩
      rwa [Subsingleton.elim a x, Subsingleton.elim b y]
    · exact fun h => ⟨a, b, h⟩
  · have e : Promoted.mean A = (do
        let s ← (rowMajor A).foldlM (fun (s x : Bool) =>
          do .ok (store (← CScalar.add (load s : SInt 32) (load x)))) (Promoted.lit 0)
        .ok (store (← CScalar.divSize (load s : SInt 32) (i * j)))) := by
      rw [← forElems]
      rfl
    rw [e, foldlM_ok _ _ _ (fun s x => s || x) (fun s x => bool_add s x), ok_bind, h]
    rfl

theorem bool_var_fold (A : Mat Bool i j) : Promoted.var A = (do
    let m ← Promoted.mean A
    let s ← (rowMajor A).foldlM (fun (s x : Bool) => do
      let d ← CScalar.sub (load x : SInt 32) (load m)
      let e ← CScalar.sub (load x : SInt 32) (load m)
      .ok (store (← CScalar.add (load s : SInt 32) (← CScalar.mul d e)))) (Promoted.lit 0)
    .ok (store (← CScalar.divSize (load s : SInt 32) (i * j)))) := by
  unfold Promoted.var
  congr 1
  funext m
  rw [← forElems]
  congr 1
  refine forUp_congr (fun it S _ _ => forUp_congr (fun jt S _ _ => ?_))
  cases rd A it jt with
  | error e => rfl
  | ok x => rfl

/-- C120: `var` and `stddev` are false for every non-empty matrix. -/
theorem C120_var_stddev (A : Mat Bool i j) (h : i * j ≠ 0) :
    Promoted.var A = .ok false ∧ Promoted.stddev A = .ok false := by
  have hstep : ∀ m s x : Bool, (do
      let d ← CScalar.sub (load x : SInt 32) (load m)
      let e ← CScalar.sub (load x : SInt 32) (load m)
      .ok (store (← CScalar.add (load s : SInt 32) (← CScalar.mul d e))) : Res Bool) = .ok (s || (x ^^ m)) := by
    decide +kernel
  have hvar : Promoted.var A = .ok false := by
    rw [bool_var_fold]
    rcases (show i * j = 1 ∨ 2 ≤ i * j by omega) with h1 | h2
    · obtain ⟨rfl, rfl⟩ : i = 1 ∧ j = 1 := mul_one_sides h1
      rw [(C120_mean A).2.1 rfl 0 0, ok_bind,
        foldlM_ok _ _ _ (fun s x => s || (x ^^ A 0 0)) (fun s x => hstep _ s x), ok_bind, bool_divSize _ _ h]
      have : rowMajor A = [A 0 0] := by
        unfold rowMajor
        rfl
      rw [this, bool_lit_zero]
      congr 1
      cases A 0 0 <;> rfl
    · rw [(C120_mean A).1 h2, ok_bind,
        foldlM_ok _ _ _ (fun s x => s || (x ^^ false)) (fun s x => hstep _ s x), ok_bind, bool_divSize _ _ h,
        decide_eq_false (show ¬ i * j = 1 by omega), Bool.and_false]
  refine ⟨hvar, ?_⟩
  unfold Promoted.stddev
  rw [hvar, ok_bind]
  decide +kernel

/-! ## Median -/

theorem bool_kth (A : Mat Bool i j) (k : Nat) (x : Bool) (hx : IsKth A k x) :
    x = true ↔ numElems A (· = false) ≤ k := by
  obtain ⟨-, h1, h2⟩ := hx
  have e1 : numElems A (· < true) = numElems A (· = false) := by
    unfold numElems
    congr 2
    funext q
    cases A q.1 q.2 <;> simp
  have e2 : numElems A (· ≤ false) = numElems A (· = false) := by
    unfold numElems
    congr 2
    funext q
    cases A q.1 q.2 <;> simp
  cases x with
  | true =>
    rw [e1] at h1
    simpa using h1
  | false =>
    rw [e2] at h2
    simp only [Bool.false_eq_true, false_iff]
    omega

/-- C120: `median` is the strict majority: true exactly if more than half of the elements are true. -/
theorem C120_median (sort : List Bool → List Bool) (hsort : Sorts sort) (A : Mat Bool i j) (h0 : i * j ≠ 0)
    (hij : i * j < 2 ^ 64) :
    Promoted.median sort A = .ok (decide (i * j < 2 * numElems A (· = true))) := by
  obtain ⟨hp, hs⟩ := hsort (rowMajor A)
  have hl : (sort (rowMajor A)).length = i * j := by rw [hp.length_eq, rowMajor_length]
  have hk : i * j / 2 < (sort (rowMajor A)).length := by rw [hl]; omega
  have hk' : i * j / 2 - 1 < (sort (rowMajor A)).length := by rw [hl]; omega
  have hcount : numElems A (· = true) + numElems A (· = false) = i * j := by
    rw [← numElems_compl A (· = true)]
    congr 1
    unfold numElems
    congr 2
    funext q
    simp
  have hx := bool_kth A _ _ (sorted_isKth A _ hp hs _ hk')
  have hy := bool_kth A _ _ (sorted_isKth A _ hp hs _ hk)
  have e : ∀ k (hk : k < (sort (rowMajor A)).length), vecRd (sort (rowMajor A)) k =
      .ok (sort (rowMajor A))[k] := fun k hk => by
    unfold vecRd
    rw [List.getElem?_eq_getElem hk]
  unfold Promoted.median
  rw [median_elems, ok_bind]
  by_cases hm : i * j % 2 = 0
  · have hsz : szSub (i * j / 2) 1 = i * j / 2 - 1 := by
      unfold szSub sizeMod
      omega
    simp only [if_pos hm, hsz, e _ hk, e _ hk', ok_bind]
    generalize (sort (rowMajor A))[i * j / 2 - 1] = x at *
    generalize (sort (rowMajor A))[i * j / 2] = y at *
    have hhalf : ∀ x y : Bool, (do .ok (store (← CScalar.div (← CScalar.add (load y : SInt 32) (load x)) (ofInt 2))) :
        Res Bool) = .ok (y && x) := by decide +kernel
    refine (hhalf x y).trans (congrArg Except.ok ?_)
    rw [Bool.eq_iff_iff, Bool.and_eq_true, hx, hy, decide_eq_true_iff]
    omega
  · simp only [if_neg hm, e _ hk]
    congr 1
    rw [Bool.eq_iff_iff, hy, decide_eq_true_iff]
    omega

/-! ## Histograms -/

theorem bool_lt (a b : Bool) : (Promoted.keyScalar Bool).lt a b = true ↔ a < b := by
  cases a <;> cases b <;> decide +kernel

/-- C120: `histogram` maps each value that occurs to its number of occurrences, `false` before `true`. -/
theorem C120_histogram (A : Mat Bool i j) (hij : i * j < 2 ^ 64) :
    ∃ h, Promoted.histogram A = .ok h ∧ h.Pairwise (fun p q => p.1 < q.1) ∧
      ∀ x n, (x, n) ∈ h ↔ n = numElems A (· = x) ∧ ∃ a b, A a b = x := by
  let _ := Promoted.keyScalar Bool
  have : OrderedScalar Bool := ⟨bool_lt⟩
  obtain ⟨h, h1, h2, h3⟩ := C52_histogram A hij
  refine ⟨h, h1, h2, fun x n => (h3 x n).trans ?_⟩
  unfold numElems
  constructor <;> rintro ⟨rfl, h⟩ <;> exact ⟨by congr, h⟩

/-- C120: `cumulative_histogram` has the same keys; `true` is mapped to the number of elements, `false` to the number of
false ones. -/
theorem C120_cumulative (A : Mat Bool i j) (hij : i * j < 2 ^ 64) :
    ∃ h c, Promoted.histogram A = .ok h ∧ Promoted.cumulative_histogram A = .ok c ∧
      c.map Prod.fst = h.map Prod.fst ∧ (∀ n, (true, n) ∈ c → n = i * j) ∧
      (∀ n, (false, n) ∈ c → n = numElems A (· = false)) := by
  let _ := Promoted.keyScalar Bool
  have : OrderedScalar Bool := ⟨bool_lt⟩
  obtain ⟨h, c, h1, h2, h3, h4⟩ := C53_cumulative A hij
  refine ⟨h, c, h1, h2, h3, fun n hn => ?_, fun n hn => ?_⟩
  · rw [h4 _ _ hn, numElems]
    have : (Finset.univ.filter fun q : Fin i × Fin j => A q.1 q.2 ≤ true) = Finset.univ := by
      apply Finset.filter_true_of_mem
      intro q _
      exact Bool.le_true _
    rw [this]
    simp
  · rw [h4 _ _ hn]
    unfold numElems
    congr 2
    funext q
    cases A q.1 q.2 <;> simp

/-! ## Comparison -/

theorem bool_compare_scan (A B : Mat Bool i j) (eps : Fl binary32) :
    ∃ b, Promoted.compareBool A B eps = .ok b ∧ (b = true ↔
      ∀ a c, eps.lt (Fl.ofInt (if A a c = B a c then 0 else 1)) = false) := by
  have hstep : ∀ (a : Fin i) (b : Fin j), (do
      let d ← CScalar.abs (← CScalar.sub (load (← rd A a.val b.val) : SInt 32) (load (← rd B a.val b.val)))
      if eps.lt (Fl.ofInt d.val) then .ok (.ret false)
      else .ok (.cont ()) : Res (Ctl Unit Bool)) =
      if eps.lt (Fl.ofInt (if A a b = B a b then 0 else 1)) then .ok (.ret false)
      else .ok (.cont ()) := by
    intro a b
    rw [rd_fin, ok_bind, rd_fin, ok_bind]
    cases A a b <;> cases B a b <;> rfl
  unfold Promoted.compareBool Promoted.compareLoop
  refine scan_ok (fun it jt => do
      let d ← CScalar.abs (← CScalar.sub (load (← rd A it jt) : SInt 32) (load (← rd B it jt)))
      if eps.lt (Fl.ofInt d.val) then .ok (.ret false)
      else .ok (.cont ()))
    (fun a c => eps.lt (Fl.ofInt (if A a c = B a c then 0 else 1)) = false) ?_ ?_
  · intro a b h
    rw [hstep, h]
    rfl
  · intro a b h
    rw [hstep, (Bool.not_eq_false _).mp h]
    rfl

/-- C120: `compare` with a tolerance from 0 to below 1 is equality; with a tolerance of at least 1 (or NaN) it is always
true. -/
theorem C120_compare (A B : Mat Bool i j) (eps : Fl binary32) :
    (eps.Finite → 0 ≤ eps.val → eps.val < 1 → Promoted.compareBool A B eps = .ok (decide (A = B))) ∧
    ((eps.Finite ∧ 1 ≤ eps.val ∨ eps = .nan) → Promoted.compareBool A B eps = .ok true) := by
  obtain ⟨f0, v0⟩ := Fl.val_ofInt_exact (F := binary32) 0 (by decide)
  obtain ⟨f1, v1⟩ := Fl.val_ofInt_exact (F := binary32) 1 (by decide)
  obtain ⟨b, hb, hiff⟩ := bool_compare_scan A B eps
  refine ⟨fun he h0 h1 => ?_, fun h => ?_⟩
  · rw [hb]
    congr 1
    rw [Bool.eq_iff_iff, hiff, decide_eq_true_iff]
    constructor
    · intro h
      ext a c
      by_contra hne
      have := h a c
      rw [if_neg hne, ← Bool.not_eq_true, Fl.lt_iff he f1, v1] at this
      exact this (by rw [Int.cast_one]; exact h1)
    · rintro rfl a c
      rw [if_pos rfl, ← Bool.not_eq_true, Fl.lt_iff he f0, v0]
      simpa using h0
  · rw [hb]
    congr 1
    rw [hiff]
    intro a c
    rcases h with ⟨he, h1⟩ | rfl
    · split
      · rw [← Bool.not_eq_true, Fl.lt_iff he f0, v0]
        simp only [Int.cast_zero, not_lt]
        linarith
      · rw [← Bool.not_eq_true, Fl.lt_iff he f1, v1]
        simpa using h1
    · rfl

/-! ## Printing -/

/-- C120: `print` writes `1` for true and `0` for false, and the elements can be read back. -/
theorem C120_print (A : Mat Bool i j) :
    ∃ s, print fmtBool [] A = .ok s ∧ words s = (elements A).map (fun b => if b then ['1'] else ['0']) := by
  have h : fmtBool = fun b => if b then ['1'] else ['0'] := by
    funext b
    cases b <;> decide
  rw [h]
  refine C112_print_words _ (fun x => ?_) (fun x c hc => ?_) A
  · cases x <;> simp
  · cases x <;> simp at hc <;> rw [hc] <;> rfl

example : Promoted.median (fun l => l.insertionSort (· ≤ ·)) !![true, false; true, true] = .ok true ∧
    Promoted.median (fun l => l.insertionSort (· ≤ ·)) !![true, false; false, true] = .ok false ∧
    Promoted.mean !![true, true; true, true] = .ok false := by decide +kernel

end MatrixLibs
