import Verif.Proof.Format
import Verif.Proof.FloatOps
import Verif.Props.Print
import Verif.Proof.Arith

/-!
# Properties C112 to C114: printed numbers

What `print` writes for integers, characters and floating point numbers, and what a reader gets back.
-/

namespace MatrixLibs

set_option linter.unusedSectionVars false

theorem elements_map {T U : Type} {i j : Nat} (f : T → U) (A : Mat T i j) :
    (elements A).map f = elements (A.map f) := by
  unfold elements
  rw [List.map_flatten, List.map_ofFn]
  congr 2
  funext a
  rw [Function.comp_apply, List.map_ofFn]
  rfl

theorem elements_inj {T : Type} {i j : Nat} {A B : Mat T i j} (h : elements A = elements B) : A = B := by
  unfold elements at h
  have key : ∀ (as : List (Fin i)), (as.map fun a => List.ofFn fun b => A a b).flatten
      = (as.map fun a => List.ofFn fun b => B a b).flatten → ∀ a ∈ as, ∀ b, A a b = B a b := by
    intro as
    induction as with
    | nil => intro _ a ha; cases ha
    | cons a0 as ih =>
      intro h
      rw [List.map_cons, List.map_cons, List.flatten_cons, List.flatten_cons] at h
      obtain ⟨h1, h2⟩ := List.append_inj h (by simp)
      intro a ha b
      rcases List.mem_cons.mp ha with rfl | ha
      · exact congrFun (List.ofFn_injective h1) b
      · exact ih h2 a ha b
  rw [List.ofFn_eq_map, List.ofFn_eq_map] at h
  ext a b
  exact key _ h a (List.mem_finRange a) b

/-- C112: if numbers are written as single words, the words of the output are the written elements, row by row. -/
theorem C112_print_words {T : Type} {i j : Nat} (fmt : T → List Char) (hne : ∀ x, fmt x ≠ [])
    (hsep : ∀ x, ∀ c ∈ fmt x, isSep c = false) (A : Mat T i j) :
    ∃ s, print fmt [] A = .ok s ∧ words s = (elements A).map fmt :=
  ⟨_, C59_print fmt [] A, by
    rw [List.nil_append, words_render fmt hne hsep, elements_map]
    rfl⟩

/-! ## Integers -/

theorem isSep_dig {c : Char} (h : IsDig c) : isSep c = false := by
  have h1 : c ≠ ' ' := h.ne (by decide)
  have h2 : c ≠ '\n' := h.ne (by decide)
  simp [isSep, h1, h2]

theorem fmtInt_ne_nil (z : Int) : fmtInt z ≠ [] := by
  unfold fmtInt
  split
  · exact List.cons_ne_nil _ _
  · exact natChars_ne_nil _

theorem fmtInt_mem (z : Int) : ∀ c ∈ fmtInt z, c = '-' ∨ IsDig c := by
  intro c hc
  unfold fmtInt at hc
  split at hc
  · rcases List.mem_cons.mp hc with h | h
    · exact Or.inl h
    · exact Or.inr (natChars_isDig _ c h)
  · exact Or.inr (natChars_isDig _ c hc)

theorem fmtInt_sep (z : Int) : ∀ c ∈ fmtInt z, isSep c = false := by
  intro c hc
  rcases fmtInt_mem z c hc with rfl | h
  · decide
  · exact isSep_dig h

/-- C112: a written integer, read as a decimal integer, is that integer. -/
theorem C112_read_int (z : Int) : readInt (fmtInt z) = z := by
  unfold fmtInt
  split
  · rw [readInt, readNat_natChars]
    omega
  · obtain ⟨c, s, h⟩ := List.exists_cons_of_ne_nil (natChars_ne_nil z.natAbs)
    have hc : IsDig c := natChars_isDig z.natAbs c (by rw [h]; exact List.mem_cons_self)
    have h1 : c ≠ '-' := hc.ne (by decide)
    have h2 : c ≠ '+' := hc.ne (by decide)
    have h3 : readInt (natChars z.natAbs) = readNat (natChars z.natAbs) := by
      rw [h]
      unfold readInt
      split
      · rename_i h'
        exact absurd (List.cons.inj h').1 h1
      · rename_i h'
        exact absurd (List.cons.inj h').1 h2
      · rfl
    rw [h3, readNat_natChars]
    omega

/-- C112: an integer is written with its digits only: a minus sign if it is negative, and no leading zeros. -/
theorem C112_int_canonical (z : Int) :
    ∃ ds, fmtInt z = (if z < 0 then ['-'] else []) ++ ds ∧ (∀ c ∈ ds, '0' ≤ c ∧ c ≤ '9') ∧
      (z ≠ 0 → ds.head? ≠ some '0') ∧ (z = 0 → ds = ['0']) := by
  refine ⟨natChars z.natAbs, ?_, ?_, ?_, ?_⟩
  · unfold fmtInt
    split <;> rfl
  · intro c hc
    have h := natChars_isDig _ c hc
    exact ⟨h.1, h.2⟩
  · intro hz h
    have hn : z.natAbs ≠ 0 := by omega
    unfold natChars at h
    rw [if_neg hn, List.head?_map, List.head?_reverse, List.getLast?_eq_getLast_of_ne_nil
      (Nat.digits_ne_nil_iff_ne_zero.mpr hn)] at h
    have h1 := Nat.getLast_digit_ne_zero 10 hn
    have h2 : (Nat.digits 10 z.natAbs).getLast (Nat.digits_ne_nil_iff_ne_zero.mpr hn) < 10 :=
      Nat.digits_lt_base (by norm_num) (List.getLast_mem _)
    generalize (Nat.digits 10 z.natAbs).getLast _ = d at h h1 h2
    have h3 := toNat_digitChar h2
    rw [Option.map_some, Option.some.injEq] at h
    rw [h] at h3
    have : ('0' : Char).toNat = 48 := by decide
    omega
  · rintro rfl
    rfl

section
variable {i j i' j' : Nat}

/-- C112: reading the words of a printed matrix of signed integers gives the elements, row by row. -/
theorem C112_print_sint {w : Nat} (A : Mat (SInt w) i j) :
    ∃ s, print fmtSInt [] A = .ok s ∧ (words s).map readInt = elements (fun a b => (A a b).val) := by
  obtain ⟨s, h1, h2⟩ := C112_print_words fmtSInt (fun x => fmtInt_ne_nil x.val)
    (fun x => fmtInt_sep x.val) A
  refine ⟨s, h1, ?_⟩
  rw [h2, elements_map, elements_map]
  exact congrArg elements (Matrix.ext fun a b => C112_read_int _)

/-- C112: reading the words of a printed matrix of unsigned integers gives the elements, row by row. -/
theorem C112_print_unsigned {w : Nat} (A : Mat (BitVec w) i j) :
    ∃ s, print fmtBitVec [] A = .ok s ∧
      (words s).map readInt = elements (fun a b => ((A a b).toNat : Int)) := by
  obtain ⟨s, h1, h2⟩ := C112_print_words (fmtBitVec (w := w)) (fun x => fmtInt_ne_nil x.toNat)
    (fun x => fmtInt_sep x.toNat) A
  refine ⟨s, h1, ?_⟩
  rw [h2, elements_map, elements_map]
  exact congrArg elements (Matrix.ext fun a b => C112_read_int ((A a b).toNat : Int))

/-- C112: reading the words of a printed matrix of `short` or `unsigned short` gives the elements, row by row. -/
theorem C112_print_short {t : Narrow} (ht : t.w ≠ 8) (A : Mat (NInt t) i j) :
    ∃ s, print fmtNInt [] A = .ok s ∧ (words s).map readInt = elements (fun a b => (A a b).val) := by
  have e : (fmtNInt : NInt t → List Char) = fun x => fmtInt x.val := by
    funext x
    unfold fmtNInt
    rw [if_neg ht]
  rw [e]
  obtain ⟨s, h1, h2⟩ := C112_print_words (fun x : NInt t => fmtInt x.val) (fun x => fmtInt_ne_nil x.val)
    (fun x => fmtInt_sep x.val) A
  refine ⟨s, h1, ?_⟩
  rw [h2, elements_map, elements_map]
  exact congrArg elements (Matrix.ext fun a b => C112_read_int _)

/-- C112: the output of a printed matrix of signed integers determines the number of rows, the number of
elements, and for the same shape the matrix. -/
theorem C112_print_sint_injective {w : Nat} (A : Mat (SInt w) i j) :
    (∀ B : Mat (SInt w) i' j', print fmtSInt [] A = print fmtSInt [] B → i = i' ∧ i * j = i' * j') ∧
    (∀ B : Mat (SInt w) i j, print fmtSInt [] A = print fmtSInt [] B → A = B) := by
  have hsp : ∀ x : SInt w, ' ' ∉ fmtSInt x := fun x h => absurd (fmtInt_sep _ _ h) (by decide)
  have hnl : ∀ x : SInt w, '\n' ∉ fmtSInt x := fun x h => absurd (fmtInt_sep _ _ h) (by decide)
  refine ⟨fun B h => C59_print_shape fmtSInt hsp hnl [] A B h, fun B h => ?_⟩
  refine C59_print_injective fmtSInt (fun x y hxy => ?_) hsp [] A B h
  have := congrArg readInt hxy
  unfold fmtSInt at this
  rw [C112_read_int, C112_read_int] at this
  exact SInt.ext_val this

end

/-! ## Characters -/

/-- C113: a matrix of 8-bit integers is printed as characters: every element takes exactly one character (followed
by a space), the one whose code is the element modulo 256, whatever its value. -/
theorem C113_print_bytes {t : Narrow} (ht : t.w = 8) {i j : Nat} (A : Mat (NInt t) i j) :
    ∃ s, print fmtNInt [] A = .ok s ∧ s.length = i * (2 * j + 1) ∧
      ∀ (a : Fin i) (b : Fin j),
        s[a.val * (2 * j + 1) + 2 * b.val]? = some (Char.ofNat ((A a b).val % 256).toNat) := by
  have hf : ∀ x : NInt t, fmtNInt x = [Char.ofNat (x.val % 256).toNat] := by
    intro x
    unfold fmtNInt
    rw [if_pos ht]
  have hrow : ∀ l : List (NInt t), (renderRow fmtNInt l).length = 2 * l.length + 1 ∧
      ∀ k (hk : k < l.length),
        (renderRow fmtNInt l)[2 * k]? = some (Char.ofNat (l[k].val % 256).toNat) := by
    intro l
    induction l with
    | nil => exact ⟨rfl, fun k hk => absurd hk (by simp)⟩
    | cons x l ih =>
      have e : renderRow fmtNInt (x :: l) =
          Char.ofNat (x.val % 256).toNat :: ' ' :: renderRow fmtNInt l := by
        simp [renderRow, hf]
      rw [e]
      refine ⟨by simp only [List.length_cons, ih.1]; omega, fun k hk => ?_⟩
      cases k with
      | zero => rfl
      | succ k =>
        have := ih.2 k (by simpa using hk)
        rw [show 2 * (k + 1) = 2 * k + 1 + 1 by ring, List.getElem?_cons_succ, List.getElem?_cons_succ,
          this]
        rfl
  refine ⟨_, C59_print fmtNInt [] A, ?_, ?_⟩
  · rw [List.nil_append]
    unfold render
    rw [List.length_flatten, List.map_ofFn, List.sum_ofFn]
    refine (Finset.sum_congr rfl fun a _ => (hrow _).1).trans ?_
    simp
  · rw [List.nil_append]
    unfold render
    have key : ∀ {n : Nat} (f : Fin n → List (NInt t)) (_ : ∀ a, (f a).length = j) (a : Fin n) (k : Nat),
        k < 2 * j + 1 →
        ((List.ofFn fun a => renderRow fmtNInt (f a)).flatten)[a.val * (2 * j + 1) + k]? =
          (renderRow fmtNInt (f a))[k]? := by
      intro n
      induction n with
      | zero => intro f _ a; exact a.elim0
      | succ n ih =>
        intro f hlen a k hk
        rw [List.ofFn_succ, List.flatten_cons]
        have h0 := (hrow (f 0)).1
        rw [hlen] at h0
        refine Fin.cases ?_ (fun a => ?_) a
        · rw [Fin.val_zero, Nat.zero_mul, Nat.zero_add, List.getElem?_append_left (by omega)]
        · rw [Fin.val_succ, Nat.succ_mul, List.getElem?_append_right (by omega), h0,
            show a.val * (2 * j + 1) + (2 * j + 1) + k - (2 * j + 1) = a.val * (2 * j + 1) + k by omega]
          exact ih (fun a => f a.succ) (fun a => hlen a.succ) a k hk
    intro a b
    rw [key (fun a => List.ofFn fun b => A a b) (fun a => by simp) a _ (by omega),
      (hrow _).2 b.val (by simp)]
    simp

/-- C113: the output still determines the matrix, given its shape. -/
theorem C113_print_bytes_injective {t : Narrow} (ht : t.w = 8) {i j : Nat} (A B : Mat (NInt t) i j)
    (h : print fmtNInt [] A = print fmtNInt [] B) : A = B := by
  obtain ⟨s, h1, -, h2⟩ := C113_print_bytes ht A
  obtain ⟨s', h3, -, h4⟩ := C113_print_bytes ht B
  rw [h1, h3] at h
  cases h
  ext a b
  have h5 := (h2 a b).symm.trans (h4 a b)
  rw [Option.some.injEq] at h5
  have hv : ∀ z : Int, (Char.ofNat (z % 256).toNat).toNat = (z % 256).toNat := by
    intro z
    have h6 := Int.emod_nonneg z (b := 256) (by norm_num)
    have h7 := Int.emod_lt_of_pos z (b := 256) (by norm_num)
    have h8 : (z % 256).toNat.isValidChar := by left; omega
    unfold Char.ofNat
    rw [dif_pos h8]
    simp [Char.ofNatAux, Char.toNat]
  have h6 := congrArg Char.toNat h5
  rw [hv, hv] at h6
  have ha := (A a b).has
  have hb := (B a b).has
  have h7 := Int.emod_nonneg (A a b).val (b := 256) (by norm_num)
  have h8 := Int.emod_nonneg (B a b).val (b := 256) (by norm_num)
  unfold Narrow.Has Narrow.min Narrow.max at ha hb
  rw [ht] at ha hb
  have : (A a b).val = (B a b).val := by
    by_cases hs : t.signed
    · rw [if_pos hs, if_pos hs] at ha hb
      norm_num at ha hb
      omega
    · rw [if_neg hs, if_neg hs] at ha hb
      norm_num at ha hb
      omega
  cases hA : A a b
  cases hB : B a b
  rw [hA, hB] at this
  cases this
  rfl

/-- C113: unlike for the wider types, the printed elements are not the numbers: the matrix `{0; 48}` of 8-bit integers
prints a NUL and the digit 0, and an element 10 or 32 looks like a line break or an empty column. -/
theorem C113_bytes_not_numbers :
    (∃ (A : Mat (NInt .int8) 1 1) (s : List Char), print fmtNInt [] A = .ok s ∧
      (words s).map readInt ≠ elements (fun a b => (A a b).val)) ∧
    (∃ (A : Mat (NInt .uint8) 1 1) (s : List Char), print fmtNInt [] A = .ok s ∧ words s = []) ∧
    (∃ (A : Mat (NInt .uint8) 1 1) (s : List Char), print fmtNInt [] A = .ok s ∧ s.count '\n' = 2) := by
  refine ⟨⟨Mat.const (NInt.ofInt 48), "0 \n".toList, by decide +kernel, by decide +kernel⟩,
    ⟨Mat.const (NInt.ofInt 32), "  \n".toList, by decide +kernel, by decide +kernel⟩,
    ⟨Mat.const (NInt.ofInt 10), "\n \n".toList, by decide +kernel, by decide +kernel⟩⟩

/-! ## Floating point numbers -/

section
variable {F : Fmt} {i j : Nat}

theorem unit_pos (F : Fmt) : 0 < F.unit := by unfold Fmt.unit; positivity

/-- The digits of the magnitude of a finite number. -/
theorem mag_chars (N : Nat) : ∃ c s, (if N = 0 then ['0'] else fmtPos N F.unit) = c :: s ∧ IsDig c := by
  split
  · exact ⟨'0', [], rfl, isDig_zero⟩
  · exact fmtPos_head N F.unit

theorem fmtFl_sep (x : Fl F) : ∀ c ∈ fmtFl x, isSep c = false := by
  cases x with
  | nan =>
    have : ∀ c ∈ ['n', 'a', 'n'], isSep c = false := by decide
    exact this
  | inf s =>
    have h1 : ∀ c ∈ ['i', 'n', 'f'], isSep c = false := by decide
    have h2 : ∀ c ∈ ['-', 'i', 'n', 'f'], isSep c = false := by decide
    cases s
    · exact h1
    · exact h2
  | fin s N h =>
    have hm : ∀ c ∈ (if N = 0 then ['0'] else fmtPos N F.unit), isSep c = false := by
      intro c hc
      split at hc
      · rw [List.mem_singleton] at hc
        rw [hc]
        decide
      · rcases fmtPos_mem N F.unit c hc with h | h
        · exact isSep_dig h
        · fin_cases h <;> decide
    intro c hc
    unfold fmtFl at hc
    simp only at hc
    cases s
    · exact hm c (by simpa using hc)
    · rw [if_pos rfl] at hc
      rcases List.mem_cons.mp hc with rfl | hc
      · decide
      · exact hm c hc

theorem fmtFl_ne_nil (x : Fl F) : fmtFl x ≠ [] := by
  cases x with
  | nan => exact List.cons_ne_nil _ _
  | inf s => cases s <;> exact List.cons_ne_nil _ _
  | fin s N h =>
    obtain ⟨c, r, hc, -⟩ := mag_chars (F := F) N
    unfold fmtFl
    simp only
    rw [hc]
    cases s
    · exact List.cons_ne_nil _ _
    · exact List.cons_ne_nil _ _

/-- Value read from a written finite number. -/
theorem readDec_fin (s : Bool) (N : Nat) (h : F.Rep N) : readDec (fmtFl (.fin s N h : Fl F)) =
    (if s then -1 else 1) * (if N = 0 then 0 else
      ((sixDigits N F.unit).1 : ℚ) * 10 ^ ((sixDigits N F.unit).2 - 5)) := by
  have hm : readPos (if N = 0 then ['0'] else fmtPos N F.unit) = (if N = 0 then 0 else
      ((sixDigits N F.unit).1 : ℚ) * 10 ^ ((sixDigits N F.unit).2 - 5)) := by
    split
    · decide +kernel
    · exact readPos_fmtPos (by omega) (unit_pos F)
  unfold fmtFl
  simp only
  cases s
  · rw [if_neg Bool.false_ne_true, if_neg Bool.false_ne_true, one_mul, ← hm]
    obtain ⟨c, r, hc, hd⟩ := mag_chars (F := F) N
    rw [hc, readDec_of_dig hd]
  · rw [if_pos rfl, if_pos rfl, neg_one_mul, ← hm]
    rfl

/-- C114: a written finite number, read as a decimal number, is a decimal number with at most six significant digits
that is nearest to the element, so the relative error is at most `5 * 10^-6`. -/
theorem C114_read_float (x : Fl F) (hx : x.Finite) :
    |(readDec (fmtFl x) : ℝ) - x.val| ≤ 5 / 10 ^ 6 * |x.val| ∧
    (∃ k s : Int, |k| < 10 ^ 6 ∧ readDec (fmtFl x) = k * 10 ^ s) ∧
    ∀ k s : Int, |k| < 10 ^ 6 →
      |(readDec (fmtFl x) : ℝ) - x.val| ≤ |(k : ℝ) * 10 ^ s - x.val| := by
  cases x with
  | nan => exact hx.elim
  | inf s => exact hx.elim
  | fin s N h =>
    rw [readDec_fin]
    by_cases hN : N = 0
    · subst hN
      have hv : (Fl.fin s 0 h : Fl F).val = 0 := by simp [Fl.val, Fl.signed]
      rw [hv, if_pos rfl, mul_zero]
      refine ⟨by simp, ⟨0, 0, by norm_num, by simp⟩, fun k s _ => by simpa using by positivity⟩
    · rw [if_neg hN]
      obtain ⟨h1, h2, h3, h4, -⟩ := sixDigits_spec (a := N) (b := F.unit) (by omega) (unit_pos F)
      set m := (sixDigits N F.unit).1
      set X := (sixDigits N F.unit).2
      have hv : (Fl.fin s N h : Fl F).val = ((((if s then -1 else 1) * (N / F.unit) : ℚ)) : ℝ) := by
        unfold Fl.val Fl.signed
        cases s
        · push_cast; simp
        · push_cast; simp [neg_div]
      have hk : ∀ y : ℚ, |(if s then -1 else 1 : ℚ) * y| = |y| := by
        intro y
        cases s <;> simp
      rw [hv]
      refine ⟨?_, ⟨(if s then -1 else 1) * m, X - 5, ?_, ?_⟩, fun k t hkt => ?_⟩
      · have : |(if s then -1 else 1 : ℚ) * (m * 10 ^ (X - 5)) - (if s then -1 else 1) * (N / F.unit)| ≤
            5 / 10 ^ 6 * |(if s then -1 else 1 : ℚ) * (N / F.unit)| := by
          rw [← mul_sub, hk, hk, abs_of_nonneg (by positivity : (0 : ℚ) ≤ N / F.unit)]
          exact h4
        have h5 := (Rat.cast_le (K := ℝ)).mpr this
        push_cast at h5 ⊢
        exact h5
      · cases s
        · simpa using h2
        · simpa using h2
      · push_cast
        ring
      · have : |(if s then -1 else 1 : ℚ) * (m * 10 ^ (X - 5)) - (if s then -1 else 1) * (N / F.unit)| ≤
            |(k : ℚ) * 10 ^ t - (if s then -1 else 1) * (N / F.unit)| := by
          rw [← mul_sub, hk]
          cases s
          · have := h3 k t (lt_of_le_of_lt (le_abs_self k) hkt)
            simpa using this
          · have := h3 (-k) t (lt_of_le_of_lt (neg_le_abs k) hkt)
            refine this.trans_eq ?_
            rw [← abs_neg]
            push_cast
            congr 1
            simp only [if_true]
            ring
        have h5 := (Rat.cast_le (K := ℝ)).mpr this
        push_cast at h5 ⊢
        exact h5

/-- C114: if another number with six significant digits is as near, the last of the six printed digits is even. -/
theorem C114_ties_even (x : Fl F) (hx : x.Finite) (k s : Int) (hk : |k| < 10 ^ 6)
    (hne : (k : ℝ) * 10 ^ s ≠ readDec (fmtFl x))
    (h : |(k : ℝ) * 10 ^ s - x.val| = |(readDec (fmtFl x) : ℝ) - x.val|) :
    ∃ m t : Int, Even m ∧ 10 ^ 5 ≤ |m| ∧ |m| < 10 ^ 6 ∧ readDec (fmtFl x) = m * 10 ^ t := by
  cases x with
  | nan => exact hx.elim
  | inf s => exact hx.elim
  | fin sg N hr =>
    rw [readDec_fin] at h hne ⊢
    by_cases hN : N = 0
    · subst hN
      have hv : (Fl.fin sg 0 hr : Fl F).val = 0 := by simp [Fl.val, Fl.signed]
      rw [hv, if_pos rfl, mul_zero] at h
      rw [if_pos rfl, mul_zero] at hne
      simp only [Rat.cast_zero, sub_zero, abs_zero, abs_eq_zero] at h hne
      exact absurd h hne
    · rw [if_neg hN] at h hne ⊢
      obtain ⟨h1, h2, -, -, h5⟩ := sixDigits_spec (a := N) (b := F.unit) (by omega) (unit_pos F)
      set m := (sixDigits N F.unit).1
      set X := (sixDigits N F.unit).2
      have hv : (Fl.fin sg N hr : Fl F).val = ((((if sg then -1 else 1) * (N / F.unit) : ℚ)) : ℝ) := by
        unfold Fl.val Fl.signed
        cases sg
        · push_cast; simp
        · push_cast; simp [neg_div]
      have hq : |(k : ℚ) * 10 ^ s - (if sg then -1 else 1) * (N / F.unit)| =
          |(if sg then -1 else 1 : ℚ) * (m * 10 ^ (X - 5)) - (if sg then -1 else 1) * (N / F.unit)| := by
        rw [hv] at h
        refine (Rat.cast_inj (α := ℝ)).mp ?_
        push_cast at h ⊢
        exact h
      have hne' : (k : ℚ) * 10 ^ s ≠ (if sg then -1 else 1 : ℚ) * (m * 10 ^ (X - 5)) := by
        intro h'
        apply hne
        have := congrArg (fun q : ℚ => (q : ℝ)) h'
        push_cast at this ⊢
        exact this
      have heven : m % 2 = 0 := by
        cases sg
        · simp only [Bool.false_eq_true, if_false, one_mul] at hq hne'
          exact h5 k s (lt_of_le_of_lt (le_abs_self k) hk) hne' hq.le
        · simp only [if_true, neg_one_mul] at hq hne'
          refine h5 (-k) s (lt_of_le_of_lt (neg_le_abs k) hk) ?_ ?_
          · intro h'
            apply hne'
            rw [← h']
            push_cast
            ring
          · rw [← abs_neg] at hq
            rw [← abs_neg (-((m : ℚ) * 10 ^ (X - 5)) - _)] at hq
            refine le_of_eq ?_
            calc _ = |-((k : ℚ) * 10 ^ s - -(N / F.unit))| := by congr 1; push_cast; ring
              _ = _ := hq
              _ = _ := by congr 1; ring
      refine ⟨(if sg then -1 else 1) * m, X - 5, ?_, ?_, ?_, ?_⟩
      · exact Even.mul_left (by exact_mod_cast Nat.even_iff.mpr heven) _
      · cases sg
        · simpa using h1
        · simpa using h1
      · cases sg
        · simpa using h2
        · simpa using h2
      · push_cast
        ring

/-- C114: a number that has at most six significant digits is printed exactly. -/
theorem C114_six_digits_exact (x : Fl F) (hx : x.Finite) (k s : Int) (hk : |k| < 10 ^ 6)
    (h : x.val = k * 10 ^ s) : (readDec (fmtFl x) : ℝ) = x.val := by
  have h1 := (C114_read_float x hx).2.2 k s hk
  rw [← h, sub_self, abs_zero] at h1
  exact sub_eq_zero.mp (abs_eq_zero.mp (le_antisymm h1 (abs_nonneg _)))

/-- C114: reading the words of a printed matrix of finite numbers gives the elements, row by row, with a relative
error of at most `5 * 10^-6`. -/
theorem C114_print_float (A : Mat (Fl F) i j) (hA : ∀ a b, (A a b).Finite) :
    ∃ (s : List Char) (V : Mat ℚ i j), print fmtFl [] A = .ok s ∧ (words s).map readDec = elements V ∧
      ∀ a b, |(V a b : ℝ) - (A a b).val| ≤ 5 / 10 ^ 6 * |(A a b).val| := by
  obtain ⟨s, h1, h2⟩ := C112_print_words fmtFl fmtFl_ne_nil fmtFl_sep A
  refine ⟨s, fun a b => readDec (fmtFl (A a b)), h1, ?_, fun a b => (C114_read_float _ (hA a b)).1⟩
  rw [h2, elements_map, elements_map]
  rfl

/-- C114: the integers below a million are printed like integers: digits only, no point and no exponent. -/
theorem C114_print_integer (k : Int) (hk : k.natAbs < 10 ^ 6) (hp : k.natAbs ≤ 2 ^ F.p) :
    fmtFl (Fl.ofInt k : Fl F) = fmtInt k := by
  by_cases h0 : k = 0
  · subst h0
    have h1 : F.Rep 0 := ⟨by unfold Fmt.bound; positivity, dvd_zero _⟩
    have : (Fl.ofInt 0 : Fl F) = .fin false 0 h1 := by
      unfold Fl.ofInt Fl.roundInt Fl.pack
      rw [Int.zero_mul, if_pos rfl, dif_pos h1]
    rw [this]
    rfl
  · have hv := Fl.val_ofInt_exact (F := F) k hp
    generalize hx : (Fl.ofInt k : Fl F) = x at hv ⊢
    obtain ⟨hf, hv⟩ := hv
    cases x with
    | nan => exact hf.elim
    | inf s => exact hf.elim
    | fin s N h =>
      unfold Fl.val at hv
      have hu : (F.unit : ℝ) ≠ 0 := by
        have := unit_pos F
        positivity
      rw [div_eq_iff hu] at hv
      have hv' : Fl.signed s N = k * F.unit := by exact_mod_cast hv
      have hu' := unit_pos F
      have hN : N = k.natAbs * F.unit := by
        have := congrArg Int.natAbs hv'
        rw [Int.natAbs_mul, Int.natAbs_natCast] at this
        rw [← this]
        unfold Fl.signed
        cases s <;> simp
      have hN0 : N ≠ 0 := by
        rw [hN]
        have : k.natAbs ≠ 0 := by omega
        positivity
      have hs : s = true ↔ k < 0 := by
        have hu'' : (0 : Int) < F.unit := by exact_mod_cast hu'
        unfold Fl.signed at hv'
        cases s
        · simp only [Bool.false_eq_true, if_false, false_iff, not_lt] at hv' ⊢
          have h1 : 0 ≤ k * (F.unit : Int) := by rw [← hv']; positivity
          exact nonneg_of_mul_nonneg_left h1 hu''
        · simp only [if_true, true_iff] at hv' ⊢
          have h1 : k * (F.unit : Int) < 0 := by
            rw [← hv']
            omega
          exact neg_of_mul_neg_left h1 hu''.le
      unfold fmtFl fmtInt
      simp only
      rw [if_neg hN0, hN, fmtPos_nat (by omega) hu' hk]
      cases s
      · rw [if_neg (by simp), if_neg (by simpa using hs)]
      · rw [if_pos rfl, if_pos (hs.mp rfl)]

/-- C114: notation. A finite number is written with an exponent exactly if the printed number is below `10^-4` (and not
zero) or not below `10^6` in magnitude; the exponent has a sign and at least two digits. There are no superfluous zeros:
if the part before the exponent has a point, it ends with a digit other than 0. -/
theorem C114_notation (x : Fl F) (hx : x.Finite) :
    ('e' ∈ fmtFl x ↔ readDec (fmtFl x) ≠ 0 ∧
      (|readDec (fmtFl x)| < 1 / 10 ^ 4 ∨ 10 ^ 6 ≤ |readDec (fmtFl x)|)) ∧
    ('e' ∈ fmtFl x → ∃ c s, (cut 'e' (fmtFl x)).2 = c :: s ∧ (c = '+' ∨ c = '-') ∧ 2 ≤ s.length) ∧
    ('.' ∈ (cut 'e' (fmtFl x)).1 →
      ∃ c, (cut 'e' (fmtFl x)).1.getLast? = some c ∧ '1' ≤ c ∧ c ≤ '9') := by
  cases x with
  | nan => exact hx.elim
  | inf s => exact hx.elim
  | fin s N h =>
    rw [readDec_fin]
    by_cases hN : N = 0
    · subst hN
      cases s <;> simp [fmtFl, cut]
    · obtain ⟨hm1, hm2, -⟩ := sixDigits_spec (a := N) (b := F.unit) (by omega) (unit_pos F)
      obtain ⟨ip, fp, ex, hf, hip, hfp, hlast, hex⟩ :=
        fmtPos_parts (a := N) (b := F.unit) (by omega) (unit_pos F)
      generalize sixDigits N F.unit = p at *
      obtain ⟨m, X⟩ := p
      simp only at hm1 hm2 hex ⊢
      rw [if_neg hN]
      obtain ⟨hX1, hX2⟩ := sixDigits_exp (X := X) hm1 hm2
      have habs : |(if s then -1 else 1 : ℚ) * (m * 10 ^ (X - 5))| = m * 10 ^ (X - 5) := by
        rw [abs_mul, abs_of_nonneg (by positivity : (0 : ℚ) ≤ m * 10 ^ (X - 5))]
        cases s <;> simp
      have hne0 : (if s then -1 else 1 : ℚ) * (m * 10 ^ (X - 5)) ≠ 0 := by
        rw [← abs_pos, habs]
        exact lt_of_lt_of_le (by positivity) hX1
      set sg : List Char := if s then ['-'] else [] with hsg
      have hfm : fmtFl (.fin s N h : Fl F) = (sg ++ withPoint ip fp) ++ ex := by
        unfold fmtFl
        simp only
        rw [if_neg hN, hf, hsg]
        cases s <;> rfl
      have hno : 'e' ∉ sg ++ withPoint ip fp := by
        rw [List.mem_append, not_or]
        refine ⟨?_, withPoint_no_e hip hfp⟩
        rw [hsg]
        cases s <;> decide
      have hcut : cut 'e' (fmtFl (.fin s N h : Fl F)) = (sg ++ withPoint ip fp, ex.tail) := by
        rw [hfm]
        rcases hex with ⟨rfl, -⟩ | ⟨rfl, -⟩
        · rw [List.append_nil, cut_none _ hno]
          rfl
        · exact cut_append _ _ hno
      have hmem : 'e' ∈ fmtFl (.fin s N h : Fl F) ↔ (X < -4 ∨ 6 ≤ X) := by
        rw [hfm, List.mem_append]
        rcases hex with ⟨rfl, h1, h2⟩ | ⟨rfl, h1⟩
        · constructor
          · rintro (h' | h')
            · exact absurd h' hno
            · cases h'
          · intro h'
            omega
        · exact ⟨fun _ => h1, fun _ => Or.inr List.mem_cons_self⟩
      refine ⟨?_, ?_, ?_⟩
      · rw [hmem, habs]
        have e4 : (1 : ℚ) / 10 ^ 4 = 10 ^ (-4 : Int) := by norm_num
        have e6 : (10 : ℚ) ^ 6 = 10 ^ (6 : Int) := by norm_num
        rw [e4, e6]
        constructor
        · rintro (h' | h')
          · exact ⟨hne0, Or.inl (hX2.trans_le (zpow_le_zpow_right₀ (by norm_num) (by omega)))⟩
          · exact ⟨hne0, Or.inr ((zpow_le_zpow_right₀ (by norm_num) h').trans hX1)⟩
        · rintro ⟨-, h' | h'⟩
          · left
            exact (zpow_lt_zpow_iff_right₀ (by norm_num : (1 : ℚ) < 10)).mp (hX1.trans_lt h')
          · right
            have := (zpow_lt_zpow_iff_right₀ (by norm_num : (1 : ℚ) < 10)).mp (h'.trans_lt hX2)
            omega
      · intro he
        rw [hcut]
        rcases hex with ⟨rfl, h1, h2⟩ | ⟨rfl, -⟩
        · exact absurd (hmem.mp he) (by omega)
        · refine ⟨_, _, rfl, ?_, ?_⟩
          · split
            · exact Or.inr rfl
            · exact Or.inl rfl
          · split
            · have := List.length_pos_iff.mpr (natChars_ne_nil X.natAbs)
              rw [List.length_cons]
              omega
            · rename_i h10
              rw [natChars_length (by omega)]
              have := Nat.log_pos (b := 10) (by norm_num) (not_lt.mp h10)
              omega
      · rw [hcut]
        intro hd
        have hd' : '.' ∈ withPoint ip fp := by
          rcases List.mem_append.mp hd with h' | h'
          · rw [hsg] at h'
            cases s <;> simp at h'
          · exact h'
        obtain ⟨c, h1, h2, h3⟩ := withPoint_last hip hfp hlast hd'
        refine ⟨c, ?_, ?_, h2.2⟩
        · simp only
          rw [List.getLast?_append, h1]
          rfl
        · have h4 : c.toNat ≠ 48 := fun h' => h3 (Char.ext (UInt32.toNat_inj.mp h'))
          have h5 := h2.1
          have h6 : 49 ≤ c.toNat := by omega
          exact h6

/-- C114: infinities and NaN can be told apart from numbers, and from each other. -/
theorem C114_nonfinite (x : Fl F) :
    (fmtFl x = "nan".toList ↔ x = .nan) ∧ (fmtFl x = "inf".toList ↔ x = .inf false) ∧
    (fmtFl x = "-inf".toList ↔ x = .inf true) := by
  cases x with
  | nan => exact ⟨by simp [fmtFl], by simp [fmtFl], by simp [fmtFl]⟩
  | inf s => cases s <;> exact ⟨by simp [fmtFl], by simp [fmtFl], by simp [fmtFl]⟩
  | fin s N h =>
    obtain ⟨c, r, hc, hd⟩ := mag_chars (F := F) N
    have h1 : c ≠ 'n' := hd.ne (by decide)
    have h2 : c ≠ 'i' := hd.ne (by decide)
    have h3 : c ≠ '-' := hd.ne (by decide)
    unfold fmtFl
    simp only
    rw [hc]
    cases s
    · simp [h1, h2, h3]
    · simp [h2]

/-- C114: six digits do not tell all numbers apart: there are different matrices of `float` with the same output,
although the elements are exact integers. -/
theorem C114_print_lossy : ∃ A B : Mat (Fl binary32) 1 1, A ≠ B ∧
    (∃ k l : Int, A 0 0 = Fl.ofInt k ∧ B 0 0 = Fl.ofInt l ∧ k ≠ l ∧ (A 0 0).val = k ∧ (B 0 0).val = l) ∧
    print fmtFl [] A = print fmtFl [] B := by
  refine ⟨Mat.const (Fl.ofInt 1000001), Mat.const (Fl.ofInt 1000002), ?_, ?_, ?_⟩
  · intro h
    exact absurd (congrFun (congrFun h 0) 0) (by decide +kernel)
  · refine ⟨1000001, 1000002, rfl, rfl, by norm_num, ?_, ?_⟩
    · have := (Fl.val_ofInt_exact (F := binary32) 1000001 (by decide)).2
      exact this
    · have := (Fl.val_ofInt_exact (F := binary32) 1000002 (by decide)).2
      exact this
  · decide +kernel

end

/-! ## Examples -/

example : print fmtSInt [] (fun a b : Fin 2 => if a = b then ⟨-12, by decide⟩ else ⟨0, by decide⟩ : Mat (SInt 32) 2 2)
    = .ok "-12 0 \n0 -12 \n".toList := by decide +kernel

example : (words "-12 0 \n0 -12 \n".toList).map readInt = [-12, 0, 0, -12] := by decide +kernel

/-- 1/3 as a `double`. -/
example : fmtFl ((Fl.ofInt 1 : Fl binary64).div (Fl.ofInt 3)) = "0.333333".toList := by decide +kernel

/-- A number that needs an exponent, and rounding that carries to the next power of ten. -/
example : fmtFl ((Fl.ofInt 1 : Fl binary64).div (Fl.ofInt 30000)) = "3.33333e-05".toList ∧
    fmtFl (Fl.ofInt 9999999 : Fl binary64) = "1e+07".toList ∧
    fmtFl ((Fl.ofInt (-9999995) : Fl binary64).div (Fl.ofInt 8)) = "-1.25e+06".toList := by
  decide +kernel

example : readDec "-1.25e+06".toList = -1250000 ∧ readDec "0.333333".toList = 333333 / 1000000 := by
  decide +kernel

/-- Ties: 100000.5 and 100001.5 are both half way between two numbers with six digits. -/
example : fmtFl ((Fl.ofInt 200001 : Fl binary64).div (Fl.ofInt 2)) = "100000".toList ∧
    fmtFl ((Fl.ofInt 200003 : Fl binary64).div (Fl.ofInt 2)) = "100002".toList := by decide +kernel

/-- The smallest positive `float`, minus zero and an infinity. -/
example : fmtFl (.fin false 1 (by decide) : Fl binary32) = "1.4013e-45".toList ∧
    fmtFl (.fin true 0 (by decide) : Fl binary32) = "-0".toList ∧
    fmtFl (.inf true : Fl binary32) = "-inf".toList := by decide +kernel

/-- 2.5 has two significant digits, so it is printed exactly. -/
example : ((Fl.ofInt 5 : Fl binary32).div (Fl.ofInt 2)).Finite ∧
    fmtFl ((Fl.ofInt 5 : Fl binary32).div (Fl.ofInt 2)) = "2.5".toList := by decide +kernel

end MatrixLibs
