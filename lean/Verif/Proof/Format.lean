import Verif.Model.Format
import Verif.Spec.Read
import Verif.Spec.Print
import Verif.Spec.Float
import Mathlib.Data.Nat.Digits.Lemmas
import Mathlib.Algebra.Order.Field.Power
import Mathlib.Data.List.TakeWhile
import Mathlib.Tactic.Linarith
import Mathlib.Tactic.FieldSimp
import Mathlib.Tactic.Ring
import Mathlib.Tactic.IntervalCases
import Mathlib.Tactic.NormNum

/-!
# Lemmas about written and read numbers
-/

namespace MatrixLibs

/-! ## Digits -/

/-- A decimal digit. -/
def IsDig (c : Char) : Prop := 48 ≤ c.toNat ∧ c.toNat ≤ 57

theorem IsDig.ne {c d : Char} (h : IsDig c) (hd : d.toNat < 48 ∨ 57 < d.toNat) : c ≠ d := by
  rintro rfl
  unfold IsDig at h
  omega

theorem isDig_zero : IsDig '0' := by unfold IsDig; decide

theorem toNat_digitChar {d : Nat} (h : d < 10) : (digitChar d).toNat = 48 + d := by
  interval_cases d <;> decide

theorem isDig_digitChar {d : Nat} (h : d < 10) : IsDig (digitChar d) := by
  unfold IsDig
  rw [toNat_digitChar h]
  omega

theorem natChars_isDig (n : Nat) : ∀ c ∈ natChars n, IsDig c := by
  unfold natChars
  split
  · simpa using isDig_zero
  · intro c hc
    obtain ⟨d, hd, rfl⟩ := List.mem_map.mp hc
    exact isDig_digitChar (Nat.digits_lt_base (by norm_num) (List.mem_reverse.mp hd))

theorem natChars_ne_nil (n : Nat) : natChars n ≠ [] := by
  unfold natChars
  split
  · exact List.cons_ne_nil _ _
  · rename_i h
    simpa [Nat.digits_eq_nil_iff_eq_zero] using h

theorem readNat_append (a b : List Char) :
    readNat (a ++ b) = readNat a * 10 ^ b.length + readNat b := by
  induction b using List.reverseRecOn with
  | nil => simp [readNat]
  | append_singleton b c ih =>
    have h1 : ∀ l : List Char, readNat (l ++ [c]) = 10 * readNat l + (c.toNat - 48) := by
      intro l
      simp [readNat, List.foldl_append]
    rw [← List.append_assoc, h1, h1, ih, List.length_append, List.length_singleton, pow_succ]
    ring

theorem readNat_map (l : List Nat) (h : ∀ d ∈ l, d < 10) :
    readNat (l.reverse.map digitChar) = Nat.ofDigits 10 l := by
  induction l with
  | nil => rfl
  | cons d l ih =>
    rw [List.reverse_cons, List.map_append, readNat_append,
      ih (fun x hx => h x (List.mem_cons_of_mem _ hx)), Nat.ofDigits_cons]
    have := toNat_digitChar (h d List.mem_cons_self)
    simp [readNat, this]
    ring

theorem readNat_natChars (n : Nat) : readNat (natChars n) = n := by
  unfold natChars
  split
  · rename_i h
    rw [h]
    decide
  · rw [readNat_map _ (fun d hd => Nat.digits_lt_base (by norm_num) hd), Nat.ofDigits_digits]

theorem natChars_length {n : Nat} (h : n ≠ 0) : (natChars n).length = Nat.log 10 n + 1 := by
  unfold natChars
  rw [if_neg h, List.length_map, List.length_reverse, Nat.length_digits 10 n (by norm_num) h]

theorem natChars_mul_pow {n : Nat} (h : n ≠ 0) (k : Nat) :
    natChars (n * 10 ^ k) = natChars n ++ List.replicate k '0' := by
  unfold natChars
  have h' : n * 10 ^ k ≠ 0 := by positivity
  rw [if_neg h, if_neg h', mul_comm, Nat.digits_base_pow_mul (by norm_num) (Nat.pos_of_ne_zero h),
    List.reverse_append, List.map_append, List.reverse_replicate, List.map_replicate]
  rfl

/-! ## Words -/

theorem wordsFrom_append (cur w : List Char) (c : Char) (rest : List Char)
    (hw : ∀ x ∈ w, isSep x = false) (hc : isSep c = true) (hne : cur ++ w ≠ []) :
    wordsFrom cur (w ++ c :: rest) = (cur ++ w) :: wordsFrom [] rest := by
  induction w generalizing cur with
  | nil =>
    rw [List.append_nil] at hne
    rw [List.nil_append, wordsFrom, if_pos hc, if_neg hne, List.append_nil]
  | cons x w ih =>
    rw [List.cons_append, wordsFrom, hw x List.mem_cons_self]
    rw [if_neg (by simp), ih _ (fun y hy => hw y (List.mem_cons_of_mem _ hy)) (by simp),
      List.append_assoc]
    rfl

theorem words_renderRow {T : Type} (fmt : T → List Char) (hne : ∀ x, fmt x ≠ [])
    (hsep : ∀ x, ∀ c ∈ fmt x, isSep c = false) (l : List T) (rest : List Char) :
    words (renderRow fmt l ++ rest) = l.map fmt ++ words rest := by
  unfold renderRow words
  induction l with
  | nil =>
    simp [wordsFrom, isSep]
  | cons x l ih =>
    have e : List.flatMap (fun x => fmt x ++ [' ']) (x :: l) ++ ['\n'] ++ rest =
        fmt x ++ ' ' :: (List.flatMap (fun x => fmt x ++ [' ']) l ++ ['\n'] ++ rest) := by simp
    rw [e, wordsFrom_append _ _ _ _ (hsep x) rfl (by simpa using hne x), ih]
    rfl

theorem words_render {T : Type} {i j : Nat} (fmt : T → List Char) (hne : ∀ x, fmt x ≠ [])
    (hsep : ∀ x, ∀ c ∈ fmt x, isSep c = false) (A : Mat T i j) :
    words (render fmt A) = (List.ofFn fun a => List.ofFn fun b => fmt (A a b)).flatten := by
  unfold render
  rw [List.ofFn_eq_map, List.ofFn_eq_map]
  generalize List.finRange i = as
  induction as with
  | nil => rfl
  | cons a as ih =>
    rw [List.map_cons, List.flatten_cons, words_renderRow fmt hne hsep, ih, List.map_cons,
      List.flatten_cons, List.map_ofFn]
    rfl

/-! ## Parts of a number -/

theorem cut_append {c : Char} (a b : List Char) (h : c ∉ a) : cut c (a ++ c :: b) = (a, b) := by
  induction a with
  | nil => simp [cut]
  | cons x a ih =>
    rw [List.mem_cons, not_or] at h
    rw [List.cons_append, cut, if_neg (Ne.symm h.1), ih h.2]

theorem cut_none {c : Char} (a : List Char) (h : c ∉ a) : cut c a = (a, []) := by
  induction a with
  | nil => rfl
  | cons x a ih =>
    rw [List.mem_cons, not_or] at h
    rw [cut, if_neg (Ne.symm h.1), ih h.2]

theorem dropZeros_spec (l : List Char) :
    ∃ k, l = dropZeros l ++ List.replicate k '0' := by
  refine ⟨(l.reverse.takeWhile (· == '0')).length, ?_⟩
  unfold dropZeros
  have h1 : l.reverse.takeWhile (· == '0') =
      List.replicate (l.reverse.takeWhile (· == '0')).length '0' := by
    refine List.eq_replicate_of_mem fun c hc => ?_
    simpa using List.mem_takeWhile_imp hc
  rw [← List.reverse_replicate, ← h1, ← List.reverse_append, List.takeWhile_append_dropWhile,
    List.reverse_reverse]

theorem readNat_zeros (k : Nat) : readNat (List.replicate k '0') = 0 := by
  induction k with
  | zero => rfl
  | succ k ih =>
    rw [List.replicate_succ', readNat_append, ih]
    decide

theorem dropZeros_sub {l : List Char} {p : Char → Prop} (h : ∀ c ∈ l, p c) :
    ∀ c ∈ dropZeros l, p c := by
  obtain ⟨k, hk⟩ := dropZeros_spec l
  intro c hc
  exact h c (by rw [hk]; exact List.mem_append_left _ hc)

/-- Value of the digits after the point. -/
def fracVal (l : List Char) : ℚ := readNat l / 10 ^ l.length

theorem fracVal_dropZeros (l : List Char) : fracVal (dropZeros l) = fracVal l := by
  obtain ⟨k, hk⟩ := dropZeros_spec l
  have : fracVal l = fracVal (dropZeros l ++ List.replicate k '0') := by rw [← hk]
  rw [this]
  unfold fracVal
  rw [readNat_append, readNat_zeros, List.length_append, List.length_replicate, pow_add]
  push_cast
  rw [add_zero, mul_div_mul_right _ _ (by positivity)]

theorem fracVal_zeros (k : Nat) (l : List Char) :
    fracVal (List.replicate k '0' ++ l) = fracVal l / 10 ^ k := by
  unfold fracVal
  rw [readNat_append, readNat_zeros, List.length_append, List.length_replicate, pow_add]
  push_cast
  rw [zero_mul, zero_add, div_div, mul_comm]

/-- Digits split into an integer part and a fraction. -/
theorem split_val (l : List Char) (k : Nat) :
    (readNat (l.take k) : ℚ) + fracVal (l.drop k) = readNat l / 10 ^ (l.length - k) := by
  have h := readNat_append (l.take k) (l.drop k)
  rw [List.take_append_drop] at h
  unfold fracVal
  rw [h, List.length_drop]
  push_cast
  field_simp

theorem readPos_plain (ip fp : List Char) (hi : ∀ c ∈ ip, IsDig c) (hf : ∀ c ∈ fp, IsDig c) :
    readPos (withPoint ip fp) = readNat ip + fracVal fp := by
  have h1 : 'e' ∉ withPoint ip fp := by
    unfold withPoint
    split
    · exact fun h => (hi _ h).ne (by decide) rfl
    · rw [List.mem_append, List.mem_cons]
      rintro (h | h | h)
      · exact (hi _ h).ne (by decide) rfl
      · exact absurd h (by decide)
      · exact (hf _ h).ne (by decide) rfl
  have hd : '.' ∉ ip := fun h => (hi _ h).ne (by decide) rfl
  have h2 : cut '.' (withPoint ip fp) = (ip, fp) := by
    unfold withPoint
    split
    · rename_i h
      rw [cut_none _ hd, h]
    · exact cut_append _ _ hd
  unfold readPos
  rw [cut_none _ h1]
  simp only [h2]
  simp [readInt, readNat, fracVal]

theorem readInt_sign (X : Int) : readInt (expChars X).tail = X := by
  unfold expChars
  have h0 : ∀ n, readNat (if n < 10 then '0' :: natChars n else natChars n) = n := by
    intro n
    split
    · have := readNat_append ['0'] (natChars n)
      rw [List.singleton_append] at this
      rw [this, readNat_natChars]
      simp [readNat]
    · exact readNat_natChars n
  rw [List.tail_cons]
  split
  · rw [readInt, h0]
    omega
  · rw [readInt, h0]
    omega

theorem readPos_sci (ip fp : List Char) (X : Int) (hi : ∀ c ∈ ip, IsDig c) (hf : ∀ c ∈ fp, IsDig c) :
    readPos (withPoint ip fp ++ expChars X) = (readNat ip + fracVal fp) * 10 ^ X := by
  have h1 : 'e' ∉ withPoint ip fp := by
    unfold withPoint
    split
    · exact fun h => (hi _ h).ne (by decide) rfl
    · rw [List.mem_append, List.mem_cons]
      rintro (h | h | h)
      · exact (hi _ h).ne (by decide) rfl
      · exact absurd h (by decide)
      · exact (hf _ h).ne (by decide) rfl
  have hd : '.' ∉ ip := fun h => (hi _ h).ne (by decide) rfl
  have h2 : cut '.' (withPoint ip fp) = (ip, fp) := by
    unfold withPoint
    split
    · rename_i h
      rw [cut_none _ hd, h]
    · exact cut_append _ _ hd
  have h3 : expChars X = 'e' :: (expChars X).tail := rfl
  unfold readPos
  rw [h3, cut_append _ _ h1]
  simp only [h2, readInt_sign]
  rfl

/-! ## Rounding to six digits -/

theorem roundEven_spec (a : Nat) {b : Nat} (hb : 0 < b) :
    |(roundEven a b : ℚ) - a / b| ≤ 1 / 2 := by
  have hm := Nat.div_add_mod a b
  have hlt := Nat.mod_lt a hb
  have hb' : (0 : ℚ) < b := by exact_mod_cast hb
  have hq : (a : ℚ) / b = (a / b : ℕ) + (a % b : ℕ) / b := by
    rw [eq_comm, ← hm]
    field_simp
    rw [hm, mul_comm]
    exact_mod_cast hm
  rw [hq]
  unfold roundEven
  simp only
  have key : ∀ {r : ℕ}, 2 * r ≤ b → (r : ℚ) / b ≤ 1 / 2 := by
    intro r hr
    rw [div_le_iff₀ hb']
    have : ((2 * r : ℕ) : ℚ) ≤ b := by exact_mod_cast hr
    push_cast at this
    linarith
  have key' : ∀ {r : ℕ}, b ≤ 2 * r → 1 / 2 ≤ (r : ℚ) / b := by
    intro r hr
    rw [le_div_iff₀ hb']
    have : (b : ℚ) ≤ ((2 * r : ℕ) : ℚ) := by exact_mod_cast hr
    push_cast at this
    linarith
  have h0 : (0 : ℚ) ≤ (a % b : ℕ) / b := by positivity
  have h1 : ((a % b : ℕ) : ℚ) / b ≤ 1 := by
    rw [div_le_one hb']
    exact_mod_cast hlt.le
  rw [abs_le]
  split_ifs with c1 c2 c3
  · have := key c1.le
    constructor <;> linarith
  · have := key' c2.le
    push_cast
    constructor <;> linarith
  · have := key (r := a % b) (by omega)
    constructor <;> linarith
  · have := key' (r := a % b) (by omega)
    push_cast
    constructor <;> linarith

/-- Rounding gives a nearest integer. -/
theorem roundEven_nearest (a : Nat) {b : Nat} (hb : 0 < b) (k : Int) :
    |(roundEven a b : ℚ) - a / b| ≤ |(k : ℚ) - a / b| := by
  have h := roundEven_spec a hb
  by_cases hk : k = roundEven a b
  · rw [hk]
    push_cast
    exact le_refl _
  · have h1 : (1 : ℚ) ≤ |(k : ℚ) - (roundEven a b : ℕ)| := by
      have : (1 : ℤ) ≤ |k - roundEven a b| := Int.one_le_abs (sub_ne_zero.mpr hk)
      exact_mod_cast this
    have h2 : |(k : ℚ) - (roundEven a b : ℕ)| ≤ |(k : ℚ) - a / b| + |(roundEven a b : ℚ) - a / b| := by
      have := abs_sub ((k : ℚ) - a / b) ((roundEven a b : ℚ) - a / b)
      rwa [sub_sub_sub_cancel_right] at this
    linarith

/-- If another integer is as near, the rounded one is even. -/
theorem roundEven_tie (a : Nat) {b : Nat} (hb : 0 < b) (k : Int) (hk : k ≠ roundEven a b)
    (h : |(k : ℚ) - a / b| ≤ |(roundEven a b : ℚ) - a / b|) : roundEven a b % 2 = 0 := by
  have hhalf := roundEven_spec a hb
  have h1 : (1 : ℚ) ≤ |(k : ℚ) - (roundEven a b : ℕ)| := by
    have : (1 : ℤ) ≤ |k - roundEven a b| := Int.one_le_abs (sub_ne_zero.mpr hk)
    exact_mod_cast this
  have h2 : |(k : ℚ) - (roundEven a b : ℕ)| ≤ |(k : ℚ) - a / b| + |(roundEven a b : ℚ) - a / b| := by
    have := abs_sub ((k : ℚ) - a / b) ((roundEven a b : ℚ) - a / b)
    rwa [sub_sub_sub_cancel_right] at this
  have h3 : |(roundEven a b : ℚ) - a / b| = 1 / 2 := by linarith
  have hm := Nat.div_add_mod a b
  have hlt := Nat.mod_lt a hb
  have hb' : (0 : ℚ) < b := by exact_mod_cast hb
  have hq : (a : ℚ) / b = (a / b : ℕ) + (a % b : ℕ) / b := by
    rw [eq_comm, ← hm]
    field_simp
    rw [hm, mul_comm]
    exact_mod_cast hm
  rw [hq] at h3
  unfold roundEven at h3 ⊢
  simp only at h3 ⊢
  have h0 : (0 : ℚ) ≤ (a % b : ℕ) / b := by positivity
  have h5 : ((a % b : ℕ) : ℚ) / b < 1 := by
    rw [div_lt_one hb']
    exact_mod_cast hlt
  split_ifs at h3 ⊢ with c1 c2 c3
  · exfalso
    have : ((a % b : ℕ) : ℚ) / b < 1 / 2 := by
      rw [div_lt_iff₀ hb']
      have : ((2 * (a % b) : ℕ) : ℚ) < b := by exact_mod_cast c1
      push_cast at this ⊢
      linarith
    rw [abs_of_nonpos (by linarith)] at h3
    linarith
  · exfalso
    have : 1 / 2 < ((a % b : ℕ) : ℚ) / b := by
      rw [lt_div_iff₀ hb']
      have : (b : ℚ) < ((2 * (a % b) : ℕ) : ℚ) := by exact_mod_cast c2
      push_cast at this ⊢
      linarith
    push_cast at h3
    rw [abs_of_nonneg (by push_cast at h5; linarith)] at h3
    push_cast at this
    linarith
  · exact c3
  · omega

theorem zpow_toNat (e : Int) : ((10 : ℚ) ^ (5 - e).toNat) / 10 ^ (e - 5).toNat = 10 ^ (5 - e) := by
  rcases le_total e 5 with h | h
  · rw [show (e - 5).toNat = 0 by omega, pow_zero, div_one, ← zpow_natCast]
    congr 1
    omega
  · rw [show (5 - e).toNat = 0 by omega, pow_zero, one_div, ← zpow_natCast, ← zpow_neg]
    congr 1
    omega

/-- The six digits of a positive number. -/
theorem sixDigits_spec {a b : Nat} (ha : 0 < a) (hb : 0 < b) :
    10 ^ 5 ≤ (sixDigits a b).1 ∧ (sixDigits a b).1 < 10 ^ 6 ∧
    (∀ (k s : Int), k < 10 ^ 6 →
      |((sixDigits a b).1 : ℚ) * 10 ^ ((sixDigits a b).2 - 5) - a / b| ≤ |(k : ℚ) * 10 ^ s - a / b|) ∧
    |((sixDigits a b).1 : ℚ) * 10 ^ ((sixDigits a b).2 - 5) - a / b| ≤ 5 / 10 ^ 6 * (a / b) ∧
    (∀ (k s : Int), k < 10 ^ 6 → (k : ℚ) * 10 ^ s ≠ (sixDigits a b).1 * 10 ^ ((sixDigits a b).2 - 5) →
      |(k : ℚ) * 10 ^ s - a / b| ≤ |((sixDigits a b).1 : ℚ) * 10 ^ ((sixDigits a b).2 - 5) - a / b| →
      (sixDigits a b).1 % 2 = 0) := by
  have ha' : (0 : ℚ) < a := by exact_mod_cast ha
  have hb' : (0 : ℚ) < b := by exact_mod_cast hb
  have hq : (0 : ℚ) < (a : ℚ) / b := by positivity
  set e := Int.log 10 ((a : ℚ) / b) with he
  have hlo : (10 : ℚ) ^ e ≤ a / b := by exact_mod_cast Int.zpow_log_le_self (b := 10) (by norm_num) hq
  have hhi : (a : ℚ) / b < 10 ^ (e + 1) := by
    exact_mod_cast Int.lt_zpow_succ_log_self (b := 10) (by norm_num) ((a : ℚ) / b)
  set n := a * 10 ^ (5 - e).toNat with hn
  set d := b * 10 ^ (e - 5).toNat with hd
  have hdpos : 0 < d := by positivity
  have hnd : (n : ℚ) / d = a / b * 10 ^ (5 - e) := by
    rw [hn, hd]
    push_cast
    rw [← zpow_toNat]
    field_simp
  have hg : (0 : ℚ) < 10 ^ (e - 5) := by positivity
  have hgg : (10 : ℚ) ^ (5 - e) * 10 ^ (e - 5) = 1 := by
    rw [← zpow_add₀ (by norm_num)]
    simp
  have hscale : ∀ x : ℚ, |x * 10 ^ (e - 5) - a / b| = |x - n / d| * 10 ^ (e - 5) := by
    intro x
    rw [← abs_of_pos hg, ← abs_mul, abs_of_pos hg, sub_mul, hnd, mul_assoc, hgg, mul_one]
  set M := roundEven n d with hM
  have hnear : ∀ k : Int, |(M : ℚ) * 10 ^ (e - 5) - a / b| ≤ |(k : ℚ) * 10 ^ (e - 5) - a / b| := by
    intro k
    rw [hscale, hscale]
    exact mul_le_mul_of_nonneg_right (roundEven_nearest n hdpos k) hg.le
  have hhalf := roundEven_spec n hdpos
  have hlo' : (10 : ℚ) ^ 5 ≤ n / d := by
    rw [hnd]
    calc (10 : ℚ) ^ 5 = 10 ^ e * 10 ^ (5 - e) := by
          rw [← zpow_add₀ (by norm_num)]
          simp
      _ ≤ _ := mul_le_mul_of_nonneg_right hlo (by positivity)
  have hhi' : (n : ℚ) / d < 10 ^ 6 := by
    rw [hnd]
    calc _ < 10 ^ (e + 1) * (10 : ℚ) ^ (5 - e) := mul_lt_mul_of_pos_right hhi (by positivity)
      _ = 10 ^ 6 := by
          rw [← zpow_add₀ (by norm_num), show e + 1 + (5 - e) = ((6 : ℕ) : ℤ) by omega, zpow_natCast]
  have hMlo : 10 ^ 5 ≤ M := by
    by_contra hc
    have h1 := roundEven_nearest n hdpos (10 ^ 5)
    have h2 : (M : ℚ) ≤ 10 ^ 5 - 1 := by
      have : M + 1 ≤ 10 ^ 5 := by omega
      have : ((M + 1 : ℕ) : ℚ) ≤ ((10 ^ 5 : ℕ) : ℚ) := by exact_mod_cast this
      push_cast at this
      linarith
    rw [← hM, abs_of_nonpos (by linarith), abs_of_nonpos (by push_cast; linarith)] at h1
    push_cast at h1
    linarith
  have hMhi : M ≤ 10 ^ 6 := by
    by_contra hc
    have h1 := roundEven_nearest n hdpos (10 ^ 6)
    have h2 : (10 : ℚ) ^ 6 + 1 ≤ M := by
      have : 10 ^ 6 + 1 ≤ M := by omega
      exact_mod_cast this
    rw [← hM, abs_of_nonneg (by linarith), abs_of_nonneg (by push_cast; linarith)] at h1
    push_cast at h1
    linarith
  have hval : ((sixDigits a b).1 : ℚ) * 10 ^ ((sixDigits a b).2 - 5) = M * 10 ^ (e - 5) := by
    unfold sixDigits
    simp only [← he, ← hn, ← hd, ← hM]
    split
    · rename_i h
      rw [h, show e + 1 - 5 = 1 + (e - 5) by ring, zpow_add₀ (by norm_num), zpow_one]
      push_cast
      ring
    · rfl
  have h1 : 10 ^ 5 ≤ (sixDigits a b).1 ∧ (sixDigits a b).1 < 10 ^ 6 := by
    unfold sixDigits
    simp only [← he, ← hn, ← hd, ← hM]
    split
    · exact ⟨by norm_num, by norm_num⟩
    · rename_i h
      exact ⟨hMlo, by norm_num at hMhi h ⊢; omega⟩
  have heven : M % 2 = 0 → (sixDigits a b).1 % 2 = 0 := by
    unfold sixDigits
    simp only [← he, ← hn, ← hd, ← hM]
    split
    · intro _
      norm_num
    · exact id
  refine ⟨h1.1, h1.2, ?_, ?_, ?_⟩
  rotate_left 2
  · intro k s hk hne hle
    rw [hval] at hne hle
    have hgrid : ∀ K : Int, (K : ℚ) * 10 ^ (e - 5) ≠ M * 10 ^ (e - 5) →
        |(K : ℚ) * 10 ^ (e - 5) - a / b| ≤ |(M : ℚ) * 10 ^ (e - 5) - a / b| →
        (sixDigits a b).1 % 2 = 0 := by
      intro K hK hKle
      rw [hscale, hscale] at hKle
      refine heven (roundEven_tie n hdpos K ?_ (le_of_mul_le_mul_right hKle hg))
      intro hKM
      rw [hKM] at hK
      exact hK (by push_cast; rfl)
    rcases le_or_gt k 0 with hk0 | hk0
    · refine hgrid 0 ?_ ?_
      · have : (0 : ℚ) < M := by
          have : 0 < M := by omega
          exact_mod_cast this
        push_cast
        rw [zero_mul]
        exact (mul_pos this hg).ne
      · refine le_trans ?_ hle
        have h2 : (k : ℚ) * 10 ^ s ≤ 0 :=
          mul_nonpos_of_nonpos_of_nonneg (by exact_mod_cast hk0) (by positivity)
        rw [abs_of_nonpos (by push_cast; linarith), abs_of_nonpos (by linarith)]
        push_cast
        linarith
    · rcases le_or_gt (e - 5) s with hs | hs
      · have h3 : ((k * 10 ^ (s - (e - 5)).toNat : ℤ) : ℚ) * 10 ^ (e - 5) = k * 10 ^ s := by
          push_cast
          rw [mul_assoc, ← zpow_natCast, ← zpow_add₀ (by norm_num)]
          congr 2
          omega
        refine hgrid (k * 10 ^ (s - (e - 5)).toNat) ?_ ?_
        · rwa [h3]
        · rwa [h3]
      · exfalso
        have h2 := hle.trans (hnear (10 ^ 5))
        have h3 : ((10 ^ 5 : ℤ) : ℚ) * 10 ^ (e - 5) = 10 ^ e := by
          rw [zpow_sub₀ (by norm_num)]
          norm_num
          ring
        have h4 : (k : ℚ) * 10 ^ s < 10 ^ e := by
          calc (k : ℚ) * 10 ^ s < 10 ^ 6 * 10 ^ s :=
                mul_lt_mul_of_pos_right (by exact_mod_cast hk) (by positivity)
            _ = 10 ^ (6 + s) := by rw [zpow_add₀ (by norm_num)]; norm_cast
            _ ≤ 10 ^ e := zpow_le_zpow_right₀ (by norm_num) (by omega)
        rw [h3, abs_of_nonpos (by linarith), abs_of_nonpos (by linarith)] at h2
        linarith
  · intro k s hk
    rw [hval]
    rcases le_or_gt k 0 with hk0 | hk0
    · refine (hnear 0).trans ?_
      have h2 : (k : ℚ) * 10 ^ s ≤ 0 :=
        mul_nonpos_of_nonpos_of_nonneg (by exact_mod_cast hk0) (by positivity)
      rw [abs_of_nonpos (by push_cast; linarith), abs_of_nonpos (by linarith)]
      push_cast
      linarith
    · rcases le_or_gt (e - 5) s with hs | hs
      · have h2 := hnear (k * 10 ^ (s - (e - 5)).toNat)
        have h3 : ((k * 10 ^ (s - (e - 5)).toNat : ℤ) : ℚ) * 10 ^ (e - 5) = k * 10 ^ s := by
          push_cast
          rw [mul_assoc, ← zpow_natCast, ← zpow_add₀ (by norm_num)]
          congr 2
          omega
        rwa [h3] at h2
      · refine (hnear (10 ^ 5)).trans ?_
        have h3 : ((10 ^ 5 : ℤ) : ℚ) * 10 ^ (e - 5) = 10 ^ e := by
          rw [zpow_sub₀ (by norm_num)]
          norm_num
          ring
        have h4 : (k : ℚ) * 10 ^ s ≤ 10 ^ e := by
          calc (k : ℚ) * 10 ^ s ≤ 10 ^ 6 * 10 ^ s :=
                mul_le_mul_of_nonneg_right (by exact_mod_cast hk.le) (by positivity)
            _ = 10 ^ (6 + s) := by rw [zpow_add₀ (by norm_num)]; norm_cast
            _ ≤ 10 ^ e := zpow_le_zpow_right₀ (by norm_num) (by omega)
        rw [h3, abs_of_nonpos (by linarith), abs_of_nonpos (by linarith)]
        linarith
  · rw [hval, hscale]
    calc |(M : ℚ) - n / d| * 10 ^ (e - 5) ≤ 1 / 2 * 10 ^ (e - 5) :=
          mul_le_mul_of_nonneg_right hhalf hg.le
      _ = 5 / 10 ^ 6 * 10 ^ e := by
          rw [zpow_sub₀ (by norm_num)]
          norm_num
          ring
      _ ≤ _ := mul_le_mul_of_nonneg_left hlo (by norm_num)

/-! ## Written numbers -/

theorem natChars_six {m : Nat} (h1 : 10 ^ 5 ≤ m) (h2 : m < 10 ^ 6) : (natChars m).length = 6 := by
  rw [natChars_length (by positivity)]
  have : Nat.log 10 m = 5 := (Nat.log_eq_iff (Or.inl (by norm_num))).mpr ⟨h1, h2⟩
  omega

/-- A written positive number is read as its six digits. -/
theorem readPos_fmtPos {a b : Nat} (ha : 0 < a) (hb : 0 < b) :
    readPos (fmtPos a b) = ((sixDigits a b).1 : ℚ) * 10 ^ ((sixDigits a b).2 - 5) := by
  obtain ⟨h1, h2, -⟩ := sixDigits_spec ha hb
  unfold fmtPos
  generalize sixDigits a b = p at *
  obtain ⟨m, X⟩ := p
  simp only at h1 h2 ⊢
  have hlen := natChars_six h1 h2
  have hdig := natChars_isDig m
  have htake : ∀ k, ∀ c ∈ (natChars m).take k, IsDig c := fun k c hc => hdig c (List.mem_of_mem_take hc)
  have hdrop : ∀ k, ∀ c ∈ dropZeros ((natChars m).drop k), IsDig c := fun k =>
    dropZeros_sub fun c hc => hdig c (List.mem_of_mem_drop hc)
  split_ifs with c1 c2
  · rw [readPos_sci _ _ _ (htake 1) (hdrop 1), fracVal_dropZeros, split_val, hlen, readNat_natChars,
      zpow_sub₀ (by norm_num)]
    norm_num
    ring
  · rw [readPos_plain _ _ (by simpa using isDig_zero), fracVal_zeros, fracVal_dropZeros]
    · unfold fracVal
      rw [hlen, readNat_natChars, show readNat ['0'] = 0 by decide, div_div, ← pow_add,
        Nat.cast_zero, zero_add, div_eq_mul_inv, ← zpow_natCast, ← zpow_neg]
      congr 2
      omega
    · intro c hc
      rcases List.mem_append.mp hc with h | h
      · rw [List.eq_of_mem_replicate h]
        exact isDig_zero
      · exact dropZeros_sub hdig c h
  · rw [readPos_plain _ _ (htake _) (hdrop _), fracVal_dropZeros, split_val, hlen, readNat_natChars,
      div_eq_mul_inv, ← zpow_natCast, ← zpow_neg]
    congr 2
    omega

/-- Characters of a written positive number. -/
theorem fmtPos_mem (a b : Nat) : ∀ c ∈ fmtPos a b, IsDig c ∨ c ∈ ['.', 'e', '-', '+'] := by
  have hdig := natChars_isDig
  have hd : ∀ {l : List Char}, (∀ c ∈ l, IsDig c) → ∀ c ∈ l, IsDig c ∨ c ∈ ['.', 'e', '-', '+'] :=
    fun h c hc => Or.inl (h c hc)
  have hpt : ∀ {ip fp : List Char}, (∀ c ∈ ip, IsDig c) → (∀ c ∈ fp, IsDig c) →
      ∀ c ∈ withPoint ip fp, IsDig c ∨ c ∈ ['.', 'e', '-', '+'] := by
    intro ip fp hi hf c hc
    unfold withPoint at hc
    split at hc
    · exact Or.inl (hi c hc)
    · rcases List.mem_append.mp hc with h | h
      · exact Or.inl (hi c h)
      · rcases List.mem_cons.mp h with rfl | h
        · exact Or.inr (by decide)
        · exact Or.inl (hf c h)
  have hex : ∀ X, ∀ c ∈ expChars X, IsDig c ∨ c ∈ ['.', 'e', '-', '+'] := by
    intro X c hc
    unfold expChars at hc
    rcases List.mem_cons.mp hc with rfl | hc
    · exact Or.inr (by decide)
    · rcases List.mem_cons.mp hc with rfl | hc
      · right; split <;> decide
      · left
        split at hc
        · rcases List.mem_cons.mp hc with rfl | hc
          · exact isDig_zero
          · exact hdig _ c hc
        · exact hdig _ c hc
  unfold fmtPos
  generalize sixDigits a b = p
  obtain ⟨m, X⟩ := p
  simp only
  have htake : ∀ k, ∀ c ∈ (natChars m).take k, IsDig c :=
    fun k c hc => hdig m c (List.mem_of_mem_take hc)
  have hdrop : ∀ k, ∀ c ∈ dropZeros ((natChars m).drop k), IsDig c := fun k =>
    dropZeros_sub fun c hc => hdig m c (List.mem_of_mem_drop hc)
  split_ifs with c1 c2
  · intro c hc
    rcases List.mem_append.mp hc with h | h
    · exact hpt (htake 1) (hdrop 1) c h
    · exact hex X c h
  · refine hpt (by simpa using isDig_zero) ?_
    intro c hc
    rcases List.mem_append.mp hc with h | h
    · rw [List.eq_of_mem_replicate h]
      exact isDig_zero
    · exact dropZeros_sub (hdig m) c h
  · exact hpt (htake _) (hdrop _)

theorem withPoint_head {ip fp : List Char} (hi : ∀ c ∈ ip, IsDig c) (h : ip ≠ []) :
    ∃ c s, withPoint ip fp = c :: s ∧ IsDig c := by
  obtain ⟨c, ip, rfl⟩ := List.exists_cons_of_ne_nil h
  unfold withPoint
  split
  · exact ⟨c, ip, rfl, hi c List.mem_cons_self⟩
  · exact ⟨c, _, rfl, hi c List.mem_cons_self⟩

/-- A written positive number begins with a digit. -/
theorem fmtPos_head (a b : Nat) : ∃ c s, fmtPos a b = c :: s ∧ IsDig c := by
  unfold fmtPos
  generalize sixDigits a b = p
  obtain ⟨m, X⟩ := p
  simp only
  have hdig := natChars_isDig m
  have htake : ∀ k, ∀ c ∈ (natChars m).take k, IsDig c :=
    fun k c hc => hdig c (List.mem_of_mem_take hc)
  have hne : ∀ k, (natChars m).take (k + 1) ≠ [] := by
    intro k h
    have := natChars_ne_nil m
    rw [List.take_eq_nil_iff] at h
    simp_all
  split_ifs with c1 c2
  · obtain ⟨c, s, h, hc⟩ := withPoint_head (fp := dropZeros ((natChars m).drop 1)) (htake 1) (hne 0)
    exact ⟨c, s ++ expChars X, by rw [h]; rfl, hc⟩
  · exact withPoint_head (by simpa using isDig_zero) (List.cons_ne_nil _ _)
  · exact withPoint_head (htake _) (hne _)

theorem withPoint_no_e {ip fp : List Char} (hi : ∀ c ∈ ip, IsDig c) (hf : ∀ c ∈ fp, IsDig c) :
    'e' ∉ withPoint ip fp := by
  unfold withPoint
  split
  · exact fun h => (hi _ h).ne (by decide) rfl
  · rw [List.mem_append, List.mem_cons]
    rintro (h | h | h)
    · exact (hi _ h).ne (by decide) rfl
    · exact absurd h (by decide)
    · exact (hf _ h).ne (by decide) rfl

theorem dropZeros_last (l : List Char) : (dropZeros l).getLast? ≠ some '0' := by
  unfold dropZeros
  rw [List.getLast?_reverse]
  intro h
  have h1 := List.head?_dropWhile_not (· == '0') l.reverse
  rw [h] at h1
  simp at h1

/-- If there is a point, the last character is a digit other than 0. -/
theorem withPoint_last {ip fp : List Char} (hi : ∀ c ∈ ip, IsDig c) (hf : ∀ c ∈ fp, IsDig c)
    (hl : fp.getLast? ≠ some '0') (h : '.' ∈ withPoint ip fp) :
    ∃ c, (withPoint ip fp).getLast? = some c ∧ IsDig c ∧ c ≠ '0' := by
  unfold withPoint at h ⊢
  split at h
  · exact absurd rfl ((hi _ h).ne (d := '.') (by decide))
  · rename_i hne
    rw [if_neg hne]
    refine ⟨fp.getLast hne, ?_, hf _ (List.getLast_mem hne), ?_⟩
    · rw [List.getLast?_append, List.getLast?_cons, List.getLast?_eq_getLast_of_ne_nil hne]
      rfl
    · intro h0
      rw [List.getLast?_eq_getLast_of_ne_nil hne, h0] at hl
      exact hl rfl

/-- Notation of a written positive number: digits and perhaps a point, with an exponent if the number (rounded to six
digits) is below `10^-4` or not below `10^6`. -/
theorem fmtPos_parts {a b : Nat} (ha : 0 < a) (hb : 0 < b) :
    ∃ ip fp ex, fmtPos a b = withPoint ip fp ++ ex ∧ (∀ c ∈ ip, IsDig c) ∧ (∀ c ∈ fp, IsDig c) ∧
      fp.getLast? ≠ some '0' ∧
      (ex = [] ∧ -4 ≤ (sixDigits a b).2 ∧ (sixDigits a b).2 < 6 ∨
       ex = expChars (sixDigits a b).2 ∧ ((sixDigits a b).2 < -4 ∨ 6 ≤ (sixDigits a b).2)) := by
  unfold fmtPos
  obtain ⟨hm1, hm2, -⟩ := sixDigits_spec ha hb
  generalize sixDigits a b = p at *
  obtain ⟨m, X⟩ := p
  simp only at hm1 hm2 ⊢
  have hdig := natChars_isDig m
  have htake : ∀ k, ∀ c ∈ (natChars m).take k, IsDig c :=
    fun k c hc => hdig c (List.mem_of_mem_take hc)
  have hdrop : ∀ k, ∀ c ∈ dropZeros ((natChars m).drop k), IsDig c := fun k =>
    dropZeros_sub fun c hc => hdig c (List.mem_of_mem_drop hc)
  split_ifs with c1 c2
  · exact ⟨_, _, _, rfl, htake 1, hdrop 1, dropZeros_last _, Or.inr ⟨rfl, c1⟩⟩
  · refine ⟨_, _, [], (List.append_nil _).symm, by simpa using isDig_zero, ?_, ?_,
      Or.inl ⟨rfl, by omega, by omega⟩⟩
    · intro c hc
      rcases List.mem_append.mp hc with h | h
      · rw [List.eq_of_mem_replicate h]
        exact isDig_zero
      · exact dropZeros_sub hdig c h
    · have hne : dropZeros (natChars m) ≠ [] := by
        intro h0
        obtain ⟨k, hk⟩ := dropZeros_spec (natChars m)
        rw [h0, List.nil_append] at hk
        have := readNat_natChars m
        rw [hk, readNat_zeros] at this
        rw [← this] at hm1
        norm_num at hm1
      rw [List.getLast?_append_of_ne_nil _ hne]
      exact dropZeros_last _
  · exact ⟨_, _, [], (List.append_nil _).symm, htake _, hdrop _, dropZeros_last _,
      Or.inl ⟨rfl, by omega, by omega⟩⟩

/-- The decimal exponent of the rounded number. -/
theorem sixDigits_exp {m : Nat} {X : Int} (h1 : 10 ^ 5 ≤ m) (h2 : m < 10 ^ 6) :
    (10 : ℚ) ^ X ≤ m * 10 ^ (X - 5) ∧ (m : ℚ) * 10 ^ (X - 5) < 10 ^ (X + 1) := by
  have e1 : (10 : ℚ) ^ X = 10 ^ 5 * 10 ^ (X - 5) := by
    rw [zpow_sub₀ (by norm_num)]
    norm_num
    ring
  have e2 : (10 : ℚ) ^ (X + 1) = 10 ^ 6 * 10 ^ (X - 5) := by
    rw [zpow_sub₀ (by norm_num), zpow_add₀ (by norm_num)]
    norm_num
    ring
  have hg : (0 : ℚ) < 10 ^ (X - 5) := by positivity
  rw [e1, e2]
  exact ⟨mul_le_mul_of_nonneg_right (by exact_mod_cast h1) hg.le,
    mul_lt_mul_of_pos_right (by exact_mod_cast h2) hg⟩

theorem readDec_of_dig {c : Char} {s : List Char} (h : IsDig c) : readDec (c :: s) = readPos (c :: s) := by
  have : c ≠ '-' := h.ne (by decide)
  unfold readDec
  split
  · rename_i h'
    exact absurd (List.cons.inj h').1 this
  · rfl

/-- Integers below a million are written like integers. -/
theorem fmtPos_nat {n b : Nat} (hn : 0 < n) (hb : 0 < b) (h : n < 10 ^ 6) :
    fmtPos (n * b) b = natChars n := by
  have hb' : (b : ℚ) ≠ 0 := by exact_mod_cast hb.ne'
  have hL : Nat.log 10 n ≤ 5 := by
    have := Nat.log_lt_of_lt_pow hn.ne' h
    omega
  have hlog : Int.log 10 (((n * b : ℕ) : ℚ) / b) = Nat.log 10 n := by
    rw [Nat.cast_mul, mul_div_assoc, div_self hb', mul_one, Int.log_natCast]
  have hround : ∀ m : Nat, roundEven (m * b) b = m := by
    intro m
    unfold roundEven
    rw [Nat.mul_div_cancel _ hb, Nat.mul_mod_left]
    simp [hb]
  have hlt : n * 10 ^ (5 - Nat.log 10 n) < 10 ^ 6 := by
    have h1 := Nat.lt_pow_succ_log_self (b := 10) (by norm_num) n
    calc n * 10 ^ (5 - Nat.log 10 n) < 10 ^ (Nat.log 10 n + 1) * 10 ^ (5 - Nat.log 10 n) :=
          Nat.mul_lt_mul_of_pos_right h1 (by positivity)
      _ = 10 ^ 6 := by rw [← pow_add]; congr 1; omega
  have hsix : sixDigits (n * b) b = (n * 10 ^ (5 - Nat.log 10 n), (Nat.log 10 n : Int)) := by
    unfold sixDigits
    rw [hlog]
    simp only
    rw [show ((5 : Int) - Nat.log 10 n).toNat = 5 - Nat.log 10 n by omega,
      show ((Nat.log 10 n : Int) - 5).toNat = 0 by omega, pow_zero, mul_one,
      mul_right_comm, hround, if_neg (by norm_num at hlt ⊢; omega)]
  unfold fmtPos
  rw [hsix]
  simp only
  rw [if_neg (by omega), if_neg (by omega), Int.toNat_natCast, natChars_mul_pow hn.ne',
    ← natChars_length hn.ne', List.take_left, List.drop_left]
  have : dropZeros (List.replicate (5 - Nat.log 10 n) '0') = [] := by
    unfold dropZeros
    rw [List.reverse_replicate, List.dropWhile_replicate]
    rfl
  rw [this]
  rfl

end MatrixLibs
