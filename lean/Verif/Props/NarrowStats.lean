import Verif.Props.NarrowArith
import Verif.Proof.Stats
import Verif.Proof.RowMajor
import Verif.Proof.Scan
import Verif.Proof.IntChol
import Verif.Props.Float

/-!
# Narrow integers: statistics and comparison
-/

namespace MatrixLibs

set_option linter.unusedSectionVars false

open Promo (load store sqrtTo)
open CScalar (ofInt)

variable {t : Narrow} {i j : Nat} {G : Prop}

/-- Narrow integers, ordered by value. -/
instance (t : Narrow) : LinearOrder (NInt t) :=
  LinearOrder.lift' NInt.val (fun _ _ h => NInt.ext_val h)

/-! ## Mean, variance and standard deviation -/

/-- Division of an element by the number of elements, in `std::size_t`. -/
theorem divSize_narrow (s : NInt t) {n : Nat} (hn : n ≠ 0) :
    ∃ m : NInt t, (do .ok (store (← CScalar.divSize (load s : SInt 32) n)) : Res (NInt t)) = .ok m ∧
      m.val ≡ s.val % 2 ^ 64 / (n : ℤ) [ZMOD 2 ^ t.w] ∧ (0 ≤ s.val → m.val = s.val / (n : ℤ)) := by
  have h1 : (CScalar.divSize (load s : SInt 32) n : Res (SInt 32)) =
      .ok (SInt.wrap (s.val % (sizeMod : Int) / (n : ℤ))) := if_neg hn
  rw [h1, ok_bind]
  have h2 : (store (SInt.wrap (s.val % (sizeMod : Int) / (n : ℤ)) : SInt 32) : NInt t).val ≡
      s.val % 2 ^ 64 / (n : ℤ) [ZMOD 2 ^ t.w] := by
    refine (store_modEq _).trans ?_
    show Int.bmod (s.val % (sizeMod : Int) / (n : ℤ)) (2 ^ 32) ≡ _ [ZMOD 2 ^ t.w]
    have h3 : Int.bmod (s.val % (sizeMod : Int) / (n : ℤ)) (2 ^ 32) ≡ s.val % 2 ^ 64 / (n : ℤ)
        [ZMOD ((2 ^ 32 : Nat) : ℤ)] := Int.bmod_emod
    refine h3.of_dvd ?_
    have := t.le
    exact_mod_cast pow_dvd_pow 2 (show t.w ≤ 32 by omega)
  refine ⟨_, rfl, h2, fun h0 => ?_⟩
  have hb := t.has_bounds s.has
  rw [show s.val % 2 ^ 64 = s.val from Int.emod_eq_of_lt h0 (by norm_num; omega)] at h2
  refine t.has_unique (NInt.has _) ?_ h2
  have h4 : 0 ≤ s.val / (n : ℤ) := Int.ediv_nonneg h0 (by omega)
  have h5 : s.val / (n : ℤ) ≤ s.val := Int.ediv_le_self _ h0
  have h6 := s.has
  have h7 := t.has_zero
  unfold Narrow.Has at *
  omega

/-- A sum over all elements. -/
theorem wp_accumulate_narrow (A : Mat (NInt t) i j) (f : NInt t → NInt t → Res (NInt t)) (g : NInt t → ℤ)
    (hf : ∀ s x, wp (f s x) (fun y => y.val ≡ s.val + g x [ZMOD 2 ^ t.w]) (OverflowUnless G)) :
    wp ((rowMajor A).foldlM f (Promoted.lit 0))
      (fun s => s.val ≡ ∑ a, ∑ b, g (A a b) [ZMOD 2 ^ t.w]) (OverflowUnless G) := by
  refine wp_mono (wp_foldlM (fun pre s => s.val ≡ (pre.map g).sum [ZMOD 2 ^ t.w]) f ?_ (rowMajor A) []
    (Promoted.lit 0) ?_) ?_ (fun _ h => h)
  · intro pre s x hs
    refine wp_mono (hf s x) (fun y hy => ?_) (fun _ h => h)
    rw [List.map_append, List.sum_append, List.map_singleton, List.sum_singleton]
    exact hy.trans (hs.add_right _)
  · show (Promoted.lit 0 : NInt t).val ≡ _ [ZMOD _]
    rw [lit_zero]
    rfl
  · intro s hs
    rwa [List.nil_append, rowMajor_sum] at hs

theorem mean_fold (A : Mat (NInt t) i j) : Promoted.mean A = (do
    let s ← (rowMajor A).foldlM (fun (s x : NInt t) =>
      do .ok (store (← CScalar.add (load s : SInt 32) (load x)))) (Promoted.lit 0)
    .ok (store (← CScalar.divSize (load s : SInt 32) (i * j)))) := by
  rw [← forElems]
  rfl

/-- `mean` of a non-empty matrix of narrow integers always returns. The sum is kept in the element type, so it
is the exact one only modulo `2^w`; it is then divided as an unsigned 64-bit number. -/
theorem C93_mean (A : Mat (NInt t) i j) (h : i * j ≠ 0) :
    ∃ s m : NInt t, Promoted.mean A = .ok m ∧ s.val ≡ ∑ a, ∑ b, (A a b).val [ZMOD 2 ^ t.w] ∧
      m.val ≡ s.val % 2 ^ 64 / ((i * j : Nat) : ℤ) [ZMOD 2 ^ t.w] ∧
      (0 ≤ s.val → m.val = s.val / ((i * j : Nat) : ℤ)) := by
  obtain ⟨s, hs, hw⟩ := wp_total (wp_always (wp_accumulate_narrow A
    (fun s x => do .ok (store (← CScalar.add (load s : SInt 32) (load x)))) NInt.val (fun s x =>
      wp_store (Bnd.wp_add (Bnd.load (guard16 t) s) (Bnd.load (guard16 t) x) (by norm_num)))))
  obtain ⟨m, hm, h1, h2⟩ := divSize_narrow s h
  refine ⟨s, m, ?_, hw, h1, h2⟩
  rw [mean_fold, hs, ok_bind, hm]

/-- If the exact sum is not negative and fits the element type, `mean` is its quotient, rounded down. -/
theorem C93_mean_exact (A : Mat (NInt t) i j) (h : i * j ≠ 0) (S : ℤ) (hS : S = ∑ a, ∑ b, (A a b).val)
    (h0 : 0 ≤ S) (hfit : t.Has S) :
    ∃ m, Promoted.mean A = .ok m ∧ m.val = S / ((i * j : Nat) : ℤ) := by
  obtain ⟨s, m, hm, hs, -, h2⟩ := C93_mean A h
  rw [← hS] at hs
  have := t.has_unique s.has hfit hs
  rw [this] at h2
  exact ⟨m, hm, h2 h0⟩

/-- Otherwise it need not be near the elements: the mean of two bytes 200 is 72. -/
theorem C93_mean_wraps : Promoted.mean (Mat.const ⟨200, by decide⟩ : Mat (NInt .uint8) 1 2) =
    .ok ⟨72, by decide⟩ := by decide +kernel

/-- The mean of three elements -1 of type `signed char` is a third of 2^64 - 3, modulo 256. -/
theorem C93_mean_negative : Promoted.mean (Mat.const ⟨-1, by decide⟩ : Mat (NInt .int8) 1 3) =
    .ok ⟨84, by decide⟩ := by decide +kernel

/-- `mean` of an empty matrix divides by zero. -/
theorem C93_mean_empty (A : Mat (NInt t) i j) (h : i * j = 0) :
    Promoted.mean A = .error (.ub .divisionByZero) := by
  obtain ⟨s, hs, -⟩ := wp_total (wp_always (wp_accumulate_narrow A
    (fun s x => do .ok (store (← CScalar.add (load s : SInt 32) (load x)))) NInt.val (fun s x =>
      wp_store (Bnd.wp_add (Bnd.load (guard16 t) s) (Bnd.load (guard16 t) x) (by norm_num)))))
  rw [mean_fold, hs, ok_bind, h]
  rfl

theorem var_fold_narrow (A : Mat (NInt t) i j) : Promoted.var A = (do
    let m ← Promoted.mean A
    let s ← (rowMajor A).foldlM (fun (s x : NInt t) => do
      let d ← CScalar.sub (load x : SInt 32) (load m)
      let e ← CScalar.sub (load x : SInt 32) (load m)
      .ok (store (← CScalar.add (load s : SInt 32) (← CScalar.mul d e)))) (Promoted.lit 0)
    .ok (store (← CScalar.divSize (load s : SInt 32) (i * j)))) := by
  unfold Promoted.var
  refine congrArg _ (funext fun m => ?_)
  rw [← forElems]
  refine congrArg (· >>= _) (forUp_congr fun it s _ hit => forUp_congr fun jt s _ hjt => ?_)
  rw [rd_eq hit hjt]
  rfl

theorem wp_var_narrow (hG : Guard t G 255) (A : Mat (NInt t) i j) (h : i * j ≠ 0) (m : NInt t)
    (hm : Promoted.mean A = .ok m) :
    wp (Promoted.var A) (fun v => ∃ s : NInt t,
      s.val ≡ ∑ a, ∑ b, ((A a b).val - m.val) ^ 2 [ZMOD 2 ^ t.w] ∧
      v.val ≡ s.val % 2 ^ 64 / ((i * j : Nat) : ℤ) [ZMOD 2 ^ t.w] ∧
      (0 ≤ s.val → v.val = s.val / ((i * j : Nat) : ℤ))) (OverflowUnless G) := by
  rw [var_fold_narrow, hm, ok_bind, wp_bind]
  refine wp_mono (wp_accumulate_narrow A _ (fun x => (x.val - m.val) ^ 2) (fun s x => ?_)) (fun s hs => ?_)
    (fun _ h => h)
  · have hd := (Bnd.load hG x).wp_sub (Bnd.load hG m) (by norm_num)
    rw [wp_bind]
    refine wp_mono hd (fun d hd' => ?_) (fun _ h => h)
    rw [wp_bind]
    refine wp_mono hd (fun e he' => ?_) (fun _ h => h)
    rw [wp_bind]
    refine wp_mono (hd'.wp_mul he' (by norm_num)) (fun q hq => ?_) (fun _ h => h)
    refine wp_mono (wp_store ((Bnd.load hG s).wp_add hq (by norm_num))) (fun y hy => ?_) (fun _ h => h)
    rw [sq]
    exact hy
  · obtain ⟨v, hv, h1, h2⟩ := divSize_narrow s h
    rw [hv, wp_ok]
    exact ⟨s, hs, h1, h2⟩

/-- `var` of 8-bit elements always returns: the sum of the exact squared differences from the computed mean, modulo
`2^8`, divided as an unsigned number. -/
theorem C93_var (h8 : t.Is8) (A : Mat (NInt t) i j) (h : i * j ≠ 0) :
    ∃ s m v : NInt t, Promoted.mean A = .ok m ∧ Promoted.var A = .ok v ∧
      s.val ≡ ∑ a, ∑ b, ((A a b).val - m.val) ^ 2 [ZMOD 2 ^ t.w] ∧
      v.val ≡ s.val % 2 ^ 64 / ((i * j : Nat) : ℤ) [ZMOD 2 ^ t.w] ∧
      (0 ≤ s.val → v.val = s.val / ((i * j : Nat) : ℤ)) := by
  obtain ⟨-, m, hm, -⟩ := C93_mean A h
  obtain ⟨v, hv, s, h1⟩ := wp_total (wp_always (wp_var_narrow (fun _ => guard8 t h8) A h m hm))
  exact ⟨s, m, v, hm, hv, h1⟩

/-- Whatever the type, `var` of a non-empty matrix returns this or has a signed overflow. -/
theorem C93_var_value (A : Mat (NInt t) i j) (h : i * j ≠ 0) (m : NInt t) (hm : Promoted.mean A = .ok m) :
    wp (Promoted.var A) (fun v => ∃ s : NInt t,
      s.val ≡ ∑ a, ∑ b, ((A a b).val - m.val) ^ 2 [ZMOD 2 ^ t.w] ∧
      v.val ≡ s.val % 2 ^ 64 / ((i * j : Nat) : ℤ) [ZMOD 2 ^ t.w] ∧
      (0 ≤ s.val → v.val = s.val / ((i * j : Nat) : ℤ))) (fun e => e = .ub .signedOverflow) :=
  wp_mono (wp_var_narrow (G := False) (fun h => h.elim) A h m hm) (fun _ h => h) (fun _ h => h.1)

/-- Four equal elements of type `unsigned short` can have one: their computed mean is far from them. -/
theorem C93_var_overflow :
    Promoted.var (Mat.const ⟨65535, by decide⟩ : Mat (NInt .uint16) 1 4) = .error (.ub .signedOverflow) := by
  decide +kernel

/-- `stddev` is the integer square root of `var` if that is not negative, and undefined otherwise. -/
theorem C93_stddev (A : Mat (NInt t) i j) (v : NInt t) (hv : Promoted.var A = .ok v) :
    (0 ≤ v.val → ∃ s, Promoted.stddev A = .ok s ∧ s.val = v.val.toNat.sqrt) ∧
    (v.val < 0 → Promoted.stddev A = .error (.ub .domain)) := by
  unfold Promoted.stddev
  rw [hv, ok_bind]
  have hb := t.has_bounds v.has
  constructor
  · intro h0
    have e : sqrtTrunc v.val = some v.val.toNat.sqrt := by
      have := sqrtTrunc_eq (a := v.val.toNat) (by norm_num; omega)
      rwa [Int.toNat_of_nonneg h0] at this
    have hh : t.Has (v.val.toNat.sqrt : ℤ) := by
      have h1 := Nat.sqrt_le_self v.val.toNat
      have h6 := v.has
      have h7 := t.has_zero
      unfold Narrow.Has at *
      omega
    refine ⟨⟨_, hh⟩, ?_, rfl⟩
    show (match sqrtTrunc v.val with
      | some k => if h : t.Has k then .ok ⟨k, h⟩ else .error (.ub .domain)
      | none => .error (.ub .domain) : Res (NInt t)) = _
    rw [e]
    exact dif_pos hh
  · intro h0
    show (match sqrtTrunc v.val with
      | some k => if h : t.Has k then .ok ⟨k, h⟩ else .error (.ub .domain)
      | none => .error (.ub .domain) : Res (NInt t)) = _
    rw [sqrtTrunc_neg h0]

/-- The computed variance of `signed char` elements can be negative, and then `stddev` is undefined: so for 0
and 20. -/
theorem C93_stddev_undefined :
    ∃ A : Mat (NInt .int8) 1 2, ∃ v, Promoted.var A = .ok v ∧ v.val < 0 ∧
      Promoted.stddev A = .error (.ub .domain) := by
  refine ⟨.of fun _ b => if b = 0 then ⟨0, by decide⟩ else ⟨20, by decide⟩, ⟨-28, by decide⟩, ?_, by decide, ?_⟩
  · decide +kernel
  · decide +kernel

/-- Elements whose sum fits the element type: the mean is the quotient rounded down. -/
example : Narrow.Has .uint8 (200 : ℤ) ∧
    Promoted.mean (.of ![![⟨60, by decide⟩, ⟨71, by decide⟩, ⟨69, by decide⟩]] : Mat (NInt .uint8) 1 3) =
      .ok ⟨66, by decide⟩ := by
  constructor <;> decide +kernel

/-! ## Median -/

/-- `median` of an even number of elements: half the exact sum of the middle two, rounded towards zero. It lies
between them; nothing overflows or wraps. -/
theorem C94_median_even (sort : List (NInt t) → List (NInt t)) (hsort : Sorts sort) (A : Mat (NInt t) i j)
    (h : i * j % 2 = 0) (h0 : i * j ≠ 0) (hij : i * j < 2 ^ 64) :
    ∃ x y m, IsKth A (i * j / 2 - 1) x ∧ IsKth A (i * j / 2) y ∧ Promoted.median sort A = .ok m ∧
      m.val = (x.val + y.val).tdiv 2 ∧ x ≤ m ∧ m ≤ y := by
  obtain ⟨hp, hs⟩ := hsort (rowMajor A)
  have hl : (sort (rowMajor A)).length = i * j := by rw [hp.length_eq, rowMajor_length]
  have hk : i * j / 2 < (sort (rowMajor A)).length := by rw [hl]; omega
  have hk' : i * j / 2 - 1 < (sort (rowMajor A)).length := by rw [hl]; omega
  have hsz : szSub (i * j / 2) 1 = i * j / 2 - 1 := by
    unfold szSub sizeMod
    omega
  have hxy : (sort (rowMajor A))[i * j / 2 - 1] ≤ (sort (rowMajor A))[i * j / 2] :=
    List.pairwise_iff_getElem.mp hs _ _ hk' hk (by omega)
  have hx := sorted_isKth A _ hp hs _ hk'
  have hy := sorted_isKth A _ hp hs _ hk
  have hm : Promoted.median sort A = (do
      .ok (store (← CScalar.div (← CScalar.add (load (sort (rowMajor A))[i * j / 2] : SInt 32)
        (load (sort (rowMajor A))[i * j / 2 - 1])) (ofInt 2)))) := by
    unfold Promoted.median
    have e : ∀ k (hk : k < (sort (rowMajor A)).length), vecRd (sort (rowMajor A)) k =
      .ok (sort (rowMajor A))[k] := fun k hk => by
        unfold vecRd
        rw [List.getElem?_eq_getElem hk]
    rw [median_elems, ok_bind, if_pos h, hsz, e _ hk, e _ hk', ok_bind, ok_bind]
  generalize (sort (rowMajor A))[i * j / 2 - 1] = x at *
  generalize (sort (rowMajor A))[i * j / 2] = y at *
  have hxy' : x.val ≤ y.val := hxy
  have hbx := t.has_bounds x.has
  have hby := t.has_bounds y.has
  have hq1 : (x.val + y.val).tdiv 2 * 2 + (x.val + y.val).tmod 2 = x.val + y.val := Int.tdiv_mul_add_tmod _ _
  have hq2 := Int.tmod_lt_of_pos (x.val + y.val) (show (0 : Int) < 2 by norm_num)
  have hq3 := Int.lt_tmod_of_pos (x.val + y.val) (show (0 : Int) < 2 by norm_num)
  have hq4 : 0 ≤ x.val + y.val → 0 ≤ (x.val + y.val).tmod 2 := fun h => Int.tmod_nonneg _ h
  have hq5 : x.val + y.val ≤ 0 → (x.val + y.val).tmod 2 ≤ 0 := fun h => by
    have h1 := Int.tmod_nonneg 2 (a := -(x.val + y.val)) (by omega)
    rw [Int.neg_tmod] at h1
    omega
  have hhas : t.Has ((x.val + y.val).tdiv 2) := by
    have h1 := x.has
    have h2 := y.has
    unfold Narrow.Has at *
    generalize (x.val + y.val).tdiv 2 = q at *
    generalize (x.val + y.val).tmod 2 = r at *
    omega
  refine ⟨x, y, ⟨_, hhas⟩, hx, hy, ?_, rfl, ?_, ?_⟩
  · rw [hm]
    have h2 : (ofInt 2 : SInt 32).val = 2 := int_ofInt 2 (by norm_num) (by norm_num)
    have e1 : (CScalar.add (load y : SInt 32) (load x) : Res (SInt 32)) =
        .ok ⟨y.val + x.val, inRange32 (by omega) (by omega)⟩ := checked_ok (k := y.val + x.val) _
    rw [e1, ok_bind]
    have hr : InRange 32 ((y.val + x.val).tdiv 2) := by
      rw [add_comm]
      exact t.has_inRange hhas
    have e2 : (CScalar.div (⟨y.val + x.val, inRange32 (by omega) (by omega)⟩ : SInt 32) (ofInt 2) : Res (SInt 32)) =
        .ok ⟨(y.val + x.val).tdiv 2, hr⟩ := by
      show (if (ofInt 2 : SInt 32).val = 0 then _ else SInt.checked _) = _
      rw [h2, if_neg (by norm_num)]
      exact checked_ok (k := (y.val + x.val).tdiv 2) _
    rw [e2, ok_bind, store_eq]
    refine congrArg _ (NInt.ext_val ?_)
    show (NInt.ofInt ((y.val + x.val).tdiv 2) : NInt t).val = (x.val + y.val).tdiv 2
    rw [add_comm, NInt.ofInt_val hhas]
  · show x.val ≤ (x.val + y.val).tdiv 2
    generalize (x.val + y.val).tdiv 2 = q at *
    generalize (x.val + y.val).tmod 2 = r at *
    omega
  · show (x.val + y.val).tdiv 2 ≤ y.val
    generalize (x.val + y.val).tdiv 2 = q at *
    generalize (x.val + y.val).tmod 2 = r at *
    omega

/-- `median` of an odd number of elements is the middle one. -/
theorem C94_median_odd (sort : List (NInt t) → List (NInt t)) (hsort : Sorts sort) (A : Mat (NInt t) i j)
    (h : i * j % 2 = 1) : ∃ m, Promoted.median sort A = .ok m ∧ IsKth A (i * j / 2) m := by
  obtain ⟨hp, hs⟩ := hsort (rowMajor A)
  have hl : (sort (rowMajor A)).length = i * j := by rw [hp.length_eq, rowMajor_length]
  have hk : i * j / 2 < (sort (rowMajor A)).length := by rw [hl]; omega
  refine ⟨(sort (rowMajor A))[i * j / 2], ?_, sorted_isKth A _ hp hs _ hk⟩
  unfold Promoted.median
  rw [median_elems, ok_bind, if_neg (by omega)]
  unfold vecRd
  rw [List.getElem?_eq_getElem hk]

/-- Two elements whose sum does not fit `unsigned char`: the median is their midpoint nonetheless. -/
example : Promoted.median (fun l => l.insertionSort (· ≤ ·))
      (.of ![![⟨250, by decide⟩, ⟨200, by decide⟩]] : Mat (NInt .uint8) 1 2) = .ok ⟨225, by decide⟩ := by
  decide +kernel

/-! ## Comparison -/

/-- `compare` of narrow integer matrices always returns. For a finite tolerance it is true exactly if no two
elements at the same place differ by more than the tolerance: the differences are exact. -/
theorem C95_compare (A B : Mat (NInt t) i j) (eps : Fl binary32) (he : eps.Finite) :
    ∃ b, Promoted.compare A B eps = .ok b ∧
      (b = true ↔ ∀ a c, ((|(A a c).val - (B a c).val| : ℤ) : ℝ) ≤ eps.val) := by
  unfold Promoted.compare Promoted.compareLoop
  have hstep : ∀ (a : Fin i) (b : Fin j), (do
      let d ← CScalar.abs (← CScalar.sub (load (← rd A a.val b.val) : SInt 32) (load (← rd B a.val b.val)))
      if eps.lt (Fl.ofInt d.val) then .ok (.ret false)
      else .ok (.cont ()) : Res (Ctl Unit Bool)) =
      if eps.lt (Fl.ofInt |(A a b).val - (B a b).val|) then .ok (.ret false)
      else .ok (.cont ()) := by
    intro a b
    have h1 := t.has_bounds (A a b).has
    have h2 := t.has_bounds (B a b).has
    have h3 : InRange 32 ((A a b).val - (B a b).val) := inRange32 (by omega) (by omega)
    have h4 : InRange 32 |(A a b).val - (B a b).val| := by
      have : |(A a b).val - (B a b).val| ≤ 200000 := abs_le.mpr ⟨by omega, by omega⟩
      have := abs_nonneg ((A a b).val - (B a b).val)
      exact inRange32 (by omega) (by omega)
    rw [rd_fin, ok_bind, rd_fin, ok_bind]
    have e1 : (CScalar.sub (load (A a b) : SInt 32) (load (B a b)) : Res (SInt 32)) = .ok ⟨_, h3⟩ := dif_pos h3
    have e2 : CScalar.abs (⟨_, h3⟩ : SInt 32) = .ok ⟨_, h4⟩ := dif_pos h4
    rw [e1, ok_bind, e2, ok_bind]
  have hiff : ∀ (a : Fin i) (b : Fin j), eps.lt (Fl.ofInt |(A a b).val - (B a b).val|) = false ↔
      ((|(A a b).val - (B a b).val| : ℤ) : ℝ) ≤ eps.val := by
    intro a b
    have h1 := t.has_bounds (A a b).has
    have h2 := t.has_bounds (B a b).has
    have h5 : |(A a b).val - (B a b).val| ≤ 200000 := abs_le.mpr ⟨by omega, by omega⟩
    have h6 := abs_nonneg ((A a b).val - (B a b).val)
    generalize |(A a b).val - (B a b).val| = d at *
    obtain ⟨h2, h3⟩ := Fl.val_ofInt_exact (F := binary32) d (by
      show d.natAbs ≤ 2 ^ 24
      omega)
    rw [← Bool.not_eq_true, Fl.lt_iff he h2, not_lt, h3]
  simp only [← hiff]
  refine scan_ok (fun it jt => do
      let d ← CScalar.abs (← CScalar.sub (load (← rd A it jt) : SInt 32) (load (← rd B it jt)))
      if eps.lt (Fl.ofInt d.val) then .ok (.ret false)
      else .ok (.cont ()))
    (fun a c => eps.lt (Fl.ofInt |(A a c).val - (B a c).val|) = false) ?_ ?_
  · intro a b h
    rw [hstep, h]
    rfl
  · intro a b h
    rw [hstep, (Bool.not_eq_false _).mp h]
    rfl

/-- With tolerance zero it is equality. -/
theorem C95_compare_zero (A B : Mat (NInt t) i j) :
    ∃ b, Promoted.compare A B (Fl.ofInt 0) = .ok b ∧ (b = true ↔ A = B) := by
  obtain ⟨h2, h3⟩ := Fl.val_ofInt_exact (F := binary32) 0 (by decide)
  obtain ⟨b, hb, h⟩ := C95_compare A B (Fl.ofInt 0) h2
  refine ⟨b, hb, h.trans ⟨fun he => ?_, fun he a c => ?_⟩⟩
  · ext a c
    have h4 := he a c
    rw [h3] at h4
    have h5 : |(A a c).val - (B a c).val| ≤ 0 := by exact_mod_cast h4
    exact NInt.ext_val (sub_eq_zero.mp (abs_nonpos_iff.mp h5))
  · rw [he, h3]
    simp

example : Promoted.compare (Mat.const ⟨255, by decide⟩ : Mat (NInt .uint8) 2 2) (Mat.const ⟨0, by decide⟩)
    (Fl.ofInt 1) = .ok false := by decide +kernel

end MatrixLibs
