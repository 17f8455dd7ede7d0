import Verif.Props.Stats
import Verif.Props.Arith
import Verif.Proof.IntSqrt

/-!
# Property C81: mean, variance, standard deviation and median of integer matrices

`.val` is the value of a signed, `.toNat` that of an unsigned element.
-/

namespace MatrixLibs

set_option linter.unusedSectionVars false

open CScalar (ofInt)

variable {i j : Nat}

/-! ## The loop of `var` -/

/-- One step of the sum of `var`. -/
def varStep {T : Type} [CScalar T] (m r x : T) : Res T := do
  let d ← CScalar.sub x m
  let e ← CScalar.sub x m
  CScalar.add r (← CScalar.mul d e)

theorem var_fold {T : Type} [Inhabited T] [CScalar T] (A : Mat T i j) :
    var A = (do
      let m ← mean A
      let s ← (rowMajor A).foldlM (varStep m) (ofInt 0)
      CScalar.divSize s (i * j)) := by
  unfold var
  congr 1
  funext m
  rw [← forElems A (ofInt 0) (varStep m)]
  congr 1
  refine forUp_congr (fun it s _ hi => forUp_congr (fun jt s _ hj => ?_))
  rw [rd_eq hi hj, ok_bind, ok_bind]
  rfl

theorem map_sum_nonneg (l : List Int) (h : ∀ x ∈ l, 0 ≤ x) : 0 ≤ l.sum := by
  induction l with
  | nil => exact le_rfl
  | cons a l ih =>
    rw [List.sum_cons]
    exact add_nonneg (h a (by simp)) (ih fun x hx => h x (by simp [hx]))

/-! ## Unsigned elements -/

section
variable {w : Nat}

theorem fold_mod (f : BitVec w → BitVec w) (g : BitVec w → Int)
    (hfg : ∀ x, ((f x).toNat : Int) % 2 ^ w = g x % 2 ^ w) (l : List (BitVec w)) (s : BitVec w) :
    ((l.foldl (fun r x => r + f x) s).toNat : Int) = (s.toNat + (l.map g).sum) % 2 ^ w := by
  have hlt : ∀ x : BitVec w, (x.toNat : Int) % 2 ^ w = x.toNat := fun x =>
    Int.emod_eq_of_lt (Int.natCast_nonneg _) (by exact_mod_cast x.isLt)
  induction l generalizing s with
  | nil => rw [List.foldl_nil, List.map_nil, List.sum_nil, add_zero, hlt]
  | cons x l ih =>
    rw [List.foldl_cons, ih, List.map_cons, List.sum_cons, BitVec.toNat_add]
    push_cast
    rw [Int.emod_add_emod, add_assoc]
    exact Int.ModEq.add_left _ (Int.ModEq.add_right _ (hfg x))

theorem bv_zero : (ofInt 0 : BitVec w).toNat = 0 := by
  show (BitVec.ofInt w 0).toNat = 0
  simp

theorem divSize_unsigned (hw : w ≤ 64) (s : BitVec w) {n : Nat} (hn : n ≠ 0) :
    ∃ m, CScalar.divSize s n = .ok m ∧ m.toNat = s.toNat / n := by
  refine ⟨BitVec.ofNat w (s.toNat % sizeMod / n), ?_, ?_⟩
  · show (if n = 0 then _ else _) = _
    rw [if_neg hn]
  · have h1 : s.toNat % sizeMod = s.toNat :=
      Nat.mod_eq_of_lt (s.isLt.trans_le (Nat.pow_le_pow_right (by norm_num) hw))
    rw [h1, BitVec.toNat_ofNat]
    exact Nat.mod_eq_of_lt ((Nat.div_le_self _ _).trans_lt s.isLt)

/-- C81: `mean` of unsigned elements: their sum modulo 2^w, divided by their number rounding down. -/
theorem C81_mean_unsigned (hw : w ≤ 64) (A : Mat (BitVec w) i j) (h : i * j ≠ 0) :
    ∃ m, mean A = .ok m ∧ m.toNat = (∑ a, ∑ b, (A a b).toNat) % 2 ^ w / (i * j) := by
  have hm : mean A = CScalar.divSize ((rowMajor A).foldl (fun r x => r + x) (ofInt 0)) (i * j) := by
    unfold mean
    rw [forElems A (ofInt 0) (fun r x => CScalar.add r x),
      foldlM_ok _ _ (fun r x => CScalar.add r x) (fun r x => r + x) (fun _ _ => rfl), ok_bind]
  obtain ⟨m, h1, h2⟩ := divSize_unsigned hw ((rowMajor A).foldl (fun r x => r + x) (ofInt 0)) h
  refine ⟨m, hm.trans h1, ?_⟩
  rw [h2]
  congr 1
  have := fold_mod (fun x => x) (fun x => (x.toNat : Int)) (fun _ => rfl) (rowMajor A) (ofInt 0)
  rw [bv_zero, rowMajor_sum A (fun x => (x.toNat : Int)), Nat.cast_zero, zero_add] at this
  have h3 : (((rowMajor A).foldl (fun r x => r + x) (ofInt 0 : BitVec w)).toNat : Int) =
      (((∑ a, ∑ b, (A a b).toNat) % 2 ^ w : Nat) : Int) := by
    rw [this]
    push_cast
    rfl
  exact_mod_cast h3

/-- C81: `var` of unsigned elements: the sum of the squared differences from the computed mean, modulo 2^w,
divided by their number rounding down. -/
theorem C81_var_unsigned (hw : w ≤ 64) (A : Mat (BitVec w) i j) (h : i * j ≠ 0) :
    ∃ m v, mean A = .ok m ∧ var A = .ok v ∧
      (v.toNat : Int) = (∑ a, ∑ b, (((A a b).toNat : Int) - m.toNat) ^ 2) % 2 ^ w / ((i * j : Nat) : Int) := by
  obtain ⟨m, hm, -⟩ := C81_mean_unsigned hw A h
  obtain ⟨v, h1, h2⟩ := divSize_unsigned hw
    ((rowMajor A).foldl (fun r x => r + (x - m) * (x - m)) (ofInt 0)) h
  refine ⟨m, v, hm, ?_, ?_⟩
  · rw [var_fold, hm, ok_bind, foldlM_ok _ _ (varStep m) (fun r x => r + (x - m) * (x - m)) (fun _ _ => rfl), ok_bind]
    exact h1
  · have hsub : ∀ x y : BitVec w, ((x - y).toNat : Int) % 2 ^ w = ((x.toNat : Int) - y.toNat) % 2 ^ w := by
      intro x y
      rw [BitVec.toNat_sub, Int.natCast_mod, Nat.cast_add, Nat.cast_sub y.isLt.le]
      push_cast
      rw [Int.emod_emod_of_dvd _ dvd_rfl,
        show ((2 : Int) ^ w - y.toNat + x.toNat) = (x.toNat - y.toNat) + 2 ^ w by ring, Int.add_emod_right]
    have := fold_mod (fun x => (x - m) * (x - m)) (fun x => ((x.toNat : Int) - m.toNat) ^ 2) (by
      intro x
      rw [BitVec.toNat_mul]
      push_cast
      rw [Int.emod_emod_of_dvd _ dvd_rfl, Int.mul_emod, hsub, ← Int.mul_emod, sq]) (rowMajor A) (ofInt 0)
    rw [bv_zero, rowMajor_sum A (fun x => ((x.toNat : Int) - m.toNat) ^ 2), Nat.cast_zero, zero_add] at this
    rw [h2, Int.natCast_div, this]

/-- C81: in particular, if the sum of the squared differences is below 2^w the result is its quotient by the number
of elements, although differences of elements below the mean wrap around. -/
theorem C81_var_unsigned_exact (hw : w ≤ 64) (A : Mat (BitVec w) i j) (h : i * j ≠ 0) (m : BitVec w)
    (hm : mean A = .ok m) (hs : ∑ a, ∑ b, (((A a b).toNat : Int) - m.toNat) ^ 2 < 2 ^ w) :
    ∃ v, var A = .ok v ∧
      (v.toNat : Int) = (∑ a, ∑ b, (((A a b).toNat : Int) - m.toNat) ^ 2) / ((i * j : Nat) : Int) := by
  obtain ⟨m', v, hm', hv, e⟩ := C81_var_unsigned hw A h
  rw [hm] at hm'
  cases hm'
  refine ⟨v, hv, ?_⟩
  rw [e, Int.emod_eq_of_lt (Finset.sum_nonneg fun a _ => Finset.sum_nonneg fun b _ => sq_nonneg _) hs]

/-- C81: `stddev` of unsigned elements always returns, for a variance below 2^52 the integer square root of it. -/
theorem C81_stddev_unsigned (hw2 : 2 ≤ w) (hw : w ≤ 64) (A : Mat (BitVec w) i j) (h : i * j ≠ 0) :
    ∃ v s, var A = .ok v ∧ stddev A = .ok s ∧ (v.toNat < 2 ^ 52 → s.toNat = v.toNat.sqrt) := by
  obtain ⟨-, v, -, hv, -⟩ := C81_var_unsigned hw A h
  obtain ⟨y, x, hy, -, -, hx, hf, h0, hb⟩ := sqrt_bound (a := v.toNat) (e := w) (f := (w + 1) / 2) v.isLt.le
    (by omega) (by omega)
  rw [← hy] at hx
  have ht := sqrtTrunc_fin hx hf
  rw [abs_of_nonneg h0] at ht
  have hk : ⌊x.val⌋₊ < 2 ^ w := by
    have h1 : ⌊x.val⌋₊ ≤ 2 ^ ((w + 1) / 2) := by
      refine Nat.floor_le_of_le ?_
      exact_mod_cast hb
    exact h1.trans_lt (Nat.pow_lt_pow_right (by norm_num) (by omega))
  have hs : stddev A = .ok (BitVec.ofNat w ⌊x.val⌋₊) := by
    unfold stddev
    rw [hv, ok_bind]
    show unsignedOf w (sqrtTrunc v.toNat) = _
    rw [ht]
    unfold unsignedOf
    exact if_pos hk
  refine ⟨v, _, hv, hs, fun hv52 => ?_⟩
  rw [sqrtTrunc_eq hv52] at ht
  rw [BitVec.toNat_ofNat, Nat.mod_eq_of_lt hk, ← Option.some.inj ht]

/-- C81: not above: the square root goes through `double`, and the "square root" of 2^64 - 1 is 2^32, as `chol`
shows. -/
theorem C81_sqrt_inexact : ∃ A : Mat (BitVec 64) 1 1, ∃ L, chol A = .ok L ∧
    (A 0 0).toNat < (L 0 0).toNat * (L 0 0).toNat := by
  refine ⟨.of fun _ _ => BitVec.ofNat 64 (2 ^ 64 - 1), .of fun _ _ => BitVec.ofNat 64 (2 ^ 32), ?_, ?_⟩
  · decide +kernel
  · decide +kernel

/-- C81: `median` of an even number of unsigned elements: the sum of the middle two modulo 2^w, halved rounding
down. -/
theorem C81_median_even_unsigned (hw : 2 ≤ w) (sort : List (BitVec w) → List (BitVec w)) (hsort : Sorts sort)
    (A : Mat (BitVec w) i j) (h : i * j % 2 = 0) (h0 : i * j ≠ 0) (hij : i * j < 2 ^ 64) :
    ∃ x y m, IsKth A (i * j / 2 - 1) x ∧ IsKth A (i * j / 2) y ∧ median sort A = .ok m ∧
      m.toNat = (x.toNat + y.toNat) % 2 ^ w / 2 := by
  obtain ⟨x, y, hx, hy, hm⟩ := C57_median_even sort hsort A h h0 hij
  have h4 : 2 ^ 2 ≤ 2 ^ w := Nat.pow_le_pow_right (by norm_num) hw
  have h2 : (ofInt 2 : BitVec w).toNat = 2 := by
    show (BitVec.ofInt w 2).toNat = 2
    rw [show BitVec.ofInt w 2 = BitVec.ofNat w 2 from rfl, BitVec.toNat_ofNat]
    exact Nat.mod_eq_of_lt (by omega)
  refine ⟨x, y, (y + x) / ofInt 2, hx, hy, ?_, ?_⟩
  · rw [hm]
    show (if (ofInt 2 : BitVec w) = 0#w then _ else _) = _
    rw [if_neg]
    intro e
    rw [e] at h2
    simp at h2
  · rw [BitVec.toNat_udiv, BitVec.toNat_add, h2, add_comm]

end

/-! ## Signed elements -/

section
variable {w : Nat}

theorem varStep_fold (m : SInt w) (l : List (SInt w)) (s : SInt w) (hs : 0 ≤ s.val) :
    (s.val + (l.map fun x => (x.val - m.val) ^ 2).sum < 2 ^ (w - 1) →
      ∃ t, l.foldlM (varStep m) s = .ok t ∧ t.val = s.val + (l.map fun x => (x.val - m.val) ^ 2).sum) ∧
    (2 ^ (w - 1) ≤ s.val + (l.map fun x => (x.val - m.val) ^ 2).sum →
      l.foldlM (varStep m) s = .error (.ub .signedOverflow)) := by
  induction l generalizing s with
  | nil =>
    rw [List.map_nil, List.sum_nil, add_zero]
    exact ⟨fun _ => ⟨s, rfl, rfl⟩, fun h => absurd s.inRange.2 (not_lt.mpr h)⟩
  | cons x l ih =>
    rw [List.map_cons, List.sum_cons, List.foldlM_cons]
    have hrest : 0 ≤ (l.map fun x => (x.val - m.val) ^ 2).sum := map_sum_nonneg _ fun y hy => by
      obtain ⟨z, -, rfl⟩ := List.mem_map.mp hy
      exact sq_nonneg _
    set R := (l.map fun x => (x.val - m.val) ^ 2).sum with hR
    set d := x.val - m.val with hd
    have hstep : varStep m s x = (do
        let d' ← SInt.checked d
        let e' ← SInt.checked d
        CScalar.add s (← CScalar.mul d' e')) := rfl
    have hsq : |d| ≤ d ^ 2 := by
      rw [← sq_abs]
      rcases (abs_nonneg d).eq_or_lt with h | h
      · rw [← h]; norm_num
      · nlinarith [h]
    have hd1 := abs_le.mp hsq
    have hd0 := sq_nonneg d
    by_cases h1 : InRange w d
    · by_cases h2 : InRange w (d * d)
      · by_cases h3 : InRange w (s.val + d * d)
        · have e : varStep m s x = .ok ⟨s.val + d * d, h3⟩ := by
            rw [hstep]
            unfold SInt.checked
            rw [dif_pos h1, ok_bind, ok_bind]
            show SInt.checked (d * d) >>= _ = _
            unfold SInt.checked
            rw [dif_pos h2, ok_bind]
            show SInt.checked (s.val + d * d) = _
            unfold SInt.checked
            rw [dif_pos h3]
          rw [e, ok_bind]
          have := ih ⟨s.val + d * d, h3⟩ (by rw [sq] at hd0; simp only; omega)
          simp only at this
          rw [sq, ← add_assoc]
          exact this
        · have e : varStep m s x = .error (.ub .signedOverflow) := by
            rw [hstep]
            unfold SInt.checked
            rw [dif_pos h1, ok_bind, ok_bind]
            show SInt.checked (d * d) >>= _ = _
            unfold SInt.checked
            rw [dif_pos h2, ok_bind]
            show SInt.checked (s.val + d * d) = _
            unfold SInt.checked
            rw [dif_neg h3]
          rw [e, error_bind]
          refine ⟨fun h => absurd ?_ h3, fun _ => rfl⟩
          rw [← sq]
          constructor <;> omega
      · have e : varStep m s x = .error (.ub .signedOverflow) := by
          rw [hstep]
          unfold SInt.checked
          rw [dif_pos h1, ok_bind, ok_bind]
          show SInt.checked (d * d) >>= _ = _
          unfold SInt.checked
          rw [dif_neg h2, error_bind]
        rw [e, error_bind]
        refine ⟨fun h => absurd ?_ h2, fun _ => rfl⟩
        rw [← sq]
        constructor <;> omega
    · have e : varStep m s x = .error (.ub .signedOverflow) := by
        rw [hstep]
        unfold SInt.checked
        rw [dif_neg h1, error_bind]
      rw [e, error_bind]
      refine ⟨fun h => absurd ?_ h1, fun _ => rfl⟩
      constructor <;> omega

variable [Inhabited (SInt w)]

/-- C81: `var` of signed elements, given that the mean returns `m`: the sum of the squared differences from `m`
divided by the number of elements, rounding down; a signed overflow exactly if that sum is not representable. -/
theorem C81_var_signed (hw : 2 ≤ w) (hw' : w ≤ 64) (A : Mat (SInt w) i j) (h : i * j ≠ 0) (m : SInt w)
    (hm : mean A = .ok m) :
    (∑ a, ∑ b, ((A a b).val - m.val) ^ 2 < 2 ^ (w - 1) →
      ∃ v, var A = .ok v ∧ v.val = (∑ a, ∑ b, ((A a b).val - m.val) ^ 2) / ((i * j : Nat) : Int)) ∧
    (2 ^ (w - 1) ≤ ∑ a, ∑ b, ((A a b).val - m.val) ^ 2 → var A = .error (.ub .signedOverflow)) := by
  have h0 : (ofInt 0 : SInt w).val = 0 := by
    show Int.bmod 0 (2 ^ w) = 0
    exact Int.zero_bmod
  obtain ⟨k1, k2⟩ := varStep_fold m (rowMajor A) (ofInt 0) (by rw [h0])
  rw [h0, zero_add, rowMajor_sum A fun x => (x.val - m.val) ^ 2] at k1 k2
  rw [var_fold, hm, ok_bind]
  set S := ∑ a, ∑ b, ((A a b).val - m.val) ^ 2 with hS
  have hS0 : 0 ≤ S := Finset.sum_nonneg fun a _ => Finset.sum_nonneg fun b _ => sq_nonneg _
  constructor
  · intro hlt
    obtain ⟨t, ht, htv⟩ := k1 hlt
    rw [ht, ok_bind]
    have hn : (0 : Int) < ((i * j : Nat) : Int) := by exact_mod_cast Nat.pos_of_ne_zero h
    have hq0 : 0 ≤ S / ((i * j : Nat) : Int) := Int.ediv_nonneg hS0 hn.le
    have hq1 : S / ((i * j : Nat) : Int) ≤ S := Int.ediv_le_self _ hS0
    refine ⟨SInt.wrap ((t.val % (sizeMod : Int)) / ((i * j : Nat) : Int)), ?_, ?_⟩
    · show (if i * j = 0 then _ else _) = _
      rw [if_neg h]
    · have h64 : (2 : Int) ^ (w - 1) ≤ 2 ^ 63 := pow_le_pow_right₀ (by norm_num) (by omega)
      have hmod : t.val % (sizeMod : Int) = S := by
        rw [htv]
        refine Int.emod_eq_of_lt hS0 ?_
        show S < 2 ^ 64
        omega
      rw [hmod]
      show Int.bmod _ (2 ^ w) = _
      have e2 : ((2 ^ w : Nat) : Int) = 2 * 2 ^ (w - 1) := by
        rw [← pow_succ']
        push_cast
        congr 1
        omega
      have hpos : (0 : Int) < 2 ^ (w - 1) := by positivity
      exact Int.bmod_eq_of_le (by rw [e2]; omega) (by rw [e2]; omega)
  · intro hge
    rw [k2 hge, error_bind]

/-- C81: `stddev` of signed elements returns whenever `var` does, for a variance below 2^52 the integer square root
of it. -/
theorem C81_stddev_signed (hw : 3 ≤ w) (hw' : w ≤ 64) (A : Mat (SInt w) i j) (h : i * j ≠ 0) (v : SInt w)
    (hv : var A = .ok v) :
    0 ≤ v.val ∧ ∃ s, stddev A = .ok s ∧ (v.val < 2 ^ 52 → s.val = v.val.toNat.sqrt) := by
  have hv0 : 0 ≤ v.val := by
    cases hm : mean A with
    | error e => rw [var_fold, hm, error_bind] at hv; cases hv
    | ok m =>
      obtain ⟨k1, k2⟩ := C81_var_signed (by omega) hw' A h m hm
      rcases lt_or_ge (∑ a, ∑ b, ((A a b).val - m.val) ^ 2) (2 ^ (w - 1)) with hl | hg
      · obtain ⟨v', hv', e⟩ := k1 hl
        rw [hv] at hv'
        cases hv'
        rw [e]
        exact Int.ediv_nonneg (Finset.sum_nonneg fun a _ => Finset.sum_nonneg fun b _ => sq_nonneg _)
          (Int.natCast_nonneg _)
      · rw [k2 hg] at hv
        cases hv
  refine ⟨hv0, ?_⟩
  obtain ⟨k, hk⟩ := Int.eq_ofNat_of_zero_le hv0
  have hkb : k ≤ 2 ^ (w - 1) := by
    have := v.inRange.2
    rw [hk] at this
    exact_mod_cast this.le
  obtain ⟨y, x, hy, -, -, hx, hf, h0, hb⟩ := sqrt_bound (a := k) (e := w - 1) (f := w / 2) hkb
    (by omega) (by omega)
  rw [← hy] at hx
  have ht := sqrtTrunc_fin hx hf
  rw [abs_of_nonneg h0] at ht
  have hkr : InRange w (⌊x.val⌋₊ : Int) := by
    have h1 : ⌊x.val⌋₊ ≤ 2 ^ (w / 2) := by
      refine Nat.floor_le_of_le ?_
      exact_mod_cast hb
    have h2 : ⌊x.val⌋₊ < 2 ^ (w - 1) := h1.trans_lt (Nat.pow_lt_pow_right (by norm_num) (by omega))
    have h3 : (⌊x.val⌋₊ : Int) < 2 ^ (w - 1) := by exact_mod_cast h2
    have h4 : (0 : Int) < 2 ^ (w - 1) := by positivity
    exact ⟨by omega, h3⟩
  have hs : stddev A = .ok ⟨⌊x.val⌋₊, hkr⟩ := by
    unfold stddev
    rw [hv, ok_bind]
    show SInt.ofTrunc (sqrtTrunc v.val) = _
    rw [hk]
    show SInt.ofTrunc (sqrtTrunc (k : Int)) = _
    rw [ht]
    unfold SInt.ofTrunc
    exact dif_pos hkr
  refine ⟨_, hs, fun hv52 => ?_⟩
  rw [hk] at hv52 ⊢
  have hk52 : k < 2 ^ 52 := by exact_mod_cast hv52
  rw [sqrtTrunc_eq hk52] at ht
  rw [Int.toNat_natCast]
  show (⌊x.val⌋₊ : Int) = k.sqrt
  exact_mod_cast (Option.some.inj ht).symm

end

/-! ## Examples -/

example : mean (!![1, 2; 4, 7] : Mat (BitVec 32) 2 2) = .ok 3 := by decide +kernel
example : var (!![1, 2; 4, 7] : Mat (BitVec 32) 2 2) = .ok 5 := by decide +kernel
example : stddev (!![1, 2; 4, 7] : Mat (BitVec 32) 2 2) = .ok 2 := by decide +kernel
example : mean (!![2147483648, 2147483648] : Mat (BitVec 32) 1 2) = .ok 0 := by decide +kernel
example : median (List.insertionSort (· ≤ ·)) (!![2147483648, 2147483649] : Mat (BitVec 32) 1 2) = .ok 0 := by
  decide +kernel

/-- The signed matrix (-2, 0; 5, 10). -/
def exSigned : Mat (SInt 32) 2 2 := !![SInt.wrap (-2), SInt.wrap 0; SInt.wrap 5, SInt.wrap 10]

example : mean exSigned = .ok (SInt.wrap 3) := by decide +kernel
example : var exSigned = .ok (SInt.wrap 21) := by decide +kernel
example : stddev exSigned = .ok (SInt.wrap 4) := by decide +kernel
example : ∑ a, ∑ b, ((exSigned a b).val - (SInt.wrap 3 : SInt 32).val) ^ 2 < 2 ^ (32 - 1) := by decide +kernel
/-- The wrong mean of a negative sum (C56) makes the variance overflow. -/
example : var (!![SInt.wrap (-3), SInt.wrap 0, SInt.wrap 0] : Mat (SInt 32) 1 3) =
    .error (.ub .signedOverflow) := by decide +kernel

end MatrixLibs
