import Verif.Proof.FloatMono
import Verif.Proof.FloatPow
import Verif.Props.FloatConv

/-!
# Properties C124 and C125: order and range of computed floating point results
-/

namespace MatrixLibs

set_option linter.unusedSectionVars false

variable {F : Fmt} {r c : Nat}

/-! ## C124: the mean lies within the range of the data -/

theorem rowMajor_forall₂ {T U : Type} {R : T → U → Prop} (A : Mat T r c) (B : Mat U r c) (h : ∀ i j, R (A i j) (B i j)) :
    List.Forall₂ R (rowMajor A) (rowMajor B) := by
  rw [rowMajor_ofFn, rowMajor_ofFn, List.ofFn_eq_map, List.ofFn_eq_map, List.forall₂_map_left_iff,
    List.forall₂_map_right_iff, List.forall₂_same]
  exact fun k _ => h _ _

theorem count_pos (h0 : r * c ≠ 0) (hn : ((r * c : Nat) : ℝ) ≤ F.maxFinite) :
    (Fl.ofInt (r * c : Nat) : Fl F).Finite ∧ 0 < (Fl.ofInt (r * c : Nat) : Fl F).val := by
  have hf : (Fl.ofInt (r * c : Nat) : Fl F).Finite :=
    (Fl.ofInt_rounded (F := F) (r * c : Nat)).finite (by rw [Int.cast_natCast, Nat.abs_cast]; exact hn)
  rcases Fl.ofInt_pos (F := F) (Nat.pos_of_ne_zero h0) with h | h
  · rw [h] at hf; exact hf.elim
  · exact h

theorem rowMajor_finite {A : Mat (Fl F) r c} (hA : MatFinite A) : ∀ x ∈ rowMajor A, x.Finite := fun x hx => by
  obtain ⟨i, j, rfl⟩ := (mem_rowMajor A x).mp hx
  exact hA i j

/-- C124: the mean is monotone: if no element of `A` exceeds that of `A'`, the computed mean does not either. -/
theorem C124_mean_mono (A A' : Mat (Fl F) r c) (hA : MatFinite A) (hA' : MatFinite A') (h : MatLe A A')
    (h0 : r * c ≠ 0) (hn : ((r * c : Nat) : ℝ) ≤ F.maxFinite) :
    ∃ μ μ', mean A = .ok μ ∧ mean A' = .ok μ' ∧ Fl.Le μ μ' := by
  obtain ⟨c1, c2⟩ := count_pos h0 hn
  refine ⟨_, _, Fl.mean_eq A, Fl.mean_eq A', ?_⟩
  exact (Fl.fsum_le (rowMajor_forall₂ A A' h) (Fl.fsum_ne_nan _ (rowMajor_finite hA))
    (Fl.fsum_ne_nan _ (rowMajor_finite hA'))).div c1 c2

/-- C124: so the computed mean lies between those of the constant matrices of bounds of the elements. -/
theorem C124_mean_between (A : Mat (Fl F) r c) (hA : MatFinite A) (lo hi : Fl F) (hlo : lo.Finite) (hhi : hi.Finite)
    (h1 : ∀ i j, Fl.Le lo (A i j)) (h2 : ∀ i j, Fl.Le (A i j) hi)
    (h0 : r * c ≠ 0) (hn : ((r * c : Nat) : ℝ) ≤ F.maxFinite) :
    ∃ l μ h, mean (Mat.const lo : Mat (Fl F) r c) = .ok l ∧ mean A = .ok μ ∧
      mean (Mat.const hi : Mat (Fl F) r c) = .ok h ∧ Fl.Le l μ ∧ Fl.Le μ h := by
  obtain ⟨l, μ, e1, e2, h3⟩ := C124_mean_mono (Mat.const lo) A (fun _ _ => hlo) hA h1 h0 hn
  obtain ⟨μ', h, e2', e4, h5⟩ := C124_mean_mono A (Mat.const hi) hA (fun _ _ => hhi) h2 h0 hn
  rw [e2] at e2'
  cases e2'
  exact ⟨l, μ, h, e1, e2, e4, h3, h5⟩

/-- The small multiples of `x` are numbers of the format. -/
def MultiplesExact (x : Fl F) (n : Nat) : Prop := ∀ k ≤ n, ∃ y : Fl F, y.Finite ∧ y.val = k * x.val

theorem Fl.Rounded.exact_val {x : ℝ} {a y : Fl F} (h : Fl.Rounded x a) (hy : y.Finite) (e : y.val = x) :
    a.Finite ∧ a.val = x := by
  obtain ⟨N, hN, eN⟩ := Fl.fin_rep hy
  exact h.exact N (by rw [← e]; exact eN) hN

theorem fsum_replicate {x : Fl F} (hx : x.Finite) (n : Nat) (hm : MultiplesExact x n) :
    (Fl.fsum (List.replicate n x)).Finite ∧ (Fl.fsum (List.replicate n x)).val = n * x.val := by
  induction n with
  | zero => exact ⟨Fl.zero_finite, by rw [Nat.cast_zero, zero_mul]; exact Fl.zero_val⟩
  | succ n ih =>
    obtain ⟨i1, i2⟩ := ih fun k hk => hm k (by omega)
    rw [List.replicate_succ', Fl.fsum_concat]
    obtain ⟨y, y1, y2⟩ := hm (n + 1) (le_refl _)
    have e : (Fl.fsum (List.replicate n x)).val + x.val = (n + 1 : Nat) * x.val := by rw [i2]; push_cast; ring
    have hr := Fl.add_rounded i1 hx
    rw [e] at hr
    exact hr.exact_val y1 y2

theorem rowMajor_const {T : Type} (x : T) : rowMajor (Mat.const x : Mat T r c) = List.replicate (r * c) x := by
  rw [rowMajor_ofFn, List.ofFn_eq_map]
  show (List.finRange (r * c)).map (fun _ => x) = _
  rw [List.map_const', List.length_finRange]

/-- C124: the mean of a constant matrix is exact if the multiples of the constant are. -/
theorem C124_mean_const (x : Fl F) (hx : x.Finite) (h0 : r * c ≠ 0) (hn : r * c ≤ 2 ^ F.p)
    (hm : MultiplesExact x (r * c)) :
    ∃ μ, mean (Mat.const x : Mat (Fl F) r c) = .ok μ ∧ μ.Finite ∧ μ.val = x.val := by
  refine ⟨_, Fl.mean_eq _, ?_⟩
  rw [rowMajor_const]
  obtain ⟨s1, s2⟩ := fsum_replicate hx _ hm
  obtain ⟨n1, n2⟩ := Fl.val_ofInt_exact (F := F) (r * c : Nat) (by rwa [Int.natAbs_natCast])
  rw [Int.cast_natCast] at n2
  have hN : ((r * c : Nat) : ℝ) ≠ 0 := by exact_mod_cast h0
  have hr := Fl.div_rounded s1 n1 (by rw [n2]; exact hN)
  have e : (Fl.fsum (List.replicate (r * c) x)).val / (Fl.ofInt (r * c : Nat) : Fl F).val = x.val := by
    rw [s2, n2]
    field_simp
  rw [e] at hr
  exact hr.exact_val hx rfl

theorem fsum_zeros (l : List (Fl F)) (h : ∀ x ∈ l, x.Finite ∧ x.val = 0) : (Fl.fsum l).Finite ∧ (Fl.fsum l).val = 0 := by
  induction l using List.reverseRecOn with
  | nil => exact ⟨Fl.zero_finite, Fl.zero_val⟩
  | append_singleton l x ih =>
    obtain ⟨i1, i2⟩ := ih fun y hy => h y (by simp [hy])
    obtain ⟨x1, x2⟩ := h x (by simp)
    rw [Fl.fsum_concat]
    have hr := Fl.add_rounded i1 x1
    rw [i2, x2, add_zero] at hr
    exact hr.exact_val Fl.zero_finite Fl.zero_val

/-- C124: and its variance is zero. -/
theorem C124_var_const (x : Fl F) (hx : x.Finite) (h0 : r * c ≠ 0) (hn : r * c ≤ 2 ^ F.p)
    (hm : MultiplesExact x (r * c)) :
    ∃ v, var (Mat.const x : Mat (Fl F) r c) = .ok v ∧ v.Finite ∧ v.val = 0 := by
  obtain ⟨μ, e1, m1, m2⟩ := C124_mean_const (r := r) (c := c) x hx h0 hn hm
  obtain ⟨μ', e2, hv⟩ := Fl.var_eq (Mat.const x : Mat (Fl F) r c)
  rw [e1] at e2
  cases e2
  refine ⟨_, hv, ?_⟩
  obtain ⟨n1, n2⟩ := Fl.val_ofInt_exact (F := F) (r * c : Nat) (by rwa [Int.natAbs_natCast])
  rw [Int.cast_natCast] at n2
  have hN : ((r * c : Nat) : ℝ) ≠ 0 := by exact_mod_cast h0
  obtain ⟨s1, s2⟩ := fsum_zeros ((rowMajor (Mat.const x : Mat (Fl F) r c)).map fun x => (x.sub μ).mul (x.sub μ)) (by
    intro y hy
    rw [rowMajor_const, List.map_replicate] at hy
    rw [List.eq_of_mem_replicate hy]
    have hd := Fl.sub_rounded hx m1
    rw [m2, sub_self] at hd
    obtain ⟨d1, d2⟩ := hd.exact_val Fl.zero_finite Fl.zero_val
    have hq := Fl.mul_rounded d1 d1
    rw [d2, mul_zero] at hq
    exact hq.exact_val Fl.zero_finite Fl.zero_val)
  have hr := Fl.div_rounded s1 n1 (by rw [n2]; exact hN)
  rw [s2, zero_div] at hr
  exact hr.exact_val Fl.zero_finite Fl.zero_val

/-- C124: the claim. The mean of finite floating point data lies between any two bounds of the data. -/
def C124_claim (F : Fmt) : Prop :=
  ∀ (r c : Nat) (A : Mat (Fl F) r c) (lo hi : Fl F), r * c ≠ 0 → r * c ≤ 2 ^ F.p → lo.Finite → hi.Finite →
    (∀ i j, (A i j).Finite ∧ lo.val ≤ (A i j).val ∧ (A i j).val ≤ hi.val) →
    ∃ μ, mean A = .ok μ ∧ (μ.Finite → lo.val ≤ μ.val ∧ μ.val ≤ hi.val)

/-- C124: the claim is false: the mean of three times 12219326 is 12219325 in `float`, and the variance of these
three equal elements is 1. -/
theorem C124_false : ¬ C124_claim binary32 ∧
    var (Mat.const (Fl.ofInt 12219326) : Mat (Fl binary32) 1 3) = .ok (Fl.ofInt 1) := by
  have hm : mean (Mat.const (Fl.ofInt 12219326) : Mat (Fl binary32) 1 3) = .ok (Fl.ofInt 12219325) := by
    decide +kernel
  obtain ⟨x1, x2⟩ := Fl.val_ofInt_exact (F := binary32) 12219326 (by decide)
  obtain ⟨y1, y2⟩ := Fl.val_ofInt_exact (F := binary32) 12219325 (by decide)
  refine ⟨fun h => ?_, by decide +kernel⟩
  obtain ⟨μ, e, hμ⟩ := h 1 3 (Mat.const (Fl.ofInt 12219326)) (Fl.ofInt 12219326) (Fl.ofInt 12219326) (by decide)
    (by decide) x1 x1 (fun _ _ => ⟨x1, le_refl _, le_refl _⟩)
  rw [hm] at e
  cases e
  have := (hμ y1).1
  rw [x2, y2] at this
  norm_num at this

/-- C124: the claim holds for bounds whose multiples up to the number of elements are numbers of the format. -/
theorem C124_mean_range_partial (A : Mat (Fl F) r c) (lo hi : Fl F) (h0 : r * c ≠ 0) (hn : r * c ≤ 2 ^ F.p)
    (hlo : lo.Finite) (hhi : hi.Finite) (hA : ∀ i j, (A i j).Finite ∧ lo.val ≤ (A i j).val ∧ (A i j).val ≤ hi.val)
    (hl : MultiplesExact lo (r * c)) (hh : MultiplesExact hi (r * c)) :
    ∃ μ, mean A = .ok μ ∧ μ.Finite ∧ lo.val ≤ μ.val ∧ μ.val ≤ hi.val := by
  have hmax : ((r * c : Nat) : ℝ) ≤ F.maxFinite := by
    have h1 : ((r * c : Nat) : ℝ) ≤ 2 ^ F.p := by exact_mod_cast hn
    refine h1.trans ?_
    have h2 : (2 : ℝ) ^ F.p ≤ (2 ^ F.p - 1) * 2 := by
      have : (4 : ℝ) ≤ 2 ^ F.p := by
        calc (4 : ℝ) = 2 ^ 2 := by norm_num
          _ ≤ 2 ^ F.p := pow_le_pow_right₀ (by norm_num) F.hp
      linarith
    refine h2.trans ?_
    unfold Fmt.maxFinite
    refine mul_le_mul_of_nonneg_left ?_ (by have := one_le_pow₀ (n := F.p) (show (1 : ℝ) ≤ 2 by norm_num); linarith)
    calc (2 : ℝ) = 2 ^ 1 := by norm_num
      _ ≤ _ := pow_le_pow_right₀ (by norm_num) (by have := F.he; omega)
  obtain ⟨l, μ, h, e1, e2, e3, h1, h2⟩ := C124_mean_between A (fun i j => (hA i j).1) lo hi hlo hhi
    (fun i j => (Fl.le_iff hlo (hA i j).1).mpr (hA i j).2.1) (fun i j => (Fl.le_iff (hA i j).1 hhi).mpr (hA i j).2.2)
    h0 hmax
  obtain ⟨l', e1', l1, l2⟩ := C124_mean_const (r := r) (c := c) lo hlo h0 hn hl
  obtain ⟨h', e3', u1, u2⟩ := C124_mean_const (r := r) (c := c) hi hhi h0 hn hh
  rw [e1] at e1'; cases e1'
  rw [e3] at e3'; cases e3'
  have hf : μ.Finite := by
    by_contra hf
    obtain ⟨s, rfl⟩ := Fl.not_finite hf h1.ne_nan.2
    cases s with
    | false => rw [Fl.inf_false_le h2] at u1; exact u1
    | true => rw [Fl.le_inf_true h1] at l1; exact l1
  rw [Fl.le_iff l1 hf] at h1
  rw [Fl.le_iff hf u1] at h2
  exact ⟨μ, e2, hf, l2 ▸ h1, u2 ▸ h2⟩

/-- Integers have exact multiples as long as these are at most `2^p`. -/
theorem multiplesExact_int (k : Int) (n : Nat) (h : n * k.natAbs ≤ 2 ^ F.p) : MultiplesExact (Fl.ofInt k : Fl F) n := by
  intro m hm
  rcases Nat.eq_zero_or_pos m with rfl | hpos
  · exact ⟨Fl.ofInt 0, Fl.zero_finite, by rw [Fl.zero_val, Nat.cast_zero, zero_mul]⟩
  have h1 : m * k.natAbs ≤ 2 ^ F.p := (Nat.mul_le_mul_right _ hm).trans h
  obtain ⟨a1, a2⟩ := Fl.val_ofInt_exact (F := F) k ((Nat.le_mul_of_pos_left _ hpos).trans h1)
  obtain ⟨b1, b2⟩ := Fl.val_ofInt_exact (F := F) (m * k) (by rwa [Int.natAbs_mul, Int.natAbs_natCast])
  exact ⟨_, b1, by rw [b2, a2]; push_cast; ring⟩

/-- C124: in particular the mean of data between two integers lies between them, if the integers times the number of
elements are at most `2^p`. -/
theorem C124_mean_range_int_partial (A : Mat (Fl F) r c) (lo hi : Int) (h0 : r * c ≠ 0)
    (hlo : (r * c) * lo.natAbs ≤ 2 ^ F.p) (hhi : (r * c) * hi.natAbs ≤ 2 ^ F.p) (hn : r * c ≤ 2 ^ F.p)
    (hA : ∀ i j, (A i j).Finite ∧ (lo : ℝ) ≤ (A i j).val ∧ (A i j).val ≤ hi) :
    ∃ μ, mean A = .ok μ ∧ μ.Finite ∧ (lo : ℝ) ≤ μ.val ∧ μ.val ≤ hi := by
  have hpos := Nat.pos_of_ne_zero h0
  obtain ⟨a1, a2⟩ := Fl.val_ofInt_exact (F := F) lo ((Nat.le_mul_of_pos_left _ hpos).trans hlo)
  obtain ⟨b1, b2⟩ := Fl.val_ofInt_exact (F := F) hi ((Nat.le_mul_of_pos_left _ hpos).trans hhi)
  have := C124_mean_range_partial A (Fl.ofInt lo) (Fl.ofInt hi) h0 hn a1 b1 (by rw [a2, b2]; exact hA)
    (multiplesExact_int lo _ hlo) (multiplesExact_int hi _ hhi)
  rwa [a2, b2] at this

/-- Doubling is exact. -/
theorem multiplesExact_two (x : Fl F) (hx : x.Finite) (h : 2 * |x.val| ≤ F.maxFinite) : MultiplesExact x 2 := by
  intro k hk
  rcases (show k = 0 ∨ k = 1 ∨ k = 2 by omega) with rfl | rfl | rfl
  · exact ⟨Fl.ofInt 0, Fl.zero_finite, by rw [Fl.zero_val, Nat.cast_zero, zero_mul]⟩
  · exact ⟨x, hx, by rw [Nat.cast_one, one_mul]⟩
  · have hr := Fl.add_rounded hx hx
    have e : x.val + x.val = (2 : Nat) * x.val := by push_cast; ring
    rw [e] at hr
    have hf := hr.finite (by rw [abs_mul]; simpa using h)
    obtain ⟨M, hM, eM⟩ := Fl.fin_rep hx
    have hd : F.Grid (2 * M) := Fl.grid_double hM.2
    have h2 := hr.nearest_val hf (r := (2 : Nat) * x.val) hd (by
      rw [abs_mul]; push_cast; rw [← eM, abs_of_pos (by norm_num : (0 : ℝ) < 2)]; ring)
    rw [sub_self, abs_zero, abs_nonpos_iff, sub_eq_zero] at h2
    exact ⟨_, hf, h2⟩

/-- C124: and the mean of two numbers lies between them, unless their doubles overflow. -/
theorem C124_mean_two_partial (A : Mat (Fl F) r c) (lo hi : Fl F) (h2 : r * c = 2)
    (hlo : lo.Finite) (hhi : hi.Finite) (hA : ∀ i j, (A i j).Finite ∧ lo.val ≤ (A i j).val ∧ (A i j).val ≤ hi.val)
    (hl : 2 * |lo.val| ≤ F.maxFinite) (hh : 2 * |hi.val| ≤ F.maxFinite) :
    ∃ μ, mean A = .ok μ ∧ μ.Finite ∧ lo.val ≤ μ.val ∧ μ.val ≤ hi.val := by
  refine C124_mean_range_partial A lo hi (by omega) ?_ hlo hhi hA (by rw [h2]; exact multiplesExact_two lo hlo hl)
    (by rw [h2]; exact multiplesExact_two hi hhi hh)
  rw [h2]
  calc 2 = 2 ^ 1 := rfl
    _ ≤ 2 ^ F.p := Nat.pow_le_pow_right (by norm_num) (by have := F.hp; omega)

/-- Data that are not integers, between 0 and 1000000. -/
example : ∃ μ, mean (!![Fl.div (Fl.ofInt 1) (Fl.ofInt 3), Fl.ofInt 12345; Fl.ofInt 7, Fl.ofInt 999999] :
    Mat (Fl binary32) 2 2) = .ok μ ∧ μ.Finite ∧ μ.val ≤ 1000000 := by
  have h3 : (Fl.div (Fl.ofInt 1) (Fl.ofInt 3) : Fl binary32).Finite ∧
      (Fl.div (Fl.ofInt 1) (Fl.ofInt 3) : Fl binary32).val ≤ 1000000 ∧
      0 ≤ (Fl.div (Fl.ofInt 1) (Fl.ofInt 3) : Fl binary32).val := by
    have hf : (Fl.div (Fl.ofInt 1) (Fl.ofInt 3) : Fl binary32).Finite := by decide +kernel
    have hz : (Fl.ofInt 0 : Fl binary32).Finite := Fl.zero_finite
    obtain ⟨o1, o2⟩ := Fl.val_ofInt_exact (F := binary32) 1000000 (by decide)
    refine ⟨hf, ?_, ?_⟩
    · have : Fl.lt (Fl.div (Fl.ofInt 1) (Fl.ofInt 3) : Fl binary32) (Fl.ofInt 1000000) = true := by decide +kernel
      have := (Fl.lt_iff hf o1).mp this
      rw [o2] at this
      push_cast at this
      exact this.le
    · have : Fl.lt (Fl.ofInt 0) (Fl.div (Fl.ofInt 1) (Fl.ofInt 3) : Fl binary32) = true := by decide +kernel
      have := (Fl.lt_iff hz hf).mp this
      rw [Fl.zero_val] at this
      exact this.le
  obtain ⟨μ, h1, h2, -, h4⟩ := C124_mean_range_int_partial
    (!![Fl.div (Fl.ofInt 1) (Fl.ofInt 3), Fl.ofInt 12345; Fl.ofInt 7, Fl.ofInt 999999] : Mat (Fl binary32) 2 2) 0 1000000
    (by decide) (by decide) (by decide) (by decide) (by
      have hi : ∀ k : Int, 0 ≤ k → k ≤ 1000000 → (Fl.ofInt k : Fl binary32).Finite ∧
          ((0 : Int) : ℝ) ≤ (Fl.ofInt k : Fl binary32).val ∧ (Fl.ofInt k : Fl binary32).val ≤ (1000000 : Int) := by
        intro k h1 h2
        obtain ⟨o1, o2⟩ := Fl.val_ofInt_exact (F := binary32) k (by show k.natAbs ≤ 2 ^ 24; omega)
        rw [o2]
        exact ⟨o1, by exact_mod_cast h1, by exact_mod_cast h2⟩
      intro i j
      fin_cases i <;> fin_cases j
      · exact ⟨h3.1, by push_cast; exact h3.2.2, by push_cast; exact h3.2.1⟩
      · exact hi 12345 (by norm_num) (by norm_num)
      · exact hi 7 (by norm_num) (by norm_num)
      · exact hi 999999 (by norm_num) (by norm_num))
  exact ⟨μ, h1, h2, by exact_mod_cast h4⟩

/-! ## C125: monotone functions -/

variable {n m p : Nat}

/-- C125: sums are monotone, as long as they are not NaN (which needs infinite operands of opposite signs). -/
theorem C125_add (A A' B B' : Mat (Fl F) r c) (h : MatLe A A') (h' : MatLe B B') :
    ∃ S S', opAdd A B = .ok S ∧ opAdd A' B' = .ok S' ∧
      ∀ i j, S i j ≠ .nan → S' i j ≠ .nan → Fl.Le (S i j) (S' i j) :=
  ⟨_, _, Fl.sum_eq A B, Fl.sum_eq A' B', fun i j h1 h2 => (h i j).add (h' i j) h1 h2⟩

/-- C125: differences are monotone in the first and antitone in the second operand. -/
theorem C125_sub (A A' B B' : Mat (Fl F) r c) (h : MatLe A A') (h' : MatLe B' B) :
    ∃ S S', opSub A B = .ok S ∧ opSub A' B' = .ok S' ∧
      ∀ i j, S i j ≠ .nan → S' i j ≠ .nan → Fl.Le (S i j) (S' i j) :=
  ⟨_, _, Fl.sub_eq A B, Fl.sub_eq A' B', fun i j h1 h2 => (h i j).add (h' i j).neg h1 h2⟩

/-- C125: multiplying by a number that is not negative is monotone. -/
theorem C125_mul_scalar (A A' : Mat (Fl F) r c) (hA : MatFinite A) (hA' : MatFinite A') (h : MatLe A A') (s : Fl F)
    (hs : s.Finite) (h0 : 0 ≤ s.val) :
    ∃ S S', opMulScalar A s = .ok S ∧ opMulScalar A' s = .ok S' ∧ MatLe S S' :=
  ⟨_, _, Fl.multScalar_eq A s, Fl.multScalar_eq A' s,
    fun i j => Fl.mul_le_mul_right (hA i j) (hA' i j) hs (h i j) h0⟩

theorem forall₂_finRange {T U : Type} {R : T → U → Prop} (f : Fin m → T) (g : Fin m → U) (h : ∀ k, R (f k) (g k)) :
    List.Forall₂ R ((List.finRange m).map f) ((List.finRange m).map g) := by
  rw [List.forall₂_map_left_iff, List.forall₂_map_right_iff, List.forall₂_same]
  exact fun k _ => h k

/-- C125: multiplying by a matrix without negative elements is monotone, as long as the results are not NaN. -/
theorem C125_mul_left (A A' : Mat (Fl F) n m) (B : Mat (Fl F) m p) (hA : MatFinite A) (hA' : MatFinite A')
    (hB : MatNonNeg B) (h : MatLe A A') :
    ∃ P P', opMul A B = .ok P ∧ opMul A' B = .ok P' ∧
      ∀ i j, P i j ≠ .nan → P' i j ≠ .nan → Fl.Le (P i j) (P' i j) :=
  ⟨_, _, Fl.mult_eq A B, Fl.mult_eq A' B, fun i j h1 h2 => Fl.fsum_le
    (forall₂_finRange _ _ fun k => Fl.mul_le_mul_right (hA i k) (hA' i k) (hB k j).1 (h i k) (hB k j).2) h1 h2⟩

/-- C125: and from the other side. -/
theorem C125_mul_right (A : Mat (Fl F) n m) (B B' : Mat (Fl F) m p) (hB : MatFinite B) (hB' : MatFinite B')
    (hA : MatNonNeg A) (h : MatLe B B') :
    ∃ P P', opMul A B = .ok P ∧ opMul A B' = .ok P' ∧
      ∀ i j, P i j ≠ .nan → P' i j ≠ .nan → Fl.Le (P i j) (P' i j) :=
  ⟨_, _, Fl.mult_eq A B, Fl.mult_eq A B', fun i j h1 h2 => Fl.fsum_le
    (forall₂_finRange _ _ fun k => by
      rw [Fl.mul_comm' (A i k), Fl.mul_comm' (A i k)]
      exact Fl.mul_le_mul_right (hB k j) (hB' k j) (hA i k).1 (h k j) (hA i k).2) h1 h2⟩

theorem terms_nonNeg (A : Mat (Fl F) n m) (B : Mat (Fl F) m p) (hA : MatNonNeg A) (hB : MatNonNeg B) (i : Fin n)
    (j : Fin p) : (Fl.fsum (Fl.terms A B i j)).NonNeg := by
  refine Fl.fsum_nonNeg _ fun x hx => ?_
  unfold Fl.terms at hx
  rw [List.mem_map] at hx
  obtain ⟨k, -, rfl⟩ := hx
  exact (Fl.mul_rounded (hA i k).1 (hB k j).1).nonneg (mul_nonneg (hA i k).2 (hB k j).2)

theorem terms_le (A A' : Mat (Fl F) n m) (B B' : Mat (Fl F) m p) (hA : MatNonNeg A) (hB : MatNonNeg B)
    (hA' : MatFinite A') (hB' : MatFinite B') (h : MatLe A A') (h' : MatLe B B') (i : Fin n) (j : Fin p) :
    Fl.Le (Fl.fsum (Fl.terms A B i j)) (Fl.fsum (Fl.terms A' B' i j)) := by
  have nA' : MatNonNeg A' := fun i j =>
    ⟨hA' i j, (hA i j).2.trans ((Fl.le_iff (hA i j).1 (hA' i j)).mp (h i j))⟩
  have nB' : MatNonNeg B' := fun i j =>
    ⟨hB' i j, (hB i j).2.trans ((Fl.le_iff (hB i j).1 (hB' i j)).mp (h' i j))⟩
  exact Fl.fsum_le (forall₂_finRange _ _ fun k => Fl.mul_le_mul_nonneg (hA i k).1 (hA' i k) (hB k j).1 (hB' k j)
    (h i k) (h' k j) (hA i k).2 (hB k j).2) (terms_nonNeg A B hA hB i j).ne_nan (terms_nonNeg A' B' nA' nB' i j).ne_nan

/-- C125: products of matrices without negative elements are never NaN or negative, and monotone in both factors. -/
theorem C125_mul (A A' : Mat (Fl F) n m) (B B' : Mat (Fl F) m p) (hA : MatNonNeg A) (hB : MatNonNeg B)
    (hA' : MatFinite A') (hB' : MatFinite B') (h : MatLe A A') (h' : MatLe B B') :
    ∃ P P', opMul A B = .ok P ∧ opMul A' B' = .ok P' ∧ MatLe P P' ∧
      ∀ i j, P i j = .inf false ∨ ((P i j).Finite ∧ 0 ≤ (P i j).val) :=
  ⟨_, _, Fl.mult_eq A B, Fl.mult_eq A' B', fun i j => terms_le A A' B B' hA hB hA' hB' h h' i j,
    fun i j => (terms_nonNeg A B hA hB i j).symm⟩

/-- What is between zero and a finite number is finite. -/
theorem NonNeg.finite_of_le {a b : Fl F} (ha : a.NonNeg) (h : Fl.Le a b) (hb : b.Finite) : a.Finite ∧ 0 ≤ a.val := by
  rcases ha with h' | rfl
  · exact h'
  · rw [Fl.inf_false_le h] at hb
    exact hb.elim

theorem powFuel_mono (hn : 0 < n) (A A' : Mat (Fl F) n n) (hA : MatNonNeg A) (h : MatLe A A') (handled : Option Exc)
    (w : Nat) : ∀ (p d : Nat), 1 ≤ p → p.log2 + 1 ≤ d →
      ∃ P P', powFuel handled w d A (p : Int) = .ok P ∧ powFuel handled w d A' (p : Int) = .ok P' ∧
        (MatFinite P' → MatNonNeg P ∧ MatLe P P') := by
  have step : ∀ P P' Q Q' : Mat (Fl F) n n, (MatFinite P' → MatNonNeg P ∧ MatLe P P') →
      (MatFinite Q' → MatNonNeg Q ∧ MatLe Q Q') →
      MatFinite (.of fun a b => Fl.fsum (Fl.terms P' Q' a b) : Mat (Fl F) n n) →
      MatNonNeg (.of fun a b => Fl.fsum (Fl.terms P Q a b) : Mat (Fl F) n n) ∧
        MatLe (.of fun a b => Fl.fsum (Fl.terms P Q a b) : Mat (Fl F) n n)
          (.of fun a b => Fl.fsum (Fl.terms P' Q' a b)) := by
    intro P P' Q Q' hP hQ hf
    obtain ⟨f1, f2⟩ := Fl.factors_finite hn hf
    obtain ⟨p1, p2⟩ := hP f1
    obtain ⟨q1, q2⟩ := hQ f2
    have hle : MatLe (.of fun a b => Fl.fsum (Fl.terms P Q a b) : Mat (Fl F) n n)
        (.of fun a b => Fl.fsum (Fl.terms P' Q' a b)) := fun i j => terms_le P P' Q Q' p1 q1 f1 f2 p2 q2 i j
    exact ⟨fun i j => NonNeg.finite_of_le (terms_nonNeg P Q p1 q1 i j) (hle i j) (hf i j), hle⟩
  intro p
  induction p using Nat.strong_induction_on with
  | _ p ih =>
    intro d h1 hd
    obtain ⟨d, rfl⟩ : ∃ k, d = k + 1 := ⟨d - 1, by omega⟩
    rcases (show p = 1 ∨ 2 ≤ p by omega) with rfl | hp
    · exact ⟨A, A', by rw [Nat.cast_one, powFuel_one], by rw [Nat.cast_one, powFuel_one], fun _ => ⟨hA, h⟩⟩
    · have hlog : p.log2 = (p / 2).log2 + 1 := by rw [Nat.log2_def, if_pos hp]
      obtain ⟨P, P', hP, hP', hh⟩ := ih (p / 2) (by omega) d (by omega) (by omega)
      rw [powFuel_step _ _ _ _ _ hp, powFuel_step _ _ _ _ _ hp]
      unfold powStep
      rw [hP, hP', ok_bind, ok_bind]
      split
      · exact ⟨_, _, Fl.mult_eq P P, Fl.mult_eq P' P', step P P' P P' hh hh⟩
      · refine ⟨_, _, Fl.mult_mult_eq P A, Fl.mult_mult_eq P' A', ?_⟩
        exact step _ _ A A' (step P P' P P' hh hh) (fun _ => ⟨hA, h⟩)

/-- C125: powers of matrices without negative elements are monotone: if the power of the larger matrix is finite, that
of the smaller is finite, not negative and not larger. -/
theorem C125_pow (hn : 1 ≤ n) (A A' : Mat (Fl F) n n) (hA : MatNonNeg A) (h : MatLe A A') (handled : Option Exc)
    (w p : Nat) (hp : 1 ≤ p) :
    ∃ P P', pow handled w A (p : Int) = .ok P ∧ pow handled w A' (p : Int) = .ok P' ∧
      (MatFinite P' → MatNonNeg P ∧ MatLe P P') :=
  powFuel_mono hn A A' hA h handled w p (p.log2 + 2) hp (by omega)

/-- One term of the correlation. -/
theorem convTerm_le (A A' : Mat (Fl F) r c) (k : Mat (Fl F) 3 3) (hA : MatFinite A) (hA' : MatFinite A')
    (hk : MatNonNeg k) (h : MatLe A A') (u v : Fin 3) (a b : ℤ) (hi : r ≤ 2 ^ 31) (hj : c ≤ 2 ^ 31)
    (ha : -(2 ^ 31) ≤ a) (ha' : a < 2 ^ 32) (hb : -(2 ^ 31) ≤ b) (hb' : b < 2 ^ 32) :
    ∃ t t', convTerm A k u v (szOf a) (szOf b) = .ok t ∧ convTerm A' k u v (szOf a) (szOf b) = .ok t' ∧ Fl.Le t t' := by
  unfold convTerm
  by_cases h0 : isOutOfRange r c (szToInt (szOf a)) (szToInt (szOf b)) = 0
  · rw [if_neg (not_not.mpr h0), if_neg (not_not.mpr h0)]
    rw [isOutOfRange_eq_zero, inRange_iff r (by omega) a ha ha',
      inRange_iff c (by omega) b hb hb'] at h0
    obtain ⟨⟨⟨h1, h2⟩, h3⟩, ⟨h4, h5⟩, h6⟩ := h0
    have hM : (sizeMod : ℤ) = 2 ^ 64 := by unfold sizeMod; norm_num
    have ea : szOf a = a.toNat := by
      unfold szOf; rw [Int.emod_eq_of_lt h1 (by rw [hM]; omega)]
    have eb : szOf b = b.toNat := by
      unfold szOf; rw [Int.emod_eq_of_lt h4 (by rw [hM]; omega)]
    rw [ea, eb, rd_fin, ok_bind, rd_eq (by omega) (by omega), ok_bind, ok_bind, rd_eq (by omega) (by omega), ok_bind]
    refine ⟨_, _, rfl, rfl, ?_⟩
    rw [Fl.mul_comm' (k u v), Fl.mul_comm' (k u v)]
    exact Fl.mul_le_mul_right (hA _ _) (hA' _ _) (hk u v).1 (h _ _) (hk u v).2
  · rw [if_pos h0, if_pos h0]
    exact ⟨_, _, rfl, rfl, Fl.Le.refl (Fl.Finite.ne_nan Fl.zero_finite)⟩

/-- One element of a convolution. -/
theorem convCell_le (A A' : Mat (Fl F) r c) (k : Mat (Fl F) 3 3) (hA : MatFinite A) (hA' : MatFinite A')
    (hk : MatNonNeg k) (h : MatLe A A') (a b : ℤ) (hi : r ≤ 2 ^ 31) (hj : c ≤ 2 ^ 31)
    (ha : -1 ≤ a) (ha' : a + 1 < 2 ^ 32) (hb : -1 ≤ b) (hb' : b + 1 < 2 ^ 32) :
    ∃ y y', convCell A k a b = .ok y ∧ convCell A' k a b = .ok y' ∧ (y ≠ .nan → y' ≠ .nan → Fl.Le y y') := by
  have H := fun u v x y => convTerm_le A A' k hA hA' hk h u v x y hi hj
  obtain ⟨t1, s1, q1, p1, r1⟩ := H 0 0 (a - 1) (b - 1) (by omega) (by omega) (by omega) (by omega)
  obtain ⟨t2, s2, q2, p2, r2⟩ := H 0 1 (a - 1) b (by omega) (by omega) (by omega) (by omega)
  obtain ⟨t3, s3, q3, p3, r3⟩ := H 0 2 (a - 1) (b + 1) (by omega) (by omega) (by omega) (by omega)
  obtain ⟨t4, s4, q4, p4, r4⟩ := H 1 0 a (b - 1) (by omega) (by omega) (by omega) (by omega)
  obtain ⟨t5, s5, q5, p5, r5⟩ := H 1 1 a b (by omega) (by omega) (by omega) (by omega)
  obtain ⟨t6, s6, q6, p6, r6⟩ := H 1 2 a (b + 1) (by omega) (by omega) (by omega) (by omega)
  obtain ⟨t7, s7, q7, p7, r7⟩ := H 2 0 (a + 1) (b - 1) (by omega) (by omega) (by omega) (by omega)
  obtain ⟨t8, s8, q8, p8, r8⟩ := H 2 1 (a + 1) b (by omega) (by omega) (by omega) (by omega)
  obtain ⟨t9, s9, q9, p9, r9⟩ := H 2 2 (a + 1) (b + 1) (by omega) (by omega) (by omega) (by omega)
  have e : convTerms A k a b = [t1, t2, t3, t4, t5, t6, t7, t8, t9].map fun t => (.ok t : Res (Fl F)) := by
    unfold convTerms
    simp only [List.map_cons, List.map_nil]
    rw [← q1, ← q2, ← q3, ← q4, ← q5, ← q6, ← q7, ← q8, ← q9]
    rfl
  have e' : convTerms A' k a b = [s1, s2, s3, s4, s5, s6, s7, s8, s9].map fun t => (.ok t : Res (Fl F)) := by
    unfold convTerms
    simp only [List.map_cons, List.map_nil]
    rw [← p1, ← p2, ← p3, ← p4, ← p5, ← p6, ← p7, ← p8, ← p9]
    rfl
  refine ⟨_, _, by unfold convCell; rw [e, Fl.accumVal_eq], by unfold convCell; rw [e', Fl.accumVal_eq], ?_⟩
  exact Fl.fsum_le (.cons r1 (.cons r2 (.cons r3 (.cons r4 (.cons r5 (.cons r6 (.cons r7 (.cons r8 (.cons r9 .nil)))))))))

/-- C125: `conv2` with a kernel without negative elements is monotone, as long as the results are not NaN. -/
theorem C125_conv2 (A A' : Mat (Fl F) r c) (k : Mat (Fl F) 3 3) (hA : MatFinite A) (hA' : MatFinite A')
    (hk : MatNonNeg k) (h : MatLe A A') (hi : r ≤ 2 ^ 31) (hj : c ≤ 2 ^ 31) :
    ∃ S S', conv2 A k = .ok S ∧ conv2 A' k = .ok S' ∧
      ∀ a b, S a b ≠ .nan → S' a b ≠ .nan → Fl.Le (S a b) (S' a b) := by
  have hc : ∀ (a : Fin r) (b : Fin c), _ := fun a b =>
    convCell_le A A' k hA hA' hk h a.val b.val hi hj (by omega) (by have := a.2; omega) (by omega)
      (by have := b.2; omega)
  choose f f' hf1 hf2 hf3 using hc
  refine ⟨.of f, .of f', ?_, ?_, hf3⟩
  · rw [conv2_cells A k (by unfold sizeMod; omega) (by unfold sizeMod; omega)]
    exact fill_eq (g := fun it jt => convCell A k it jt) (F := .of f) _ (fun r c => hf1 r c)
  · rw [conv2_cells A' k (by unfold sizeMod; omega) (by unfold sizeMod; omega)]
    exact fill_eq (g := fun it jt => convCell A' k it jt) (F := .of f') _ (fun r c => hf2 r c)

/-- C125: so is `conv2_full`. -/
theorem C125_conv2_full (A A' : Mat (Fl F) r c) (k : Mat (Fl F) 3 3) (hA : MatFinite A) (hA' : MatFinite A')
    (hk : MatNonNeg k) (h : MatLe A A') (hi : r ≤ 2 ^ 31) (hj : c ≤ 2 ^ 31) :
    ∃ S S', conv2_full A k = .ok S ∧ conv2_full A' k = .ok S' ∧
      ∀ a b, S a b ≠ .nan → S' a b ≠ .nan → Fl.Le (S a b) (S' a b) := by
  have hc : ∀ (a : Fin (r + 2)) (b : Fin (c + 2)), _ := fun a b =>
    convCell_le A A' k hA hA' hk h ((a.val : ℤ) - 1) ((b.val : ℤ) - 1) hi hj (by omega)
      (by have := a.2; omega) (by omega) (by have := b.2; omega)
  choose f f' hf1 hf2 hf3 using hc
  refine ⟨.of f, .of f', ?_, ?_, hf3⟩
  · rw [conv2_full_cells A k (by unfold sizeMod; omega) (by unfold sizeMod; omega)]
    exact fill_eq (g := fun it jt => convCell A k ((it : ℤ) - 1) ((jt : ℤ) - 1)) (F := .of f) _ (fun r c => hf1 r c)
  · rw [conv2_full_cells A' k (by unfold sizeMod; omega) (by unfold sizeMod; omega)]
    exact fill_eq (g := fun it jt => convCell A' k ((it : ℤ) - 1) ((jt : ℤ) - 1)) (F := .of f') _ (fun r c => hf2 r c)

/-- C125: and `conv2_valid`. -/
theorem C125_conv2_valid (A A' : Mat (Fl F) (m + 2) (m + 2)) (k : Mat (Fl F) 3 3) (hA : MatFinite A)
    (hA' : MatFinite A') (hk : MatNonNeg k) (h : MatLe A A') (hm : m + 2 ≤ 2 ^ 31) :
    ∃ V V', conv2_valid A k = .ok V ∧ conv2_valid A' k = .ok V' ∧
      ∀ a b, V a b ≠ .nan → V' a b ≠ .nan → Fl.Le (V a b) (V' a b) := by
  obtain ⟨S, S', hS, hS', hh⟩ := C125_conv2 A A' k hA hA' hk h hm hm
  obtain ⟨V, hV, hVS⟩ := (C49_conv2_valid_any A k).2 S hS
  obtain ⟨V', hV', hVS'⟩ := (C49_conv2_valid_any A' k).2 S' hS'
  refine ⟨V, V', hV, hV', fun a b => ?_⟩
  rw [hVS, hVS']
  exact hh _ _

/-- Two matrices in this order, all of whose elements need rounding. -/
example : MatNonNeg (Mat.const (Fl.div (Fl.ofInt 1) (Fl.ofInt 10)) : Mat (Fl binary32) 2 2) ∧
    MatLe (Mat.const (Fl.div (Fl.ofInt 1) (Fl.ofInt 10)) : Mat (Fl binary32) 2 2)
      (Mat.const (Fl.div (Fl.ofInt 1) (Fl.ofInt 9))) := by
  have hf : (Fl.div (Fl.ofInt 1) (Fl.ofInt 10) : Fl binary32).Finite := by decide +kernel
  refine ⟨fun i j => ⟨hf, ?_⟩, fun i j => .inl ?_⟩
  · have : Fl.lt (Fl.ofInt 0) (Fl.div (Fl.ofInt 1) (Fl.ofInt 10) : Fl binary32) = true := by decide +kernel
    have := (Fl.lt_iff Fl.zero_finite hf).mp this
    rw [Fl.zero_val] at this
    exact this.le
  · show Fl.lt (Fl.div (Fl.ofInt 1) (Fl.ofInt 10) : Fl binary32) (Fl.div (Fl.ofInt 1) (Fl.ofInt 9)) = true
    decide +kernel

end MatrixLibs
