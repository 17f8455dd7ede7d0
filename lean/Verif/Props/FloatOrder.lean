import Verif.Proof.HistKey
import Verif.Props.Hist
import Verif.Props.Stats
import Verif.Props.FloatRange
import Verif.Proof.FloatRound

/-!
# Property C80: histograms and median of floating point matrices

Elements are compared by the IEEE operators `Fl.lt` (`<`) and `Fl.eq` (`==`).
-/

namespace MatrixLibs

set_option linter.unusedSectionVars false

open CScalar (ofInt)

variable {F : Fmt} {i j : Nat}

namespace Fl

/-- The position in the order of the format as a rational number. -/
def ordKey (x : Fl F) : ℚ := ((x.key.getD 0 : Int) : ℚ)

theorem lt_key {a b : Fl F} (ha : a ≠ .nan) (hb : b ≠ .nan) :
    CScalar.lt a b = true ↔ a.ordKey < b.ordKey := by
  show a.lt b = true ↔ _
  unfold lt ordKey
  cases a <;> cases b <;> simp_all [key]

theorem eq_key {a b : Fl F} (ha : a ≠ .nan) (hb : b ≠ .nan) :
    a.eq b = true ↔ a.ordKey = b.ordKey := by
  unfold eq ordKey
  cases a <;> cases b <;> simp_all [key]

theorem lt_key_false {a b : Fl F} (ha : a ≠ .nan) (hb : b ≠ .nan) :
    a.lt b = false ↔ b.ordKey ≤ a.ordKey := by
  rw [← Bool.not_eq_true, ← not_lt]
  exact not_congr (lt_key ha hb)

end Fl

theorem numElems_map {T L : Type} (A : Mat T i j) (key : T → L) (p : L → Prop) [DecidablePred p]
    (q : T → Prop) [DecidablePred q] (h : ∀ a b, p (key (A a b)) ↔ q (A a b)) :
    numElems (A.map key) p = numElems A q := by
  unfold numElems
  exact congrArg Finset.card (Finset.filter_congr fun x _ => h x.1 x.2)

/-! ## Histograms -/

/-- C80: without NaN, the keys of `histogram(A)` increase, every key is the first (in row-major order) of the
elements `==` to it and is mapped to their number, and every element is `==` to a key. -/
theorem C80_histogram (A : Mat (Fl F) i j) (hA : ∀ a b, A a b ≠ .nan) (hij : i * j < 2 ^ 64) :
    ∃ h, histogram A = .ok h ∧ h.Pairwise (fun p q => p.1.lt q.1 = true) ∧
      (∀ k n, (k, n) ∈ h → n = numElems A (fun x => x.eq k = true) ∧
        ∃ a b, A a b = k ∧ ∀ a' b', (a' < a ∨ a' = a ∧ b' < b) → (A a' b').eq k = false) ∧
      ∀ a b, ∃ k n, (k, n) ∈ h ∧ (A a b).eq k = true := by
  obtain ⟨h, hh, -, hH, hf⟩ := histogram_key (L := ℚ) OrderedScalar.lt_iff (fun x : Fl F => x ≠ .nan) Fl.ordKey
    (fun a b => Fl.lt_key) A hA hij
  have hcount : ∀ k : Fl F, k ≠ .nan → ((rowMajor A).map Fl.ordKey).count k.ordKey =
      numElems A (fun x => x.eq k = true) := by
    intro k hk
    rw [← rowMajor_map, ← numElems_count]
    exact numElems_map A _ _ _ fun a b => (Fl.eq_key (hA a b) hk).symm
  refine ⟨h, hh, ?_, fun k n hm => ?_, fun a b => ?_⟩
  · have h1 := hH.sorted
    unfold KeysSorted mapKeys at h1
    rw [List.pairwise_map] at h1
    refine h1.imp_of_mem fun {p q} hp hq hpq => ?_
    exact (Fl.lt_key (hf p hp).1 (hf q hq).1).mpr hpq
  · obtain ⟨hk, a, b, h1, h2⟩ := hf _ hm
    dsimp only at hk h1 h2
    refine ⟨?_, a, b, h1, fun a' b' hab => ?_⟩
    · rw [← hcount k hk]
      exact ((hH.mem _ _).mp (List.mem_map.mpr ⟨_, hm, rfl⟩)).1
    · rw [← Bool.not_eq_true, Fl.eq_key (hA a' b') hk]
      exact h2 a' b' hab
  · have h1 : 0 < ((rowMajor A).map Fl.ordKey).count (A a b).ordKey := by
      rw [List.count_pos_iff]
      exact List.mem_map.mpr ⟨_, (mem_rowMajor A _).mpr ⟨a, b, rfl⟩, rfl⟩
    obtain ⟨⟨k, n⟩, hm, he⟩ := List.mem_map.mp ((hH.mem _ _).mpr ⟨rfl, h1⟩)
    refine ⟨k, n, hm, ?_⟩
    rw [Fl.eq_key (hA a b) (hf _ hm).1]
    exact (congrArg Prod.fst he).symm

/-- C80: without NaN, `cumulative_histogram(A)` has the keys of `histogram(A)` and maps each to the number of
elements not greater than it. -/
theorem C80_cumulative (A : Mat (Fl F) i j) (hA : ∀ a b, A a b ≠ .nan) (hij : i * j < 2 ^ 64) :
    ∃ h c, histogram A = .ok h ∧ cumulative_histogram A = .ok c ∧ c.map Prod.fst = h.map Prod.fst ∧
      ∀ k n, (k, n) ∈ c → n = numElems A (fun x => k.lt x = false) := by
  obtain ⟨h, hh, hc, hH, hf⟩ := histogram_key (L := ℚ) OrderedScalar.lt_iff (fun x : Fl F => x ≠ .nan) Fl.ordKey
    (fun a b => Fl.lt_key) A hA hij
  refine ⟨h, _, hh, hc, running_fst h 0, fun k n hm => ?_⟩
  have hk : k ≠ .nan := by
    have h1 : k ∈ (running 0 h).map Prod.fst := List.mem_map.mpr ⟨_, hm, rfl⟩
    rw [running_fst] at h1
    obtain ⟨q, hq, rfl⟩ := List.mem_map.mp h1
    exact (hf q hq).1
  have hm' : (k.ordKey, n) ∈ running 0 (mapKeys Fl.ordKey h) := by
    rw [← mapKeys_running]
    exact List.mem_map.mpr ⟨_, hm, rfl⟩
  rw [running_mem OrderedScalar.lt_iff _ 0 _ _ hH.sorted hm', Nat.zero_add, hH.sum, ← rowMajor_map,
    ← numElems_countP]
  exact numElems_map A _ _ _ fun a b => (Fl.lt_key_false hk (hA a b)).symm

/-! ## Median -/

/-- What `std::sort` must do to a vector of floating point numbers: without NaN, bring its elements into an
order where no element is less than one before it. -/
def SortsFloats (sort : List (Fl F) → List (Fl F)) : Prop :=
  ∀ l, Fl.nan ∉ l → (sort l).Perm l ∧ (sort l).Pairwise (fun x y => y.lt x = false)

/-- `x` is an element of `A`, at most `k` elements are less than it and more than `k` are not greater. -/
def IsKthFloat (A : Mat (Fl F) i j) (k : Nat) (x : Fl F) : Prop :=
  (∃ a b, A a b = x) ∧ numElems A (fun y => y.lt x = true) ≤ k ∧ k < numElems A (fun y => x.lt y = false)

theorem strictWeak_float (A : Mat (Fl F) i j) (hA : ∀ a b, A a b ≠ .nan) : StrictWeak A :=
  strictWeak_of_key A Fl.ordKey fun a b a' b' => Fl.lt_key (hA a b) (hA a' b')

theorem sorted_kth (sort : List (Fl F) → List (Fl F)) (hsort : SortsFloats sort) (A : Mat (Fl F) i j)
    (hA : ∀ a b, A a b ≠ .nan) (k : Nat) (hk : k < i * j) :
    ∃ x, vecRd (sort (rowMajor A)) k = .ok x ∧ IsKthFloat A k x := by
  obtain ⟨hp, hs⟩ := hsort (rowMajor A) fun h => by
    obtain ⟨a, b, hab⟩ := (mem_rowMajor A _).mp h
    exact hA a b hab
  have hnn : ∀ x ∈ sort (rowMajor A), x ≠ .nan := fun x hx => by
    obtain ⟨a, b, rfl⟩ := (mem_rowMajor A _).mp (hp.mem_iff.mp hx)
    exact hA a b
  have hl : (sort (rowMajor A)).length = i * j := by rw [hp.length_eq, rowMajor_length]
  have hk' : k < (sort (rowMajor A)).length := by rw [hl]; exact hk
  have hmem := List.getElem_mem hk'
  refine ⟨(sort (rowMajor A))[k], ?_, ?_⟩
  · unfold vecRd
    rw [List.getElem?_eq_getElem hk']
  have hs' : ((sort (rowMajor A)).map Fl.ordKey).Pairwise (· ≤ ·) := by
    rw [List.pairwise_map]
    exact hs.imp_of_mem fun hx hy h => (Fl.lt_key_false (hnn _ hy) (hnn _ hx)).mp h
  have h1 := sorted_isKth (A.map Fl.ordKey) _ (by rw [rowMajor_map]; exact hp.map _) hs' k
    (by rw [List.length_map]; exact hk')
  rw [List.getElem_map] at h1
  have hn := hnn _ hmem
  refine ⟨(mem_rowMajor A _).mp (hp.mem_iff.mp hmem), ?_, ?_⟩
  · rw [← numElems_map A Fl.ordKey (· < ((sort (rowMajor A))[k]).ordKey) _
      fun a b => (Fl.lt_key (hA a b) hn).symm]
    exact h1.2.1
  · rw [← numElems_map A Fl.ordKey (· ≤ ((sort (rowMajor A))[k]).ordKey) _
      fun a b => (Fl.lt_key_false hn (hA a b)).symm]
    exact h1.2.2

theorem median_split (sort : List (Fl F) → List (Fl F)) (A : Mat (Fl F) i j) (hw : StrictWeak A) :
    median sort A = (if i * j % 2 = 0 then do
      let x ← vecRd (sort (rowMajor A)) (i * j / 2)
      let y ← vecRd (sort (rowMajor A)) (szSub (i * j / 2) 1)
      CScalar.div (← CScalar.add x y) (ofInt 2)
    else
      vecRd (sort (rowMajor A)) (i * j / 2)) := by
  unfold median stdSort
  rw [median_elems, ok_bind, if_pos hw, ok_bind]

/-- C80: without NaN, the median of an odd number of elements is the middle one. -/
theorem C80_median_odd (sort : List (Fl F) → List (Fl F)) (hsort : SortsFloats sort) (A : Mat (Fl F) i j)
    (hA : ∀ a b, A a b ≠ .nan) (h : i * j % 2 = 1) :
    ∃ m, median sort A = .ok m ∧ IsKthFloat A (i * j / 2) m := by
  obtain ⟨m, hm, hk⟩ := sorted_kth sort hsort A hA (i * j / 2) (by omega)
  refine ⟨m, ?_, hk⟩
  rw [median_split sort A (strictWeak_float A hA), if_neg (by omega), hm]

/-- C80: without NaN, the median of an even number of elements is half the rounded sum of the middle two. -/
theorem C80_median_even (sort : List (Fl F) → List (Fl F)) (hsort : SortsFloats sort) (A : Mat (Fl F) i j)
    (hA : ∀ a b, A a b ≠ .nan) (h : i * j % 2 = 0) (h0 : i * j ≠ 0) (hij : i * j < 2 ^ 64) :
    ∃ x y, IsKthFloat A (i * j / 2 - 1) x ∧ IsKthFloat A (i * j / 2) y ∧
      median sort A = .ok ((y.add x).div (Fl.ofInt 2)) := by
  obtain ⟨y, hy, hky⟩ := sorted_kth sort hsort A hA (i * j / 2) (by omega)
  obtain ⟨x, hx, hkx⟩ := sorted_kth sort hsort A hA (i * j / 2 - 1) (by omega)
  have hsz : szSub (i * j / 2) 1 = i * j / 2 - 1 := by
    unfold szSub sizeMod
    omega
  refine ⟨x, y, hkx, hky, ?_⟩
  rw [median_split sort A (strictWeak_float A hA), if_pos h, hsz, hy, hx, ok_bind, ok_bind]
  rfl

theorem kth_finite {A : Mat (Fl F) i j} (hA : ∀ a b, (A a b).Finite) {k : Nat} {x : Fl F}
    (h : IsKthFloat A k x) : x.Finite := by
  obtain ⟨⟨a, b, rfl⟩, -⟩ := h
  exact hA a b

theorem kth_le {A : Mat (Fl F) i j} (hA : ∀ a b, (A a b).Finite) {k k' : Nat} (hk : k ≤ k') {x y : Fl F}
    (hx : IsKthFloat A k x) (hy : IsKthFloat A k' y) : x.val ≤ y.val := by
  by_contra h
  rw [not_le] at h
  have fx := kth_finite hA hx
  have fy := kth_finite hA hy
  have h1 : numElems A (fun z => y.lt z = false) ≤ numElems A (fun z => z.lt x = true) := by
    unfold numElems
    refine Finset.card_le_card fun q hq => ?_
    rw [Finset.mem_filter] at hq ⊢
    refine ⟨Finset.mem_univ _, (Fl.lt_iff (hA _ _) fx).mpr ?_⟩
    have h2 : y.lt (A q.1 q.2) = false := hq.2
    rw [← Bool.not_eq_true, Fl.lt_iff fy (hA _ _), not_lt] at h2
    linarith
  have := hx.2.1
  have := hy.2.2
  omega

theorem Fl.Finite.ne_nan {a : Fl F} (h : a.Finite) : a ≠ .nan := by
  rintro rfl
  exact h

/-- C80: the median of an even number of finite elements lies between the middle two and differs from their mean
by at most one rounding error of their sum (and half the smallest positive number); if their sum is too big for
the format the median is infinite. -/
theorem C80_median_even_finite (sort : List (Fl F) → List (Fl F)) (hsort : SortsFloats sort)
    (A : Mat (Fl F) i j) (hA : ∀ a b, (A a b).Finite) (h : i * j % 2 = 0) (h0 : i * j ≠ 0)
    (hij : i * j < 2 ^ 64) :
    ∃ x y m, IsKthFloat A (i * j / 2 - 1) x ∧ IsKthFloat A (i * j / 2) y ∧ median sort A = .ok m ∧
      ((m.Finite ∧ x.val ≤ m.val ∧ m.val ≤ y.val ∧
          |m.val - (x.val + y.val) / 2| ≤ F.u * |(x.val + y.val) / 2| + F.eta) ∨
        (F.maxFinite < |x.val + y.val| ∧ ∃ s, m = .inf s ∧ (s = true ↔ x.val + y.val < 0))) := by
  obtain ⟨x, y, hx, hy, hm⟩ := C80_median_even sort hsort A (fun a b => (hA a b).ne_nan) h h0 hij
  exact ⟨x, y, _, hx, hy, hm, Fl.mid (kth_finite hA hx) (kth_finite hA hy) (kth_le hA (Nat.sub_le _ 1) hx hy)⟩

/-- C80: a finite median of finite elements: at least half of the elements are not greater, at least half not
less. -/
theorem C80_median_half (sort : List (Fl F) → List (Fl F)) (hsort : SortsFloats sort)
    (A : Mat (Fl F) i j) (hA : ∀ a b, (A a b).Finite) (h0 : i * j ≠ 0) (hij : i * j < 2 ^ 64) (m : Fl F)
    (hm : median sort A = .ok m) (hf : m.Finite) :
    i * j ≤ 2 * numElems A (fun z => m.lt z = false) ∧ i * j ≤ 2 * numElems A (fun z => z.lt m = false) := by
  have key : ∃ x y k, IsKthFloat A k x ∧ IsKthFloat A (i * j / 2) y ∧ x.val ≤ m.val ∧ m.val ≤ y.val ∧
      i * j ≤ 2 * (k + 1) := by
    rcases Nat.mod_two_eq_zero_or_one (i * j) with hp | hp
    · obtain ⟨x, y, m', hx, hy, hm', hr⟩ := C80_median_even_finite sort hsort A hA hp h0 hij
      rw [hm] at hm'
      cases hm'
      rcases hr with ⟨-, h1, h2, -⟩ | ⟨-, s, rfl, -⟩
      · exact ⟨x, y, _, hx, hy, h1, h2, by omega⟩
      · exact hf.elim
    · obtain ⟨m', hm', hk⟩ := C80_median_odd sort hsort A (fun a b => (hA a b).ne_nan) hp
      rw [hm] at hm'
      cases hm'
      exact ⟨m, m, _, hk, hk, le_rfl, le_rfl, by omega⟩
  obtain ⟨x, y, k, hx, hy, h1, h2, h3⟩ := key
  have fx := kth_finite hA hx
  have fy := kth_finite hA hy
  constructor
  · have h4 : numElems A (fun z => x.lt z = false) ≤ numElems A (fun z => m.lt z = false) := by
      unfold numElems
      refine Finset.card_le_card fun q hq => ?_
      rw [Finset.mem_filter] at hq ⊢
      refine ⟨Finset.mem_univ _, ?_⟩
      show m.lt (A q.1 q.2) = false
      have h2 : x.lt (A q.1 q.2) = false := hq.2
      rw [← Bool.not_eq_true, Fl.lt_iff fx (hA _ _), not_lt] at h2
      rw [← Bool.not_eq_true, Fl.lt_iff hf (hA _ _), not_lt]
      linarith
    have := hx.2.2
    omega
  · have h4 : numElems A (fun z => z.lt m = true) ≤ numElems A (fun z => z.lt y = true) := by
      unfold numElems
      refine Finset.card_le_card fun q hq => ?_
      rw [Finset.mem_filter] at hq ⊢
      refine ⟨Finset.mem_univ _, ?_⟩
      show (A q.1 q.2).lt y = true
      have h5 : (A q.1 q.2).lt m = true := hq.2
      rw [Fl.lt_iff (hA _ _) hf] at h5
      rw [Fl.lt_iff (hA _ _) fy]
      linarith
    have h5 : numElems A (fun z => z.lt m = true) + numElems A (fun z => z.lt m = false) = i * j := by
      have := Finset.card_filter_add_card_filter_not (s := (Finset.univ : Finset (Fin i × Fin j)))
        (fun q => (A q.1 q.2).lt m = true)
      simp only [Bool.not_eq_true, Finset.card_univ, Fintype.card_prod, Fintype.card_fin] at this
      exact this
    have := hy.2.1
    omega

/-- C80: the median of two copies of the largest finite number is infinite. -/
theorem C80_median_overflows (sort : List (Fl F) → List (Fl F)) (hsort : SortsFloats sort) :
    ∃ A : Mat (Fl F) 1 2, (∀ a b, (A a b).Finite) ∧ median sort A = .ok (.inf false) := by
  refine ⟨Mat.const (Fl.maxNum F), fun _ _ => trivial, ?_⟩
  obtain ⟨x, y, ⟨⟨a, b, rfl⟩, -⟩, ⟨⟨a', b', rfl⟩, -⟩, hm⟩ := C80_median_even sort hsort
    (Mat.const (Fl.maxNum F) : Mat (Fl F) 1 2) (fun _ _ h => by cases h) (by norm_num) (by norm_num)
    (by norm_num)
  rw [hm]
  have hv := Fl.maxNum_val (F := F)
  have hpos := Fl.maxFinite_pos F
  have hf : ¬ ((Fl.maxNum F).add (Fl.maxNum F)).Finite := by
    intro hf
    obtain ⟨N, hN, e⟩ := Fl.fin_rep (a := Fl.maxNum F) trivial
    have e' : N = (2 ^ F.p - 1) * 2 ^ (2 * F.emax - 1) := by
      have h1 : |(Fl.maxNum F).val| * F.unit = (((2 ^ F.p - 1) * 2 ^ (2 * F.emax - 1) : Nat) : ℝ) := by
        unfold Fl.maxNum Fl.val
        rw [abs_div, Fl.abs_signed, abs_of_pos (Fl.unit_posR F), div_mul_cancel₀ _ (Fl.unit_posR F).ne']
      exact_mod_cast e.symm.trans h1
    have hb : F.bound ≤ 2 * N := by
      rw [e', Fmt.bound, pow_add, ← mul_assoc]
      refine Nat.mul_le_mul_right _ ?_
      have : 2 ^ 1 ≤ 2 ^ F.p := Nat.pow_le_pow_right (by norm_num) (by have := F.hp; omega)
      omega
    have := (Fl.add_rounded (a := Fl.maxNum F) (b := Fl.maxNum F) trivial trivial).lower hf
      (Fl.grid_double hN.2) (r := 2 * (Fl.maxNum F).val) (by
        rw [abs_mul, abs_two, mul_assoc, e]; push_cast; ring) (by linarith)
    obtain ⟨M, hM, e2⟩ := Fl.fin_rep hf
    have h3 := le_abs_self ((Fl.maxNum F).add (Fl.maxNum F)).val
    have hu := Fl.unit_posR F
    have h4 : 2 * (|(Fl.maxNum F).val| * F.unit) ≤ |((Fl.maxNum F).add (Fl.maxNum F)).val| * F.unit := by
      rw [abs_of_pos (by linarith : 0 < (Fl.maxNum F).val), ← mul_assoc]
      exact mul_le_mul_of_nonneg_right (this.trans h3) hu.le
    rw [e, e2] at h4
    have h5 : 2 * N ≤ M := by exact_mod_cast h4
    have := hM.1
    omega
  obtain ⟨-, s, h2, h3⟩ := Fl.add_inf (a := Fl.maxNum F) (b := Fl.maxNum F) trivial trivial hf
  have hs : s = false := by
    rw [← Bool.not_eq_true, h3, not_lt]
    linarith
  subst hs
  obtain ⟨-, -, N, h, e⟩ := Fl.ofInt_two (F := F)
  show Except.ok (((Fl.maxNum F).add (Fl.maxNum F)).div (Fl.ofInt 2)) = _
  rw [h2, e]
  rfl

/-! ## NaN -/

theorem Fl.nan_lt (a : Fl F) : Fl.lt .nan a = false := by cases a <;> rfl
theorem Fl.lt_nan (a : Fl F) : Fl.lt a .nan = false := by cases a <;> rfl

/-- C80: a NaN beside two elements that differ: `<` is no strict weak ordering, and `histogram`,
`cumulative_histogram` and `median` are undefined. -/
theorem C80_nan (sort : List (Fl F) → List (Fl F)) (A : Mat (Fl F) i j) (hn : ∃ a b, A a b = .nan)
    (hd : ∃ a b a' b', (A a b).lt (A a' b') = true) :
    histogram A = .error (.ub .badOrder) ∧ cumulative_histogram A = .error (.ub .badOrder) ∧
      median sort A = .error (.ub .badOrder) := by
  have hw : ¬ StrictWeak A := by
    intro hw
    obtain ⟨a, b, hab⟩ := hn
    obtain ⟨c, d, c', d', hlt⟩ := hd
    have h1 : ∀ x y : Fl F, CScalar.lt x y = x.lt y := fun _ _ => rfl
    have := ((hw c d).2 a b c' d').2
    rw [hab, h1, h1, h1, h1, h1, h1, Fl.lt_nan, Fl.nan_lt, Fl.lt_nan, Fl.nan_lt] at this
    have := (this ⟨rfl, rfl⟩ ⟨rfl, rfl⟩).1
    rw [hlt] at this
    cases this
  have hh : histogram A = .error (.ub .badOrder) := by
    unfold histogram
    rw [if_neg hw]
  refine ⟨hh, ?_, ?_⟩
  · unfold cumulative_histogram
    rw [hh, error_bind]
  · unfold median stdSort
    rw [median_elems, ok_bind, if_neg hw, error_bind]

/-- C80: in every other case `histogram` returns. -/
theorem C80_histogram_returns_iff (A : Mat (Fl F) i j) :
    Returns (histogram A) ↔
      (∀ a b, A a b ≠ .nan) ∨ ∀ a b a' b', (A a b).lt (A a' b') = false := by
  constructor
  · rintro ⟨h, hh⟩
    by_contra hno
    rw [not_or] at hno
    obtain ⟨h1, h2⟩ := hno
    simp only [not_forall, not_not, Bool.not_eq_false] at h1 h2
    rw [(C80_nan (fun l => l) A h1 h2).1] at hh
    cases hh
  · intro h
    refine (safe_histogram A ?_).returns
    rcases h with h | h
    · exact strictWeak_float A h
    · intro a b
      have h1 : ∀ x y : Fl F, CScalar.lt x y = x.lt y := fun _ _ => rfl
      simp only [h1, h]
      simp

/-! ## The hypotheses can be met -/

/-- A sorting function as assumed above: insertion sort by position in the order of the format. -/
def sortFloats (l : List (Fl F)) : List (Fl F) := l.insertionSort (fun x y => x.ordKey ≤ y.ordKey)

theorem sortFloats_sorts : SortsFloats (sortFloats (F := F)) := by
  intro l hl
  have : Std.Total (fun x y : Fl F => x.ordKey ≤ y.ordKey) := ⟨fun x y => le_total _ _⟩
  have : IsTrans (Fl F) (fun x y => x.ordKey ≤ y.ordKey) := ⟨fun x y z => le_trans⟩
  have hp : (sortFloats l).Perm l := List.perm_insertionSort _ l
  refine ⟨hp, ?_⟩
  have hs : (sortFloats l).Pairwise (fun x y => x.ordKey ≤ y.ordKey) := List.pairwise_insertionSort _ l
  refine hs.imp_of_mem fun {x y} hx hy hxy => ?_
  refine (Fl.lt_key_false ?_ ?_).mpr hxy
  · rintro rfl
    exact hl (hp.mem_iff.mp hy)
  · rintro rfl
    exact hl (hp.mem_iff.mp hx)

example : median sortFloats (!![.ofInt 4, .inf true; .ofInt 3, .ofInt 9] : Mat (Fl binary32) 2 2) =
    .ok ((Fl.ofInt 7).div (.ofInt 2)) := by decide +kernel
example : median sortFloats (!![.ofInt 4, .ofInt 5, .inf false] : Mat (Fl binary32) 1 3) = .ok (.ofInt 5) := by
  decide +kernel
example : histogram (!![Fl.ofInt 0, .neg (.ofInt 0); .ofInt 3, .ofInt 0] : Mat (Fl binary32) 2 2) =
    .ok [(.ofInt 0, 3), (.ofInt 3, 1)] := by decide +kernel
example : cumulative_histogram (!![Fl.ofInt 3, .ofInt 0; .ofInt 3, .ofInt 0] : Mat (Fl binary32) 2 2) =
    .ok [(.ofInt 0, 2), (.ofInt 3, 4)] := by decide +kernel
example : histogram (!![Fl.ofInt 1, .nan, .ofInt 2] : Mat (Fl binary32) 1 3) = .error (.ub .badOrder) := by
  decide +kernel
example : histogram (!![Fl.ofInt 1, .nan, .ofInt 1] : Mat (Fl binary32) 1 3) = .ok [(.ofInt 1, 3)] := by
  decide +kernel

end MatrixLibs
