import Verif.Proof.FloatFinite

/-!
# Running error bounds
-/

namespace MatrixLibs

namespace Fl
variable {F : Fmt}

/-- `a` is finite and differs from `x` by at most `((1+u)^k - 1) X + h`, where `|x| ≤ X`. -/
structure Tracks (a : Fl F) (x X : ℝ) (k : Nat) (h : ℝ) : Prop where
  finite : a.Finite
  err : |a.val - x| ≤ ((1 + F.u) ^ k - 1) * X + h
  le : |x| ≤ X
  nonneg : 0 ≤ h

variable {a b : Fl F} {x y X Y h h' : ℝ} {k : Nat}

theorem Tracks.exact (ha : a.Finite) : Tracks a a.val |a.val| 0 0 :=
  ⟨ha, by simp, le_rfl, le_rfl⟩

theorem Tracks.X_nonneg (ha : Tracks a x X k h) : 0 ≤ X := (abs_nonneg _).trans ha.le

theorem Tracks.mono (ha : Tracks a x X k h) {k' : Nat} (hk : k ≤ k') : Tracks a x X k' h := by
  refine ⟨ha.finite, ha.err.trans ?_, ha.le, ha.nonneg⟩
  have : (1 + F.u) ^ k ≤ (1 + F.u) ^ k' :=
    pow_le_pow_right₀ (by have := u_nonneg F; linarith) hk
  have := mul_le_mul_of_nonneg_right this ha.X_nonneg
  linarith

theorem Tracks.weaken (ha : Tracks a x X k h) {X' h' : ℝ} (hX : X ≤ X') (hh : h ≤ h') :
    Tracks a x X' k h' := by
  refine ⟨ha.finite, ha.err.trans ?_, ha.le.trans hX, ha.nonneg.trans hh⟩
  have h1 := one_add_u_pow F k
  have := mul_le_mul_of_nonneg_left hX (by linarith : 0 ≤ (1 + F.u) ^ k - 1)
  linarith

theorem Tracks.abs_le (ha : Tracks a x X k h) : |a.val| ≤ (1 + F.u) ^ k * X + h := by
  have h1 := abs_sub_abs_le_abs_sub a.val x
  have h2 := ha.err
  have h3 := ha.le
  linarith

theorem Tracks.neg (ha : Tracks a x X k h) : Tracks a.neg (-x) X k h := by
  refine ⟨(neg_finite a).mpr ha.finite, ?_, by rw [abs_neg]; exact ha.le, ha.nonneg⟩
  rw [neg_val, ← neg_sub', abs_neg]
  exact ha.err

/-- Rounding a tracked exact result once more. -/
theorem tracks_round {c : Fl F} {z Z e : ℝ} (hc : c.Finite) (hz : |z| ≤ Z) (h0 : 0 ≤ h)
    (hv : |c.val - y| ≤ F.u * |y| + e) (he : 0 ≤ e)
    (hy : |y - z| ≤ ((1 + F.u) ^ k - 1) * Z + h) :
    Tracks c z Z (k + 1) ((1 + F.u) * h + e) := by
  have hu := u_nonneg F
  refine ⟨hc, ?_, hz, by positivity⟩
  have h1 : |y| ≤ (1 + F.u) ^ k * Z + h := by
    have := abs_sub_abs_le_abs_sub y z
    linarith
  have h2 := abs_sub_le c.val y z
  have h3 := mul_le_mul_of_nonneg_left h1 hu
  rw [pow_succ]
  nlinarith

theorem Tracks.add (ha : Tracks a x X k h) (hb : Tracks b y Y k h')
    (hf : (a.add b).Finite) : Tracks (a.add b) (x + y) (X + Y) (k + 1) ((1 + F.u) * (h + h')) := by
  have := tracks_round (k := k) (h := h + h') (e := 0) (y := a.val + b.val) hf
    ((abs_add_le x y).trans (add_le_add ha.le hb.le)) (add_nonneg ha.nonneg hb.nonneg)
    (by rw [add_zero]; exact add_err hf) le_rfl (by
      rw [add_sub_add_comm]
      refine (abs_add_le _ _).trans ?_
      have := ha.err
      have := hb.err
      linarith)
  rwa [add_zero] at this

theorem Tracks.sub (ha : Tracks a x X k h) (hb : Tracks b y Y k h')
    (hf : (a.sub b).Finite) : Tracks (a.sub b) (x - y) (X + Y) (k + 1) ((1 + F.u) * (h + h')) := by
  rw [sub_eq_add_neg]
  exact ha.add hb.neg hf

/-- Product with an exact factor. -/
theorem Tracks.mul_exact (ha : Tracks a x X k h) (hf : (a.mul b).Finite) :
    Tracks (a.mul b) (x * b.val) (X * |b.val|) (k + 1) ((1 + F.u) * (h * |b.val|) + F.eta) := by
  have hb := abs_nonneg b.val
  refine tracks_round (k := k) (h := h * |b.val|) (e := F.eta) (y := a.val * b.val) hf
    ?_ (mul_nonneg ha.nonneg hb) (mul_err hf) (eta_nonneg F) ?_
  · rw [abs_mul]
    exact mul_le_mul_of_nonneg_right ha.le hb
  · rw [← sub_mul, abs_mul]
    have := mul_le_mul_of_nonneg_right ha.err hb
    linarith

/-! ## Exact sums -/

/-- A sum whose partial sums are all numbers of the format is exact. -/
theorem fsum_exact (l : List (Fl F)) (hf : ∀ x ∈ l, x.Finite)
    (hp : ∀ l', l' <+: l → ∃ e : Fl F, e.Finite ∧ e.val = (l'.map val).sum) :
    (fsum l).Finite ∧ (fsum l).val = (l.map val).sum := by
  induction l using List.reverseRecOn with
  | nil => exact ⟨zero_finite, by simp [fsum, zero_val]⟩
  | append_singleton l x ih =>
    obtain ⟨i1, i2⟩ := ih (fun y hy => hf y (by simp [hy]))
      (fun l' hl' => hp l' (hl'.trans (List.prefix_append _ _)))
    obtain ⟨e, he, ev⟩ := hp (l ++ [x]) (List.prefix_rfl)
    rw [fsum_concat]
    have hr := add_rounded i1 (hf x (by simp))
    have e1 : (fsum l).val + x.val = e.val := by rw [ev, i2]; simp
    rw [e1] at hr
    obtain ⟨N, hN, eN⟩ := fin_rep he
    have := hr.exact N eN hN
    exact ⟨this.1, this.2.trans ev⟩

theorem sum_map_single {α : Type} [DecidableEq α] (l : List α) (hl : l.Nodup) (j : α) (v : ℝ) :
    (l.map fun k => if k = j then v else 0).sum = if j ∈ l then v else 0 := by
  induction l with
  | nil => simp
  | cons a l ih =>
    have hn := List.nodup_cons.mp hl
    rw [List.map_cons, List.sum_cons, ih hn.2]
    by_cases h : a = j
    · subst h
      simp [hn.1]
    · simp only [List.mem_cons, if_neg h, zero_add]
      have : ¬ j = a := fun e => h e.symm
      simp [this]

/-- A sum with at most one nonzero term is exact. -/
theorem fsum_single {m : Nat} (f : Fin m → Fl F) (j : Fin m) (v : Fl F) (hv : v.Finite)
    (hf : ∀ k, (f k).Finite) (h : ∀ k, (f k).val = if k = j then v.val else 0) :
    (fsum ((List.finRange m).map f)).Finite ∧ (fsum ((List.finRange m).map f)).val = v.val := by
  have := fsum_exact ((List.finRange m).map f) ?_ ?_
  · refine ⟨this.1, this.2.trans ?_⟩
    rw [List.map_map, sum_finRange]
    simp only [Function.comp, h]
    simp
  · intro x hx
    obtain ⟨k, -, rfl⟩ := List.mem_map.mp hx
    exact hf k
  · intro l' hl'
    obtain ⟨t, rfl⟩ : ∃ t, l' = ((List.finRange m).take t).map f :=
      ⟨l'.length, by rw [List.map_take]; exact List.prefix_iff_eq_take.mp hl'⟩
    have hs : ((((List.finRange m).take t).map f).map val).sum =
        if j ∈ (List.finRange m).take t then v.val else 0 := by
      rw [List.map_map]
      have : (val ∘ f) = fun k => if k = j then v.val else 0 := funext h
      rw [this]
      exact sum_map_single _ ((List.take_sublist _ _).nodup (List.nodup_finRange m)) j v.val
    rw [hs]
    split
    · exact ⟨v, hv, rfl⟩
    · exact ⟨ofInt 0, zero_finite, zero_val⟩

theorem mul_one_val {a : Fl F} (ha : a.Finite) :
    (a.mul (ofInt 1)).Finite ∧ (a.mul (ofInt 1)).val = a.val := by
  obtain ⟨o1, o2⟩ := val_ofInt_exact (F := F) 1 (by simpa using Nat.one_le_two_pow)
  have hr := mul_rounded ha o1
  rw [o2, Int.cast_one, mul_one] at hr
  obtain ⟨N, hN, e⟩ := fin_rep ha
  exact hr.exact N e hN

theorem mul_zero_val {a : Fl F} (ha : a.Finite) :
    (a.mul (ofInt 0)).Finite ∧ (a.mul (ofInt 0)).val = 0 := by
  have hr := mul_rounded ha (zero_finite (F := F))
  rw [zero_val, mul_zero] at hr
  exact hr.exact 0 (by simp) rep_zero

end Fl

end MatrixLibs
