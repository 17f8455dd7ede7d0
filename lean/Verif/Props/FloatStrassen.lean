import Verif.Props.FloatRange

/-!
# Property C87: accuracy of the floating point Strassen product
-/

namespace MatrixLibs

set_option linter.unusedSectionVars false

variable {F : Fmt}

namespace Fl

variable {a b : Fl F} {x y X Y : ℝ} {k l : Nat}

/-- Product of two tracked numbers. -/
theorem Tracks.mul (ha : Tracks a x X k 0) (hb : Tracks b y Y l 0) (hf : (a.mul b).Finite) :
    Tracks (a.mul b) (x * y) (X * Y) (k + l + 1) F.eta := by
  have hX := ha.X_nonneg
  have hY := hb.X_nonneg
  have h1 := ha.err
  have h2 := hb.err
  have h3 := hb.abs_le
  rw [add_zero] at h1 h2 h3
  have := tracks_round (k := k + l) (h := 0) (e := F.eta) (y := a.val * b.val) (z := x * y)
    (Z := X * Y) hf (by rw [abs_mul]; exact mul_le_mul ha.le hb.le (abs_nonneg _) hX) le_rfl
    (mul_err hf) (eta_nonneg F) (by
      have : a.val * b.val - x * y = (a.val - x) * b.val + x * (b.val - y) := by ring
      rw [this, add_zero]
      refine (abs_add_le _ _).trans ?_
      rw [abs_mul, abs_mul]
      have q1 := one_add_u_pow F k
      have q2 := one_add_u_pow F l
      have m1 := mul_le_mul h1 h3 (abs_nonneg _) (mul_nonneg (by linarith) hX)
      have m2 := mul_le_mul ha.le h2 (abs_nonneg _) hX
      rw [pow_add]
      refine (add_le_add m1 m2).trans (le_of_eq ?_)
      ring)
  rw [mul_zero, zero_add] at this
  exact this

/-- A finite number bounded by `α`. -/
theorem Tracks.of_le {α : ℝ} (ha : a.Finite) (h : |a.val| ≤ α) : Tracks a a.val α 0 0 :=
  (Tracks.exact ha).weaken h le_rfl

theorem Tracks.add0 (ha : Tracks a x X k 0) (hb : Tracks b y Y k 0) (hf : (a.add b).Finite) :
    Tracks (a.add b) (x + y) (X + Y) (k + 1) 0 := by
  have := ha.add hb hf
  rwa [add_zero, mul_zero] at this

theorem Tracks.sub0 (ha : Tracks a x X k 0) (hb : Tracks b y Y k 0) (hf : (a.sub b).Finite) :
    Tracks (a.sub b) (x - y) (X + Y) (k + 1) 0 := by
  have := ha.sub hb hf
  rwa [add_zero, mul_zero] at this

end Fl

/-- C87: a finite element of the Strassen product of 2x2 matrices with elements of size at most
`α` and `β` differs from that of the exact product by at most `((1+u)^6 - 1) 12 α β`, plus
underflow. -/
theorem C87_strassen_error (A B : Mat (Fl F) 2 2) (α β : ℝ) (hα : ∀ i j, |(A i j).val| ≤ α)
    (hβ : ∀ i j, |(B i j).val| ≤ β) :
    ∃ P, strassen A B = .ok P ∧ ∀ i j, (P i j).Finite →
      |(P i j).val - (A.map Fl.val * B.map Fl.val) i j| ≤
        ((1 + F.u) ^ 6 - 1) * (12 * (α * β)) + 4 * (1 + F.u) ^ 3 * F.eta := by
  let M1 := (A 0 0).mul ((B 0 1).sub (B 1 1))
  let M2 := ((A 0 0).add (A 0 1)).mul (B 1 1)
  let M3 := ((A 1 0).add (A 1 1)).mul (B 0 0)
  let M4 := (A 1 1).mul ((B 1 0).sub (B 0 0))
  let M5 := ((A 0 0).add (A 1 1)).mul ((B 0 0).add (B 1 1))
  let M6 := ((A 0 1).sub (A 1 1)).mul ((B 1 0).add (B 1 1))
  let M7 := ((A 0 0).sub (A 1 0)).mul ((B 0 0).add (B 0 1))
  have hu := Fl.u_nonneg F
  have hη := Fl.eta_nonneg F
  have hα0 : 0 ≤ α := (abs_nonneg _).trans (hα 0 0)
  have hβ0 : 0 ≤ β := (abs_nonneg _).trans (hβ 0 0)
  have hαβ : 0 ≤ α * β := mul_nonneg hα0 hβ0
  have tA : ∀ i j, (A i j).Finite → Fl.Tracks (A i j) (A i j).val α 0 0 := fun i j h =>
    .of_le h (hα i j)
  have tB : ∀ i j, (B i j).Finite → Fl.Tracks (B i j) (B i j).val β 0 0 := fun i j h =>
    .of_le h (hβ i j)
  have one_two : ∀ {a b c : Fl F} {z w v : ℝ}, (a.mul (b.sub c)).Finite →
      (a.Finite → Fl.Tracks a z α 0 0) → (b.Finite → Fl.Tracks b w β 0 0) →
      (c.Finite → Fl.Tracks c v β 0 0) →
      Fl.Tracks (a.mul (b.sub c)) (z * (w - v)) (2 * (α * β)) 2 F.eta := by
    intro a b c z w v h ha hb hc
    obtain ⟨h1, h2⟩ := Fl.mul_finite h
    obtain ⟨h3, h4⟩ := Fl.sub_finite h2
    have := (ha h1).mul ((hb h3).sub0 (hc h4) h2) h
    exact this.weaken (by linarith) le_rfl
  have two_one : ∀ {a b c : Fl F} {z w v : ℝ}, ((a.add b).mul c).Finite →
      (a.Finite → Fl.Tracks a z α 0 0) → (b.Finite → Fl.Tracks b w α 0 0) →
      (c.Finite → Fl.Tracks c v β 0 0) →
      Fl.Tracks ((a.add b).mul c) ((z + w) * v) (2 * (α * β)) 2 F.eta := by
    intro a b c z w v h ha hb hc
    obtain ⟨h1, h2⟩ := Fl.mul_finite h
    obtain ⟨h3, h4⟩ := Fl.add_finite h1
    have := ((ha h3).add0 (hb h4) h1).mul (hc h2) h
    exact this.weaken (by linarith) le_rfl
  have two_two : ∀ {a b : Fl F} {z w : ℝ}, (a.mul b).Finite →
      (a.Finite → Fl.Tracks a z (α + α) 1 0) → (b.Finite → Fl.Tracks b w (β + β) 1 0) →
      Fl.Tracks (a.mul b) (z * w) (4 * (α * β)) 3 F.eta := by
    intro a b z w h ha hb
    obtain ⟨h1, h2⟩ := Fl.mul_finite h
    exact ((ha h1).mul (hb h2) h).weaken (by linarith) le_rfl
  have aadd : ∀ i j i' j', ((A i j).add (A i' j')).Finite → Fl.Tracks ((A i j).add (A i' j'))
      ((A i j).val + (A i' j').val) (α + α) 1 0 := fun i j i' j' h =>
    (tA _ _ (Fl.add_finite h).1).add0 (tA _ _ (Fl.add_finite h).2) h
  have asub : ∀ i j i' j', ((A i j).sub (A i' j')).Finite → Fl.Tracks ((A i j).sub (A i' j'))
      ((A i j).val - (A i' j').val) (α + α) 1 0 := fun i j i' j' h =>
    (tA _ _ (Fl.sub_finite h).1).sub0 (tA _ _ (Fl.sub_finite h).2) h
  have badd : ∀ i j i' j', ((B i j).add (B i' j')).Finite → Fl.Tracks ((B i j).add (B i' j'))
      ((B i j).val + (B i' j').val) (β + β) 1 0 := fun i j i' j' h =>
    (tB _ _ (Fl.add_finite h).1).add0 (tB _ _ (Fl.add_finite h).2) h
  have m1 := fun h : M1.Finite => one_two h (tA 0 0) (tB 0 1) (tB 1 1)
  have m2 := fun h : M2.Finite => two_one h (tA 0 0) (tA 0 1) (tB 1 1)
  have m3 := fun h : M3.Finite => two_one h (tA 1 0) (tA 1 1) (tB 0 0)
  have m4 := fun h : M4.Finite => one_two h (tA 1 1) (tB 1 0) (tB 0 0)
  have m5 := fun h : M5.Finite => two_two h (aadd 0 0 1 1) (badd 0 0 1 1)
  have m6 := fun h : M6.Finite => two_two h (asub 0 1 1 1) (badd 1 0 1 1)
  have m7 := fun h : M7.Finite => two_two h (asub 0 0 1 0) (badd 0 0 0 1)
  have hP : strassen A B = .ok (brace2 (((M5.add M4).sub M2).add M6) (M1.add M2) (M3.add M4)
      ((M1.add M5).sub (M3.add M7))) := by
    refine congrArg Except.ok ?_
    ext i j
    fin_cases i <;> fin_cases j <;> rfl
  refine ⟨_, hP, fun i j hf => ?_⟩
  have fin : ∀ {p : Fl F} {z w Z h : ℝ} {k : Nat}, Fl.Tracks p z Z k h → k ≤ 6 → z = w →
      Z ≤ 12 * (α * β) → h ≤ 4 * (1 + F.u) ^ 3 * F.eta →
      |p.val - w| ≤ ((1 + F.u) ^ 6 - 1) * (12 * (α * β)) + 4 * (1 + F.u) ^ 3 * F.eta := by
    intro p z w Z h k t hk hz hZ hh
    rw [← hz]
    exact ((t.mono hk).weaken hZ hh).err
  have q1 : F.eta ≤ (1 + F.u) * F.eta := by nlinarith
  have q2 : (1 + F.u) * F.eta ≤ (1 + F.u) ^ 2 * F.eta := by
    rw [pow_two, mul_assoc]
    exact mul_le_mul_of_nonneg_left q1 (by linarith)
  have q3 : (1 + F.u) ^ 2 * F.eta ≤ (1 + F.u) ^ 3 * F.eta := by
    have := mul_le_mul_of_nonneg_left q2 (by linarith : 0 ≤ 1 + F.u)
    refine le_trans (le_of_eq ?_) (this.trans (le_of_eq ?_)) <;> ring
  have hmul : (A.map Fl.val * B.map Fl.val) i j =
      (A i 0).val * (B 0 j).val + (A i 1).val * (B 1 j).val := by
    rw [Matrix.mul_apply, Fin.sum_univ_two]
    rfl
  rw [hmul]
  fin_cases i <;> fin_cases j
  · have h : (((M5.add M4).sub M2).add M6).Finite := hf
    have g1 := Fl.add_finite h
    have g2 := Fl.sub_finite g1.1
    have g3 := Fl.add_finite g2.1
    exact fin ((((((m5 g3.1).add ((m4 g3.2).mono (by omega)) g2.1).sub
      ((m2 g2.2).mono (by omega)) g1.1)).add ((m6 g1.2).mono (by omega)) h)) (by omega)
      (by dsimp; ring) (by linarith) (by nlinarith)
  · have h : (M1.add M2).Finite := hf
    have g := Fl.add_finite h
    exact fin ((m1 g.1).add (m2 g.2) h) (by omega) (by dsimp; ring) (by linarith) (by nlinarith)
  · have h : (M3.add M4).Finite := hf
    have g := Fl.add_finite h
    exact fin ((m3 g.1).add (m4 g.2) h) (by omega) (by dsimp; ring) (by linarith) (by nlinarith)
  · have h : ((M1.add M5).sub (M3.add M7)).Finite := hf
    have g1 := Fl.sub_finite h
    have g2 := Fl.add_finite g1.1
    have g3 := Fl.add_finite g1.2
    exact fin ((((m1 g2.1).mono (by omega)).add (m5 g2.2) g1.1).sub
      (((m3 g3.1).mono (by omega)).add (m7 g3.2) g1.2) h) (by omega) (by dsimp; ring) (by linarith)
      (by nlinarith)

/-- Strassen products are less accurate than ordinary ones: the first element of the second column
of `[1 0; 0 0] * [0 1; 0 2^25]` is 1, and `A * B` returns 1, but the Strassen product returns 0. -/
theorem C87_not_componentwise :
    ∃ A B : Mat (Fl binary32) 2 2,
      (∃ P, opMul A B = .ok P ∧ P 0 1 = Fl.ofInt 1) ∧
      (∃ P, strassen A B = .ok P ∧ P 0 1 = Fl.ofInt 0) :=
  ⟨!![Fl.ofInt 1, Fl.ofInt 0; Fl.ofInt 0, Fl.ofInt 0],
    !![Fl.ofInt 0, Fl.ofInt 1; Fl.ofInt 0, Fl.ofInt (2 ^ 25)],
    ⟨_, rfl, by decide +kernel⟩, ⟨_, rfl, by decide +kernel⟩⟩

/-- The hypotheses are met, with a finite result. -/
example : strassen (!![Fl.ofInt 1, Fl.ofInt 2; Fl.ofInt 3, Fl.ofInt 4] : Mat (Fl binary32) 2 2)
    !![Fl.ofInt 5, Fl.ofInt 6; Fl.ofInt 7, Fl.ofInt 8] =
    .ok !![Fl.ofInt 19, Fl.ofInt 22; Fl.ofInt 43, Fl.ofInt 50] := by decide +kernel

end MatrixLibs
