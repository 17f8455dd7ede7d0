import Verif.Model.Det
import Verif.Proof.Arith
import Mathlib.LinearAlgebra.Matrix.Determinant.Basic
import Mathlib.LinearAlgebra.Matrix.Block

/-!
# Determinants
-/

namespace MatrixLibs

set_option linter.unusedSectionVars false

open CScalar (ofInt)

/-! ## Closed forms -/

section closed
variable {T R : Type} [Inhabited T] [CScalar T] [CommRing R] (S : RingSem T R)

theorem wp_det1 (A : Mat T 1 1) :
    wp (det1 A) (fun v => S.val v = (A.map S.val).det) S.Bad := by
  unfold det1
  rw [rd_eq Nat.one_pos Nat.one_pos, wp_ok, Matrix.det_unique]
  rfl

theorem wp_det2 (A : Mat T 2 2) :
    wp (det2 A) (fun v => S.val v = (A.map S.val).det) S.Bad := by
  have l0 : (0 : Nat) < 2 := by norm_num
  have l1 : (1 : Nat) < 2 := by norm_num
  unfold det2
  rw [rd_eq l0 l0, ok_bind, rd_eq l0 l1, ok_bind, rd_eq l1 l0, ok_bind, rd_eq l1 l1, ok_bind,
    wp_bind]
  refine wp_mono (S.mul _ _) (fun x hx => ?_) (fun _ h => h)
  rw [wp_bind]
  refine wp_mono (S.mul _ _) (fun y hy => ?_) (fun _ h => h)
  refine wp_mono (S.sub _ _) (fun v hv => ?_) (fun _ h => h)
  rw [hv, hx, hy, Matrix.det_fin_two]
  rfl

theorem wp_det3 (A : Mat T 3 3) :
    wp (det3 A) (fun v => S.val v = (A.map S.val).det) S.Bad := by
  have l0 : (0 : Nat) < 3 := by norm_num
  have l1 : (1 : Nat) < 3 := by norm_num
  have l2 : (2 : Nat) < 3 := by norm_num
  unfold det3
  rw [rd_eq l0 l0, ok_bind, rd_eq l0 l1, ok_bind, rd_eq l0 l2, ok_bind,
    rd_eq l1 l0, ok_bind, rd_eq l1 l1, ok_bind, rd_eq l1 l2, ok_bind,
    rd_eq l2 l0, ok_bind, rd_eq l2 l1, ok_bind, rd_eq l2 l2, ok_bind, wp_bind]
  refine wp_mono (S.mul _ _) (fun x1 e1 => ?_) (fun _ h => h)
  rw [wp_bind]
  refine wp_mono (S.mul _ _) (fun x2 e2 => ?_) (fun _ h => h)
  rw [wp_bind]
  refine wp_mono (S.mul _ _) (fun x3 e3 => ?_) (fun _ h => h)
  rw [wp_bind]
  refine wp_mono (S.mul _ _) (fun x4 e4 => ?_) (fun _ h => h)
  rw [wp_bind]
  refine wp_mono (S.add _ _) (fun x5 e5 => ?_) (fun _ h => h)
  rw [wp_bind]
  refine wp_mono (S.mul _ _) (fun x6 e6 => ?_) (fun _ h => h)
  rw [wp_bind]
  refine wp_mono (S.mul _ _) (fun x7 e7 => ?_) (fun _ h => h)
  rw [wp_bind]
  refine wp_mono (S.add _ _) (fun x8 e8 => ?_) (fun _ h => h)
  rw [wp_bind]
  refine wp_mono (S.mul _ _) (fun x9 e9 => ?_) (fun _ h => h)
  rw [wp_bind]
  refine wp_mono (S.mul _ _) (fun x10 e10 => ?_) (fun _ h => h)
  rw [wp_bind]
  refine wp_mono (S.sub _ _) (fun x11 e11 => ?_) (fun _ h => h)
  rw [wp_bind]
  refine wp_mono (S.mul _ _) (fun x12 e12 => ?_) (fun _ h => h)
  rw [wp_bind]
  refine wp_mono (S.mul _ _) (fun x13 e13 => ?_) (fun _ h => h)
  rw [wp_bind]
  refine wp_mono (S.sub _ _) (fun x14 e14 => ?_) (fun _ h => h)
  rw [wp_bind]
  refine wp_mono (S.mul _ _) (fun x15 e15 => ?_) (fun _ h => h)
  rw [wp_bind]
  refine wp_mono (S.mul _ _) (fun x16 e16 => ?_) (fun _ h => h)
  refine wp_mono (S.sub _ _) (fun v hv => ?_) (fun _ h => h)
  rw [hv, e16, e15, e14, e13, e12, e11, e10, e9, e8, e7, e6, e5, e4, e3, e2, e1,
    Matrix.det_fin_three]
  have z0 : (⟨0, l0⟩ : Fin 3) = 0 := rfl
  have z1 : (⟨1, l1⟩ : Fin 3) = 1 := rfl
  have z2 : (⟨2, l2⟩ : Fin 3) = 2 := rfl
  simp only [z0, z1, z2, Matrix.map_apply]
  ring

end closed

/-! ## Field semantics -/

/-- An interpretation of the element type in a field: ring operations and division (by something
non-zero) are exact or stop as listed in `Bad`, and `==` compares the interpretations. -/
structure FieldSem (T F : Type) [CScalar T] [Field F] extends RingSem T F where
  div : ∀ a b : T, val b ≠ 0 → wp (CScalar.div a b) (fun c => val c = val a / val b) Bad
  eq : ∀ a b : T, CScalar.eq a b = true ↔ val a = val b

/-- Exact arithmetic in a field. -/
def FieldSem.exact (K : Type) [Field K] [CScalar K] [ExactField K] : FieldSem K K where
  toRingSem := RingSem.exact K
  div a b h := by
    rw [ExactField.div_eq a b h]; exact rfl
  eq a b := ExactRing.eq_iff a b

theorem FieldSem.ofInt_zero {T F : Type} [CScalar T] [Field F] (S : FieldSem T F) :
    S.val (ofInt 0) = 0 := by
  rw [S.ofInt 0 (by norm_num) (by norm_num), Int.cast_zero]

theorem FieldSem.eq_zero {T F : Type} [CScalar T] [Field F] (S : FieldSem T F) (a : T) :
    CScalar.eq a (ofInt 0) = true ↔ S.val a = 0 := by
  rw [S.eq, S.ofInt_zero]

theorem wp_prod_loop {σ R : Type} [CommMonoid R] {m : Nat} {body : Nat → σ → Res σ} {s0 : σ}
    {E : Stop → Prop} (V : σ → R) (f : Fin m → R)
    (h : ∀ k (hk : k < m) s, wp (body k s) (fun s' => V s' = V s * f ⟨k, hk⟩) E) :
    wp (forUp 0 m s0 body) (fun s => V s = V s0 * ∏ k, f k) E := by
  set F : Nat → R := fun k => if hk : k < m then f ⟨k, hk⟩ else 1 with hF
  refine wp_forUp (fun k s => V s = V s0 * ∏ x ∈ Finset.range k, F x) (Nat.zero_le m)
    (by simp) ?_ ?_
  · intro k s _ hk hs
    refine wp_mono (h k hk s) ?_ (fun _ h => h)
    intro s' hs'
    rw [hs', hs, Finset.prod_range_succ, ← mul_assoc, hF]
    simp only [hk, dite_true]
  · intro s hs
    rw [hs, Finset.prod_range, hF]
    simp

section search
variable {T : Type} [Inhabited T] [CScalar T] {n : Nat}

/-- What the pivot search of `det` finds. Cells are scanned from column `p0` on, rows `r ..`. -/
def SearchPost (A : Mat T n n) (r p0 : Nat) : Option (Nat × Nat) → Prop
  | none => ∀ (a b : Fin n), r ≤ a.val → p0 ≤ b.val → CScalar.eq (A a b) (ofInt 0) = true
  | some (i, p) => ∃ (hi : i < n) (hp : p < n), r ≤ i ∧ p0 ≤ p ∧
      CScalar.eq (A ⟨i, hi⟩ ⟨p, hp⟩) (ofInt 0) = false ∧
      ∀ (a b : Fin n), r ≤ a.val → p0 ≤ b.val → b.val < p →
        CScalar.eq (A a b) (ofInt 0) = true

theorem wp_detSearch (A : Mat T n n) (r p0 : Nat) (hr : r < n) (fuel i pivot : Nat)
    (hi : i < n) (hri : r ≤ i) (hp : pivot < n) (hp0 : p0 ≤ pivot)
    (hfuel : (n - pivot - 1) * n + (n - i) ≤ fuel)
    (hdone : ∀ (a b : Fin n), r ≤ a.val → p0 ≤ b.val →
      (b.val < pivot ∨ b.val = pivot ∧ a.val < i) → CScalar.eq (A a b) (ofInt 0) = true) :
    wp (detSearch A r fuel i pivot) (SearchPost A r p0) (fun _ => False) := by
  induction fuel generalizing i pivot with
  | zero => omega
  | succ fuel ih =>
    unfold detSearch
    rw [rd_eq hi hp, ok_bind]
    have hstep : ∀ (a b : Fin n), CScalar.eq (A ⟨i, hi⟩ ⟨pivot, hp⟩) (ofInt 0) = true →
        r ≤ a.val → p0 ≤ b.val →
        (b.val < pivot ∨ b.val = pivot ∧ a.val < i + 1) →
        CScalar.eq (A a b) (ofInt 0) = true := by
      intro a b hz h1 h2 h3
      by_cases h4 : b.val = pivot ∧ a.val = i
      · have ha : a = ⟨i, hi⟩ := Fin.ext h4.2
        have hb : b = ⟨pivot, hp⟩ := Fin.ext h4.1
        rw [ha, hb]; exact hz
      · exact hdone a b h1 h2 (by omega)
    split
    · next hz =>
      dsimp only
      split
      · next hni =>
        split
        · next hnp =>
          rw [wp_ok]
          intro a b h1 h2
          have := a.2
          have := b.2
          exact hstep a b hz h1 h2 (by omega)
        · next hnp =>
          refine ih r (pivot + 1) hr le_rfl (by omega) (by omega) ?_ ?_
          · obtain ⟨q, hq⟩ : ∃ q, n - (pivot + 1) - 1 = q := ⟨_, rfl⟩
            have hq' : n - pivot - 1 = q + 1 := by omega
            rw [hq', Nat.succ_mul] at hfuel
            rw [hq]
            omega
          · intro a b h1 h2 h3
            have := a.2
            exact hstep a b hz h1 h2 (by omega)
      · next hni =>
        refine ih (i + 1) pivot (by omega) (by omega) hp hp0 (by omega) ?_
        intro a b h1 h2 h3
        exact hstep a b hz h1 h2 h3
    · next hz =>
      rw [wp_ok]
      refine ⟨hi, hp, hri, hp0, by simpa using hz, ?_⟩
      intro a b h1 h2 h3
      exact hdone a b h1 h2 (Or.inl h3)

end search

section detN
variable {T F : Type} [Inhabited T] [CScalar T] [Field F] (S : FieldSem T F) {n : Nat}

theorem wp_detProd (A : Mat T n n) (f : T) (hf : S.val f ≠ 0) :
    wp (detProd A f) (fun v => S.val v = (∏ i, S.val (A i i)) / S.val f) S.Bad := by
  unfold detProd
  rw [wp_bind]
  refine wp_mono (wp_prod_loop S.val (fun i => S.val (A i i)) ?_) ?_ (fun _ h => h)
  · intro k hk s
    rw [rd_eq hk hk, ok_bind]
    exact S.mul _ _
  · intro p hp
    refine wp_mono (S.div _ _ hf) ?_ (fun _ h => h)
    intro v hv
    rw [hv, hp, S.ofInt 1 (by norm_num) (by norm_num), Int.cast_one, one_mul]

/-- Value of cell `(i, j)` after eliminating with pivot `(r, p)`. -/
noncomputable def elimVal (A : Mat T n n) (r p : Fin n) (i j : Fin n) : F :=
  S.val (A i j) - S.val (A i p) * S.val (A r j) / S.val (A r p)

theorem wp_detEliminate (A : Mat T n n) (r p : Fin n) (hp : S.val (A r p) ≠ 0) :
    wp (detEliminate A r p)
      (fun A' => ∀ i j, S.val (A' i j) = if (p < i ∧ i ≠ r) ∧ p ≤ j then elimVal S A r p i j
        else S.val (A i j)) S.Bad := by
  unfold detEliminate
  refine wp_forUp (fun k A' => ∀ i j : Fin n, S.val (A' i j) =
    if (p < i ∧ i.val < k ∧ i ≠ r) ∧ p ≤ j then elimVal S A r p i j else S.val (A i j))
    (by omega) ?_ ?_ ?_
  · intro i j
    rw [if_neg]
    rintro ⟨⟨h1, h2, -⟩, -⟩
    rw [Fin.lt_def] at h1
    omega
  · intro k A' hk0 hk ih
    split
    · next hkr =>
      have hkr' : (⟨k, hk⟩ : Fin n) ≠ r := fun h => hkr (by rw [← h])
      have hrow : ∀ j, S.val (A' r j) = S.val (A r j) := by
        intro j; rw [ih, if_neg]; rintro ⟨⟨-, -, h⟩, -⟩; exact h rfl
      have hkrow : ∀ j, S.val (A' ⟨k, hk⟩ j) = S.val (A ⟨k, hk⟩ j) := by
        intro j; rw [ih, if_neg]; rintro ⟨⟨-, h, -⟩, -⟩; exact absurd h (lt_irrefl _)
      rw [rd_eq hk p.2, ok_bind]
      refine wp_forUp (fun l B => (∀ i j : Fin n, i.val ≠ k → B i j = A' i j) ∧
        ∀ j : Fin n, S.val (B ⟨k, hk⟩ j) = if p ≤ j ∧ j.val < l then elimVal S A r p ⟨k, hk⟩ j
          else S.val (A ⟨k, hk⟩ j)) (by omega) ?_ ?_ ?_
      · refine ⟨fun _ _ _ => rfl, fun j => ?_⟩
        rw [hkrow, if_neg]
        rintro ⟨h1, h2⟩
        rw [Fin.le_def] at h1
        omega
      · rintro l B hl0 hl ⟨hB1, hB2⟩
        have hBr : ∀ j, B r j = A' r j := fun j => hB1 r j (fun h => hkr' (Fin.ext h.symm))
        rw [rd_eq r.2 hl, ok_bind, wp_bind]
        refine wp_mono (S.mul _ _) (fun x hx => ?_) (fun _ h => h)
        rw [rd_eq r.2 p.2, ok_bind, wp_bind]
        have hBrp : S.val (B ⟨r.val, r.2⟩ ⟨p.val, p.2⟩) = S.val (A r p) := by
          rw [← hrow p]; exact congrArg S.val (hBr p)
        refine wp_mono (S.div _ _ (by rw [hBrp]; exact hp)) (fun q hq => ?_) (fun _ h => h)
        rw [rd_eq hk hl, ok_bind, wp_bind]
        refine wp_mono (S.sub _ _) (fun v hv => ?_) (fun _ h => h)
        rw [wr_eq hk hl, wp_ok]
        refine ⟨?_, ?_⟩
        · intro i j hik
          rw [Matrix.of_apply, if_neg (by omega)]
          exact hB1 i j hik
        · intro j
          rw [Matrix.of_apply]
          by_cases hj : j.val = l
          · have hjl : j = ⟨l, hl⟩ := Fin.ext hj
            rw [if_pos ⟨rfl, hj⟩, if_pos ⟨by rw [Fin.le_def]; omega, by omega⟩, hv, hq, hx, hBrp,
              hB2, if_neg (by dsimp only; omega), elimVal, hjl]
            have e1 : S.val (B ⟨r.val, r.2⟩ ⟨l, hl⟩) = S.val (A r ⟨l, hl⟩) := by
              rw [← hrow]; exact congrArg S.val (hBr _)
            have e2 : S.val (A' ⟨k, hk⟩ ⟨p.val, p.2⟩) = S.val (A ⟨k, hk⟩ p) := hkrow p
            rw [e1, e2]
          · rw [if_neg (by omega), hB2]
            exact if_congr (by omega) rfl rfl
      · rintro B ⟨hB1, hB2⟩ i j
        by_cases hik : i.val = k
        · have : i = ⟨k, hk⟩ := Fin.ext hik
          subst this
          rw [hB2]
          refine if_congr ⟨?_, ?_⟩ rfl rfl
          · rintro ⟨h1, h2⟩
            exact ⟨⟨by rw [Fin.lt_def]; omega, by dsimp only; omega, hkr'⟩, h1⟩
          · rintro ⟨-, h1⟩
            exact ⟨h1, j.2⟩
        · rw [hB1 i j hik, ih]
          refine if_congr ⟨?_, ?_⟩ rfl rfl
          · rintro ⟨⟨h1, h2, h3⟩, h4⟩
            exact ⟨⟨h1, by omega, h3⟩, h4⟩
          · rintro ⟨⟨h1, h2, h3⟩, h4⟩
            exact ⟨⟨h1, by omega, h3⟩, h4⟩
    · next hkr =>
      rw [wp_ok]
      intro i j
      rw [ih]
      refine if_congr ⟨?_, ?_⟩ rfl rfl
      · rintro ⟨⟨h1, h2, h3⟩, h4⟩
        exact ⟨⟨h1, by omega, h3⟩, h4⟩
      · rintro ⟨⟨h1, h2, h3⟩, h4⟩
        refine ⟨⟨h1, ?_, h3⟩, h4⟩
        have : i.val ≠ r.val := fun h => h3 (Fin.ext h)
        omega
  · intro A' h i j
    rw [h]
    refine if_congr ⟨?_, ?_⟩ rfl rfl
    · rintro ⟨⟨h1, h2, h3⟩, h4⟩
      exact ⟨⟨h1, h3⟩, h4⟩
    · rintro ⟨⟨h1, h3⟩, h4⟩
      exact ⟨⟨h1, i.2, h3⟩, h4⟩

/-- A matrix with zeros below the diagonal in columns `< k` and a zero column `k` from row `k` on
is singular. -/
theorem det_zero_of_column (M : Matrix (Fin n) (Fin n) F) (k : Fin n)
    (h1 : ∀ i j, j < k → j < i → M i j = 0) (h2 : ∀ i, k ≤ i → M i k = 0) : M.det = 0 := by
  rw [Matrix.det_apply]
  apply Finset.sum_eq_zero
  intro σ _
  suffices h : ∏ i, M (σ i) i = 0 by rw [h, smul_zero]
  by_contra hne
  have hne' : ∀ i, M (σ i) i ≠ 0 := fun i hi => hne (Finset.prod_eq_zero (Finset.mem_univ i) hi)
  have hlt : ∀ j, j ≤ k → σ j < k := by
    intro j hj
    rcases lt_or_eq_of_le hj with h | h
    · by_contra hcon
      exact hne' j (h1 _ _ h (lt_of_lt_of_le h (not_lt.mp hcon)))
    · subst h
      by_contra hcon
      exact hne' j (h2 _ (not_lt.mp hcon))
  have hmaps : Set.MapsTo σ (Finset.Iic k : Finset (Fin n)) (Finset.Iio k : Finset (Fin n)) := by
    intro j hj
    simp only [Finset.coe_Iic, Set.mem_Iic, Finset.coe_Iio, Set.mem_Iio] at *
    exact hlt j hj
  have := Finset.card_le_card_of_injOn σ hmaps (σ.injective.injOn)
  rw [Fin.card_Iic, Fin.card_Iio] at this
  omega

/-- Invariant of the outer loop of `det` before iteration `k`, for the initial matrix `A0`. -/
def DetInv (A0 : Mat T n n) (k : Nat) (s : DetState T n) : Prop :=
  (S.val s.factor = 1 ∨ S.val s.factor = -1) ∧
  ((s.pivot = k ∧ (A0.map S.val).det = S.val s.factor * (s.A.map S.val).det ∧
      ∀ i j : Fin n, j.val < k → j < i → S.val (s.A i j) = 0) ∨
   (k ≤ s.pivot ∧ (A0.map S.val).det = 0 ∧ ∃ q : Fin n, q.val < k ∧ S.val (s.A q q) = 0))

theorem pm_ne_zero {x : F} (h : x = 1 ∨ x = -1) : x ≠ 0 := by
  rcases h with h | h <;> simp [h]

/-- The product of the diagonal when it contains a zero. -/
theorem wp_detProd_zero (A : Mat T n n) (f : T) (hf : S.val f ≠ 0) {d : F} (hd : d = 0)
    (q : Fin n) (hq : S.val (A q q) = 0) :
    wp (detProd A f) (fun v => S.val v = d) S.Bad := by
  refine wp_mono (wp_detProd S A f hf) ?_ (fun _ h => h)
  intro v hv
  rw [hv, Finset.prod_eq_zero (Finset.mem_univ q) hq, zero_div, hd]

theorem wp_detSwap (A : Mat T n n) (f : T) (hf : S.val f = 1 ∨ S.val f = -1) (i k : Fin n) :
    wp (detSwap A f i k)
      (fun x => (S.val x.2 = 1 ∨ S.val x.2 = -1) ∧
        (x.1 = .of fun a b => A (Equiv.swap i k a) b) ∧
        S.val x.2 * (x.1.map S.val).det = S.val f * (A.map S.val).det) S.Bad := by
  unfold detSwap
  split
  · next hik =>
    rw [swap_rows_ok A i k, ok_bind, wp_bind]
    refine wp_mono (S.mul _ _) (fun g hg => ?_) (fun _ h => h)
    rw [S.ofInt (-1) (by norm_num) (by norm_num)] at hg
    rw [wp_ok]
    refine ⟨?_, rfl, ?_⟩
    · dsimp only
      rw [hg]
      rcases hf with h | h <;> simp [h]
    · dsimp only
      have hperm := Matrix.det_permute (Equiv.swap i k) (A.map S.val)
      rw [Equiv.Perm.sign_swap (fun h => hik (congrArg Fin.val h))] at hperm
      have hm : ((Matrix.of fun a b => A (Equiv.swap i k a) b).map
        S.val) = (A.map S.val).submatrix (Equiv.swap i k) id := rfl
      rw [hm, hperm, hg]
      push_cast
      ring
  · next hik =>
    have hik' : i = k := Fin.ext (not_not.mp hik)
    subst hik'
    rw [wp_ok]
    refine ⟨hf, ?_, rfl⟩
    ext a b
    rw [Matrix.of_apply, Equiv.swap_self, Equiv.refl_apply]

theorem wp_detStep (A0 : Mat T n n) (k : Nat) (hk : k < n) (s : DetState T n)
    (hs : DetInv S A0 k s) :
    wp (detStep k s) (fun x => match x with
      | .cont s' => DetInv S A0 (k + 1) s'
      | .ret v => S.val v = (A0.map S.val).det) S.Bad := by
  obtain ⟨A, f, pivot⟩ := s
  obtain ⟨hf, hs⟩ := hs
  dsimp only at hf hs
  unfold detStep
  dsimp only
  split
  · next hnp =>
    rw [wp_bind]
    rcases hs with ⟨hp, -⟩ | ⟨-, hd, q, -, hq⟩
    · omega
    · refine wp_mono (wp_detProd_zero S A f (pm_ne_zero hf) hd q hq) ?_ (fun _ h => h)
      intro v hv
      exact hv
  · next hnp =>
    have hpn : pivot < n := by omega
    have hle : k ≤ pivot := by omega
    rw [wp_bind]
    have hfuel : (n - pivot - 1) * n + (n - k) ≤ n * n + 1 := by
      have h1 : (n - pivot - 1) * n ≤ (n - 1) * n := Nat.mul_le_mul_right n (by omega)
      have h2 : n * n = (n - 1) * n + n := by
        obtain ⟨m, rfl⟩ : ∃ m, n = m + 1 := ⟨n - 1, by omega⟩
        simp only [Nat.add_sub_cancel]; ring
      omega
    refine wp_mono (wp_detSearch A k pivot hk (n * n + 1) k pivot hk le_rfl hpn le_rfl hfuel
      (fun a b h1 h2 h3 => by omega)) ?_ (fun _ h => h.elim)
    intro res hres
    match res, hres with
    | none, hres =>
      dsimp only [SearchPost] at hres
      dsimp only
      rw [wp_bind]
      rcases hs with ⟨hp, hd, hz⟩ | ⟨-, hd, q, -, hq⟩
      · subst hp
        have hcol : ∀ i : Fin n, (⟨pivot, hk⟩ : Fin n) ≤ i → S.val (A i ⟨pivot, hk⟩) = 0 :=
          fun i hi => (S.eq_zero _).mp (hres i ⟨pivot, hk⟩ hi le_rfl)
        have hdet : (A.map S.val).det = 0 :=
          det_zero_of_column _ ⟨pivot, hk⟩ (fun i j h1 h2 => hz i j h1 h2) hcol
        rw [hdet, mul_zero] at hd
        refine wp_mono (wp_detProd_zero S A f (pm_ne_zero hf) hd ⟨pivot, hk⟩ (hcol _ le_rfl)) ?_
          (fun _ h => h)
        intro v hv
        exact hv
      · refine wp_mono (wp_detProd_zero S A f (pm_ne_zero hf) hd q hq) ?_ (fun _ h => h)
        intro v hv
        exact hv
    | some (i, p), hres =>
      obtain ⟨hi, hp, hki, hpp, hnz, hbefore⟩ := hres
      dsimp only
      have hnz' : S.val (A ⟨i, hi⟩ ⟨p, hp⟩) ≠ 0 := by
        intro h
        rw [(S.eq_zero _).mpr h] at hnz
        cases hnz
      rw [wp_bind]
      refine wp_mono (wp_detSwap S A f hf ⟨i, hi⟩ ⟨k, hk⟩) ?_ (fun _ h => h)
      rintro ⟨B, g⟩ ⟨hg, hB, hdetB⟩
      dsimp only at hg hB hdetB ⊢
      have hBk : ∀ b, B ⟨k, hk⟩ b = A ⟨i, hi⟩ b := by
        intro b; rw [hB, Matrix.of_apply, Equiv.swap_apply_right]
      have hBlt : ∀ a b, a.val < k → B a b = A a b := by
        intro a b ha
        rw [hB, Matrix.of_apply, Equiv.swap_apply_of_ne_of_ne]
        · intro h; rw [h] at ha; dsimp only at ha; omega
        · intro h; rw [h] at ha; dsimp only at ha; omega
      have hswge : ∀ a : Fin n, k ≤ a.val →
          k ≤ (Equiv.swap (⟨i, hi⟩ : Fin n) ⟨k, hk⟩ a).val := by
        intro a ha
        rw [Equiv.swap_apply_def]
        split_ifs
        · exact le_rfl
        · exact hki
        · exact ha
      have hpiv : S.val (B ⟨k, hk⟩ ⟨p, hp⟩) ≠ 0 := by rw [hBk]; exact hnz'
      rw [wp_bind]
      refine wp_mono (wp_detEliminate S B ⟨k, hk⟩ ⟨p, hp⟩ hpiv) ?_ (fun _ h => h)
      intro C hC
      rw [wp_pure]
      refine ⟨hg, ?_⟩
      dsimp only
      -- rows up to `p` are not changed by the elimination
      have hCle : ∀ a b : Fin n, a.val ≤ p → S.val (C a b) = S.val (B a b) := by
        intro a b ha
        rw [hC, if_neg]
        rintro ⟨⟨h1, -⟩, -⟩
        rw [Fin.lt_def] at h1
        dsimp only at h1
        omega
      rcases hs with ⟨hpk, hd, hz⟩ | ⟨-, hd, q, hqk, hq⟩
      · have hBz : ∀ a b : Fin n, b.val < k → b < a → S.val (B a b) = 0 := by
          intro a b hb hba
          by_cases ha : a.val < k
          · rw [hBlt a b ha]; exact hz a b hb hba
          · rw [hB, Matrix.of_apply]
            refine hz _ b hb ?_
            rw [Fin.lt_def]
            exact lt_of_lt_of_le hb (hswge a (by omega))
        by_cases hpk' : p = k
        · subst hpk'
          left
          refine ⟨rfl, ?_, ?_⟩
          · rw [hd, ← hdetB]
            congr 1
            symm
            refine Matrix.det_eq_of_forall_row_eq_smul_add_const
              (fun a => if p < a.val then
                -(S.val (B a ⟨p, hp⟩) / S.val (B ⟨p, hp⟩ ⟨p, hp⟩)) else 0) ⟨p, hp⟩
              (by simp) ?_
            intro a b
            simp only [Matrix.map_apply]
            rw [hC]
            by_cases hpa : p < a.val
            · rw [if_pos hpa]
              by_cases hpb : p ≤ b.val
              · rw [if_pos ⟨⟨hpa, fun h => by rw [h] at hpa; exact lt_irrefl _ hpa⟩, hpb⟩, elimVal]
                ring
              · have hzero : S.val (B ⟨p, hk⟩ b) = 0 :=
                  hBz ⟨p, hk⟩ b (by omega) (by rw [Fin.lt_def]; dsimp only; omega)
                rw [if_neg (fun h => hpb h.2), hzero, mul_zero, add_zero]
            · rw [if_neg hpa, zero_mul, add_zero, if_neg (fun h => hpa h.1.1)]
          · intro a b hb hba
            by_cases hbp : b.val = p
            · have hbp' : b = ⟨p, hp⟩ := Fin.ext hbp
              subst hbp'
              rw [hC, if_pos ⟨⟨hba, fun h => by rw [h] at hba; exact lt_irrefl _ hba⟩, le_rfl⟩,
                elimVal, mul_div_assoc, div_self hpiv, mul_one, sub_self]
            · rw [hC, if_neg]
              · exact hBz a b (by omega) hba
              · rintro ⟨-, h⟩
                rw [Fin.le_def] at h
                dsimp only at h
                omega
        · right
          have hkp : k < p := by omega
          have hcol : ∀ a : Fin n, (⟨k, hk⟩ : Fin n) ≤ a → S.val (A a ⟨k, hk⟩) = 0 :=
            fun a ha => (S.eq_zero _).mp (hbefore a ⟨k, hk⟩ ha (by dsimp only; omega) hkp)
          refine ⟨by omega, ?_, ⟨k, hk⟩, Nat.lt_succ_self k, ?_⟩
          · rw [hd, det_zero_of_column (A.map S.val) ⟨k, hk⟩ (fun a b h1 h2 => hz a b h1 h2) hcol,
              mul_zero]
          · rw [hCle ⟨k, hk⟩ ⟨k, hk⟩ (by dsimp only; omega), hBk]
            exact hcol ⟨i, hi⟩ hki
      · right
        refine ⟨by omega, hd, q, by omega, ?_⟩
        rw [hCle q q (by omega), hBlt q q hqk]
        exact hq

theorem wp_detN (A : Mat T n n) :
    wp (detN A) (fun v => S.val v = (A.map S.val).det) S.Bad := by
  unfold detN
  rw [wp_bind]
  refine wp_forRet (DetInv S A) (fun v => S.val v = (A.map S.val).det) (Nat.zero_le n) ?_
    ?_ ?_ ?_
  · have h1 : S.val (ofInt 1) = 1 := by
      rw [S.ofInt 1 (by norm_num) (by norm_num), Int.cast_one]
    refine ⟨Or.inl h1, Or.inl ⟨rfl, ?_, fun i j h => by omega⟩⟩
    dsimp only
    rw [h1, one_mul]
  · intro k s _ hk hs
    refine wp_mono (wp_detStep S A k hk s hs) ?_ (fun _ h => h)
    intro x hx
    cases x <;> exact hx
  · rintro s ⟨hf, h⟩
    dsimp only
    rcases h with ⟨-, hd, hz⟩ | ⟨-, hd, q, -, hq⟩
    · refine wp_mono (wp_detProd S s.A s.factor (pm_ne_zero hf)) ?_ (fun _ h => h)
      intro v hv
      have htri : (s.A.map S.val).BlockTriangular id := fun i j hij => hz i j j.2 hij
      rw [hv, hd, Matrix.det_of_isUpperTriangular htri]
      simp only [Matrix.map_apply]
      rcases hf with h | h <;> rw [h] <;> simp [div_neg]
    · exact wp_detProd_zero S s.A s.factor (pm_ne_zero hf) hd q hq
  · intro v hv
    exact hv

theorem wp_det (A : Mat T n n) :
    wp (det A) (fun v => S.val v = (A.map S.val).det) S.Bad := by
  match n, A with
  | 0, A => exact wp_detN S A
  | 1, A => exact wp_det1 S.toRingSem A
  | 2, A => exact wp_det2 S.toRingSem A
  | 3, A => exact wp_det3 S.toRingSem A
  | _ + 4, A => exact wp_detN S A

end detN

theorem det_ok {K : Type} [Inhabited K] [Field K] [CScalar K] [ExactField K] {n : Nat} (A : Mat K n n) :
    det A = .ok A.det := by
  apply wp_eq
  refine wp_mono (wp_det (FieldSem.exact K) A) ?_ (fun _ h => h)
  intro v hv
  exact hv

theorem detN_ok {K : Type} [Inhabited K] [Field K] [CScalar K] [ExactField K] {n : Nat} (A : Mat K n n) :
    detN A = .ok A.det := by
  apply wp_eq
  refine wp_mono (wp_detN (FieldSem.exact K) A) ?_ (fun _ h => h)
  intro v hv
  exact hv

end MatrixLibs
