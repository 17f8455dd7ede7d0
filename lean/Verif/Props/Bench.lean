import Verif.Model.Bench
import Verif.Proof.RowMajor
import Verif.Proof.Arith
import Mathlib.LinearAlgebra.Matrix.Notation

/-!
# Properties C60, C61: benchmark code
-/

namespace MatrixLibs

set_option linter.unusedSectionVars false

/-! ## Loops that cannot finish -/

/-- A loop that reaches an iteration which always stops. -/
theorem wp_forUp_stops {σ : Type} {lo hi : Nat} {s : σ} {body : Nat → σ → Res σ}
    {E : Stop → Prop} (k0 : Nat) (h1 : lo ≤ k0) (h2 : k0 < hi)
    (hpre : ∀ k s, lo ≤ k → k < k0 → wp (body k s) (fun _ => True) E)
    (hstop : ∀ s, wp (body k0 s) (fun _ => False) E) :
    wp (forUp lo hi s body) (fun _ => False) E := by
  refine wp_forUp (fun k _ => k ≤ k0) (by omega) h1 ?_ (fun s h => by omega)
  intro k s hk1 hk2 hk
  rcases Nat.lt_or_ge k k0 with h | h
  · exact wp_mono (hpre k s hk1 h) (fun _ _ => by omega) (fun _ h => h)
  · have : k = k0 := by omega
    subst this
    exact wp_mono (hstop s) (fun _ h => h.elim) (fun _ h => h)

theorem eq_error_of_wp {α : Type} {x : Res α} {e : Stop}
    (h : wp x (fun _ => False) (fun e' => e' = e)) : x = .error e := by
  cases x with
  | ok a => exact h.elim
  | error e' => rw [show e' = e from h]

section
variable {T : Type} [Inhabited T] [CScalar T] {row col : Nat}

theorem rdInit_some {A : Mat (Option T) row col} (h : ∀ a b, A a b ≠ none) {i j : Nat}
    (hi : i < row) (hj : j < col) : ∃ v, rdInit A i j = .ok v := by
  unfold rdInit
  rw [rd_eq hi hj, ok_bind]
  cases hx : A ⟨i, hi⟩ ⟨j, hj⟩ with
  | none => exact absurd hx (h _ _)
  | some v => exact ⟨v, rfl⟩

theorem rdInit_oob (A : Mat (Option T) row col) {i j : Nat} (h : ¬ (i < row ∧ j < col)) :
    rdInit A i j = .error (.ub .outOfBounds) := by
  unfold rdInit
  rw [rd_oob h, error_bind]

/-- The accesses of a pass, whatever is read and whatever the arithmetic. -/
def PassStop (e : Stop) : Prop := ScalarStop e ∨ e = .ub .uninitialised

theorem wp_rdInit (A : Mat (Option T) row col) {i j : Nat} (hi : i < row) (hj : j < col) :
    wp (rdInit A i j) (fun _ => True) PassStop := by
  unfold rdInit
  rw [rd_eq hi hj, ok_bind]
  cases A ⟨i, hi⟩ ⟨j, hj⟩ with
  | none => exact .inr rfl
  | some v => trivial

theorem wp_access [ScalarStops T] (A : Mat (Option T) row col) {i j : Nat} (hi : i < row)
    (hj : j < col) (sum : T) :
    wp (do CScalar.add sum (← rdInit A i j)) (fun _ => True) PassStop := by
  rw [wp_bind]
  refine wp_mono (wp_rdInit A hi hj) ?_ (fun _ h => h)
  intro v _
  exact wp_mono (ScalarStops.add sum v) (fun _ h => h) (fun _ h => .inl h)

theorem PassStop.not_oob {e : Stop} (h : PassStop e) : e ≠ .ub .outOfBounds := by
  rintro rfl
  rcases h with h | h
  · rcases h with h | h | h | h <;> cases h
  · cases h

/-! ## C60 -/

/-- C60: `row_major` never accesses memory outside its matrix. -/
theorem C60_row_major_partial [ScalarStops T] (A : Mat (Option T) row col) (sum : T) :
    rowMajorPass A sum ≠ .error (.ub .outOfBounds) := by
  intro he
  have hwp : wp (rowMajorPass A sum) (fun _ => True) PassStop := by
    unfold rowMajorPass
    refine wp_forUp (fun _ _ => True) (Nat.zero_le _) trivial ?_ (fun _ _ => trivial)
    intro i s _ hi _
    refine wp_forUp (fun _ _ => True) (Nat.zero_le _) trivial ?_ (fun _ _ => trivial)
    intro j s _ hj _
    exact wp_access A hi hj s
  exact PassStop.not_oob (wp_error_elim hwp he) rfl

/-- C60: on an initialised matrix, `row_major` adds up the elements. -/
theorem C60_row_major_sum {K : Type} [Ring K] [Inhabited K] [CScalar K] [ExactRing K]
    (A : Mat K row col) (sum : K) :
    rowMajorPass (A.map some) sum = .ok (sum + ∑ a, ∑ b, A a b) := by
  unfold rowMajorPass
  have hbody : ∀ i s, 0 ≤ i → i < row →
      (forUp 0 col s fun j sum => do CScalar.add sum (← rdInit (A.map some) i j)) =
      (forUp 0 col s fun j sum => do CScalar.add sum (← rd A i j)) := by
    intro i s _ hi
    refine forUp_congr (fun j s _ hj => ?_)
    unfold rdInit
    rw [rd_eq hi hj, rd_eq hi hj, ok_bind]
    rfl
  rw [forUp_congr hbody, forElems A sum (fun s x => CScalar.add s x)]
  rw [foldlM_ok _ _ _ (fun s x => s + x) (fun s x => ExactRing.add_eq s x)]
  have hf : ∀ (l : List K) (s : K), l.foldl (fun s x => s + x) s = s + (l.map id).sum := by
    intro l
    induction l with
    | nil => intro s; simp
    | cons x l ih => intro s; rw [List.foldl_cons, ih]; simp [add_assoc]
  rw [hf, rowMajor_sum]
  rfl

/-- C60: `col_major` stays inside a square matrix. -/
theorem C60_col_major_square_partial [ScalarStops T] (A : Mat (Option T) row row) (sum : T) :
    colMajorPass A sum ≠ .error (.ub .outOfBounds) := C60_row_major_partial A sum

/-- C60: it leaves every initialised matrix that is not square, unless that is empty. -/
theorem C60_col_major_out_of_bounds (hadd : ∀ a b : T, ∃ c, CScalar.add a b = .ok c)
    (A : Mat (Option T) row col) (hA : ∀ a b, A a b ≠ none) (hrc : row ≠ col) (hr : 0 < row)
    (hc : 0 < col) (sum : T) : colMajorPass A sum = .error (.ub .outOfBounds) := by
  apply eq_error_of_wp
  unfold colMajorPass
  have hok : ∀ i j (s : T), i < row → j < col →
      wp (do CScalar.add s (← rdInit A i j)) (fun _ => True) (fun e => e = .ub .outOfBounds) := by
    intro i j s hi hj
    obtain ⟨v, hv⟩ := rdInit_some hA hi hj
    obtain ⟨t, ht⟩ := hadd s v
    rw [hv, ok_bind, ht]
    trivial
  have hbad : ∀ i j (s : T), ¬ (i < row ∧ j < col) →
      wp (do CScalar.add s (← rdInit A i j)) (fun _ => False) (fun e => e = .ub .outOfBounds) := by
    intro i j s h
    rw [rdInit_oob A h, error_bind]
    rfl
  rcases Nat.lt_or_ge row col with h | h
  · refine wp_forUp_stops row (Nat.zero_le _) h ?_ ?_
    · intro i s _ hi
      refine wp_forUp (fun _ _ => True) (Nat.zero_le _) trivial ?_ (fun _ _ => trivial)
      intro j s _ hj _
      exact hok i j s hi (by omega)
    · intro s
      exact wp_forUp_stops 0 le_rfl hr (fun _ _ _ h => absurd h (by omega))
        (fun s => hbad row 0 s (by omega))
  · refine wp_forUp_stops 0 le_rfl hc (fun _ _ _ h => absurd h (by omega)) ?_
    intro s
    refine wp_forUp_stops col (Nat.zero_le _) (by omega) ?_ (fun s => hbad 0 col s (by omega))
    intro j s _ hj
    exact hok 0 j s hr hj

/-- C60: `rand_major` stays inside its matrix if every draw is less than `col`. -/
theorem C60_rand_major_partial [ScalarStops T] (rand : Nat → Nat) (A : Mat (Option T) row col)
    (sum : T) (h : ∀ j, j < col → rand j < col) :
    randMajorPass rand A sum ≠ .error (.ub .outOfBounds) := by
  intro he
  have hwp : wp (randMajorPass rand A sum) (fun _ => True) PassStop := by
    unfold randMajorPass
    refine wp_forUp (fun _ _ => True) (Nat.zero_le _) trivial ?_ (fun _ _ => trivial)
    intro i s _ hi _
    refine wp_forUp (fun _ _ => True) (Nat.zero_le _) trivial ?_ (fun _ _ => trivial)
    intro j s _ hj _
    exact wp_access A hi (h j hj) s
  exact PassStop.not_oob (wp_error_elim hwp he) rfl

/-- C60: a draw that is not less than `col` makes `rand_major` leave an initialised matrix with at
least one row. -/
theorem C60_rand_major_out_of_bounds (hadd : ∀ a b : T, ∃ c, CScalar.add a b = .ok c)
    (rand : Nat → Nat) (A : Mat (Option T) row col) (hA : ∀ a b, A a b ≠ none) (hr : 0 < row)
    (j0 : Nat) (hj0 : j0 < col) (h : col ≤ rand j0) (sum : T) :
    randMajorPass rand A sum = .error (.ub .outOfBounds) := by
  apply eq_error_of_wp
  unfold randMajorPass
  refine wp_forUp_stops 0 le_rfl hr (fun _ _ _ h => absurd h (by omega)) ?_
  intro s
  refine wp_forUp_stops j0 (Nat.zero_le _) hj0 ?_ ?_
  · intro j s _ hj
    by_cases hb : rand j < col
    · obtain ⟨v, hv⟩ := rdInit_some hA hr hb
      obtain ⟨t, ht⟩ := hadd s v
      rw [hv, ok_bind, ht]
      trivial
    · rw [rdInit_oob A (by omega), error_bind]
      rfl
  · intro s
    rw [rdInit_oob A (by omega), error_bind]
    rfl

/-- C60: the matrix of `row_major` is never given a value: with at least one element and one
iteration the benchmark reads an uninitialised object. -/
theorem C60_row_major_uninitialised (iters : Nat) (hr : 0 < row) (hc : 0 < col) (hi : 0 < iters) :
    row_major T row col iters = .error (.ub .uninitialised) := by
  apply eq_error_of_wp
  unfold row_major rowMajorPass
  refine wp_forUp_stops 0 le_rfl hi (fun _ _ _ h => absurd h (by omega)) (fun s => ?_)
  refine wp_forUp_stops 0 le_rfl hr (fun _ _ _ h => absurd h (by omega)) (fun s => ?_)
  refine wp_forUp_stops 0 le_rfl hc (fun _ _ _ h => absurd h (by omega)) (fun s => ?_)
  unfold rdInit
  rw [rd_eq hr hc, ok_bind]
  rfl

/-- C60: the same for `col_major`. -/
theorem C60_col_major_uninitialised (iters : Nat) (hr : 0 < row) (hc : 0 < col) (hi : 0 < iters) :
    col_major T row col iters = .error (.ub .uninitialised) := by
  apply eq_error_of_wp
  unfold col_major colMajorPass
  refine wp_forUp_stops 0 le_rfl hi (fun _ _ _ h => absurd h (by omega)) (fun s => ?_)
  refine wp_forUp_stops 0 le_rfl hc (fun _ _ _ h => absurd h (by omega)) (fun s => ?_)
  refine wp_forUp_stops 0 le_rfl hr (fun _ _ _ h => absurd h (by omega)) (fun s => ?_)
  unfold rdInit
  rw [rd_eq hr hc, ok_bind]
  rfl

/-- C60: and `rand_major`: the first access is uninitialised or out of bounds. -/
theorem C60_rand_major_uninitialised (rand : Nat → Nat) (iters : Nat) (hr : 0 < row) (hc : 0 < col)
    (hi : 0 < iters) :
    rand_major T row col iters rand =
      .error (.ub (if rand 0 < col then .uninitialised else .outOfBounds)) := by
  apply eq_error_of_wp
  unfold rand_major randMajorPass
  refine wp_forUp_stops 0 le_rfl hi (fun _ _ _ h => absurd h (by omega)) (fun s => ?_)
  refine wp_forUp_stops 0 le_rfl hr (fun _ _ _ h => absurd h (by omega)) (fun s => ?_)
  refine wp_forUp_stops 0 le_rfl hc (fun _ _ _ h => absurd h (by omega)) (fun s => ?_)
  by_cases h : rand 0 < col
  · unfold rdInit
    rw [rd_eq hr h, ok_bind, if_pos h]
    rfl
  · rw [rdInit_oob _ (by omega), error_bind, if_neg h]
    rfl

end

/-- C60 is false of the code: with draws in `[0, col]`, as `rand_major` makes them, the access can
be outside the matrix; and `col_major` leaves a 2x3 matrix. -/
theorem C60_false :
    (∃ rand : Nat → Nat, (∀ j, rand j ≤ 2) ∧
      randMajorPass rand (Mat.const (some 1) : Mat (Option ℚ) 1 2) 0 =
        .error (.ub .outOfBounds)) ∧
    colMajorPass (Mat.const (some 1) : Mat (Option ℚ) 2 3) 0 = .error (.ub .outOfBounds) :=
  ⟨⟨fun _ => 2, fun _ => le_rfl,
    C60_rand_major_out_of_bounds (fun a b => ⟨a + b, rfl⟩) _ _ (fun _ _ => by simp [Mat.const])
      (by norm_num) 0 (by norm_num) le_rfl 0⟩,
   C60_col_major_out_of_bounds (fun a b => ⟨a + b, rfl⟩) _ (fun _ _ => by simp [Mat.const])
      (by norm_num) (by norm_num) (by norm_num) 0⟩

/-- A square matrix is summed by columns without fault. -/
example : colMajorPass ((!![1, 2; 3, 4] : Mat ℚ 2 2).map some) 0 = .ok 10 := by
  decide +kernel

/-! ## C61 -/

section
variable {T : Type} [Inhabited T] [CScalar T] {i j : Nat}

/-- C61: `setRand(A)` assigns the draws, in row-major order, to the elements of `A`, whatever `A`
held; it makes one draw per element. -/
theorem C61_setRand (draw : Nat → T) (A : Mat (Option T) i j) :
    setRand draw A = .ok (.of fun a b => some (draw (a.val * j + b.val)), i * j) := by
  apply wp_eq
  unfold setRand
  refine wp_forUp (fun k s => s.2 = k * j ∧ ∀ (a : Fin i) (b : Fin j), a.val < k →
    s.1 a b = some (draw (a.val * j + b.val))) (Nat.zero_le _) ?_ ?_ ?_
  · exact ⟨by simp, fun a b h => absurd h (by omega)⟩
  · intro it s _ hit ⟨hk, hs⟩
    refine wp_forUp (fun jt s => s.2 = it * j + jt ∧ ∀ (a : Fin i) (b : Fin j),
      (a.val < it ∨ (a.val = it ∧ b.val < jt)) → s.1 a b = some (draw (a.val * j + b.val)))
      (Nat.zero_le _) ?_ ?_ ?_
    · refine ⟨by rw [hk, Nat.add_zero], fun a b h => hs a b ?_⟩
      omega
    · rintro jt ⟨B, k⟩ _ hjt ⟨hk', hs'⟩
      dsimp only at *
      rw [wr_eq hit hjt, ok_bind, wp_ok]
      refine ⟨by rw [hk', Nat.add_assoc], fun a b h => ?_⟩
      dsimp only
      rw [Matrix.of_apply]
      by_cases hab : a.val = it ∧ b.val = jt
      · rw [if_pos hab, hk', hab.1, hab.2]
      · rw [if_neg hab]
        exact hs' a b (by omega)
    · rintro s' ⟨h1, h2⟩
      refine ⟨by rw [h1, Nat.add_mul, Nat.one_mul], fun a b h => h2 a b ?_⟩
      have := b.isLt
      omega
  · rintro ⟨B, k⟩ ⟨h1, h2⟩
    dsimp only at *
    rw [h1]
    congr 1
    ext1 a b
    exact h2 a b a.isLt

/-- C61: in particular the previous contents do not matter and no element stays uninitialised. -/
theorem C61_setRand_initialised (draw : Nat → T) (A B : Mat (Option T) i j) :
    setRand draw A = setRand draw B ∧ ∃ C n, setRand draw A = .ok (C, n) ∧ ∀ a b, C a b ≠ none := by
  rw [C61_setRand, C61_setRand]
  exact ⟨rfl, _, _, rfl, fun a b h => by cases h⟩

/-- C61: different elements get different draws. -/
theorem C61_setRand_fresh (a a' : Fin i) (b b' : Fin j)
    (h : a.val * j + b.val = a'.val * j + b'.val) : a = a' ∧ b = b' := by
  have hj : 0 < j := by have := b.isLt; omega
  have h1 := congrArg (· / j) h
  have h2 := congrArg (· % j) h
  simp only [Nat.mul_comm _ j, Nat.mul_add_div hj, Nat.div_eq_of_lt b.isLt,
    Nat.div_eq_of_lt b'.isLt, Nat.mul_add_mod, Nat.mod_eq_of_lt b.isLt,
    Nat.mod_eq_of_lt b'.isLt, add_zero] at h1 h2
  exact ⟨Fin.ext h1, Fin.ext h2⟩

end

example : setRand (fun k => (k : ℚ)) (Mat.const none : Mat (Option ℚ) 2 2) =
    .ok (!![some 0, some 1; some 2, some 3], 4) := by decide +kernel
example : rowMajorPass (!![some 1, some 2; some 3, some 4] : Mat (Option ℚ) 2 2) 0 = .ok 10 := by
  decide +kernel

end MatrixLibs
