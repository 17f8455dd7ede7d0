import Verif.Model.Core

/-!
# Weakest preconditions for `Res`
-/

namespace MatrixLibs

variable {α β σ ρ T : Type} {r c : Nat}

/-- `r` returns a value satisfying `Q`, or stops in a way satisfying `E`. -/
def wp (x : Res α) (Q : α → Prop) (E : Stop → Prop) : Prop :=
  match x with
  | .ok a => Q a
  | .error e => E e

@[simp] theorem wp_ok (a : α) (Q : α → Prop) (E : Stop → Prop) :
    wp (.ok a) Q E ↔ Q a := Iff.rfl

@[simp] theorem wp_pure (a : α) (Q : α → Prop) (E : Stop → Prop) :
    wp (pure a) Q E ↔ Q a := Iff.rfl

@[simp] theorem wp_error (e : Stop) (Q : α → Prop) (E : Stop → Prop) :
    wp (.error e) Q E ↔ E e := Iff.rfl

theorem wp_bind (x : Res α) (f : α → Res β) (Q : β → Prop) (E : Stop → Prop) :
    wp (x >>= f) Q E ↔ wp x (fun a => wp (f a) Q E) E := by
  cases x <;> rfl

@[simp] theorem ok_bind (a : α) (f : α → Res β) : ((Except.ok a : Res α) >>= f) = f a := rfl

@[simp] theorem error_bind (e : Stop) (f : α → Res β) :
    ((Except.error e : Res α) >>= f) = .error e := rfl

theorem wp_mono {x : Res α} {Q Q' : α → Prop} {E E' : Stop → Prop}
    (h : wp x Q E) (hQ : ∀ a, Q a → Q' a) (hE : ∀ e, E e → E' e) : wp x Q' E' := by
  cases x with
  | ok a => exact hQ a h
  | error e => exact hE e h

theorem wp_and {x : Res α} {Q Q' : α → Prop} {E E' : Stop → Prop}
    (h : wp x Q E) (h' : wp x Q' E') : wp x (fun a => Q a ∧ Q' a) (fun e => E e ∧ E' e) := by
  cases x with
  | ok a => exact ⟨h, h'⟩
  | error e => exact ⟨h, h'⟩

/-- Total correctness: no stop allowed means a value is returned. -/
theorem wp_total {x : Res α} {Q : α → Prop} (h : wp x Q (fun _ => False)) :
    ∃ a, x = .ok a ∧ Q a := by
  cases x with
  | ok a => exact ⟨a, rfl, h⟩
  | error e => exact h.elim

theorem wp_eq {x : Res α} {a : α} (h : wp x (fun b => b = a) (fun _ => False)) : x = .ok a := by
  obtain ⟨b, hb, rfl⟩ := wp_total h
  exact hb

theorem wp_of_ok {x : Res α} {a : α} {Q : α → Prop} {E : Stop → Prop}
    (h : x = .ok a) (hq : Q a) : wp x Q E := by subst h; exact hq

theorem wp_ok_elim {x : Res α} {a : α} {Q : α → Prop} {E : Stop → Prop}
    (h : wp x Q E) (hx : x = .ok a) : Q a := by subst hx; exact h

theorem wp_error_elim {x : Res α} {e : Stop} {Q : α → Prop} {E : Stop → Prop}
    (h : wp x Q E) (hx : x = .error e) : E e := by subst hx; exact h

/-- Every computation satisfies: returns what it returns, stops as it stops. -/
theorem wp_self (x : Res α) : wp x (fun a => x = .ok a) (fun e => x = .error e) := by
  cases x <;> rfl

/-- Deciding whether two outcomes are the same, in a form the kernel evaluates (used for the
concrete examples only). -/
instance (priority := high) decEqRes {α : Type} [DecidableEq α] : DecidableEq (Res α)
  | .ok a, .ok b => decidable_of_iff (a = b) ⟨congrArg _, Except.ok.inj⟩
  | .error e, .error e' => decidable_of_iff (e = e') ⟨congrArg _, Except.error.inj⟩
  | .ok _, .error _ => isFalse (fun h => by cases h)
  | .error _, .ok _ => isFalse (fun h => by cases h)

/-! ## Elements -/

theorem rd_eq {A : Mat T r c} {i j : Nat} (hi : i < r) (hj : j < c) :
    rd A i j = .ok (A ⟨i, hi⟩ ⟨j, hj⟩) := by
  simp [rd, hi, hj]

theorem rd_fin (A : Mat T r c) (i : Fin r) (j : Fin c) : rd A i.val j.val = .ok (A i j) := by
  simp [rd]

theorem rd_oob {A : Mat T r c} {i j : Nat} (h : ¬ (i < r ∧ j < c)) :
    rd A i j = .error (.ub .outOfBounds) := by
  simp only [rd, h, dite_false]

theorem wr_eq {A : Mat T r c} {i j : Nat} (hi : i < r) (hj : j < c) (v : T) :
    wr A i j v = .ok (.of fun a b => if a.val = i ∧ b.val = j then v else A a b) := by
  simp [wr, hi, hj]

theorem wr_oob {A : Mat T r c} {i j : Nat} (h : ¬ (i < r ∧ j < c)) (v : T) :
    wr A i j v = .error (.ub .outOfBounds) := by
  simp only [wr, h, if_false]

/-! ## Loops -/

theorem wp_loopN {body : Nat → σ → Res σ} {E : Stop → Prop} (I : Nat → σ → Prop)
    (cnt k : Nat) (s : σ) (h0 : I k s)
    (hstep : ∀ m s, k ≤ m → m < k + cnt → I m s → wp (body m s) (I (m + 1)) E) :
    wp (loopN body cnt k s) (I (k + cnt)) E := by
  induction cnt generalizing k s with
  | zero => simpa [loopN] using h0
  | succ n ih =>
    rw [loopN, wp_bind]
    refine wp_mono (hstep k s le_rfl (by omega) h0) ?_ (fun _ h => h)
    intro s' hs'
    have := ih (k + 1) s' hs' (fun m t h1 h2 h3 => hstep m t (by omega) (by omega) h3)
    rwa [show k + 1 + n = k + (n + 1) by omega] at this

/-- Loop rule with invariant `I`. -/
theorem wp_forUp {lo hi : Nat} {s : σ} {body : Nat → σ → Res σ} {Q : σ → Prop} {E : Stop → Prop}
    (I : Nat → σ → Prop) (hle : lo ≤ hi) (h0 : I lo s)
    (hstep : ∀ k s, lo ≤ k → k < hi → I k s → wp (body k s) (I (k + 1)) E)
    (hQ : ∀ s, I hi s → Q s) : wp (forUp lo hi s body) Q E := by
  have h := wp_loopN (E := E) (body := body) I (hi - lo) lo s h0
    (fun m t h1 h2 h3 => hstep m t h1 (by omega) h3)
  rw [show lo + (hi - lo) = hi by omega] at h
  exact wp_mono h hQ (fun _ h => h)

theorem forUp_nil {lo hi : Nat} (h : hi ≤ lo) (s : σ) (body : Nat → σ → Res σ) :
    forUp lo hi s body = .ok s := by
  simp [forUp, show hi - lo = 0 by omega, loopN]

theorem forUp_first {lo hi : Nat} (h : lo < hi) (s : σ) (body : Nat → σ → Res σ) :
    forUp lo hi s body = body lo s >>= fun s => forUp (lo + 1) hi s body := by
  simp only [forUp]
  obtain ⟨m, hm⟩ : ∃ m, hi - lo = m + 1 := ⟨hi - lo - 1, by omega⟩
  rw [hm, loopN, show hi - (lo + 1) = m by omega]

theorem loopN_last (body : Nat → σ → Res σ) (n k : Nat) (s : σ) :
    loopN body (n + 1) k s = loopN body n k s >>= fun s => body (k + n) s := by
  induction n generalizing k s with
  | zero =>
    simp only [loopN, ok_bind, Nat.add_zero]
    cases body k s <;> rfl
  | succ m ih =>
    rw [loopN]
    cases h : body k s with
    | error e => simp [loopN, h]
    | ok s' =>
      rw [ok_bind, ih, loopN, h, ok_bind, show k + 1 + m = k + (m + 1) by omega]

theorem forUp_last {lo hi : Nat} (h : lo ≤ hi) (s : σ) (body : Nat → σ → Res σ) :
    forUp lo (hi + 1) s body = forUp lo hi s body >>= fun s => body hi s := by
  simp only [forUp]
  rw [show hi + 1 - lo = (hi - lo) + 1 by omega, loopN_last, show lo + (hi - lo) = hi by omega]

theorem loopN_congr {body body' : Nat → σ → Res σ} (cnt k : Nat) (s : σ)
    (h : ∀ m s, k ≤ m → m < k + cnt → body m s = body' m s) :
    loopN body cnt k s = loopN body' cnt k s := by
  induction cnt generalizing k s with
  | zero => rfl
  | succ n ih =>
    rw [loopN, loopN, h k s le_rfl (by omega)]
    congr 1
    funext s'
    exact ih (k + 1) s' (fun m t h1 h2 => h m t (by omega) (by omega))

theorem forUp_congr {lo hi : Nat} {s : σ} {body body' : Nat → σ → Res σ}
    (h : ∀ k s, lo ≤ k → k < hi → body k s = body' k s) :
    forUp lo hi s body = forUp lo hi s body' :=
  loopN_congr _ _ _ (fun m t h1 h2 => h m t h1 (by omega))

/-- A loop whose states are known: `f k` before iteration `k`. -/
theorem forUp_states {lo hi : Nat} {body : Nat → σ → Res σ} (f : Nat → σ) (hle : lo ≤ hi)
    (h : ∀ k, lo ≤ k → k < hi → body k (f k) = .ok (f (k + 1))) :
    forUp lo hi (f lo) body = .ok (f hi) := by
  apply wp_eq
  refine wp_forUp (fun k s => s = f k) hle rfl ?_ (fun s h => h)
  rintro k s h1 h2 rfl
  rw [h k h1 h2]
  rfl

theorem wp_loopRetN {body : Nat → σ → Res (Ctl σ ρ)} {R : ρ → Prop} {E : Stop → Prop}
    (I : Nat → σ → Prop) (cnt k : Nat) (s : σ) (h0 : I k s)
    (hstep : ∀ m s, k ≤ m → m < k + cnt → I m s →
      wp (body m s) (fun x => match x with | .cont s => I (m + 1) s | .ret v => R v) E) :
    wp (loopRetN body cnt k s)
      (fun x => match x with | .cont s => I (k + cnt) s | .ret v => R v) E := by
  induction cnt generalizing k s with
  | zero => simpa [loopRetN] using h0
  | succ n ih =>
    rw [loopRetN, wp_bind]
    refine wp_mono (hstep k s le_rfl (by omega) h0) ?_ (fun _ h => h)
    intro x hx
    cases x with
    | ret v => exact hx
    | cont s' =>
      have := ih (k + 1) s' hx (fun m t h1 h2 h3 => hstep m t (by omega) (by omega) h3)
      rwa [show k + 1 + n = k + (n + 1) by omega] at this

/-- Rule for loops that may `return`. -/
theorem wp_forRet {lo hi : Nat} {s : σ} {body : Nat → σ → Res (Ctl σ ρ)}
    {Q : Ctl σ ρ → Prop} {E : Stop → Prop}
    (I : Nat → σ → Prop) (R : ρ → Prop) (hle : lo ≤ hi) (h0 : I lo s)
    (hstep : ∀ k s, lo ≤ k → k < hi → I k s →
      wp (body k s) (fun x => match x with | .cont s => I (k + 1) s | .ret v => R v) E)
    (hc : ∀ s, I hi s → Q (.cont s)) (hr : ∀ v, R v → Q (.ret v)) :
    wp (forRet lo hi s body) Q E := by
  have h := wp_loopRetN (E := E) (R := R) (body := body) I (hi - lo) lo s h0
    (fun m t h1 h2 h3 => hstep m t h1 (by omega) h3)
  rw [show lo + (hi - lo) = hi by omega] at h
  refine wp_mono h ?_ (fun _ h => h)
  intro x hx
  cases x with
  | cont s => exact hc s hx
  | ret v => exact hr v hx

theorem forRet_nil {lo hi : Nat} (h : hi ≤ lo) (s : σ) (body : Nat → σ → Res (Ctl σ ρ)) :
    forRet lo hi s body = .ok (.cont s) := by
  simp [forRet, show hi - lo = 0 by omega, loopRetN]

/-! ## Writing a row segment, a block -/

/-- Row segment: `for (jt = c0; jt < c1; jt++) S[it][jt] = g(jt);` -/
theorem wp_row {g : Nat → Res T} {it c0 c1 : Nat} (hit : it < r) (h01 : c0 ≤ c1) (h1 : c1 ≤ c)
    (S : Mat T r c) :
    wp (forUp c0 c1 S fun jt S => do wr S it jt (← g jt))
      (fun S' => ∀ (a : Fin r) (b : Fin c),
        (a.val = it ∧ c0 ≤ b.val ∧ b.val < c1 → g b.val = .ok (S' a b)) ∧
        (¬ (a.val = it ∧ c0 ≤ b.val ∧ b.val < c1) → S' a b = S a b))
      (fun e => ∃ jt, c0 ≤ jt ∧ jt < c1 ∧ g jt = .error e) := by
  refine wp_forUp (fun k S' => ∀ (a : Fin r) (b : Fin c),
        (a.val = it ∧ c0 ≤ b.val ∧ b.val < k → g b.val = .ok (S' a b)) ∧
        (¬ (a.val = it ∧ c0 ≤ b.val ∧ b.val < k) → S' a b = S a b)) h01 ?_ ?_ (fun _ h => h)
  · intro a b
    exact ⟨fun h => by omega, fun _ => rfl⟩
  · intro k S' hk0 hk1 ih
    rw [wp_bind]
    cases hg : g k with
    | error e => exact ⟨k, hk0, hk1, hg⟩
    | ok v =>
      rw [wp_ok, wr_eq hit (by omega), wp_ok]
      intro a b
      rw [Matrix.of_apply]
      obtain ⟨ih1, ih2⟩ := ih a b
      by_cases hab : a.val = it ∧ b.val = k
      · rw [if_pos hab]
        refine ⟨fun _ => by rw [hab.2]; exact hg, fun h => ?_⟩
        exact absurd ⟨hab.1, by omega, by omega⟩ h
      · rw [if_neg hab]
        exact ⟨fun h => ih1 (by omega), fun h => ih2 (by omega)⟩

/-- Block: `for (it = r0; it < r1; it++) for (jt = c0; jt < c1; jt++) S[it][jt] = g(it, jt);` -/
theorem wp_block {g : Nat → Nat → Res T} {r0 r1 c0 c1 : Nat}
    (hr01 : r0 ≤ r1) (hr : r1 ≤ r) (h01 : c0 ≤ c1) (h1 : c1 ≤ c) (S : Mat T r c) :
    wp (forUp r0 r1 S fun it S => forUp c0 c1 S fun jt S => do wr S it jt (← g it jt))
      (fun S' => ∀ (a : Fin r) (b : Fin c),
        ((r0 ≤ a.val ∧ a.val < r1) ∧ c0 ≤ b.val ∧ b.val < c1 →
          g a.val b.val = .ok (S' a b)) ∧
        (¬ ((r0 ≤ a.val ∧ a.val < r1) ∧ c0 ≤ b.val ∧ b.val < c1) → S' a b = S a b))
      (fun e => ∃ it jt, r0 ≤ it ∧ it < r1 ∧ c0 ≤ jt ∧ jt < c1 ∧ g it jt = .error e) := by
  refine wp_forUp (fun k S' => ∀ (a : Fin r) (b : Fin c),
        ((r0 ≤ a.val ∧ a.val < k) ∧ c0 ≤ b.val ∧ b.val < c1 →
          g a.val b.val = .ok (S' a b)) ∧
        (¬ ((r0 ≤ a.val ∧ a.val < k) ∧ c0 ≤ b.val ∧ b.val < c1) → S' a b = S a b))
    hr01 ?_ ?_ (fun _ h => h)
  · intro a b
    exact ⟨fun h => by omega, fun _ => rfl⟩
  · intro k S' hk0 hk1 ih
    refine wp_mono (wp_row (g := g k) (it := k) (by omega) h01 h1 S') ?_ ?_
    · intro S'' hS a b
      obtain ⟨ih1, ih2⟩ := ih a b
      obtain ⟨h2, h3⟩ := hS a b
      by_cases hk : a.val = k ∧ c0 ≤ b.val ∧ b.val < c1
      · have := h2 hk
        rw [← hk.1] at this
        exact ⟨fun _ => this, fun h => absurd ⟨⟨by omega, by omega⟩, hk.2⟩ h⟩
      · rw [h3 hk]
        exact ⟨fun h => ih1 (by omega), fun h => ih2 (by omega)⟩
    · rintro e ⟨jt, h2, h3, h4⟩
      exact ⟨k, jt, hk0, hk1, h2, h3, h4⟩

/-- Writing every element of a matrix. -/
theorem wp_fill {g : Nat → Nat → Res T} (S : Mat T r c) :
    wp (forUp 0 r S fun it S => forUp 0 c S fun jt S => do wr S it jt (← g it jt))
      (fun S' => ∀ (a : Fin r) (b : Fin c), g a.val b.val = .ok (S' a b))
      (fun e => ∃ (a : Fin r) (b : Fin c), g a.val b.val = .error e) := by
  refine wp_mono (wp_block (Nat.zero_le r) le_rfl (Nat.zero_le c) le_rfl S) ?_ ?_
  · intro S' h a b
    exact (h a b).1 ⟨⟨Nat.zero_le _, a.2⟩, Nat.zero_le _, b.2⟩
  · rintro e ⟨it, jt, -, h1, -, h2, h3⟩
    exact ⟨⟨it, h1⟩, ⟨jt, h2⟩, h3⟩

theorem fill_eq {g : Nat → Nat → Res T} {F : Mat T r c} (S : Mat T r c)
    (h : ∀ (a : Fin r) (b : Fin c), g a.val b.val = .ok (F a b)) :
    (forUp 0 r S fun it S => forUp 0 c S fun jt S => do wr S it jt (← g it jt)) = .ok F := by
  apply wp_eq
  refine wp_mono (wp_fill (g := g) S) ?_ ?_
  · intro S' hS
    ext a b
    have := hS a b
    rw [h a b] at this
    exact (Except.ok.inj this).symm
  · rintro e ⟨a, b, hab⟩
    rw [h a b] at hab
    cases hab

/-- A full elementwise loop returns `F` exactly when every element computation does. -/
theorem fill_iff {g : Nat → Nat → Res T} {F : Mat T r c} (S : Mat T r c) :
    (forUp 0 r S fun it S => forUp 0 c S fun jt S => do wr S it jt (← g it jt)) = .ok F ↔
    ∀ (a : Fin r) (b : Fin c), g a.val b.val = .ok (F a b) :=
  ⟨fun h => wp_ok_elim (wp_fill S) h, fill_eq S⟩

/-- If a full elementwise loop stops, one of its element computations stops that way. -/
theorem fill_error {g : Nat → Nat → Res T} {e : Stop} (S : Mat T r c)
    (h : (forUp 0 r S fun it S => forUp 0 c S fun jt S => do wr S it jt (← g it jt)) = .error e) :
    ∃ (a : Fin r) (b : Fin c), g a.val b.val = .error e :=
  wp_error_elim (wp_fill S) h

end MatrixLibs
