import Verif.Proof.Movement
import Verif.Spec.Exact
import Verif.Spec.Elementwise

/-!
# Elementwise loops: exactly which outcome
-/

namespace MatrixLibs

variable {T σ : Type} {r c : Nat}

/-- Two loops with bodies that agree on the states satisfying an invariant. -/
theorem forUp_congr_inv {lo hi : Nat} {s : σ} {body body' : Nat → σ → Res σ}
    (I : Nat → σ → Prop) (h0 : I lo s)
    (heq : ∀ k s, lo ≤ k → k < hi → I k s → body k s = body' k s)
    (hstep : ∀ k s, lo ≤ k → k < hi → I k s → wp (body' k s) (I (k + 1)) (fun _ => True)) :
    forUp lo hi s body = forUp lo hi s body' := by
  unfold forUp
  obtain ⟨cnt, hcnt⟩ : ∃ cnt, cnt = hi - lo := ⟨_, rfl⟩
  rw [← hcnt]
  induction cnt generalizing lo s with
  | zero => rfl
  | succ n ih =>
    rw [loopN, loopN, heq lo s le_rfl (by omega) h0]
    have h1 := hstep lo s le_rfl (by omega) h0
    cases h2 : body' lo s with
    | error e => rfl
    | ok s' =>
      rw [h2, wp_ok] at h1
      exact ih h1 (fun k s hk => heq k s (by omega)) (fun k s hk => hstep k s (by omega))
        (by omega)

/-- Row loop that stops at the first failing element. -/
theorem wp_row_first {g : Nat → Res T} {it : Nat} (hit : it < r) (S : Mat T r c) :
    wp (forUp 0 c S fun jt S => do wr S it jt (← g jt))
      (fun S' => ∀ (a : Fin r) (b : Fin c),
        (a.val = it → g b.val = .ok (S' a b)) ∧ (a.val ≠ it → S' a b = S a b))
      (fun e => ∃ b : Fin c, g b.val = .error e ∧ ∀ b' < b, ∃ v, g b'.val = .ok v) := by
  refine wp_forUp (fun k S' => ∀ (a : Fin r) (b : Fin c),
        (a.val = it ∧ b.val < k → g b.val = .ok (S' a b)) ∧
        (¬ (a.val = it ∧ b.val < k) → S' a b = S a b)) (Nat.zero_le c) ?_ ?_ ?_
  · intro a b
    exact ⟨fun h => by omega, fun _ => rfl⟩
  · intro k S' _ hk1 ih
    rw [wp_bind]
    cases hg : g k with
    | error e =>
      refine ⟨⟨k, hk1⟩, hg, fun b' hb' => ?_⟩
      exact ⟨_, (ih ⟨it, hit⟩ b').1 ⟨rfl, hb'⟩⟩
    | ok v =>
      rw [wp_ok, wr_eq hit hk1, wp_ok]
      intro a b
      rw [Matrix.of_apply]
      obtain ⟨ih1, ih2⟩ := ih a b
      by_cases hab : a.val = it ∧ b.val = k
      · rw [if_pos hab]
        refine ⟨fun _ => by rw [hab.2]; exact hg, fun h => ?_⟩
        exact absurd ⟨hab.1, by omega⟩ h
      · rw [if_neg hab]
        exact ⟨fun h => ih1 (by omega), fun h => ih2 (by omega)⟩
  · intro S' h a b
    have := b.2
    exact ⟨fun h1 => (h a b).1 ⟨h1, b.2⟩, fun h1 => (h a b).2 (by omega)⟩

/-- A full elementwise loop: all elements in order, stopping at the first failing one. -/
theorem wp_fill_first {g : Nat → Nat → Res T} (S : Mat T r c) :
    wp (forUp 0 r S fun it S => forUp 0 c S fun jt S => do wr S it jt (← g it jt))
      (fun S' => ∀ (a : Fin r) (b : Fin c), g a.val b.val = .ok (S' a b))
      (fun e => ∃ (a : Fin r) (b : Fin c), g a.val b.val = .error e ∧
        ∀ (a' : Fin r) (b' : Fin c), (a' < a ∨ a' = a ∧ b' < b) →
          ∃ v, g a'.val b'.val = .ok v) := by
  refine wp_forUp (fun k S' => ∀ (a : Fin r) (b : Fin c), a.val < k → g a.val b.val = .ok (S' a b))
    (Nat.zero_le r) (fun a b h => by omega) ?_ (fun S' h a b => h a b a.2)
  intro k S' _ hk ih
  refine wp_mono (wp_row_first (g := g k) hk S') ?_ ?_
  · intro S'' hS a b hab
    by_cases hak : a.val = k
    · have := (hS a b).1 hak
      rwa [← hak] at this
    · rw [(hS a b).2 hak]
      exact ih a b (by omega)
  · rintro e ⟨b, hb, hb'⟩
    refine ⟨⟨k, hk⟩, b, hb, ?_⟩
    rintro a' b' (h | ⟨rfl, h⟩)
    · exact ⟨_, ih a' b' h⟩
    · exact hb' b' h

theorem elementwise_loop {g : Nat → Nat → Res T} {f : Fin r → Fin c → Res T} (S : Mat T r c)
    (hf : ∀ a b, g a.val b.val = f a b) :
    ElementwiseOf f
      (forUp 0 r S fun it S => forUp 0 c S fun jt S => do wr S it jt (← g it jt)) := by
  have h := wp_fill_first (g := g) S
  simp only [hf] at h
  refine ⟨fun R => ⟨fun hR => wp_ok_elim h hR, fun hR => ?_⟩, fun e => ⟨fun he => ?_, ?_⟩⟩
  · exact fill_eq S (fun a b => by rw [hf, hR])
  · exact wp_error_elim h he
  · rintro ⟨a, b, hab, hlt⟩
    cases hx : (forUp 0 r S fun it S => forUp 0 c S fun jt S => do wr S it jt (← g it jt)) with
    | ok R =>
      have := wp_ok_elim h hx a b
      rw [hab] at this; cases this
    | error e' =>
      obtain ⟨a', b', hab', hlt'⟩ := wp_error_elim h hx
      rcases lt_trichotomy a a' with h1 | h1 | h1
      · obtain ⟨v, hv⟩ := hlt' a b (Or.inl h1)
        rw [hab] at hv; cases hv
      · subst h1
        rcases lt_trichotomy b b' with h2 | h2 | h2
        · obtain ⟨v, hv⟩ := hlt' a b (Or.inr ⟨rfl, h2⟩)
          rw [hab] at hv; cases hv
        · subst h2
          rw [hab] at hab'; cases hab'; rfl
        · obtain ⟨v, hv⟩ := hlt a b' (Or.inr ⟨rfl, h2⟩)
          rw [hab'] at hv; cases hv
      · obtain ⟨v, hv⟩ := hlt a' b' (Or.inl h1)
        rw [hab'] at hv; cases hv

/-- A nest of loops whose body at cell `(it, jt)` only looks at that cell of the result. -/
theorem fill_acc {g : Nat → Nat → Res T} {body : Nat → Nat → Mat T r c → Res (Mat T r c)}
    (S0 : Mat T r c)
    (h : ∀ (a : Fin r) (b : Fin c) (S : Mat T r c), S a b = S0 a b →
      body a.val b.val S = (do wr S a.val b.val (← g a.val b.val))) :
    (forUp 0 r S0 fun it S => forUp 0 c S fun jt S => body it jt S) =
      (forUp 0 r S0 fun it S => forUp 0 c S fun jt S => do wr S it jt (← g it jt)) := by
  refine forUp_congr_inv (fun k S => ∀ (a : Fin r) (b : Fin c), k ≤ a.val → S a b = S0 a b)
    (fun _ _ _ => rfl) ?_ ?_
  · intro k S _ hk hS
    refine forUp_congr_inv
      (fun l S => ∀ b : Fin c, l ≤ b.val → S ⟨k, hk⟩ b = S0 ⟨k, hk⟩ b)
      (fun b _ => hS ⟨k, hk⟩ b le_rfl) ?_ ?_
    · intro l S _ hl hS
      exact h ⟨k, hk⟩ ⟨l, hl⟩ S (hS ⟨l, hl⟩ le_rfl)
    · intro l S _ hl hS
      rw [wp_bind]
      cases hg : g k l with
      | error e => trivial
      | ok v =>
        rw [wp_ok, wr_eq hk hl, wp_ok]
        intro b hb
        rw [Matrix.of_apply, if_neg (by dsimp only; omega)]
        exact hS b (by omega)
  · intro k S _ hk hS
    refine wp_mono (wp_row (g := g k) hk (Nat.zero_le c) le_rfl S) ?_ (fun _ _ => trivial)
    intro S' h' a b hab
    rw [(h' a b).2 (by omega)]
    exact hS a b (by omega)

end MatrixLibs
