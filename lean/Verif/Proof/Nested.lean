import Verif.Spec.Nested
import Verif.Proof.Movement
import Verif.Model.Det

/-!
# Runs on a leading block
-/

namespace MatrixLibs

set_option linter.unusedSectionVars false

open CScalar (ofInt)

/-- If `x` returns then `y` returns its image. -/
def Proj {α β : Type} (f : α → β) (x : Res α) (y : Res β) : Prop := ∀ s, x = .ok s → y = .ok (f s)

section
variable {α β γ δ σ τ : Type}

theorem Proj.ok {f : α → β} {a : α} {b : β} (h : b = f a) : Proj f (.ok a) (.ok b) := by
  intro s hs; cases hs; rw [h]

theorem Proj.error {f : α → β} {e : Stop} {y : Res β} : Proj f (.error e) y := by
  intro s hs; cases hs

theorem Proj.refl (x : Res α) : Proj id x x := fun _ hs => hs

theorem Proj.of_eq {x y : Res α} (h : x = y) : Proj id x y := h ▸ Proj.refl x

theorem Proj.bind {f : α → β} {g : γ → δ} {x : Res α} {y : Res β} {F : α → Res γ} {G : β → Res δ}
    (h : Proj f x y) (hF : ∀ a, Proj g (F a) (G (f a))) : Proj g (x >>= F) (y >>= G) := by
  intro s hs
  cases x with
  | error e => cases hs
  | ok a =>
    rw [h a rfl]
    exact hF a s hs

theorem Proj.loopN {f : σ → τ} {B : Nat → σ → Res σ} {B' : Nat → τ → Res τ} (cnt k : Nat) (s : σ)
    (h : ∀ i s, k ≤ i → i < k + cnt → Proj f (B i s) (B' i (f s))) :
    Proj f (loopN B cnt k s) (loopN B' cnt k (f s)) := by
  induction cnt generalizing k s with
  | zero => exact .ok rfl
  | succ cnt ih =>
    exact Proj.bind (h k s (by omega) (by omega)) (fun a => ih (k + 1) a (fun i s h1 h2 => h i s (by omega) (by omega)))

theorem Proj.forUp {f : σ → τ} {B : Nat → σ → Res σ} {B' : Nat → τ → Res τ} {lo hi : Nat} {s : σ} {t : τ} (hs : t = f s)
    (h : ∀ i s, lo ≤ i → i < hi → Proj f (B i s) (B' i (f s))) :
    Proj f (forUp lo hi s B) (forUp lo hi t B') := by
  subst hs
  exact Proj.loopN _ _ _ (fun i s h1 h2 => h i s h1 (by omega))

theorem forUp_keeps {f : σ → τ} {B : Nat → σ → Res σ} {lo hi : Nat} {s s' : σ}
    (h : ∀ i s s', lo ≤ i → i < hi → B i s = .ok s' → f s' = f s) (hs : forUp lo hi s B = .ok s') : f s' = f s := by
  by_cases hle : lo ≤ hi
  · have := wp_forUp (lo := lo) (hi := hi) (s := s) (body := B) (Q := fun s' => f s' = f s) (E := fun _ => True)
      (fun _ s' => f s' = f s) hle rfl
      (fun i s1 h1 h2 hI => by
        cases hb : B i s1 with
        | error e => trivial
        | ok s2 => exact (h i s1 s2 h1 h2 hb).trans hI) (fun _ hI => hI)
    rw [hs] at this
    exact this
  · rw [forUp_nil (by omega)] at hs
    cases hs; rfl

theorem loopN_add (B : Nat → σ → Res σ) (a b k : Nat) (s : σ) :
    loopN B (a + b) k s = (loopN B a k s >>= fun s => loopN B b (k + a) s) := by
  induction a generalizing k s with
  | zero => simp [loopN]
  | succ a ih =>
    rw [show a + 1 + b = (a + b) + 1 by omega]
    show (B k s >>= fun s => loopN B (a + b) (k + 1) s) = ((B k s >>= fun s => loopN B a (k + 1) s) >>= _)
    cases B k s with
    | error e => rfl
    | ok s1 =>
      simp only [ok_bind]
      rw [ih, show k + 1 + a = k + (a + 1) by omega]

theorem forUp_split (B : Nat → σ → Res σ) {lo mid hi : Nat} (h1 : lo ≤ mid) (h2 : mid ≤ hi) (s : σ) :
    forUp lo hi s B = (forUp lo mid s B >>= fun s => forUp mid hi s B) := by
  unfold forUp
  rw [show hi - lo = (mid - lo) + (hi - mid) by omega, loopN_add]
  rw [show lo + (mid - lo) = mid by omega]

/-- `y` is the image of `x`, also when it does not return. -/
def Image (f : α → β) (x : Res α) (y : Res β) : Prop := Proj f x y ∧ ∀ e, x = .error e → y = .error e

theorem Image.refl (x : Res α) : Image id x x := ⟨Proj.refl x, fun _ h => h⟩

theorem Image.bind {f : α → β} {g : γ → δ} {x : Res α} {y : Res β} {F : α → Res γ} {G : β → Res δ}
    (h : Image f x y) (hF : ∀ a, Image g (F a) (G (f a))) : Image g (x >>= F) (y >>= G) := by
  refine ⟨Proj.bind h.1 (fun a => (hF a).1), fun e he => ?_⟩
  cases x with
  | error e' => rw [h.2 e' rfl]; cases he; rfl
  | ok a => rw [h.1 a rfl]; exact (hF a).2 e he

theorem Image.loopN {f : σ → τ} {B : Nat → σ → Res σ} {B' : Nat → τ → Res τ} (cnt k : Nat) (s : σ)
    (h : ∀ i s, k ≤ i → i < k + cnt → Image f (B i s) (B' i (f s))) :
    Image f (loopN B cnt k s) (loopN B' cnt k (f s)) := by
  induction cnt generalizing k s with
  | zero => exact ⟨.ok rfl, fun e he => by cases he⟩
  | succ cnt ih =>
    exact Image.bind (h k s (by omega) (by omega)) (fun a => ih (k + 1) a (fun i s h1 h2 => h i s (by omega) (by omega)))

theorem Image.forUp {f : σ → τ} {B : Nat → σ → Res σ} {B' : Nat → τ → Res τ} {lo hi : Nat} {s : σ} {t : τ} (hs : t = f s)
    (h : ∀ i s, lo ≤ i → i < hi → Image f (B i s) (B' i (f s))) :
    Image f (MatrixLibs.forUp lo hi s B) (MatrixLibs.forUp lo hi t B') := by
  subst hs
  exact Image.loopN _ _ _ (fun i s h1 h2 => h i s h1 (by omega))

/-- The longer loop stops where the shorter one stops. -/
theorem Image.forUp_longer_error {f : σ → τ} {B : Nat → σ → Res σ} {B' : Nat → τ → Res τ} {lo mid hi : Nat}
    (h1 : lo ≤ mid) (h2 : mid ≤ hi) {s : σ} {t : τ} (hs : t = f s)
    (h : ∀ i s, lo ≤ i → i < mid → Image f (B i s) (B' i (f s))) {e : Stop}
    (he : MatrixLibs.forUp lo mid t B' = .error e) : MatrixLibs.forUp lo hi s B = .error e := by
  have hp := Image.forUp (B := B) (B' := B') (hs := hs) h
  rw [forUp_split B h1 h2]
  cases h3 : MatrixLibs.forUp lo mid s B with
  | error e' =>
    have := hp.2 e' h3
    rw [he] at this
    cases this; rfl
  | ok s1 =>
    have := hp.1 s1 h3
    rw [he] at this
    cases this

/-- A longer loop whose last part does not change the image. -/
theorem Proj.forUp_longer {f : σ → τ} {B : Nat → σ → Res σ} {B' : Nat → τ → Res τ} {lo mid hi : Nat} (h1 : lo ≤ mid)
    (h2 : mid ≤ hi) {s : σ} {t : τ} (hs : t = f s)
    (h : ∀ i s, lo ≤ i → i < mid → Proj f (B i s) (B' i (f s)))
    (hk : ∀ i s s', mid ≤ i → i < hi → B i s = .ok s' → f s' = f s) :
    Proj f (MatrixLibs.forUp lo hi s B) (MatrixLibs.forUp lo mid t B') := by
  intro s2 hs2
  rw [forUp_split B h1 h2] at hs2
  have hp := Proj.forUp (B := B) (B' := B') (hs := hs) h
  cases h3 : MatrixLibs.forUp lo mid s B with
  | error e => rw [h3] at hs2; cases hs2
  | ok s1 =>
    rw [h3, ok_bind] at hs2
    rw [hp s1 h3, forUp_keeps hk hs2]

end

section
variable {T : Type} {n k : Nat}

theorem rd_leading (h : k ≤ n) (A : Mat T n n) {i j : Nat} (hi : i < k) (hj : j < k) :
    rd (leading h A) i j = rd A i j := by
  rw [rd_eq hi hj, rd_eq (hi.trans_le h) (hj.trans_le h)]; rfl

theorem proj_wr (h : k ≤ n) (A : Mat T n n) {i j : Nat} (hi : i < k) (hj : j < k) (v : T) :
    Proj (leading h) (wr A i j v) (wr (leading h A) i j v) := by
  rw [wr_eq (hi.trans_le h) (hj.trans_le h), wr_eq hi hj]
  exact .ok rfl

theorem image_wr (h : k ≤ n) (A : Mat T n n) {i j : Nat} (hi : i < k) (hj : j < k) (v : T) :
    Image (leading h) (wr A i j v) (wr (leading h A) i j v) := by
  refine ⟨proj_wr h A hi hj v, fun e he => ?_⟩
  rw [wr_eq (hi.trans_le h) (hj.trans_le h)] at he
  cases he

theorem leading_wr (h : k ≤ n) {A A' : Mat T n n} {i j : Nat} (hij : k ≤ i ∨ k ≤ j) {v : T} (hw : wr A i j v = .ok A') :
    leading h A' = leading h A := by
  by_cases hb : i < n ∧ j < n
  · rw [wr_eq hb.1 hb.2] at hw
    cases hw
    ext a b
    show (if a.val = i ∧ b.val = j then v else A _ _) = _
    rw [if_neg (by omega)]; rfl
  · rw [wr_oob hb] at hw; cases hw

variable [Inhabited T] [CScalar T]

theorem luSum_leading (h : k ≤ n) (L U : Mat T n n) {i j : Nat} (hi : i < k) (hj : j < k) :
    luSum (leading h L) (leading h U) i j = luSum L U i j := by
  unfold luSum
  refine forUp_congr (fun p s _ hp => ?_)
  rw [rd_leading h U (by omega) hj, rd_leading h L hi (by omega)]

theorem bind_ok_elim {α β : Type} {x : Res α} {f : α → Res β} {b : β} (h : (x >>= f) = .ok b) :
    ∃ a, x = .ok a ∧ f a = .ok b := by
  cases x with
  | error e => cases h
  | ok a => exact ⟨a, rfl, h⟩

theorem luUpper_leading (h : k ≤ n) (A L U : Mat T n n) {j : Nat} (hj : j < k) :
    Proj (leading h) (luUpper A L j U) (luUpper (leading h A) (leading h L) j (leading h U)) := by
  unfold luUpper
  refine Proj.forUp rfl (fun i U _ hi => ?_)
  rw [luSum_leading h L U (by omega) hj, rd_leading h A (by omega) hj]
  refine Proj.bind (Proj.refl _) (fun s => Proj.bind (Proj.refl _) (fun a => Proj.bind (Proj.refl _) (fun v => ?_)))
  exact proj_wr h U (by omega) hj _

theorem luUpper_keeps (h : k ≤ n) {A L U U' : Mat T n n} {j : Nat} (hj : k ≤ j) (hu : luUpper A L j U = .ok U') :
    leading h U' = leading h U := by
  unfold luUpper at hu
  refine forUp_keeps (f := leading h) (fun i s s' _ _ hb => ?_) hu
  obtain ⟨_, _, hb⟩ := bind_ok_elim hb
  obtain ⟨_, _, hb⟩ := bind_ok_elim hb
  obtain ⟨_, _, hb⟩ := bind_ok_elim hb
  exact leading_wr h (.inr hj) hb

theorem luLower_step_keeps (h : k ≤ n) {A U L L' : Mat T n n} {i j : Nat} (hij : k ≤ i ∨ k ≤ j)
    (hb : (do
      let sum ← luSum L U i j
      let u ← rd U j j
      if CScalar.eq u (ofInt 0) then .error (.throws divideByZeroException)
      else
        wr L i j (← CScalar.div (← CScalar.sub (← rd A i j) sum) u)) = Except.ok L') :
    leading h L' = leading h L := by
  obtain ⟨_, _, hb⟩ := bind_ok_elim hb
  obtain ⟨u, _, hb⟩ := bind_ok_elim hb
  split at hb
  · cases hb
  obtain ⟨_, _, hb⟩ := bind_ok_elim hb
  obtain ⟨_, _, hb⟩ := bind_ok_elim hb
  obtain ⟨_, _, hb⟩ := bind_ok_elim hb
  exact leading_wr h hij hb

theorem luLower_leading (h : k ≤ n) (A U L : Mat T n n) {j : Nat} (hj : j < k) :
    Proj (leading h) (luLower A U j L) (luLower (leading h A) (leading h U) j (leading h L)) := by
  unfold luLower
  refine Proj.forUp_longer hj.le h rfl (fun i L hji hi => ?_) (fun i s s' hi _ hb => ?_)
  · rw [luSum_leading h L U hi hj, rd_leading h A hi hj, rd_leading h U hj hj]
    refine Proj.bind (Proj.refl _) (fun s => Proj.bind (Proj.refl _) (fun u => ?_))
    split
    · rename_i hu
      rw [if_pos (by exact hu)]
      exact .error
    · rename_i hu
      rw [if_neg (by exact hu)]
      refine Proj.bind (Proj.refl _) (fun a => Proj.bind (Proj.refl _) (fun v => Proj.bind (Proj.refl _) (fun q => ?_)))
      exact proj_wr h L hi hj _
  · exact luLower_step_keeps h (.inl hi) hb

theorem luLower_keeps (h : k ≤ n) {A U L L' : Mat T n n} {j : Nat} (hj : k ≤ j) (hl : luLower A U j L = .ok L') :
    leading h L' = leading h L := by
  unfold luLower at hl
  exact forUp_keeps (f := leading h) (fun i s s' _ _ hb => luLower_step_keeps h (.inr hj) hb) hl

theorem eye1_leading (h : k ≤ n) : Proj (leading h) (eye1 (T := T) n) (eye1 k) := by
  unfold eye1
  rw [eye_ok, eye_ok]
  refine .ok ?_
  ext a b
  simp [leading, Fin.ext_iff]

theorem zeros_leading (h : k ≤ n) : Proj (leading h) (zeros (T := T) n n) (zeros k k) := by
  unfold zeros
  rw [fill_ok, fill_ok]
  exact .ok rfl

theorem lu_leading (h : k ≤ n) (A : Mat T n n) :
    Proj (fun s => (leading h s.1, leading h s.2)) (lu A) (lu (leading h A)) := by
  unfold lu
  refine Proj.bind (eye1_leading h) (fun L => Proj.bind (zeros_leading h) (fun U => ?_))
  refine Proj.forUp_longer (Nat.zero_le _) h rfl (fun j s _ hj => ?_) (fun j s s' hj _ hb => ?_)
  · exact Proj.bind (luUpper_leading h A s.1 s.2 hj) (fun U => Proj.bind (luLower_leading h A U s.1 hj) (fun L => .ok rfl))
  · obtain ⟨U, hU, hb⟩ := bind_ok_elim hb
    obtain ⟨L, hL, hb⟩ := bind_ok_elim hb
    cases hb
    simp only [luUpper_keeps h hj hU, luLower_keeps h hj hL]

theorem cholSum_leading (h : k ≤ n) (L : Mat T n n) {i j : Nat} (hi : i < k) (hj : j < k) :
    cholSum (leading h L) i j = cholSum L i j := by
  unfold cholSum
  refine forUp_congr (fun p s _ hp => ?_)
  rw [rd_leading h L hi (by omega), rd_leading h L hj (by omega)]

theorem cholStep_leading (h : k ≤ n) (A L : Mat T n n) {i j : Nat} (hi : i < k) (hj : j < k) :
    Image (leading h) (cholStep A i j L) (cholStep (leading h A) i j (leading h L)) := by
  unfold cholStep
  split
  · rw [cholSum_leading h L hi hi, rd_leading h A hi hi]
    refine Image.bind (Image.refl _) (fun s => Image.bind (Image.refl _) (fun u => Image.bind (Image.refl _) (fun u =>
      Image.bind (Image.refl _) (fun u => ?_))))
    exact image_wr h L hi hi _
  · rw [cholSum_leading h L hi hj, rd_leading h A hi hj, rd_leading h L hj hj]
    refine Image.bind (Image.refl _) (fun s => Image.bind (Image.refl _) (fun u => Image.bind (Image.refl _) (fun u =>
      Image.bind (Image.refl _) (fun u => Image.bind (Image.refl _) (fun u => ?_)))))
    exact image_wr h L hi hj _

theorem cholStep_keeps (h : k ≤ n) {A L L' : Mat T n n} {i j : Nat} (hi : k ≤ i) (hb : cholStep A i j L = .ok L') :
    leading h L' = leading h L := by
  unfold cholStep at hb
  split at hb
  · obtain ⟨_, _, hb⟩ := bind_ok_elim hb
    obtain ⟨_, _, hb⟩ := bind_ok_elim hb
    obtain ⟨_, _, hb⟩ := bind_ok_elim hb
    obtain ⟨_, _, hb⟩ := bind_ok_elim hb
    exact leading_wr h (.inl hi) hb
  · obtain ⟨_, _, hb⟩ := bind_ok_elim hb
    obtain ⟨_, _, hb⟩ := bind_ok_elim hb
    obtain ⟨_, _, hb⟩ := bind_ok_elim hb
    obtain ⟨_, _, hb⟩ := bind_ok_elim hb
    obtain ⟨_, _, hb⟩ := bind_ok_elim hb
    exact leading_wr h (.inl hi) hb

theorem cholRow_leading (h : k ≤ n) (A L : Mat T n n) {i : Nat} (hi : i < k) :
    Image (leading h) (forUp 0 (i + 1) L fun j L => cholStep A i j L)
      (forUp 0 (i + 1) (leading h L) fun j L => cholStep (leading h A) i j L) := by
  refine Image.forUp rfl (fun j L _ hj => ?_)
  exact cholStep_leading h A L hi (by omega)

theorem chol_leading (h : k ≤ n) (A : Mat T n n) : Proj (leading h) (chol A) (chol (leading h A)) := by
  unfold chol
  refine Proj.forUp_longer (Nat.zero_le _) h rfl (fun i L _ hi => ?_) (fun i s s' hi _ hb => ?_)
  · exact (cholRow_leading h A L hi).1
  · exact forUp_keeps (f := leading h) (fun j s s' _ _ hb => cholStep_keeps h hi hb) hb

theorem chol_leading_error (h : k ≤ n) (A : Mat T n n) {e : Stop} (he : chol (leading h A) = .error e) :
    chol A = .error e := by
  unfold chol at he ⊢
  refine Image.forUp_longer_error (f := leading h) (Nat.zero_le _) h rfl (fun i L _ hi => ?_) he
  exact cholRow_leading h A L hi

end

end MatrixLibs
