import Verif.Proof.Det
import Verif.Spec.IntDiv
import Mathlib.Data.Rat.Cast.Order

/-!
# Determinants: safety for arbitrary element types, and integers
-/

namespace MatrixLibs

set_option linter.unusedSectionVars false

open CScalar (ofInt)

/-- What the safety of `det` needs of the element type: `-` and `*` stop only as listed in `E`, so
does division by an element that compares unequal to zero, and division by the values that `factor`
can take. -/
structure DetOps (T : Type) [CScalar T] (E : Stop → Prop) where
  sub : ∀ a b : T, wp (CScalar.sub a b) (fun _ => True) E
  add : ∀ a b : T, wp (CScalar.add a b) (fun _ => True) E
  mul : ∀ a b : T, wp (CScalar.mul a b) (fun _ => True) E
  div : ∀ a b : T, CScalar.eq b (ofInt 0) = false → wp (CScalar.div a b) (fun _ => True) E
  Factor : T → Prop
  one : Factor (ofInt 1)
  neg : ∀ f, Factor f → wp (CScalar.mul f (ofInt (-1))) Factor E
  divFactor : ∀ a f, Factor f → wp (CScalar.div a f) (fun _ => True) E

def DetOps.stops (T : Type) [CScalar T] [ScalarStops T] : DetOps T ScalarStop where
  sub := ScalarStops.sub
  add := ScalarStops.add
  mul := ScalarStops.mul
  div a b _ := ScalarStops.div a b
  Factor _ := True
  one := trivial
  neg f _ := ScalarStops.mul _ _
  divFactor a f _ := ScalarStops.div a f

section safe
variable {T : Type} [Inhabited T] [CScalar T] {E : Stop → Prop} (H : DetOps T E) {n : Nat}
include H

theorem safe_detProd (A : Mat T n n) (f : T) (hf : H.Factor f) :
    wp (detProd A f) (fun _ => True) E := by
  unfold detProd
  rw [wp_bind]
  refine wp_forUp (fun _ _ => True) (Nat.zero_le n) trivial ?_ ?_
  · intro k s _ hk _
    rw [rd_eq hk hk, ok_bind]
    exact H.mul _ _
  · intro s _
    exact H.divFactor _ _ hf

theorem safe_detEliminate (A : Mat T n n) (r p : Fin n)
    (hp : CScalar.eq (A r p) (ofInt 0) = false) :
    wp (detEliminate A r p) (fun _ => True) E := by
  unfold detEliminate
  refine wp_forUp (fun _ A' => A' r p = A r p) (by omega) rfl ?_ (fun _ _ => trivial)
  intro k A' _ hk hA'
  split
  · next hkr =>
    rw [rd_eq hk p.2, ok_bind]
    refine wp_forUp (fun _ B => B r p = A r p) (by omega) hA' ?_ (fun _ h => h)
    intro l B _ hl hB
    rw [rd_eq r.2 hl, ok_bind, wp_bind]
    refine wp_mono (H.mul _ _) (fun x _ => ?_) (fun _ h => h)
    rw [rd_eq r.2 p.2, ok_bind, wp_bind]
    refine wp_mono (H.div _ _ ?_) (fun q _ => ?_) (fun _ h => h)
    · show CScalar.eq (B r p) _ = false
      rw [hB]; exact hp
    · rw [rd_eq hk hl, ok_bind, wp_bind]
      refine wp_mono (H.sub _ _) (fun v _ => ?_) (fun _ h => h)
      rw [wr_eq hk hl, wp_ok, Matrix.of_apply, if_neg (by omega)]
      exact hB
  · exact hA'

theorem safe_detStep (k : Nat) (hk : k < n) (s : DetState T n) (hkp : k ≤ s.pivot)
    (hf : H.Factor s.factor) :
    wp (detStep k s) (fun x => match x with
      | .cont s' => k + 1 ≤ s'.pivot ∧ H.Factor s'.factor
      | .ret _ => True) E := by
  unfold detStep
  split
  · rw [wp_bind]
    exact wp_mono (safe_detProd H _ _ hf) (fun _ _ => trivial) (fun _ h => h)
  · next hnp =>
    have hpn : s.pivot < n := by omega
    rw [wp_bind]
    have hfuel : (n - s.pivot - 1) * n + (n - k) ≤ n * n + 1 := by
      have h1 : (n - s.pivot - 1) * n ≤ (n - 1) * n := Nat.mul_le_mul_right n (by omega)
      have h2 : n * n = (n - 1) * n + n := by
        obtain ⟨m, rfl⟩ : ∃ m, n = m + 1 := ⟨n - 1, by omega⟩
        simp only [Nat.add_sub_cancel]; ring
      omega
    refine wp_mono (wp_detSearch s.A k s.pivot hk (n * n + 1) k s.pivot hk le_rfl hpn le_rfl hfuel
      (fun a b h1 h2 h3 => by omega)) ?_ (fun _ h => h.elim)
    intro res hres
    match res, hres with
    | none, _ =>
      dsimp only
      rw [wp_bind]
      exact wp_mono (safe_detProd H _ _ hf) (fun _ _ => trivial) (fun _ h => h)
    | some (i, p), ⟨hi, hp, hki, hpp, hnz, _⟩ =>
      dsimp only
      rw [wp_bind]
      have hsw : wp (detSwap s.A s.factor i k) (fun x => H.Factor x.2 ∧
          x.1 ⟨k, hk⟩ ⟨p, hp⟩ = s.A ⟨i, hi⟩ ⟨p, hp⟩) E := by
        unfold detSwap
        split
        · rw [swap_rows_ok s.A ⟨i, hi⟩ ⟨k, hk⟩, ok_bind, wp_bind]
          refine wp_mono (H.neg _ hf) (fun g hg => ?_) (fun _ h => h)
          rw [wp_ok]
          refine ⟨hg, ?_⟩
          dsimp only
          rw [Matrix.of_apply, Equiv.swap_apply_right]
        · next hik =>
          have hik' : i = k := not_not.mp hik
          subst hik'
          exact ⟨hf, rfl⟩
      refine wp_mono hsw ?_ (fun _ h => h)
      rintro ⟨B, g⟩ ⟨hg, hB⟩
      dsimp only at hg hB ⊢
      rw [wp_bind]
      refine wp_mono (safe_detEliminate H B ⟨k, hk⟩ ⟨p, hp⟩ (by rw [hB]; exact hnz)) ?_
        (fun _ h => h)
      intro C _
      rw [wp_pure]
      exact ⟨by dsimp only; omega, hg⟩

theorem safe_detN (A : Mat T n n) : wp (detN A) (fun _ => True) E := by
  unfold detN
  rw [wp_bind]
  refine wp_forRet (fun k s => k ≤ s.pivot ∧ H.Factor s.factor) (fun _ => True) (Nat.zero_le n)
    ⟨le_rfl, H.one⟩ ?_ ?_ ?_
  · intro k s _ hk hs
    refine wp_mono (safe_detStep H k hk s hs.1 hs.2) ?_ (fun _ h => h)
    intro x hx
    cases x <;> exact hx
  · intro s hs
    exact safe_detProd H _ _ hs.2
  · intro v _
    exact trivial

/-- The ring part of `DetOps`, for the closed forms. -/
theorem safe_det2 (A : Mat T 2 2) : wp (det2 A) (fun _ => True) E := by
  have l0 : (0 : Nat) < 2 := by norm_num
  have l1 : (1 : Nat) < 2 := by norm_num
  unfold det2
  rw [rd_eq l0 l0, ok_bind, rd_eq l0 l1, ok_bind, rd_eq l1 l0, ok_bind, rd_eq l1 l1, ok_bind,
    wp_bind]
  refine wp_mono (H.mul _ _) (fun x hx => ?_) (fun _ h => h)
  rw [wp_bind]
  refine wp_mono (H.mul _ _) (fun y hy => ?_) (fun _ h => h)
  exact H.sub _ _

theorem safe_det3 (A : Mat T 3 3) : wp (det3 A) (fun _ => True) E := by
  have l0 : (0 : Nat) < 3 := by norm_num
  have l1 : (1 : Nat) < 3 := by norm_num
  have l2 : (2 : Nat) < 3 := by norm_num
  unfold det3
  rw [rd_eq l0 l0, ok_bind, rd_eq l0 l1, ok_bind, rd_eq l0 l2, ok_bind,
    rd_eq l1 l0, ok_bind, rd_eq l1 l1, ok_bind, rd_eq l1 l2, ok_bind,
    rd_eq l2 l0, ok_bind, rd_eq l2 l1, ok_bind, rd_eq l2 l2, ok_bind, wp_bind]
  refine wp_mono (H.mul _ _) (fun x1 e1 => ?_) (fun _ h => h)
  rw [wp_bind]
  refine wp_mono (H.mul _ _) (fun x2 e2 => ?_) (fun _ h => h)
  rw [wp_bind]
  refine wp_mono (H.mul _ _) (fun x3 e3 => ?_) (fun _ h => h)
  rw [wp_bind]
  refine wp_mono (H.mul _ _) (fun x4 e4 => ?_) (fun _ h => h)
  rw [wp_bind]
  refine wp_mono (H.add _ _) (fun x5 e5 => ?_) (fun _ h => h)
  rw [wp_bind]
  refine wp_mono (H.mul _ _) (fun x6 e6 => ?_) (fun _ h => h)
  rw [wp_bind]
  refine wp_mono (H.mul _ _) (fun x7 e7 => ?_) (fun _ h => h)
  rw [wp_bind]
  refine wp_mono (H.add _ _) (fun x8 e8 => ?_) (fun _ h => h)
  rw [wp_bind]
  refine wp_mono (H.mul _ _) (fun x9 e9 => ?_) (fun _ h => h)
  rw [wp_bind]
  refine wp_mono (H.mul _ _) (fun x10 e10 => ?_) (fun _ h => h)
  rw [wp_bind]
  refine wp_mono (H.sub _ _) (fun x11 e11 => ?_) (fun _ h => h)
  rw [wp_bind]
  refine wp_mono (H.mul _ _) (fun x12 e12 => ?_) (fun _ h => h)
  rw [wp_bind]
  refine wp_mono (H.mul _ _) (fun x13 e13 => ?_) (fun _ h => h)
  rw [wp_bind]
  refine wp_mono (H.sub _ _) (fun x14 e14 => ?_) (fun _ h => h)
  rw [wp_bind]
  refine wp_mono (H.mul _ _) (fun x15 e15 => ?_) (fun _ h => h)
  rw [wp_bind]
  refine wp_mono (H.mul _ _) (fun x16 e16 => ?_) (fun _ h => h)
  exact H.sub _ _

theorem safe_det (A : Mat T n n) : wp (det A) (fun _ => True) E := by
  match n, A with
  | 0, A => exact safe_detN H A
  | 1, A =>
    show wp (det1 A) _ _
    unfold det1
    rw [rd_eq Nat.one_pos Nat.one_pos]; trivial
  | 2, A => exact safe_det2 H A
  | 3, A => exact safe_det3 H A
  | _ + 4, A => exact safe_detN H A

end safe

/-- Signed integers: division by a non-zero element or by `±1` can only overflow. -/
def DetOps.signed (w : Nat) (hw : 2 ≤ w) :
    DetOps (SInt w) (fun e => e = .ub .signedOverflow) where
  sub _ _ := wp_mono (checked_wp w _) (fun _ _ => trivial) (fun _ h => h)
  add _ _ := wp_mono (checked_wp w _) (fun _ _ => trivial) (fun _ h => h)
  mul _ _ := wp_mono (checked_wp w _) (fun _ _ => trivial) (fun _ h => h)
  div a b hb := by
    have h0 : (CScalar.ofInt 0 : SInt w).val = 0 := (RingSem.signed w hw).ofInt 0 (by norm_num)
      (by norm_num)
    simp only [CScalar.eq, decide_eq_false_iff_not, h0] at hb
    simp only [CScalar.div, hb, if_false]
    exact wp_mono (checked_wp w _) (fun _ _ => trivial) (fun _ h => h)
  Factor f := f.val = 1 ∨ f.val = -1
  one := Or.inl ((RingSem.signed w hw).ofInt 1 (by norm_num) (by norm_num))
  neg f hf := by
    refine wp_mono (checked_wp w _) (fun c hc => ?_) (fun _ h => h)
    have h1 : (CScalar.ofInt (-1) : SInt w).val = -1 := (RingSem.signed w hw).ofInt (-1)
      (by norm_num) (by norm_num)
    rw [hc, h1]
    omega
  divFactor a f hf := by
    have hb : f.val ≠ 0 := by omega
    simp only [CScalar.div, hb, if_false]
    exact wp_mono (checked_wp w _) (fun _ _ => trivial) (fun _ h => h)

/-- Unsigned integers never fault in `det`. -/
def DetOps.unsigned (w : Nat) (hw : 1 ≤ w) : DetOps (BitVec w) (fun _ => False) where
  sub _ _ := trivial
  add _ _ := trivial
  mul _ _ := trivial
  div a b hb := by
    have hb' : b ≠ 0#w := by
      intro h
      rw [h] at hb
      simp [CScalar.eq, CScalar.ofInt] at hb
    simp only [CScalar.div, hb', if_false]
    trivial
  Factor f := f = 1 ∨ f = -1
  one := Or.inl (by rw [ExactRing.ofInt_eq]; exact Int.cast_one)
  neg f hf := by
    have h1 : (CScalar.ofInt (-1) : BitVec w) = -1 := by
      rw [ExactRing.ofInt_eq, Int.cast_neg, Int.cast_one]
    rw [ExactRing.mul_eq, h1, wp_ok]
    rcases hf with h | h
    · right; rw [h, one_mul]
    · left; rw [h, neg_mul_neg, one_mul]
  divFactor a f hf := by
    have hb' : f ≠ 0#w := by
      have h1 : (1 : BitVec w) ≠ 0#w := by
        intro h
        have h2 := congrArg BitVec.toNat h
        have h3 : (1 : BitVec w).toNat = 1 := by
          show (BitVec.ofNat w 1).toNat = 1
          rw [BitVec.toNat_ofNat]
          exact Nat.mod_eq_of_lt (Nat.one_lt_two_pow (by omega))
        rw [h3] at h2
        simp at h2
      rcases hf with h | h
      · rw [h]; exact h1
      · rw [h]
        intro h2
        exact h1 (neg_eq_zero.mp h2)
    simp only [CScalar.div, hb', if_false]
    trivial

/-! ## Exact divisions -/

theorem map_wp {α β : Type} {x : Res α} {f : α → β} {Q : β → Prop} {E : Stop → Prop} :
    wp (x.map f) Q E ↔ wp x (fun a => Q (f a)) E := by
  cases x <;> rfl

instance (w : Nat) : Inhabited (ExInt w) := ⟨⟨SInt.wrap 0⟩⟩

/-- `ExInt` computes exactly in `ℚ`, or stops. -/
def FieldSem.exInt (w : Nat) (hw : 2 ≤ w) : FieldSem (ExInt w) ℚ where
  val a := (a.toInt.val : ℚ)
  Bad e := e = .ub .signedOverflow ∨ e = inexact
  add a b := by
    refine map_wp.mpr (wp_mono (checked_wp w _) (fun c hc => ?_) (fun _ h => Or.inl h))
    rw [hc]; push_cast; rfl
  sub a b := by
    refine map_wp.mpr (wp_mono (checked_wp w _) (fun c hc => ?_) (fun _ h => Or.inl h))
    rw [hc]; push_cast; rfl
  mul a b := by
    refine map_wp.mpr (wp_mono (checked_wp w _) (fun c hc => ?_) (fun _ h => Or.inl h))
    rw [hc]; push_cast; rfl
  neg a := by
    refine map_wp.mpr (wp_mono (checked_wp w _) (fun c hc => ?_) (fun _ h => Or.inl h))
    rw [hc]; push_cast; rfl
  ofInt k h1 h2 := by
    have := (RingSem.signed w hw).ofInt k h1 h2
    show (((CScalar.ofInt k : SInt w).val : ℤ) : ℚ) = _
    have e : (CScalar.ofInt k : SInt w).val = k := this
    rw [e]
  div a b hb := by
    have hb' : b.toInt.val ≠ 0 := by exact_mod_cast hb
    simp only [CScalar.div, if_neg hb']
    split
    · next hdvd =>
      refine map_wp.mpr (wp_mono (checked_wp w _) (fun c hc => ?_) (fun _ h => Or.inl h))
      rw [hc]
      obtain ⟨q, hq⟩ := hdvd
      rw [hq, Int.mul_tdiv_cancel_left _ hb', Int.cast_mul, mul_div_cancel_left₀ _ hb]
    · exact Or.inr rfl
  eq a b := by
    simp only [CScalar.eq, decide_eq_true_eq]
    exact_mod_cast Iff.rfl

/-- Apply functions to both alternatives of `Ctl`. -/
def Ctl.map {σ σ' ρ ρ' : Type} (g : σ → σ') (f : ρ → ρ') : Ctl σ ρ → Ctl σ' ρ'
  | .cont s => .cont (g s)
  | .ret v => .ret (f v)

/-! ## Transfer along a simulation of element types -/

/-- Whenever an operation of `T` returns, the corresponding one of `U` returns the image. -/
structure ScalarSim {T U : Type} [CScalar T] [CScalar U] (f : T → U) : Prop where
  add : ∀ a b c : T, CScalar.add a b = .ok c → CScalar.add (f a) (f b) = .ok (f c)
  sub : ∀ a b c : T, CScalar.sub a b = .ok c → CScalar.sub (f a) (f b) = .ok (f c)
  mul : ∀ a b c : T, CScalar.mul a b = .ok c → CScalar.mul (f a) (f b) = .ok (f c)
  div : ∀ a b c : T, CScalar.div a b = .ok c → CScalar.div (f a) (f b) = .ok (f c)
  ofInt : ∀ k : Int, f (ofInt k) = ofInt k
  eq : ∀ a b : T, CScalar.eq (f a) (f b) = CScalar.eq a b

/-- `y` returns the image under `g` of what `x` returns, if `x` returns. -/
def Sim {α β : Type} (g : α → β) (x : Res α) (y : Res β) : Prop :=
  ∀ a, x = .ok a → y = .ok (g a)

theorem Sim.bind {α α' β β' : Type} {g : α → β} {g' : α' → β'} {x : Res α} {y : Res β}
    {k : α → Res α'} {l : β → Res β'} (h : Sim g x y) (hk : ∀ a, Sim g' (k a) (l (g a))) :
    Sim g' (x >>= k) (y >>= l) := by
  intro a ha
  cases x with
  | error e => cases ha
  | ok v => rw [h v rfl]; exact hk v a ha

theorem Sim.ok {α β : Type} {g : α → β} (a : α) : Sim g (.ok a) (.ok (g a)) := by
  intro b hb; cases hb; rfl

theorem Sim.forUp {α β : Type} {g : α → β} {lo hi : Nat} {s : α}
    {body : Nat → α → Res α} {body' : Nat → β → Res β}
    (h : ∀ k s, lo ≤ k → k < hi → Sim g (body k s) (body' k (g s))) :
    Sim g (MatrixLibs.forUp lo hi s body) (MatrixLibs.forUp lo hi (g s) body') := by
  by_cases hle : lo ≤ hi
  · induction hi, hle using Nat.le_induction with
    | base => rw [forUp_nil le_rfl, forUp_nil le_rfl]; exact Sim.ok s
    | succ m hm ih =>
      rw [forUp_last hm, forUp_last hm]
      refine Sim.bind (ih (fun k s h1 h2 => h k s h1 (by omega))) ?_
      intro t
      exact h m t hm (by omega)
  · rw [forUp_nil (by omega), forUp_nil (by omega)]; exact Sim.ok s

theorem Sim.loopRetN {α β ρ ρ' : Type} {g : α → β} {f : ρ → ρ'}
    {body : Nat → α → Res (Ctl α ρ)} {body' : Nat → β → Res (Ctl β ρ')}
    (h : ∀ k s, Sim (Ctl.map g f) (body k s) (body' k (g s))) (m k : Nat) (s : α) :
    Sim (Ctl.map g f) (MatrixLibs.loopRetN body m k s) (MatrixLibs.loopRetN body' m k (g s)) := by
  induction m generalizing k s with
  | zero => exact Sim.ok (g := Ctl.map g f) (Ctl.cont s)
  | succ m ih =>
    unfold MatrixLibs.loopRetN
    refine Sim.bind (h k s) ?_
    intro x
    cases x with
    | cont t => exact ih (k + 1) t
    | ret v => exact Sim.ok (g := Ctl.map g f) (Ctl.ret v)

section sim
variable {T U : Type} [Inhabited T] [CScalar T] [Inhabited U] [CScalar U] {f : T → U}
  (H : ScalarSim f) {n : Nat}

theorem Sim.rd {r c : Nat} (A : Mat T r c) (i j : Nat) :
    Sim f (MatrixLibs.rd A i j) (MatrixLibs.rd (A.map f) i j) := by
  intro a ha
  unfold MatrixLibs.rd at ha ⊢
  split at ha
  · next h =>
    cases ha
    rw [dif_pos h]; rfl
  · cases ha

theorem Sim.wr {r c : Nat} (A : Mat T r c) (i j : Nat) (v : T) :
    Sim (fun B : Mat T r c => B.map f) (MatrixLibs.wr A i j v)
      (MatrixLibs.wr (A.map f) i j (f v)) := by
  intro a ha
  by_cases h : i < r ∧ j < c
  · rw [wr_eq h.1 h.2] at ha ⊢
    cases ha
    congr 1
    ext x y
    simp only [Matrix.of_apply, Matrix.map_apply]
    split <;> rfl
  · rw [wr_oob (by omega)] at ha
    cases ha

include H

theorem Sim.detProd (A : Mat T n n) (x : T) :
    Sim f (MatrixLibs.detProd A x) (MatrixLibs.detProd (A.map f) (f x)) := by
  unfold MatrixLibs.detProd
  rw [← H.ofInt 1]
  refine Sim.bind (Sim.forUp ?_) (fun a b => H.div _ _ b)
  intro k s _ _
  exact Sim.bind (Sim.rd A k k) (fun a b => H.mul _ _ b)

theorem Sim.detSearch (A : Mat T n n) (r fuel i p : Nat) :
    Sim id (MatrixLibs.detSearch A r fuel i p) (MatrixLibs.detSearch (A.map f) r fuel i p) := by
  induction fuel generalizing i p with
  | zero => intro a ha; cases ha
  | succ fuel ih =>
    unfold MatrixLibs.detSearch
    refine Sim.bind (Sim.rd A i p) ?_
    intro a
    rw [← H.ofInt 0, H.eq]
    split
    · dsimp only
      split
      · split
        · exact Sim.ok (g := id) _
        · exact ih _ _
      · exact ih _ _
    · exact Sim.ok (g := id) _

theorem Sim.detEliminate (A : Mat T n n) (r p : Nat) :
    Sim (fun B : Mat T n n => B.map f) (MatrixLibs.detEliminate A r p)
      (MatrixLibs.detEliminate (A.map f) r p) := by
  unfold MatrixLibs.detEliminate
  refine Sim.forUp (g := fun B : Mat T n n => B.map f) ?_
  intro k B _ _
  split
  · refine Sim.bind (Sim.rd B k p) ?_
    intro v
    refine Sim.forUp (g := fun B : Mat T n n => B.map f) ?_
    intro l C _ _
    refine Sim.bind (Sim.rd C r l) (fun a => ?_)
    refine Sim.bind (g := f) (fun b hb => H.mul _ _ b hb) (fun b => ?_)
    refine Sim.bind (Sim.rd C r p) (fun c => ?_)
    refine Sim.bind (g := f) (fun b hb => H.div _ _ b hb) (fun d => ?_)
    refine Sim.bind (Sim.rd C k l) (fun e => ?_)
    refine Sim.bind (g := f) (fun b hb => H.sub _ _ b hb) (fun d => ?_)
    exact Sim.wr C k l d
  · exact Sim.ok (g := fun B : Mat T n n => B.map f) B

theorem Sim.swap_rows {r c : Nat} (A : Mat T r c) (i j : Nat) :
    Sim (fun B : Mat T r c => B.map f) (MatrixLibs.swap_rows A i j)
      (MatrixLibs.swap_rows (A.map f) i j) := by
  unfold MatrixLibs.swap_rows
  split
  · refine Sim.forUp (g := fun B : Mat T r c => B.map f) ?_
    intro k B _ _
    unfold MatrixLibs.swapElem
    refine Sim.bind (Sim.rd B _ _) (fun a => ?_)
    refine Sim.bind (Sim.rd B _ _) (fun b => ?_)
    refine Sim.bind (Sim.wr B _ _ b) (fun C => ?_)
    exact Sim.wr C _ _ a
  · exact Sim.ok (g := fun B : Mat T r c => B.map f) A

/-- Image of a state of `det`. -/
def DetState.map (f : T → U) (s : DetState T n) : DetState U n :=
  { A := s.A.map f, factor := f s.factor, pivot := s.pivot }

theorem Sim.detStep (k : Nat) (s : DetState T n) :
    Sim (Ctl.map (DetState.map f) f) (MatrixLibs.detStep k s)
      (MatrixLibs.detStep k (s.map f)) := by
  unfold MatrixLibs.detStep
  have hret : ∀ x : T, Sim (Ctl.map (DetState.map (n := n) f) f) (pure (Ctl.ret x))
      (pure (Ctl.ret (f x))) := fun x => Sim.ok (g := Ctl.map (DetState.map (n := n) f) f) _
  show Sim _ (if n ≤ s.pivot then _ else _) (if n ≤ s.pivot then _ else _)
  split
  · exact Sim.bind (Sim.detProd H s.A s.factor) hret
  · refine Sim.bind (Sim.detSearch H s.A k (n * n + 1) k s.pivot) ?_
    intro x
    match x with
    | none => exact Sim.bind (Sim.detProd H s.A s.factor) hret
    | some (i, p) =>
      dsimp only [id]
      have hsw : Sim (fun x : Mat T n n × T => (x.1.map f, f x.2))
          (MatrixLibs.detSwap s.A s.factor i k)
          (MatrixLibs.detSwap (s.map f).A (s.map f).factor i k) := by
        unfold MatrixLibs.detSwap
        split
        · refine Sim.bind (Sim.swap_rows H s.A i k) (fun B => ?_)
          rw [← H.ofInt (-1)]
          refine Sim.bind (g := f) (fun b hb => H.mul _ _ b hb) (fun g => ?_)
          exact Sim.ok (g := fun x : Mat T n n × T => (x.1.map f, f x.2)) (B, g)
        · exact Sim.ok (g := fun x : Mat T n n × T => (x.1.map f, f x.2)) (s.A, s.factor)
      refine Sim.bind hsw ?_
      rintro ⟨B, g⟩
      dsimp only
      refine Sim.bind (Sim.detEliminate H B k p) (fun C => ?_)
      exact Sim.ok (g := Ctl.map (DetState.map (n := n) f) f)
        (Ctl.cont { A := C, factor := g, pivot := p + 1 })

theorem Sim.detN (A : Mat T n n) : Sim f (MatrixLibs.detN A) (MatrixLibs.detN (A.map f)) := by
  unfold MatrixLibs.detN
  unfold forRet
  have h0 : ({ A := A.map f, factor := ofInt 1, pivot := 0 } : DetState U n) =
      DetState.map f { A := A, factor := ofInt 1, pivot := 0 } := by
    unfold DetState.map; rw [H.ofInt]
  rw [h0]
  refine Sim.bind (Sim.loopRetN (Sim.detStep H) _ _ _) ?_
  intro x
  cases x with
  | ret v => exact Sim.ok v
  | cont s => exact Sim.detProd H s.A s.factor

end sim

/-- `SInt` does what `ExInt` does when the latter returns. -/
theorem exInt_sim (w : Nat) : ScalarSim (ExInt.toInt (w := w)) := by
  have hmap : ∀ {x : Res (SInt w)} {c : ExInt w}, x.map ExInt.mk = .ok c → x = .ok c.toInt := by
    intro x c h
    cases x with
    | error e => cases h
    | ok v => cases h; rfl
  refine ⟨fun a b c h => hmap h, fun a b c h => hmap h, fun a b c h => hmap h, ?_,
    fun _ => rfl, fun _ _ => rfl⟩
  intro a b c h
  simp only [CScalar.div] at h ⊢
  split at h
  · exact hmap h
  · cases h

end MatrixLibs
