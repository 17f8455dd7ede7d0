import Verif.Model.Stats
import Verif.Proof.Pow
import Verif.Proof.Movement
import Mathlib.Algebra.BigOperators.Fin
import Mathlib.Tactic.Ring
import Mathlib.Tactic.FinCases

/-!
# The same function in other units

Values of two element types correspond up to a factor with an exponent (a degree). Where both programs return, their results
correspond, with the exponent that dimensional analysis gives.
-/

namespace MatrixLibs

set_option linter.unusedSectionVars false

open CScalar (ofInt)

/-- If both return, their results correspond. -/
def Agree {α β : Type} (P : α → β → Prop) (x : Res α) (y : Res β) : Prop := ∀ a b, x = .ok a → y = .ok b → P a b

section
variable {α β γ δ σ σ' ρ ρ' : Type}

theorem agree_ok {P : α → β → Prop} {a : α} {b : β} (h : P a b) : Agree P (.ok a) (.ok b) := by
  rintro _ _ ⟨⟩ ⟨⟩; exact h

theorem agree_error {P : α → β → Prop} (e : Stop) (y : Res β) : Agree P (.error e) y := by
  rintro _ _ ⟨⟩

theorem agree_mono {P Q : α → β → Prop} {x : Res α} {y : Res β} (h : Agree P x y) (e : ∀ a b, P a b → Q a b) :
    Agree Q x y := fun a b ha hb => e a b (h a b ha hb)

theorem agree_bind {P : α → β → Prop} {Q : γ → δ → Prop} {x : Res α} {y : Res β} {f : α → Res γ} {g : β → Res δ}
    (h : Agree P x y) (hf : ∀ a b, P a b → Agree Q (f a) (g b)) : Agree Q (x >>= f) (y >>= g) := by
  cases x with
  | error e => exact agree_error e _
  | ok a =>
    cases y with
    | error e => intro _ _ _ hb; cases hb
    | ok b => exact hf a b (h a b rfl rfl)

theorem agree_with {P : α → β → Prop} {x : Res α} {y : Res β} (h : Agree P x y) :
    Agree (fun a b => P a b ∧ x = .ok a) x y := fun a b ha hb => ⟨h a b ha hb, ha⟩

theorem agree_ite {P : α → β → Prop} {p : Prop} [Decidable p] {x x' : Res α} {y y' : Res β} (h : p → Agree P x y)
    (h' : ¬ p → Agree P x' y') : Agree P (if p then x else x') (if p then y else y') := by
  split
  · next hp => exact h hp
  · next hp => exact h' hp

theorem agree_ite_bool {P : α → β → Prop} {b b' : Bool} {x x' : Res α} {y y' : Res β} (e : b = b') (h : Agree P x y)
    (h' : Agree P x' y') : Agree P (if b = true then x else x') (if b' = true then y else y') := by
  subst e
  exact agree_ite (fun _ => h) (fun _ => h')

theorem agree_loopN (I : Nat → σ → σ' → Prop) {body : Nat → σ → Res σ} {body' : Nat → σ' → Res σ'} :
    ∀ (cnt k : Nat) (s : σ) (s' : σ'), (∀ m s s', k ≤ m → m < k + cnt → I m s s' → Agree (I (m + 1)) (body m s) (body' m s')) →
      I k s s' → Agree (I (k + cnt)) (loopN body cnt k s) (loopN body' cnt k s')
  | 0, _, _, _, _, hs => agree_ok hs
  | cnt + 1, k, s, s', h, hs => by
    unfold loopN
    refine agree_bind (h k s s' le_rfl (by omega) hs) fun a b hab => ?_
    have := agree_loopN I (body := body) (body' := body') cnt (k + 1) a b
      (fun m s s' h1 h2 => h m s s' (by omega) (by omega)) hab
    rwa [show k + 1 + cnt = k + (cnt + 1) by omega] at this

theorem agree_forUp_at (I : Nat → σ → σ' → Prop) {lo hi : Nat} {s : σ} {s' : σ'} {body : Nat → σ → Res σ}
    {body' : Nat → σ' → Res σ'} (hlo : lo ≤ hi) (hs : I lo s s')
    (h : ∀ k s s', lo ≤ k → k < hi → I k s s' → Agree (I (k + 1)) (body k s) (body' k s')) :
    Agree (I hi) (forUp lo hi s body) (forUp lo hi s' body') := by
  have := agree_loopN I (body := body) (body' := body') (hi - lo) lo s s' (fun m s s' h1 h2 => h m s s' h1 (by omega)) hs
  rwa [show lo + (hi - lo) = hi by omega] at this

theorem agree_forUp {I : σ → σ' → Prop} {lo hi : Nat} {s : σ} {s' : σ'} {body : Nat → σ → Res σ}
    {body' : Nat → σ' → Res σ'} (hs : I s s')
    (h : ∀ k s s', lo ≤ k → k < hi → I s s' → Agree I (body k s) (body' k s')) :
    Agree I (forUp lo hi s body) (forUp lo hi s' body') :=
  agree_loopN (fun _ => I) _ _ _ _ (fun m s s' h1 h2 => h m s s' h1 (by omega)) hs

/-- Both fall through, or both return. -/
inductive CtlAgree (I : σ → σ' → Prop) (V : ρ → ρ' → Prop) : Ctl σ ρ → Ctl σ' ρ' → Prop
  | cont {s s'} : I s s' → CtlAgree I V (.cont s) (.cont s')
  | ret {v v'} : V v v' → CtlAgree I V (.ret v) (.ret v')

theorem agree_forRet {I : σ → σ' → Prop} {V : ρ → ρ' → Prop} {lo hi : Nat} {s : σ} {s' : σ'}
    {body : Nat → σ → Res (Ctl σ ρ)} {body' : Nat → σ' → Res (Ctl σ' ρ')} (hs : I s s')
    (h : ∀ k s s', lo ≤ k → k < hi → I s s' → Agree (CtlAgree I V) (body k s) (body' k s')) :
    Agree (CtlAgree I V) (forRet lo hi s body) (forRet lo hi s' body') := by
  have key : ∀ (cnt k : Nat) (s : σ) (s' : σ'),
      (∀ m s s', k ≤ m → m < k + cnt → I s s' → Agree (CtlAgree I V) (body m s) (body' m s')) → I s s' →
      Agree (CtlAgree I V) (loopRetN body cnt k s) (loopRetN body' cnt k s') := by
    intro cnt
    induction cnt with
    | zero => intro k s s' _ hs; exact agree_ok (.cont hs)
    | succ n ih =>
      intro k s s' h hs
      unfold loopRetN
      refine agree_bind (h k s s' le_rfl (by omega) hs) fun a b hab => ?_
      cases hab with
      | cont hs => exact ih (k + 1) _ _ (fun m s s' h1 h2 => h m s s' (by omega) (by omega)) hs
      | ret hv => exact agree_ok (.ret hv)
  exact key _ _ _ _ (fun m s s' h1 h2 => h m s s' h1 (by omega)) hs

theorem agree_pred {x : Res (Ctl Unit Bool)} {y : Res (Ctl Unit Bool)} (h : Agree (CtlAgree (fun _ _ => True) (· = ·)) x y) :
    Agree (· = ·) (x >>= fun | .ret b => .ok b | .cont _ => .ok true) (y >>= fun | .ret b => .ok b | .cont _ => .ok true) := by
  refine agree_bind h fun a b hab => ?_
  cases hab with
  | cont _ => exact agree_ok rfl
  | ret h => exact agree_ok h

end

/-- Values of `T` and `U` that correspond with an exponent, and operations that respect this. -/
structure Graded (T U : Type) [Inhabited T] [Inhabited U] [CScalar T] [CScalar U] where
  /-- The second is the first with the factor of this exponent. -/
  R : ℤ → T → U → Prop
  zero (d : ℤ) : R d (ofInt 0) (ofInt 0)
  init (d : ℤ) : R d default default
  one : R 0 (ofInt 1) (ofInt 1)
  minusOne : R 0 (ofInt (-1)) (ofInt (-1))
  two : R 0 (ofInt 2) (ofInt 2)
  add {d : ℤ} {a b : T} {a' b' : U} : R d a a' → R d b b' → Agree (R d) (CScalar.add a b) (CScalar.add a' b')
  sub {d : ℤ} {a b : T} {a' b' : U} : R d a a' → R d b b' → Agree (R d) (CScalar.sub a b) (CScalar.sub a' b')
  mul {d e : ℤ} {a b : T} {a' b' : U} : R d a a' → R e b b' → Agree (R (d + e)) (CScalar.mul a b) (CScalar.mul a' b')
  div {d e : ℤ} {a b : T} {a' b' : U} : R d a a' → R e b b' → Agree (R (d - e)) (CScalar.div a b) (CScalar.div a' b')
  neg {d : ℤ} {a : T} {a' : U} : R d a a' → Agree (R d) (CScalar.neg a) (CScalar.neg a')
  abs {d : ℤ} {a : T} {a' : U} : R d a a' → Agree (R d) (CScalar.abs a) (CScalar.abs a')
  sqrt {d : ℤ} {a : T} {a' : U} : R (d + d) a a' → Agree (R d) (CScalar.sqrt a) (CScalar.sqrt a')
  divSize {d : ℤ} {a : T} {a' : U} (n : Nat) : R d a a' → Agree (R d) (CScalar.divSize a n) (CScalar.divSize a' n)
  eq {d : ℤ} {a b : T} {a' b' : U} : R d a a' → R d b b' → CScalar.eq a b = CScalar.eq a' b'
  lt {d : ℤ} {a b : T} {a' b' : U} : R d a a' → R d b b' → CScalar.lt a b = CScalar.lt a' b'

namespace Graded

variable {T U : Type} [Inhabited T] [Inhabited U] [CScalar T] [CScalar U] (G : Graded T U) {r c n : Nat}

/-- Elements that correspond, with the exponent depending on the position. -/
def M {r c : Nat} (d : Nat → Nat → ℤ) (A : Mat T r c) (A' : Mat U r c) : Prop :=
  ∀ (i : Fin r) (j : Fin c), G.R (d i j) (A i j) (A' i j)

variable {G}

theorem cast {d e : ℤ} {a : T} {b : U} (h : G.R d a b) (w : d = e) : G.R e a b := w ▸ h

theorem mulTo {d e f : ℤ} {a b : T} {a' b' : U} (ha : G.R d a a') (hb : G.R e b b') (w : d + e = f) :
    Agree (G.R f) (CScalar.mul a b) (CScalar.mul a' b') := w ▸ G.mul ha hb

theorem divTo {d e f : ℤ} {a b : T} {a' b' : U} (ha : G.R d a a') (hb : G.R e b b') (w : d - e = f) :
    Agree (G.R f) (CScalar.div a b) (CScalar.div a' b') := w ▸ G.div ha hb

theorem rd {d : Nat → Nat → ℤ} {A : Mat T r c} {A' : Mat U r c} (h : G.M d A A') (i j : Nat) :
    Agree (G.R (d i j)) (rd A i j) (MatrixLibs.rd A' i j) := by
  unfold MatrixLibs.rd
  split
  · next hij => exact agree_ok (h ⟨i, hij.1⟩ ⟨j, hij.2⟩)
  · exact agree_error _ _

theorem wr {d : Nat → Nat → ℤ} {A : Mat T r c} {A' : Mat U r c} (h : G.M d A A') {i j : Nat} {a : T} {b : U}
    (hab : G.R (d i j) a b) : Agree (G.M d) (wr A i j a) (MatrixLibs.wr A' i j b) := by
  unfold MatrixLibs.wr
  split
  · refine agree_ok fun p q => ?_
    simp only [Matrix.of_apply]
    split
    · next hpq =>
      rw [hpq.1, hpq.2]
      exact hab
    · exact h p q
  · exact agree_error _ _

theorem initM (d : Nat → Nat → ℤ) : G.M d (valueInit r c) (valueInit r c) := fun i j => G.init (d i j)

theorem zeroM (d : Nat → Nat → ℤ) : G.M d (Mat.const (ofInt 0) : Mat T r c) (Mat.const (ofInt 0)) := fun i j => G.zero (d i j)

theorem castM {d e : Nat → Nat → ℤ} {A : Mat T r c} {A' : Mat U r c} (h : G.M d A A')
    (w : ∀ i j, i < r → j < c → d i j = e i j) : G.M e A A' := fun i j => cast (h i j) (w i j i.2 j.2)

/-! ## Elementwise functions -/

theorem fill {d : Nat → Nat → ℤ} {a : T} {b : U} (h : ∀ i j, G.R (d i j) a b) : Agree (G.M d) (fill r c a) (fill r c b) := by
  unfold MatrixLibs.fill
  exact agree_forUp (initM d) fun i _ _ _ _ hA => agree_forUp hA fun j _ _ _ _ hA => wr hA (h i j)

theorem zeros (d : Nat → Nat → ℤ) : Agree (G.M d) (zeros (T := T) r c) (zeros (T := U) r c) :=
  fill fun i j => G.zero (d i j)

theorem ones : Agree (G.M fun _ _ => 0) (ones (T := T) r c) (ones (T := U) r c) := by
  unfold MatrixLibs.ones
  exact agree_ite (fun _ => fill fun _ _ => G.one) fun _ => agree_error _ _

theorem eye1 {d : Nat → Nat → ℤ} (h : ∀ i, d i i = 0) : Agree (G.M d) (eye1 (T := T) n) (eye1 (T := U) n) := by
  unfold MatrixLibs.eye1 eye
  refine agree_bind (fill fun i j => G.zero (d i j)) fun A A' hA => ?_
  exact agree_forUp hA fun i _ _ _ _ hA => wr hA (cast G.one (h i).symm)

theorem trans {d : Nat → Nat → ℤ} {A : Mat T r c} {A' : Mat U r c} (hA : G.M d A A') :
    Agree (G.M fun i j => d j i) (trans A) (trans A') := by
  unfold MatrixLibs.trans
  exact agree_forUp (initM _) fun i _ _ _ _ hB => agree_forUp hB fun j _ _ _ _ hB =>
    agree_bind (rd hA _ _) fun _ _ h => wr hB h

theorem sum {d : Nat → Nat → ℤ} {A B : Mat T r c} {A' B' : Mat U r c} (hA : G.M d A A') (hB : G.M d B B') :
    Agree (G.M d) (sum A B) (sum A' B') := by
  unfold MatrixLibs.sum
  exact agree_forUp (initM _) fun i _ _ _ _ hS => agree_forUp hS fun j _ _ _ _ hS =>
    agree_bind (rd hA _ _) fun _ _ h => agree_bind (rd hB _ _) fun _ _ h' => agree_bind (G.add h h') fun _ _ h => wr hS h

theorem sub' {d : Nat → Nat → ℤ} {A B : Mat T r c} {A' B' : Mat U r c} (hA : G.M d A A') (hB : G.M d B B') :
    Agree (G.M d) (MatrixLibs.sub A B) (MatrixLibs.sub A' B') := by
  unfold MatrixLibs.sub
  exact agree_forUp (initM _) fun i _ _ _ _ hS => agree_forUp hS fun j _ _ _ _ hS =>
    agree_bind (rd hA _ _) fun _ _ h => agree_bind (rd hB _ _) fun _ _ h' => agree_bind (G.sub h h') fun _ _ h => wr hS h

theorem multScalar {d : Nat → Nat → ℤ} {e : ℤ} {A : Mat T r c} {A' : Mat U r c} {s : T} {s' : U} (hA : G.M d A A')
    (hs : G.R e s s') : Agree (G.M fun i j => d i j + e) (multScalar A s) (multScalar A' s') := by
  unfold MatrixLibs.multScalar
  exact agree_forUp (initM _) fun i _ _ _ _ hS => agree_forUp hS fun j _ _ _ _ hS =>
    agree_bind (rd hA _ _) fun _ _ h => agree_bind (G.mul h hs) fun _ _ h => wr hS h

theorem div' (handled : Option Exc) {d : Nat → Nat → ℤ} {e : ℤ} {A : Mat T r c} {A' : Mat U r c} {s : T} {s' : U}
    (hA : G.M d A A') (hs : G.R e s s') :
    Agree (G.M fun i j => d i j - e) (MatrixLibs.div handled A s) (MatrixLibs.div handled A' s') := by
  unfold MatrixLibs.div
  refine agree_ite_bool (G.eq hs (G.zero e)) ?_ ?_
  · unfold bareThrow
    cases handled <;> exact agree_error _ _
  · exact agree_forUp (initM _) fun i _ _ _ _ hS => agree_forUp hS fun j _ _ _ _ hS =>
      agree_bind (rd hA _ _) fun _ _ h => agree_bind (G.div h hs) fun _ _ h => wr hS h

/-! ## Products -/

theorem mult {m p : Nat} {d e f : Nat → Nat → ℤ} {A : Mat T n m} {A' : Mat U n m} {B : Mat T m p} {B' : Mat U m p}
    (hA : G.M d A A') (hB : G.M e B B') (w : ∀ i k j, i < n → k < m → j < p → d i k + e k j = f i j) :
    Agree (G.M f) (mult A B) (mult A' B') := by
  unfold MatrixLibs.mult
  refine agree_bind (zeros (G := G) f) fun _ _ hP => ?_
  exact agree_forUp hP fun i _ _ _ hi hP => agree_forUp hP fun j _ _ _ hj hP => agree_forUp hP fun k _ _ _ hk hP =>
    agree_bind (rd hA _ _) fun _ _ ha => agree_bind (rd hB _ _) fun _ _ hb =>
    agree_bind (mulTo ha hb (w i k j hi hk hj)) fun _ _ ht => agree_bind (rd hP _ _) fun _ _ hp =>
    agree_bind (G.add hp ht) fun _ _ h => wr hP h

theorem strassen {a b : ℤ} {A B : Mat T 2 2} {A' B' : Mat U 2 2} (hA : G.M (fun _ _ => a) A A')
    (hB : G.M (fun _ _ => b) B B') : Agree (G.M fun _ _ => a + b) (strassen A B) (strassen A' B') := by
  unfold MatrixLibs.strassen
  refine agree_bind (rd hA _ _) fun _ _ a00 => ?_
  refine agree_bind (rd hA _ _) fun _ _ a01 => ?_
  refine agree_bind (rd hA _ _) fun _ _ a10 => ?_
  refine agree_bind (rd hA _ _) fun _ _ a11 => ?_
  refine agree_bind (rd hB _ _) fun _ _ b00 => ?_
  refine agree_bind (rd hB _ _) fun _ _ b01 => ?_
  refine agree_bind (rd hB _ _) fun _ _ b10 => ?_
  refine agree_bind (rd hB _ _) fun _ _ b11 => ?_
  refine agree_bind (G.sub b01 b11) fun _ _ t => ?_
  refine agree_bind (G.mul a00 t) fun _ _ M1 => ?_
  refine agree_bind (G.add a00 a01) fun _ _ t => ?_
  refine agree_bind (G.mul t b11) fun _ _ M2 => ?_
  refine agree_bind (G.add a10 a11) fun _ _ t => ?_
  refine agree_bind (G.mul t b00) fun _ _ M3 => ?_
  refine agree_bind (G.sub b10 b00) fun _ _ t => ?_
  refine agree_bind (G.mul a11 t) fun _ _ M4 => ?_
  refine agree_bind (G.add a00 a11) fun _ _ t => ?_
  refine agree_bind (G.add b00 b11) fun _ _ t' => ?_
  refine agree_bind (G.mul t t') fun _ _ M5 => ?_
  refine agree_bind (G.sub a01 a11) fun _ _ t => ?_
  refine agree_bind (G.add b10 b11) fun _ _ t' => ?_
  refine agree_bind (G.mul t t') fun _ _ M6 => ?_
  refine agree_bind (G.sub a00 a10) fun _ _ t => ?_
  refine agree_bind (G.add b00 b01) fun _ _ t' => ?_
  refine agree_bind (G.mul t t') fun _ _ M7 => ?_
  refine agree_bind (G.add M5 M4) fun _ _ t => ?_
  refine agree_bind (G.sub t M2) fun _ _ t => ?_
  refine agree_bind (G.add t M6) fun _ _ t => ?_
  refine agree_bind (wr (d := fun _ _ => a + b) (initM _) t) fun _ _ P => ?_
  refine agree_bind (G.add M1 M2) fun _ _ t => ?_
  refine agree_bind (wr P t) fun _ _ P => ?_
  refine agree_bind (G.add M3 M4) fun _ _ t => ?_
  refine agree_bind (wr P t) fun _ _ P => ?_
  refine agree_bind (G.add M1 M5) fun _ _ t => ?_
  refine agree_bind (G.add M3 M7) fun _ _ t' => ?_
  exact agree_bind (G.sub t t') fun _ _ t => wr P t

/-! ## Convolution -/

theorem convTerm {a k : ℤ} {A : Mat T r c} {A' : Mat U r c} {K : Mat T 3 3} {K' : Mat U 3 3} (hA : G.M (fun _ _ => a) A A')
    (hK : G.M (fun _ _ => k) K K') (u v x y : Nat) :
    Agree (G.R (k + a)) (convTerm A K u v x y) (convTerm A' K' u v x y) := by
  unfold MatrixLibs.convTerm
  exact agree_ite (fun _ => agree_ok (G.zero _)) fun _ => agree_bind (rd hK _ _) fun _ _ hk =>
    agree_bind (rd hA _ _) fun _ _ ha => G.mul hk ha

theorem addTo {d : Nat → Nat → ℤ} {A : Mat T r c} {A' : Mat U r c} {x : T} {x' : U} (hA : G.M d A A') {i j : Nat}
    (hx : G.R (d i j) x x') : Agree (G.M d) (addTo A i j x) (addTo A' i j x') := by
  unfold MatrixLibs.addTo
  exact agree_bind (rd hA _ _) fun _ _ h => agree_bind (G.add h hx) fun _ _ h => wr hA h

theorem conv2 {a k : ℤ} {A : Mat T r c} {A' : Mat U r c} {K : Mat T 3 3} {K' : Mat U 3 3} (hA : G.M (fun _ _ => a) A A')
    (hK : G.M (fun _ _ => k) K K') : Agree (G.M fun _ _ => k + a) (conv2 A K) (conv2 A' K') := by
  unfold MatrixLibs.conv2
  refine agree_forUp (initM _) fun i _ _ _ _ h => agree_forUp h fun j _ _ _ _ h => ?_
  refine agree_bind (wr h (G.zero _)) fun _ _ h => ?_
  iterate 8 refine agree_bind (convTerm hA hK _ _ _ _) fun _ _ t => agree_bind (addTo h t) fun _ _ h => ?_
  exact agree_bind (convTerm hA hK _ _ _ _) fun _ _ t => addTo h t

theorem conv2_full {a k : ℤ} {A : Mat T r c} {A' : Mat U r c} {K : Mat T 3 3} {K' : Mat U 3 3}
    (hA : G.M (fun _ _ => a) A A') (hK : G.M (fun _ _ => k) K K') :
    Agree (G.M fun _ _ => k + a) (conv2_full A K) (conv2_full A' K') := by
  unfold MatrixLibs.conv2_full
  refine agree_forUp (initM _) fun i _ _ _ _ h => agree_forUp h fun j _ _ _ _ h => ?_
  refine agree_bind (wr h (G.zero _)) fun _ _ h => ?_
  iterate 8 refine agree_bind (convTerm hA hK _ _ _ _) fun _ _ t => agree_bind (addTo h t) fun _ _ h => ?_
  exact agree_bind (convTerm hA hK _ _ _ _) fun _ _ t => addTo h t

/-! ## Statistics and comparisons -/

theorem mean {d : ℤ} {A : Mat T r c} {A' : Mat U r c} (hA : G.M (fun _ _ => d) A A') : Agree (G.R d) (mean A) (mean A') := by
  unfold MatrixLibs.mean
  refine agree_bind (agree_forUp (I := G.R d) (G.zero d) fun i _ _ _ _ h => agree_forUp h fun j _ _ _ _ h => ?_)
    fun _ _ h => G.divSize _ h
  exact agree_bind (rd hA _ _) fun _ _ h' => G.add h h'

theorem var {d : ℤ} {A : Mat T r c} {A' : Mat U r c} (hA : G.M (fun _ _ => d) A A') :
    Agree (G.R (d + d)) (var A) (var A') := by
  unfold MatrixLibs.var
  refine agree_bind (mean hA) fun _ _ hm => ?_
  refine agree_bind (agree_forUp (I := G.R (d + d)) (G.zero _) fun i _ _ _ _ h => agree_forUp h fun j _ _ _ _ h => ?_)
    fun _ _ h => G.divSize _ h
  exact agree_bind (rd hA _ _) fun _ _ x => agree_bind (G.sub x hm) fun _ _ y => agree_bind (rd hA _ _) fun _ _ x =>
    agree_bind (G.sub x hm) fun _ _ y' => agree_bind (G.mul y y') fun _ _ z => G.add h z

theorem stddev {d : ℤ} {A : Mat T r c} {A' : Mat U r c} (hA : G.M (fun _ _ => d) A A') :
    Agree (G.R d) (stddev A) (stddev A') := by
  unfold MatrixLibs.stddev
  exact agree_bind (var hA) fun _ _ h => G.sqrt h

theorem compare {d : ℤ} {A B : Mat T r c} {A' B' : Mat U r c} {e : T} {e' : U} (hA : G.M (fun _ _ => d) A A')
    (hB : G.M (fun _ _ => d) B B') (he : G.R d e e') : Agree (· = ·) (compare A B e) (MatrixLibs.compare A' B' e') := by
  unfold MatrixLibs.compare compareLoop
  refine agree_pred (agree_forRet trivial fun i _ _ _ _ _ => agree_forRet trivial fun j _ _ _ _ _ => ?_)
  refine agree_bind (rd hA _ _) fun _ _ x => agree_bind (rd hB _ _) fun _ _ y => agree_bind (G.sub x y) fun _ _ z =>
    agree_bind (G.abs z) fun _ _ z => ?_
  exact agree_ite_bool (G.lt he z) (agree_ok (.ret rfl)) (agree_ok (.cont trivial))

theorem isSymetric {h : Nat → ℤ} {A : Mat T n n} {A' : Mat U n n} (hA : G.M (fun i j => h i + h j) A A') :
    Agree (· = ·) (isSymetric A) (isSymetric A') := by
  unfold MatrixLibs.isSymetric
  refine agree_pred (agree_forRet trivial fun i _ _ _ _ _ => agree_forRet trivial fun j _ _ _ _ _ => ?_)
  refine agree_bind (rd hA _ _) fun _ _ x => agree_bind (rd hA _ _) fun _ _ y => ?_
  exact agree_ite_bool (by rw [G.eq x (cast y (add_comm _ _))]) (agree_ok (.ret rfl)) (agree_ok (.cont trivial))

/-! ## Factorisations -/

theorem luSum {r c : Nat → ℤ} {L V : Mat T n n} {L' V' : Mat U n n} (hL : G.M (fun i j => r i - r j) L L')
    (hU : G.M (fun i j => r i + c j) V V') (i j : Nat) : Agree (G.R (r i + c j)) (luSum L V i j) (luSum L' V' i j) := by
  unfold MatrixLibs.luSum
  exact agree_forUp (G.zero _) fun p _ _ _ _ h => agree_bind (rd hU _ _) fun _ _ x => agree_bind (rd hL _ _) fun _ _ y =>
    agree_bind (mulTo x y (by ring)) fun _ _ z => G.add h z

theorem lu {r c : Nat → ℤ} {A : Mat T n n} {A' : Mat U n n} (hA : G.M (fun i j => r i + c j) A A') :
    Agree (fun p q => G.M (fun i j => r i - r j) p.1 q.1 ∧ G.M (fun i j => r i + c j) p.2 q.2) (lu A) (lu A') := by
  unfold MatrixLibs.lu
  refine agree_bind (eye1 (d := fun i j => r i - r j) (G := G) fun i => sub_self _) fun L L' hL => ?_
  refine agree_bind (zeros (G := G) fun i j => r i + c j) fun V V' hV => ?_
  refine agree_forUp (I := fun (p : Mat T n n × Mat T n n) (q : Mat U n n × Mat U n n) =>
    G.M (fun i j => r i - r j) p.1 q.1 ∧ G.M (fun i j => r i + c j) p.2 q.2) ⟨hL, hV⟩ ?_
  rintro j ⟨L, V⟩ ⟨L', V'⟩ - - ⟨hL, hV⟩
  refine agree_bind (P := G.M fun i j => r i + c j) ?_ fun V V' hV => agree_bind (P := G.M fun i j => r i - r j) ?_
    fun L L' hL => agree_ok ⟨hL, hV⟩
  · unfold luUpper
    exact agree_forUp hV fun i _ _ _ _ hV => agree_bind (luSum hL hV _ _) fun _ _ s => agree_bind (rd hA _ _) fun _ _ a =>
      agree_bind (G.sub a s) fun _ _ x => wr hV x
  · unfold luLower
    refine agree_forUp hL fun i _ _ _ _ hL => agree_bind (luSum hL hV _ _) fun _ _ s => agree_bind (rd hV _ _) fun _ _ u => ?_
    exact agree_ite_bool (G.eq u (G.zero _)) (agree_error _ _) (agree_bind (rd hA _ _) fun _ _ a =>
      agree_bind (G.sub a s) fun _ _ x => agree_bind (divTo x u (by ring)) fun _ _ x => wr hL x)

theorem cholSum {h : Nat → ℤ} {L : Mat T n n} {L' : Mat U n n} (hL : G.M (fun i _ => h i) L L') (i j : Nat) :
    Agree (G.R (h i + h j)) (cholSum L i j) (cholSum L' i j) := by
  unfold MatrixLibs.cholSum
  exact agree_forUp (G.zero _) fun p _ _ _ _ s => agree_bind (rd hL _ _) fun _ _ x => agree_bind (rd hL _ _) fun _ _ y =>
    agree_bind (G.mul x y) fun _ _ z => G.add s z

theorem chol {h : Nat → ℤ} {A : Mat T n n} {A' : Mat U n n} (hA : G.M (fun i j => h i + h j) A A') :
    Agree (G.M fun i _ => h i) (chol A) (chol A') := by
  unfold MatrixLibs.chol
  refine agree_forUp (zeroM _) fun i _ _ _ _ hL => agree_forUp hL fun j _ _ _ _ hL => ?_
  unfold cholStep
  refine agree_ite (fun _ => ?_) fun _ => ?_
  · exact agree_bind (cholSum hL _ _) fun _ _ s => agree_bind (rd hA _ _) fun _ _ a => agree_bind (G.sub a s) fun _ _ x =>
      agree_bind (G.sqrt x) fun _ _ x => wr hL x
  · exact agree_bind (cholSum hL _ _) fun _ _ s => agree_bind (rd hA _ _) fun _ _ a => agree_bind (G.sub a s) fun _ _ x =>
      agree_bind (rd hL _ _) fun _ _ y => agree_bind (divTo x y (by ring)) fun _ _ x => wr hL x

/-! ## Determinant -/

open Finset (range)

theorem det2 {r c : Nat → ℤ} {A : Mat T 2 2} {A' : Mat U 2 2} (hA : G.M (fun i j => r i + c j) A A') :
    Agree (G.R (r 0 + r 1 + (c 0 + c 1))) (det2 A) (det2 A') := by
  generalize hS : r 0 + r 1 + (c 0 + c 1) = S
  unfold MatrixLibs.det2
  refine agree_bind (rd hA _ _) fun _ _ a => ?_
  refine agree_bind (rd hA _ _) fun _ _ b => ?_
  refine agree_bind (rd hA _ _) fun _ _ c => ?_
  refine agree_bind (rd hA _ _) fun _ _ d => ?_
  refine agree_bind (mulTo (f := S) a d (by rw [← hS]; ring)) fun _ _ x => ?_
  refine agree_bind (mulTo (f := S) b c (by rw [← hS]; ring)) fun _ _ y => ?_
  exact G.sub x y

theorem det3 {r c : Nat → ℤ} {A : Mat T 3 3} {A' : Mat U 3 3} (hA : G.M (fun i j => r i + c j) A A') :
    Agree (G.R (r 0 + r 1 + r 2 + (c 0 + c 1 + c 2))) (det3 A) (det3 A') := by
  generalize hS : r 0 + r 1 + r 2 + (c 0 + c 1 + c 2) = S
  unfold MatrixLibs.det3
  refine agree_bind (rd hA _ _) fun _ _ a => ?_
  refine agree_bind (rd hA _ _) fun _ _ b => ?_
  refine agree_bind (rd hA _ _) fun _ _ c => ?_
  refine agree_bind (rd hA _ _) fun _ _ d => ?_
  refine agree_bind (rd hA _ _) fun _ _ e => ?_
  refine agree_bind (rd hA _ _) fun _ _ f => ?_
  refine agree_bind (rd hA _ _) fun _ _ g => ?_
  refine agree_bind (rd hA _ _) fun _ _ h => ?_
  refine agree_bind (rd hA _ _) fun _ _ i => ?_
  refine agree_bind (G.mul a e) fun _ _ x => agree_bind (mulTo (f := S) x i (by rw [← hS]; ring)) fun _ _ t => ?_
  refine agree_bind (G.mul b f) fun _ _ x => agree_bind (mulTo (f := S) x g (by rw [← hS]; ring)) fun _ _ x => ?_
  refine agree_bind (G.add t x) fun _ _ t => ?_
  refine agree_bind (G.mul c d) fun _ _ x => agree_bind (mulTo (f := S) x h (by rw [← hS]; ring)) fun _ _ x => ?_
  refine agree_bind (G.add t x) fun _ _ t => ?_
  refine agree_bind (G.mul c e) fun _ _ x => agree_bind (mulTo (f := S) x g (by rw [← hS]; ring)) fun _ _ x => ?_
  refine agree_bind (G.sub t x) fun _ _ t => ?_
  refine agree_bind (G.mul b d) fun _ _ x => agree_bind (mulTo (f := S) x i (by rw [← hS]; ring)) fun _ _ x => ?_
  refine agree_bind (G.sub t x) fun _ _ t => ?_
  refine agree_bind (G.mul a f) fun _ _ x => agree_bind (mulTo (f := S) x h (by rw [← hS]; ring)) fun _ _ x => ?_
  exact G.sub t x

theorem detProd {r c : Nat → ℤ} {A : Mat T n n} {A' : Mat U n n} {f : T} {f' : U} (hA : G.M (fun i j => r i + c j) A A')
    (hf : G.R 0 f f') : Agree (G.R (∑ i ∈ range n, r i + ∑ i ∈ range n, c i)) (detProd A f) (detProd A' f') := by
  unfold MatrixLibs.detProd
  refine agree_bind (agree_forUp_at (fun k => G.R (∑ i ∈ range k, r i + ∑ i ∈ range k, c i)) (Nat.zero_le n)
    (cast G.one (by simp)) fun k _ _ _ _ h => agree_bind (rd hA _ _) fun _ _ x => mulTo h x ?_) fun _ _ h =>
      divTo h hf (by ring)
  rw [Finset.sum_range_succ, Finset.sum_range_succ]
  ring

theorem detSearch {r c : Nat → ℤ} {A : Mat T n n} {A' : Mat U n n} (hA : G.M (fun i j => r i + c j) A A') (k : Nat) :
    ∀ fuel i pivot, Agree (· = ·) (detSearch A k fuel i pivot) (detSearch A' k fuel i pivot)
  | 0, _, _ => agree_error _ _
  | fuel + 1, i, pivot => by
    unfold MatrixLibs.detSearch
    refine agree_bind (rd hA _ _) fun _ _ x => agree_ite_bool (G.eq x (G.zero _)) ?_ (agree_ok rfl)
    exact agree_ite (fun _ => agree_ite (fun _ => agree_ok rfl) fun _ => detSearch hA k fuel _ _) fun _ => detSearch hA k fuel _ _

theorem detEliminate {r c : Nat → ℤ} {A : Mat T n n} {A' : Mat U n n} (hA : G.M (fun i j => r i + c j) A A') (k pivot : Nat) :
    Agree (G.M fun i j => r i + c j) (detEliminate A k pivot) (detEliminate A' k pivot) := by
  unfold MatrixLibs.detEliminate
  refine agree_forUp hA fun i _ _ _ _ hA => agree_ite (fun _ => ?_) fun _ => agree_ok hA
  refine agree_bind (rd hA _ _) fun _ _ v => agree_forUp hA fun j _ _ _ _ hA => ?_
  exact agree_bind (rd hA _ _) fun _ _ x => agree_bind (G.mul v x) fun _ _ x => agree_bind (rd hA _ _) fun _ _ y =>
    agree_bind (divTo x y (by ring)) fun _ _ q => agree_bind (rd hA _ _) fun _ _ z => agree_bind (G.sub z q) fun _ _ z => wr hA z

/-- The rows may have been exchanged; the sum of their degrees has not changed. -/
def Rows {n : Nat} (G : Graded T U) (S : ℤ) (c : Nat → ℤ) (A : Mat T n n) (A' : Mat U n n) : Prop :=
  ∃ r : Nat → ℤ, ∑ i ∈ range n, r i = S ∧ G.M (fun i j => r i + c j) A A'

theorem swap_rows {r c : Nat → ℤ} {A : Mat T n n} {A' : Mat U n n} (hA : G.M (fun i j => r i + c j) A A') (a b : Nat)
    (ha : a < n) (hb : b < n) : Agree (Rows G (∑ i ∈ range n, r i) c) (swap_rows A a b) (swap_rows A' a b) := by
  have e := swap_rows_ok A ⟨a, ha⟩ ⟨b, hb⟩
  have e' := swap_rows_ok A' ⟨a, ha⟩ ⟨b, hb⟩
  simp only at e e'
  rw [e, e']
  refine agree_ok ⟨fun i => if h : i < n then r (Equiv.swap (⟨a, ha⟩ : Fin n) ⟨b, hb⟩ ⟨i, h⟩) else 0, ?_, ?_⟩
  · rw [Finset.sum_range, Finset.sum_range]
    simp only [Fin.is_lt, dite_true, Fin.eta]
    exact Equiv.sum_comp (Equiv.swap (⟨a, ha⟩ : Fin n) ⟨b, hb⟩) fun i => r i
  · intro i j
    simp only [Fin.is_lt, dite_true, Fin.eta, Matrix.of_apply]
    exact hA _ _

/-- What the state of the elimination has. -/
def DetRel {n : Nat} (G : Graded T U) (S : ℤ) (c : Nat → ℤ) (s : DetState T n) (s' : DetState U n) : Prop :=
  Rows G S c s.A s'.A ∧ G.R 0 s.factor s'.factor ∧ s.pivot = s'.pivot

theorem detSearch_lt {A : Mat T n n} {k : Nat} : ∀ {fuel i pivot i' pivot' : Nat},
    MatrixLibs.detSearch A k fuel i pivot = .ok (some (i', pivot')) → i' < n
  | 0, _, _, _, _, h => by cases h
  | fuel + 1, i, pivot, i', pivot', h => by
    unfold MatrixLibs.detSearch at h
    by_cases hb : i < n ∧ pivot < n
    · have e : MatrixLibs.rd A i pivot = .ok (A ⟨i, hb.1⟩ ⟨pivot, hb.2⟩) := by unfold MatrixLibs.rd; rw [dif_pos hb]
      rw [e] at h
      simp only [bind, Except.bind] at h
      split at h
      · split at h
        · split at h
          · cases h
          · exact detSearch_lt h
        · exact detSearch_lt h
      · cases h
        exact hb.1
    · have e : MatrixLibs.rd A i pivot = .error (.ub .outOfBounds) := by unfold MatrixLibs.rd; rw [dif_neg hb]
      rw [e] at h
      cases h

theorem detSwap {S : ℤ} {c : Nat → ℤ} {A : Mat T n n} {A' : Mat U n n} {f : T} {f' : U} (hA : Rows G S c A A')
    (hf : G.R 0 f f') {a b : Nat} (ha : a < n) (hb : b < n) :
    Agree (fun p q => Rows G S c p.1 q.1 ∧ G.R 0 p.2 q.2) (detSwap A f a b) (detSwap A' f' a b) := by
  unfold MatrixLibs.detSwap
  refine agree_ite (fun _ => ?_) fun _ => agree_ok ⟨hA, hf⟩
  obtain ⟨r, rfl, hA⟩ := hA
  exact agree_bind (swap_rows hA a b ha hb) fun _ _ hA => agree_bind (mulTo hf G.minusOne (by ring)) fun _ _ hf =>
    agree_ok ⟨hA, hf⟩

theorem detStep {S : ℤ} {c : Nat → ℤ} {s : DetState T n} {s' : DetState U n} (hs : DetRel G S c s s') {k : Nat} (hk : k < n) :
    Agree (CtlAgree (DetRel G S c) (G.R (S + ∑ i ∈ range n, c i))) (detStep k s) (detStep k s') := by
  obtain ⟨A, f, pivot⟩ := s
  obtain ⟨A', f', pivot'⟩ := s'
  obtain ⟨hA, hf, rfl⟩ := hs
  simp only at hA hf
  have prod : ∀ {A : Mat T n n} {A' : Mat U n n} {f : T} {f' : U}, Rows G S c A A' → G.R 0 f f' →
      Agree (CtlAgree (DetRel (n := n) G S c) (G.R (S + ∑ i ∈ range n, c i)))
        (MatrixLibs.detProd A f >>= fun v => pure (.ret v)) (MatrixLibs.detProd A' f' >>= fun v => pure (.ret v)) := by
    rintro A A' f f' ⟨r, e, hB⟩ hf
    rw [← e]
    exact agree_bind (detProd hB hf) fun _ _ h => agree_ok (.ret h)
  unfold MatrixLibs.detStep
  refine agree_ite (fun _ => prod hA hf) fun _ => ?_
  obtain ⟨r, e, hA'⟩ := id hA
  refine agree_bind (agree_with (detSearch hA' k _ _ _)) ?_
  rintro o _ ⟨rfl, x⟩
  cases o with
  | none => exact prod hA hf
  | some p =>
    obtain ⟨i, pivot'⟩ := p
    refine agree_bind (detSwap hA hf (detSearch_lt x) hk) ?_
    rintro ⟨B, g⟩ ⟨B', g'⟩ ⟨⟨r, e, hB⟩, hg⟩
    exact agree_bind (detEliminate hB k _) fun _ _ hB => agree_ok (.cont ⟨⟨r, e, hB⟩, hg, rfl⟩)

theorem detN {r c : Nat → ℤ} {A : Mat T n n} {A' : Mat U n n} (hA : G.M (fun i j => r i + c j) A A') :
    Agree (G.R (∑ i ∈ range n, r i + ∑ i ∈ range n, c i)) (detN A) (detN A') := by
  unfold MatrixLibs.detN
  refine agree_bind (agree_forRet (I := DetRel G (∑ i ∈ range n, r i) c) ⟨⟨r, rfl, hA⟩, G.one, rfl⟩
    fun k _ _ _ hk hs => detStep hs hk) fun _ _ h => ?_
  cases h with
  | ret h => exact agree_ok h
  | cont h =>
    obtain ⟨⟨r', e, hA⟩, hf, -⟩ := h
    rw [← e]
    exact detProd hA hf

theorem det {r c : Nat → ℤ} {A : Mat T n n} {A' : Mat U n n} (hA : G.M (fun i j => r i + c j) A A') :
    Agree (G.R (∑ i ∈ range n, r i + ∑ i ∈ range n, c i)) (det A) (det A') := by
  match n, A, A', hA with
  | 0, A, A', hA => exact detN hA
  | 1, A, A', hA =>
    simp only [Finset.sum_range_one]
    exact rd hA 0 0
  | 2, A, A', hA => simpa [Finset.sum_range_succ, MatrixLibs.det] using det2 hA
  | 3, A, A', hA => simpa [Finset.sum_range_succ, MatrixLibs.det] using det3 hA
  | n + 4, A, A', hA => exact detN hA

/-! ## Inverse -/

/-- The index in the matrix of a row of the minor without row `i`. -/
def skip (i a : Nat) : Nat := if a < i then a else a + 1

theorem sum_skip (f : Nat → ℤ) {m i : Nat} (hi : i < m + 1) :
    ∑ a ∈ range m, f (skip i a) = ∑ a ∈ range (m + 1), f a - f i := by
  rw [Finset.sum_range, Finset.sum_range, Fin.sum_univ_succAbove _ ⟨i, hi⟩]
  simp only [succAbove_val]
  unfold skip
  ring

theorem getminor {m : Nat} {d : Nat → Nat → ℤ} {A : Mat T (m + 1) (m + 1)} {A' : Mat U (m + 1) (m + 1)} (hA : G.M d A A')
    {i j : Nat} (hi : i < m + 1) (hj : j < m + 1) :
    Agree (G.M fun a b => d (skip i a) (skip j b)) (getminor A i j) (getminor A' i j) := by
  have e := getminor_ok A ⟨i, hi⟩ ⟨j, hj⟩
  have e' := getminor_ok A' ⟨i, hi⟩ ⟨j, hj⟩
  simp only at e e'
  rw [e, e']
  refine agree_ok fun a b => ?_
  have := hA ((⟨i, hi⟩ : Fin (m + 1)).succAbove a) ((⟨j, hj⟩ : Fin (m + 1)).succAbove b)
  rw [succAbove_val, succAbove_val] at this
  exact this

theorem conv2_valid {a k : ℤ} {m : Nat} {A : Mat T (m + 2) (m + 2)} {A' : Mat U (m + 2) (m + 2)} {K : Mat T 3 3}
    {K' : Mat U 3 3} (hA : G.M (fun _ _ => a) A A') (hK : G.M (fun _ _ => k) K K') :
    Agree (G.M fun _ _ => k + a) (conv2_valid A K) (conv2_valid A' K') := by
  unfold MatrixLibs.conv2_valid
  exact agree_bind (conv2 hA hK) fun _ _ h => agree_bind (getminor h (by omega) (by omega)) fun _ _ h =>
    getminor (m := m) h (by omega) (by omega)

theorem invN (handled : Option Exc) {m : Nat} {r c : Nat → ℤ} {A : Mat T (m + 1) (m + 1)} {A' : Mat U (m + 1) (m + 1)}
    (hA : G.M (fun i j => r i + c j) A A') : Agree (G.M fun i j => -(r j + c i)) (invN handled A) (invN handled A') := by
  unfold MatrixLibs.invN
  refine agree_bind (det hA) fun _ _ hd => ?_
  refine agree_bind (agree_forUp (I := G.M fun i j => ∑ a ∈ range (m + 1), r a + ∑ a ∈ range (m + 1), c a - (r i + c j))
    (initM _) fun i _ _ _ hi h => agree_forUp h fun j _ _ _ hj h => ?_) fun _ _ h => ?_
  · refine agree_bind (getminor hA hi hj) fun _ _ hm => agree_bind (det (r := fun a => r (skip i a)) (c := fun a => c (skip j a)) hm)
      fun _ _ x => agree_bind (mulTo (d := 0) (f := ∑ a ∈ range (m + 1), r a + ∑ a ∈ range (m + 1), c a - (r i + c j)) ?_ x ?_)
        fun _ _ x => wr h x
    · split
      · exact G.minusOne
      · exact G.one
    · rw [Nat.add_sub_cancel, sum_skip r hi, sum_skip c hj]
      ring
  · refine agree_bind (trans h) fun _ _ h => agree_mono (div' handled h hd) fun _ _ h => castM h fun i j _ _ => ?_
    ring

theorem cross {u v x y w : ℤ} {p q a b : T} {p' q' a' b' : U} (hp : G.R u p p') (hq : G.R v q q') (ha : G.R x a a')
    (hb : G.R y b b') (e : u + v = w) (e' : x + y = w) : Agree (G.R w) (cross p q a b) (cross p' q' a' b') := by
  unfold MatrixLibs.cross
  exact agree_bind (mulTo hp hq e) fun _ _ h => agree_bind (mulTo ha hb e') fun _ _ h' => G.sub h h'

theorem inv (handled : Option Exc) {r k : Nat → ℤ} {A : Mat T n n} {A' : Mat U n n} (hA : G.M (fun i j => r i + k j) A A') :
    Agree (G.M fun i j => -(r j + k i)) (inv handled A) (inv handled A') := by
  match n, A, A', hA with
  | 0, A, A', hA => exact agree_error _ _
  | 1, A, A', hA =>
    refine agree_bind (rd hA 0 0) fun _ _ h => agree_bind (G.div G.one h) fun _ _ h => agree_ok fun i j => ?_
    refine cast h ?_
    rw [show i.val = 0 by omega, show j.val = 0 by omega]
    ring
  | 2, A, A', hA =>
    unfold MatrixLibs.inv inv2
    refine agree_bind (det2 hA) fun _ _ hd => agree_ite_bool (G.eq hd (G.zero _)) (agree_error _ _) ?_
    refine agree_bind (rd hA _ _) fun _ _ x => ?_
    refine agree_bind (rd hA _ _) fun _ _ y => agree_bind (G.neg y) fun _ _ y => ?_
    refine agree_bind (rd hA _ _) fun _ _ z => agree_bind (G.neg z) fun _ _ z => ?_
    refine agree_bind (rd hA _ _) fun _ _ w => ?_
    refine agree_mono (div' (d := fun i j => r 0 + r 1 + (k 0 + k 1) - (r j + k i)) handled ?_ hd) fun _ _ h =>
      castM h fun i j _ _ => by ring
    intro i j
    fin_cases i <;> fin_cases j
    · exact cast x (by simp; ring)
    · exact cast y (by simp; ring)
    · exact cast z (by simp; ring)
    · exact cast w (by simp; ring)
  | 3, A, A', hA =>
    unfold MatrixLibs.inv inv3
    refine agree_bind (det3 hA) fun _ _ hd => agree_ite_bool (G.eq hd (G.zero _)) (agree_error _ _) ?_
    refine agree_bind (rd hA _ _) fun _ _ a => ?_
    refine agree_bind (rd hA _ _) fun _ _ b => ?_
    refine agree_bind (rd hA _ _) fun _ _ c => ?_
    refine agree_bind (rd hA _ _) fun _ _ d => ?_
    refine agree_bind (rd hA _ _) fun _ _ e => ?_
    refine agree_bind (rd hA _ _) fun _ _ f => ?_
    refine agree_bind (rd hA _ _) fun _ _ g => ?_
    refine agree_bind (rd hA _ _) fun _ _ h => ?_
    refine agree_bind (rd hA _ _) fun _ _ i => ?_
    refine agree_bind (cross (w := r 0 + r 1 + r 2 + (k 0 + k 1 + k 2) - (r 0 + k 0)) e i f h (by ring) (by ring)) fun _ _ x00 => ?_
    refine agree_bind (cross (w := r 0 + r 1 + r 2 + (k 0 + k 1 + k 2) - (r 1 + k 0)) c h b i (by ring) (by ring)) fun _ _ x01 => ?_
    refine agree_bind (cross (w := r 0 + r 1 + r 2 + (k 0 + k 1 + k 2) - (r 2 + k 0)) b f c e (by ring) (by ring)) fun _ _ x02 => ?_
    refine agree_bind (cross (w := r 0 + r 1 + r 2 + (k 0 + k 1 + k 2) - (r 0 + k 1)) f g d i (by ring) (by ring)) fun _ _ x10 => ?_
    refine agree_bind (cross (w := r 0 + r 1 + r 2 + (k 0 + k 1 + k 2) - (r 1 + k 1)) a i c g (by ring) (by ring)) fun _ _ x11 => ?_
    refine agree_bind (cross (w := r 0 + r 1 + r 2 + (k 0 + k 1 + k 2) - (r 2 + k 1)) c d a f (by ring) (by ring)) fun _ _ x12 => ?_
    refine agree_bind (cross (w := r 0 + r 1 + r 2 + (k 0 + k 1 + k 2) - (r 0 + k 2)) d h e g (by ring) (by ring)) fun _ _ x20 => ?_
    refine agree_bind (cross (w := r 0 + r 1 + r 2 + (k 0 + k 1 + k 2) - (r 1 + k 2)) b g a h (by ring) (by ring)) fun _ _ x21 => ?_
    refine agree_bind (cross (w := r 0 + r 1 + r 2 + (k 0 + k 1 + k 2) - (r 2 + k 2)) a e b d (by ring) (by ring)) fun _ _ x22 => ?_
    refine agree_mono (div' (d := fun i j => r 0 + r 1 + r 2 + (k 0 + k 1 + k 2) - (r j + k i)) handled ?_ hd) fun _ _ h =>
      castM h fun i j _ _ => by ring
    intro i j
    fin_cases i <;> fin_cases j <;> assumption
  | n + 4, A, A', hA => exact invN handled hA

/-! ## Powers -/

theorem powFuel (handled : Option Exc) (w : Nat) {r : Nat → ℤ} : ∀ (depth : Nat) {k : ℤ} {A : Mat T n n} {A' : Mat U n n} (p : ℤ),
    G.M (fun i j => r i - r j + k) A A' →
    Agree (G.M fun i j => r i - r j + p * k) (powFuel handled w depth A p) (powFuel handled w depth A' p)
  | 0, _, _, _, _, _ => agree_error _ _
  | depth + 1, k, A, A', p, hA => by
    have key : ∀ {B : Mat T n n} {B' : Mat U n n} {q : Nat} {l : ℤ}, q * l = p * k →
        G.M (fun i j => r i - r j + l) B B' → Agree (G.M fun i j => r i - r j + p * k)
          (powStep handled w depth B q) (powStep handled w depth B' q) := by
      intro B B' q l e hB
      unfold powStep
      refine agree_bind (powFuel handled w depth ((q / 2 : Nat) : ℤ) hB) fun _ _ hP => ?_
      have sq := mult (f := fun i j => r i - r j + 2 * ((q / 2 : Nat) : ℤ) * l) hP hP (fun i k j _ _ _ => by ring)
      refine agree_ite (fun he => ?_) fun he => ?_
      · have hq : (q : ℤ) = 2 * ((q / 2 : Nat) : ℤ) := by omega
        refine agree_mono sq fun _ _ h => castM h fun i j _ _ => ?_
        rw [← e, ← hq]
      · have hq : (q : ℤ) = 2 * ((q / 2 : Nat) : ℤ) + 1 := by omega
        refine agree_bind sq fun _ _ h => mult h hB fun i k j _ _ _ => ?_
        rw [← e, hq]
        ring
    by_cases h0 : p = 0
    · subst h0
      unfold MatrixLibs.powFuel
      rw [if_pos rfl, if_pos rfl]
      exact eye1 fun i => by ring
    by_cases h1 : p = 1
    · subst h1
      unfold MatrixLibs.powFuel
      exact agree_ok (castM hA fun i j _ _ => by ring)
    by_cases hp : p < 0
    · by_cases hm : p = expMin w
      · unfold MatrixLibs.powFuel
        rw [if_neg h0, if_neg h0, if_neg h1, if_neg h1, if_pos hp, if_pos hp]
        refine agree_bind (inv handled (r := fun i => r i + k) (k := fun j => - r j) (castM hA fun i j _ _ => by ring))
          fun _ _ _ => ?_
        rw [if_pos hm, if_pos hm]
        exact agree_error _ _
      · rw [powFuel_neg handled w depth A p hp hm, powFuel_neg handled w depth A' p hp hm]
        refine agree_bind (inv handled (r := fun i => r i + k) (k := fun j => - r j) (castM hA fun i j _ _ => by ring))
          fun _ _ h => key (l := -k) ?_ (castM h fun i j _ _ => by ring)
        rw [Int.ofNat_natAbs_of_nonpos hp.le]
        ring
    · obtain ⟨q, rfl⟩ := Int.eq_ofNat_of_zero_le (not_lt.mp hp)
      rw [powFuel_step handled w depth A q (by omega), powFuel_step handled w depth A' q (by omega)]
      exact key rfl hA

theorem pow (handled : Option Exc) (w : Nat) {r : Nat → ℤ} {k : ℤ} {A : Mat T n n} {A' : Mat U n n} (p : ℤ)
    (hA : G.M (fun i j => r i - r j + k) A A') :
    Agree (G.M fun i j => r i - r j + p * k) (pow handled w A p) (pow handled w A' p) := powFuel handled w _ p hA

end Graded

end MatrixLibs
