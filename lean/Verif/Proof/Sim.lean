import Verif.Model.Stats
import Verif.Proof.Pow

/-!
# The same function at two element types

`SimRes x y`: unless `x` has undefined behaviour, `y` does the same as `x`, with a related result. It is proved along
the structure of the program, from a relation between the element types that the operations preserve.
-/

namespace MatrixLibs

set_option linter.unusedSectionVars false

open CScalar (ofInt)

/-- The relation between values of two types. -/
class Rel (α β : Type) where
  /-- The values correspond. -/
  rel : α → β → Prop

@[inherit_doc] infix:50 " ≈≈ " => Rel.rel

instance relMat {T U : Type} [Rel T U] {r c : Nat} : Rel (Mat T r c) (Mat U r c) := ⟨fun A B => ∀ i j, A i j ≈≈ B i j⟩
instance relProd {α β α' β' : Type} [Rel α β] [Rel α' β'] : Rel (α × α') (β × β') :=
  ⟨fun a b => a.1 ≈≈ b.1 ∧ a.2 ≈≈ b.2⟩
instance relBool : Rel Bool Bool := ⟨(· = ·)⟩
instance relNat : Rel Nat Nat := ⟨(· = ·)⟩
instance relInt : Rel Int Int := ⟨(· = ·)⟩
instance relUnit : Rel Unit Unit := ⟨fun _ _ => True⟩
instance relOption {α β : Type} [Rel α β] : Rel (Option α) (Option β) := ⟨Option.Rel Rel.rel⟩

/-- Both fall through, or both return. -/
inductive CtlRel {σ σ' ρ ρ' : Type} [Rel σ σ'] [Rel ρ ρ'] : Ctl σ ρ → Ctl σ' ρ' → Prop
  | cont {s s'} : s ≈≈ s' → CtlRel (.cont s) (.cont s')
  | ret {v v'} : v ≈≈ v' → CtlRel (.ret v) (.ret v')

instance relCtl {σ σ' ρ ρ' : Type} [Rel σ σ'] [Rel ρ ρ'] : Rel (Ctl σ ρ) (Ctl σ' ρ') := ⟨CtlRel⟩

/-- Unless `x` has undefined behaviour, `y` does the same. -/
def SimRes {α β : Type} [Rel α β] (x : Res α) (y : Res β) : Prop :=
  match x with
  | .ok a => ∃ b, y = .ok b ∧ a ≈≈ b
  | .error e => (∃ k, e = .ub k) ∨ y = .error e

section
variable {α β γ δ σ σ' ρ ρ' : Type} [Rel α β] [Rel γ δ] [Rel σ σ'] [Rel ρ ρ']

theorem sim_ok {a : α} {b : β} (h : a ≈≈ b) : SimRes (.ok a : Res α) (.ok b : Res β) := ⟨b, rfl, h⟩

theorem sim_pure {a : α} {b : β} (h : a ≈≈ b) : SimRes (pure a : Res α) (pure b : Res β) := ⟨b, rfl, h⟩

theorem sim_error (e : Stop) : SimRes (.error e : Res α) (.error e : Res β) := .inr rfl

theorem sim_ub (k : UB) (y : Res β) : SimRes (.error (.ub k) : Res α) y := .inl ⟨k, rfl⟩

theorem sim_bind {x : Res α} {y : Res β} {f : α → Res γ} {g : β → Res δ} (h : SimRes x y)
    (hf : ∀ a b, a ≈≈ b → SimRes (f a) (g b)) : SimRes (x >>= f) (y >>= g) := by
  cases x with
  | ok a =>
    obtain ⟨b, rfl, hab⟩ := h
    exact hf a b hab
  | error e =>
    rcases h with ⟨k, rfl⟩ | rfl
    · exact .inl ⟨k, rfl⟩
    · exact .inr rfl

theorem sim_ite {p : Prop} [Decidable p] {x x' : Res α} {y y' : Res β} (h : p → SimRes x y)
    (h' : ¬ p → SimRes x' y') : SimRes (if p then x else x') (if p then y else y') := by
  split
  · next hp => exact h hp
  · next hp => exact h' hp

theorem sim_ite_bool {b b' : Bool} {x x' : Res α} {y y' : Res β} (e : b = b') (h : SimRes x y)
    (h' : SimRes x' y') : SimRes (if b = true then x else x') (if b' = true then y else y') := by
  subst e
  exact sim_ite (fun _ => h) (fun _ => h')

theorem sim_loopN {body : Nat → σ → Res σ} {body' : Nat → σ' → Res σ'}
    (h : ∀ k s s', s ≈≈ s' → SimRes (body k s) (body' k s')) :
    ∀ (cnt k : Nat) (s : σ) (s' : σ'), s ≈≈ s' → SimRes (loopN body cnt k s) (loopN body' cnt k s')
  | 0, _, s, s', hs => sim_ok hs
  | cnt + 1, k, s, s', hs => by
    unfold loopN
    exact sim_bind (h k s s' hs) (fun a b hab => sim_loopN h cnt (k + 1) a b hab)

theorem sim_forUp {lo hi : Nat} {s : σ} {s' : σ'} {body : Nat → σ → Res σ} {body' : Nat → σ' → Res σ'}
    (hs : s ≈≈ s') (h : ∀ k s s', s ≈≈ s' → SimRes (body k s) (body' k s')) :
    SimRes (forUp lo hi s body) (forUp lo hi s' body') := sim_loopN h _ _ _ _ hs

theorem sim_loopRetN {body : Nat → σ → Res (Ctl σ ρ)} {body' : Nat → σ' → Res (Ctl σ' ρ')}
    (h : ∀ k s s', s ≈≈ s' → SimRes (body k s) (body' k s')) :
    ∀ (cnt k : Nat) (s : σ) (s' : σ'), s ≈≈ s' → SimRes (loopRetN body cnt k s) (loopRetN body' cnt k s')
  | 0, _, s, s', hs => sim_ok (.cont hs)
  | cnt + 1, k, s, s', hs => by
    unfold loopRetN
    refine sim_bind (h k s s' hs) (fun a b hab => ?_)
    cases hab with
    | cont hs => exact sim_loopRetN h cnt (k + 1) _ _ hs
    | ret hv => exact sim_ok (.ret hv)

theorem sim_forRet {lo hi : Nat} {s : σ} {s' : σ'} {body : Nat → σ → Res (Ctl σ ρ)}
    {body' : Nat → σ' → Res (Ctl σ' ρ')} (hs : s ≈≈ s')
    (h : ∀ k s s', s ≈≈ s' → SimRes (body k s) (body' k s')) :
    SimRes (forRet lo hi s body) (forRet lo hi s' body') := sim_loopRetN h _ _ _ _ hs

end

section
variable {T U : Type} [Rel T U] {r c : Nat}

theorem sim_rd {A : Mat T r c} {B : Mat U r c} (h : A ≈≈ B) (i j : Nat) : SimRes (rd A i j) (rd B i j) := by
  unfold rd
  split
  · exact sim_ok (h _ _)
  · exact sim_error _

theorem sim_wr {A : Mat T r c} {B : Mat U r c} (h : A ≈≈ B) {a : T} {b : U} (hab : a ≈≈ b) (i j : Nat) :
    SimRes (wr A i j a) (wr B i j b) := by
  unfold wr
  split
  · refine sim_ok (fun p q => ?_)
    simp only [Matrix.of_apply]
    split
    · exact hab
    · exact h p q
  · exact sim_error _

theorem rel_const {a : T} {b : U} (hab : a ≈≈ b) : (Mat.const a : Mat T r c) ≈≈ (Mat.const b : Mat U r c) :=
  fun _ _ => hab

end

/-- The ring operations of `T` are those of `U` under the relation. -/
class SimRing (T U : Type) [Inhabited T] [Inhabited U] [CScalar T] [CScalar U] [Rel T U] : Prop where
  init : (default : T) ≈≈ (default : U)
  zero : (ofInt 0 : T) ≈≈ (ofInt 0 : U)
  one : (ofInt 1 : T) ≈≈ (ofInt 1 : U)
  minusOne : (ofInt (-1) : T) ≈≈ (ofInt (-1) : U)
  add {a b : T} {a' b' : U} : a ≈≈ a' → b ≈≈ b' → SimRes (CScalar.add a b) (CScalar.add a' b')
  sub {a b : T} {a' b' : U} : a ≈≈ a' → b ≈≈ b' → SimRes (CScalar.sub a b) (CScalar.sub a' b')
  mul {a b : T} {a' b' : U} : a ≈≈ a' → b ≈≈ b' → SimRes (CScalar.mul a b) (CScalar.mul a' b')

/-- Comparisons and absolute values too. -/
class SimOrd (T U : Type) [Inhabited T] [Inhabited U] [CScalar T] [CScalar U] [Rel T U] : Prop where
  eq {a b : T} {a' b' : U} : a ≈≈ a' → b ≈≈ b' → CScalar.eq a b = CScalar.eq a' b'
  lt {a b : T} {a' b' : U} : a ≈≈ a' → b ≈≈ b' → CScalar.lt a b = CScalar.lt a' b'
  abs {a : T} {a' : U} : a ≈≈ a' → SimRes (CScalar.abs a) (CScalar.abs a')

/-- Division and roots too. -/
class SimField (T U : Type) [Inhabited T] [Inhabited U] [CScalar T] [CScalar U] [Rel T U] : Prop where
  div {a b : T} {a' b' : U} : a ≈≈ a' → b ≈≈ b' → SimRes (CScalar.div a b) (CScalar.div a' b')
  neg {a : T} {a' : U} : a ≈≈ a' → SimRes (CScalar.neg a) (CScalar.neg a')
  sqrt {a : T} {a' : U} : a ≈≈ a' → SimRes (CScalar.sqrt a) (CScalar.sqrt a')

/-- A related value that is at hand. -/
macro "rel_leaf" : tactic => `(tactic| first
  | assumption | exact SimRing.zero | exact SimRing.one | exact SimRing.minusOne | exact SimRing.init
  | exact rel_const SimRing.init | exact rel_const SimRing.zero | exact trivial
  | exact CtlRel.ret rfl | exact CtlRel.cont trivial | rfl)

/-- Walk through two programs of the same shape. -/
macro "sim_step" : tactic => `(tactic| first
  | (refine sim_ok ?_; rel_leaf) | (refine sim_pure ?_; rel_leaf) | exact sim_error _
  | (refine SimRing.add ?_ ?_ <;> rel_leaf) | (refine SimRing.sub ?_ ?_ <;> rel_leaf)
  | (refine SimRing.mul ?_ ?_ <;> rel_leaf) | (refine SimField.div ?_ ?_ <;> rel_leaf)
  | (refine SimOrd.abs ?_ <;> rel_leaf) | (refine SimField.neg ?_ <;> rel_leaf) | (refine SimField.sqrt ?_ <;> rel_leaf)
  | (refine sim_rd ?_ _ _ <;> rel_leaf) | (refine sim_wr ?_ ?_ _ _ <;> rel_leaf)
  | refine sim_forUp (by rel_leaf) (fun _ _ _ _ => ?_) | refine sim_forRet (by rel_leaf) (fun _ _ _ _ => ?_)
  | refine sim_ite_bool (SimOrd.eq (by rel_leaf) (by rel_leaf)) ?_ ?_
  | refine sim_ite_bool (congrArg not (SimOrd.eq (by rel_leaf) (by rel_leaf))) ?_ ?_
  | refine sim_ite_bool (SimOrd.lt (by rel_leaf) (by rel_leaf)) ?_ ?_
  | refine sim_ite (fun _ => ?_) (fun _ => ?_)
  | refine sim_bind ?_ (fun _ _ _ => ?_))

macro "sim" : tactic => `(tactic| repeat' sim_step)

/-! ## Movement -/

section
variable {T U : Type} [Inhabited T] [Inhabited U] [CScalar T] [CScalar U] [Rel T U] [SimRing T U] {r c n : Nat}

theorem sim_fill {a : T} {b : U} (h : a ≈≈ b) : SimRes (fill r c a) (fill r c b) := by
  unfold fill valueInit; sim

theorem sim_zeros : SimRes (zeros (T := T) r c) (zeros (T := U) r c) := sim_fill SimRing.zero

theorem sim_ones : SimRes (ones (T := T) r c) (ones (T := U) r c) := by
  unfold ones
  exact sim_ite (fun _ => sim_fill SimRing.one) (fun _ => sim_error _)

theorem sim_eye {a : T} {b : U} (h : a ≈≈ b) : SimRes (eye n a) (eye n b) := by
  unfold eye
  refine sim_bind (sim_fill SimRing.zero) (fun _ _ _ => ?_)
  sim

theorem sim_eye1 : SimRes (eye1 (T := T) n) (eye1 (T := U) n) := sim_eye SimRing.one

theorem sim_trans {A : Mat T r c} {B : Mat U r c} (h : A ≈≈ B) : SimRes (trans A) (trans B) := by
  unfold trans valueInit; sim

theorem sim_swap_rows {A : Mat T r c} {B : Mat U r c} (h : A ≈≈ B) (r1 r2 : Nat) :
    SimRes (swap_rows A r1 r2) (swap_rows B r1 r2) := by
  unfold swap_rows swapElem; sim

theorem sim_swap_cols {A : Mat T r c} {B : Mat U r c} (h : A ≈≈ B) (r1 r2 : Nat) :
    SimRes (swap_cols A r1 r2) (swap_cols B r1 r2) := by
  unfold swap_cols swapElem; sim

theorem sim_concatenateRows {i1 i2 j : Nat} {A : Mat T i1 j} {A' : Mat U i1 j} {B : Mat T i2 j} {B' : Mat U i2 j}
    (hA : A ≈≈ A') (hB : B ≈≈ B') : SimRes (concatenateRows A B) (concatenateRows A' B') := by
  unfold concatenateRows valueInit; sim

theorem sim_concatenateCols {i j1 j2 : Nat} {A : Mat T i j1} {A' : Mat U i j1} {B : Mat T i j2} {B' : Mat U i j2}
    (hA : A ≈≈ A') (hB : B ≈≈ B') : SimRes (concatenateCols A B) (concatenateCols A' B') := by
  unfold concatenateCols valueInit; sim

theorem sim_getminor {A : Mat T n n} {B : Mat U n n} (h : A ≈≈ B) (i j : Nat) :
    SimRes (getminor A i j) (getminor B i j) := by
  unfold getminor valueInit
  refine sim_bind (sim_forUp (by exact ⟨rel_const SimRing.init, rfl⟩) (fun k s s' hs => ?_)) (fun a b hab => sim_ok hab.1)
  obtain ⟨M, x⟩ := s
  obtain ⟨M', x'⟩ := s'
  obtain ⟨hM, hx⟩ := hs
  cases hx
  dsimp only
  refine sim_ite (fun _ => ?_) (fun _ => sim_ok ⟨hM, rfl⟩)
  refine sim_bind (sim_forUp (by exact ⟨hM, rfl⟩) (fun l s s' hs => ?_)) (fun a b hab => sim_ok ⟨hab.1, rfl⟩)
  obtain ⟨M, y⟩ := s
  obtain ⟨M', y'⟩ := s'
  obtain ⟨hM, hy⟩ := hs
  cases hy
  dsimp only
  refine sim_ite (fun _ => ?_) (fun _ => sim_ok ⟨hM, rfl⟩)
  refine sim_bind (sim_rd h _ _) (fun _ _ _ => sim_bind (sim_wr hM ‹_› _ _) (fun _ _ hw => sim_ok ⟨hw, rfl⟩))

end

/-! ## Ring operations -/

section
variable {T U : Type} [Inhabited T] [Inhabited U] [CScalar T] [CScalar U] [Rel T U] [SimRing T U] {r c n : Nat}

theorem sim_sum {A B : Mat T r c} {A' B' : Mat U r c} (hA : A ≈≈ A') (hB : B ≈≈ B') : SimRes (sum A B) (sum A' B') := by
  unfold sum valueInit; sim

theorem sim_sumScalar {A : Mat T r c} {A' : Mat U r c} {s : T} {s' : U} (hA : A ≈≈ A') (hs : s ≈≈ s') :
    SimRes (sumScalar A s) (sumScalar A' s') := by
  unfold sumScalar valueInit; sim

theorem sim_sub {A B : Mat T r c} {A' B' : Mat U r c} (hA : A ≈≈ A') (hB : B ≈≈ B') : SimRes (sub A B) (sub A' B') := by
  unfold sub valueInit; sim

theorem sim_subScalar {A : Mat T r c} {A' : Mat U r c} {s : T} {s' : U} (hA : A ≈≈ A') (hs : s ≈≈ s') :
    SimRes (subScalar A s) (subScalar A' s') := by
  unfold subScalar valueInit; sim

theorem sim_opPostInc {A : Mat T r c} {A' : Mat U r c} (hA : A ≈≈ A') : SimRes (opPostInc A) (opPostInc A') := by
  unfold opPostInc
  exact sim_bind (sim_sumScalar hA SimRing.one) (fun _ _ h => sim_ok ⟨hA, h⟩)

theorem sim_opPostDec {A : Mat T r c} {A' : Mat U r c} (hA : A ≈≈ A') : SimRes (opPostDec A) (opPostDec A') := by
  unfold opPostDec
  exact sim_bind (sim_subScalar hA SimRing.one) (fun _ _ h => sim_ok ⟨hA, h⟩)

theorem sim_mult {n m p : Nat} {A : Mat T n m} {A' : Mat U n m} {B : Mat T m p} {B' : Mat U m p} (hA : A ≈≈ A')
    (hB : B ≈≈ B') : SimRes (mult A B) (mult A' B') := by
  unfold mult
  refine sim_bind sim_zeros (fun _ _ _ => ?_)
  sim

theorem sim_multScalar {A : Mat T r c} {A' : Mat U r c} {s : T} {s' : U} (hA : A ≈≈ A') (hs : s ≈≈ s') :
    SimRes (multScalar A s) (multScalar A' s') := by
  unfold multScalar valueInit; sim

theorem sim_strassen {A B : Mat T 2 2} {A' B' : Mat U 2 2} (hA : A ≈≈ A') (hB : B ≈≈ B') :
    SimRes (strassen A B) (strassen A' B') := by
  unfold strassen valueInit; sim

theorem sim_det2 {A : Mat T 2 2} {A' : Mat U 2 2} (hA : A ≈≈ A') : SimRes (det2 A) (det2 A') := by
  unfold det2; sim

theorem sim_det3 {A : Mat T 3 3} {A' : Mat U 3 3} (hA : A ≈≈ A') : SimRes (det3 A) (det3 A') := by
  unfold det3; sim

theorem sim_convTerm {A : Mat T r c} {A' : Mat U r c} {K : Mat T 3 3} {K' : Mat U 3 3} (hA : A ≈≈ A') (hK : K ≈≈ K')
    (u v a b : Nat) : SimRes (convTerm A K u v a b) (convTerm A' K' u v a b) := by
  unfold convTerm; sim

theorem sim_addTo {A : Mat T r c} {A' : Mat U r c} {x : T} {x' : U} (hA : A ≈≈ A') (hx : x ≈≈ x') (a b : Nat) :
    SimRes (addTo A a b x) (addTo A' a b x') := by
  unfold addTo; sim

macro "sim_conv" hA:term:max hK:term:max : tactic => `(tactic| repeat' first
  | exact sim_convTerm $hA $hK _ _ _ _ | (refine sim_addTo ?_ ?_ _ _ <;> assumption) | sim_step)

theorem sim_conv2 {A : Mat T r c} {A' : Mat U r c} {K : Mat T 3 3} {K' : Mat U 3 3} (hA : A ≈≈ A') (hK : K ≈≈ K') :
    SimRes (conv2 A K) (conv2 A' K') := by
  unfold conv2 valueInit; sim_conv hA hK

theorem sim_conv2_full {A : Mat T r c} {A' : Mat U r c} {K : Mat T 3 3} {K' : Mat U 3 3} (hA : A ≈≈ A')
    (hK : K ≈≈ K') : SimRes (conv2_full A K) (conv2_full A' K') := by
  unfold conv2_full valueInit; sim_conv hA hK

theorem sim_conv2_valid {A : Mat T n n} {A' : Mat U n n} {K : Mat T 3 3} {K' : Mat U 3 3} (hA : A ≈≈ A')
    (hK : K ≈≈ K') : SimRes (conv2_valid A K) (conv2_valid A' K') := by
  unfold conv2_valid
  exact sim_bind (sim_conv2 hA hK) (fun _ _ h => sim_bind (sim_getminor h _ _) (fun _ _ h => sim_getminor h _ _))

theorem sim_powFuel_nonneg (handled : Option Exc) (w : Nat) {A : Mat T n n} {A' : Mat U n n} (hA : A ≈≈ A') :
    ∀ (d : Nat) (p : Int), 0 ≤ p → SimRes (powFuel handled w d A p) (powFuel handled w d A' p)
  | 0, _, _ => sim_error _
  | d + 1, p, hp => by
    unfold powFuel
    refine sim_ite (fun _ => sim_eye1) (fun _ => sim_ite (fun _ => sim_ok hA) (fun _ => ?_))
    rw [if_neg (by omega), if_neg (by omega)]
    simp only [pure_bind]
    refine sim_bind sim_ones (fun _ _ _ => sim_bind (sim_powFuel_nonneg handled w hA d _ (Int.tdiv_nonneg hp (by decide)))
      (fun B B' hB => ?_))
    refine sim_ite (fun _ => sim_mult hB hB) (fun _ => sim_bind (sim_mult hB hB) (fun _ _ h => sim_mult h hA))

theorem sim_pow_nonneg (handled : Option Exc) (w : Nat) {A : Mat T n n} {A' : Mat U n n} (hA : A ≈≈ A') {p : Int}
    (hp : 0 ≤ p) : SimRes (pow handled w A p) (pow handled w A' p) := sim_powFuel_nonneg handled w hA _ p hp

theorem sim_det_small (h0 : 1 ≤ n) (hn : n ≤ 3) {A : Mat T n n} {A' : Mat U n n} (hA : A ≈≈ A') :
    SimRes (det A) (det A') := by
  match n, A, A', h0, hn, hA with
  | 1, A, A', _, _, hA => exact sim_rd hA 0 0
  | 2, A, A', _, _, hA => exact sim_det2 hA
  | 3, A, A', _, _, hA => exact sim_det3 hA

end

/-! ## Comparisons and absolute values -/

section
variable {T U : Type} [Inhabited T] [Inhabited U] [CScalar T] [CScalar U] [Rel T U] [SimRing T U] [SimOrd T U]
  {r c n : Nat}

theorem sim_rdInit {A : Mat (Option T) r c} {B : Mat (Option U) r c} (h : A ≈≈ B) (i j : Nat) :
    SimRes (rdInit A i j) (rdInit B i j) := by
  unfold rdInit
  refine sim_bind (sim_rd h i j) (fun a b hab => ?_)
  cases hab with
  | none => exact sim_error _
  | some hab => exact sim_ok hab

theorem sim_copyOut {A : Mat (Option T) r c} {B : Mat (Option U) r c} (h : A ≈≈ B) :
    SimRes (copyOut A) (copyOut B) := by
  unfold copyOut valueInit
  repeat' first | exact sim_rdInit h _ _ | sim_step

theorem sim_abs {A : Mat T r c} {A' : Mat U r c} (hA : A ≈≈ A') : SimRes (abs A) (abs A') := by
  unfold abs
  refine sim_bind (sim_forUp (by exact rel_const Option.Rel.none) (fun _ _ _ _ => sim_forUp (by assumption)
    (fun _ _ _ hs => ?_))) (fun _ _ h => sim_copyOut h)
  refine sim_bind (sim_rd hA _ _) (fun _ _ h => sim_bind (SimOrd.abs h) (fun _ _ h => sim_wr hs ?_ _ _))
  exact Option.Rel.some h

theorem sim_arrayEq {A B : Mat T r c} {A' B' : Mat U r c} (hA : A ≈≈ A') (hB : B ≈≈ B') :
    SimRes (arrayEq A B) (arrayEq A' B') := by
  unfold arrayEq
  refine sim_bind ?_ (fun a b hab => ?_)
  · sim
  · cases hab with
    | cont _ => exact sim_ok rfl
    | ret h => exact sim_ok h

theorem sim_isSymetric {A : Mat T n n} {A' : Mat U n n} (hA : A ≈≈ A') : SimRes (isSymetric A) (isSymetric A') := by
  unfold isSymetric
  refine sim_bind ?_ (fun a b hab => ?_)
  · sim
  · cases hab with
    | cont _ => exact sim_ok rfl
    | ret h => exact sim_ok h

theorem sim_compareLoop {A B : Mat T r c} {A' B' : Mat U r c} {e : T → Bool} {e' : U → Bool} (hA : A ≈≈ A')
    (hB : B ≈≈ B') (he : ∀ d d', d ≈≈ d' → e d = e' d') : SimRes (compareLoop e A B) (compareLoop e' A' B') := by
  unfold compareLoop
  refine sim_bind ?_ (fun a b hab => ?_)
  · repeat' first | refine sim_ite_bool (he _ _ (by assumption)) ?_ ?_ | sim_step
  · cases hab with
    | cont _ => exact sim_ok rfl
    | ret h => exact sim_ok h

theorem sim_compare {A B : Mat T r c} {A' B' : Mat U r c} {e : T} {e' : U} (hA : A ≈≈ A') (hB : B ≈≈ B')
    (he : e ≈≈ e') : SimRes (compare A B e) (compare A' B' e') :=
  sim_compareLoop hA hB (fun _ _ h => SimOrd.lt he h)

end

/-! ## Division -/

section
variable {T U : Type} [Inhabited T] [Inhabited U] [CScalar T] [CScalar U] [Rel T U] [SimRing T U] [SimOrd T U]
  [SimField T U] {r c n : Nat}

theorem sim_bareThrow {α β : Type} [Rel α β] (handled : Option Exc) :
    SimRes (bareThrow handled : Res α) (bareThrow handled : Res β) := by
  unfold bareThrow
  cases handled <;> exact sim_error _

theorem sim_div (handled : Option Exc) {A : Mat T r c} {A' : Mat U r c} {s : T} {s' : U} (hA : A ≈≈ A')
    (hs : s ≈≈ s') : SimRes (div handled A s) (div handled A' s') := by
  unfold div valueInit
  refine sim_ite_bool (SimOrd.eq hs SimRing.zero) (sim_bareThrow _) ?_
  sim

theorem sim_detProd {A : Mat T n n} {A' : Mat U n n} {f : T} {f' : U} (hA : A ≈≈ A') (hf : f ≈≈ f') :
    SimRes (detProd A f) (detProd A' f') := by
  unfold detProd; sim

theorem sim_detSearch {A : Mat T n n} {A' : Mat U n n} (hA : A ≈≈ A') (r : Nat) :
    ∀ fuel i pivot, SimRes (detSearch A r fuel i pivot) (detSearch A' r fuel i pivot)
  | 0, _, _ => sim_error _
  | fuel + 1, i, pivot => by
    unfold detSearch
    refine sim_bind (sim_rd hA _ _) (fun a b hab => sim_ite_bool (SimOrd.eq hab SimRing.zero) ?_ (sim_ok (.some ⟨rfl, rfl⟩)))
    refine sim_ite (fun _ => sim_ite (fun _ => sim_ok .none) (fun _ => ?_)) (fun _ => ?_)
    · exact sim_detSearch hA r fuel _ _
    · exact sim_detSearch hA r fuel _ _

theorem sim_detEliminate {A : Mat T n n} {A' : Mat U n n} (hA : A ≈≈ A') (r pivot : Nat) :
    SimRes (detEliminate A r pivot) (detEliminate A' r pivot) := by
  unfold detEliminate; sim

theorem sim_detSwap {A : Mat T n n} {A' : Mat U n n} {f : T} {f' : U} (hA : A ≈≈ A') (hf : f ≈≈ f') (i r : Nat) :
    SimRes (detSwap A f i r) (detSwap A' f' i r) := by
  unfold detSwap
  refine sim_ite (fun _ => ?_) (fun _ => sim_ok ⟨hA, hf⟩)
  exact sim_bind (sim_swap_rows hA _ _) (fun _ _ h => sim_bind (SimRing.mul hf SimRing.minusOne)
    (fun _ _ h' => sim_ok ⟨h, h'⟩))

instance relDetState : Rel (DetState T n) (DetState U n) :=
  ⟨fun s s' => s.A ≈≈ s'.A ∧ s.factor ≈≈ s'.factor ∧ s.pivot = s'.pivot⟩

theorem sim_detStep (r : Nat) {s : DetState T n} {s' : DetState U n} (h : s ≈≈ s') :
    SimRes (detStep r s) (detStep r s') := by
  obtain ⟨A, f, p⟩ := s
  obtain ⟨A', f', p'⟩ := s'
  obtain ⟨hA, hf, hp⟩ := h
  dsimp only at hA hf hp
  subst hp
  unfold detStep
  dsimp only
  have hprod : SimRes (do return .ret (← detProd A f) : Res (Ctl (DetState T n) T))
      (do return .ret (← detProd A' f') : Res (Ctl (DetState U n) U)) :=
    sim_bind (sim_detProd hA hf) (fun _ _ h => sim_ok (.ret h))
  refine sim_ite (fun _ => hprod) (fun _ => ?_)
  refine sim_bind (sim_detSearch hA r _ _ _) (fun a b hab => ?_)
  cases hab with
  | none => exact hprod
  | some hab =>
    rename_i x y
    obtain ⟨x1, x2⟩ := x
    obtain ⟨y1, y2⟩ := y
    obtain ⟨h1, h2⟩ := hab
    cases h1
    cases h2
    dsimp only
    refine sim_bind (sim_detSwap hA hf _ _) (fun z w hzw => ?_)
    obtain ⟨z1, z2⟩ := z
    obtain ⟨w1, w2⟩ := w
    obtain ⟨h1, h2⟩ := hzw
    dsimp only at h1 h2 ⊢
    exact sim_bind (sim_detEliminate h1 _ _) (fun _ _ h => sim_ok (.cont ⟨h, h2, rfl⟩))

theorem sim_detN {A : Mat T n n} {A' : Mat U n n} (hA : A ≈≈ A') : SimRes (detN A) (detN A') := by
  unfold detN
  refine sim_bind (sim_forRet (by exact ⟨hA, SimRing.one, rfl⟩) (fun k s s' hs => sim_detStep k hs)) (fun a b hab => ?_)
  cases hab with
  | cont h => exact sim_detProd h.1 h.2.1
  | ret h => exact sim_ok h

theorem sim_det : ∀ {n : Nat} {A : Mat T n n} {A' : Mat U n n}, A ≈≈ A' → SimRes (det A) (det A')
  | 0, _, _, hA => sim_detN hA
  | 1, _, _, hA => sim_rd hA 0 0
  | 2, _, _, hA => sim_det2 hA
  | 3, _, _, hA => sim_det3 hA
  | _ + 4, _, _, hA => sim_detN hA

theorem sim_inv (handled : Option Exc) : ∀ {n : Nat} {A : Mat T n n} {A' : Mat U n n}, A ≈≈ A' →
    SimRes (inv handled A) (inv handled A')
  | 0, _, _, _ => sim_error _
  | 1, A, A', hA => by
    show SimRes (inv1 A) (inv1 A')
    unfold inv1 det1
    exact sim_bind (sim_rd hA 0 0) (fun _ _ h => sim_bind (SimField.div SimRing.one h) (fun _ _ h => sim_ok (rel_const h)))
  | 2, A, A', hA => by
    show SimRes (inv2 handled A) (inv2 handled A')
    unfold inv2 opDiv
    refine sim_bind (sim_det2 hA) (fun _ _ hd => sim_ite_bool (SimOrd.eq hd SimRing.zero) (sim_error _) ?_)
    refine sim_bind (sim_rd hA _ _) (fun _ _ h1 => sim_bind (sim_rd hA _ _) (fun _ _ h2 => sim_bind (SimField.neg h2)
      (fun _ _ h2 => sim_bind (sim_rd hA _ _) (fun _ _ h3 => sim_bind (SimField.neg h3) (fun _ _ h3 =>
      sim_bind (sim_rd hA _ _) (fun _ _ h4 => sim_div handled ?_ hd))))))
    intro i j
    simp only [brace2, Matrix.of_apply]
    split <;> split <;> assumption
  | 3, A, A', hA => by
    show SimRes (inv3 handled A) (inv3 handled A')
    unfold inv3 opDiv cross
    refine sim_bind (sim_det3 hA) (fun _ _ hd => sim_ite_bool (SimOrd.eq hd SimRing.zero) (sim_error _) ?_)
    repeat' first
      | refine sim_div handled ?_ hd
      | sim_step
    intro i j
    simp only [brace3, Matrix.of_apply]
    repeat' split
    all_goals assumption
  | n + 4, A, A', hA => by
    show SimRes (invN handled A) (invN handled A')
    unfold invN opDiv valueInit
    refine sim_bind (sim_det hA) (fun _ _ hd => sim_bind ?_ (fun _ _ h => sim_bind (sim_trans h) (fun _ _ h =>
      sim_div handled h hd)))
    refine sim_forUp (by rel_leaf) (fun i _ _ hs => sim_forUp hs (fun j _ _ hs => ?_))
    refine sim_bind (sim_getminor hA _ _) (fun _ _ h => sim_bind (sim_det h) (fun _ _ h => sim_bind (SimRing.mul ?_ h)
      (fun _ _ h => sim_wr hs h _ _)))
    split
    · exact SimRing.minusOne
    · exact SimRing.one

theorem sim_luSum {L V : Mat T n n} {L' V' : Mat U n n} (hL : L ≈≈ L') (hV : V ≈≈ V') (i j : Nat) :
    SimRes (luSum L V i j) (luSum L' V' i j) := by
  unfold luSum; sim

theorem sim_lu {A : Mat T n n} {A' : Mat U n n} (hA : A ≈≈ A') : SimRes (lu A) (lu A') := by
  unfold lu
  refine sim_bind sim_eye1 (fun _ _ hL => sim_bind sim_zeros (fun _ _ hU => sim_forUp (by exact ⟨hL, hU⟩)
    (fun j s s' hs => ?_)))
  obtain ⟨L, V⟩ := s
  obtain ⟨L', V'⟩ := s'
  obtain ⟨hL, hV⟩ := hs
  dsimp only at hL hV ⊢
  refine sim_bind ?_ (fun V V' hV => sim_bind ?_ (fun _ _ hL => sim_ok ⟨hL, hV⟩))
  · unfold luUpper
    refine sim_forUp hV (fun i _ _ hV => sim_bind (sim_luSum hL hV _ _) (fun _ _ _ => ?_))
    sim
  · unfold luLower
    refine sim_forUp hL (fun i _ _ hL => sim_bind (sim_luSum hL hV _ _) (fun _ _ _ => ?_))
    sim

theorem sim_cholSum {L : Mat T n n} {L' : Mat U n n} (hL : L ≈≈ L') (i j : Nat) :
    SimRes (cholSum L i j) (cholSum L' i j) := by
  unfold cholSum; sim

theorem sim_chol {A : Mat T n n} {A' : Mat U n n} (hA : A ≈≈ A') : SimRes (chol A) (chol A') := by
  unfold chol cholStep
  repeat' first | exact sim_cholSum (by assumption) _ _ | sim_step

theorem sim_pow (handled : Option Exc) (w : Nat) {A : Mat T n n} {A' : Mat U n n} (hA : A ≈≈ A') (p : Int) :
    SimRes (pow handled w A p) (pow handled w A' p) := by
  unfold pow
  rcases lt_or_ge p 0 with hp | hp
  · by_cases hmin : p = expMin w
    · rw [hmin, powFuel_min, powFuel_min]
      exact sim_bind (sim_inv handled hA) (fun _ _ _ => sim_error _)
    · rw [powFuel_neg _ _ _ _ _ hp hmin, powFuel_neg _ _ _ _ _ hp hmin]
      refine sim_bind (sim_inv handled hA) (fun B B' hB => ?_)
      unfold powStep
      refine sim_bind (sim_powFuel_nonneg handled w hB _ _ (by omega)) (fun C C' hC => ?_)
      exact sim_ite (fun _ => sim_mult hC hC) (fun _ => sim_bind (sim_mult hC hC) (fun _ _ h => sim_mult h hB))
  · exact sim_powFuel_nonneg handled w hA _ p hp

end

end MatrixLibs
