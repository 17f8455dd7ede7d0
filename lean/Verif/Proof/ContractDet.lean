import Verif.Proof.Contract
import Verif.Proof.Movement
import Verif.Model.Det
import Verif.Model.Stats

/-!
# The general determinant and inverse have nothing to contract
-/

namespace MatrixLibs

set_option linter.unusedSectionVars false

open CScalar (ofInt)

/-- Both return related values, or stop in the same way. -/
def Same {α β : Type} (R : α → β → Prop) (x : Res α) (y : Res β) : Prop :=
  (∃ a b, x = .ok a ∧ y = .ok b ∧ R a b) ∨ ∃ e, x = .error e ∧ y = .error e

section
variable {α β γ δ : Type} {R : α → β → Prop} {S : γ → δ → Prop}

theorem same_ok {a : α} {b : β} (h : R a b) : Same R (.ok a) (.ok b) := .inl ⟨a, b, rfl, rfl, h⟩

theorem same_error (e : Stop) : Same R (.error e) (.error e) := .inr ⟨e, rfl, rfl⟩

theorem same_bind {x : Res α} {y : Res β} {f : α → Res γ} {g : β → Res δ} (h : Same R x y)
    (hf : ∀ a b, R a b → Same S (f a) (g b)) : Same S (x >>= f) (y >>= g) := by
  rcases h with ⟨a, b, rfl, rfl, h⟩ | ⟨e, rfl, rfl⟩
  · exact hf a b h
  · exact same_error e

theorem same_ite {p : Prop} [Decidable p] {x x' : Res α} {y y' : Res β} (h : p → Same R x y)
    (h' : ¬ p → Same R x' y') : Same R (if p then x else x') (if p then y else y') := by
  split
  · next hp => exact h hp
  · next hp => exact h' hp

theorem same_ite_bool {b b' : Bool} {x x' : Res α} {y y' : Res β} (e : b = b') (h : Same R x y)
    (h' : Same R x' y') : Same R (if b = true then x else x') (if b' = true then y else y') := by
  subst e
  exact same_ite (fun _ => h) (fun _ => h')

theorem same_forUp {lo hi : Nat} {s : α} {s' : β} {body : Nat → α → Res α} {body' : Nat → β → Res β} (hs : R s s')
    (h : ∀ k s s', R s s' → Same R (body k s) (body' k s')) : Same R (forUp lo hi s body) (forUp lo hi s' body') := by
  unfold forUp
  generalize hi - lo = cnt
  induction cnt generalizing lo s s' with
  | zero => exact same_ok hs
  | succ cnt ih =>
    unfold loopN
    exact same_bind (h _ _ _ hs) fun a b hab => ih hab

/-- Both fall through, or both return. -/
inductive CtlSame (R : α → β → Prop) (S : γ → δ → Prop) : Ctl α γ → Ctl β δ → Prop
  | cont {s s'} : R s s' → CtlSame R S (.cont s) (.cont s')
  | ret {v v'} : S v v' → CtlSame R S (.ret v) (.ret v')

theorem same_forRet {lo hi : Nat} {s : α} {s' : β} {body : Nat → α → Res (Ctl α γ)} {body' : Nat → β → Res (Ctl β δ)}
    (hs : R s s') (h : ∀ k s s', R s s' → Same (CtlSame R S) (body k s) (body' k s')) :
    Same (CtlSame R S) (forRet lo hi s body) (forRet lo hi s' body') := by
  unfold forRet
  generalize hi - lo = cnt
  induction cnt generalizing lo s s' with
  | zero => exact same_ok (.cont hs)
  | succ cnt ih =>
    unfold loopRetN
    refine same_bind (h _ _ _ hs) fun a b hab => ?_
    cases hab with
    | cont h => exact ih h
    | ret h => exact same_ok (.ret h)

theorem same_map {x : Res α} {y : Res β} {g : α → β} (h : Same (fun a b => g a = b) x y) : x.map g = y := by
  rcases h with ⟨a, b, rfl, rfl, h⟩ | ⟨e, rfl, rfl⟩
  · exact congrArg Except.ok h
  · rfl

end

namespace Fused
variable {F : Fmt} {o : Ex F → Fuse} {r c n : Nat}

/-- Not a product, with the given value. -/
def Is (x : Fused o) (a : Fl F) : Prop := Ex.Settled x ∧ x.get = a

/-- Elements that are not products, with the given values. -/
def IsMat (A : Mat (Fused o) r c) (B : Mat (Fl F) r c) : Prop := ∀ i j, Is (A i j) (B i j)

/-- The given value. -/
def Val (x : Fused o) (a : Fl F) : Prop := x.get = a

variable {A : Mat (Fused o) r c} {B : Mat (Fl F) r c}

theorem same_rd (h : IsMat A B) (i j : Nat) : Same Is (rd A i j) (rd B i j) := by
  unfold rd
  split
  · exact same_ok (h _ _)
  · exact same_error _

theorem same_wr (h : IsMat A B) {a : Fused o} {b : Fl F} (hab : Is a b) (i j : Nat) :
    Same IsMat (wr A i j a) (wr B i j b) := by
  unfold wr
  split
  · refine same_ok (fun p q => ?_)
    simp only [Matrix.of_apply]
    split
    · exact hab
    · exact h p q
  · exact same_error _

variable {x y : Fused o} {a b : Fl F}

theorem Val.mul (hx : Val x a) (hy : Val y b) : Same (Val (o := o)) (CScalar.mul x y) (CScalar.mul a b) := by
  subst hx hy
  exact same_ok rfl

theorem Val.div (hx : Val x a) (hy : Val y b) : Same (Is (o := o)) (CScalar.div x y) (CScalar.div a b) := by
  subst hx hy
  exact same_ok ⟨(fun u v e => nomatch e), rfl⟩

theorem Is.sub (hx : Is x a) (hy : Is y b) : Same (Is (o := o)) (CScalar.sub x y) (CScalar.sub a b) := by
  obtain ⟨hx, rfl⟩ := hx
  obtain ⟨hy, rfl⟩ := hy
  exact same_ok ⟨(fun u v e => nomatch e), Ex.eval_sub_settled o hx hy⟩

theorem Is.add (hx : Is x a) (hy : Is y b) : Same (Is (o := o)) (CScalar.add x y) (CScalar.add a b) := by
  obtain ⟨hx, rfl⟩ := hx
  obtain ⟨hy, rfl⟩ := hy
  exact same_ok ⟨(fun u v e => nomatch e), Ex.eval_add_settled o hx hy⟩

theorem Val.eq (hx : Val x a) (hy : Val y b) : CScalar.eq x y = CScalar.eq a b := by
  subst hx hy
  rfl

theorem val_ofInt (k : Int) : Val (ofInt k : Fused o) (ofInt k) := rfl

theorem is_ofInt (k : Int) : Is (ofInt k : Fused o) (ofInt k) := ⟨(fun _ _ e => nomatch e), rfl⟩

section
variable {A : Mat (Fused o) n n} {B : Mat (Fl F) n n}

theorem same_detProd (h : IsMat A B) {f : Fused o} {g : Fl F} (hf : Val f g) :
    Same Val (detProd A f) (detProd B g) := by
  unfold detProd
  refine same_bind (same_forUp (R := Val) (val_ofInt 1) fun k s s' hs =>
    same_bind (same_rd h k k) fun a b hab => hs.mul hab.2) fun a b hab => ?_
  rcases hab.div hf with ⟨a, b, e1, e2, h⟩ | h
  · exact .inl ⟨a, b, e1, e2, h.2⟩
  · exact .inr h

theorem same_detSearch (h : IsMat A B) (r : Nat) :
    ∀ fuel i pivot, Same (· = ·) (detSearch A r fuel i pivot) (detSearch B r fuel i pivot)
  | 0, _, _ => same_error _
  | fuel + 1, i, pivot => by
    unfold detSearch
    refine same_bind (same_rd h _ _) fun a b hab =>
      same_ite_bool (Val.eq hab.2 (val_ofInt 0)) ?_ (same_ok rfl)
    refine same_ite (fun _ => same_ite (fun _ => same_ok rfl) (fun _ => ?_)) (fun _ => ?_)
    · exact same_detSearch h r fuel _ _
    · exact same_detSearch h r fuel _ _

theorem same_detEliminate (h : IsMat A B) (r pivot : Nat) :
    Same IsMat (detEliminate A r pivot) (detEliminate B r pivot) := by
  unfold detEliminate
  refine same_forUp h fun i S S' hS => same_ite (fun _ => ?_) (fun _ => same_ok hS)
  refine same_bind (same_rd hS _ _) fun v w hv => same_forUp hS fun j S S' hS => ?_
  refine same_bind (same_rd hS _ _) fun a b hab => same_bind (Val.mul hv.2 hab.2) fun m m' hm =>
    same_bind (same_rd hS _ _) fun d d' hd => same_bind (Val.div hm hd.2) fun q q' hq =>
    same_bind (same_rd hS _ _) fun e e' he => same_bind (he.sub hq) fun z z' hz => same_wr hS hz _ _

theorem same_swapElem (h : IsMat A B) (i1 j1 i2 j2 : Nat) :
    Same IsMat (swapElem A i1 j1 i2 j2) (swapElem B i1 j1 i2 j2) := by
  unfold swapElem
  exact same_bind (same_rd h _ _) fun a b hab => same_bind (same_rd h _ _) fun c d hcd =>
    same_bind (same_wr h hcd _ _) fun S S' hS => same_wr hS hab _ _

theorem same_swap_rows (h : IsMat A B) (i j : Nat) : Same IsMat (swap_rows A i j) (swap_rows B i j) := by
  unfold swap_rows
  exact same_ite (fun _ => same_forUp h fun k S S' hS => same_swapElem hS _ _ _ _) (fun _ => same_ok h)

/-- Corresponding locals of the general determinant. -/
def IsState (s : DetState (Fused o) n) (s' : DetState (Fl F) n) : Prop :=
  IsMat s.A s'.A ∧ Val s.factor s'.factor ∧ s.pivot = s'.pivot

theorem same_detSwap (h : IsMat A B) {f : Fused o} {g : Fl F} (hf : Val f g) (i r : Nat) :
    Same (fun s s' => IsMat s.1 s'.1 ∧ Val s.2 s'.2) (detSwap A f i r) (detSwap B g i r) := by
  unfold detSwap
  refine same_ite (fun _ => ?_) (fun _ => same_ok ⟨h, hf⟩)
  exact same_bind (same_swap_rows h _ _) fun S S' hS => same_bind (hf.mul (val_ofInt (-1))) fun a b hab =>
    same_ok ⟨hS, hab⟩

theorem same_detStep (r : Nat) {s : DetState (Fused o) n} {s' : DetState (Fl F) n} (h : IsState s s') :
    Same (CtlSame IsState Val) (detStep r s) (detStep r s') := by
  obtain ⟨A, f, p⟩ := s
  obtain ⟨B, g, p'⟩ := s'
  obtain ⟨hA, hf, hp⟩ := h
  dsimp only at hA hf hp
  subst hp
  unfold detStep
  dsimp only
  have hprod : Same (CtlSame IsState Val) (do return .ret (← detProd A f) : Res (Ctl (DetState (Fused o) n) (Fused o)))
      (do return .ret (← detProd B g) : Res (Ctl (DetState (Fl F) n) (Fl F))) :=
    same_bind (same_detProd hA hf) fun _ _ h => same_ok (.ret h)
  refine same_ite (fun _ => hprod) (fun _ => ?_)
  refine same_bind (same_detSearch hA r _ _ _) fun a b hab => ?_
  subst hab
  cases a with
  | none => exact hprod
  | some q =>
    obtain ⟨i, pivot⟩ := q
    refine same_bind (same_detSwap hA hf i r) fun s s' hs => ?_
    obtain ⟨S, f⟩ := s
    obtain ⟨S', f'⟩ := s'
    exact same_bind (same_detEliminate hs.1 r pivot) fun _ _ h => same_ok (.cont ⟨h, hs.2, rfl⟩)

theorem same_detN (h : IsMat A B) : Same Val (detN A) (detN B) := by
  unfold detN
  refine same_bind (same_forRet (R := IsState) (S := Val) ⟨h, val_ofInt 1, rfl⟩ fun k s s' hs => same_detStep k hs)
    fun a b hab => ?_
  cases hab with
  | cont h => exact same_detProd h.1 h.2.1
  | ret h => exact same_ok h

theorem same_det (hn : n ≠ 2 ∧ n ≠ 3) (h : IsMat A B) : Same Val (det A) (det B) := by
  match n, hn, A, B, h with
  | 0, _, A, B, h => exact same_detN h
  | 1, _, A, B, h =>
    show Same Val (rd A 0 0) (rd B 0 0)
    rcases same_rd h 0 0 with ⟨a, b, e1, e2, h⟩ | h
    · exact .inl ⟨a, b, e1, e2, h.2⟩
    · exact .inr h
  | 2, hn, A, B, h => exact absurd rfl hn.1
  | 3, hn, A, B, h => exact absurd rfl hn.2
  | n + 4, _, A, B, h => exact same_detN h

end

/-- Elements with the given values. -/
def ValMat (A : Mat (Fused o) r c) (B : Mat (Fl F) r c) : Prop := ∀ i j, Val (A i j) (B i j)

theorem same_wr_val (h : ValMat A B) {a : Fused o} {b : Fl F} (hab : Val a b) (i j : Nat) :
    Same ValMat (wr A i j a) (wr B i j b) := by
  unfold wr
  split
  · refine same_ok (fun p q => ?_)
    simp only [Matrix.of_apply]
    split
    · exact hab
    · exact h p q
  · exact same_error _

theorem same_rd_val (h : ValMat A B) (i j : Nat) : Same Val (rd A i j) (rd B i j) := by
  unfold rd
  split
  · exact same_ok (h _ _)
  · exact same_error _

theorem same_div (handled : Option Exc) (h : ValMat A B) (hx : Val x a) :
    Same ValMat (div handled A x) (div handled B a) := by
  unfold div
  refine same_ite_bool (hx.eq (val_ofInt 0)) ?_ ?_
  · unfold bareThrow
    cases handled <;> exact same_error _
  · refine same_forUp (R := ValMat) (fun _ _ => rfl) fun i S S' hS => same_forUp hS fun j S S' hS => ?_
    refine same_bind (same_rd_val h _ _) fun u v hu => same_bind (Val.div hu hx) fun q q' hq =>
      same_wr_val hS hq.2 _ _

theorem same_getminor {A : Mat (Fused o) n n} {B : Mat (Fl F) n n} (h : IsMat A B) (i j : Nat) :
    Same IsMat (getminor A i j) (getminor B i j) := by
  unfold getminor
  let Q : ∀ s : Mat (Fused o) (n - 1) (n - 1) × Nat, ∀ s' : Mat (Fl F) (n - 1) (n - 1) × Nat, Prop :=
    fun s s' => IsMat s.1 s'.1 ∧ s.2 = s'.2
  have hinit : IsMat (valueInit (n - 1) (n - 1) : Mat (Fused o) _ _) (valueInit (n - 1) (n - 1) : Mat (Fl F) _ _) :=
    fun _ _ => is_ofInt 0
  refine same_bind (R := Q) (same_forUp ⟨hinit, rfl⟩ fun k s s' hs => ?_) fun s s' hs => same_ok hs.1
  obtain ⟨S, a⟩ := s
  obtain ⟨S', a'⟩ := s'
  obtain ⟨hS, ha⟩ := hs
  dsimp only at hS ha
  subst ha
  refine same_ite (fun _ => ?_) (fun _ => same_ok ⟨hS, rfl⟩)
  refine same_bind (R := Q) (same_forUp ⟨hS, rfl⟩ fun l t t' ht => ?_) fun t t' ht => same_ok ⟨ht.1, rfl⟩
  obtain ⟨S, b⟩ := t
  obtain ⟨S', b'⟩ := t'
  obtain ⟨hS, hb⟩ := ht
  dsimp only at hS hb
  subst hb
  refine same_ite (fun _ => ?_) (fun _ => same_ok ⟨hS, rfl⟩)
  exact same_bind (same_rd h k l) fun x y hxy => same_bind (same_wr hS hxy _ _) fun S S' hS => same_ok ⟨hS, rfl⟩

theorem same_invN {m : Nat} (hm : m + 1 ≠ 2 ∧ m + 1 ≠ 3 ∧ m + 1 ≠ 4) (handled : Option Exc)
    {A : Mat (Fused o) (m + 1) (m + 1)}
    {B : Mat (Fl F) (m + 1) (m + 1)} (h : IsMat A B) : Same ValMat (invN handled A) (invN handled B) := by
  unfold invN
  refine same_bind (same_det ⟨hm.1, hm.2.1⟩ h) fun d d' hd => same_bind (R := ValMat) ?_ fun S S' hS => ?_
  · refine same_forUp (R := ValMat) (fun _ _ => rfl) fun i S S' hS => same_forUp hS fun j S S' hS => ?_
    refine same_bind (same_getminor h i j) fun M M' hM => same_bind (same_det (by omega) hM) fun e e' he =>
      same_bind (Val.mul (val_ofInt _) he) fun q q' hq => same_wr_val hS hq _ _
  · rw [trans_ok, trans_ok, ok_bind, ok_bind]
    exact same_div handled (fun i j => hS j i) hd

/-! ## Sums of elements that are not products -/

theorem same_sum {A' : Mat (Fused o) r c} {B' : Mat (Fl F) r c} (h : IsMat A B) (h' : IsMat A' B') :
    Same ValMat (sum A A') (sum B B') := by
  unfold sum
  refine same_forUp (R := ValMat) (fun _ _ => rfl) fun i S S' hS => same_forUp hS fun j S S' hS =>
    same_bind (same_rd h _ _) fun a b hab => same_bind (same_rd h' _ _) fun a' b' hab' =>
    same_bind (hab.add hab') fun a b hab => same_wr_val hS hab.2 _ _

theorem same_sub {A' : Mat (Fused o) r c} {B' : Mat (Fl F) r c} (h : IsMat A B) (h' : IsMat A' B') :
    Same ValMat (MatrixLibs.sub A A') (MatrixLibs.sub B B') := by
  unfold MatrixLibs.sub
  refine same_forUp (R := ValMat) (fun _ _ => rfl) fun i S S' hS => same_forUp hS fun j S S' hS =>
    same_bind (same_rd h _ _) fun a b hab => same_bind (same_rd h' _ _) fun a' b' hab' =>
    same_bind (hab.sub hab') fun a b hab => same_wr_val hS hab.2 _ _

theorem same_sumScalar (h : IsMat A B) (hx : Is x a) : Same ValMat (sumScalar A x) (sumScalar B a) := by
  unfold sumScalar
  refine same_forUp (R := ValMat) (fun _ _ => rfl) fun i S S' hS => same_forUp hS fun j S S' hS =>
    same_bind (same_rd h _ _) fun a b hab => same_bind (hab.add hx) fun a b hab => same_wr_val hS hab.2 _ _

theorem same_subScalar (h : IsMat A B) (hx : Is x a) : Same ValMat (subScalar A x) (subScalar B a) := by
  unfold subScalar
  refine same_forUp (R := ValMat) (fun _ _ => rfl) fun i S S' hS => same_forUp hS fun j S S' hS =>
    same_bind (same_rd h _ _) fun a b hab => same_bind (hab.sub hx) fun a b hab => same_wr_val hS hab.2 _ _

theorem same_multScalar (h : ValMat A B) (hx : Val x a) : Same ValMat (multScalar A x) (multScalar B a) := by
  unfold multScalar
  refine same_forUp (R := ValMat) (fun _ _ => rfl) fun i S S' hS => same_forUp hS fun j S S' hS =>
    same_bind (same_rd_val h _ _) fun a b hab => same_bind (hab.mul hx) fun a b hab => same_wr_val hS hab _ _

theorem _root_.MatrixLibs.Same.val {x : Res (Fused o)} {y : Res (Fl F)} (h : Same Is x y) : Same Val x y := by
  rcases h with ⟨a, b, e1, e2, h⟩ | h
  · exact .inl ⟨a, b, e1, e2, h.2⟩
  · exact .inr h

theorem same_mean (h : IsMat A B) : Same Is (mean A) (mean B) := by
  unfold mean
  refine same_bind (R := Is) (same_forUp (is_ofInt 0) fun i s s' hs => same_forUp hs fun j s s' hs =>
    same_bind (same_rd h _ _) fun a b hab => hs.add hab) fun a b hab => ?_
  exact same_ok ⟨(fun _ _ e => nomatch e), congrArg (fun z => Fl.div z (Fl.ofInt _)) hab.2⟩

theorem load_is (id : Fin r → Fin c → Nat) (B : Mat (Fl F) r c) : IsMat (load (o := o) id B) B :=
  fun _ _ => ⟨(fun _ _ e => nomatch e), rfl⟩

theorem mk_is (id : Nat) (a : Fl F) : Is (mk (o := o) id a) a := ⟨(fun _ _ e => nomatch e), rfl⟩

theorem map_val {x : Res (Fused o)} {y : Res (Fl F)} (h : Same Val x y) : x.map get = y := same_map h

theorem map_valMat {x : Res (Mat (Fused o) r c)} {y : Res (Mat (Fl F) r c)} (h : Same ValMat x y) :
    x.map (fun M => Matrix.map M get) = y :=
  same_map (by
    rcases h with ⟨a, b, e1, e2, h⟩ | h
    · exact .inl ⟨a, b, e1, e2, by funext i j; exact h i j⟩
    · exact .inr h)

end Fused
end MatrixLibs
