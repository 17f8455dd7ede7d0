import Verif.Model.Count
import Verif.Spec.Count
import Verif.Proof.Alloc
import Verif.Proof.Conv
import Mathlib.Data.Nat.Digits.Lemmas
import Mathlib.Algebra.BigOperators.Intervals
import Mathlib.Algebra.BigOperators.Pi

/-!
# Counting operations
-/

namespace MatrixLibs

set_option linter.unusedSectionVars false

variable {T : Type} [Inhabited T] [CScalar T] {i j n : Nat} {σ ρ α β : Type}

open CScalar (ofInt)

/-! ## Outcomes -/

theorem returns_lift (x : Res α) : HasOutcome (liftRes x) x := fun _ => rfl
theorem returns_pure (a : α) : HasOutcome (pure a : Counted α) (.ok a) := fun _ => rfl
theorem returns_pure' (a : α) : HasOutcome (pure a : Counted α) (pure a) := fun _ => rfl

theorem returns_bind {x : Counted α} {y : Res α} {f : α → Counted β} {g : α → Res β} (h : HasOutcome x y)
    (hf : ∀ v, HasOutcome (f v) (g v)) : HasOutcome (x >>= f) (y >>= g) := by
  intro k
  show ((x >>= f) k).1 = (y >>= g)
  rw [run_bind]
  have h1 := h k
  rcases hx : x k with ⟨v | v, k'⟩
  · rw [hx] at h1
    change Except.error v = y at h1
    rw [← h1]; rfl
  · rw [hx] at h1
    change Except.ok v = y at h1
    rw [← h1]
    exact hf v k'

theorem returns_ite {p : Prop} [Decidable p] {x x' : Counted α} {y y' : Res α} (h : p → HasOutcome x y)
    (h' : ¬ p → HasOutcome x' y') : HasOutcome (if p then x else x') (if p then y else y') := by
  split
  · exact h ‹_›
  · exact h' ‹_›

theorem returns_loop {body : Nat → σ → Counted σ} {body' : Nat → σ → Res σ} (h : ∀ k s, HasOutcome (body k s) (body' k s)) :
    ∀ cnt k s, HasOutcome (Count.loopN body cnt k s) (loopN body' cnt k s) := by
  intro cnt
  induction cnt with
  | zero => intro k s; exact returns_pure s
  | succ n ih => intro k s; exact returns_bind (h k s) fun v => ih _ _

theorem returns_forUp {lo hi : Nat} {s : σ} {body : Nat → σ → Counted σ} {body' : Nat → σ → Res σ}
    (h : ∀ k s, HasOutcome (body k s) (body' k s)) : HasOutcome (Count.forUp lo hi s body) (forUp lo hi s body') :=
  returns_loop h _ _ _

theorem returns_loopRet {body : Nat → σ → Counted (Ctl σ ρ)} {body' : Nat → σ → Res (Ctl σ ρ)}
    (h : ∀ k s, HasOutcome (body k s) (body' k s)) :
    ∀ cnt k s, HasOutcome (Count.loopRetN body cnt k s) (loopRetN body' cnt k s) := by
  intro cnt
  induction cnt with
  | zero => intro k s; exact returns_pure _
  | succ n ih =>
    intro k s
    refine returns_bind (h k s) fun v => ?_
    cases v with
    | cont s => exact ih _ _
    | ret v => exact returns_pure _

theorem returns_forRet {lo hi : Nat} {s : σ} {body : Nat → σ → Counted (Ctl σ ρ)} {body' : Nat → σ → Res (Ctl σ ρ)}
    (h : ∀ k s, HasOutcome (body k s) (body' k s)) : HasOutcome (Count.forRet lo hi s body) (forRet lo hi s body') :=
  returns_loopRet h _ _ _

theorem returns_add (a b : T) : HasOutcome (Count.cAdd a b) (CScalar.add a b) := fun _ => rfl
theorem returns_sub (a b : T) : HasOutcome (Count.cSub a b) (CScalar.sub a b) := fun _ => rfl
theorem returns_mul (a b : T) : HasOutcome (Count.cMul a b) (CScalar.mul a b) := fun _ => rfl
theorem returns_div (a b : T) : HasOutcome (Count.cDiv a b) (CScalar.div a b) := fun _ => rfl
theorem returns_neg (a : T) : HasOutcome (Count.cNeg a) (CScalar.neg a) := fun _ => rfl
theorem returns_abs (a : T) : HasOutcome (Count.cAbs a) (CScalar.abs a) := fun _ => rfl
theorem returns_sqrt (a : T) : HasOutcome (Count.cSqrt a) (CScalar.sqrt a) := fun _ => rfl
theorem returns_divSize (a : T) (n : Nat) : HasOutcome (Count.cDivSize a n) (CScalar.divSize a n) := fun _ => rfl

macro "returns_step" : tactic => `(tactic| with_reducible first
  | exact returns_lift _ | exact returns_pure _ | exact returns_pure' _
  | exact returns_add _ _ | exact returns_sub _ _ | exact returns_mul _ _ | exact returns_div _ _
  | exact returns_neg _ | exact returns_abs _ | exact returns_sqrt _ | exact returns_divSize _ _
  | refine returns_forUp (fun _ _ => ?_) | refine returns_forRet (fun _ _ => ?_)
  | refine returns_ite (fun _ => ?_) (fun _ => ?_)
  | refine returns_bind ?_ (fun _ => ?_))

macro "returns" : tactic => `(tactic| repeat' returns_step)

theorem returns_sumFn (A B : Mat T i j) : HasOutcome (Count.sum A B) (sum A B) := by unfold Count.sum sum; returns
theorem returns_sumScalar (A : Mat T i j) (s : T) : HasOutcome (Count.sumScalar A s) (sumScalar A s) := by
  unfold Count.sumScalar sumScalar; returns
theorem returns_subFn (A B : Mat T i j) : HasOutcome (Count.sub A B) (sub A B) := by unfold Count.sub sub; returns
theorem returns_subScalar (A : Mat T i j) (s : T) : HasOutcome (Count.subScalar A s) (subScalar A s) := by
  unfold Count.subScalar subScalar; returns
theorem returns_mult {m p : Nat} (A : Mat T n m) (B : Mat T m p) : HasOutcome (Count.mult A B) (mult A B) := by
  unfold Count.mult mult; returns
theorem returns_multScalar (A : Mat T i j) (s : T) : HasOutcome (Count.multScalar A s) (multScalar A s) := by
  unfold Count.multScalar multScalar; returns
theorem returns_divFn (handled : Option Exc) (A : Mat T i j) (s : T) : HasOutcome (Count.div handled A s) (div handled A s) := by
  unfold Count.div div; returns
theorem returns_absFn (A : Mat T i j) : HasOutcome (Count.abs A) (abs A) := by unfold Count.abs abs; returns
theorem returns_strassen (A B : Mat T 2 2) : HasOutcome (Count.strassen A B) (strassen A B) := by
  unfold Count.strassen strassen; returns
theorem returns_det2 (A : Mat T 2 2) : HasOutcome (Count.det2 A) (det2 A) := by unfold Count.det2 det2; returns
theorem returns_det3 (A : Mat T 3 3) : HasOutcome (Count.det3 A) (det3 A) := by unfold Count.det3 det3; returns
theorem returns_detProd (A : Mat T n n) (f : T) : HasOutcome (Count.detProd A f) (detProd A f) := by
  unfold Count.detProd detProd; returns
theorem returns_detEliminate (A : Mat T n n) (r p : Nat) : HasOutcome (Count.detEliminate A r p) (detEliminate A r p) := by
  unfold Count.detEliminate detEliminate; returns
theorem returns_detSwap (A : Mat T n n) (f : T) (i r : Nat) : HasOutcome (Count.detSwap A f i r) (detSwap A f i r) := by
  unfold Count.detSwap detSwap; returns
theorem returns_detStep (r : Nat) (s : DetState T n) : HasOutcome (Count.detStep r s) (detStep r s) := by
  unfold Count.detStep detStep
  refine returns_ite (fun _ => returns_bind (returns_detProd _ _) fun _ => returns_pure' _) fun _ => ?_
  refine returns_bind (returns_lift _) fun v => ?_
  cases v with
  | none => exact returns_bind (returns_detProd _ _) fun _ => returns_pure' _
  | some q => exact returns_bind (returns_detSwap _ _ _ _) fun w => returns_bind (returns_detEliminate _ _ _) fun _ => returns_pure' _
theorem returns_detN (A : Mat T n n) : HasOutcome (Count.detN A) (detN A) := by
  unfold Count.detN detN
  refine returns_bind (returns_forRet fun r s => returns_detStep r s) fun v => ?_
  cases v with
  | ret v => exact returns_pure _
  | cont s => exact returns_detProd _ _
theorem returns_det (A : Mat T n n) : HasOutcome (Count.det A) (det A) :=
  match n, A with
  | 0, A => returns_detN A
  | 1, _ => returns_lift _
  | 2, A => returns_det2 A
  | 3, A => returns_det3 A
  | _ + 4, A => returns_detN A
theorem returns_cross (p q r s : T) : HasOutcome (Count.cross p q r s) (cross p q r s) := by
  unfold Count.cross cross; returns
theorem returns_inv (handled : Option Exc) (A : Mat T n n) : HasOutcome (Count.inv handled A) (inv handled A) :=
  match n, A with
  | 0, _ => returns_lift _
  | 1, A => by
    show HasOutcome (Count.inv1 A) (inv1 A)
    unfold Count.inv1 inv1; returns
  | 2, A => by
    show HasOutcome (Count.inv2 handled A) (inv2 handled A)
    unfold Count.inv2 inv2 opDiv
    repeat' with_reducible first | exact returns_det2 _ | exact returns_divFn _ _ _ | returns_step
  | 3, A => by
    show HasOutcome (Count.inv3 handled A) (inv3 handled A)
    unfold Count.inv3 inv3 opDiv
    repeat' with_reducible first | exact returns_det3 _ | exact returns_cross _ _ _ _ | exact returns_divFn _ _ _ | returns_step
  | m + 4, A => by
    show HasOutcome (Count.invN handled A) (invN handled A)
    unfold Count.invN invN opDiv
    repeat' with_reducible first | exact returns_det _ | exact returns_divFn _ _ _ | returns_step
theorem returns_luSum (L U : Mat T n n) (i j : Nat) : HasOutcome (Count.luSum L U i j) (luSum L U i j) := by
  unfold Count.luSum luSum; returns
theorem returns_lu (A : Mat T n n) : HasOutcome (Count.lu A) (lu A) := by
  unfold Count.lu lu
  refine returns_bind (returns_lift _) fun _ => returns_bind (returns_lift _) fun _ => returns_forUp fun k s => ?_
  unfold Count.luUpper luUpper Count.luLower luLower
  repeat' with_reducible first | exact returns_luSum _ _ _ _ | returns_step
theorem returns_cholSum (L : Mat T n n) (i j : Nat) : HasOutcome (Count.cholSum L i j) (cholSum L i j) := by
  unfold Count.cholSum cholSum; returns
theorem returns_chol (A : Mat T n n) : HasOutcome (Count.chol A) (chol A) := by
  unfold Count.chol chol Count.cholStep cholStep
  repeat' with_reducible first | exact returns_cholSum _ _ _ | returns_step
theorem returns_powFuel (handled : Option Exc) (w d : Nat) : ∀ (A : Mat T n n) (p : Int),
    HasOutcome (Count.powFuel handled w d A p) (powFuel handled w d A p) := by
  induction d with
  | zero => intro A p; exact returns_lift _
  | succ d ih =>
    intro A p
    unfold Count.powFuel powFuel opMul
    repeat' with_reducible first | exact ih _ _ | exact returns_inv _ _ | exact returns_mult _ _ | returns_step
theorem returns_convTerm (A : Mat T i j) (K : Mat T 3 3) (u v a b : Nat) :
    HasOutcome (Count.convTerm A K u v a b) (convTerm A K u v a b) := by
  unfold Count.convTerm convTerm; returns
theorem returns_addTo (A : Mat T i j) (a b : Nat) (x : T) : HasOutcome (Count.addTo A a b x) (addTo A a b x) := by
  unfold Count.addTo addTo; returns
theorem returns_conv2 (A : Mat T i j) (K : Mat T 3 3) : HasOutcome (Count.conv2 A K) (conv2 A K) := by
  unfold Count.conv2 conv2
  repeat' with_reducible first | exact returns_convTerm _ _ _ _ _ _ | exact returns_addTo _ _ _ _ | returns_step
theorem returns_conv2_full (A : Mat T i j) (K : Mat T 3 3) : HasOutcome (Count.conv2_full A K) (conv2_full A K) := by
  unfold Count.conv2_full conv2_full
  repeat' with_reducible first | exact returns_convTerm _ _ _ _ _ _ | exact returns_addTo _ _ _ _ | returns_step
theorem returns_conv2_valid (A : Mat T n n) (K : Mat T 3 3) : HasOutcome (Count.conv2_valid A K) (conv2_valid A K) := by
  unfold Count.conv2_valid conv2_valid
  repeat' with_reducible first | exact returns_conv2 _ _ | returns_step
theorem returns_mean (A : Mat T i j) : HasOutcome (Count.mean A) (mean A) := by unfold Count.mean mean; returns
theorem returns_var (A : Mat T i j) : HasOutcome (Count.var A) (var A) := by
  unfold Count.var var
  repeat' with_reducible first | exact returns_mean _ | returns_step
theorem returns_stddev (A : Mat T i j) : HasOutcome (Count.stddev A) (stddev A) := by
  unfold Count.stddev stddev
  repeat' with_reducible first | exact returns_var _ | returns_step
theorem returns_median (sort : List T → List T) (A : Mat T i j) : HasOutcome (Count.median sort A) (median sort A) := by
  unfold Count.median median; returns
theorem returns_compareLoop (ex : T → Bool) (A B : Mat T i j) :
    HasOutcome (Count.compareLoop ex A B) (compareLoop ex A B) := by
  unfold Count.compareLoop compareLoop
  refine returns_bind ?_ fun v => ?_
  · returns
  · cases v <;> exact returns_pure _

/-! ## Costs -/

theorem performs_lift (x : Res α) : Performs (liftRes x) 0 := fun _ => ⟨le_rfl, fun _ _ => rfl⟩
theorem performs_pure (a : α) : Performs (pure a : Counted α) 0 := fun _ => ⟨le_rfl, fun _ _ => rfl⟩
theorem performs_error (e : Stop) (c : Op → Nat) : Performs (liftRes (.error e) : Counted α) c :=
  fun _ => ⟨le_self_add, fun _ h => nomatch h⟩
theorem performs_bareThrow (handled : Option Exc) (c : Op → Nat) : Performs (liftRes (bareThrow handled) : Counted α) c := by
  cases handled <;> exact performs_error _ _

theorem performs_bind {x : Counted α} {f : α → Counted β} {c d : Op → Nat} (h : Performs x c)
    (hf : ∀ v, Performs (f v) d) : Performs (x >>= f) (c + d) := by
  intro k
  show ((x >>= f) k).2 ≤ _ ∧ ∀ v, ((x >>= f) k).1 = .ok v → ((x >>= f) k).2 = _
  rw [run_bind]
  have h1 := h k
  rcases hx : x k with ⟨v | v, k'⟩
  · rw [hx] at h1
    exact ⟨h1.1.trans (add_le_add_right le_self_add k), fun _ h => nomatch h⟩
  · rw [hx] at h1
    have h2 : k' = k + c := h1.2 v rfl
    have h3 := hf v k'
    rw [h2, add_assoc] at h3
    rw [h2]
    exact h3

theorem performs_ite {p : Prop} [Decidable p] {x x' : Counted α} {c : Op → Nat} (h : p → Performs x c)
    (h' : ¬ p → Performs x' c) : Performs (if p then x else x') c := by
  split
  · exact h ‹_›
  · exact h' ‹_›

theorem performs_tick {x : Counted α} {c : Op → Nat} (o : Op) (h : Performs x c) :
    Performs (bind (Count.tick o) fun _ => x) (Pi.single o 1 + c) := by
  refine performs_bind (fun k => ?_) fun _ => h
  have h : Function.update k o (k o + 1) = k + Pi.single o 1 := by
    funext o'
    by_cases ho : o' = o
    · subst ho; simp
    · simp [ho]
  exact ⟨h.le, fun _ _ => h⟩

theorem performs_add (a b : T) : Performs (Count.cAdd a b) (Pi.single .add 1) := performs_tick _ (performs_lift _)
theorem performs_sub (a b : T) : Performs (Count.cSub a b) (Pi.single .sub 1) := performs_tick _ (performs_lift _)
theorem performs_mul (a b : T) : Performs (Count.cMul a b) (Pi.single .mul 1) := performs_tick _ (performs_lift _)
theorem performs_div (a b : T) : Performs (Count.cDiv a b) (Pi.single .div 1) := performs_tick _ (performs_lift _)
theorem performs_neg (a : T) : Performs (Count.cNeg a) (Pi.single .neg 1) := performs_tick _ (performs_lift _)
theorem performs_abs (a : T) : Performs (Count.cAbs a) (Pi.single .abs 1) := performs_tick _ (performs_lift _)
theorem performs_sqrt (a : T) : Performs (Count.cSqrt a) (Pi.single .sqrt 1) := performs_tick _ (performs_lift _)
theorem performs_divSize (a : T) (n : Nat) : Performs (Count.cDivSize a n) (Pi.single .divSize 1) :=
  performs_tick _ (performs_lift _)

theorem performs_loop {body : Nat → σ → Counted σ} {c : Nat → Op → Nat} : ∀ cnt k s,
    (∀ m s, k ≤ m → m < k + cnt → Performs (body m s) (c m)) →
    Performs (Count.loopN body cnt k s) (∑ m ∈ Finset.Ico k (k + cnt), c m) := by
  intro cnt
  induction cnt with
  | zero =>
    intro k s _
    rw [Nat.add_zero, Finset.Ico_self, Finset.sum_empty]
    exact performs_pure s
  | succ n ih =>
    intro k s h
    rw [Finset.sum_eq_sum_Ico_succ_bot (by omega), show k + (n + 1) = k + 1 + n by omega]
    exact performs_bind (h k s le_rfl (by omega)) fun v => ih (k + 1) v fun m s hm hm' => h m s (by omega) (by omega)

theorem performs_forUp {lo hi : Nat} {s : σ} {body : Nat → σ → Counted σ} (c : Nat → Op → Nat)
    (h : ∀ m s, lo ≤ m → m < hi → Performs (body m s) (c m)) :
    Performs (Count.forUp lo hi s body) (∑ m ∈ Finset.Ico lo hi, c m) := by
  rcases Nat.le_total hi lo with hl | hl
  · rw [Finset.Ico_eq_empty_of_le hl, Finset.sum_empty]
    unfold Count.forUp
    rw [Nat.sub_eq_zero_of_le hl]
    exact performs_pure s
  · have := performs_loop (body := body) (c := c) (hi - lo) lo s fun m s hm hm' => h m s hm (by omega)
    rwa [show lo + (hi - lo) = hi by omega] at this

theorem performs_times {lo hi : Nat} {s : σ} {body : Nat → σ → Counted σ} {c : Op → Nat}
    (h : ∀ m s, lo ≤ m → m < hi → Performs (body m s) c) :
    Performs (Count.forUp lo hi s body) ((hi - lo) • c) := by
  have := performs_forUp (s := s) (body := body) (fun _ => c) h
  rwa [Finset.sum_const, Nat.card_Ico] at this

theorem Performs.of_eq {x : (Op → Nat) → Res α × (Op → Nat)} {c d : Op → Nat} (h : Performs x c) (e : c = d) :
    Performs x d := e ▸ h

/-- Walk through a program in which every path performs the same operations. -/
macro "performs_step" : tactic => `(tactic| with_reducible first
  | exact performs_error _ _ | exact performs_bareThrow _ _ | exact performs_lift _ | exact performs_pure _
  | exact performs_add _ _ | exact performs_sub _ _ | exact performs_mul _ _ | exact performs_div _ _
  | exact performs_neg _ | exact performs_abs _ | exact performs_sqrt _ | exact performs_divSize _ _
  | (apply performs_times; intro _ _ _ _)
  | (apply performs_bind; rotate_left; intro _; rotate_right))

macro "performs" : tactic => `(tactic| repeat' performs_step)

/-- Compare two costs. -/
macro "costs" : tactic => `(tactic|
  (funext o; cases o <;> simp [opCount, Pi.single_apply, Finset.sum_apply, mul_assoc] <;> try ring))

theorem performs_sumFn (A B : Mat T i j) :
    Performs (Count.sum A B) (opCount (add := i * j)) := by
  apply Performs.of_eq
  case h =>
    unfold Count.sum
    performs
  case e => costs

theorem performs_sumScalar (A : Mat T i j) (s : T) :
    Performs (Count.sumScalar A s) (opCount (add := i * j)) := by
  apply Performs.of_eq
  case h =>
    unfold Count.sumScalar
    performs
  case e => costs

theorem performs_subFn (A B : Mat T i j) :
    Performs (Count.sub A B) (opCount (sub := i * j)) := by
  apply Performs.of_eq
  case h =>
    unfold Count.sub
    performs
  case e => costs

theorem performs_subScalar (A : Mat T i j) (s : T) :
    Performs (Count.subScalar A s) (opCount (sub := i * j)) := by
  apply Performs.of_eq
  case h =>
    unfold Count.subScalar
    performs
  case e => costs

theorem performs_mult {m p : Nat} (A : Mat T n m) (B : Mat T m p) :
    Performs (Count.mult A B) (opCount (add := n * p * m) (mul := n * p * m)) := by
  apply Performs.of_eq
  case h =>
    unfold Count.mult
    performs
  case e => costs

theorem performs_multScalar (A : Mat T i j) (s : T) :
    Performs (Count.multScalar A s) (opCount (mul := i * j)) := by
  apply Performs.of_eq
  case h =>
    unfold Count.multScalar
    performs
  case e => costs

theorem performs_divFn (handled : Option Exc) (A : Mat T i j) (s : T) :
    Performs (Count.div handled A s) (opCount (div := i * j)) := by
  unfold Count.div
  refine performs_ite (fun _ => performs_bareThrow _ _) fun _ => ?_
  apply Performs.of_eq
  case h => performs
  case e => costs

theorem performs_absFn (A : Mat T i j) :
    Performs (Count.abs A) (opCount (abs := i * j)) := by
  apply Performs.of_eq
  case h =>
    unfold Count.abs
    performs
  case e => costs

theorem performs_strassen (A B : Mat T 2 2) :
    Performs (Count.strassen A B) (opCount (add := 12) (sub := 6) (mul := 7)) := by
  apply Performs.of_eq
  case h =>
    unfold Count.strassen
    performs
  case e => costs

theorem performs_det2 (A : Mat T 2 2) :
    Performs (Count.det2 A) (opCount (sub := 1) (mul := 2)) := by
  apply Performs.of_eq
  case h =>
    unfold Count.det2
    performs
  case e => costs

theorem performs_det3 (A : Mat T 3 3) :
    Performs (Count.det3 A) (opCount (add := 2) (sub := 3) (mul := 12)) := by
  apply Performs.of_eq
  case h =>
    unfold Count.det3
    performs
  case e => costs

theorem performs_detProd (A : Mat T n n) (f : T) :
    Performs (Count.detProd A f) (opCount (mul := n) (div := 1)) := by
  apply Performs.of_eq
  case h =>
    unfold Count.detProd
    performs
  case e => costs

theorem performs_mean (A : Mat T i j) :
    Performs (Count.mean A) (opCount (add := i * j) (divSize := 1)) := by
  apply Performs.of_eq
  case h =>
    unfold Count.mean
    performs
  case e => costs

theorem performs_var (A : Mat T i j) :
    Performs (Count.var A) (opCount (add := 2 * (i * j)) (sub := 2 * (i * j)) (mul := i * j) (divSize := 2)) := by
  apply Performs.of_eq
  case h =>
    unfold Count.var
    repeat' with_reducible first | exact performs_mean _ | performs_step
  case e => costs

theorem performs_stddev (A : Mat T i j) :
    Performs (Count.stddev A) (opCount (add := 2 * (i * j)) (sub := 2 * (i * j)) (mul := i * j) (sqrt := 1) (divSize := 2)) := by
  apply Performs.of_eq
  case h =>
    unfold Count.stddev
    repeat' with_reducible first | exact performs_var _ | performs_step
  case e => costs

theorem performs_luSum (L U : Mat T n n) (i j : Nat) :
    Performs (Count.luSum L U i j) (opCount (add := i) (mul := i)) := by
  apply Performs.of_eq
  case h =>
    unfold Count.luSum
    performs
  case e => costs

theorem performs_cholSum (L : Mat T n n) (i j : Nat) :
    Performs (Count.cholSum L i j) (opCount (add := i) (mul := i)) := by
  apply Performs.of_eq
  case h =>
    unfold Count.cholSum
    performs
  case e => costs

theorem performs_inv1 (A : Mat T 1 1) : Performs (Count.inv1 A) (opCount (div := 1)) := by
  apply Performs.of_eq
  case h =>
    unfold Count.inv1
    performs
  case e => costs

theorem performs_inv2 (handled : Option Exc) (A : Mat T 2 2) :
    Performs (Count.inv2 handled A) (opCount (sub := 1) (mul := 2) (div := 4) (neg := 2)) := by
  unfold Count.inv2
  refine Performs.of_eq (performs_bind (performs_det2 A)
    fun d => performs_ite (c := opCount (div := 4) (neg := 2)) (fun _ => performs_error _ _) fun _ => ?_) ?_
  · apply Performs.of_eq
    case h => repeat' with_reducible first | exact performs_divFn _ _ _ | performs_step
    case e => costs
  · costs

theorem performs_cross (p q r s : T) : Performs (Count.cross p q r s) (opCount (sub := 1) (mul := 2)) := by
  apply Performs.of_eq
  case h =>
    unfold Count.cross
    performs
  case e => costs

theorem performs_inv3 (handled : Option Exc) (A : Mat T 3 3) :
    Performs (Count.inv3 handled A) (opCount (add := 2) (sub := 12) (mul := 30) (div := 9)) := by
  unfold Count.inv3
  refine Performs.of_eq (d := opCount (add := 2) (sub := 12) (mul := 30) (div := 9)) (performs_bind (performs_det3 A)
    fun d => performs_ite (c := opCount (sub := 9) (mul := 18) (div := 9)) (fun _ => performs_error _ _) fun _ => ?_) ?_
  · apply Performs.of_eq
    case h => repeat' with_reducible first | exact performs_cross _ _ _ _ | exact performs_divFn _ _ _ | performs_step
    case e => costs
  · costs

theorem performs_luUpper (A L : Mat T n n) (j : Nat) (U : Mat T n n) :
    Performs (Count.luUpper A L j U) (∑ i ∈ Finset.Ico 0 (j + 1), opCount (add := i) (sub := 1) (mul := i)) := by
  unfold Count.luUpper
  refine performs_forUp _ fun i U _ _ => ?_
  apply Performs.of_eq
  case h => repeat' with_reducible first | exact performs_luSum _ _ _ _ | performs_step
  case e => costs

theorem performs_luLower (A U : Mat T n n) (j : Nat) (L : Mat T n n) :
    Performs (Count.luLower A U j L) (∑ i ∈ Finset.Ico j n, opCount (add := i) (sub := 1) (mul := i) (div := 1)) := by
  unfold Count.luLower
  refine performs_forUp _ fun i L _ _ => ?_
  refine Performs.of_eq (performs_bind (performs_luSum _ _ _ _) fun s => performs_bind (performs_lift _) fun u =>
    performs_ite (c := opCount (sub := 1) (div := 1)) (fun _ => performs_error _ _) fun _ => ?_) ?_
  · apply Performs.of_eq
    case h => performs
    case e => costs
  · costs

theorem sum_halves (j : Nat) (hj : j ≤ n) :
    ∑ i ∈ Finset.range (j + 1), i + ∑ i ∈ Finset.Ico j n, i = ∑ i ∈ Finset.range n, i + j := by
  rw [Finset.sum_range_succ, add_right_comm, Finset.sum_range_add_sum_Ico _ hj]

theorem performs_lu (A : Mat T n n) : Performs (Count.lu A)
    (opCount (add := (n + 1) * (n * (n - 1) / 2)) (sub := n * (n + 1)) (mul := (n + 1) * (n * (n - 1) / 2))
      (div := n * (n + 1) / 2)) := by
  unfold Count.lu
  refine Performs.of_eq (performs_bind (performs_lift _) fun L => performs_bind (performs_lift _) fun U =>
    performs_forUp (fun j => opCount (add := ∑ i ∈ Finset.range n, i + j) (sub := n + 1) (mul := ∑ i ∈ Finset.range n, i + j)
      (div := n - j)) fun j s _ hj => ?_) ?_
  · refine Performs.of_eq (performs_bind (performs_luUpper _ _ _ _) fun U => performs_bind (performs_luLower _ _ _ _)
      fun L => performs_pure _) ?_
    have := sum_halves j hj.le
    funext o
    cases o <;> simp [opCount, Finset.sum_apply] <;> first | exact this | omega
  · have h1 : ∑ j ∈ Finset.range n, (∑ i ∈ Finset.range n, i + j) = (n + 1) * (n * (n - 1) / 2) := by
      rw [Finset.sum_add_distrib, Finset.sum_const, Finset.card_range, Finset.sum_range_id, smul_eq_mul]
      ring
    have h2 : ∑ j ∈ Finset.range n, (n - j) = n * (n + 1) / 2 := by
      have : ∑ j ∈ Finset.range n, (n - j) = ∑ j ∈ Finset.range (n + 1), j := by
        rw [← Finset.sum_range_reflect (fun j => j) (n + 1), Finset.sum_range_succ]
        simp
      rw [this, Finset.sum_range_id, Nat.add_sub_cancel, Nat.mul_comm]
    funext o
    cases o <;> simp [opCount, Finset.sum_apply] <;> assumption

theorem performs_chol (A : Mat T n n) : Performs (Count.chol A)
    (opCount (add := (n - 1) * n * (n + 1) / 3) (sub := n * (n + 1) / 2) (mul := (n - 1) * n * (n + 1) / 3)
      (div := n * (n - 1) / 2) (sqrt := n)) := by
  unfold Count.chol
  refine Performs.of_eq (performs_forUp (fun i => opCount (add := (i + 1) * i) (sub := i + 1) (mul := (i + 1) * i) (div := i)
    (sqrt := 1)) fun i L _ hi => ?_) ?_
  · refine Performs.of_eq (performs_forUp (fun j => if j = i then opCount (add := i) (sub := 1) (mul := i) (sqrt := 1)
      else opCount (add := i) (sub := 1) (mul := i) (div := 1)) fun j L _ hj => ?_) ?_
    · unfold Count.cholStep
      by_cases h : j = i
      · rw [if_pos h, if_pos h]
        apply Performs.of_eq
        case h => repeat' with_reducible first | exact performs_cholSum _ _ _ | performs_step
        case e => costs
      · rw [if_neg h, if_neg h]
        apply Performs.of_eq
        case h => repeat' with_reducible first | exact performs_cholSum _ _ _ | performs_step
        case e => costs
    · have hc : ∑ j ∈ Finset.range i, (if j = i then opCount (add := i) (sub := 1) (mul := i) (sqrt := 1)
          else opCount (add := i) (sub := 1) (mul := i) (div := 1)) =
          i • opCount (add := i) (sub := 1) (mul := i) (div := 1) := by
        rw [Finset.sum_congr rfl (g := fun _ => opCount (add := i) (sub := 1) (mul := i) (div := 1)), Finset.sum_const,
          Finset.card_range]
        intro j hj
        exact if_neg (Finset.mem_range.mp hj).ne
      rw [← Finset.range_eq_Ico, Finset.sum_range_succ, hc, if_pos rfl]
      funext o
      cases o <;> simp [opCount] <;> ring
  · have h1 : ∀ n, 3 * ∑ i ∈ Finset.range n, (i + 1) * i = (n - 1) * n * (n + 1) := by
      intro n
      induction n with
      | zero => rfl
      | succ m ih =>
        rw [Finset.sum_range_succ, Nat.mul_add, ih]
        cases m with
        | zero => rfl
        | succ k => simp only [Nat.add_sub_cancel]; ring
    have h1 : ∑ i ∈ Finset.range n, (i + 1) * i = (n - 1) * n * (n + 1) / 3 := by
      have := h1 n
      omega
    have h2 : ∑ i ∈ Finset.range n, (i + 1) = n * (n + 1) / 2 := by
      have := Finset.sum_range_succ' (fun i => i) n
      rw [← Nat.add_zero (∑ i ∈ Finset.range n, (i + 1)), ← this, Finset.sum_range_id, Nat.add_sub_cancel, Nat.mul_comm]
    have h3 : ∑ i ∈ Finset.range n, i = n * (n - 1) / 2 := Finset.sum_range_id n
    funext o
    cases o <;> simp [opCount, Finset.sum_apply] <;> assumption

/-! ## Powers -/

theorem powProducts_step (p : Nat) (hp : 2 ≤ p) : powProducts p = powProducts (p / 2) + 1 + p % 2 := by
  unfold powProducts
  have h1 : p.log2 = (p / 2).log2 + 1 := by rw [Nat.log2_def p, if_pos hp]
  have h2 : Nat.digits 2 p = p % 2 :: Nat.digits 2 (p / 2) := Nat.digits_def' (by omega) (by omega)
  have h3 : 1 ≤ (Nat.digits 2 (p / 2)).sum := by
    by_contra h
    have h0 : (Nat.digits 2 (p / 2)).sum = 0 := by omega
    rw [List.sum_eq_zero_iff] at h0
    have hne : p / 2 ≠ 0 := by omega
    exact Nat.getLast_digit_ne_zero 2 hne (h0 _ (List.getLast_mem _))
  rw [h1, h2, List.sum_cons]
  omega

/-- What follows the inversion in `pow`. -/
def powStepC (handled : Option Exc) (w d : Nat) (A : Mat T n n) (p : Nat) : Counted (Mat T n n) := do
  let _ ← liftRes <| ones (T := T) n n
  let powA ← Count.powFuel handled w d A ((p / 2 : Nat) : Int)
  if p % 2 = 0 then Count.mult powA powA
  else Count.mult (← Count.mult powA powA) A

theorem powFuelC_step (handled : Option Exc) (w d : Nat) (A : Mat T n n) (p : Nat) :
    (do
      let _ ← liftRes <| ones (T := T) n n
      let powA ← Count.powFuel handled w d A ((p : Int).tdiv 2)
      if (p : Int).tmod 2 = 0 then Count.mult powA powA
      else Count.mult (← Count.mult powA powA) A : Counted (Mat T n n)) = powStepC handled w d A p := by
  unfold powStepC
  have ht : (p : Int).tdiv 2 = ((p / 2 : Nat) : Int) := rfl
  have hm : (p : Int).tmod 2 = ((p % 2 : Nat) : Int) := rfl
  rw [ht, hm]
  simp only [Int.natCast_eq_zero]

theorem powFuelC_pos (handled : Option Exc) (w d : Nat) (A : Mat T n n) (p : Nat) (hp : 2 ≤ p) :
    Count.powFuel handled w (d + 1) A (p : Int) = powStepC handled w d A p := by
  rw [Count.powFuel, if_neg (by omega), if_neg (by omega), if_neg (by omega)]
  exact powFuelC_step handled w d A p

theorem powFuelC_neg (handled : Option Exc) (w d : Nat) (A : Mat T n n) (p : Int) (hp : p < 0) (hmin : p ≠ expMin w) :
    Count.powFuel handled w (d + 1) A p = (do powStepC handled w d (← Count.inv handled A) p.natAbs) := by
  rw [Count.powFuel, if_neg (by omega), if_neg (by omega), if_pos hp]
  congr 1
  funext B
  rw [if_neg hmin, Int.abs_eq_natAbs]
  exact powFuelC_step handled w d B p.natAbs

theorem performs_powStep {handled : Option Exc} {w d : Nat} {A : Mat T n n} {p c : Nat}
    (h : Performs (Count.powFuel handled w d A ((p / 2 : Nat) : Int)) (c • opCount (add := n * n * n) (mul := n * n * n))) :
    Performs (powStepC handled w d A p) ((c + 1 + p % 2) • opCount (add := n * n * n) (mul := n * n * n)) := by
  unfold powStepC
  refine Performs.of_eq (performs_bind (performs_lift _) fun _ => performs_bind h fun P =>
    (?_ : Performs _ ((1 + p % 2) • opCount (add := n * n * n) (mul := n * n * n)))) ?_
  · by_cases h2 : p % 2 = 0
    · rw [if_pos h2, h2]
      exact Performs.of_eq (performs_mult _ _) (one_smul ℕ _).symm
    · rw [if_neg h2, show p % 2 = 1 by omega]
      exact Performs.of_eq (performs_bind (performs_mult _ _) fun _ => performs_mult _ _) (two_smul ℕ _).symm
  · rw [zero_add, ← add_smul, add_assoc]

theorem performs_powFuel (handled : Option Exc) (w : Nat) (A : Mat T n n) : ∀ (p d : Nat), p.log2 + 1 ≤ d →
    Performs (Count.powFuel handled w d A (p : Int)) (powProducts p • opCount (add := n * n * n) (mul := n * n * n)) := by
  intro p
  induction p using Nat.strong_induction_on with
  | _ p ih =>
    intro d hd
    obtain ⟨d, rfl⟩ : ∃ k, d = k + 1 := ⟨d - 1, by omega⟩
    rcases (show p = 0 ∨ p = 1 ∨ 2 ≤ p by omega) with rfl | rfl | hp
    · exact Performs.of_eq (performs_lift _) (zero_smul ℕ _).symm
    · refine Performs.of_eq (performs_pure _) ?_
      rw [show powProducts 1 = 0 by decide +kernel, zero_smul]
    · have hlog : (p / 2).log2 + 1 ≤ d := by
        rw [Nat.log2_def p, if_pos hp] at hd; omega
      rw [powFuelC_pos _ _ _ _ _ hp, powProducts_step p hp]
      exact performs_powStep (ih (p / 2) (by omega) d hlog)

/-! ## Convolution -/

/-- 1 for an index in range. -/
def inR (i : Nat) (a : ℤ) : Nat := if 0 ≤ a ∧ a < i then 1 else 0

theorem performs_convTerm (A : Mat T i j) (K : Mat T 3 3) (u v : Nat) (a b : ℤ) (hi : i ≤ 2 ^ 31) (hj : j ≤ 2 ^ 31)
    (ha : -(2 ^ 31) ≤ a) (ha' : a < 2 ^ 32) (hb : -(2 ^ 31) ≤ b) (hb' : b < 2 ^ 32) :
    Performs (Count.convTerm A K u v (szOf a) (szOf b)) (opCount (mul := inR i a * inR j b)) := by
  have h := isOutOfRange_eq_zero i j (szToInt (szOf a)) (szToInt (szOf b))
  rw [inRange_iff i (by omega) a ha ha', inRange_iff j (by omega) b hb hb'] at h
  unfold Count.convTerm inR
  by_cases h0 : isOutOfRange i j (szToInt (szOf a)) (szToInt (szOf b)) = 0
  · rw [if_neg (not_not.mpr h0)]
    have h1 := h.mp h0
    rw [if_pos h1.1.1, if_pos h1.2.1]
    apply Performs.of_eq
    case h => performs
    case e => costs
  · rw [if_pos h0]
    refine Performs.of_eq (performs_pure _) ?_
    have h1 : ¬ ((0 ≤ a ∧ a < i) ∧ (0 ≤ b ∧ b < j)) := fun h1 => h0 (h.mpr ⟨⟨h1.1, by omega⟩, h1.2, by omega⟩)
    have h2 : (if 0 ≤ a ∧ a < i then 1 else 0) * (if 0 ≤ b ∧ b < j then 1 else 0) = 0 := by
      split_ifs <;> first | rfl | exact absurd ⟨‹_›, ‹_›⟩ h1
    rw [h2]
    costs

theorem performs_addTo (A : Mat T i j) (a b : Nat) (x : T) : Performs (Count.addTo A a b x) (opCount (add := 1)) := by
  apply Performs.of_eq
  case h =>
    unfold Count.addTo
    performs
  case e => costs

/-- How many of the three indices around `a` are in range. -/
def around (i : Nat) (a : ℤ) : Nat := inR i (a - 1) + inR i a + inR i (a + 1)

/-- The nine statements of one cell. -/
def convCellC (A : Mat T i j) (K : Mat T 3 3) {r c : Nat} (it jt : Nat) (a b : ℤ) (result : Mat T r c) :
    Counted (Mat T r c) := do
  let result ← liftRes <| wr result it jt (ofInt 0)
  let result ← Count.addTo result it jt (← Count.convTerm A K 0 0 (szOf (a - 1)) (szOf (b - 1)))
  let result ← Count.addTo result it jt (← Count.convTerm A K 0 1 (szOf (a - 1)) (szOf b))
  let result ← Count.addTo result it jt (← Count.convTerm A K 0 2 (szOf (a - 1)) (szOf (b + 1)))
  let result ← Count.addTo result it jt (← Count.convTerm A K 1 0 (szOf a) (szOf (b - 1)))
  let result ← Count.addTo result it jt (← Count.convTerm A K 1 1 (szOf a) (szOf b))
  let result ← Count.addTo result it jt (← Count.convTerm A K 1 2 (szOf a) (szOf (b + 1)))
  let result ← Count.addTo result it jt (← Count.convTerm A K 2 0 (szOf (a + 1)) (szOf (b - 1)))
  let result ← Count.addTo result it jt (← Count.convTerm A K 2 1 (szOf (a + 1)) (szOf b))
  Count.addTo result it jt (← Count.convTerm A K 2 2 (szOf (a + 1)) (szOf (b + 1)))

theorem performs_convCell (A : Mat T i j) (K : Mat T 3 3) {r c : Nat} (it jt : Nat) (a b : ℤ) (result : Mat T r c)
    (hi : i ≤ 2 ^ 31) (hj : j ≤ 2 ^ 31) (ha : -1 ≤ a) (ha' : a ≤ 2 ^ 31) (hb : -1 ≤ b) (hb' : b ≤ 2 ^ 31) :
    Performs (convCellC A K it jt a b result) (opCount (add := 9) (mul := around i a * around j b)) := by
  have h : ∀ u v x y, a - 1 ≤ x → x ≤ a + 1 → b - 1 ≤ y → y ≤ b + 1 →
      Performs (Count.convTerm A K u v (szOf x) (szOf y)) (opCount (mul := inR i x * inR j y)) :=
    fun u v x y h1 h2 h3 h4 => performs_convTerm A K u v x y hi hj (by omega) (by omega) (by omega) (by omega)
  apply Performs.of_eq
  case h =>
    unfold convCellC
    repeat' with_reducible first
      | exact performs_addTo _ _ _ _ | exact h _ _ _ _ (by omega) (by omega) (by omega) (by omega) | performs_step
  case e =>
    unfold around
    costs

theorem szSub_one {k : Nat} (hk : k < sizeMod) : szSub k 1 = szOf ((k : ℤ) - 1) := by
  have := szSub_szOf k 1 (by unfold sizeMod; norm_num)
  rw [szOf_nat k hk] at this
  exact_mod_cast this

theorem szAdd_one {k : Nat} (hk : k < sizeMod) : szAdd k 1 = szOf ((k : ℤ) + 1) := by
  have := szAdd_szOf k 1
  rw [szOf_nat k hk] at this
  exact_mod_cast this

theorem szSub_szOf_one (a : ℤ) : szSub (szOf a) 1 = szOf (a - 1) := by
  have := szSub_szOf a 1 (by unfold sizeMod; norm_num)
  exact_mod_cast this

theorem inR_one {i : Nat} {a : ℤ} (h : 0 ≤ a ∧ a < i) : inR i a = 1 := if_pos h
theorem inR_zero {i : Nat} {a : ℤ} (h : ¬ (0 ≤ a ∧ a < i)) : inR i a = 0 := if_neg h

theorem sum_inR {i m : Nat} {f : Nat → ℤ} (h : ∀ k < m, 0 ≤ f k ∧ f k < i) : ∑ k ∈ Finset.range m, inR i (f k) = m := by
  rw [Finset.sum_congr rfl fun k hk => inR_one (h k (Finset.mem_range.mp hk)), Finset.sum_const, Finset.card_range,
    smul_eq_mul, Nat.mul_one]

theorem sum_around (i : Nat) : ∑ k ∈ Finset.range i, around i k = 3 * i - 2 := by
  cases i with
  | zero => rfl
  | succ m =>
    unfold around
    rw [Finset.sum_add_distrib, Finset.sum_add_distrib, Finset.sum_range_succ', sum_inR, inR_zero (by omega), sum_inR,
      Finset.sum_range_succ, sum_inR, inR_zero (by omega)]
    · omega
    all_goals intro k hk; omega

theorem sum_around_full (i : Nat) : ∑ k ∈ Finset.range (i + 2), around i ((k : ℤ) - 1) = 3 * i := by
  unfold around
  rw [Finset.sum_add_distrib, Finset.sum_add_distrib, Finset.sum_range_succ', Finset.sum_range_succ', sum_inR,
    inR_zero (by omega), inR_zero (by omega), Finset.sum_range_succ, Finset.sum_range_succ', sum_inR, inR_zero (by omega),
    inR_zero (by omega), Finset.sum_range_succ, Finset.sum_range_succ, sum_inR, inR_zero (by omega), inR_zero (by omega)]
  · omega
  all_goals intro k hk; omega

theorem performs_cells {r c : Nat} (body : Nat → Nat → Mat T r c → Counted (Mat T r c)) (f g : Nat → Nat) (s : Mat T r c)
    (h : ∀ it jt S, it < r → jt < c → Performs (body it jt S) (opCount (add := 9) (mul := f it * g jt))) :
    Performs (Count.forUp 0 r s fun it S => Count.forUp 0 c S fun jt S => body it jt S)
      (opCount (add := 9 * (r * c)) (mul := (∑ k ∈ Finset.range r, f k) * ∑ k ∈ Finset.range c, g k)) := by
  refine Performs.of_eq (performs_forUp (fun it => opCount (add := 9 * c) (mul := f it * ∑ k ∈ Finset.range c, g k))
    fun it S _ hit => ?_) ?_
  · refine Performs.of_eq (performs_forUp (fun jt => opCount (add := 9) (mul := f it * g jt)) fun jt S _ hjt => h it jt S hit hjt) ?_
    funext o
    cases o <;> simp [opCount, Finset.sum_apply, Finset.mul_sum, Nat.mul_comm]
  · funext o
    cases o <;> simp [opCount, Finset.sum_apply, Finset.sum_mul]
    ring

theorem performs_conv2 (A : Mat T i j) (K : Mat T 3 3) (hi : i ≤ 2 ^ 31) (hj : j ≤ 2 ^ 31) :
    Performs (Count.conv2 A K) (opCount (add := 9 * (i * j)) (mul := (3 * i - 2) * (3 * j - 2))) := by
  rw [← sum_around, ← sum_around]
  unfold Count.conv2
  refine performs_cells _ (fun k => around i k) (fun k => around j k) _ fun it jt S hit hjt => ?_
  have hit' : it < sizeMod := by unfold sizeMod; omega
  have hjt' : jt < sizeMod := by unfold sizeMod; omega
  have := performs_convCell A K it jt (it : ℤ) (jt : ℤ) S hi hj (by omega) (by omega) (by omega) (by omega)
  unfold convCellC at this
  rw [← szSub_one hit', ← szSub_one hjt', ← szAdd_one hit', ← szAdd_one hjt', szOf_nat it hit', szOf_nat jt hjt'] at this
  exact this

theorem performs_conv2_full (A : Mat T i j) (K : Mat T 3 3) (hi : i ≤ 2 ^ 31) (hj : j ≤ 2 ^ 31) :
    Performs (Count.conv2_full A K) (opCount (add := 9 * ((i + 2) * (j + 2))) (mul := 3 * i * (3 * j))) := by
  rw [← sum_around_full, ← sum_around_full]
  unfold Count.conv2_full
  refine performs_cells _ (fun k => around i ((k : ℤ) - 1)) (fun k => around j ((k : ℤ) - 1)) _ fun it jt S hit hjt => ?_
  have hit' : it < sizeMod := by unfold sizeMod; omega
  have hjt' : jt < sizeMod := by unfold sizeMod; omega
  have := performs_convCell A K it jt ((it : ℤ) - 1) ((jt : ℤ) - 1) S hi hj (by omega) (by omega) (by omega) (by omega)
  unfold convCellC at this
  have h4 : ∀ a : ℤ, a + 1 - 1 = a - 1 + 1 := fun a => by ring
  simp only [szSub_one hit', szSub_one hjt', szAdd_one hit', szAdd_one hjt', szSub_szOf_one, h4]
  exact this

theorem performs_conv2_valid (A : Mat T n n) (K : Mat T 3 3) (hn : n ≤ 2 ^ 31) :
    Performs (Count.conv2_valid A K) (opCount (add := 9 * (n * n)) (mul := (3 * n - 2) * (3 * n - 2))) := by
  unfold Count.conv2_valid
  exact Performs.of_eq (performs_bind (performs_conv2 A K hn hn) fun _ => performs_bind (performs_lift _) fun _ =>
    performs_lift _) (add_zero _)

/-! ## Bounds -/

theorem Performs.atMost {x : (Op → Nat) → Res α × (Op → Nat)} {c d : Op → Nat} (h : Performs x c) (e : c ≤ d) :
    PerformsAtMost x d := fun k => (h k).1.trans (add_le_add_right e k)

theorem atMost_bind {x : Counted α} {f : α → Counted β} {c d : Op → Nat} (h : PerformsAtMost x c)
    (hf : ∀ v, PerformsAtMost (f v) d) : PerformsAtMost (x >>= f) (c + d) := by
  intro k
  show ((x >>= f) k).2 ≤ _
  rw [run_bind]
  have h1 := h k
  rcases hx : x k with ⟨v | v, k'⟩
  · rw [hx] at h1
    exact h1.trans (add_le_add_right le_self_add k)
  · rw [hx] at h1
    refine (hf v k').trans ?_
    rw [← add_assoc]
    exact add_le_add_left h1 d

theorem atMost_loop {body : Nat → σ → Counted σ} {c : Op → Nat} : ∀ cnt k s,
    (∀ m s, PerformsAtMost (body m s) c) → PerformsAtMost (Count.loopN body cnt k s) (cnt • c) := by
  intro cnt
  induction cnt with
  | zero => intro k s _; exact (performs_pure s).atMost (zero_smul ℕ c).ge
  | succ n ih =>
    intro k s h
    rw [succ_nsmul']
    exact atMost_bind (h k s) fun v => ih (k + 1) v h

theorem atMost_forUp {lo hi : Nat} {s : σ} {body : Nat → σ → Counted σ} {c : Op → Nat}
    (h : ∀ m s, PerformsAtMost (body m s) c) : PerformsAtMost (Count.forUp lo hi s body) ((hi - lo) • c) :=
  atMost_loop _ _ _ h

theorem PerformsAtMost.mono {x : (Op → Nat) → Res α × (Op → Nat)} {c d : Op → Nat} (h : PerformsAtMost x c) (e : c ≤ d) :
    PerformsAtMost x d := fun k => (h k).trans (add_le_add_right e k)

theorem atMost_loopRet {body : Nat → σ → Counted (Ctl σ ρ)} {c : Op → Nat} : ∀ cnt k s,
    (∀ m s, PerformsAtMost (body m s) c) → PerformsAtMost (Count.loopRetN body cnt k s) (cnt • c) := by
  intro cnt
  induction cnt with
  | zero => intro k s _; exact (performs_pure _).atMost (zero_smul ℕ c).ge
  | succ n ih =>
    intro k s h
    rw [succ_nsmul']
    refine atMost_bind (h k s) fun v => ?_
    cases v with
    | cont s => exact ih (k + 1) s h
    | ret v => exact (performs_pure _).atMost zero_le

theorem atMost_compareLoop (ex : T → Bool) (A B : Mat T i j) :
    PerformsAtMost (Count.compareLoop ex A B) (opCount (sub := i * j) (abs := i * j)) := by
  unfold Count.compareLoop
  refine PerformsAtMost.mono (atMost_bind (d := 0) (atMost_loopRet i 0 () (c := j • opCount (sub := 1) (abs := 1)) fun m s =>
    atMost_loopRet j 0 () fun m' s' => ?_) fun v => ?_) ?_
  · refine Performs.atMost (c := opCount (sub := 1) (abs := 1)) ?_ le_rfl
    refine Performs.of_eq (performs_bind (performs_lift _) fun _ => performs_bind (performs_lift _) fun _ =>
      performs_bind (performs_sub _ _) fun _ => performs_bind (performs_abs _) fun _ =>
      performs_ite (c := 0) (fun _ => performs_pure _) fun _ => performs_pure _) ?_
    costs
  · cases v <;> exact (performs_pure _).atMost le_rfl
  · refine le_of_eq ?_
    costs

theorem performs_median (sort : List T → List T) (A : Mat T i j) :
    Performs (Count.median sort A) (opCount (add := (i * j + 1) % 2) (div := (i * j + 1) % 2)) := by
  unfold Count.median
  refine Performs.of_eq (performs_bind (c := 0) ?_ fun v => performs_bind (performs_lift _) fun w =>
    (?_ : Performs _ (opCount (add := (i * j + 1) % 2) (div := (i * j + 1) % 2)))) ?_
  · apply Performs.of_eq
    case h => performs
    case e => costs
  · by_cases h : i * j % 2 = 0
    · rw [if_pos h, show (i * j + 1) % 2 = 1 by omega]
      apply Performs.of_eq
      case h => performs
      case e => costs
    · rw [if_neg h, show (i * j + 1) % 2 = 0 by omega]
      exact Performs.of_eq (performs_lift _) (by costs)
  · rw [zero_add, zero_add]

/-! ## The determinant -/

theorem detSearch_found (A : Mat T n n) (r fuel : Nat) : ∀ i pivot i' pivot', r ≤ i → i < n →
    detSearch A r fuel i pivot = .ok (some (i', pivot')) → pivot ≤ pivot' ∧ r ≤ i' ∧ i' < n := by
  induction fuel with
  | zero => intro i pivot i' pivot' _ _ h; cases h
  | succ f ih =>
    intro i pivot i' pivot' hr hi h
    unfold detSearch at h
    cases hrd : rd A i pivot with
    | error e => rw [hrd] at h; cases h
    | ok x =>
      rw [hrd] at h
      change (if CScalar.eq x (ofInt 0) then _ else _) = _ at h
      split at h
      · dsimp only at h
        split at h
        · split at h
          · cases h
          · have := ih r (pivot + 1) i' pivot' le_rfl (by omega) h
            omega
        · exact ih (i + 1) pivot i' pivot' (by omega) (by omega) h
      · cases h
        exact ⟨le_rfl, hr, hi⟩

theorem performs_detEliminate (A : Mat T n n) (r pivot : Nat) (h : r ≤ pivot) :
    Performs (Count.detEliminate A r pivot) (((n - (pivot + 1)) * (n - pivot)) • opCount (sub := 1) (mul := 1) (div := 1)) := by
  unfold Count.detEliminate
  rw [mul_smul]
  refine performs_times fun i A hi _ => ?_
  rw [if_pos (by omega)]
  refine Performs.of_eq (performs_bind (performs_lift _) fun _ => performs_times (c := opCount (sub := 1) (mul := 1) (div := 1))
    fun j A _ _ => ?_) (zero_add _)
  apply Performs.of_eq
  case h => performs
  case e => costs

/-- The cost of step `r` of the elimination. -/
def stepCost (n r : Nat) : Op → Nat :=
  opCount (sub := (n - 1 - r) * (n - r)) (mul := (n - 1 - r) * (n - r) + if r + 1 < n then 1 else 0) (div := (n - 1 - r) * (n - r))

/-- The product at the end is only needed if the loop has returned. -/
def endCost (n : Nat) : Res (Ctl σ T) → Op → Nat
  | .ok (.cont _) => 0
  | _ => opCount (mul := n) (div := 1)

/-- The end of `det`, as a return from its loop. -/
theorem detRet_cost (A : Mat T n n) (f : T) (r : Nat) (k : Op → Nat) {x : Counted (Ctl (DetState T n) T)}
    (hx : x = Count.detProd A f >>= fun v => pure (.ret v)) :
    (x k).2 ≤ k + stepCost n r + endCost n (x k).1 ∧ ∀ s', (x k).1 = .ok (.cont s') → r + 1 ≤ s'.pivot := by
  subst hx
  have h := (performs_detProd A f k).1
  rcases hx : Count.detProd A f k with ⟨v | v, k'⟩
  · rw [run_error hx]
    rw [hx] at h
    refine ⟨h.trans (add_le_add_left le_self_add _), fun s' e => ?_⟩
    cases e
  · rw [run_ok hx]
    rw [hx] at h
    refine ⟨h.trans (add_le_add_left le_self_add _), fun s' e => ?_⟩
    cases e

theorem detUpdate_atMost (A : Mat T n n) (f : T) (r i pivot : Nat) (hr : r < n) (hi : r ≤ i) (hin : i < n) (hp : r ≤ pivot) :
    PerformsAtMost (Count.detSwap A f i r >>= fun q => Count.detEliminate q.1 r pivot >>= fun A => pure (A, q.2) :
      Counted (Mat T n n × T)) (stepCost n r) := by
  refine PerformsAtMost.mono (atMost_bind (c := opCount (mul := if r + 1 < n then 1 else 0)) ?_ fun q =>
    PerformsAtMost.mono (d := ((n - 1 - r) * (n - r)) • opCount (sub := 1) (mul := 1) (div := 1))
      (atMost_bind (d := 0) ((performs_detEliminate q.1 r pivot hp).atMost le_rfl) fun _ =>
        (performs_pure _).atMost le_rfl) ?_) ?_
  · unfold Count.detSwap
    split
    · rename_i hne
      rw [if_pos (by omega)]
      refine Performs.atMost (c := opCount (mul := 1)) ?_ le_rfl
      exact Performs.of_eq (performs_bind (performs_lift _) fun _ => performs_bind (performs_mul _ _) fun _ => performs_pure _)
        (by costs)
    · exact (performs_pure _).atMost zero_le
  · rw [add_zero]
    exact nsmul_le_nsmul_left zero_le (Nat.mul_le_mul (by omega) (by omega))
  · refine le_of_eq ?_
    unfold stepCost
    costs

theorem detStep_cost (r : Nat) (s : DetState T n) (hr : r < n) (h : r ≤ s.pivot) (k : Op → Nat) :
    (Count.detStep r s k).2 ≤ k + stepCost n r + endCost n (Count.detStep r s k).1 ∧
    ∀ s', (Count.detStep r s k).1 = .ok (.cont s') → r + 1 ≤ s'.pivot := by
  by_cases hp : n ≤ s.pivot
  · exact detRet_cost s.A s.factor r k (by unfold Count.detStep; rw [if_pos hp])
  · cases hs : detSearch s.A r (n * n + 1) r s.pivot with
    | error e =>
      have hx : Count.detStep r s k = (.error e, k) := by
        unfold Count.detStep; rw [if_neg hp, hs]; rfl
      rw [hx]
      exact ⟨le_add_of_le_of_nonneg le_self_add zero_le, fun s' e => by cases e⟩
    | ok o =>
      cases o with
      | none => exact detRet_cost s.A s.factor r k (by unfold Count.detStep; rw [if_neg hp, hs]; rfl)
      | some q =>
        obtain ⟨i, pivot⟩ := q
        obtain ⟨h1, h2, h3⟩ := detSearch_found s.A r _ _ _ _ _ le_rfl hr hs
        have hx : Count.detStep r s k = ((Count.detSwap s.A s.factor i r >>= fun q =>
            Count.detEliminate q.1 r pivot >>= fun A => pure (A, q.2) : Counted (Mat T n n × T)) >>= fun q =>
              (pure (.cont { A := q.1, factor := q.2, pivot := pivot + 1 }) : Counted (Ctl (DetState T n) T))) k := by
          unfold Count.detStep; rw [if_neg hp, hs, bind_assoc]; simp only [bind_assoc, pure_bind]; rfl
        have hu := detUpdate_atMost s.A s.factor r i pivot hr h2 h3 (by omega) k
        rw [hx]
        rcases hy : (Count.detSwap s.A s.factor i r >>= fun q =>
            Count.detEliminate q.1 r pivot >>= fun A => pure (A, q.2) : Counted (Mat T n n × T)) k with ⟨v | v, k'⟩
        · rw [run_error hy]
          rw [hy] at hu
          exact ⟨le_add_of_le_of_nonneg hu zero_le, fun s' e => by cases e⟩
        · rw [run_ok hy]
          rw [hy] at hu
          refine ⟨le_add_of_le_of_nonneg hu zero_le, fun s' e => ?_⟩
          cases e
          show r + 1 ≤ pivot + 1
          omega

theorem detLoop_cost : ∀ cnt r (s : DetState T n), r + cnt ≤ n → r ≤ s.pivot → ∀ k : Op → Nat,
    (Count.loopRetN Count.detStep cnt r s k).2 ≤
      k + ∑ t ∈ Finset.range cnt, stepCost n (r + t) + endCost n (Count.loopRetN Count.detStep cnt r s k).1 := by
  intro cnt
  induction cnt with
  | zero => intro r s _ _ k; exact le_add_of_le_of_nonneg le_self_add zero_le
  | succ c ih =>
    intro r s hr hs k
    obtain ⟨h1, h2⟩ := detStep_cost r s (by omega) hs k
    have hun : Count.loopRetN Count.detStep (c + 1) r s =
        Count.detStep r s >>= fun
          | .cont s => Count.loopRetN Count.detStep c (r + 1) s
          | .ret v => pure (.ret v) := by
      rw [Count.loopRetN]
      congr 1
      funext x
      cases x <;> rfl
    rw [hun, Finset.sum_range_succ', add_zero]
    have hsum : ∑ t ∈ Finset.range c, stepCost n (r + (t + 1)) = ∑ t ∈ Finset.range c, stepCost n (r + 1 + t) :=
      Finset.sum_congr rfl fun t _ => by rw [show r + (t + 1) = r + 1 + t by omega]
    rw [hsum]
    rcases hx : Count.detStep r s k with ⟨v | v, k'⟩
    · rw [run_error hx]
      rw [hx] at h1
      refine h1.trans (add_le_add_left (add_le_add_right le_add_self _) _)
    · rw [run_ok hx]
      rw [hx] at h1 h2
      cases v with
      | ret v => exact h1.trans (add_le_add_left (add_le_add_right le_add_self _) _)
      | cont s' =>
        refine (ih (r + 1) s' (by omega) (h2 s' rfl) k').trans (add_le_add_left ?_ _)
        change k' ≤ k + stepCost n r + 0 at h1
        rw [add_zero] at h1
        rw [add_comm (∑ t ∈ _, _) (stepCost n r), ← add_assoc]
        exact add_le_add_left h1 _

theorem sum_elim (n : Nat) : ∑ t ∈ Finset.range n, (n - 1 - t) * (n - t) = (n - 1) * n * (n + 1) / 3 := by
  have h : ∀ n : Nat, 3 * ∑ t ∈ Finset.range n, (n - 1 - t) * (n - t) = (n - 1) * n * (n + 1) := by
    intro n
    rw [← Finset.sum_range_reflect]
    have h2 : ∀ m, 3 * ∑ t ∈ Finset.range m, t * (t + 1) = (m - 1) * m * (m + 1) := by
      intro m
      induction m with
      | zero => rfl
      | succ m ih =>
        rw [Finset.sum_range_succ, mul_add, ih]
        cases m with
        | zero => rfl
        | succ m => simp only [Nat.add_sub_cancel]; ring
    rw [← h2 n]
    congr 1
    refine Finset.sum_congr rfl fun t ht => ?_
    have := Finset.mem_range.mp ht
    rw [show n - 1 - (n - 1 - t) = t by omega, show n - (n - 1 - t) = t + 1 by omega]
  have := h n
  omega

theorem card_swaps (n : Nat) : ((Finset.range n).filter fun t => t + 1 < n).card = n - 1 := by
  rw [show (Finset.range n).filter (fun t => t + 1 < n) = Finset.range (n - 1) by
      ext t; simp only [Finset.mem_filter, Finset.mem_range]; omega, Finset.card_range]

/-- The cost of the elimination and the product. -/
def elimCost (n : Nat) : Op → Nat :=
  opCount (sub := (n - 1) * n * (n + 1) / 3) (mul := (n - 1) * n * (n + 1) / 3 + (n - 1) + n)
    (div := (n - 1) * n * (n + 1) / 3 + 1)

theorem atMost_detN (A : Mat T n n) : PerformsAtMost (Count.detN A) (elimCost n) := by
  intro k
  have h := detLoop_cost n 0 { A := A, factor := (CScalar.ofInt 1 : T), pivot := 0 } (by omega) le_rfl k
  have hs : ∑ t ∈ Finset.range n, stepCost n (0 + t) + opCount (mul := n) (div := 1) = elimCost n := by
    funext o
    simp only [Pi.add_apply, Finset.sum_apply, zero_add]
    cases o <;> simp [stepCost, elimCost, opCount, Finset.sum_add_distrib, sum_elim, card_swaps]
  rw [← hs, ← add_assoc]
  have hun : Count.detN A = Count.loopRetN Count.detStep n 0 { A := A, factor := (CScalar.ofInt 1 : T), pivot := 0 } >>= fun
      | .ret v => pure v
      | .cont s => Count.detProd s.A s.factor := rfl
  rw [hun]
  rcases hx : Count.loopRetN Count.detStep n 0 { A := A, factor := (CScalar.ofInt 1 : T), pivot := 0 } k with ⟨v | v, k'⟩
  · rw [run_error hx]
    rw [hx] at h
    exact h
  · rw [run_ok hx]
    rw [hx] at h
    cases v with
    | ret v => exact h
    | cont s =>
      change k' ≤ _ + 0 at h
      rw [add_zero] at h
      exact ((performs_detProd s.A s.factor k').1).trans (add_le_add_left h _)

theorem atMost_det (A : Mat T n n) : PerformsAtMost (Count.det A) (detCost n) := by
  match n, A with
  | 0, A => exact atMost_detN A
  | 1, A => exact (performs_lift _).atMost le_rfl
  | 2, A => exact (performs_det2 A).atMost le_rfl
  | 3, A => exact (performs_det3 A).atMost le_rfl
  | n + 4, A => exact atMost_detN A

theorem atMost_invN (handled : Option Exc) (A : Mat T n n) :
    PerformsAtMost (Count.invN handled A)
      (detCost n + (n * n) • (detCost (n - 1) + opCount (mul := 1) (div := 1))) := by
  unfold Count.invN
  refine PerformsAtMost.mono (atMost_bind (atMost_det A) fun d => atMost_bind (atMost_forUp fun i M => atMost_forUp
    (c := detCost (n - 1) + opCount (mul := 1)) fun j M => ?_) fun M => atMost_bind ((performs_lift _).atMost le_rfl) fun M =>
      (performs_divFn handled M d).atMost le_rfl) ?_
  · refine PerformsAtMost.mono (atMost_bind ((performs_lift _).atMost le_rfl) fun m => atMost_bind (atMost_det m) fun d =>
      (?_ : PerformsAtMost _ (opCount (mul := 1)))) (le_of_eq (zero_add _))
    exact Performs.atMost (performs_bind (performs_mul _ _) fun _ => performs_lift _) (le_of_eq (by costs))
  · refine le_of_eq ?_
    funext o
    cases o <;> simp [opCount] <;> ring

theorem atMost_inv (handled : Option Exc) (A : Mat T n n) : PerformsAtMost (Count.inv handled A) (invCost n) := by
  match n, A with
  | 0, A => exact (performs_lift _).atMost zero_le
  | 1, A => exact (performs_inv1 A).atMost le_rfl
  | 2, A => exact (performs_inv2 handled A).atMost le_rfl
  | 3, A => exact (performs_inv3 handled A).atMost le_rfl
  | n + 4, A => exact atMost_invN handled A

theorem performs_inv_small (handled : Option Exc) (A : Mat T n n) (hn : n ≤ 3) :
    Performs (Count.inv handled A) (invCost n) := by
  match n, A, hn with
  | 0, A, _ => exact fun k => ⟨le_self_add, fun v hv => by cases hv⟩
  | 1, A, _ => exact performs_inv1 A
  | 2, A, _ => exact performs_inv2 handled A
  | 3, A, _ => exact performs_inv3 handled A

theorem powProducts_le (p : Nat) : powProducts p ≤ 2 * p.log2 := by
  induction p using Nat.strong_induction_on with
  | _ p ih =>
    rcases (show p = 0 ∨ p = 1 ∨ 2 ≤ p by omega) with rfl | rfl | hp
    · decide +kernel
    · decide +kernel
    · have := ih (p / 2) (by omega)
      rw [powProducts_step p hp, Nat.log2_def p, if_pos hp]
      omega

/-- The exponent whose magnitude does not fit. -/
theorem powFuelC_min (handled : Option Exc) (w d : Nat) (A : Mat T n n) (hp : expMin w < 0) :
    Count.powFuel handled w (d + 1) A (expMin w) =
      Count.inv handled A >>= fun _ => liftRes (.error (.ub .signedOverflow)) := by
  rw [Count.powFuel, if_neg (by omega), if_neg (by omega), if_pos hp]
  congr 1
  funext B
  rw [if_pos rfl]
  rfl

/-- The number of products after the inversion. -/
theorem powProducts_neg (k : Nat) (hk : 1 ≤ k) :
    powProducts (k / 2) + 1 + k % 2 = if k = 1 then 2 else powProducts k := by
  split
  · subst k; decide +kernel
  · exact (powProducts_step k (by omega)).symm

theorem atMost_pow_neg (handled : Option Exc) (w : Nat) (A : Mat T n n) (p : Int) (hp : p < 0) :
    PerformsAtMost (Count.pow handled w A p)
      (invCost n + (if p = -1 then 2 else powProducts p.natAbs) • opCount (add := n * n * n) (mul := n * n * n)) := by
  unfold Count.pow
  by_cases hm : p = expMin w
  · subst hm
    rw [powFuelC_min handled w _ A hp]
    exact (atMost_bind (atMost_inv handled A) fun _ => (performs_lift _).atMost le_rfl).mono
      (add_le_add_right zero_le _)
  · rw [powFuelC_neg handled w _ A p hp hm]
    refine atMost_bind (atMost_inv handled A) fun B => ?_
    have h := performs_powStep (performs_powFuel handled w B (p.natAbs / 2) (p.natAbs.log2 + 1) ?_) (p := p.natAbs)
    · rw [powProducts_neg p.natAbs (by omega)] at h
      refine h.atMost (le_of_eq ?_)
      congr 1
      split <;> split <;> first | rfl | omega
    · rw [Nat.log2_def p.natAbs]
      by_cases h2 : 2 ≤ p.natAbs
      · rw [if_pos h2]; omega
      · rw [show p.natAbs = 1 by omega]; decide +kernel

theorem performs_pow_neg (handled : Option Exc) (w : Nat) (A : Mat T n n) (p : Int) (hp : p < 0) (hn : n ≤ 3) :
    Performs (Count.pow handled w A p)
      (invCost n + (if p = -1 then 2 else powProducts p.natAbs) • opCount (add := n * n * n) (mul := n * n * n)) := by
  unfold Count.pow
  by_cases hm : p = expMin w
  · refine fun k => ⟨atMost_pow_neg handled w A p hp k, fun v hv => ?_⟩
    subst hm
    rw [powFuelC_min handled w _ A hp] at hv
    rcases hx : Count.inv handled A k with ⟨e | B, k'⟩
    · rw [run_error hx] at hv; cases hv
    · rw [run_ok hx] at hv; cases hv
  · rw [powFuelC_neg handled w _ A p hp hm]
    refine performs_bind (performs_inv_small handled A hn) fun B => ?_
    have h := performs_powStep (performs_powFuel handled w B (p.natAbs / 2) (p.natAbs.log2 + 1) ?_) (p := p.natAbs)
    · rw [powProducts_neg p.natAbs (by omega)] at h
      refine h.of_eq ?_
      congr 1
      split <;> split <;> first | rfl | omega
    · rw [Nat.log2_def p.natAbs]
      by_cases h2 : 2 ≤ p.natAbs
      · rw [if_pos h2]; omega
      · rw [show p.natAbs = 1 by omega]; decide +kernel

/-! ## Lower bounds -/

theorem Performs.atLeast {x : (Op → Nat) → Res α × (Op → Nat)} {c d : Op → Nat} (h : Performs x c) (e : d ≤ c) :
    PerformsAtLeast x d := fun k v hv => ((h k).2 v hv).symm ▸ add_le_add_right e k

theorem PerformsAtLeast.mono {x : (Op → Nat) → Res α × (Op → Nat)} {c d : Op → Nat} (h : PerformsAtLeast x c) (e : d ≤ c) :
    PerformsAtLeast x d := fun k v hv => (add_le_add_right e k).trans (h k v hv)

theorem atLeast_bind {x : Counted α} {f : α → Counted β} {c d : Op → Nat} (h : PerformsAtLeast x c)
    (hf : ∀ v, PerformsAtLeast (f v) d) : PerformsAtLeast (x >>= f) (c + d) := by
  intro k v
  show ((x >>= f) k).1 = .ok v → _ ≤ ((x >>= f) k).2
  rcases hx : x k with ⟨e | w, k'⟩
  · rw [run_error hx]
    intro hv; cases hv
  · rw [run_ok hx]
    intro hv
    have h1 := h k w (by rw [hx])
    rw [hx] at h1
    rw [← add_assoc]
    exact (add_le_add_left h1 d).trans (hf w k' v hv)

theorem atLeast_loop {body : Nat → σ → Counted σ} {c : Op → Nat} : ∀ cnt k s,
    (∀ m s, PerformsAtLeast (body m s) c) → PerformsAtLeast (Count.loopN body cnt k s) (cnt • c) := by
  intro cnt
  induction cnt with
  | zero => intro k s _; exact (performs_pure s).atLeast (zero_smul ℕ c).le
  | succ n ih =>
    intro k s h
    rw [succ_nsmul']
    exact atLeast_bind (h k s) fun v => ih (k + 1) v h

theorem atLeast_forUp {lo hi : Nat} {s : σ} {body : Nat → σ → Counted σ} {c : Op → Nat}
    (h : ∀ m s, PerformsAtLeast (body m s) c) : PerformsAtLeast (Count.forUp lo hi s body) ((hi - lo) • c) :=
  atLeast_loop _ _ _ h

/-- A cost paid on return from a loop. -/
def retCost (c : Op → Nat) : Ctl σ ρ → Op → Nat
  | .ret _ => c
  | .cont _ => 0

/-- A loop that may return: the cost `c` is paid on return. -/
theorem atLeast_loopRet {body : Nat → σ → Counted (Ctl σ ρ)} {c : Op → Nat} : ∀ cnt m s,
    (∀ m s k v, (body m s k).1 = .ok v → k + retCost c v ≤ (body m s k).2) →
    ∀ k v, (Count.loopRetN body cnt m s k).1 = .ok v →
      k + retCost c v ≤ (Count.loopRetN body cnt m s k).2 := by
  intro cnt
  induction cnt with
  | zero => intro m s _ k v hv; cases hv; exact le_of_eq (add_zero k)
  | succ n ih =>
    intro m s h k v
    rw [show Count.loopRetN body (n + 1) m s =
        body m s >>= fun
          | .cont s => Count.loopRetN body n (m + 1) s
          | .ret v => pure (.ret v) by
      rw [Count.loopRetN]
      congr 1]
    rcases hx : body m s k with ⟨e | w, k'⟩
    · rw [run_error hx]
      intro hv; cases hv
    · rw [run_ok hx]
      have h1 := h m s k w (by rw [hx])
      rw [hx] at h1
      cases w with
      | cont s' =>
        intro hv
        change k + 0 ≤ k' at h1
        rw [add_zero] at h1
        exact (add_le_add_left h1 _).trans (ih (m + 1) s' h k' v hv)
      | ret w =>
        intro hv
        cases hv
        exact h1

theorem atLeast_detStep (r : Nat) (s : DetState T n) (k : Op → Nat) (v : Ctl (DetState T n) T)
    (hv : (Count.detStep r s k).1 = .ok v) :
    k + retCost (opCount (mul := n) (div := 1)) v ≤ (Count.detStep r s k).2 := by
  have hret : ∀ x : Counted (Ctl (DetState T n) T), (x = Count.detProd s.A s.factor >>= fun v => pure (.ret v)) →
      (x k).1 = .ok v →
      k + retCost (opCount (mul := n) (div := 1)) v ≤ (x k).2 := by
    intro x hx hv
    have := atLeast_bind (d := 0) ((performs_detProd s.A s.factor).atLeast le_rfl)
      (fun v => (performs_pure (Ctl.ret v : Ctl (DetState T n) T)).atLeast le_rfl)
    rw [← hx, add_zero] at this
    have h := this k v hv
    cases v with
    | ret v => exact h
    | cont s' => exact (add_le_add_right zero_le k).trans h
  by_cases hp : n ≤ s.pivot
  · exact hret _ (by unfold Count.detStep; rw [if_pos hp]) hv
  · cases hs : detSearch s.A r (n * n + 1) r s.pivot with
    | error e =>
      have hx : Count.detStep r s k = (.error e, k) := by
        unfold Count.detStep; rw [if_neg hp, hs]; rfl
      rw [hx] at hv
      cases hv
    | ok o =>
      cases o with
      | none => exact hret _ (by unfold Count.detStep; rw [if_neg hp, hs]; rfl) hv
      | some q =>
        obtain ⟨i, pivot⟩ := q
        have hx : Count.detStep r s = (Count.detSwap s.A s.factor i r >>= fun q =>
            Count.detEliminate q.1 r pivot >>= fun A => (pure (.cont { A := A, factor := q.2, pivot := pivot + 1 }))) := by
          unfold Count.detStep; rw [if_neg hp, hs]; rfl
        have h0 : PerformsAtLeast (Count.detStep r s) 0 := by
          rw [hx]
          refine atLeast_bind (c := 0) (d := 0) ?_ fun q => atLeast_bind (c := 0) (d := 0) ?_ fun A =>
            (performs_pure _).atLeast le_rfl
          · unfold Count.detSwap
            split
            · exact atLeast_bind (c := 0) (d := 0) ((performs_lift _).atLeast le_rfl) fun _ =>
                atLeast_bind (c := 0) (d := 0) ((performs_mul _ _).atLeast zero_le) fun _ => (performs_pure _).atLeast le_rfl
            · exact (performs_pure _).atLeast le_rfl
          · unfold Count.detEliminate
            refine (atLeast_forUp (c := 0) fun i A => ?_).mono zero_le
            split
            · exact atLeast_bind (c := 0) (d := 0) ((performs_lift _).atLeast le_rfl) fun _ =>
                (atLeast_forUp (c := 0) fun j A => atLeast_bind (c := 0) (d := 0) ((performs_lift _).atLeast le_rfl) fun _ =>
                  atLeast_bind (c := 0) (d := 0) ((performs_mul _ _).atLeast zero_le) fun _ =>
                  atLeast_bind (c := 0) (d := 0) ((performs_lift _).atLeast le_rfl) fun _ =>
                  atLeast_bind (c := 0) (d := 0) ((performs_div _ _).atLeast zero_le) fun _ =>
                  atLeast_bind (c := 0) (d := 0) ((performs_lift _).atLeast le_rfl) fun _ =>
                  atLeast_bind (c := 0) (d := 0) ((performs_sub _ _).atLeast zero_le) fun _ =>
                  (performs_lift _).atLeast le_rfl).mono zero_le
            · exact (performs_pure _).atLeast le_rfl
        have hcont : ∃ s', v = .cont s' := by
          rw [hx] at hv
          rcases hy : Count.detSwap s.A s.factor i r k with ⟨e | q, k1⟩
          · rw [run_error hy] at hv; cases hv
          · rw [run_ok hy] at hv
            rcases hz : Count.detEliminate q.1 r pivot k1 with ⟨e | A, k2⟩
            · rw [run_error hz] at hv; cases hv
            · rw [run_ok hz] at hv
              cases hv
              exact ⟨_, rfl⟩
        obtain ⟨s', rfl⟩ := hcont
        exact h0 k _ hv

theorem atLeast_detN (A : Mat T n n) : PerformsAtLeast (Count.detN A) (opCount (mul := n) (div := 1)) := by
  intro k v
  rw [show Count.detN A = Count.loopRetN Count.detStep n 0 { A := A, factor := (CScalar.ofInt 1 : T), pivot := 0 } >>= fun
      | .ret v => pure v
      | .cont s => Count.detProd s.A s.factor from rfl]
  have h := atLeast_loopRet (body := Count.detStep (T := T) (n := n)) n 0 { A := A, factor := (CScalar.ofInt 1 : T), pivot := 0 }
    atLeast_detStep k
  rcases hx : Count.loopRetN Count.detStep n 0 { A := A, factor := (CScalar.ofInt 1 : T), pivot := 0 } k with ⟨e | w, k'⟩
  · rw [run_error hx]
    intro hv; cases hv
  · rw [run_ok hx]
    rw [hx] at h
    cases w with
    | ret w =>
      intro hv
      exact h (.ret w) rfl
    | cont s =>
      intro hv
      have h1 := h (.cont s) rfl
      change k + 0 ≤ k' at h1
      rw [add_zero] at h1
      exact (add_le_add_left h1 _).trans (((performs_detProd s.A s.factor).atLeast le_rfl) k' v hv)

theorem atLeast_invN (handled : Option Exc) (A : Mat T n n) (hn : 4 ≤ n) :
    PerformsAtLeast (Count.invN handled A) (opCount (mul := n + n * n * n) (div := n * n)) := by
  unfold Count.invN
  have hd : PerformsAtLeast (Count.det A) (opCount (mul := n)) := by
    match n, A, hn with
    | n + 4, A, _ => exact (atLeast_detN A).mono (by intro o; cases o <;> simp [opCount])
  have hm : ∀ B : Mat T (n - 1) (n - 1), PerformsAtLeast (Count.det B) (opCount (mul := n - 1)) := by
    match n, hn with
    | 4, _ => exact fun B => (performs_det3 B).atLeast (by intro o; cases o <;> simp [opCount])
    | n + 5, _ => exact fun B => (atLeast_detN B).mono (by intro o; cases o <;> simp [opCount])
  refine PerformsAtLeast.mono (atLeast_bind hd fun d => atLeast_bind (atLeast_forUp fun i M => atLeast_forUp
    (c := opCount (mul := n)) fun j M => ?_) fun M => atLeast_bind ((performs_lift _).atLeast le_rfl) fun M =>
      (performs_divFn handled M d).atLeast le_rfl) ?_
  · refine PerformsAtLeast.mono (atLeast_bind ((performs_lift _).atLeast le_rfl) fun m => atLeast_bind (hm m) fun d =>
      (?_ : PerformsAtLeast _ (opCount (mul := 1)))) (le_of_eq ?_)
    · exact Performs.atLeast (performs_bind (performs_mul _ _) fun _ => performs_lift _) (le_of_eq (by costs))
    · funext o
      cases o <;> simp [opCount]
      omega
  · refine le_of_eq ?_
    funext o
    cases o <;> simp [opCount]
    ring

/-- A loop that may return, and that has paid for every iteration if it does not. -/
theorem loopRet_exact {body : Nat → σ → Counted (Ctl σ ρ)} {c : Op → Nat}
    (h : ∀ m s k s', (body m s k).1 = .ok (.cont s') → (body m s k).2 = k + c) : ∀ cnt m s k s',
    (Count.loopRetN body cnt m s k).1 = .ok (.cont s') → (Count.loopRetN body cnt m s k).2 = k + cnt • c := by
  intro cnt
  induction cnt with
  | zero => intro m s k s' _; rw [zero_smul, add_zero]; rfl
  | succ n ih =>
    intro m s k s'
    rw [show Count.loopRetN body (n + 1) m s =
        body m s >>= fun
          | .cont s => Count.loopRetN body n (m + 1) s
          | .ret v => pure (.ret v) by
      rw [Count.loopRetN]
      congr 1]
    rcases hx : body m s k with ⟨e | w, k'⟩
    · rw [run_error hx]
      intro hv; cases hv
    · rw [run_ok hx]
      cases w with
      | cont s1 =>
        intro hv
        have h1 := h m s k s1 (by rw [hx])
        rw [hx] at h1
        change k' = k + c at h1
        rw [succ_nsmul', ← add_assoc, ← h1]
        exact ih (m + 1) s1 k' s' hv
      | ret w => intro hv; cases hv

/-- What a loop returns is what an iteration has returned. -/
theorem loopRet_ret {body : Nat → σ → Counted (Ctl σ ρ)} {P : ρ → Prop}
    (h : ∀ m s k v, (body m s k).1 = .ok (.ret v) → P v) : ∀ cnt m s k v,
    (Count.loopRetN body cnt m s k).1 = .ok (.ret v) → P v := by
  intro cnt
  induction cnt with
  | zero => intro m s k v hv; cases hv
  | succ n ih =>
    intro m s k v
    rw [show Count.loopRetN body (n + 1) m s =
        body m s >>= fun
          | .cont s => Count.loopRetN body n (m + 1) s
          | .ret v => pure (.ret v) by
      rw [Count.loopRetN]
      congr 1]
    rcases hx : body m s k with ⟨e | w, k'⟩
    · rw [run_error hx]
      intro hv; cases hv
    · rw [run_ok hx]
      cases w with
      | cont s1 => exact ih (m + 1) s1 k' v
      | ret w =>
        intro hv
        cases hv
        exact h m s k v (by rw [hx])

/-- The comparison of two elements. -/
def compareCell (ex : T → Bool) (A B : Mat T i j) (it jt : Nat) : Counted (Ctl Unit Bool) := do
  let d ← Count.cAbs (← Count.cSub (← liftRes <| rd A it jt) (← liftRes <| rd B it jt))
  if ex d then pure (.ret false)
  else pure (.cont ())

theorem performs_compareCell (ex : T → Bool) (A B : Mat T i j) (it jt : Nat) :
    Performs (compareCell ex A B it jt) (opCount (sub := 1) (abs := 1)) := by
  refine Performs.of_eq (performs_bind (performs_lift _) fun _ => performs_bind (performs_lift _) fun _ =>
    performs_bind (performs_sub _ _) fun _ => performs_bind (performs_abs _) fun _ =>
    performs_ite (c := 0) (fun _ => performs_pure _) fun _ => performs_pure _) ?_
  costs

theorem compareCell_ret (ex : T → Bool) (A B : Mat T i j) (it jt : Nat) (k : Op → Nat) (b : Bool)
    (h : (compareCell ex A B it jt k).1 = .ok (.ret b)) : b = false := by
  have h2 : ∀ (x : Counted T), ((x >>= fun d => if ex d then pure (.ret false) else pure (.cont ()) :
      Counted (Ctl Unit Bool)) k).1 = .ok (.ret b) → b = false := by
    intro x hv
    rcases hx : x k with ⟨e | w, k'⟩
    · rw [run_error hx] at hv; cases hv
    · rw [run_ok hx] at hv
      split at hv
      · cases hv; rfl
      · cases hv
  refine h2 (do Count.cAbs (← Count.cSub (← liftRes <| rd A it jt) (← liftRes <| rd B it jt))) ?_
  rw [← h]
  simp only [compareCell, bind_assoc]

theorem compareLoop_true (ex : T → Bool) (A B : Mat T i j) (k : Op → Nat)
    (h : (Count.compareLoop ex A B k).1 = .ok true) :
    (Count.compareLoop ex A B k).2 = k + opCount (sub := i * j) (abs := i * j) := by
  have hun : Count.compareLoop ex A B =
      Count.loopRetN (fun it _ => Count.loopRetN (fun jt _ => compareCell ex A B it jt) j 0 ()) i 0 () >>= fun
        | .ret b => pure b
        | .cont _ => pure true := rfl
  have hc := loopRet_exact (body := fun it _ => Count.loopRetN (fun jt _ => compareCell ex A B it jt) j 0 ())
    (c := j • opCount (sub := 1) (abs := 1))
    (fun it s k s' hv => loopRet_exact (fun jt s k s' hv => ((performs_compareCell ex A B it jt) k).2 _ hv) j 0 () k s' hv)
    i 0 () k
  have hr := loopRet_ret (body := fun it _ => Count.loopRetN (fun jt _ => compareCell ex A B it jt) j 0 ())
    (P := fun b => b = false)
    (fun it s k b hv => loopRet_ret (fun jt s k b hv => compareCell_ret ex A B it jt k b hv) j 0 () k b hv)
    i 0 () k
  rw [hun] at h ⊢
  rcases hx : Count.loopRetN (fun it _ => Count.loopRetN (fun jt _ => compareCell ex A B it jt) j 0 ()) i 0 () k with
    ⟨e | w, k'⟩
  · rw [run_error hx] at h; cases h
  · rw [run_ok hx] at h ⊢
    rw [hx] at hc hr
    cases w with
    | ret b =>
      cases h
      cases hr true rfl
    | cont s =>
      have := hc s rfl
      change k' = _ at this
      change k' = _
      rw [this]
      congr 1
      costs

end MatrixLibs
