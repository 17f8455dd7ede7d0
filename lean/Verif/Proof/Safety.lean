import Verif.Spec.Safety
import Verif.Proof.DetSafe
import Verif.Proof.Pow
import Verif.Proof.Conv
import Verif.Proof.RowMajor
import Verif.Proof.Stats

/-!
# A compositional proof of memory safety

`Safe x` is proved along the structure of a program: every access in a loop body is in bounds by
the bounds of the loop, the arithmetic is arbitrary.
-/

namespace MatrixLibs

set_option linter.unusedSectionVars false

open CScalar (ofInt)

/-- `x` returns, or stops in a way listed in `E`. -/
def Safe (E : Stop → Prop) {α : Type} (x : Res α) : Prop := wp x (fun _ => True) E

/-- The operations of the element type return, or stop in a way listed in `E`. -/
class OpsSafe (T : Type) [CScalar T] (E : Stop → Prop) : Prop where
  add : ∀ a b : T, wp (CScalar.add a b) (fun _ => True) E
  sub : ∀ a b : T, wp (CScalar.sub a b) (fun _ => True) E
  mul : ∀ a b : T, wp (CScalar.mul a b) (fun _ => True) E
  div : ∀ a b : T, wp (CScalar.div a b) (fun _ => True) E
  neg : ∀ a : T, wp (CScalar.neg a) (fun _ => True) E
  abs : ∀ a : T, wp (CScalar.abs a) (fun _ => True) E
  sqrt : ∀ a : T, wp (CScalar.sqrt a) (fun _ => True) E
  divSize : ∀ (a : T) (n : Nat), wp (CScalar.divSize a n) (fun _ => True) E

/-- Exceptions and `std::terminate` are listed in `E`. -/
class ThrowsIn (E : Stop → Prop) : Prop where
  throws : ∀ x, E (.throws x)
  terminates : E .terminates

/-- The library's own exception is listed in `E`. -/
class OverflowIn (E : Stop → Prop) : Prop where
  overflow : E (.throws divideByZeroException)

instance {E : Stop → Prop} [ThrowsIn E] : OverflowIn E := ⟨ThrowsIn.throws _⟩

/-- The element type, its values forgotten. -/
def OpsSafe.ringSem (T : Type) [CScalar T] (E : Stop → Prop) [OpsSafe T E] : RingSem T PUnit where
  val _ := 0
  Bad := E
  add a b := wp_mono (OpsSafe.add a b) (fun _ _ => rfl) (fun _ h => h)
  sub a b := wp_mono (OpsSafe.sub a b) (fun _ _ => rfl) (fun _ h => h)
  mul a b := wp_mono (OpsSafe.mul a b) (fun _ _ => rfl) (fun _ h => h)
  neg a := wp_mono (OpsSafe.neg a) (fun _ _ => rfl) (fun _ h => h)
  ofInt _ _ _ := rfl

/-- What the determinant uses. -/
def OpsSafe.detOps (T : Type) [CScalar T] (E : Stop → Prop) [OpsSafe T E] : DetOps T E where
  sub := OpsSafe.sub
  add := OpsSafe.add
  mul := OpsSafe.mul
  div a b _ := OpsSafe.div a b
  Factor _ := True
  one := trivial
  neg f _ := OpsSafe.mul _ _
  divFactor a f _ := OpsSafe.div a f

theorem not_fault_of_scalar {e : Stop} (h : ScalarStop e) : ¬ MemoryFault e := by
  rintro (rfl | rfl | rfl | rfl) <;> rcases h with h | h | h | h <;> cases h

/-- Anything but a memory fault. -/
abbrev NoFault : Stop → Prop := fun e => ¬ MemoryFault e

instance {T : Type} [CScalar T] [ScalarStops T] : OpsSafe T NoFault where
  add a b := wp_mono (ScalarStops.add a b) (fun _ _ => trivial) (fun _ => not_fault_of_scalar)
  sub a b := wp_mono (ScalarStops.sub a b) (fun _ _ => trivial) (fun _ => not_fault_of_scalar)
  mul a b := wp_mono (ScalarStops.mul a b) (fun _ _ => trivial) (fun _ => not_fault_of_scalar)
  div a b := wp_mono (ScalarStops.div a b) (fun _ _ => trivial) (fun _ => not_fault_of_scalar)
  neg a := wp_mono (ScalarStops.neg a) (fun _ _ => trivial) (fun _ => not_fault_of_scalar)
  abs a := wp_mono (ScalarStops.abs a) (fun _ _ => trivial) (fun _ => not_fault_of_scalar)
  sqrt a := wp_mono (ScalarStops.sqrt a) (fun _ _ => trivial) (fun _ => not_fault_of_scalar)
  divSize a n := wp_mono (ScalarStops.divSize a n) (fun _ _ => trivial)
    (fun _ => not_fault_of_scalar)

instance : ThrowsIn NoFault where
  throws x := by rintro (h | h | h | h) <;> cases h
  terminates := by rintro (h | h | h | h) <;> cases h

theorem Safe.memSafe {α : Type} {x : Res α} (h : Safe NoFault x) : MemSafe x := by
  intro e he
  exact wp_error_elim h he

variable {E : Stop → Prop}

theorem Safe.of_wp {α : Type} {x : Res α} {Q : α → Prop} (h : wp x Q E) : Safe E x :=
  wp_mono h (fun _ _ => trivial) (fun _ h => h)

section
variable {α β σ ρ : Type}

theorem safe_ok (a : α) : Safe E (.ok a : Res α) := trivial

theorem safe_pure (a : α) : Safe E (pure a : Res α) := trivial

theorem safe_bind {x : Res α} {f : α → Res β} (hx : Safe E x) (hf : ∀ a, Safe E (f a)) :
    Safe E (x >>= f) := by
  unfold Safe
  rw [wp_bind]
  exact wp_mono hx (fun a _ => hf a) (fun _ h => h)

theorem safe_rd {T : Type} {r c : Nat} {A : Mat T r c} {i j : Nat} (hi : i < r) (hj : j < c) :
    Safe E (rd A i j) := by
  rw [rd_eq hi hj]
  trivial

theorem safe_wr {T : Type} {r c : Nat} {A : Mat T r c} {i j : Nat} {v : T} (hi : i < r)
    (hj : j < c) : Safe E (wr A i j v) := by
  rw [wr_eq hi hj]
  trivial

theorem safe_forUp {lo hi : Nat} {s : σ} {body : Nat → σ → Res σ}
    (h : ∀ k s, lo ≤ k → k < hi → Safe E (body k s)) : Safe E (forUp lo hi s body) := by
  rcases Nat.le_total lo hi with hle | hle
  · exact wp_forUp (fun _ _ => True) hle trivial (fun k s h1 h2 _ => h k s h1 h2)
      (fun _ _ => trivial)
  · rw [forUp_nil hle]
    trivial

theorem safe_forRet {lo hi : Nat} {s : σ} {body : Nat → σ → Res (Ctl σ ρ)}
    (h : ∀ k s, lo ≤ k → k < hi → Safe E (body k s)) : Safe E (forRet lo hi s body) := by
  rcases Nat.le_total lo hi with hle | hle
  · refine wp_forRet (fun _ _ => True) (fun _ => True) hle trivial ?_ (fun _ _ => trivial)
      (fun _ _ => trivial)
    intro k s h1 h2 _
    refine wp_mono (h k s h1 h2) (fun x _ => ?_) (fun _ h => h)
    cases x <;> trivial
  · rw [forRet_nil hle]
    trivial

theorem safe_ite {p : Prop} [Decidable p] {x y : Res α} (hx : p → Safe E x)
    (hy : ¬ p → Safe E y) : Safe E (if p then x else y) := by
  split
  · next h => exact hx h
  · next h => exact hy h

theorem safe_throws [OverflowIn E] : Safe E (.error (.throws divideByZeroException) : Res α) :=
  OverflowIn.overflow

end

section
variable {T : Type} [Inhabited T] [CScalar T] [OpsSafe T E]

theorem safe_add (a b : T) : Safe E (CScalar.add a b) := OpsSafe.add a b
theorem safe_sub' (a b : T) : Safe E (CScalar.sub a b) := OpsSafe.sub a b
theorem safe_mul (a b : T) : Safe E (CScalar.mul a b) := OpsSafe.mul a b
theorem safe_div' (a b : T) : Safe E (CScalar.div a b) := OpsSafe.div a b
theorem safe_neg (a : T) : Safe E (CScalar.neg a) := OpsSafe.neg a
theorem safe_abs' (a : T) : Safe E (CScalar.abs a) := OpsSafe.abs a
theorem safe_sqrt (a : T) : Safe E (CScalar.sqrt a) := OpsSafe.sqrt a
theorem safe_divSize (a : T) (n : Nat) : Safe E (CScalar.divSize a n) := OpsSafe.divSize a n

end

/-- Walk through a program. -/
macro "safe_step" : tactic => `(tactic| first
  | exact safe_ok _ | exact safe_pure _ | exact safe_throws
  | exact safe_add _ _ | exact safe_sub' _ _ | exact safe_mul _ _ | exact safe_div' _ _
  | exact safe_neg _ | exact safe_abs' _ | exact safe_sqrt _ | exact safe_divSize _ _
  | (refine safe_rd ?_ ?_ <;> omega) | (refine safe_wr ?_ ?_ <;> omega)
  | refine safe_forUp (fun _ _ _ _ => ?_) | refine safe_forRet (fun _ _ _ _ => ?_)
  | refine safe_ite (fun _ => ?_) (fun _ => ?_)
  | refine safe_bind ?_ (fun _ => ?_))

macro "safe" : tactic => `(tactic| repeat' safe_step)

/-! ## Element movement -/

section
variable {T : Type} [Inhabited T] {r c n : Nat}

theorem safe_fill (d : T) : Safe E (fill r c d) := by unfold fill; safe

theorem safe_trans (A : Mat T r c) : Safe E (trans A) := by unfold trans; safe

theorem safe_swap_rows (A : Mat T r c) {r1 r2 : Nat} (h1 : r1 < r) (h2 : r2 < r) :
    Safe E (swap_rows A r1 r2) := by unfold swap_rows swapElem; safe

theorem safe_swap_cols (A : Mat T r c) {c1 c2 : Nat} (h1 : c1 < c) (h2 : c2 < c) :
    Safe E (swap_cols A c1 c2) := by unfold swap_cols swapElem; safe

theorem safe_concatenateSquare (A B : Mat T n n) : Safe E (concatenateSquare A B) := by
  unfold concatenateSquare; safe

theorem safe_concatenateRows {i1 i2 j : Nat} (A : Mat T i1 j) (B : Mat T i2 j) :
    Safe E (concatenateRows A B) := by unfold concatenateRows; safe

theorem safe_concatenateCols {i j1 j2 : Nat} (A : Mat T i j1) (B : Mat T i j2) :
    Safe E (concatenateCols A B) := by unfold concatenateCols; safe

theorem safe_concatenateV (A B : Mat T n n) : Safe E (concatenateV A B) := by
  unfold concatenateV; safe

theorem safe_concatenateH (A B : Mat T n n) : Safe E (concatenateH A B) := by
  unfold concatenateH; safe

theorem safe_getminor (A : Mat T n n) {i j : Nat} (hi : i < n) (hj : j < n) :
    Safe E (getminor A i j) := by
  match n, A with
  | m + 1, A =>
    have := getminor_ok A ⟨i, hi⟩ ⟨j, hj⟩
    dsimp only at this
    rw [this]
    trivial

theorem safe_print [CScalar T] (fmt : T → List Char) (out : List Char) (A : Mat T r c) :
    Safe E (print fmt out A) := by unfold print; safe

theorem safe_histogram [CScalar T] (A : Mat T r c) (hw : StrictWeak A) : Safe E (histogram A) := by
  unfold histogram
  rw [if_pos hw]
  safe

theorem safe_cumulative [CScalar T] (A : Mat T r c) (hw : StrictWeak A) :
    Safe E (cumulative_histogram A) := by
  unfold cumulative_histogram
  refine safe_bind (safe_histogram A hw) (fun _ => safe_ok _)

theorem safe_arrayEq [CScalar T] (A B : Mat T r c) : Safe E (arrayEq A B) := by
  unfold arrayEq
  refine safe_bind ?_ (fun x => ?_)
  · safe
  · cases x <;> safe

theorem safe_isSymetric [CScalar T] (A : Mat T n n) : Safe E (isSymetric A) := by
  unfold isSymetric
  refine safe_bind ?_ (fun x => ?_)
  · safe
  · cases x <;> safe

theorem safe_eye [CScalar T] (d : T) : Safe E (eye n d) := by
  unfold eye
  refine safe_bind (safe_fill _) (fun _ => ?_)
  safe

theorem safe_ones [CScalar T] (h : c ≠ r → E .illFormed) : Safe E (ones (T := T) r c) := by
  unfold ones
  split
  · exact safe_fill _
  · next hne => exact h hne

theorem safe_zeros [CScalar T] : Safe E (zeros (T := T) r c) := safe_fill _

end

/-! ## Arithmetic -/

section
variable {T : Type} [Inhabited T] [CScalar T] [OpsSafe T E] {r c n : Nat}

theorem safe_sum (A B : Mat T r c) : Safe E (sum A B) := by unfold sum; safe
theorem safe_sumScalar (A : Mat T r c) (s : T) : Safe E (sumScalar A s) := by unfold sumScalar; safe
theorem safe_opPostInc (A : Mat T r c) : Safe E (opPostInc A) := by
  unfold opPostInc
  exact safe_bind (safe_sumScalar _ _) (fun _ => safe_ok _)
theorem safe_sub (A B : Mat T r c) : Safe E (sub A B) := by unfold sub; safe
theorem safe_subScalar (A : Mat T r c) (s : T) : Safe E (subScalar A s) := by unfold subScalar; safe
theorem safe_opPostDec (A : Mat T r c) : Safe E (opPostDec A) := by
  unfold opPostDec
  exact safe_bind (safe_subScalar _ _) (fun _ => safe_ok _)
theorem safe_mult {n m p : Nat} (A : Mat T n m) (B : Mat T m p) : Safe E (mult A B) := by
  unfold mult
  refine safe_bind safe_zeros (fun _ => ?_)
  safe
theorem safe_multScalar (A : Mat T r c) (s : T) : Safe E (multScalar A s) := by
  unfold multScalar; safe

theorem safe_bareThrow [ThrowsIn E] {α : Type} (handled : Option Exc) :
    Safe E (bareThrow handled : Res α) := by
  unfold bareThrow
  cases handled
  · exact ThrowsIn.terminates
  · exact ThrowsIn.throws _

theorem safe_div_ne (handled : Option Exc) (A : Mat T r c) (s : T) (hs : ¬ CScalar.eq s (ofInt 0) = true) :
    Safe E (div handled A s) := by
  unfold div
  rw [if_neg hs]
  safe

theorem safe_div [ThrowsIn E] (handled : Option Exc) (A : Mat T r c) (s : T) : Safe E (div handled A s) := by
  unfold div
  refine safe_ite (fun _ => safe_bareThrow _) (fun _ => ?_)
  safe

theorem safe_abs (A : Mat T r c) : Safe E (abs A) := by
  exact (by
    cases h : abs A with
    | ok _ => trivial
    | error e =>
      obtain ⟨a, b, hab, -⟩ := ((abs_elementwise A).2 e).mp h
      exact wp_error_elim (OpsSafe.abs (A a b)) hab : wp (abs A) (fun _ => True) E)

theorem safe_strassen (A B : Mat T 2 2) : Safe E (strassen A B) := by unfold strassen; safe

theorem safe_detA (A : Mat T n n) : Safe E (det A) := Safe.of_wp (safe_det (OpsSafe.detOps T E) A)

theorem safe_inv_small [OverflowIn E] (handled : Option Exc) (A : Mat T n n) (h0 : n ≠ 0) (hn : n ≤ 3) :
    Safe E (inv handled A) := by
  have h2 : ∀ A : Mat T 2 2, Safe E (det2 A) := fun A => Safe.of_wp (safe_det2 (OpsSafe.detOps T E) A)
  have h3 : ∀ A : Mat T 3 3, Safe E (det3 A) := fun A => Safe.of_wp (safe_det3 (OpsSafe.detOps T E) A)
  match n, A with
  | 1, A =>
    show Safe E (inv1 A)
    unfold inv1 det1
    safe
  | 2, A =>
    show Safe E (inv2 handled A)
    unfold inv2
    refine safe_bind (h2 A) (fun _ => ?_)
    unfold opDiv
    repeat' first | exact safe_div_ne _ _ _ (by assumption) | safe_step
  | 3, A =>
    show Safe E (inv3 handled A)
    unfold inv3 cross
    refine safe_bind (h3 A) (fun _ => ?_)
    unfold opDiv
    repeat' first | exact safe_div_ne _ _ _ (by assumption) | safe_step

theorem safe_inv [ThrowsIn E] (handled : Option Exc) (A : Mat T n n)
    (hn : n = 0 → E .illFormed) : Safe E (inv handled A) := by
  have h2 : ∀ A : Mat T 2 2, Safe E (det2 A) := fun A => Safe.of_wp (safe_det2 (OpsSafe.detOps T E) A)
  have h3 : ∀ A : Mat T 3 3, Safe E (det3 A) := fun A => Safe.of_wp (safe_det3 (OpsSafe.detOps T E) A)
  match n, A with
  | 0, A => exact hn rfl
  | 1, A =>
    show Safe E (inv1 A)
    unfold inv1 det1
    safe
  | 2, A =>
    show Safe E (inv2 handled A)
    unfold inv2
    refine safe_bind (h2 A) (fun _ => ?_)
    unfold opDiv
    repeat' first | exact safe_div _ _ _ | safe_step
  | 3, A =>
    show Safe E (inv3 handled A)
    unfold inv3 cross
    refine safe_bind (h3 A) (fun _ => ?_)
    unfold opDiv
    repeat' first | exact safe_div _ _ _ | safe_step
  | m + 4, A =>
    show Safe E (invN handled A)
    unfold invN opDiv
    refine safe_bind (safe_detA A) (fun d => safe_bind ?_ (fun B => ?_))
    · refine safe_forUp (fun i S _ hi => safe_forUp (fun j S _ hj => ?_))
      refine safe_bind (safe_getminor A hi hj) (fun M => safe_bind (safe_detA M) (fun d => ?_))
      exact safe_bind (safe_mul _ _) (fun x => safe_wr hi hj)
    · exact safe_bind (safe_trans B) (fun C => safe_div handled C d)

theorem safe_lu [OverflowIn E] (A : Mat T n n) : Safe E (lu A) := by
  unfold lu
  refine safe_bind (safe_eye _) (fun _ => safe_bind safe_zeros (fun _ => ?_))
  refine safe_forUp (fun j s _ hj => ?_)
  obtain ⟨L, U⟩ := s
  dsimp only
  unfold luUpper luLower luSum
  safe

theorem safe_chol (A : Mat T n n) : Safe E (chol A) := by
  unfold chol cholStep cholSum
  safe

theorem safe_pow [ThrowsIn E] (handled : Option Exc) (w : Nat) (A : Mat T n n) (p : Int)
    (hn : n = 0 → E .illFormed) (ho : p = expMin w → E (.ub .signedOverflow)) :
    Safe E (pow handled w A p) := by
  rcases lt_or_ge p 0 with hp | hp
  · by_cases hmin : p = expMin w
    · unfold pow
      rw [hmin, powFuel_min]
      exact safe_bind (safe_inv _ _ hn) (fun _ => ho hmin)
    · unfold pow
      rw [powFuel_neg _ _ _ _ _ hp hmin]
      refine safe_bind (safe_inv _ _ hn) (fun B => ?_)
      exact Safe.of_wp (wp_powStep (OpsSafe.ringSem T E) handled w B p.natAbs _ (by omega) le_rfl)
  · obtain ⟨k, rfl⟩ := Int.eq_ofNat_of_zero_le hp
    unfold pow
    exact Safe.of_wp (wp_powFuel (OpsSafe.ringSem T E) handled w A k _
      (by rw [Int.natAbs_natCast]; omega))

theorem safe_conv2 (A : Mat T r c) (k : Mat T 3 3) (hr : r < 2 ^ 32) (hc : c < 2 ^ 32) :
    Safe E (conv2 A k) := Safe.of_wp (wp_conv2 (OpsSafe.ringSem T E) A k hr hc)

theorem safe_conv2_full (A : Mat T r c) (k : Mat T 3 3) (hr : r + 1 < 2 ^ 32)
    (hc : c + 1 < 2 ^ 32) : Safe E (conv2_full A k) :=
  Safe.of_wp (wp_conv2_full (OpsSafe.ringSem T E) A k hr hc)

theorem safe_conv2_valid (A : Mat T n n) (k : Mat T 3 3) (hn : 2 ≤ n) (hn' : n < 2 ^ 32) :
    Safe E (conv2_valid A k) := by
  unfold conv2_valid
  refine safe_bind (safe_conv2 A k hn' hn') (fun B => ?_)
  refine safe_bind (safe_getminor B (by omega) (by omega)) (fun C => ?_)
  exact safe_getminor C (by omega) (by omega)

theorem safe_mean (A : Mat T r c) : Safe E (mean A) := by unfold mean; safe

theorem safe_var (A : Mat T r c) : Safe E (var A) := by
  unfold var
  refine safe_bind (safe_mean A) (fun _ => ?_)
  safe

theorem safe_stddev (A : Mat T r c) : Safe E (stddev A) := by
  unfold stddev
  refine safe_bind (safe_var A) (fun _ => ?_)
  safe

theorem safe_compare (A B : Mat T r c) (e : T) : Safe E (compare A B e) := by
  unfold compare
  refine safe_bind ?_ (fun x => ?_)
  · safe
  · cases x <;> safe

theorem safe_median (sort : List T → List T) (hsort : ∀ l, (sort l).length = l.length)
    (A : Mat T r c) (hw : StrictWeak A) (h0 : r * c ≠ 0) (hrc : r * c < 2 ^ 64) :
    Safe E (median sort A) := by
  have hvec : ∀ k, k < r * c → Safe E (vecRd (sort (rowMajor A)) k) := by
    intro k hk
    unfold vecRd
    rw [List.getElem?_eq_getElem (by rw [hsort, rowMajor_length]; exact hk)]
    exact safe_ok _
  unfold median stdSort
  rw [median_elems, ok_bind, if_pos hw, ok_bind]
  refine safe_ite (fun h => ?_) (fun h => hvec _ (by omega))
  have hsz : szSub (r * c / 2) 1 = r * c / 2 - 1 := by
    unfold szSub sizeMod
    omega
  rw [hsz]
  refine safe_bind (hvec _ (by omega)) (fun x => safe_bind (hvec _ (by omega)) (fun y => ?_))
  exact safe_bind (safe_add _ _) (fun z => safe_div' _ _)

end

end MatrixLibs
