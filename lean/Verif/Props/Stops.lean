import Verif.Spec.Stops
import Verif.Proof.Safety

/-!
# C146: how calls end for arbitrary element types

The element type is arbitrary: its operations may throw any exceptions (`std::bad_alloc` of a big number, an
overflow reported by a checked one). One theorem per group of functions.
-/

namespace MatrixLibs

set_option linter.unusedSectionVars false

open CScalar (ofInt)

/-- The same element type, with the operations not listed replaced by ones that never stop. -/
@[instance_reducible] def only {T : Type} (c : CScalar T) (ops : List Op) : CScalar T where
  add a b := match ops.contains .add with | true => c.add a b | false => .ok a
  sub a b := match ops.contains .sub with | true => c.sub a b | false => .ok a
  mul a b := match ops.contains .mul with | true => c.mul a b | false => .ok a
  div a b := match ops.contains .div with | true => c.div a b | false => .ok a
  neg a := match ops.contains .neg with | true => c.neg a | false => .ok a
  ofInt := c.ofInt
  eq := c.eq
  lt := c.lt
  abs a := match ops.contains .abs with | true => c.abs a | false => .ok a
  sqrt a := match ops.contains .sqrt with | true => c.sqrt a | false => .ok a
  divSize a n := match ops.contains .divSize with | true => c.divSize a n | false => .ok a

section
variable {T : Type} [Inhabited T] [c : CScalar T] {i j n : Nat} {E : Stop → Prop}

/-- Stops of the listed operations are in `E`. -/
class Includes (T : Type) [CScalar T] (ops : List Op) (E : Stop → Prop) : Prop where
  mem : ∀ e, OneStops T ops e → E e

instance (ops : List Op) : Includes T ops (OneStops T ops) := ⟨fun _ h => h⟩

theorem wp_stops {α : Type} {x : Res α} (h : ∀ e, x = .error e → E e) : wp x (fun _ => True) E := by
  cases x with
  | ok _ => trivial
  | error e => exact h e rfl

instance onlySafe (ops : List Op) [h : Includes T ops E] : @OpsSafe T (only c ops) E := by
  refine @OpsSafe.mk T (only c ops) E ?_ ?_ ?_ ?_ ?_ ?_ ?_ ?_
  · intro a b
    refine wp_stops fun e he => ?_
    change (match ops.contains .add with | true => c.add a b | false => .ok a) = .error e at he
    split at he
    · next ho => exact h.mem e ⟨.add, List.contains_iff_mem.mp ho, a, b, he⟩
    · cases he
  · intro a b
    refine wp_stops fun e he => ?_
    change (match ops.contains .sub with | true => c.sub a b | false => .ok a) = .error e at he
    split at he
    · next ho => exact h.mem e ⟨.sub, List.contains_iff_mem.mp ho, a, b, he⟩
    · cases he
  · intro a b
    refine wp_stops fun e he => ?_
    change (match ops.contains .mul with | true => c.mul a b | false => .ok a) = .error e at he
    split at he
    · next ho => exact h.mem e ⟨.mul, List.contains_iff_mem.mp ho, a, b, he⟩
    · cases he
  · intro a b
    refine wp_stops fun e he => ?_
    change (match ops.contains .div with | true => c.div a b | false => .ok a) = .error e at he
    split at he
    · next ho => exact h.mem e ⟨.div, List.contains_iff_mem.mp ho, a, b, he⟩
    · cases he
  · intro a
    refine wp_stops fun e he => ?_
    change (match ops.contains .neg with | true => c.neg a | false => .ok a) = .error e at he
    split at he
    · next ho => exact h.mem e ⟨.neg, List.contains_iff_mem.mp ho, a, he⟩
    · cases he
  · intro a
    refine wp_stops fun e he => ?_
    change (match ops.contains .abs with | true => c.abs a | false => .ok a) = .error e at he
    split at he
    · next ho => exact h.mem e ⟨.abs, List.contains_iff_mem.mp ho, a, he⟩
    · cases he
  · intro a
    refine wp_stops fun e he => ?_
    change (match ops.contains .sqrt with | true => c.sqrt a | false => .ok a) = .error e at he
    split at he
    · next ho => exact h.mem e ⟨.sqrt, List.contains_iff_mem.mp ho, a, he⟩
    · cases he
  · intro a k
    refine wp_stops fun e he => ?_
    change (match ops.contains .divSize with | true => c.divSize a k | false => .ok a) = .error e at he
    split at he
    · next ho => exact h.mem e ⟨.divSize, List.contains_iff_mem.mp ho, a, k, he⟩
    · cases he

theorem Safe.onlyStops {ops : List Op} {α : Type} {x : Res α} (h : Safe (OneStops T ops) x) : OnlyStops T ops x :=
  fun _ he => wp_error_elim h he

/-- A program that does not use the other operations. -/
theorem OnlyStops.via {ops : List Op} {α : Type} {x : Res α} (f : CScalar T → Res α)
    (h : ∀ I : CScalar T, @OpsSafe T I (@OneStops T c ops) → Safe (@OneStops T c ops) (f I)) (e : f (only c ops) = x) :
    OnlyStops T ops x :=
  Safe.onlyStops (e ▸ h (only c ops) (onlySafe ops))

theorem OnlyStops.viaIf {ops : List Op} {α : Type} {x : Res α} (P : CScalar T → Prop) (hP : P (only c ops))
    (f : CScalar T → Res α)
    (h : ∀ I : CScalar T, @OpsSafe T I (@OneStops T c ops) → P I → Safe (@OneStops T c ops) (f I))
    (e : f (only c ops) = x) : OnlyStops T ops x :=
  Safe.onlyStops (e ▸ h (only c ops) (onlySafe ops) hP)

/-- C146: `+` and `-`. -/
theorem C146_sum (A B : Mat T i j) (s : T) :
    OnlyStops T [.add] (opAdd A B) ∧ OnlyStops T [.add] (opAddScalar A s) ∧ OnlyStops T [.add] (opScalarAdd s A) ∧
    OnlyStops T [.add] (opPostInc A) ∧
    OnlyStops T [.sub] (opSub A B) ∧ OnlyStops T [.sub] (opSubScalar A s) ∧ OnlyStops T [.sub] (opPostDec A) :=
  ⟨.via (fun _ => opAdd A B) (fun _ _ => safe_sum A B) rfl,
    .via (fun _ => opAddScalar A s) (fun _ _ => safe_sumScalar A s) rfl,
    .via (fun _ => opScalarAdd s A) (fun _ _ => safe_sumScalar A s) rfl,
    .via (fun _ => opPostInc A) (fun _ _ => safe_opPostInc A) rfl,
    .via (fun _ => opSub A B) (fun _ _ => safe_sub A B) rfl,
    .via (fun _ => opSubScalar A s) (fun _ _ => safe_subScalar A s) rfl,
    .via (fun _ => opPostDec A) (fun _ _ => safe_opPostDec A) rfl⟩

/-- C146: products. -/
theorem C146_mult {m p : Nat} (A : Mat T n m) (B : Mat T m p) (C D : Mat T 2 2) (M : Mat T i j) (s : T) :
    OnlyStops T [.add, .mul] (opMul A B) ∧ OnlyStops T [.mul] (opMulScalar M s) ∧ OnlyStops T [.mul] (opScalarMul s M) ∧
    OnlyStops T [.add, .sub, .mul] (strassen C D) :=
  ⟨.via (fun _ => opMul A B) (fun _ _ => safe_mult A B) rfl,
    .via (fun _ => opMulScalar M s) (fun _ _ => safe_multScalar M s) rfl,
    .via (fun _ => opScalarMul s M) (fun _ _ => safe_multScalar M s) rfl,
    .via (fun _ => strassen C D) (fun _ _ => safe_strassen C D) rfl⟩

/-- C146: `abs`, `compare`. -/
theorem C146_abs (A B : Mat T i j) (e : T) :
    OnlyStops T [.abs] (abs A) ∧ OnlyStops T [.sub, .abs] (compare A B e) :=
  ⟨.via (fun _ => abs A) (fun _ _ => safe_abs A) rfl,
    .via (fun _ => compare A B e) (fun _ _ => safe_compare A B e) rfl⟩

theorem detSearch_only (ops : List Op) (A : Mat T n n) (r : Nat) (fuel : Nat) : ∀ i pivot,
    @detSearch T (only c ops) n A r fuel i pivot = detSearch A r fuel i pivot := by
  induction fuel with
  | zero => intro i pivot; rfl
  | succ k ih =>
    intro i pivot
    unfold detSearch
    simp only [ih]
    rfl

theorem detN_only (A : Mat T n n) : @detN T (only c [.sub, .mul, .div]) n A = detN A := by
  have h1 : @detStep T (only c [.sub, .mul, .div]) n = @detStep T c n := by
    funext r s
    unfold detStep
    rw [detSearch_only]
    rfl
  have h2 : @detProd T (only c [.sub, .mul, .div]) n = @detProd T c n := rfl
  unfold detN
  rw [h1, h2]
  rfl

/-- C146: determinants. -/
theorem C146_det (A : Mat T n n) (B : Mat T 1 1) (C : Mat T 2 2) (D : Mat T 3 3) :
    (n = 0 ∨ 4 ≤ n → OnlyStops T [.sub, .mul, .div] (det A)) ∧ OnlyStops T [] (det B) ∧
    OnlyStops T [.sub, .mul] (det C) ∧ OnlyStops T [.add, .sub, .mul] (det D) :=
  ⟨fun hn => .via (fun _ => det A) (fun _ _ => safe_detA A) (match n, hn, A with
    | 0, _, A => detN_only A
    | 1, h, _ => absurd h (by omega)
    | 2, h, _ => absurd h (by omega)
    | 3, h, _ => absurd h (by omega)
    | _ + 4, _, A => detN_only A),
    .via (fun _ => det B) (fun _ _ => safe_detA B) rfl,
    .via (fun _ => det C) (fun _ _ => safe_detA C) rfl,
    .via (fun _ => det D) (fun _ _ => safe_detA D) rfl⟩

/-- C146: `chol`. -/
theorem C146_chol (A : Mat T n n) : OnlyStops T [.add, .sub, .mul, .div, .sqrt] (chol A) :=
  .via (fun _ => chol A) (fun _ _ => safe_chol A) rfl

/-- C146: convolutions. -/
theorem C146_conv2 (A : Mat T i j) (B : Mat T n n) (kernel : Mat T 3 3) (hi : i + 1 < 2 ^ 32)
    (hj : j + 1 < 2 ^ 32) (hn : 2 ≤ n) (hn' : n < 2 ^ 32) :
    OnlyStops T [.add, .mul] (conv2 A kernel) ∧ OnlyStops T [.add, .mul] (conv2_full A kernel) ∧
    OnlyStops T [.add, .mul] (conv2_valid B kernel) :=
  ⟨.via (fun _ => conv2 A kernel) (fun _ _ => safe_conv2 A kernel (by omega) (by omega)) rfl,
    .via (fun _ => conv2_full A kernel) (fun _ _ => safe_conv2_full A kernel hi hj) rfl,
    .via (fun _ => conv2_valid B kernel) (fun _ _ => safe_conv2_valid B kernel hn hn') rfl⟩

/-- C146: statistics. -/
theorem C146_statistics (A : Mat T i j) :
    OnlyStops T [.add, .divSize] (mean A) ∧ OnlyStops T [.add, .sub, .mul, .divSize] (var A) ∧
    OnlyStops T [.add, .sub, .mul, .divSize, .sqrt] (stddev A) :=
  ⟨.via (fun _ => mean A) (fun _ _ => safe_mean A) rfl,
    .via (fun _ => var A) (fun _ _ => safe_var A) rfl,
    .via (fun _ => stddev A) (fun _ _ => safe_stddev A) rfl⟩

/-- C146: the median of a non-empty matrix whose elements are ordered by `<`. -/
theorem C146_median (sort : List T → List T) (hsort : ∀ l, (sort l).length = l.length)
    (A : Mat T i j) (hw : StrictWeak A) (h0 : i * j ≠ 0) (hij : i * j < 2 ^ 64) :
    OnlyStops T [.add, .div] (median sort A) := by
  exact OnlyStops.viaIf (fun I => @StrictWeak T I i j A) hw (fun I => @median T I i j sort A)
    (fun I _ hs => safe_median sort hsort A hs h0 hij) rfl

/-- C146: functions that use no operation but `==` and `<` always return. -/
theorem C146_returns {i2 j2 : Nat} (d : T) (A B : Mat T i j) (M N : Mat T n n) (C : Mat T i2 j) (D : Mat T i j2)
    (r1 r2 c1 c2 a b : Nat) (hr1 : r1 < i) (hr2 : r2 < i) (hc1 : c1 < j) (hc2 : c2 < j) (ha : a < n) (hb : b < n)
    (hw : StrictWeak A) (fmt : T → List Char) (out : List Char) :
    OnlyStops T [] (fill i j d) ∧ OnlyStops T [] (zeros (T := T) i j) ∧ OnlyStops T [] (ones (T := T) n n) ∧
    OnlyStops T [] (eye n d) ∧ OnlyStops T [] (trans A) ∧ OnlyStops T [] (swap_rows A r1 r2) ∧
    OnlyStops T [] (swap_cols A c1 c2) ∧ OnlyStops T [] (concatenateSquare M N) ∧
    OnlyStops T [] (concatenateRows A C) ∧ OnlyStops T [] (concatenateCols A D) ∧
    OnlyStops T [] (getminor M a b) ∧ OnlyStops T [] (isSymetric M) ∧ OnlyStops T [] (arrayEq A B) ∧
    OnlyStops T [] (histogram A) ∧ OnlyStops T [] (cumulative_histogram A) ∧ OnlyStops T [] (print fmt out A) :=
  ⟨(safe_fill d).onlyStops, safe_zeros.onlyStops, (safe_ones fun h => absurd rfl h).onlyStops, (safe_eye d).onlyStops,
    (safe_trans A).onlyStops, (safe_swap_rows A hr1 hr2).onlyStops, (safe_swap_cols A hc1 hc2).onlyStops,
    (safe_concatenateSquare M N).onlyStops, (safe_concatenateRows A C).onlyStops, (safe_concatenateCols A D).onlyStops,
    (safe_getminor M ha hb).onlyStops, (safe_isSymetric M).onlyStops, (safe_arrayEq A B).onlyStops,
    (safe_histogram A hw).onlyStops, (safe_cumulative A hw).onlyStops, (safe_print fmt out A).onlyStops⟩

/-! ## Functions with exceptions of their own -/

/-- As a listed operation, or in one more way. -/
def OrStops (T : Type) [CScalar T] (ops : List Op) (e' : Stop) (e : Stop) : Prop := e = e' ∨ OneStops T ops e

instance (ops : List Op) (e' : Stop) : Includes T ops (OrStops T ops e') := ⟨fun _ h => .inr h⟩
instance (ops : List Op) : OverflowIn (OrStops T ops (.throws divideByZeroException)) := ⟨.inl rfl⟩

theorem Safe.via (ops : List Op) [Includes T ops E] {α : Type} {x : Res α} (f : CScalar T → Res α)
    (h : ∀ I : CScalar T, @OpsSafe T I E → Safe E (f I)) (hf : f (only c ops) = x) (e : Stop) (he : x = .error e) : E e :=
  wp_error_elim (hf ▸ h (only c ops) (onlySafe ops)) he

theorem bareThrow_eq {α : Type} (handled : Option Exc) : (bareThrow handled : Res α) = .error (rethrown handled) := by
  cases handled <;> rfl

theorem safe_div_rethrown (handled : Option Exc) (A : Mat T i j) (s : T) [OpsSafe T E] (h : E (rethrown handled)) :
    Safe E (div handled A s) := by
  by_cases hs : CScalar.eq s (ofInt 0) = true
  · unfold div
    rw [if_pos hs, bareThrow_eq]
    exact h
  · exact safe_div_ne handled A s hs

/-- C146: `/` stops like a quotient of two elements, or, exactly if the scalar equals 0, as `throw;` does. -/
theorem C146_div (handled : Option Exc) (A : Mat T i j) (s : T) :
    (CScalar.eq s (ofInt 0) = true → opDiv handled A s = .error (rethrown handled)) ∧
    (¬ CScalar.eq s (ofInt 0) = true → OnlyStops T [.div] (opDiv handled A s)) := by
  refine ⟨fun hs => (if_pos hs).trans (bareThrow_eq handled), fun hs => ?_⟩
  exact OnlyStops.viaIf (fun I => ¬ @CScalar.eq T I s (@ofInt T I 0) = true) hs (fun I => @opDiv T _ I i j handled A s)
    (fun I _ hs => safe_div_ne handled A s hs) rfl

/-- C146: `lu` stops like an operation, or throws `std::overflow_error`. -/
theorem C146_lu (A : Mat T n n) (e : Stop) (he : lu A = .error e) :
    e = .throws divideByZeroException ∨ OneStops T [.add, .sub, .mul, .div] e :=
  Safe.via [.add, .sub, .mul, .div] (E := OrStops T [.add, .sub, .mul, .div] (.throws divideByZeroException))
    (fun I => @lu T _ I n A) (fun _ _ => safe_lu A) rfl e he

theorem inv2_only {handled : Option Exc} {A : Mat T 2 2} :
    @inv T _ (only c [.sub, .mul, .neg, .div]) handled 2 A = inv handled A := by
  show @inv2 T _ (only c [.sub, .mul, .neg, .div]) handled A = inv2 handled A
  have h1 : @det2 T (only c [.sub, .mul, .neg, .div]) = @det2 T c := rfl
  have h2 : @opDiv T _ (only c [.sub, .mul, .neg, .div]) 2 2 = @opDiv T _ c 2 2 := rfl
  unfold inv2
  rw [h1, h2]
  rfl

theorem inv3_only {handled : Option Exc} {A : Mat T 3 3} :
    @inv T _ (only c [.add, .sub, .mul, .div]) handled 3 A = inv handled A := by
  show @inv3 T _ (only c [.add, .sub, .mul, .div]) handled A = inv3 handled A
  have h1 : @det3 T (only c [.add, .sub, .mul, .div]) = @det3 T c := rfl
  have h2 : @opDiv T _ (only c [.add, .sub, .mul, .div]) 3 3 = @opDiv T _ c 3 3 := rfl
  have h3 : @cross T (only c [.add, .sub, .mul, .div]) = @cross T c := rfl
  unfold inv3
  rw [h1, h2, h3]
  rfl

/-- C146: inverses up to 3x3. -/
theorem C146_inv_small (handled : Option Exc) (A : Mat T 1 1) (B : Mat T 2 2) (C : Mat T 3 3) :
    OnlyStops T [.div] (inv handled A) ∧
    (∀ e, inv handled B = .error e → e = .throws divideByZeroException ∨ OneStops T [.sub, .mul, .neg, .div] e) ∧
    ∀ e, inv handled C = .error e → e = .throws divideByZeroException ∨ OneStops T [.add, .sub, .mul, .div] e := by
  refine ⟨?_, fun e he => ?_, fun e he => ?_⟩
  · refine OnlyStops.via (fun I => @inv1 T I A) (fun I _ => ?_) rfl
    unfold inv1 det1
    safe
  · exact Safe.via [.sub, .mul, .neg, .div] (E := OrStops T [.sub, .mul, .neg, .div] (.throws divideByZeroException))
      (fun I => @inv T _ I handled 2 B) (fun _ _ => safe_inv_small handled B (by decide) (by decide)) inv2_only e he
  · exact Safe.via [.add, .sub, .mul, .div] (E := OrStops T [.add, .sub, .mul, .div] (.throws divideByZeroException))
      (fun I => @inv T _ I handled 3 C) (fun _ _ => safe_inv_small handled C (by decide) (by decide)) inv3_only e he

theorem detN_only4 (A : Mat T n n) : @detN T (only c [.add, .sub, .mul, .div]) n A = detN A := by
  have h1 : @detStep T (only c [.add, .sub, .mul, .div]) n = @detStep T c n := by
    funext r s
    unfold detStep
    rw [detSearch_only]
    rfl
  have h2 : @detProd T (only c [.add, .sub, .mul, .div]) n = @detProd T c n := rfl
  unfold detN
  rw [h1, h2]
  rfl

theorem det_only (A : Mat T n n) : @det T (only c [.add, .sub, .mul, .div]) n A = det A :=
  match n, A with
  | 0, A => detN_only4 A
  | 1, _ => rfl
  | 2, _ => rfl
  | 3, _ => rfl
  | _ + 4, A => detN_only4 A

/-- C146: inverses of larger matrices stop like an operation, or as `throw;` does. -/
theorem C146_inv (handled : Option Exc) (A : Mat T n n) (hn : 4 ≤ n) (e : Stop) (he : inv handled A = .error e) :
    e = rethrown handled ∨ OneStops T [.add, .sub, .mul, .div] e := by
  obtain ⟨m, rfl⟩ : ∃ m, n = m + 4 := ⟨n - 4, by omega⟩
  refine Safe.via [.add, .sub, .mul, .div] (E := OrStops T [.add, .sub, .mul, .div] (rethrown handled))
    (fun I => @invN T _ I (m + 4) handled A) (fun I _ => ?_) ?_ e he
  · unfold invN opDiv
    refine safe_bind (safe_detA A) (fun d => safe_bind ?_ (fun B => ?_))
    · refine safe_forUp (fun i S _ hi => safe_forUp (fun j S _ hj => ?_))
      refine safe_bind (safe_getminor A hi hj) (fun M => safe_bind (safe_detA M) (fun d => ?_))
      exact safe_bind (safe_mul _ _) (fun x => safe_wr hi hj)
    · exact safe_bind (safe_trans B) (fun C => safe_div_rethrown handled C d (.inl rfl))
  · show @invN T _ (only c [.add, .sub, .mul, .div]) (m + 4) handled A = invN handled A
    unfold invN
    simp only [det_only]
    rfl

theorem powFuel_only (handled : Option Exc) (w d : Nat) : ∀ (A : Mat T n n) (p : Int), 0 ≤ p →
    @powFuel T _ (only c [.add, .mul]) n handled w d A p = powFuel handled w d A p := by
  induction d with
  | zero => intro A p _; rfl
  | succ d ih =>
    intro A p hp
    unfold powFuel
    simp only [if_neg (Int.not_lt.mpr hp)]
    have h2 : (0 : Int) ≤ p.tdiv 2 := Int.tdiv_nonneg hp (by decide)
    simp only [pure_bind, ih _ _ h2]
    rfl

/-- C146: powers. A negative exponent inverts first; the smallest one overflows when it is negated. -/
theorem C146_pow (handled : Option Exc) (w : Nat) (A : Mat T n n) (p : Int) :
    (0 ≤ p → OnlyStops T [.add, .mul] (pow handled w A p)) ∧
    ∀ e, pow handled w A p = .error e →
      OneStops T [.add, .mul] e ∨ inv handled A = .error e ∨ p = expMin w ∧ e = .ub .signedOverflow := by
  have hpos : ∀ (A : Mat T n n) (k d : Nat), k.log2 + 1 ≤ d → OnlyStops T [.add, .mul] (powFuel handled w d A (k : Int)) := by
    intro A k d hd
    refine .via (fun I => @powFuel T _ I n handled w d A (k : Int)) (fun I hI => ?_)
      (powFuel_only handled w d A _ (Int.natCast_nonneg k))
    exact Safe.of_wp (wp_powFuel (OpsSafe.ringSem T (@OneStops T c [.add, .mul])) handled w A k d hd)
  have hstep : ∀ (A : Mat T n n) (k d : Nat), 1 ≤ k → k.log2 + 1 ≤ d →
      OnlyStops T [.add, .mul] (powStep handled w d A k) := by
    intro A k d hk hd
    refine .via (fun I => @powStep T _ I n handled w d A k) (fun I hI => ?_) ?_
    · exact Safe.of_wp (wp_powStep (OpsSafe.ringSem T (@OneStops T c [.add, .mul])) handled w A k d hk hd)
    · show @powStep T _ (only c [.add, .mul]) n handled w d A k = powStep handled w d A k
      unfold powStep
      rw [powFuel_only handled w d A _ (Int.natCast_nonneg _)]
      rfl
  have h0 : 0 ≤ p → OnlyStops T [.add, .mul] (pow handled w A p) := by
    intro hp
    obtain ⟨k, rfl⟩ := Int.eq_ofNat_of_zero_le hp
    exact hpos A k _ (by rw [Int.natAbs_natCast]; omega)
  refine ⟨h0, fun e he => ?_⟩
  rcases lt_or_ge p 0 with hp | hp
  · unfold pow at he
    by_cases hmin : p = expMin w
    · rw [hmin, powFuel_min] at he
      cases hi : inv handled A with
      | error e' =>
        rw [hi] at he
        cases he
        exact .inr (.inl rfl)
      | ok B =>
        rw [hi] at he
        cases he
        exact .inr (.inr ⟨hmin, rfl⟩)
    · rw [powFuel_neg _ _ _ _ _ hp hmin] at he
      cases hi : inv handled A with
      | error e' =>
        rw [hi] at he
        cases he
        exact .inr (.inl rfl)
      | ok B =>
        rw [hi] at he
        exact .inl (hstep B _ _ (by omega) le_rfl e he)
  · exact .inl (h0 hp e he)

/-! ## Examples -/

/-- C146 is not vacuous: a checked integer type whose operations throw outside -9..9, and functions that pass on its
exceptions. -/
@[instance_reducible] def checked : CScalar ℤ where
  add a b := if |a + b| ≤ 9 then .ok (a + b) else .error (.throws (.other 1))
  sub a b := if |a - b| ≤ 9 then .ok (a - b) else .error (.throws (.other 2))
  mul a b := if |a * b| ≤ 9 then .ok (a * b) else .error (.throws (.other 3))
  div a b := .ok (a / b)
  neg a := .ok (-a)
  ofInt k := k
  eq a b := decide (a = b)
  lt a b := decide (a < b)
  abs a := .ok |a|
  sqrt a := .ok a
  divSize a n := .ok (a / n)

example : @opMul ℤ _ checked 2 2 2 (Mat.const 2) (Mat.const 2) = .ok (Mat.const 8) := by decide +kernel
example : ∃ e, @opMul ℤ _ checked 2 2 2 (Mat.const 3) (Mat.const 2) = .error e ∧ e = .throws (.other 1) ∧
    @OneStops ℤ checked [.add, .mul] e :=
  ⟨.throws (.other 1), by decide +kernel, rfl, .add, by decide, 6, 6, by decide +kernel⟩
example : @opMul ℤ _ checked 2 2 2 (Mat.const 4) (Mat.const 3) = .error (.throws (.other 3)) := by decide +kernel
example : @inv ℤ _ checked none 2 (Mat.const 2) = .error (.throws divideByZeroException) := by decide +kernel
example : @inv ℤ _ checked none 2 (Mat.const 4) = .error (.throws (.other 3)) := by decide +kernel
/-- Subtraction of this type throws, but products do not subtract. -/
example (A B : Mat ℤ 5 5) : @opMul ℤ _ checked 5 5 5 A B ≠ .error (.throws (.other 2)) := by
  intro h
  obtain ⟨o, ho, hs⟩ := (@C146_mult ℤ _ checked 5 5 5 5 5 A B 0 0 0 0).1 _ h
  simp only [List.mem_cons, List.not_mem_nil, or_false] at ho
  rcases ho with rfl | rfl
  · obtain ⟨a, b, hs⟩ := hs
    change (if |a + b| ≤ 9 then Except.ok (a + b) else Except.error (Stop.throws (.other 1))) = _ at hs
    split at hs <;> cases hs
  · obtain ⟨a, b, hs⟩ := hs
    change (if |a * b| ≤ 9 then Except.ok (a * b) else Except.error (Stop.throws (.other 3))) = _ at hs
    split at hs <;> cases hs

end

end MatrixLibs
