import Verif.Model.Arith
import Verif.Proof.Elementwise
import Mathlib.Algebra.BigOperators.Fin
import Mathlib.Data.Matrix.Mul
import Mathlib.Order.Interval.Finset.Fin

/-!
# Lemmas about arithmetic functions
-/

namespace MatrixLibs

set_option linter.unusedSectionVars false

open CScalar (ofInt)

section generic
variable {T : Type} [Inhabited T] [CScalar T] {i j : Nat}

theorem sum_elementwise (A B : Mat T i j) :
    ElementwiseOf (fun a b => CScalar.add (A a b) (B a b)) (sum A B) := by
  have := elementwise_loop (valueInit i j)
    (g := fun it jt => do CScalar.add (← rd A it jt) (← rd B it jt))
    (f := fun a b => CScalar.add (A a b) (B a b)) (fun a b => by simp only [rd_fin, ok_bind])
  simpa only [sum, bind_assoc] using this

theorem sumScalar_elementwise (A : Mat T i j) (s : T) :
    ElementwiseOf (fun a b => CScalar.add (A a b) s) (sumScalar A s) := by
  have := elementwise_loop (valueInit i j)
    (g := fun it jt => do CScalar.add (← rd A it jt) s)
    (f := fun a b => CScalar.add (A a b) s) (fun a b => by simp only [rd_fin, ok_bind])
  simpa only [sumScalar, bind_assoc] using this

theorem sub_elementwise (A B : Mat T i j) :
    ElementwiseOf (fun a b => CScalar.sub (A a b) (B a b)) (sub A B) := by
  have := elementwise_loop (valueInit i j)
    (g := fun it jt => do CScalar.sub (← rd A it jt) (← rd B it jt))
    (f := fun a b => CScalar.sub (A a b) (B a b)) (fun a b => by simp only [rd_fin, ok_bind])
  simpa only [sub, bind_assoc] using this

theorem subScalar_elementwise (A : Mat T i j) (s : T) :
    ElementwiseOf (fun a b => CScalar.sub (A a b) s) (subScalar A s) := by
  have := elementwise_loop (valueInit i j)
    (g := fun it jt => do CScalar.sub (← rd A it jt) s)
    (f := fun a b => CScalar.sub (A a b) s) (fun a b => by simp only [rd_fin, ok_bind])
  simpa only [subScalar, bind_assoc] using this

theorem multScalar_elementwise (A : Mat T i j) (s : T) :
    ElementwiseOf (fun a b => CScalar.mul (A a b) s) (multScalar A s) := by
  have := elementwise_loop (valueInit i j)
    (g := fun it jt => do CScalar.mul (← rd A it jt) s)
    (f := fun a b => CScalar.mul (A a b) s) (fun a b => by simp only [rd_fin, ok_bind])
  simpa only [multScalar, bind_assoc] using this

theorem div_elementwise (h : Option Exc) (A : Mat T i j) (s : T)
    (hs : CScalar.eq s (ofInt 0) = false) :
    ElementwiseOf (fun a b => CScalar.div (A a b) s) (div h A s) := by
  have := elementwise_loop (valueInit i j)
    (g := fun it jt => do CScalar.div (← rd A it jt) s)
    (f := fun a b => CScalar.div (A a b) s) (fun a b => by simp only [rd_fin, ok_bind])
  simpa [div, bind_assoc, hs] using this

omit [CScalar T] in
theorem ElementwiseOf.copyOut {f : Fin i → Fin j → Res T} {x : Res (Mat (Option T) i j)}
    (hx : ElementwiseOf (fun a b => do .ok (some (← f a b))) x) :
    ElementwiseOf f (x >>= MatrixLibs.copyOut) := by
  cases h : x with
  | ok R =>
    have hR := (hx.1 R).mp h
    rw [ok_bind]
    refine elementwise_loop (valueInit i j) (g := fun it jt => rdInit R it jt) (fun a b => ?_)
    have := hR a b
    dsimp only at this
    unfold rdInit
    rw [rd_fin, ok_bind]
    cases hf : f a b with
    | ok v =>
      rw [hf, ok_bind] at this
      rw [← Except.ok.inj this]
    | error e => rw [hf] at this; cases this
  | error e =>
    obtain ⟨a, b, hab, hlt⟩ := (hx.2 e).mp h
    have hab' : f a b = .error e := by
      cases hf : f a b with
      | ok v => simp only [hf, ok_bind] at hab; cases hab
      | error e' => simp only [hf, error_bind] at hab; cases hab; rfl
    have hlt' : ∀ a' b', (a' < a ∨ a' = a ∧ b' < b) → ∃ v, f a' b' = .ok v := by
      intro a' b' h'
      obtain ⟨v, hv⟩ := hlt a' b' h'
      cases hf : f a' b' with
      | ok v => exact ⟨v, rfl⟩
      | error e' => simp only [hf, error_bind] at hv; cases hv
    rw [error_bind]
    constructor
    · intro R
      refine ⟨fun h => (by cases h), fun h => ?_⟩
      rw [h a b] at hab'; cases hab'
    · intro e'
      constructor
      · intro h; cases h
        exact ⟨a, b, hab', hlt'⟩
      · rintro ⟨a', b', h1, h2⟩
        congr 1
        have := (hx.2 e').mpr ⟨a', b', by simp only [h1, error_bind], fun a'' b'' h3 => by
          obtain ⟨v, hv⟩ := h2 a'' b'' h3
          exact ⟨some v, by simp only [hv, ok_bind]⟩⟩
        rw [h] at this
        exact Except.error.inj this

theorem abs_elementwise (A : Mat T i j) :
    ElementwiseOf (fun a b => CScalar.abs (A a b)) (abs A) := by
  have := elementwise_loop (Mat.const none : Mat (Option T) i j)
    (g := fun it jt => do .ok (some (← CScalar.abs (← rd A it jt))))
    (f := fun a b => do .ok (some (← CScalar.abs (A a b))))
    (fun a b => by simp only [rd_fin, ok_bind])
  unfold abs
  refine ElementwiseOf.copyOut ?_
  simpa only [bind_assoc, ok_bind] using this

/-! ### Multiplication -/

/-- The dot product of row `i` of `A` and column `j` of `B`, accumulated from `start`. -/
def dotFrom {n m p : Nat} (A : Mat T n m) (B : Mat T m p) (start : T) (i j : Nat) : Res T :=
  forUp 0 m start fun k acc => do
    let t ← CScalar.mul (← rd A i k) (← rd B k j)
    CScalar.add acc t

omit [CScalar T] [Inhabited T] in
/-- A loop that only updates cell `(a, b)` by a function of its value. -/
theorem cell_loop {r c : Nat} {h : Nat → T → Res T} (a : Fin r) (b : Fin c)
    {body : Nat → Mat T r c → Res (Mat T r c)} (lo hi : Nat) (S : Mat T r c)
    (hb : ∀ k S, body k S = (do wr S a b (← h k (S a b)))) :
    forUp lo hi S body = (do wr S a b (← forUp lo hi (S a b) h)) := by
  unfold forUp
  generalize hi - lo = cnt
  induction cnt generalizing lo S with
  | zero =>
    simp only [loopN, ok_bind, wr_eq a.2 b.2]
    congr 1
    ext a' b'
    rw [Matrix.of_apply]
    split
    · next h =>
      rw [Fin.ext h.1, Fin.ext h.2]
    · rfl
  | succ n ih =>
    rw [loopN, loopN, hb, bind_assoc, bind_assoc]
    cases hv : h lo (S a b) with
    | error e => rfl
    | ok v =>
      rw [ok_bind, ok_bind, wr_eq a.2 b.2, ok_bind, ih]
      rw [Matrix.of_apply, if_pos ⟨rfl, rfl⟩]
      congr 1
      funext w
      rw [wr_eq a.2 b.2, wr_eq a.2 b.2]
      congr 1
      ext a b
      simp only [Matrix.of_apply]
      split <;> rfl

theorem mult_elementwise {n m p : Nat} (A : Mat T n m) (B : Mat T m p) :
    ElementwiseOf (fun a b => dotFrom A B (ofInt 0) a b) (mult A B) := by
  unfold mult
  rw [zeros_ok, ok_bind]
  have h1 := elementwise_loop (Mat.const (ofInt 0) : Mat T n p)
    (g := fun it jt => dotFrom A B (ofInt 0) it jt)
    (f := fun a b => dotFrom A B (ofInt 0) a b) (fun a b => rfl)
  rw [fill_acc (g := fun it jt => dotFrom A B (ofInt 0) it jt)]
  · exact h1
  · intro a b S hS
    rw [cell_loop (h := fun k v => do
      let t ← CScalar.mul (← rd A a.val k) (← rd B k b.val)
      CScalar.add v t) a b, hS]
    · rfl
    · intro k S
      simp only [rd_fin, ok_bind, bind_assoc]

end generic

/-! ### Exact arithmetic -/

section exact
variable {K : Type} [Ring K] [CScalar K] [ExactRing K] [Inhabited K] {i j : Nat}

theorem ElementwiseOf.eq_ok {T : Type} {r c : Nat} {f : Fin r → Fin c → Res T}
    {x : Res (Mat T r c)} (hx : ElementwiseOf f x) {R : Mat T r c}
    (h : ∀ a b, f a b = .ok (R a b)) : x = .ok R := (hx.1 R).mpr h

theorem sum_ok (A B : Mat K i j) : sum A B = .ok (A + B) :=
  (sum_elementwise A B).eq_ok fun _ _ => ExactRing.add_eq _ _

theorem sub_ok (A B : Mat K i j) : sub A B = .ok (A - B) :=
  (sub_elementwise A B).eq_ok fun _ _ => ExactRing.sub_eq _ _

theorem sumScalar_ok (A : Mat K i j) (s : K) : sumScalar A s = .ok (A + Mat.const s) :=
  (sumScalar_elementwise A s).eq_ok fun _ _ => ExactRing.add_eq _ _

theorem subScalar_ok (A : Mat K i j) (s : K) : subScalar A s = .ok (A - Mat.const s) :=
  (subScalar_elementwise A s).eq_ok fun _ _ => ExactRing.sub_eq _ _

theorem multScalar_ok' (A : Mat K i j) (s : K) :
    multScalar A s = .ok (.of fun a b => A a b * s) :=
  (multScalar_elementwise A s).eq_ok fun _ _ => ExactRing.mul_eq _ _

theorem zeros_exact : zeros (T := K) i j = .ok 0 := by
  rw [zeros_ok, ExactRing.ofInt_eq, Int.cast_zero]; rfl

theorem eye1_exact (n : Nat) : eye1 (T := K) n = .ok 1 := by
  unfold eye1
  rw [eye_ok, ExactRing.ofInt_eq, ExactRing.ofInt_eq, Int.cast_zero, Int.cast_one]
  rfl

/-- Accumulating loop. -/
theorem wp_sum_loop {σ R : Type} [AddCommMonoid R] {m : Nat} {body : Nat → σ → Res σ} {s0 : σ}
    {E : Stop → Prop} (V : σ → R) (f : Fin m → R)
    (h : ∀ k (hk : k < m) s, wp (body k s) (fun s' => V s' = V s + f ⟨k, hk⟩) E) :
    wp (forUp 0 m s0 body) (fun s => V s = V s0 + ∑ k, f k) E := by
  set F : Nat → R := fun k => if hk : k < m then f ⟨k, hk⟩ else 0 with hF
  refine wp_forUp (fun k s => V s = V s0 + ∑ x ∈ Finset.range k, F x) (Nat.zero_le m)
    (by simp) ?_ ?_
  · intro k s _ hk hs
    refine wp_mono (h k hk s) ?_ (fun _ h => h)
    intro s' hs'
    rw [hs', hs, Finset.sum_range_succ, ← add_assoc, hF]
    simp only [hk, dite_true]
  · intro s hs
    rw [hs, Finset.sum_range, hF]
    simp

theorem wp_dotFrom {T R : Type} [CScalar T] [Ring R] (S : RingSem T R) {n m p : Nat}
    (A : Mat T n m) (B : Mat T m p) (start : T) (a : Fin n) (b : Fin p) :
    wp (dotFrom A B start a b)
      (fun v => S.val v = S.val start + ∑ k, S.val (A a k) * S.val (B k b)) S.Bad := by
  refine wp_sum_loop S.val (fun k => S.val (A a k) * S.val (B k b)) ?_
  intro k hk s
  rw [rd_eq a.2 hk, ok_bind, rd_eq hk b.2, ok_bind, wp_bind]
  refine wp_mono (S.mul _ _) ?_ (fun _ h => h)
  intro t ht
  refine wp_mono (S.add _ _) ?_ (fun _ h => h)
  intro v hv
  rw [hv, ht]

theorem wp_mult {T R : Type} [Inhabited T] [CScalar T] [Ring R] (S : RingSem T R) {n m p : Nat}
    (A : Mat T n m) (B : Mat T m p) :
    wp (mult A B) (fun P => P.map S.val = A.map S.val * B.map S.val) S.Bad := by
  cases h : mult A B with
  | ok P =>
    rw [wp_ok]
    ext a b
    have h1 := wp_ok_elim (wp_dotFrom S A B (ofInt 0) a b)
      (((mult_elementwise A B).1 P).mp h a b)
    rw [Matrix.map_apply, h1, S.ofInt 0 (by norm_num) (by norm_num), Matrix.mul_apply]
    simp
  | error e =>
    obtain ⟨a, b, hab, -⟩ := ((mult_elementwise A B).2 e).mp h
    exact wp_error_elim (wp_dotFrom S A B (ofInt 0) a b) hab

theorem RingSem.exact_map {n m : Nat} (A : Mat K n m) : A.map (RingSem.exact K).val = A := by
  ext a b; rfl

theorem mult_ok {n m p : Nat} (A : Mat K n m) (B : Mat K m p) : mult A B = .ok (A * B) := by
  apply wp_eq
  refine wp_mono (wp_mult (RingSem.exact K) A B) ?_ (fun _ h => h)
  intro P hP
  simpa only [RingSem.exact_map] using hP

end exact

section comm
variable {K : Type} [CommRing K] [CScalar K] [ExactRing K] [Inhabited K] {i j : Nat}

theorem multScalar_ok (A : Mat K i j) (s : K) : multScalar A s = .ok (s • A) := by
  rw [multScalar_ok']
  congr 1
  ext a b
  rw [Matrix.of_apply, Matrix.smul_apply, smul_eq_mul, mul_comm]

end comm

/-! ### Signed integers -/

theorem checked_iff {w : Nat} (k : Int) :
    wp (SInt.checked (w := w) k) (fun c => c.val = k ∧ InRange w k)
      (fun e => e = .ub .signedOverflow ∧ ¬ InRange w k) := by
  unfold SInt.checked
  split
  · next h => exact ⟨rfl, h⟩
  · next h => exact ⟨rfl, h⟩

theorem SInt.ext_val {w : Nat} {a b : SInt w} (h : a.val = b.val) : a = b := by
  cases a; cases b; simp only [SInt.mk.injEq]; exact h

/-- The condition at step `k` of a signed dot product. -/
def DotFits (w : Nat) {n m p : Nat} (A : Mat (SInt w) n m) (B : Mat (SInt w) m p) (a : Fin n)
    (b : Fin p) (k : Fin m) : Prop :=
  InRange w ((A a k).val * (B k b).val) ∧
    InRange w (∑ k' ∈ Finset.Iic k, (A a k').val * (B k' b).val)

theorem wp_dot_signed {w : Nat} (hw : 2 ≤ w) {n m p : Nat} (A : Mat (SInt w) n m)
    (B : Mat (SInt w) m p) (a : Fin n) (b : Fin p) :
    wp (dotFrom A B (ofInt 0) a b)
      (fun v => v.val = ∑ k, (A a k).val * (B k b).val ∧ ∀ k, DotFits w A B a b k)
      (fun e => e = .ub .signedOverflow ∧ ∃ k, ¬ DotFits w A B a b k) := by
  set F : Nat → ℤ := fun k => if hk : k < m then (A a ⟨k, hk⟩).val * (B ⟨k, hk⟩ b).val else 0
    with hF
  have hFk : ∀ k : Fin m, F k.val = (A a k).val * (B k b).val := by
    intro k; simp [hF]
  have hIic : ∀ k : Fin m, ∑ k' ∈ Finset.Iic k, (A a k').val * (B k' b).val =
      ∑ x ∈ Finset.range (k.val + 1), F x := by
    intro k
    rw [Nat.range_succ_eq_Iic, ← Fin.map_valEmbedding_Iic, Finset.sum_map]
    exact Finset.sum_congr rfl (fun x _ => (hFk x).symm)
  unfold dotFrom
  refine wp_forUp (fun k (acc : SInt w) => acc.val = ∑ x ∈ Finset.range k, F x ∧
    ∀ k' : Fin m, k'.val < k → DotFits w A B a b k') (Nat.zero_le m) ⟨?_, ?_⟩ ?_ ?_
  · rw [Finset.range_zero, Finset.sum_empty]
    exact bmod_small hw (by norm_num) (by norm_num)
  · intro k' h; omega
  · rintro k acc _ hk ⟨hacc, hfit⟩
    rw [rd_eq a.2 hk, ok_bind, rd_eq hk b.2, ok_bind, wp_bind]
    refine wp_mono (checked_iff _) ?_ ?_
    · rintro t ⟨ht, htr⟩
      refine wp_mono (checked_iff _) ?_ ?_
      · rintro v ⟨hv, hvr⟩
        have hs : acc.val + t.val = ∑ x ∈ Finset.range (k + 1), F x := by
          rw [Finset.sum_range_succ, hacc, ht, ← hFk ⟨k, hk⟩]
        refine ⟨by rw [hv, hs], fun k' hk' => ?_⟩
        by_cases hkk : k'.val = k
        · have : k' = ⟨k, hk⟩ := Fin.ext hkk
          subst this
          refine ⟨htr, ?_⟩
          rw [hIic, ← hs]
          exact hvr
        · exact hfit k' (by omega)
      · rintro e ⟨he, her⟩
        refine ⟨he, ⟨k, hk⟩, fun hf => her ?_⟩
        have := hf.2
        rw [hIic, Finset.sum_range_succ, ← hacc] at this
        dsimp only at this
        rwa [hFk ⟨k, hk⟩, ← ht] at this
    · rintro e ⟨he, her⟩
      exact ⟨he, ⟨k, hk⟩, fun hf => her hf.1⟩
  · rintro v ⟨hv, hfit⟩
    refine ⟨?_, fun k => hfit k k.2⟩
    rw [hv, Finset.sum_range]
    exact Finset.sum_congr rfl (fun x _ => hFk x)

end MatrixLibs
