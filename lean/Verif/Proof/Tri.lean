import Verif.Proof.Arith
import Verif.Model.Det

/-!
# Elimination in triangular matrices

Nothing happens, for every arithmetic in which zeros behave.
-/

namespace MatrixLibs

set_option linter.unusedSectionVars false

variable {T : Type} [Inhabited T] [CScalar T] {n : Nat}

open CScalar (ofInt)

/-- Compares equal to the literal 0. -/
def Zeroish (a : T) : Prop := CScalar.eq a (ofInt 0) = true

/-- `a'` is `a`, except that a zero may have become another zero. -/
def Kept (a a' : T) : Prop := a' = a ∨ (Zeroish a ∧ Zeroish a')

theorem Kept.refl (a : T) : Kept a a := .inl rfl

theorem Kept.trans {a b c : T} (h : Kept a b) (h' : Kept b c) : Kept a c := by
  rcases h with e | ⟨h1, h2⟩
  · rw [← e]; exact h'
  · rcases h' with e | ⟨h3, h4⟩
    · rw [e]; exact .inr ⟨h1, h2⟩
    · exact .inr ⟨h1, h4⟩

theorem Kept.zero {a b : T} (h : Kept a b) (hz : Zeroish a) : Zeroish b := by
  rcases h with e | ⟨-, h2⟩
  · rw [e]; exact hz
  · exact h2

theorem Kept.nonzero {a b : T} (h : Kept a b) (hz : ¬ Zeroish a) : b = a := by
  rcases h with e | ⟨h1, -⟩
  · exact e
  · exact absurd h1 hz

theorem Kept.of_zero {a b : T} (ha : Zeroish a) (hb : Zeroish b) : Kept a b := .inr ⟨ha, hb⟩

/-- How zeros behave in an arithmetic: all operations with them that elimination and products meet return, and change
nothing. -/
structure ZeroArith (fin : T → Prop) : Prop where
  lit : Zeroish (ofInt 0 : T)
  fin_zero {a : T} : Zeroish a → fin a
  mul {a b : T} : fin a → fin b → (Zeroish a ∨ Zeroish b) → ∃ m, CScalar.mul a b = .ok m ∧ Zeroish m
  add {a z : T} : Zeroish z → ∃ s, CScalar.add a z = .ok s ∧ Kept a s
  zadd {a z : T} : Zeroish z → ∃ s, CScalar.add z a = .ok s ∧ Kept a s
  sub {a z : T} : Zeroish z → ∃ s, CScalar.sub a z = .ok s ∧ Kept a s
  div {z p : T} : Zeroish z → fin p → ¬ Zeroish p → ∃ q, CScalar.div z p = .ok q ∧ Zeroish q
  div_one {a : T} : ∃ q, CScalar.div a (ofInt 1) = .ok q ∧ Kept a q
  one : ¬ Zeroish (ofInt 1 : T)
  div_self {p : T} : fin p → ¬ Zeroish p → CScalar.div p p = .ok (ofInt 1)
  fin_one : fin (ofInt 1 : T)
  one_mul {a : T} : ∃ m, CScalar.mul (ofInt 1) a = .ok m ∧ Kept a m
  mul_one {a : T} : ∃ m, CScalar.mul a (ofInt 1) = .ok m ∧ Kept a m

theorem Kept.fin {fin : T → Prop} (Z : ZeroArith fin) {a b : T} (h : Kept a b) (ha : fin a) : fin b := by
  rcases h with e | ⟨-, h2⟩
  · rw [e]; exact ha
  · exact Z.fin_zero h2

theorem ZeroArith.steps {fin : T → Prop} (Z : ZeroArith fin) {v x p y : T} (hv : fin v) (hx : fin x) (hp : fin p) (h0 : ¬ Zeroish p)
    (h : Zeroish v ∨ Zeroish x) :
    ∃ m q y', CScalar.mul v x = .ok m ∧ CScalar.div m p = .ok q ∧ CScalar.sub y q = .ok y' ∧ Kept y y' := by
  obtain ⟨m, hm, hmz⟩ := Z.mul hv hx h
  obtain ⟨q, hq, hqz⟩ := Z.div hmz hp h0
  obtain ⟨y', hy, hk⟩ := Z.sub (a := y) hqz
  exact ⟨m, q, y', hm, hq, hy, hk⟩

/-- The steps of an elimination always return something, unless the pivot is zero. -/
def TotalSteps (T : Type) [Inhabited T] [CScalar T] : Prop :=
  ∀ v x p y : T, ¬ Zeroish p → ∃ m q y', CScalar.mul v x = .ok m ∧ CScalar.div m p = .ok q ∧ CScalar.sub y q = .ok y'

/-- Upper triangular, or lower triangular if the arithmetic always returns something. -/
def TriFor (A : Mat T n n) : Prop :=
  (∀ i j, j < i → Zeroish (A i j)) ∨ ((∀ i j, i < j → Zeroish (A i j)) ∧ TotalSteps T)

/-- The elements that are still to be read, before step `r`. -/
def LiveKept (A A' : Mat T n n) (r : Nat) : Prop :=
  ∀ i j : Fin n, (r ≤ j.val ∨ i ≤ j) → Kept (A i j) (A' i j)

theorem wp_detEliminate_zeros {fin : T → Prop} (Z : ZeroArith fin) {A0 A : Mat T n n} (hA : TriFor A0) (hf : ∀ i j, fin (A0 i j))
    (hd : ∀ i, ¬ Zeroish (A0 i i)) {r : Nat} (hr : r < n) (h : LiveKept A0 A r) :
    wp (detEliminate A r r) (fun A' => LiveKept A0 A' (r + 1)) (fun _ => False) := by
  unfold detEliminate
  refine wp_forUp (fun i A' => LiveKept A0 A' (r + 1) ∧ ∀ i' j : Fin n, i ≤ i'.val → r ≤ j.val → Kept (A0 i' j) (A' i' j))
    (by omega) ⟨fun i j hij => h i j (hij.imp_left fun h => by omega), fun i' j _ h2 => h i' j (.inl h2)⟩ ?_ fun s hs => hs.1
  intro i A1 hi1 hi2 ⟨hL, hU⟩
  have hne : i ≠ r := by omega
  rw [if_pos hne, rd_eq hi2 hr, ok_bind]
  have hv := hU ⟨i, hi2⟩ ⟨r, hr⟩ le_rfl le_rfl
  set v := A1 ⟨i, hi2⟩ ⟨r, hr⟩
  refine wp_forUp (fun j A' => LiveKept A0 A' (r + 1) ∧
    (∀ i' j' : Fin n, i + 1 ≤ i'.val → r ≤ j'.val → Kept (A0 i' j') (A' i' j')) ∧
    (∀ j' : Fin n, j ≤ j'.val → Kept (A0 ⟨i, hi2⟩ j') (A' ⟨i, hi2⟩ j')))
    (by omega) ⟨hL, fun i' j' h1 h2 => hU i' j' (by omega) h2, fun j' h => hU ⟨i, hi2⟩ j' le_rfl h⟩ ?_ fun s hs => ⟨hs.1, hs.2.1⟩
  intro j A' hj1 hj2 ⟨hL', hU', hrow⟩
  rw [rd_eq hr hj2, ok_bind, rd_eq hr hr]
  have hx := hL' ⟨r, hr⟩ ⟨j, hj2⟩ (.inr hj1)
  have hp := hL' ⟨r, hr⟩ ⟨r, hr⟩ (.inr le_rfl)
  have hpe := hp.nonzero (hd ⟨r, hr⟩)
  have hy := hrow ⟨j, hj2⟩ le_rfl
  set x := A' ⟨r, hr⟩ ⟨j, hj2⟩ with hxd
  set p := A' ⟨r, hr⟩ ⟨r, hr⟩ with hpd
  set y := A' ⟨i, hi2⟩ ⟨j, hj2⟩ with hyd
  have hp0 : ¬ Zeroish p := by rw [hpe]; exact hd _
  have key : ∃ m q y', CScalar.mul v x = .ok m ∧ CScalar.div m p = .ok q ∧ CScalar.sub y q = .ok y' ∧
      (r < j → Kept y y') := by
    rcases hA with hA | ⟨hA, ht⟩
    · obtain ⟨m, q, y', h1, h2, h3, h4⟩ := Z.steps (y := y) (hv.fin Z (hf _ _)) (hx.fin Z (hf _ _)) (hp.fin Z (hf _ _)) hp0 (.inl (hv.zero (hA _ _ (by show r < i; omega))))
      exact ⟨m, q, y', h1, h2, h3, fun _ => h4⟩
    · rcases Nat.lt_or_ge r j with hrj | hrj
      · obtain ⟨m, q, y', h1, h2, h3, h4⟩ := Z.steps (y := y) (hv.fin Z (hf _ _)) (hx.fin Z (hf _ _)) (hp.fin Z (hf _ _)) hp0 (.inr (hx.zero (hA _ _ hrj)))
        exact ⟨m, q, y', h1, h2, h3, fun _ => h4⟩
      · obtain ⟨m, q, y', h1, h2, h3⟩ := ht v x p y hp0
        exact ⟨m, q, y', h1, h2, h3, fun h => by omega⟩
  obtain ⟨m, q, y', h1, h2, h3, h4⟩ := key
  rw [h1, ok_bind, ok_bind, h2, ok_bind, rd_eq hi2 hj2, ok_bind, ← hyd, h3, ok_bind, wr_eq hi2 hj2]
  rw [wp_ok]
  refine ⟨fun a b hab => ?_, fun a b ha hb => ?_, fun b hb => ?_⟩
  · rw [Matrix.of_apply]
    split
    · next he =>
      have ea : a = ⟨i, hi2⟩ := Fin.ext he.1
      have eb : b = ⟨j, hj2⟩ := Fin.ext he.2
      subst ea; subst eb
      refine hy.trans (h4 ?_)
      rcases hab with h | h
      · exact h
      · have : i ≤ j := h
        omega
    · exact hL' a b hab
  · rw [Matrix.of_apply, if_neg (by omega)]
    exact hU' a b ha hb
  · rw [Matrix.of_apply, if_neg (by omega)]
    exact hrow b (by omega)

/-- The determinant of a triangular matrix: the product of its diagonal from the left, divided by the literal 1. -/
theorem detN_tri {fin : T → Prop} (Z : ZeroArith fin) {A : Mat T n n} (hA : TriFor A) (hf : ∀ i j, fin (A i j))
    (hd : ∀ i, ¬ Zeroish (A i i)) : detN A = detProd A (ofInt 1) := by
  have h : wp (forRet 0 n ({ A := A, factor := ofInt 1, pivot := 0 } : DetState T n) detStep)
      (fun x => ∃ A', x = .cont { A := A', factor := ofInt 1, pivot := n } ∧ LiveKept A A' n) (fun _ => False) := by
    refine wp_forRet (fun k s => s.factor = ofInt 1 ∧ s.pivot = k ∧ LiveKept A s.A k) (fun _ => False) (Nat.zero_le n)
      ⟨rfl, rfl, fun i j _ => Kept.refl _⟩ ?_ ?_ (fun _ h => h.elim)
    · rintro k ⟨A', f, p⟩ - hk ⟨rfl, rfl, hL⟩
      dsimp only at hk hL
      unfold detStep
      dsimp only
      rw [if_neg (by omega), wp_bind]
      have hs : detSearch A' p (n * n + 1) p p = .ok (some (p, p)) := by
        unfold detSearch
        rw [rd_eq hk hk, ok_bind, if_neg]
        have := (hL ⟨p, hk⟩ ⟨p, hk⟩ (.inl le_rfl)).nonzero (hd ⟨p, hk⟩)
        rw [this]
        exact hd _
      rw [hs, wp_ok]
      dsimp only
      unfold detSwap
      rw [if_neg (by simp), ok_bind]
      dsimp only
      rw [wp_bind]
      refine wp_mono (wp_detEliminate_zeros Z hA hf hd hk hL) (fun A'' h => ?_) fun _ h => h
      rw [wp_pure]
      exact ⟨rfl, rfl, h⟩
    · rintro ⟨A', f, p⟩ ⟨rfl, hp, hL⟩
      exact ⟨A', by rw [show p = n from hp], hL⟩
  obtain ⟨x, hx, A', rfl, hL⟩ := wp_total h
  unfold detN
  rw [hx, ok_bind]
  dsimp only
  have he : ∀ i, A' i i = A i i := fun i => (hL i i (.inr le_rfl)).nonzero (hd i)
  unfold detProd
  congr 1
  refine forUp_congr fun i s _ hi => ?_
  rw [rd_eq hi hi, rd_eq hi hi, he]

/-! ## Products -/

theorem dot_zero {fin : T → Prop} (Z : ZeroArith fin) {m p : Nat} {A : Mat T n m} {B : Mat T m p} {i : Fin n} {j : Fin p}
    (hA : ∀ k, fin (A i k)) (hB : ∀ k, fin (B k j)) (h : ∀ k, Zeroish (A i k) ∨ Zeroish (B k j)) :
    ∃ s, dotFrom A B (ofInt 0) i j = .ok s ∧ Zeroish s := by
  unfold dotFrom
  refine wp_total (wp_forUp (fun _ s => Zeroish s) (Nat.zero_le m) Z.lit (fun k s _ hk hs => ?_) fun s hs => hs)
  obtain ⟨t, ht, htz⟩ := Z.mul (hA ⟨k, hk⟩) (hB ⟨k, hk⟩) (h ⟨k, hk⟩)
  rw [rd_eq i.isLt hk, ok_bind, rd_eq hk j.isLt, ok_bind, ht, ok_bind]
  obtain ⟨s', hs', hk'⟩ := Z.add (a := s) htz
  rw [hs', wp_ok]
  exact hk'.zero hs

theorem dot_single {fin : T → Prop} (Z : ZeroArith fin) {m p : Nat} {A : Mat T n m} {B : Mat T m p} {i : Fin n} {j : Fin p}
    (hA : ∀ k, fin (A i k)) (hB : ∀ k, fin (B k j)) (k0 : Fin m) (h : ∀ k, k ≠ k0 → Zeroish (A i k) ∨ Zeroish (B k j))
    {t0 : T} (h0 : CScalar.mul (A i k0) (B k0 j) = .ok t0) :
    ∃ s, dotFrom A B (ofInt 0) i j = .ok s ∧ Kept t0 s := by
  unfold dotFrom
  refine wp_total (wp_forUp (fun k s => (k ≤ k0.val → Zeroish s) ∧ (k0.val < k → Kept t0 s)) (Nat.zero_le m)
    ⟨fun _ => Z.lit, fun h => by omega⟩ (fun k s _ hk hs => ?_) fun s hs => hs.2 k0.isLt)
  rw [rd_eq i.isLt hk, ok_bind, rd_eq hk j.isLt, ok_bind]
  rcases Nat.lt_trichotomy k k0.val with hlt | heq | hgt
  · obtain ⟨t, ht, htz⟩ := Z.mul (hA ⟨k, hk⟩) (hB ⟨k, hk⟩) (h ⟨k, hk⟩ fun e => by rw [← e] at hlt; exact lt_irrefl _ hlt)
    obtain ⟨s', hs', hk'⟩ := Z.add (a := s) htz
    rw [ht, ok_bind, hs', wp_ok]
    exact ⟨fun _ => hk'.zero (hs.1 (by omega)), fun h => by omega⟩
  · have e : (⟨k, hk⟩ : Fin m) = k0 := Fin.ext heq
    obtain ⟨s', hs', hk'⟩ := Z.zadd (a := t0) (hs.1 (by omega))
    rw [e, h0, ok_bind, hs', wp_ok]
    exact ⟨fun h => by omega, fun _ => hk'⟩
  · obtain ⟨t, ht, htz⟩ := Z.mul (hA ⟨k, hk⟩) (hB ⟨k, hk⟩) (h ⟨k, hk⟩ fun e => by rw [← e] at hgt; exact lt_irrefl _ hgt)
    obtain ⟨s', hs', hk'⟩ := Z.add (a := s) htz
    rw [ht, ok_bind, hs', wp_ok]
    exact ⟨fun h => by omega, fun _ => (hs.2 (by omega)).trans hk'⟩

theorem dot_single_error {fin : T → Prop} (Z : ZeroArith fin) {m p : Nat} {A : Mat T n m} {B : Mat T m p} {i : Fin n} {j : Fin p}
    (hA : ∀ k, fin (A i k)) (hB : ∀ k, fin (B k j)) (k0 : Fin m) (h : ∀ k, k ≠ k0 → Zeroish (A i k) ∨ Zeroish (B k j))
    {e : Stop} (h0 : CScalar.mul (A i k0) (B k0 j) = .error e) : dotFrom A B (ofInt 0) i j = .error e := by
  have key : wp (dotFrom A B (ofInt 0) i j) (fun _ => False) (fun e' => e' = e) := by
    unfold dotFrom
    refine wp_forUp (fun k s => k ≤ k0.val ∧ Zeroish s) (Nat.zero_le m)
      ⟨Nat.zero_le _, Z.lit⟩ (fun k s _ hk hs => ?_) fun s hs => absurd hs.1 (by have := k0.isLt; omega)
    rw [rd_eq i.isLt hk, ok_bind, rd_eq hk j.isLt, ok_bind]
    rcases Nat.lt_or_eq_of_le hs.1 with hlt | heq
    · obtain ⟨t, ht, htz⟩ := Z.mul (hA ⟨k, hk⟩) (hB ⟨k, hk⟩) (h ⟨k, hk⟩ fun e => by rw [← e] at hlt; exact lt_irrefl _ hlt)
      obtain ⟨s', hs', hk'⟩ := Z.add (a := s) htz
      rw [ht, ok_bind, hs', wp_ok]
      exact ⟨by omega, hk'.zero hs.2⟩
    · have e' : (⟨k, hk⟩ : Fin m) = k0 := Fin.ext heq
      rw [e', h0]
      exact rfl
  cases hx : dotFrom A B (ofInt 0) i j with
  | ok v => exact (wp_ok_elim key hx).elim
  | error e' => rw [wp_error_elim key hx]

/-- A permutation matrix moves rows. -/
theorem mult_perm_left {fin : T → Prop} (Z : ZeroArith fin) {p : Nat} {P : Mat T n n} {A : Mat T n p} (σ : Fin n → Fin n)
    (h1 : ∀ i, P i (σ i) = ofInt 1) (h0 : ∀ i k, k ≠ σ i → Zeroish (P i k)) (hA : ∀ i j, fin (A i j)) :
    ∃ R, mult P A = .ok R ∧ ∀ i j, Kept (A (σ i) j) (R i j) := by
  have hP : ∀ i k, fin (P i k) := fun i k => by
    by_cases h : k = σ i
    · rw [h, h1]; exact Z.fin_one
    · exact Z.fin_zero (h0 i k h)
  have key : ∀ (i : Fin n) (j : Fin p), ∃ s, dotFrom P A (ofInt 0) i j = .ok s ∧ Kept (A (σ i) j) s := fun i j => by
    obtain ⟨t, ht, hk⟩ := Z.one_mul (a := A (σ i) j)
    rw [← h1 i] at ht
    obtain ⟨s, hs, hk'⟩ := dot_single Z (hP i) (fun k => hA k j) (σ i) (fun k hk => .inl (h0 i k hk)) ht
    exact ⟨s, hs, hk.trans hk'⟩
  choose R hR hk using key
  exact ⟨fun i j => R i j, ((mult_elementwise P A).1 _).mpr hR, hk⟩

/-- A permutation matrix moves columns. -/
theorem mult_perm_right {fin : T → Prop} (Z : ZeroArith fin) {p : Nat} {P : Mat T n n} {A : Mat T p n} (σ : Equiv.Perm (Fin n))
    (h1 : ∀ i, P i (σ i) = ofInt 1) (h0 : ∀ i k, k ≠ σ i → Zeroish (P i k)) (hA : ∀ i j, fin (A i j)) :
    ∃ R, mult A P = .ok R ∧ ∀ i j, Kept (A i (σ.symm j)) (R i j) := by
  have hP : ∀ i k, fin (P i k) := fun i k => by
    by_cases h : k = σ i
    · rw [h, h1]; exact Z.fin_one
    · exact Z.fin_zero (h0 i k h)
  have key : ∀ (i : Fin p) (j : Fin n), ∃ s, dotFrom A P (ofInt 0) i j = .ok s ∧ Kept (A i (σ.symm j)) s := fun i j => by
    obtain ⟨t, ht, hk⟩ := Z.mul_one (a := A i (σ.symm j))
    have e := h1 (σ.symm j)
    rw [Equiv.apply_symm_apply] at e
    rw [← e] at ht
    obtain ⟨s, hs, hk'⟩ := dot_single Z (hA i) (fun k => hP k j) (σ.symm j)
      (fun k hk => .inr (h0 k j fun e => hk (by rw [e, Equiv.symm_apply_apply]))) ht
    exact ⟨s, hs, hk.trans hk'⟩
  choose R hR hk using key
  exact ⟨fun i j => R i j, ((mult_elementwise A P).1 _).mpr hR, hk⟩

/-- Products of upper triangular matrices. -/
theorem mult_upper {fin : T → Prop} (Z : ZeroArith fin) {A B R : Mat T n n} (hA : ∀ i j, fin (A i j)) (hB : ∀ i j, fin (B i j))
    (uA : ∀ i j, j < i → Zeroish (A i j)) (uB : ∀ i j, j < i → Zeroish (B i j)) (hR : mult A B = .ok R) :
    (∀ i j, j < i → Zeroish (R i j)) ∧ ∀ i, ∃ t, CScalar.mul (A i i) (B i i) = .ok t ∧ Kept t (R i i) := by
  have hd := ((mult_elementwise A B).1 R).mp hR
  refine ⟨fun i j hij => ?_, fun i => ?_⟩
  · obtain ⟨s, hs, hz⟩ := dot_zero Z (hA i) (fun k => hB k j) (fun k => by
      rcases lt_or_ge k i with h | h
      · exact .inl (uA i k h)
      · exact .inr (uB k j (lt_of_lt_of_le hij h)))
    have := hd i j
    dsimp only at this
    rw [hs] at this
    injection this with e
    rw [← e]
    exact hz
  · have hz : ∀ k, k ≠ i → Zeroish (A i k) ∨ Zeroish (B k i) := fun k hk => by
      rcases lt_or_gt_of_ne hk with h | h
      · exact .inl (uA i k h)
      · exact .inr (uB k i h)
    have := hd i i
    dsimp only at this
    cases h : CScalar.mul (A i i) (B i i) with
    | error e => rw [dot_single_error Z (hA i) (fun k => hB k i) i hz h] at this; cases this
    | ok t =>
      obtain ⟨s, hs, hk⟩ := dot_single Z (hA i) (fun k => hB k i) i hz h
      rw [hs] at this
      injection this with e
      rw [← e]
      exact ⟨t, rfl, hk⟩

/-! ## LU -/

theorem luSum_zero {fin : T → Prop} (Z : ZeroArith fin) {L U : Mat T n n} {i j : Nat} (hi : i < n) (hj : j < n)
    (hL : ∀ p (hp : p < n), p < i → fin (L ⟨i, hi⟩ ⟨p, hp⟩)) (hU : ∀ p (hp : p < n), p < i → fin (U ⟨p, hp⟩ ⟨j, hj⟩))
    (h : ∀ p (hp : p < n), p < i → Zeroish (L ⟨i, hi⟩ ⟨p, hp⟩) ∨ Zeroish (U ⟨p, hp⟩ ⟨j, hj⟩)) :
    ∃ s, luSum L U i j = .ok s ∧ Zeroish s := by
  unfold luSum
  refine wp_total (wp_forUp (fun _ s => Zeroish s) (Nat.zero_le i) Z.lit (fun p s _ hp hs => ?_) fun s hs => hs)
  have hpn : p < n := by omega
  obtain ⟨t, ht, htz⟩ := Z.mul (hU p hpn hp) (hL p hpn hp) (h p hpn hp).symm
  rw [rd_eq hpn hj, ok_bind, rd_eq hi hpn, ok_bind, ht, ok_bind]
  obtain ⟨s', hs', hk'⟩ := Z.add (a := s) htz
  rw [hs', wp_ok]
  exact hk'.zero hs

theorem lu_of_upper {fin : T → Prop} (Z : ZeroArith fin) {A : Mat T n n} (hf : ∀ i j, fin (A i j))
    (hA : ∀ i j, j < i → Zeroish (A i j)) (hd : ∀ i, ¬ Zeroish (A i i)) :
    ∃ L U, lu A = .ok (L, U) ∧ (∀ i, L i i = ofInt 1) ∧ (∀ i j, i ≠ j → Zeroish (L i j)) ∧ ∀ i j, Kept (A i j) (U i j) := by
  have key : ∃ s : Mat T n n × Mat T n n, lu A = .ok s ∧ (∀ i, s.1 i i = ofInt 1) ∧ (∀ i j, i ≠ j → Zeroish (s.1 i j)) ∧
      ∀ i j, Kept (A i j) (s.2 i j) := by
    unfold lu
    unfold eye1
    rw [eye_ok, ok_bind, zeros_ok, ok_bind]
    refine wp_total (wp_forUp (fun j s => (∀ i, s.1 i i = ofInt 1) ∧ (∀ i j, i ≠ j → Zeroish (s.1 i j)) ∧
      (∀ a b : Fin n, b.val < j → Kept (A a b) (s.2 a b)) ∧ ∀ a b : Fin n, j ≤ b.val → Zeroish (s.2 a b)) (Nat.zero_le n)
      ⟨fun i => if_pos rfl, fun i j h => by dsimp only; rw [Matrix.of_apply, if_neg h]; exact Z.lit,
        fun a b h => by omega, fun a b _ => Z.lit⟩ ?_ fun s hs => ⟨hs.1, hs.2.1, fun i j => hs.2.2.1 i j j.isLt⟩)
    rintro j ⟨L, U⟩ - hj ⟨h1, h2, h3, h4⟩
    dsimp only at h1 h2 h3 h4
    rw [wp_bind]
    have hu : wp (luUpper A L j U) (fun U' => (∀ a b : Fin n, b.val < j + 1 → Kept (A a b) (U' a b)) ∧
        ∀ a b : Fin n, j + 1 ≤ b.val → Zeroish (U' a b)) (fun _ => False) := by
      unfold luUpper
      refine wp_forUp (fun i U' => (∀ a b : Fin n, b.val < j → Kept (A a b) (U' a b)) ∧
        (∀ a b : Fin n, b.val = j → a.val < i → Kept (A a b) (U' a b)) ∧ (∀ a b : Fin n, b.val = j → i ≤ a.val → Zeroish (U' a b)) ∧
        ∀ a b : Fin n, j + 1 ≤ b.val → Zeroish (U' a b)) (Nat.zero_le _)
        ⟨h3, fun a b _ h => by omega, fun a b h _ => h4 a b (by omega), fun a b h => h4 a b (by omega)⟩ ?_ ?_
      · rintro i U' - hi ⟨g1, g2, g3, g4⟩
        have hin : i < n := by omega
        obtain ⟨s, hs, hsz⟩ := luSum_zero Z (L := L) (U := U') (i := i) (j := j) hin hj
          (fun p hp hpi => Z.fin_zero (h2 _ _ fun e => by cases e; omega))
          (fun p hp hpi => (g2 ⟨p, hp⟩ ⟨j, hj⟩ rfl hpi).fin Z (hf _ _))
          (fun p hp hpi => .inl (h2 _ _ fun e => by cases e; omega))
        obtain ⟨x, hx, hk⟩ := Z.sub (a := A ⟨i, hin⟩ ⟨j, hj⟩) hsz
        rw [hs, ok_bind, rd_eq hin hj, ok_bind, hx, ok_bind, wr_eq hin hj, wp_ok]
        refine ⟨fun a b hb => ?_, fun a b hb ha => ?_, fun a b hb ha => ?_, fun a b hb => ?_⟩
        · rw [Matrix.of_apply, if_neg (by omega)]; exact g1 a b hb
        · rw [Matrix.of_apply]
          split
          · next he =>
            have ea : a = ⟨i, hin⟩ := Fin.ext he.1
            have eb : b = ⟨j, hj⟩ := Fin.ext he.2
            rw [ea, eb]; exact hk
          · exact g2 a b hb (by omega)
        · rw [Matrix.of_apply, if_neg (by omega)]; exact g3 a b hb (by omega)
        · rw [Matrix.of_apply, if_neg (by omega)]; exact g4 a b hb
      · rintro U' ⟨g1, g2, g3, g4⟩
        refine ⟨fun a b hb => ?_, g4⟩
        rcases Nat.lt_or_ge b.val j with hb' | hb'
        · exact g1 a b hb'
        · rcases Nat.lt_or_ge a.val (j + 1) with ha | ha
          · exact g2 a b (by omega) ha
          · exact Kept.of_zero (hA a b (by show b.val < a.val; omega)) (g3 a b (by omega) ha)
    refine wp_mono hu (fun U' hU' => ?_) fun _ h => h
    obtain ⟨g3, g4⟩ := hU'
    rw [wp_bind]
    have hujj : U' ⟨j, hj⟩ ⟨j, hj⟩ = A ⟨j, hj⟩ ⟨j, hj⟩ := (g3 ⟨j, hj⟩ ⟨j, hj⟩ (by simp)).nonzero (hd _)
    have hl : wp (luLower A U' j L) (fun L' => (∀ i, L' i i = ofInt 1) ∧ ∀ i j, i ≠ j → Zeroish (L' i j)) (fun _ => False) := by
      unfold luLower
      refine wp_forUp (fun _ L' => (∀ i, L' i i = ofInt 1) ∧ ∀ i j, i ≠ j → Zeroish (L' i j)) hj.le ⟨h1, h2⟩ ?_ fun s hs => hs
      rintro i L' hji hi ⟨k1, k2⟩
      have hufin : ∀ a : Fin n, fin (U' a ⟨j, hj⟩) := fun a => (g3 a ⟨j, hj⟩ (by simp)).fin Z (hf _ _)
      obtain ⟨s, hs, hsz⟩ := luSum_zero Z (L := L') (U := U') (i := i) (j := j) hi hj
        (fun p hp hpi => Z.fin_zero (k2 _ _ fun e => by cases e; omega)) (fun p hp hpi => hufin _)
        (fun p hp hpi => .inl (k2 _ _ fun e => by cases e; omega))
      obtain ⟨x, hx, hk⟩ := Z.sub (a := A ⟨i, hi⟩ ⟨j, hj⟩) hsz
      rw [hs, ok_bind, rd_eq hj hj, ok_bind, hujj, if_neg (show ¬ CScalar.eq _ (ofInt 0) = true from hd ⟨j, hj⟩), rd_eq hi hj, ok_bind, hx, ok_bind]
      rcases Nat.eq_or_lt_of_le hji with e | hlt
      · subst e
        rw [hk.nonzero (hd _), Z.div_self (hf _ _) (hd _), ok_bind, wr_eq hi hj, wp_ok]
        refine ⟨fun a => ?_, fun a b hab => ?_⟩
        · rw [Matrix.of_apply]
          split
          · rfl
          · exact k1 a
        · rw [Matrix.of_apply, if_neg (fun h => hab (Fin.ext (h.1.trans h.2.symm)))]
          exact k2 a b hab
      · obtain ⟨q, hq, hqz⟩ := Z.div (hk.zero (hA ⟨i, hi⟩ ⟨j, hj⟩ hlt)) (hf ⟨j, hj⟩ ⟨j, hj⟩) (hd ⟨j, hj⟩)
        rw [hq, ok_bind, wr_eq hi hj, wp_ok]
        refine ⟨fun a => ?_, fun a b hab => ?_⟩
        · rw [Matrix.of_apply, if_neg (by omega)]; exact k1 a
        · rw [Matrix.of_apply]
          split
          · exact hqz
          · exact k2 a b hab
    refine wp_mono hl (fun L' hL' => ?_) fun _ h => h
    rw [wp_ok]
    exact ⟨hL'.1, hL'.2, g3, g4⟩
  obtain ⟨⟨L, U⟩, h, h'⟩ := key
  exact ⟨L, U, h, h'⟩

theorem lu_of_lower {fin : T → Prop} (Z : ZeroArith fin) {A : Mat T n n} (hf : ∀ i j, fin (A i j))
    (hA : ∀ i j, i < j → Zeroish (A i j)) (hd : ∀ i, A i i = ofInt 1) :
    ∃ L U, lu A = .ok (L, U) ∧ (∀ i, U i i = ofInt 1) ∧ (∀ i j, i ≠ j → Zeroish (U i j)) ∧ ∀ i j, Kept (A i j) (L i j) := by
  have key : ∃ s : Mat T n n × Mat T n n, lu A = .ok s ∧ (∀ i, s.2 i i = ofInt 1) ∧ (∀ i j, i ≠ j → Zeroish (s.2 i j)) ∧
      ∀ i j, Kept (A i j) (s.1 i j) := by
    unfold lu
    unfold eye1
    rw [eye_ok, ok_bind, zeros_ok, ok_bind]
    refine wp_total (wp_forUp (fun j s => (∀ i : Fin n, i.val < j → s.2 i i = ofInt 1) ∧
      (∀ a b : Fin n, (a ≠ b ∨ j ≤ b.val) → Zeroish (s.2 a b)) ∧
      (∀ a b : Fin n, (b.val < j ∨ a ≤ b) → Kept (A a b) (s.1 a b)) ∧ ∀ a b : Fin n, a ≠ b → j ≤ b.val → Zeroish (s.1 a b)) (Nat.zero_le n)
      ⟨fun i h => by omega, fun a b _ => Z.lit, fun a b h => ?_, fun a b h _ => by dsimp only; rw [Matrix.of_apply, if_neg h]; exact Z.lit⟩
      ?_ fun s hs => ⟨fun i => hs.1 i i.isLt, fun i j h => hs.2.1 i j (.inl h), fun i j => hs.2.2.1 i j (.inl j.isLt)⟩)
    · rcases h with h | h
      · omega
      · rcases h.eq_or_lt with e | hlt
        · dsimp only; rw [e, Matrix.of_apply, if_pos rfl, hd]; exact Kept.refl _
        · dsimp only; rw [Matrix.of_apply, if_neg hlt.ne]; exact Kept.of_zero (hA a b hlt) Z.lit
    rintro j ⟨L, U⟩ - hj ⟨h1, h2, h3, h4⟩
    dsimp only at h1 h2 h3 h4
    have hf1 : fin (ofInt 1 : T) := Z.fin_one
    have hLfin : ∀ a b, fin (L a b) := by
      intro a b
      by_cases h : b.val < j ∨ a ≤ b
      · exact (h3 a b h).fin Z (hf _ _)
      · exact Z.fin_zero (h4 a b (fun e => h (.inr e.le)) (by omega))
    rw [wp_bind]
    have hu : wp (luUpper A L j U) (fun U' => (∀ i : Fin n, i.val < j + 1 → U' i i = ofInt 1) ∧
        ∀ a b : Fin n, (a ≠ b ∨ j + 1 ≤ b.val) → Zeroish (U' a b)) (fun _ => False) := by
      unfold luUpper
      refine wp_forUp (fun i U' => (∀ a : Fin n, a.val < j → U' a a = ofInt 1) ∧ (j < i → ∀ a : Fin n, a.val = j → U' a a = ofInt 1) ∧
        (∀ a b : Fin n, (a ≠ b ∨ j + 1 ≤ b.val) → Zeroish (U' a b))) (Nat.zero_le _)
        ⟨h1, fun h => by omega, fun a b h => h2 a b (h.imp_right fun h => by omega)⟩ ?_ ?_
      · rintro i U' - hi ⟨g1, g2, g3⟩
        have hin : i < n := by omega
        have hz : ∀ p (hp : p < n), p < i → Zeroish (U' ⟨p, hp⟩ ⟨j, hj⟩) := fun p hp hpi =>
          g3 _ _ (.inl fun e => by cases e; omega)
        obtain ⟨s, hs, hsz⟩ := luSum_zero Z (L := L) (U := U') (i := i) (j := j) hin hj
          (fun p hp hpi => hLfin _ _) (fun p hp hpi => Z.fin_zero (hz p hp hpi)) (fun p hp hpi => .inr (hz p hp hpi))
        obtain ⟨x, hx, hk⟩ := Z.sub (a := A ⟨i, hin⟩ ⟨j, hj⟩) hsz
        rw [hs, ok_bind, rd_eq hin hj, ok_bind, hx, ok_bind, wr_eq hin hj, wp_ok]
        refine ⟨fun a ha => ?_, fun hji a ha => ?_, fun a b hab => ?_⟩
        · rw [Matrix.of_apply, if_neg (by omega)]; exact g1 a ha
        · rw [Matrix.of_apply]
          have ei : i = j := by omega
          subst ei
          rw [if_pos ⟨ha, ha⟩, hk.nonzero (by rw [hd]; exact Z.one), hd]
        · rw [Matrix.of_apply]
          split
          · next he =>
            have : i ≠ j := by
              rcases hab with h | h
              · intro e; exact h (Fin.ext (by omega))
              · omega
            exact hk.zero (hA _ _ (by show i < j; omega))
          · exact g3 a b hab
      · rintro U' ⟨g1, g2, g3⟩
        refine ⟨fun i hi => ?_, g3⟩
        rcases Nat.lt_or_ge i.val j with h | h
        · exact g1 i h
        · exact g2 (by omega) i (by omega)
    refine wp_mono hu (fun U' hU' => ?_) fun _ h => h
    obtain ⟨g1, g2⟩ := hU'
    rw [wp_bind]
    have hujj : U' ⟨j, hj⟩ ⟨j, hj⟩ = ofInt 1 := g1 ⟨j, hj⟩ (by simp)
    have hl : wp (luLower A U' j L) (fun L' => (∀ a b : Fin n, (b.val < j + 1 ∨ a ≤ b) → Kept (A a b) (L' a b)) ∧
        ∀ a b : Fin n, a ≠ b → j + 1 ≤ b.val → Zeroish (L' a b)) (fun _ => False) := by
      unfold luLower
      refine wp_forUp (fun i L' => (∀ a b : Fin n, (b.val < j ∨ a ≤ b ∨ (b.val = j ∧ a.val < i)) → Kept (A a b) (L' a b)) ∧
        (∀ a b : Fin n, a ≠ b → j + 1 ≤ b.val → Zeroish (L' a b)) ∧
        ∀ a b : Fin n, a ≠ b → b.val = j → i ≤ a.val → Zeroish (L' a b)) hj.le
        ⟨fun a b h => h3 a b ?_, fun a b h h' => h4 a b h (by omega), fun a b h h' _ => h4 a b h (by omega)⟩ ?_ ?_
      · rcases h with h | h | h
        · exact .inl h
        · exact .inr h
        · exact .inr (by show a.val ≤ b.val; omega)
      · rintro i L' hji hi ⟨k1, k2, k3⟩
        have hufin : ∀ a : Fin n, fin (U' a ⟨j, hj⟩) := fun a => by
          by_cases e : a = ⟨j, hj⟩
          · rw [e, hujj]; exact hf1
          · exact Z.fin_zero (g2 a _ (.inl e))
        have hlfin : ∀ a b, fin (L' a b) := by
          intro a b
          by_cases h : b.val < j ∨ a ≤ b ∨ (b.val = j ∧ a.val < i)
          · exact (k1 a b h).fin Z (hf _ _)
          · have hne : a ≠ b := fun e => h (.inr (.inl e.le))
            have : ¬ b.val < j := fun h' => h (.inl h')
            rcases Nat.eq_or_lt_of_le (not_lt.mp this) with e | hlt
            · refine Z.fin_zero (k3 a b hne e.symm ?_)
              by_contra h'
              exact h (.inr (.inr ⟨e.symm, by omega⟩))
            · exact Z.fin_zero (k2 a b hne hlt)
        obtain ⟨s, hs, hsz⟩ := luSum_zero Z (L := L') (U := U') (i := i) (j := j) hi hj (fun p hp hpi => hlfin _ _)
          (fun p hp hpi => hufin _) (fun p hp hpi => by
            by_cases e : p = j
            · subst e
              exact .inl (k3 _ _ (fun e => by cases e; omega) rfl le_rfl)
            · exact .inr (g2 _ _ (.inl fun e' => by cases e'; exact e rfl)))
        obtain ⟨x, hx, hk⟩ := Z.sub (a := A ⟨i, hi⟩ ⟨j, hj⟩) hsz
        obtain ⟨q, hq, hqk⟩ := Z.div_one (a := x)
        rw [hs, ok_bind, rd_eq hj hj, ok_bind, hujj, if_neg (show ¬ CScalar.eq (ofInt 1 : T) (ofInt 0) = true from Z.one), rd_eq hi hj, ok_bind, hx, ok_bind, hq, ok_bind,
          wr_eq hi hj, wp_ok]
        refine ⟨fun a b hab => ?_, fun a b hab hb => ?_, fun a b hab hb ha => ?_⟩
        · rw [Matrix.of_apply]
          split
          · next he =>
            have ea : a = ⟨i, hi⟩ := Fin.ext he.1
            have eb : b = ⟨j, hj⟩ := Fin.ext he.2
            rw [ea, eb]
            exact hk.trans hqk
          · refine k1 a b ?_
            rcases hab with h | h | h
            · exact .inl h
            · exact .inr (.inl h)
            · exact .inr (.inr ⟨h.1, by omega⟩)
        · rw [Matrix.of_apply, if_neg (by omega)]; exact k2 a b hab hb
        · rw [Matrix.of_apply, if_neg (by omega)]; exact k3 a b hab hb (by omega)
      · rintro L' ⟨k1, k2, k3⟩
        refine ⟨fun a b h => k1 a b ?_, k2⟩
        rcases h with h | h
        · rcases Nat.lt_or_ge b.val j with h' | h'
          · exact .inl h'
          · exact .inr (.inr ⟨by omega, a.isLt⟩)
        · exact .inr (.inl h)
    refine wp_mono hl (fun L' hL' => ?_) fun _ h => h
    rw [wp_ok]
    exact ⟨g1, g2, hL'.1, hL'.2⟩
  obtain ⟨⟨L, U⟩, h, h'⟩ := key
  exact ⟨L, U, h, h'⟩

/-! ## Cholesky -/

theorem cholSum_zero {fin : T → Prop} (Z : ZeroArith fin) {L : Mat T n n} {i j : Nat} (hi : i < n) (hj : j < n)
    (hL : ∀ a b, fin (L a b)) (h : ∀ a b, a ≠ b → Zeroish (L a b)) : ∃ s, cholSum L i j = .ok s ∧ Zeroish s := by
  unfold cholSum
  refine wp_total (wp_forUp (fun _ s => Zeroish s) (Nat.zero_le i) Z.lit (fun p s _ hp hs => ?_) fun s hs => hs)
  have hpn : p < n := by omega
  obtain ⟨t, ht, htz⟩ := Z.mul (hL ⟨i, hi⟩ ⟨p, hpn⟩) (hL ⟨j, hj⟩ ⟨p, hpn⟩) (.inl (h _ _ fun e => by cases e; omega))
  rw [rd_eq hi hpn, ok_bind, rd_eq hj hpn, ok_bind, ht, ok_bind]
  obtain ⟨s', hs', hk'⟩ := Z.add (a := s) htz
  rw [hs', wp_ok]
  exact hk'.zero hs

theorem chol_of_diagonal {fin : T → Prop} (Z : ZeroArith fin) {A : Mat T n n} (hA : ∀ i j, i ≠ j → Zeroish (A i j))
    (hd : ∀ i, ¬ Zeroish (A i i)) {q : Fin n → T} (hq : ∀ i, CScalar.sqrt (A i i) = .ok (q i)) (hf : ∀ i, fin (q i))
    (h0 : ∀ i, ¬ Zeroish (q i)) :
    ∃ L, chol A = .ok L ∧ (∀ i, L i i = q i) ∧ ∀ i j, i ≠ j → Zeroish (L i j) := by
  unfold chol
  refine wp_total (wp_forUp (fun i L => (∀ a : Fin n, a.val < i → L a a = q a) ∧ (∀ a : Fin n, i ≤ a.val → Zeroish (L a a)) ∧
    ∀ a b, a ≠ b → Zeroish (L a b)) (Nat.zero_le n) ⟨fun a h => by omega, fun a _ => Z.lit, fun a b _ => Z.lit⟩ ?_
    fun L hL => ⟨fun i => hL.1 i i.isLt, hL.2.2⟩)
  rintro i L - hi ⟨h1, h2, h3⟩
  refine wp_forUp (fun j L => (∀ a : Fin n, a.val < i → L a a = q a) ∧ (j ≤ i → Zeroish (L ⟨i, hi⟩ ⟨i, hi⟩)) ∧
    (i < j → L ⟨i, hi⟩ ⟨i, hi⟩ = q ⟨i, hi⟩) ∧ (∀ a : Fin n, i + 1 ≤ a.val → Zeroish (L a a)) ∧
    ∀ a b, a ≠ b → Zeroish (L a b)) (Nat.zero_le _)
    ⟨h1, fun _ => h2 _ le_rfl, fun h => by omega, fun a h => h2 a (by omega), h3⟩ ?_ ?_
  · rintro j L' - hj ⟨k1, k2, k3, k4, k5⟩
    have hjn : j < n := by omega
    have hfin : ∀ a b, fin (L' a b) := by
      intro a b
      by_cases e : a = b
      · subst e
        rcases Nat.lt_trichotomy a.val i with h | h | h
        · rw [k1 a h]; exact hf a
        · have ea : a = ⟨i, hi⟩ := Fin.ext h
          rw [ea]; exact Z.fin_zero (k2 (by omega))
        · exact Z.fin_zero (k4 a (by omega))
      · exact Z.fin_zero (k5 a b e)
    obtain ⟨s, hs, hsz⟩ := cholSum_zero Z hi hjn hfin k5
    unfold cholStep
    split
    · next e =>
      subst e
      obtain ⟨x, hx, hk⟩ := Z.sub (a := A ⟨j, hi⟩ ⟨j, hi⟩) hsz
      rw [hs, ok_bind, rd_eq hi hi, ok_bind, hx, ok_bind, hk.nonzero (hd _), hq, ok_bind, wr_eq hi hi, wp_ok]
      refine ⟨fun a ha => ?_, fun h => by omega, fun _ => ?_, fun a ha => ?_, fun a b hab => ?_⟩
      · rw [Matrix.of_apply, if_neg (by omega)]; exact k1 a ha
      · rw [Matrix.of_apply, if_pos ⟨rfl, rfl⟩]
      · rw [Matrix.of_apply, if_neg (by omega)]; exact k4 a ha
      · rw [Matrix.of_apply, if_neg (fun h => hab (Fin.ext (h.1.trans h.2.symm)))]; exact k5 a b hab
    · next e =>
      have hji : j < i := by omega
      obtain ⟨x, hx, hk⟩ := Z.sub (a := A ⟨i, hi⟩ ⟨j, hjn⟩) hsz
      have hxz := hk.zero (hA _ _ fun e' => by cases e'; exact e rfl)
      have hljj := k1 ⟨j, hjn⟩ hji
      obtain ⟨y, hy, hyz⟩ := Z.div hxz (hf ⟨j, hjn⟩) (h0 ⟨j, hjn⟩)
      rw [hs, ok_bind, rd_eq hi hjn, ok_bind, hx, ok_bind, rd_eq hjn hjn, ok_bind, hljj, hy, ok_bind, wr_eq hi hjn, wp_ok]
      refine ⟨fun a ha => ?_, fun h => ?_, fun h => by omega, fun a ha => ?_, fun a b hab => ?_⟩
      · rw [Matrix.of_apply, if_neg (by omega)]; exact k1 a ha
      · rw [Matrix.of_apply, if_neg (by dsimp only; omega)]; exact k2 (by omega)
      · rw [Matrix.of_apply, if_neg (by omega)]; exact k4 a ha
      · rw [Matrix.of_apply]
        split
        · exact hyz
        · exact k5 a b hab
  · rintro L' ⟨k1, k2, k3, k4, k5⟩
    refine ⟨fun a ha => ?_, k4, k5⟩
    rcases Nat.lt_or_ge a.val i with h | h
    · exact k1 a h
    · have ea : a = ⟨i, hi⟩ := Fin.ext (by show a.val = i; omega)
      rw [ea]; exact k3 (by omega)

end MatrixLibs
