import Verif.Proof.FloatSign
import Verif.Proof.Movement

/-!
# Determinants, inverses, factorisations and powers under sign changes
-/

namespace MatrixLibs

set_option linter.unusedSectionVars false

open Fl

variable {F : Fmt} {s t : Bool} {n : Nat}

/-- `s` if `k` is odd. -/
def par (s : Bool) : Nat → Bool
  | 0 => false
  | k + 1 => par s k ^^ s

theorem par_false (k : Nat) : par false k = false := by induction k <;> simp_all [par]

theorem par_add (k l : Nat) : par s (k + l) = (par s k ^^ par s l) := by
  induction l with
  | zero => simp [par]
  | succ l ih => rw [← Nat.add_assoc, par, ih, par, Bool.xor_assoc]

theorem par_eq (k : Nat) : par s k = (s && decide (k % 2 = 1)) := by
  induction k with
  | zero => simp [par]
  | succ k ih =>
    rw [par, ih]
    rcases Nat.mod_two_eq_zero_or_one k with h | h
    · have : (k + 1) % 2 = 1 := by omega
      cases s <;> simp [h, this]
    · have : (k + 1) % 2 = 0 := by omega
      cases s <;> simp [h, this]

/-! ## det -/

theorem both_detProd {A A' : Mat (Fl F) n n} (hA : MGr s A A') (f : Fl F) :
    BothDo (Gr (par s n)) (detProd A f) (detProd A' f) := by
  unfold detProd
  refine both_bind (both_forUp_at (fun k => Gr (par s k)) (Nat.zero_le n) (gr_refl _) fun k _ _ _ h => ?_)
    fun _ _ h => h.div_same f
  exact both_bind (both_rd hA k k) fun _ _ ha => both_mul h ha

/-- The element at the position is not zero, if it exists. -/
def NonZeroAt (A : Mat (Fl F) n n) (i j : Nat) : Prop := ∀ x, rd A i j = .ok x → ¬ x.IsZero

theorem both_detSearch {A A' : Mat (Fl F) n n} (hA : MGr s A A') (r : Nat) :
    ∀ fuel i pivot, BothDo (fun o o' => o = o' ∧ ∀ i p, o = some (i, p) → i < n ∧ NonZeroAt A i p)
      (detSearch A r fuel i pivot) (detSearch A' r fuel i pivot)
  | 0, _, _ => rfl
  | fuel + 1, i, pivot => by
    unfold detSearch
    cases hx : rd A i pivot with
    | error e =>
      have h := both_rd hA i pivot
      rw [hx] at h
      cases hy : rd A' i pivot with
      | error e' => rw [hy] at h; exact h
      | ok y => rw [hy] at h; exact h.elim
    | ok x =>
      have h := both_rd hA i pivot
      rw [hx] at h
      cases hy : rd A' i pivot with
      | error e' => rw [hy] at h; exact h.elim
      | ok y =>
        rw [hy] at h
        have h : Gr s x y := h
        have he : CScalar.eq x (CScalar.ofInt 0) = CScalar.eq y (CScalar.ofInt 0) := h.eq_zero
        rw [ok_bind, ok_bind, ← he]
        split
        · dsimp only
          split
          · split
            · exact ⟨rfl, fun _ _ h => nomatch h⟩
            · exact both_detSearch hA r fuel _ _
          · exact both_detSearch hA r fuel _ _
        · next h0 =>
          refine ⟨rfl, fun i' p' h' => ?_⟩
          cases h'
          refine ⟨?_, fun z hz => ?_⟩
          · unfold rd at hx
            split at hx
            · next hb => exact hb.1
            · cases hx
          · rw [hx] at hz
            cases hz
            exact h0

theorem both_detEliminate {A A' : Mat (Fl F) n n} (hA : MGr s A A') (r pivot : Nat) (h0 : NonZeroAt A r pivot) :
    BothDo (MGr s) (detEliminate A r pivot) (detEliminate A' r pivot) := by
  unfold detEliminate
  refine both_mono (both_forUp (I := fun B B' => MGr s B B' ∧ NonZeroAt B r pivot) ⟨hA, h0⟩ fun i B B' _ _ hB => ?_)
    fun _ _ h => h.1
  by_cases hir : i ≠ r
  · rw [if_pos hir, if_pos hir]
    refine both_bind (both_rd hB.1 i pivot) fun v v' hv => ?_
    refine both_forUp hB fun j B B' _ _ hB => ?_
    refine both_bind (both_rd hB.1 r j) fun x x' hx => both_bind (both_mul hv hx) fun y y' hy => ?_
    cases hp : rd B r pivot with
    | error e =>
      have h := both_rd hB.1 r pivot
      rw [hp] at h
      cases hp' : rd B' r pivot with
      | error e' => rw [hp'] at h; exact h
      | ok y => rw [hp'] at h; exact h.elim
    | ok d =>
      have h := both_rd hB.1 r pivot
      rw [hp] at h
      cases hp' : rd B' r pivot with
      | error e' => rw [hp'] at h; exact h.elim
      | ok d' =>
        rw [hp'] at h
        have hd : Gr s d d' := h
        rw [ok_bind, ok_bind]
        have hq := both_div hy hd (hB.2 d hp)
        rw [Bool.xor_self, Bool.false_xor] at hq
        refine both_bind hq fun q q' hq => both_bind (both_rd hB.1 i j) fun z z' hz =>
          both_bind (both_sub hz hq) fun w w' hw => ?_
        have hwr := both_wr hB.1 hw i j
        unfold wr at hwr ⊢
        split
        · next hb =>
          rw [if_pos hb, if_pos hb] at hwr
          refine ⟨hwr, fun u hu => hB.2 u ?_⟩
          unfold rd at hu ⊢
          split at hu
          · next hc =>
            rw [dif_pos hc]
            simp only [Matrix.of_apply] at hu
            rwa [if_neg (fun e => hir e.1.symm)] at hu
          · cases hu
        · rfl
  · rw [if_neg hir, if_neg hir]
    exact hB

theorem both_swapElem {r c : Nat} {A A' : Mat (Fl F) r c} (hA : MGr s A A') (i1 j1 i2 j2 : Nat) :
    BothDo (MGr s) (swapElem A i1 j1 i2 j2) (swapElem A' i1 j1 i2 j2) := by
  unfold swapElem
  exact both_bind (both_rd hA _ _) fun _ _ hx => both_bind (both_rd hA _ _) fun _ _ hy =>
    both_bind (both_wr hA hy _ _) fun _ _ h => both_wr h hx _ _

/-- After the exchange the pivot is in row `r`. -/
theorem both_detSwap {A A' : Mat (Fl F) n n} (hA : MGr s A A') (f : Fl F) (i r p : Nat) (hi : i < n) (hr : r < n)
    (h0 : NonZeroAt A i p) :
    BothDo (fun x y => MGr s x.1 y.1 ∧ x.2 = y.2 ∧ NonZeroAt x.1 r p) (detSwap A f i r) (detSwap A' f i r) := by
  unfold detSwap
  by_cases hir : i ≠ r
  · rw [if_pos hir, if_pos hir]
    have e := swap_rows_ok A ⟨i, hi⟩ ⟨r, hr⟩
    have e' := swap_rows_ok A' ⟨i, hi⟩ ⟨r, hr⟩
    dsimp only at e e'
    rw [e, e', ok_bind, ok_bind]
    refine ⟨fun a b => hA _ _, rfl, fun x hx => h0 x ?_⟩
    unfold rd at hx ⊢
    split at hx
    · next hb =>
      rw [dif_pos ⟨hi, hb.2⟩]
      simpa [Matrix.of_apply, Equiv.swap_apply_right] using hx
    · cases hx
  · rw [if_neg hir, if_neg hir]
    obtain rfl : i = r := not_not.mp hir
    exact ⟨hA, rfl, h0⟩

theorem both_detStep (r : Nat) (hr : r < n) {x y : DetState (Fl F) n} (hA : MGr s x.A y.A) (hf : x.factor = y.factor)
    (hp : x.pivot = y.pivot) :
    BothDo (CtlBoth (fun x y => MGr s x.A y.A ∧ x.factor = y.factor ∧ x.pivot = y.pivot) (Gr (par s n)))
      (detStep r x) (detStep r y) := by
  obtain ⟨A, f, p⟩ := x
  obtain ⟨A', f', p'⟩ := y
  dsimp only at hA hf hp
  subst hf hp
  unfold detStep
  dsimp only
  split
  · exact both_bind (both_detProd hA f) fun _ _ h => CtlBoth.ret h
  · refine both_bind (both_detSearch hA r _ _ _) fun o o' h => ?_
    obtain ⟨rfl, h⟩ := h
    cases o with
    | none => exact both_bind (both_detProd hA f) fun _ _ h => CtlBoth.ret h
    | some ip =>
      obtain ⟨i, q⟩ := ip
      obtain ⟨hi, h0⟩ := h i q rfl
      refine both_bind (both_detSwap hA f i r q hi hr h0) fun a b hab => ?_
      obtain ⟨B, g⟩ := a
      obtain ⟨B', g'⟩ := b
      obtain ⟨h1, h2, h3⟩ := hab
      exact both_bind (both_detEliminate h1 r q h3) fun _ _ h => CtlBoth.cont ⟨h, h2, rfl⟩

theorem both_detN {A A' : Mat (Fl F) n n} (hA : MGr s A A') : BothDo (Gr (par s n)) (detN A) (detN A') := by
  unfold detN
  refine both_bind (both_forRet (I := fun x y => MGr s x.A y.A ∧ x.factor = y.factor ∧ x.pivot = y.pivot)
    ⟨hA, rfl, rfl⟩ fun k x y hk h => both_detStep k hk h.1 h.2.1 h.2.2) fun a b h => ?_
  cases h with
  | ret h => exact h
  | cont h =>
    dsimp only
    rw [h.2.1]
    exact both_detProd h.1 _

theorem both_det2 {A A' : Mat (Fl F) 2 2} (hA : MGr s A A') : BothDo (Gr false) (det2 A) (det2 A') := by
  unfold det2
  refine both_bind (both_rd hA _ _) fun _ _ ha => both_bind (both_rd hA _ _) fun _ _ hb =>
    both_bind (both_rd hA _ _) fun _ _ hc => both_bind (both_rd hA _ _) fun _ _ hd =>
    both_bind (both_mul ha hd) fun _ _ hx => both_bind (both_mul hb hc) fun _ _ hy => ?_
  have := both_sub hx hy
  rwa [Bool.xor_self] at this

theorem both_det3 {A A' : Mat (Fl F) 3 3} (hA : MGr s A A') : BothDo (Gr s) (det3 A) (det3 A') := by
  have h3 : ∀ {x x' y y' z z' : Fl F}, Gr s x x' → Gr s y y' → Gr s z z' →
      Gr s ((x.mul y).mul z) ((x'.mul y').mul z') := fun hx hy hz => by
    have := (hx.mul hy).mul hz
    rwa [Bool.xor_self, Bool.false_xor] at this
  unfold det3
  refine both_bind (both_rd hA _ _) fun _ _ ha => both_bind (both_rd hA _ _) fun _ _ hb =>
    both_bind (both_rd hA _ _) fun _ _ hc => both_bind (both_rd hA _ _) fun _ _ hd =>
    both_bind (both_rd hA _ _) fun _ _ he => both_bind (both_rd hA _ _) fun _ _ hf =>
    both_bind (both_rd hA _ _) fun _ _ hg => both_bind (both_rd hA _ _) fun _ _ hh =>
    both_bind (both_rd hA _ _) fun _ _ hi => ?_
  exact (((((h3 ha he hi).add (h3 hb hf hg)).add (h3 hc hd hh)).sub (h3 hc he hg)).sub (h3 hb hd hi)).sub (h3 ha hf hh)

theorem both_det : ∀ {n : Nat} {A A' : Mat (Fl F) n n}, MGr s A A' → BothDo (Gr (par s n)) (det A) (det A')
  | 0, _, _, h => both_detN h
  | 1, _, _, h => by
    have := both_rd h 0 0
    rw [show par s 1 = s by simp [par]]
    exact this
  | 2, _, _, h => by
    rw [show par s 2 = false by simp [par]]
    exact both_det2 h
  | 3, _, _, h => by
    rw [show par s 3 = s by simp [par]]
    exact both_det3 h
  | _ + 4, _, _, h => both_detN h

/-! ## inv -/

theorem both_opDiv {u : Bool} {r c : Nat} (handled : Option Exc) {A A' : Mat (Fl F) r c} {x x' : Fl F}
    (e : (s ^^ t) = u) (hA : MGr s A A') (hx : Gr t x x') :
    BothDo (MGr u) (opDiv handled A x) (opDiv handled A' x') := by
  subst e
  exact both_matDiv handled hA hx

theorem both_cross {p q u v p' q' u' v' : Fl F} (hp : Gr s p p') (hq : Gr s q q') (hu : Gr s u u') (hv : Gr s v v') :
    BothDo (Gr false) (cross p q u v) (cross p' q' u' v') := by
  unfold cross
  have h1 := hp.mul hq
  have h2 := hu.mul hv
  rw [Bool.xor_self] at h1 h2
  exact h1.sub h2

theorem both_inv2 (handled : Option Exc) {A A' : Mat (Fl F) 2 2} (hA : MGr s A A') :
    BothDo (MGr s) (inv2 handled A) (inv2 handled A') := by
  unfold inv2
  refine both_bind (both_det2 hA) fun d d' hd => ?_
  have he : CScalar.eq d (CScalar.ofInt 0) = CScalar.eq d' (CScalar.ofInt 0) := hd.eq_zero
  rw [← he]
  split
  · rfl
  · refine both_bind (both_rd hA _ _) fun _ _ hx => both_bind (both_rd hA _ _) fun _ _ hy =>
      both_bind (R := Gr s) hy.neg fun _ _ hy => both_bind (both_rd hA _ _) fun _ _ hz =>
      both_bind (R := Gr s) hz.neg fun _ _ hz => both_bind (both_rd hA _ _) fun _ _ hw => ?_
    refine both_opDiv handled (Bool.xor_false s) (fun i j => ?_) hd
    unfold brace2
    simp only [Matrix.of_apply]
    split <;> split <;> assumption

theorem both_inv3 (handled : Option Exc) {A A' : Mat (Fl F) 3 3} (hA : MGr s A A') :
    BothDo (MGr s) (inv3 handled A) (inv3 handled A') := by
  unfold inv3
  refine both_bind (both_det3 hA) fun d d' hd => ?_
  have he : CScalar.eq d (CScalar.ofInt 0) = CScalar.eq d' (CScalar.ofInt 0) := hd.eq_zero
  rw [← he]
  split
  · rfl
  · refine both_bind (both_rd hA _ _) fun _ _ ha => both_bind (both_rd hA _ _) fun _ _ hb =>
      both_bind (both_rd hA _ _) fun _ _ hc => both_bind (both_rd hA _ _) fun _ _ hd' =>
      both_bind (both_rd hA _ _) fun _ _ he => both_bind (both_rd hA _ _) fun _ _ hf =>
      both_bind (both_rd hA _ _) fun _ _ hg => both_bind (both_rd hA _ _) fun _ _ hh =>
      both_bind (both_rd hA _ _) fun _ _ hi => ?_
    refine both_bind (both_cross he hi hf hh) fun _ _ x0 => both_bind (both_cross hc hh hb hi) fun _ _ x1 =>
      both_bind (both_cross hb hf hc he) fun _ _ x2 => both_bind (both_cross hf hg hd' hi) fun _ _ x3 =>
      both_bind (both_cross ha hi hc hg) fun _ _ x4 => both_bind (both_cross hc hd' ha hf) fun _ _ x5 =>
      both_bind (both_cross hd' hh he hg) fun _ _ x6 => both_bind (both_cross hb hg ha hh) fun _ _ x7 =>
      both_bind (both_cross ha he hb hd') fun _ _ x8 => ?_
    refine both_opDiv handled (Bool.false_xor s) (fun i j => ?_) hd
    unfold brace3
    simp only [Matrix.of_apply]
    repeat' split
    all_goals assumption

theorem both_invN (handled : Option Exc) (hn : 1 ≤ n) {A A' : Mat (Fl F) n n} (hA : MGr s A A') :
    BothDo (MGr s) (invN handled A) (invN handled A') := by
  unfold invN
  refine both_bind (both_det hA) fun d d' hd => ?_
  refine both_bind (R := MGr (par s (n - 1))) (both_forUp mgr_init fun i _ _ _ _ h => both_forUp h fun j _ _ _ _ h => ?_)
    fun B B' hB => both_bind (both_trans hB) fun C C' hC => ?_
  · refine both_bind (both_getminor hA i j) fun _ _ hM => both_bind (both_det hM) fun _ _ hx => ?_
    have hy := both_mul (gr_refl (CScalar.ofInt (if (i + j) % 2 ≠ 0 then -1 else 1) : Fl F)) hx
    rw [Bool.false_xor] at hy
    exact both_bind hy fun _ _ hy => both_wr h hy _ _
  · have := both_matDiv handled hC hd
    obtain ⟨m, rfl⟩ : ∃ m, n = m + 1 := ⟨n - 1, by omega⟩
    have e : (par s (m + 1 - 1) ^^ par s (m + 1)) = s := by
      rw [Nat.add_sub_cancel, par, ← Bool.xor_assoc, Bool.xor_self, Bool.false_xor]
    rw [e] at this
    exact this

/-- From 2x2 on. -/
theorem both_inv (handled : Option Exc) : ∀ {n : Nat}, n ≠ 1 → ∀ {A A' : Mat (Fl F) n n}, MGr s A A' →
    BothDo (MGr s) (inv handled A) (inv handled A')
  | 0, _, _, _, _ => rfl
  | 1, h, _, _, _ => absurd rfl h
  | 2, _, _, _, h => both_inv2 handled h
  | 3, _, _, _, h => both_inv3 handled h
  | _ + 4, _, _, _, h => both_invN handled (by omega) h

theorem div_neg (a b : Fl F) : a.div b.neg = (a.div b).neg := by
  have hx : ∀ u v : Bool, (u ^^ !v) = !(u ^^ v) := by decide
  have hp : ∀ (u : Bool) (N : Nat), (pack (!u) N : Fl F) = (pack u N).neg := fun u N => by
    unfold pack; split <;> rfl
  cases a <;> cases b <;> simp only [Fl.div, Fl.neg, hx, hp]
  split
  · split <;> rfl
  · rfl

/-- The inverse of the exactly negated matrix, for every size. -/
theorem both_inv_neg (handled : Option Exc) (A : Mat (Fl F) n n) :
    BothDo (MGr true) (inv handled A) (inv handled (A.map Fl.neg)) := by
  by_cases h1 : n = 1
  · subst h1
    intro i j
    show Gr true ((CScalar.ofInt 1 : Fl F).div (A 0 0)) ((CScalar.ofInt 1 : Fl F).div (A 0 0).neg)
    rw [div_neg]
    exact gr_neg _
  · exact both_inv handled h1 fun i j => gr_neg _

/-! ## lu -/

theorem both_luSum {L L' U U' : Mat (Fl F) n n} (hL : MGr false L L') (hU : MGr s U U') (i j : Nat) :
    BothDo (Gr s) (luSum L U i j) (luSum L' U' i j) := by
  unfold luSum
  refine both_forUp gr_zero fun p _ _ _ _ h => both_bind (both_rd hU _ _) fun _ _ hx =>
    both_bind (both_rd hL _ _) fun _ _ hy => ?_
  have := both_mul hx hy
  rw [Bool.xor_false] at this
  exact both_bind this fun _ _ hz => both_add h hz

theorem both_lu {A A' : Mat (Fl F) n n} (hA : MGr s A A') :
    BothDo (fun x y => MGr false x.1 y.1 ∧ MGr s x.2 y.2) (lu A) (lu A') := by
  unfold lu
  refine both_bind (R := MGr false) (both_refl mgr_refl _) fun L L' hL => both_bind (both_zeros (s := s)) fun U U' hU => ?_
  refine both_forUp ⟨hL, hU⟩ fun j x y _ _ h => ?_
  obtain ⟨L, U⟩ := x
  obtain ⟨L', U'⟩ := y
  obtain ⟨hL, hU⟩ := h
  dsimp only at hL hU ⊢
  refine both_bind (R := MGr s) ?_ fun U U' hU => both_bind (R := MGr false) ?_ fun L L' hL => ⟨hL, hU⟩
  · unfold luUpper
    exact both_forUp hU fun i _ _ _ _ h => both_bind (both_luSum hL h i j) fun _ _ hs =>
      both_bind (both_rd hA i j) fun _ _ ha => both_bind (both_sub ha hs) fun _ _ hx => both_wr h hx _ _
  · unfold luLower
    refine both_forUp hL fun i _ _ _ _ h => both_bind (both_luSum h hU i j) fun _ _ hs =>
      both_bind (both_rd hU j j) fun u u' hu => ?_
    have he : CScalar.eq u (CScalar.ofInt 0) = CScalar.eq u' (CScalar.ofInt 0) := hu.eq_zero
    rw [← he]
    split
    · rfl
    · next h0 =>
      refine both_bind (both_rd hA i j) fun _ _ ha => both_bind (both_sub ha hs) fun _ _ hx => ?_
      have := both_div hx hu h0
      rw [Bool.xor_self] at this
      exact both_bind this fun _ _ hz => both_wr h hz _ _

/-! ## strassen, pow -/

theorem both_strassen {A A' B B' : Mat (Fl F) 2 2} (hA : MGr s A A') (hB : MGr t B B') :
    BothDo (MGr (s ^^ t)) (strassen A B) (strassen A' B') := by
  unfold strassen
  refine both_bind (both_rd hA _ _) fun _ _ a0 => both_bind (both_rd hA _ _) fun _ _ a1 =>
    both_bind (both_rd hA _ _) fun _ _ a2 => both_bind (both_rd hA _ _) fun _ _ a3 =>
    both_bind (both_rd hB _ _) fun _ _ b0 => both_bind (both_rd hB _ _) fun _ _ b1 =>
    both_bind (both_rd hB _ _) fun _ _ b2 => both_bind (both_rd hB _ _) fun _ _ b3 => ?_
  have m1 := a0.mul (b1.sub b3)
  have m2 := (a0.add a1).mul b3
  have m3 := (a2.add a3).mul b0
  have m4 := a3.mul (b2.sub b0)
  have m5 := (a0.add a3).mul (b0.add b3)
  have m6 := (a1.sub a3).mul (b2.add b3)
  have m7 := (a0.sub a2).mul (b0.add b1)
  have key := both_bind (both_wr (r := 2) (c := 2) mgr_init (((m5.add m4).sub m2).add m6) 0 0) fun _ _ h =>
    both_bind (both_wr h (m1.add m2) 0 1) fun _ _ h => both_bind (both_wr h (m3.add m4) 1 0) fun _ _ h =>
    both_wr h ((m1.add m5).sub (m3.add m7)) 1 1
  exact key

theorem par_two_mul (k : Nat) : par s (k + k) = false := by rw [par_add, Bool.xor_self]

theorem both_powFuel (handled : Option Exc) (w : Nat) {A A' : Mat (Fl F) n n} (hA : MGr s A A') :
    ∀ (depth p : Nat), BothDo (MGr (par s p)) (powFuel handled w depth A (p : Int)) (powFuel handled w depth A' (p : Int))
  | 0, _ => rfl
  | depth + 1, p => by
    unfold powFuel
    by_cases h0 : (p : Int) = 0
    · rw [if_pos h0, if_pos h0]
      obtain rfl : p = 0 := by omega
      exact both_refl mgr_refl _
    · rw [if_neg h0, if_neg h0]
      by_cases h1 : (p : Int) = 1
      · rw [if_pos h1, if_pos h1]
        obtain rfl : p = 1 := by omega
        rw [show par s 1 = s by simp [par]]
        exact hA
      · rw [if_neg h1, if_neg h1]
        have hneg : ¬ (p : Int) < 0 := by omega
        simp only [if_neg hneg]
        refine both_bind (R := fun x y => MGr s x.1 y.1 ∧ x.2 = (p : Int) ∧ y.2 = (p : Int)) ⟨hA, rfl, rfl⟩ ?_
        rintro ⟨B, q⟩ ⟨B', q'⟩ ⟨hB, rfl, rfl⟩
        dsimp only
        refine both_bind (R := MGr false) (both_refl mgr_refl _) fun _ _ _ => ?_
        have e2 : (p : Int).tdiv 2 = ((p / 2 : Nat) : Int) := by
          rw [Int.tdiv_eq_ediv_of_nonneg (by omega)]; simp
        have e3 : (p : Int).tmod 2 = ((p % 2 : Nat) : Int) := by
          rw [Int.tmod_eq_emod_of_nonneg (by omega)]; simp
        rw [e2, e3]
        refine both_bind (both_powFuel handled w hB depth (p / 2)) fun P P' hP => ?_
        have hsq := both_mult hP hP
        rw [Bool.xor_self] at hsq
        by_cases hev : p % 2 = 0
        · have : ((p % 2 : Nat) : Int) = 0 := by omega
          rw [if_pos this, if_pos this]
          have hp : par s p = false := by
            obtain ⟨q, rfl⟩ : ∃ q, p = q + q := ⟨p / 2, by omega⟩
            exact par_two_mul q
          rw [hp]
          exact hsq
        · have : ¬ ((p % 2 : Nat) : Int) = 0 := by omega
          rw [if_neg this, if_neg this]
          have hp : par s p = s := by
            obtain ⟨q, rfl⟩ : ∃ q, p = q + q + 1 := ⟨p / 2, by omega⟩
            rw [par, par_two_mul, Bool.false_xor]
          rw [hp]
          refine both_bind (R := MGr false) hsq fun Q Q' hQ => ?_
          have := both_mult hQ hB
          rw [Bool.false_xor] at this
          exact this

/-- Powers with any exponent, given the inverses. -/
theorem both_pow (handled : Option Exc) (w : Nat) {A A' : Mat (Fl F) n n} (hA : MGr s A A') (p : Int)
    (hinv : p < 0 → BothDo (MGr s) (inv handled A) (inv handled A')) :
    BothDo (MGr (par s p.natAbs)) (pow handled w A p) (pow handled w A' p) := by
  unfold pow
  by_cases hp : 0 ≤ p
  · obtain ⟨q, rfl⟩ := Int.eq_ofNat_of_zero_le hp
    exact both_powFuel handled w hA _ q
  · obtain ⟨d, hd⟩ : ∃ d, p.natAbs.log2 + 2 = d + 1 := ⟨p.natAbs.log2 + 1, rfl⟩
    rw [hd]
    unfold powFuel
    have n0 : ¬ p = 0 := by omega
    have n1 : ¬ p = 1 := by omega
    have n2 : p < 0 := by omega
    simp only [if_neg n0, if_neg n1, if_pos n2]
    refine both_bind (hinv n2) fun B B' hB => ?_
    split
    · rfl
    · show BothDo _ (ones n n >>= fun _ => _) (ones n n >>= fun _ => _)
      refine both_bind (R := MGr false) (both_refl mgr_refl _) fun _ _ _ => ?_
      have ha : |p| = (p.natAbs : Int) := Int.abs_eq_natAbs p
      set q := p.natAbs
      have e2 : |p|.tdiv 2 = ((q / 2 : Nat) : Int) := by
        rw [ha, Int.tdiv_eq_ediv_of_nonneg (by omega)]; simp
      have e3 : |p|.tmod 2 = ((q % 2 : Nat) : Int) := by
        rw [ha, Int.tmod_eq_emod_of_nonneg (by omega)]; simp
      rw [e2, e3]
      refine both_bind (both_powFuel handled w hB d (q / 2)) fun P P' hP => ?_
      have hsq := both_mult hP hP
      rw [Bool.xor_self] at hsq
      by_cases hev : q % 2 = 0
      · have : ((q % 2 : Nat) : Int) = 0 := by omega
        rw [if_pos this, if_pos this]
        have hp : par s q = false := by
          rw [show q = q / 2 + q / 2 by omega]
          exact par_two_mul _
        rw [hp]
        exact hsq
      · have : ¬ ((q % 2 : Nat) : Int) = 0 := by omega
        rw [if_neg this, if_neg this]
        have hp : par s q = s := by
          rw [show q = q / 2 + q / 2 + 1 by omega, par, par_two_mul, Bool.false_xor]
        rw [hp]
        refine both_bind (R := MGr false) hsq fun Q Q' hQ => ?_
        have := both_mult hQ hB
        rw [Bool.false_xor] at this
        exact this

/-- Powers of the exactly negated matrix, with any exponent. -/
theorem both_pow_neg (handled : Option Exc) (w : Nat) (A : Mat (Fl F) n n) (p : Int) :
    BothDo (MGr (par true p.natAbs)) (pow handled w A p) (pow handled w (A.map Fl.neg) p) :=
  both_pow handled w (fun _ _ => gr_neg _) p fun _ => both_inv_neg handled A

/-! ## Predicates -/

theorem both_isSymetric {A A' : Mat (Fl F) n n} (hA : MGr s A A') : BothDo (· = ·) (isSymetric A) (isSymetric A') := by
  unfold isSymetric
  refine both_bind (both_forRet (I := fun _ _ => True) (V := (· = ·)) trivial fun i _ _ _ _ =>
    both_forRet trivial fun j _ _ _ _ => both_bind (both_rd hA i j) fun x x' hx =>
      both_bind (both_rd hA j i) fun y y' hy => ?_) fun a b h => ?_
  · have : CScalar.eq x y = CScalar.eq x' y' := hx.eq hy
    rw [← this]
    split
    · exact CtlBoth.ret rfl
    · exact CtlBoth.cont trivial
  · cases h with
    | ret h => subst h; rfl
    | cont h => rfl

end MatrixLibs
