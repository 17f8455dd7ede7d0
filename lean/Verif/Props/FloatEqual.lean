import Verif.Props.FloatSign
import Verif.Props.Preds
import Verif.Proof.FloatChol
import Verif.Model.Format

/-!
# Property C140: equal floating point matrices give equal results
-/

namespace MatrixLibs

set_option linter.unusedSectionVars false

variable {F : Fmt} {n m p r c : Nat}

open Fl (Gr)

namespace Fl

theorem gr_of_eq {a b : Fl F} (h : a.eq b = true) : Gr false a b := by
  have hb : (0 : Int) < F.bound := by unfold Fmt.bound; positivity
  cases a with
  | nan => simp [eq, key] at h
  | inf s =>
    cases b with
    | nan => simp [eq, key] at h
    | inf t => cases s <;> cases t <;> simp [eq, key, signed, Gr] at h ⊢ <;> omega
    | fin t N hN =>
      have := hN.1
      cases s <;> cases t <;> simp [eq, key, signed] at h <;> omega
  | fin s M hM =>
    cases b with
    | nan => simp [eq, key] at h
    | inf t =>
      have := hM.1
      cases s <;> cases t <;> simp [eq, key, signed] at h <;> omega
    | fin t N hN => cases s <;> cases t <;> simp [eq, key, signed, Gr] at h ⊢ <;> omega

theorem gr_false (a b : Fl F) : Gr false a b ↔ a.Same b := by
  rw [← gr_iff]
  exact Iff.rfl

theorem gr_fsum {α : Type} (l : List α) (f g : α → Fl F) (h : ∀ x ∈ l, Gr false (f x) (g x)) :
    Gr false (fsum (l.map f)) (fsum (l.map g)) := by
  induction l using List.reverseRecOn with
  | nil => exact gr_refl _
  | append_singleton l x ih =>
    rw [List.map_append, List.map_append]
    show Gr false (fsum (_ ++ [f x])) (fsum (_ ++ [g x]))
    rw [fsum_concat, fsum_concat]
    exact (ih fun y hy => h y (by simp [hy])).add (h x (by simp))

end Fl

theorem mgr_of_eq {A B : Mat (Fl F) r c} (h : arrayEq A B = .ok true) : MGr false A B := by
  obtain ⟨b, hb, hk⟩ := arrayEq_ok A B
  rw [hb] at h
  cases h
  exact fun i j => Fl.gr_of_eq (hk.mp rfl i j)

theorem both_sameMat {x y : Res (Mat (Fl F) r c)} (h : BothDo (MGr false) x y) : BothDo SameMat x y :=
  both_mono h fun _ _ h i j => (Fl.gr_false _ _).mp (h i j)

theorem both_sameFl {x y : Res (Fl F)} (h : BothDo (Gr false) x y) : BothDo Fl.Same x y :=
  both_mono h fun _ _ h => (Fl.gr_false _ _).mp h

theorem both_eq {α : Type} {x y : Res α} (h : BothDo (· = ·) x y) : x = y := by
  cases x <;> cases y
  · exact congrArg Except.error h
  · exact h.elim
  · exact h.elim
  · exact congrArg Except.ok h

/-- C140: `A == B` means that the elements are the same, +0 and -0 not being told apart, and none is NaN. -/
theorem C140_equal (A B : Mat (Fl F) r c) :
    ∃ b, arrayEq A B = .ok b ∧ (b = true ↔ SameMat A B ∧ ∀ i j, A i j ≠ .nan) := by
  obtain ⟨b, hb, hk⟩ := arrayEq_ok A B
  refine ⟨b, hb, hk.trans ⟨fun h => ⟨fun i j => (Fl.gr_false _ _).mp (Fl.gr_of_eq (h i j)), fun i j hn => ?_⟩,
    fun ⟨h, hn⟩ i j => ?_⟩⟩
  · have := h i j
    rw [hn] at this
    simp [CScalar.eq, Fl.eq, Fl.key] at this
  · have h1 := (Fl.gr_false _ _).mpr (h i j)
    have h2 := hn i j
    have e : (A i j).eq (A i j) = (A i j).eq (B i j) := (Fl.gr_refl (A i j)).eq h1
    show (A i j).eq (B i j) = true
    rw [← e]
    cases hA : A i j with
    | nan => exact absurd hA h2
    | inf s => simp [Fl.eq, Fl.key]
    | fin s N hN => simp [Fl.eq, Fl.key]

/-- C140: a matrix is equal to itself exactly if it contains no NaN. -/
theorem C140_equal_self (A : Mat (Fl F) r c) : arrayEq A A = .ok true ↔ ∀ i j, A i j ≠ .nan := by
  obtain ⟨b, hb, hk⟩ := C140_equal A A
  rw [hb, Except.ok.injEq, hk]
  exact ⟨fun h => h.2, fun h => ⟨fun i j => .inl rfl, h⟩⟩

/-- C140: sums, differences, products and quotients of equal matrices. -/
theorem C140_arith (handled : Option Exc) (A A' B B' : Mat (Fl F) r c) (hA : arrayEq A A' = .ok true)
    (hB : arrayEq B B' = .ok true) (x x' : Fl F) (hx : x.eq x' = true) :
    BothDo SameMat (opAdd A B) (opAdd A' B') ∧ BothDo SameMat (opSub A B) (opSub A' B') ∧
    BothDo SameMat (opMulScalar A x) (opMulScalar A' x') ∧
    BothDo SameMat (opDiv handled A x) (opDiv handled A' x') ∧ abs A = abs A' :=
  ⟨both_sameMat (both_sum (mgr_of_eq hA) (mgr_of_eq hB)), both_sameMat (both_matSub (mgr_of_eq hA) (mgr_of_eq hB)),
    both_sameMat (both_multScalar (mgr_of_eq hA) (Fl.gr_of_eq hx)),
    both_sameMat (both_opDiv handled rfl (mgr_of_eq hA) (Fl.gr_of_eq hx)), by
      have h : ∀ B : Mat (Fl F) r c, abs B = .ok (.of fun a b => (B a b).abs) := fun B =>
        (abs_elementwise B).eq_ok fun _ _ => rfl
      rw [h, h]
      exact congrArg Except.ok (by ext i j; exact ((mgr_of_eq hA) i j).abs)⟩

theorem C140_mul (A A' : Mat (Fl F) n m) (B B' : Mat (Fl F) m p) (hA : arrayEq A A' = .ok true)
    (hB : arrayEq B B' = .ok true) : BothDo SameMat (opMul A B) (opMul A' B') :=
  both_sameMat (both_mult (mgr_of_eq hA) (mgr_of_eq hB))

theorem C140_strassen (A A' B B' : Mat (Fl F) 2 2) (hA : arrayEq A A' = .ok true) (hB : arrayEq B B' = .ok true) :
    BothDo SameMat (strassen A B) (strassen A' B') :=
  both_sameMat (both_strassen (mgr_of_eq hA) (mgr_of_eq hB))

/-- C140: the convolutions. -/
theorem C140_conv2 (A A' : Mat (Fl F) r c) (S S' : Mat (Fl F) n n) (K K' : Mat (Fl F) 3 3)
    (hA : arrayEq A A' = .ok true) (hS : arrayEq S S' = .ok true) (hK : arrayEq K K' = .ok true) :
    BothDo SameMat (conv2 A K) (conv2 A' K') ∧ BothDo SameMat (conv2_full A K) (conv2_full A' K') ∧
      BothDo SameMat (conv2_valid S K) (conv2_valid S' K') :=
  ⟨both_sameMat (both_conv2 (mgr_of_eq hA) (mgr_of_eq hK)), both_sameMat (both_conv2_full (mgr_of_eq hA) (mgr_of_eq hK)),
    both_sameMat (both_conv2_valid (mgr_of_eq hS) (mgr_of_eq hK))⟩

/-- C140: mean, variance and standard deviation. -/
theorem C140_stats (A A' : Mat (Fl F) r c) (hA : arrayEq A A' = .ok true) :
    BothDo Fl.Same (mean A) (mean A') ∧ BothDo Fl.Same (var A) (var A') ∧ BothDo Fl.Same (stddev A) (stddev A') :=
  ⟨both_sameFl (both_mean (mgr_of_eq hA)), both_sameFl (both_var (mgr_of_eq hA)),
    both_sameFl (both_stddev (mgr_of_eq hA))⟩

/-- C140: determinants. -/
theorem C140_det (A A' : Mat (Fl F) n n) (hA : arrayEq A A' = .ok true) : BothDo Fl.Same (det A) (det A') := by
  have h := both_det (mgr_of_eq hA)
  rw [par_false] at h
  exact both_sameFl h

/-- C140: inverses, except for 1x1 matrices: both calls throw, or both return the same. -/
theorem C140_inv (handled : Option Exc) (hn : n ≠ 1) (A A' : Mat (Fl F) n n) (hA : arrayEq A A' = .ok true) :
    BothDo SameMat (inv handled A) (inv handled A') :=
  both_sameMat (both_inv handled hn (mgr_of_eq hA))

/-- C140: the LU factorisation. -/
theorem C140_lu (A A' : Mat (Fl F) n n) (hA : arrayEq A A' = .ok true) :
    BothDo (fun x y => SameMat x.1 y.1 ∧ SameMat x.2 y.2) (lu A) (lu A') :=
  both_mono (both_lu (mgr_of_eq hA)) fun _ _ h =>
    ⟨fun i j => (Fl.gr_false _ _).mp (h.1 i j), fun i j => (Fl.gr_false _ _).mp (h.2 i j)⟩

/-- C140: powers; for 1x1 matrices only with exponents that are not negative. -/
theorem C140_pow (handled : Option Exc) (w : Nat) (A A' : Mat (Fl F) n n) (e : Int) (hA : arrayEq A A' = .ok true)
    (hn : n = 1 → 0 ≤ e) : BothDo SameMat (pow handled w A e) (pow handled w A' e) := by
  have h := both_pow handled w (mgr_of_eq hA) e fun he =>
    both_inv handled (fun h1 => absurd (hn h1) (by omega)) (mgr_of_eq hA)
  rw [par_false] at h
  exact both_sameMat h

/-- C140: tests give the same answer. -/
theorem C140_tests (A A' B B' : Mat (Fl F) n n) (x x' : Fl F) (hA : arrayEq A A' = .ok true)
    (hB : arrayEq B B' = .ok true) (hx : x.eq x' = true) :
    isSymetric A = isSymetric A' ∧ compare A B x = compare A' B' x' ∧ arrayEq A B = arrayEq A' B' := by
  refine ⟨both_eq (both_isSymetric (mgr_of_eq hA)), both_eq ?_, ?_⟩
  · unfold compare compareLoop
    refine both_bind (both_forRet (I := fun _ _ => True) (V := (· = ·)) trivial fun i _ _ _ _ =>
      both_forRet trivial fun j _ _ _ _ => both_bind (both_rd (mgr_of_eq hA) i j) fun _ _ hy =>
        both_bind (both_rd (mgr_of_eq hB) i j) fun _ _ hz => both_bind (both_sub hy hz) fun d d' hd =>
        both_bind (R := (· = ·)) hd.abs fun e e' he => ?_) fun a b h => ?_
    · subst he
      have hk : CScalar.lt x e = CScalar.lt x' e := by
        show x.lt e = x'.lt e
        unfold Fl.lt
        rw [(Fl.gr_of_eq hx).key]
        cases x.key <;> rfl
      by_cases h : CScalar.lt x e = true
      · rw [if_pos h, if_pos (hk.symm.trans h)]
        exact CtlBoth.ret rfl
      · rw [if_neg h, if_neg fun h2 => h (hk.trans h2)]
        exact CtlBoth.cont trivial
    · cases h with
      | ret h => subst h; rfl
      | cont h => rfl
  · obtain ⟨b, hb, h⟩ := arrayEq_ok A B
    obtain ⟨b', hb', h'⟩ := arrayEq_ok A' B'
    rw [hb, hb']
    refine congrArg Except.ok ?_
    rw [Bool.eq_iff_iff, h, h']
    exact forall_congr' fun i => forall_congr' fun j => by
      show (A i j).eq (B i j) = true ↔ (A' i j).eq (B' i j) = true
      rw [(mgr_of_eq hA i j).eq (mgr_of_eq hB i j)]

/-- C140: `chol`, as long as the elements of the diagonal it divides by are not zero. -/
theorem C140_chol (A A' L : Mat (Fl F) n n) (hA : arrayEq A A' = .ok true) (hL : chol A = .ok L)
    (hd : ∀ i : Fin n, i.val + 1 < n → ¬ (L i i).IsZero) : ∃ L', chol A' = .ok L' ∧ SameMat L L' := by
  have hc := wp_ok_elim (Fl.wp_chol A) hL
  obtain ⟨L', hL', hc'⟩ := wp_total (Fl.wp_chol A')
  refine ⟨L', hL', ?_⟩
  have hm := mgr_of_eq hA
  have key : ∀ a b : Fin n, Gr false (L a b) (L' a b) := by
    intro a
    induction a using WellFoundedLT.induction with
    | ind a ih =>
      intro b
      induction b using WellFoundedLT.induction with
      | ind b jh =>
        rcases lt_trichotomy b a with h | rfl | h
        · rw [hc.off a b (.inl a.2) h, hc'.off a b (.inl a.2) h]
          refine ((hm a b).sub ?_).div (ih b h b) (hd b (by have := a.2; have : b.val < a.val := h; omega))
          refine Fl.gr_fsum _ _ _ fun q _ => ?_
          have h1 : ∀ (M : Mat (Fl F) n n) (y : Fin n), Fl.cutRow M a b b y = M b y := fun M y => by
            unfold Fl.cutRow
            rw [Matrix.of_apply, if_neg fun hh => h.ne hh.1]
          rw [h1, h1]
          refine Fl.Gr.mul (s := false) (t := false) ?_ (ih b h _)
          unfold Fl.cutRow
          rw [Matrix.of_apply, Matrix.of_apply]
          by_cases hq : b ≤ ⟨q.val, lt_trans q.2 a.2⟩
          · rw [if_pos ⟨rfl, hq⟩, if_pos ⟨rfl, hq⟩]
            exact Fl.gr_refl _
          · rw [if_neg fun hh => hq hh.2, if_neg fun hh => hq hh.2]
            exact jh _ (not_le.mp hq)
        · rw [hc.diag b (.inl b.2), hc'.diag b (.inl b.2)]
          refine ((hm b b).sub ?_).sqrt
          refine Fl.gr_fsum _ _ _ fun q _ => Fl.Gr.mul (s := false) (t := false) (jh _ q.2) (jh _ q.2)
        · rw [hc.upper a b h, hc'.upper a b h]
          exact Fl.gr_refl _
  exact fun i j => (Fl.gr_false _ _).mp (key i j)

/-- Positive and negative zero. -/
def posZero : Fl binary32 := Fl.ofInt 0
@[inherit_doc posZero] def negZero : Fl binary32 := (Fl.ofInt 0).neg

/-- C140: the exceptions are real: there are equal matrices whose inverses (1x1), Cholesky factors and outputs differ. -/
theorem C140_exceptions :
    (∃ A B I J : Mat (Fl binary32) 1 1, arrayEq A B = .ok true ∧ inv none A = .ok I ∧ inv none B = .ok J ∧
      ¬ SameMat I J) ∧
    (∃ A B L M : Mat (Fl binary32) 2 2, arrayEq A B = .ok true ∧ chol A = .ok L ∧ chol B = .ok M ∧ ¬ SameMat L M) ∧
    (∃ A B : Mat (Fl binary32) 1 1, arrayEq A B = .ok true ∧ print fmtFl [] A ≠ print fmtFl [] B) := by
  have hs : ∀ s t : Bool, (Fl.inf s : Fl binary32).Same (Fl.inf t) → s = t := by
    rintro s t (h | ⟨h, -⟩)
    · cases h; rfl
    · exact absurd h (by cases s <;> simp only [Fl.IsZero] <;> decide +kernel)
  refine ⟨⟨Mat.const posZero, Mat.const negZero, Mat.const (.inf false), Mat.const (.inf true), by decide +kernel,
    by decide +kernel, by decide +kernel, fun h => absurd (hs _ _ (h 0 0)) (by decide)⟩,
    ⟨!![posZero, Fl.ofInt 1; Fl.ofInt 1, Fl.ofInt 5], !![negZero, Fl.ofInt 1; Fl.ofInt 1, Fl.ofInt 5],
      !![posZero, posZero; .inf false, .nan], !![negZero, posZero; .inf true, .nan],
      by decide +kernel, by decide +kernel, by decide +kernel, fun h => absurd (hs _ _ (h 1 0)) (by decide)⟩,
    ⟨Mat.const posZero, Mat.const negZero, by decide +kernel, ?_⟩⟩
  intro h
  exact absurd h (by decide +kernel)

/-- Equal matrices that are not identical. -/
example : arrayEq (!![posZero, Fl.ofInt 2; Fl.ofInt 3, negZero] : Mat (Fl binary32) 2 2)
    !![negZero, Fl.ofInt 2; Fl.ofInt 3, negZero] = .ok true ∧
    (!![posZero, Fl.ofInt 2; Fl.ofInt 3, negZero] : Mat (Fl binary32) 2 2) ≠
    !![negZero, Fl.ofInt 2; Fl.ofInt 3, negZero] := by
  refine ⟨by decide +kernel, fun h => absurd (congrFun (congrFun h 0) 0) (by decide +kernel)⟩

end MatrixLibs
