import Verif.Model.Reorder
import Verif.Proof.Standard
import Verif.Proof.RowMajor
import Verif.Proof.FloatRes

/-!
# Sums evaluated in another order
-/

namespace MatrixLibs

set_option linter.unusedSectionVars false

open CScalar (ofInt)

namespace AddOrder

theorem terms_pos : ∀ o : AddOrder, 0 < o.terms.length
  | term _ => Nat.one_pos
  | start _ => Nat.one_pos
  | add l r => by
    rw [terms, List.length_append]
    have := l.terms_pos
    omega

theorem depth_lt : ∀ o : AddOrder, o.depth < o.terms.length
  | term _ => Nat.one_pos
  | start _ => Nat.one_pos
  | add l r => by
    rw [terms, List.length_append, depth]
    have h1 := l.depth_lt
    have h2 := r.depth_lt
    omega

theorem seq_terms : ∀ m, (seq m).terms = List.range (m + 1)
  | 0 => rfl
  | m + 1 => by rw [seq, terms, seq_terms m, List.range_succ (n := m + 1)]; rfl

theorem seq_adds (m : Nat) : (seq m).Adds (m + 1) := by
  rw [Adds, seq_terms]
  exact .inr (List.Perm.refl _)

theorem pairs_terms : ∀ k off, (pairs k off).terms = (List.range (2 ^ k)).map (off + ·)
  | 0, off => rfl
  | k + 1, off => by
    rw [pairs, terms, pairs_terms k, pairs_terms k, pow_succ, Nat.mul_two, List.range_add, List.map_append, List.map_map]
    congr 1
    refine List.map_congr_left fun x _ => ?_
    simp only [Function.comp_apply]
    omega

theorem pairs_adds (k : Nat) : (pairs k 0).Adds (2 ^ k) := by
  right
  rw [pairs_terms]
  simp

theorem pairs_depth : ∀ k off, (pairs k off).depth = k
  | 0, _ => rfl
  | k + 1, off => by rw [pairs, depth, pairs_depth k, pairs_depth k, max_self]

theorem lane_terms (w l : Nat) : ∀ q, (lane w l q).terms = (List.range (q + 1)).map fun c => l + c * w
  | 0 => by simp [lane, terms]
  | q + 1 => by rw [lane, terms, lane_terms w l q, List.range_succ (n := q + 1), List.map_append]; rfl

theorem lane_depth (w l : Nat) : ∀ q, (lane w l q).depth = q
  | 0 => rfl
  | q + 1 => by rw [lane, depth, lane_depth w l q]; simp [depth]

theorem lanes_depth (w q : Nat) : ∀ s, (lanes w q s).depth = q + s
  | 0 => lane_depth w 0 q
  | s + 1 => by
    rw [lanes, depth, lanes_depth w q s, lane_depth]
    omega

theorem lanes_terms (w q : Nat) : ∀ s, (lanes w q s).terms = (List.range (s + 1)).flatMap fun l => (List.range (q + 1)).map fun c => l + c * w
  | 0 => by simp [lanes, lane_terms]
  | s + 1 => by
    rw [lanes, terms, lanes_terms w q s, List.range_succ (n := s + 1), List.flatMap_append, lane_terms]
    simp

theorem lanes_adds (s q : Nat) : (lanes (s + 1) q s).Adds ((s + 1) * (q + 1)) := by
  right
  rw [lanes_terms]
  refine (List.perm_ext_iff_of_nodup ?_ List.nodup_range).mpr fun k => ?_
  · rw [List.nodup_flatMap]
    refine ⟨fun l _ => List.nodup_range.map fun c d h => ?_, ?_⟩
    · exact Nat.eq_of_mul_eq_mul_right (Nat.succ_pos s) (Nat.add_left_cancel h)
    · refine List.nodup_range.pairwise_of_forall_ne fun l hl l' hl' hne => ?_
      intro k h1 h2
      obtain ⟨c, -, rfl⟩ := List.mem_map.mp h1
      obtain ⟨d, -, hd⟩ := List.mem_map.mp h2
      have e1 : (l + c * (s + 1)) % (s + 1) = l := by
        rw [Nat.add_mul_mod_self_right, Nat.mod_eq_of_lt (List.mem_range.mp hl)]
      have e2 : (l' + d * (s + 1)) % (s + 1) = l' := by
        rw [Nat.add_mul_mod_self_right, Nat.mod_eq_of_lt (List.mem_range.mp hl')]
      exact hne (by rw [← e1, ← e2, hd])
  · simp only [List.mem_flatMap, List.mem_map, List.mem_range]
    constructor
    · rintro ⟨l, hl, c, hc, rfl⟩
      calc l + c * (s + 1) < (s + 1) + c * (s + 1) := by omega
        _ = (s + 1) * (c + 1) := by ring
        _ ≤ (s + 1) * (q + 1) := Nat.mul_le_mul_left _ (by omega)
    · intro hk
      exact ⟨k % (s + 1), Nat.mod_lt _ (Nat.succ_pos s), k / (s + 1), Nat.div_lt_of_lt_mul hk, by
        rw [Nat.mul_comm]; exact Nat.mod_add_div k (s + 1)⟩

variable {T : Type} [Inhabited T] [CScalar T]

theorem seq_eval (t : Nat → Res T) : ∀ m, (seq m).eval t = forUp 0 (m + 1) (ofInt 0) fun k acc => do CScalar.add acc (← t k)
  | 0 => by
    rw [forUp_last (Nat.zero_le 0), forUp_nil le_rfl, ok_bind]
    rfl
  | m + 1 => by
    rw [forUp_last (Nat.zero_le _), ← seq_eval t m]
    rfl

theorem eval_congr {t t' : Nat → Res T} : ∀ o : AddOrder, (∀ k ∈ o.terms, t k = t' k) → o.eval t = o.eval t'
  | term k, h => h k (List.mem_singleton_self k)
  | start k, h => by
    unfold eval
    rw [h k (List.mem_singleton_self k)]
  | add l r, h => by
    unfold eval
    rw [eval_congr l fun k hk => h k (List.mem_append_left _ hk), eval_congr r fun k hk => h k (List.mem_append_right _ hk)]

/-- Exact arithmetic. -/
theorem eval_exact {K : Type} [Ring K] [CScalar K] [ExactRing K] {t : Nat → Res K} {f : Nat → K} :
    ∀ o : AddOrder, (∀ k ∈ o.terms, t k = .ok (f k)) → o.eval t = .ok (o.terms.map f).sum
  | term k, h => by
    rw [eval, h k (List.mem_singleton_self k), terms, List.map_singleton, List.sum_singleton]
  | start k, h => by
    rw [eval, h k (List.mem_singleton_self k), ok_bind, ExactRing.add_eq, ExactRing.ofInt_eq, Int.cast_zero, zero_add, terms,
      List.map_singleton, List.sum_singleton]
  | add l r, h => by
    rw [eval, eval_exact l fun k hk => h k (List.mem_append_left _ hk), ok_bind,
      eval_exact r fun k hk => h k (List.mem_append_right _ hk), ok_bind, ExactRing.add_eq, terms, List.map_append,
      List.sum_append]

/-- The error of a sum, in the standard model. -/
theorem eval_err [Standard T] {t : Nat → Res T} {g : Nat → ℝ} :
    ∀ (o : AddOrder) {r : T},
      (∀ k ∈ o.terms, wp (t k) (fun v => |Standard.val v - g k| ≤ Standard.u T * |g k| + Standard.e T) fun _ => True) →
      o.eval t = .ok r →
      |Standard.val r - (o.terms.map g).sum| ≤ ((1 + Standard.u T) ^ (o.depth + 1) - 1) * (o.terms.map fun k => |g k|).sum +
        (2 * o.terms.length - 1) * (1 + Standard.u T) ^ o.depth * Standard.h T
  | term k, r, h, hr => by
    have h1 := wp_ok_elim (h k (List.mem_singleton_self k)) hr
    have := Standard.e_le_h (T := T)
    simp only [terms, depth, List.map_singleton, List.sum_singleton, List.length_singleton, pow_zero]
    push_cast
    linarith
  | start k, r, h, hr => by
    obtain ⟨v, hv, hr⟩ := Standard.bind_ok hr
    have h1 := wp_ok_elim (h k (List.mem_singleton_self k)) hv
    have h2 := Standard.zero_add hr
    have h3 := abs_sub_le (Standard.val r) (Standard.val v) (g k)
    have h4 : Standard.h T = Standard.e T + Standard.d T := rfl
    simp only [terms, depth, List.map_singleton, List.sum_singleton, List.length_singleton, pow_zero]
    push_cast
    linarith
  | add l q, r, h, hr => by
    obtain ⟨x, hx, hr⟩ := Standard.bind_ok hr
    obtain ⟨y, hy, hr⟩ := Standard.bind_ok hr
    have h1 := eval_err l (fun k hk => h k (List.mem_append_left _ hk)) hx
    have h2 := eval_err q (fun k hk => h k (List.mem_append_right _ hk)) hy
    have h3 := (Standard.add hr).err
    have hu := Standard.u_nonneg (T := T)
    have hh := Standard.h_nonneg (T := T)
    have hd := Standard.d_le_h (T := T)
    have l1 : 1 ≤ l.terms.length := l.terms_pos
    have q1 : 1 ≤ q.terms.length := q.terms_pos
    have habs : ∀ ks : List Nat, |(ks.map g).sum| ≤ (ks.map fun k => |g k|).sum ∧ 0 ≤ (ks.map fun k => |g k|).sum := by
      intro ks
      induction ks with
      | nil => simp
      | cons k ks ih =>
        rw [List.map_cons, List.sum_cons, List.map_cons, List.sum_cons]
        exact ⟨(abs_add_le _ _).trans (add_le_add_right ih.1 _), add_nonneg (abs_nonneg _) ih.2⟩
    have hl := habs l.terms
    have hq := habs q.terms
    have pl := Standard.pow_mono (T := T) (le_max_left l.depth q.depth)
    have pq := Standard.pow_mono (T := T) (le_max_right l.depth q.depth)
    have p1 := Standard.one_le_pow (T := T) (max l.depth q.depth)
    rw [terms, List.map_append, List.map_append, List.sum_append, List.sum_append, List.length_append, depth]
    simp only [pow_succ] at h1 h2 ⊢
    push_cast
    have l1' : (1 : ℝ) ≤ l.terms.length := by exact_mod_cast l1
    have q1' : (1 : ℝ) ≤ q.terms.length := by exact_mod_cast q1
    generalize (l.terms.length : ℝ) = a at *
    generalize (q.terms.length : ℝ) = b at *
    generalize (1 + Standard.u T) ^ l.depth = w1 at *
    generalize (1 + Standard.u T) ^ q.depth = w2 at *
    generalize (1 + Standard.u T) ^ max l.depth q.depth = w at *
    generalize (l.terms.map g).sum = s1 at *
    generalize (q.terms.map g).sum = s2 at *
    generalize (l.terms.map fun k => |g k|).sum = b1 at *
    generalize (q.terms.map fun k => |g k|).sum = b2 at *
    generalize Standard.val x = x at *
    generalize Standard.val y = y at *
    generalize Standard.val r = r at *
    generalize Standard.u T = u at *
    generalize Standard.h T = η at *
    generalize Standard.d T = δ at *
    have k1 : |x - s1| ≤ (w * (1 + u) - 1) * b1 + (2 * a - 1) * w * η := by
      refine h1.trans (add_le_add (mul_le_mul_of_nonneg_right ?_ hl.2) ?_)
      · nlinarith
      · exact mul_le_mul_of_nonneg_right (mul_le_mul_of_nonneg_left pl (by linarith)) hh
    have k2 : |y - s2| ≤ (w * (1 + u) - 1) * b2 + (2 * b - 1) * w * η := by
      refine h2.trans (add_le_add (mul_le_mul_of_nonneg_right ?_ hq.2) ?_)
      · nlinarith
      · exact mul_le_mul_of_nonneg_right (mul_le_mul_of_nonneg_left pq (by linarith)) hh
    have k3 : |x + y| ≤ (|x - s1| + b1) + (|y - s2| + b2) := by
      have i1 := abs_add_le x y
      have i2 := abs_sub_abs_le_abs_sub x s1
      have i3 := abs_sub_abs_le_abs_sub y s2
      linarith
    have k4 : |r - (s1 + s2)| ≤ |r - (x + y)| + (|x - s1| + |y - s2|) := by
      rw [show r - (s1 + s2) = (r - (x + y)) + ((x - s1) + (y - s2)) by ring]
      exact (abs_add_le _ _).trans (add_le_add_right (abs_add_le _ _) _)
    have k5 := mul_le_mul_of_nonneg_left k3 hu
    have k6 := mul_le_mul_of_nonneg_left (add_le_add k1 k2) (by linarith : 0 ≤ 1 + u)
    have k7 : δ ≤ w * (1 + u) * η := by
      have : 1 ≤ w * (1 + u) := by nlinarith
      nlinarith
    calc |r - (s1 + s2)| ≤ _ := k4
      _ ≤ (1 + u) * (|x - s1| + |y - s2|) + u * (b1 + b2) + w * (1 + u) * η := by linarith
      _ ≤ (1 + u) * ((w * (1 + u) - 1) * b1 + (2 * a - 1) * w * η + ((w * (1 + u) - 1) * b2 + (2 * b - 1) * w * η)) +
          u * (b1 + b2) + w * (1 + u) * η := by linarith
      _ = _ := by ring

end AddOrder

variable {T : Type} [Inhabited T] [CScalar T] {i j n m p : Nat}

/-! ## Sums of `m` terms -/

theorem sumIn_seq (t : Nat → Res T) :
    sumIn m (.seq (m - 1)) t = forUp 0 m (ofInt 0) (fun k acc => do CScalar.add acc (← t k)) := by
  unfold sumIn
  split
  · next h => rw [h, forUp_nil le_rfl]
  · next h => rw [AddOrder.seq_eval, Nat.sub_add_cancel (Nat.pos_of_ne_zero h)]

theorem sumIn_congr {o : AddOrder} (ho : o.Adds m) {t t' : Nat → Res T} (h : ∀ k < m, t k = t' k) :
    sumIn m o t = sumIn m o t' := by
  unfold sumIn
  split
  · rfl
  · next h0 =>
    exact o.eval_congr fun k hk => h k (List.mem_range.mp ((ho.resolve_left h0).mem_iff.mp hk))

theorem sumIn_exact {K : Type} [Ring K] [CScalar K] [ExactRing K] {o : AddOrder} (ho : o.Adds m) {t : Nat → Res K} {f : Nat → K}
    (h : ∀ k < m, t k = .ok (f k)) : sumIn m o t = .ok (∑ k ∈ Finset.range m, f k) := by
  unfold sumIn
  split
  · next h0 => rw [h0, Finset.sum_range_zero, ExactRing.ofInt_eq, Int.cast_zero]
  · next h0 =>
    have hp := ho.resolve_left h0
    rw [o.eval_exact fun k hk => h k (List.mem_range.mp (hp.mem_iff.mp hk)), (hp.map f).sum_eq]
    rfl

section standard
variable [Standard T]
open Standard

theorem sumIn_err_depth {o : AddOrder} (ho : o.Adds m) {t : Nat → Res T} {g : Nat → ℝ} {r : T}
    (ht : ∀ k < m, wp (t k) (fun v => |val v - g k| ≤ u T * |g k| + e T) fun _ => True) (hr : sumIn m o t = .ok r) :
    |val r - ∑ k ∈ Finset.range m, g k| ≤
      ((1 + u T) ^ (o.depth + 1) - 1) * (∑ k ∈ Finset.range m, |g k|) + 2 * m * (1 + u T) ^ o.depth * h T := by
  unfold sumIn at hr
  split at hr
  · next h0 =>
    obtain rfl := Except.ok.inj hr
    subst h0
    simp [zero]
  · next h0 =>
    have hp := ho.resolve_left h0
    have := o.eval_err (fun k hk => ht k (List.mem_range.mp (hp.mem_iff.mp hk))) hr
    rw [(hp.map g).sum_eq, (hp.map fun k => |g k|).sum_eq, hp.length_eq, List.length_range] at this
    refine this.trans (add_le_add le_rfl (mul_le_mul_of_nonneg_right (mul_le_mul_of_nonneg_right (by linarith) ?_) h_nonneg))
    exact pow_nonneg (by have := u_nonneg (T := T); linarith) _

theorem sumIn_err {o : AddOrder} (ho : o.Adds m) {t : Nat → Res T} {g : Nat → ℝ} {r : T}
    (ht : ∀ k < m, wp (t k) (fun v => |val v - g k| ≤ u T * |g k| + e T) fun _ => True) (hr : sumIn m o t = .ok r) :
    |val r - ∑ k ∈ Finset.range m, g k| ≤
      ((1 + u T) ^ m - 1) * (∑ k ∈ Finset.range m, |g k|) + 2 * m * (1 + u T) ^ (m - 1) * h T := by
  have h1 := sumIn_err_depth ho ht hr
  rcases Nat.eq_zero_or_pos m with h0 | h0
  · subst h0
    simpa using h1
  · have hp := ho.resolve_left (Nat.pos_iff_ne_zero.mp h0)
    have hd := o.depth_lt
    rw [hp.length_eq, List.length_range] at hd
    have p1 := pow_mono (T := T) (show o.depth + 1 ≤ m by omega)
    have p2 := pow_mono (T := T) (show o.depth ≤ m - 1 by omega)
    have hB : 0 ≤ ∑ k ∈ Finset.range m, |g k| := Finset.sum_nonneg fun _ _ => abs_nonneg _
    refine h1.trans (add_le_add (mul_le_mul_of_nonneg_right (by linarith) hB)
      (mul_le_mul_of_nonneg_right (mul_le_mul_of_nonneg_left p2 (by positivity)) h_nonneg))

end standard

/-! ## Products of matrices -/

/-- The terms of the dot product of row `a` of `A` and column `b` of `B`. -/
def dotTerm (A : Mat T n m) (B : Mat T m p) (a b k : Nat) : Res T := do CScalar.mul (← rd A a k) (← rd B k b)

theorem multIn_elementwise (o : Nat → Nat → AddOrder) (A : Mat T n m) (B : Mat T m p) :
    ElementwiseOf (fun a b => sumIn m (o a b) (dotTerm A B a b)) (multIn o A B) := by
  unfold multIn
  rw [zeros_ok, ok_bind]
  exact elementwise_loop (Mat.const (ofInt 0) : Mat T n p) (g := fun it jt => sumIn m (o it jt) (dotTerm A B it jt)) fun _ _ => rfl

theorem multIn_seq (A : Mat T n m) (B : Mat T m p) : multIn (fun _ _ => .seq (m - 1)) A B = mult A B := by
  refine (multIn_elementwise _ A B).unique ?_
  have := mult_elementwise A B
  refine cast (congrArg (fun f => ElementwiseOf f (mult A B)) (funext fun a => funext fun b => ?_)) this
  rw [sumIn_seq]
  unfold dotFrom dotTerm
  simp only [bind_assoc]

theorem multIn_exact {K : Type} [Ring K] [CScalar K] [ExactRing K] [Inhabited K] (o : Nat → Nat → AddOrder)
    (ho : ∀ a b, (o a b).Adds m) (A : Mat K n m) (B : Mat K m p) : multIn o A B = mult A B := by
  have h1 : ∀ (o : Nat → Nat → AddOrder), (∀ a b, (o a b).Adds m) →
      multIn o A B = .ok (.of fun a b => ∑ k ∈ Finset.range m, if hk : k < m then A a ⟨k, hk⟩ * B ⟨k, hk⟩ b else 0) := by
    intro o ho
    refine (multIn_elementwise o A B).eq_ok fun a b => sumIn_exact (ho a b) fun k hk => ?_
    unfold dotTerm
    rw [rd_eq a.2 hk, ok_bind, rd_eq hk b.2, ok_bind, ExactRing.mul_eq, dif_pos hk]
  rw [h1 o ho, ← multIn_seq, h1]
  intro _ _
  rcases Nat.eq_zero_or_pos m with h0 | h0
  · exact .inl h0
  · have := AddOrder.seq_adds (m - 1)
    rwa [Nat.sub_add_cancel h0] at this

section standard
variable [Standard T]
open Standard

theorem wp_dotTerm (A : Mat T n m) (B : Mat T m p) (a : Fin n) (b : Fin p) (k : Fin m) :
    wp (dotTerm A B a b k) (fun v => |val v - val (A a k) * val (B k b)| ≤ u T * |val (A a k) * val (B k b)| + e T)
      fun _ => True := by
  unfold dotTerm
  rw [rd_eq a.2 k.2, ok_bind, rd_eq k.2 b.2, ok_bind]
  cases hm : CScalar.mul (A a k) (B k b) with
  | error _ => trivial
  | ok t => exact (mul hm).err

/-- The exact terms, by number. -/
theorem dot_numbers (f : Fin m → ℝ) : ∃ g : Nat → ℝ, (∀ k : Fin m, g k = f k) ∧ (∑ k ∈ Finset.range m, g k = ∑ k, f k) ∧
    ∑ k ∈ Finset.range m, |g k| = ∑ k, |f k| := by
  refine ⟨fun k => if hk : k < m then f ⟨k, hk⟩ else 0, fun k => dif_pos k.2, ?_, ?_⟩
  · rw [Finset.sum_range]
    exact Finset.sum_congr rfl fun k _ => dif_pos k.2
  · rw [Finset.sum_range]
    exact Finset.sum_congr rfl fun k _ => congrArg _ (dif_pos k.2)

theorem multIn_err_depth {o : Nat → Nat → AddOrder} {A : Mat T n m} {B : Mat T m p} {P : Mat T n p} (hP : multIn o A B = .ok P)
    (a : Fin n) (b : Fin p) (ho : (o a b).Adds m) :
    |val (P a b) - ∑ k, val (A a k) * val (B k b)| ≤
      ((1 + u T) ^ ((o a b).depth + 1) - 1) * (∑ k, |val (A a k)| * |val (B k b)|) +
        2 * m * (1 + u T) ^ (o a b).depth * h T := by
  obtain ⟨g, h1, h2, h3⟩ := dot_numbers fun k => val (A a k) * val (B k b)
  have h4 := ((multIn_elementwise o A B).1 P).mp hP a b
  have := sumIn_err_depth ho (g := g) (fun k hk => by
    rw [show g k = _ from h1 ⟨k, hk⟩]
    exact wp_dotTerm A B a b ⟨k, hk⟩) h4
  rw [h2, h3] at this
  simpa only [abs_mul] using this

theorem multIn_err {o : Nat → Nat → AddOrder} {A : Mat T n m} {B : Mat T m p} {P : Mat T n p} (hP : multIn o A B = .ok P)
    (a : Fin n) (b : Fin p) (ho : (o a b).Adds m) :
    |val (P a b) - ∑ k, val (A a k) * val (B k b)| ≤
      ((1 + u T) ^ m - 1) * (∑ k, |val (A a k)| * |val (B k b)|) + 2 * m * (1 + u T) ^ (m - 1) * h T := by
  obtain ⟨g, h1, h2, h3⟩ := dot_numbers fun k => val (A a k) * val (B k b)
  have h4 := ((multIn_elementwise o A B).1 P).mp hP a b
  have := sumIn_err ho (g := g) (fun k hk => by
    rw [show g k = _ from h1 ⟨k, hk⟩]
    exact wp_dotTerm A B a b ⟨k, hk⟩) h4
  rw [h2, h3] at this
  simpa only [abs_mul] using this

end standard

/-! ## Convolution -/

theorem seq_eight (t : Nat → Res T) :
    sumIn 9 (.seq 8) t = accumVal [t 0, t 1, t 2, t 3, t 4, t 5, t 6, t 7, t 8] (ofInt 0) := by
  rw [sumIn, if_neg (by omega)]
  simp only [AddOrder.seq, AddOrder.eval, accumVal, bind_assoc, bind_ok, Nat.reduceAdd]

theorem conv2In_seq (A : Mat T i j) (k : Mat T 3 3) : conv2In (fun _ _ => .seq 8) A k = conv2 A k := by
  unfold conv2In conv2
  refine forUp_congr fun it S _ hit => forUp_congr fun jt S _ hjt => ?_
  rw [seq_eight, ← accum_eq hit hjt]
  simp only [accum, bind_ok, Nat.reduceDiv, Nat.reduceMod, beside, if_true, OfNat.ofNat_ne_zero, OfNat.ofNat_ne_one, one_ne_zero, if_false]

theorem conv2FullIn_seq (A : Mat T i j) (k : Mat T 3 3) : conv2FullIn (fun _ _ => .seq 8) A k = conv2_full A k := by
  unfold conv2FullIn conv2_full
  refine forUp_congr fun it S _ hit => forUp_congr fun jt S _ hjt => ?_
  rw [seq_eight, ← accum_eq hit hjt]
  simp only [accum, bind_ok, Nat.reduceDiv, Nat.reduceMod, beside, if_true, OfNat.ofNat_ne_zero, OfNat.ofNat_ne_one, one_ne_zero, if_false]

/-- Term number `t` of the sum around row `a`, column `b`. -/
def aroundTerm (A : Mat T i j) (k : Mat T 3 3) (a b : ℤ) (t : Nat) : Res T :=
  convTerm A k (t / 3) (t % 3) (szOf (a + (t / 3 : Nat) - 1)) (szOf (b + (t % 3 : Nat) - 1))

theorem beside_szOf {it : Nat} (h : it < sizeMod) {x : Nat} (hx : x < 3) : beside it x = szOf ((it : ℤ) + x - 1) := by
  have h1 : szSub it 1 = szOf ((it : ℤ) - 1) := by
    have := szSub_szOf it 1 (by unfold sizeMod; norm_num)
    rw [szOf_nat it h] at this
    exact_mod_cast this
  have h2 : szAdd it 1 = szOf ((it : ℤ) + 1) := by
    have := szAdd_szOf it 1
    rw [szOf_nat it h] at this
    exact_mod_cast this
  unfold beside
  split
  · next h0 =>
    exact h1.trans (congrArg szOf (by rw [h0]; simp))
  · split
    · next h0 =>
      exact (szOf_nat it h).symm.trans (congrArg szOf (by rw [h0]; simp))
    · exact h2.trans (congrArg szOf (by rw [show x = 2 by omega]; push_cast; ring))

theorem conv2In_cells (o : Nat → Nat → AddOrder) (ho : ∀ a b, (o a b).Adds 9) (A : Mat T i j) (k : Mat T 3 3)
    (hi : i ≤ sizeMod) (hj : j ≤ sizeMod) :
    conv2In o A k = (forUp 0 i (valueInit i j) fun it S =>
      forUp 0 j S fun jt S => do wr S it jt (← sumIn 9 (o it jt) (aroundTerm A k it jt))) := by
  unfold conv2In
  refine forUp_congr fun it S _ hit => forUp_congr fun jt S _ hjt => ?_
  rw [sumIn_congr (ho it jt) fun t ht => ?_]
  unfold aroundTerm
  rw [beside_szOf (by omega) (by omega), beside_szOf (by omega) (by omega)]

theorem conv2FullIn_cells (o : Nat → Nat → AddOrder) (ho : ∀ a b, (o a b).Adds 9) (A : Mat T i j) (k : Mat T 3 3)
    (hi : i + 2 ≤ sizeMod) (hj : j + 2 ≤ sizeMod) :
    conv2FullIn o A k = (forUp 0 (i + 2) (valueInit (i + 2) (j + 2)) fun it S =>
      forUp 0 (j + 2) S fun jt S => do
        wr S it jt (← sumIn 9 (o it jt) (aroundTerm A k ((it : ℤ) - 1) ((jt : ℤ) - 1)))) := by
  unfold conv2FullIn
  refine forUp_congr fun it S _ hit => forUp_congr fun jt S _ hjt => ?_
  rw [sumIn_congr (ho it jt) fun t ht => ?_]
  unfold aroundTerm
  have h3 : ∀ a : ℤ, szSub (szOf a) 1 = szOf (a - 1) := fun a => by
    have := szSub_szOf a 1 (by unfold sizeMod; norm_num)
    exact_mod_cast this
  rw [beside_szOf (by omega) (by omega), beside_szOf (by omega) (by omega), h3, h3]
  congr 2 <;> ring

/-- The exact value of term number `t`. -/
def aroundVal {R : Type} [Ring R] (A : Mat R i j) (k : Mat R 3 3) (a b : ℤ) (t : Nat) : R :=
  k (Fin.ofNat 3 (t / 3)) (Fin.ofNat 3 (t % 3)) * padded A (a + (t / 3 : Nat) - 1) (b + (t % 3 : Nat) - 1)

theorem sum_aroundVal {R : Type} [Ring R] (A : Mat R i j) (k : Mat R 3 3) (a b : ℤ) :
    ∑ t ∈ Finset.range 9, aroundVal A k a b t = correlateAt A k a b := by
  unfold correlateAt aroundVal
  simp only [Finset.sum_range_succ, Finset.sum_range_zero, Fin.sum_univ_three, zero_add]
  simp only [← add_assoc, Nat.reduceDiv, Nat.reduceMod, Fin.reduceOfNat]
  rfl

section standard
variable [Standard T]
open Standard

theorem wp_aroundTerm (A : Mat T i j) (k : Mat T 3 3) (a b : ℤ)
    (hi : i ≤ 2 ^ 31) (hj : j ≤ 2 ^ 31)
    (ha : -1 ≤ a) (ha' : a + 1 < 2 ^ 32) (hb : -1 ≤ b) (hb' : b + 1 < 2 ^ 32) (t : Nat) (ht : t < 9) :
    wp (aroundTerm A k a b t) (fun v => |val v - aroundVal (A.map val) (k.map val) a b t| ≤
      u T * |aroundVal (A.map val) (k.map val) a b t| + e T) fun _ => True := by
  have := Standard.wp_convTerm A k ⟨t / 3, by omega⟩ ⟨t % 3, by omega⟩ (a + (t / 3 : Nat) - 1) (b + (t % 3 : Nat) - 1) hi hj
    (by omega) (by omega) (by omega) (by omega)
  have e1 : Fin.ofNat 3 (t / 3) = ⟨t / 3, by omega⟩ := Fin.ext (Nat.mod_eq_of_lt (by omega))
  have e2 : Fin.ofNat 3 (t % 3) = ⟨t % 3, by omega⟩ := Fin.ext (Nat.mod_eq_of_lt (by omega))
  unfold aroundVal
  rw [e1, e2]
  exact this

theorem around_err {o : AddOrder} (ho : o.Adds 9) (A : Mat T i j) (k : Mat T 3 3) (a b : ℤ)
    (hi : i ≤ 2 ^ 31) (hj : j ≤ 2 ^ 31)
    (ha : -1 ≤ a) (ha' : a + 1 < 2 ^ 32) (hb : -1 ≤ b) (hb' : b + 1 < 2 ^ 32) {r : T}
    (hr : sumIn 9 o (aroundTerm A k a b) = .ok r) :
    |val r - correlateAt (A.map val) (k.map val) a b| ≤
        ((1 + u T) ^ 9 - 1) * correlateAt ((A.map val).map fun x => |x|) ((k.map val).map fun x => |x|) a b +
          18 * (1 + u T) ^ 8 * h T := by
  have := sumIn_err ho (fun t ht => wp_aroundTerm A k a b hi hj ha ha' hb hb' t ht) hr
  rw [sum_aroundVal] at this
  have e1 : ∀ t, |aroundVal (A.map val) (k.map val) a b t| =
      aroundVal ((A.map val).map fun x => |x|) ((k.map val).map fun x => |x|) a b t := by
    intro t
    unfold aroundVal
    rw [abs_mul, Fl.abs_padded]
    rfl
  simp only [e1, sum_aroundVal] at this
  refine this.trans (le_of_eq ?_)
  norm_num

theorem conv2In_err {o : Nat → Nat → AddOrder} (ho : ∀ a b, (o a b).Adds 9) {A : Mat T i j} {k : Mat T 3 3} {S : Mat T i j}
    (hS : conv2In o A k = .ok S) (hi : i ≤ 2 ^ 31) (hj : j ≤ 2 ^ 31) (r : Fin i) (c : Fin j) :
    |val (S r c) - correlateAt (A.map val) (k.map val) r.val c.val| ≤
        ((1 + u T) ^ 9 - 1) * correlateAt ((A.map val).map fun x => |x|) ((k.map val).map fun x => |x|) r.val c.val +
          18 * (1 + u T) ^ 8 * h T := by
  rw [conv2In_cells o ho A k (by unfold sizeMod; omega) (by unfold sizeMod; omega)] at hS
  have := wp_ok_elim (wp_fill_first (g := fun it jt => sumIn 9 (o it jt) (aroundTerm A k it jt)) _) hS r c
  have hr := r.2
  have hc := c.2
  exact around_err (ho _ _) A k r.val c.val hi hj (by omega) (by omega) (by omega) (by omega) this

theorem conv2FullIn_err {o : Nat → Nat → AddOrder} (ho : ∀ a b, (o a b).Adds 9) {A : Mat T i j} {k : Mat T 3 3}
    {S : Mat T (i + 2) (j + 2)} (hS : conv2FullIn o A k = .ok S) (hi : i ≤ 2 ^ 31) (hj : j ≤ 2 ^ 31)
    (r : Fin (i + 2)) (c : Fin (j + 2)) :
    |val (S r c) - correlateAt (A.map val) (k.map val) ((r.val : ℤ) - 1) ((c.val : ℤ) - 1)| ≤
        ((1 + u T) ^ 9 - 1) *
          correlateAt ((A.map val).map fun x => |x|) ((k.map val).map fun x => |x|) ((r.val : ℤ) - 1) ((c.val : ℤ) - 1) +
          18 * (1 + u T) ^ 8 * h T := by
  rw [conv2FullIn_cells o ho A k (by unfold sizeMod; omega) (by unfold sizeMod; omega)] at hS
  have := wp_ok_elim (wp_fill_first (g := fun it jt => sumIn 9 (o it jt) (aroundTerm A k ((it : ℤ) - 1) ((jt : ℤ) - 1))) _) hS r c
  have hr := r.2
  have hc := c.2
  exact around_err (ho _ _) A k _ _ hi hj (by omega) (by omega) (by omega) (by omega) this

end standard

section exact
variable {K : Type} [Ring K] [CScalar K] [ExactRing K] [Inhabited K]

theorem aroundTerm_exact (A : Mat K i j) (k : Mat K 3 3) (a b : ℤ) (hi : i ≤ 2 ^ 32) (hj : j ≤ 2 ^ 32)
    (ha : -1 ≤ a) (ha' : a + 1 < 2 ^ 32) (hb : -1 ≤ b) (hb' : b + 1 < 2 ^ 32) (t : Nat) (ht : t < 9) :
    aroundTerm A k a b t = .ok (aroundVal (seen A) k a b t) := by
  have := wp_convTerm (RingSem.exact K) A k ⟨t / 3, by omega⟩ ⟨t % 3, by omega⟩ (a + (t / 3 : Nat) - 1)
    (b + (t % 3 : Nat) - 1) hi hj (by omega) (by omega) (by omega) (by omega)
  have e1 : Fin.ofNat 3 (t / 3) = ⟨t / 3, by omega⟩ := Fin.ext (Nat.mod_eq_of_lt (by omega))
  have e2 : Fin.ofNat 3 (t % 3) = ⟨t % 3, by omega⟩ := Fin.ext (Nat.mod_eq_of_lt (by omega))
  unfold aroundVal
  rw [e1, e2]
  exact wp_eq this

theorem conv2In_exact (o : Nat → Nat → AddOrder) (ho : ∀ a b, (o a b).Adds 9) (A : Mat K i j) (k : Mat K 3 3)
    (hi : i < 2 ^ 32) (hj : j < 2 ^ 32) : conv2In o A k = conv2 A k := by
  have key : ∀ (o : Nat → Nat → AddOrder), (∀ a b, (o a b).Adds 9) → conv2In o A k =
      .ok (.of fun a b => ∑ t ∈ Finset.range 9, aroundVal (seen A) k a.val b.val t) := by
    intro o ho
    rw [conv2In_cells o ho A k (by unfold sizeMod; omega) (by unfold sizeMod; omega)]
    refine fill_eq _ fun a b => sumIn_exact (ho a b) fun t ht => ?_
    have h1 := a.2
    have h2 := b.2
    exact aroundTerm_exact A k a.val b.val hi.le hj.le (by omega) (by omega) (by omega) (by omega) t ht
  rw [key o ho, ← conv2In_seq, key _ fun _ _ => AddOrder.seq_adds 8]

theorem conv2FullIn_exact (o : Nat → Nat → AddOrder) (ho : ∀ a b, (o a b).Adds 9) (A : Mat K i j) (k : Mat K 3 3)
    (hi : i + 1 < 2 ^ 32) (hj : j + 1 < 2 ^ 32) : conv2FullIn o A k = conv2_full A k := by
  have key : ∀ (o : Nat → Nat → AddOrder), (∀ a b, (o a b).Adds 9) → conv2FullIn o A k =
      .ok (.of fun a b => ∑ t ∈ Finset.range 9, aroundVal (seen A) k ((a.val : ℤ) - 1) ((b.val : ℤ) - 1) t) := by
    intro o ho
    rw [conv2FullIn_cells o ho A k (by unfold sizeMod; omega) (by unfold sizeMod; omega)]
    refine fill_eq _ fun a b => sumIn_exact (ho a b) fun t ht => ?_
    have h1 := a.2
    have h2 := b.2
    exact aroundTerm_exact A k _ _ (by omega) (by omega) (by omega) (by omega) (by omega) (by omega) t ht
  rw [key o ho, ← conv2FullIn_seq, key _ fun _ _ => AddOrder.seq_adds 8]

end exact

/-! ## Means -/

/-- One loop over all elements instead of two. -/
theorem forUp_flat {σ : Type} (body : Nat → Nat → σ → Res σ) (hj : 0 < j) (s : σ) :
    ∀ i, forUp 0 (i * j) s (fun k s => body (k / j) (k % j) s) = forUp 0 i s fun a s => forUp 0 j s fun b s => body a b s
  | 0 => by rw [Nat.zero_mul, forUp_nil le_rfl, forUp_nil le_rfl]
  | i + 1 => by
    have key : ∀ c, c ≤ j → forUp 0 (i * j + c) s (fun k s => body (k / j) (k % j) s) =
        forUp 0 i s (fun a s => forUp 0 j s fun b s => body a b s) >>= fun s => forUp 0 c s fun b s => body i b s := by
      intro c
      induction c with
      | zero =>
        intro _
        simp only [forUp_nil le_rfl]
        rw [Nat.add_zero, forUp_flat body hj s i, bind_ok]
      | succ c ih =>
        intro hc
        rw [← Nat.add_assoc, forUp_last (Nat.zero_le _), ih (by omega), bind_assoc]
        congr 1
        funext s'
        rw [forUp_last (Nat.zero_le c)]
        congr 1
        funext s''
        rw [show (i * j + c) / j = i by
          rw [Nat.mul_comm, Nat.mul_add_div hj, Nat.div_eq_of_lt (by omega), Nat.add_zero],
          show (i * j + c) % j = c by rw [Nat.mul_comm, Nat.mul_add_mod, Nat.mod_eq_of_lt (by omega)]]
    rw [Nat.succ_mul, key j le_rfl, forUp_last (Nat.zero_le _)]

theorem meanIn_seq (A : Mat T i j) : meanIn (.seq (i * j - 1)) A = mean A := by
  unfold meanIn mean
  rw [sumIn_seq]
  rcases Nat.eq_zero_or_pos j with h0 | h0
  · subst h0
    rw [Nat.mul_zero, forUp_nil le_rfl]
    congr 1
    have : ∀ i, forUp 0 i (ofInt 0 : T) (fun it result => forUp 0 0 result fun jt result => do
        CScalar.add result (← rd A it jt)) = .ok (ofInt 0) := by
      intro i
      induction i with
      | zero => exact forUp_nil le_rfl _ _
      | succ i ih => rw [forUp_last (Nat.zero_le _), ih, ok_bind, forUp_nil le_rfl]
    exact (this i).symm
  · rw [← forUp_flat (fun a b (s : T) => do CScalar.add s (← rd A a b)) h0 (ofInt 0) i]

theorem row_lt {k : Nat} (hk : k < i * j) : k / j < i := Nat.div_lt_of_lt_mul (by rwa [Nat.mul_comm] at hk)

theorem col_lt {k : Nat} (hk : k < i * j) : k % j < j :=
  Nat.mod_lt _ (Nat.pos_of_ne_zero fun h => by subst h; rw [Nat.mul_zero] at hk; omega)

theorem sum_flat {M : Type} [AddCommMonoid M] (f : Fin i → Fin j → M) (g : Nat → M)
    (hg : ∀ k (hk : k < i * j), g k = f ⟨k / j, row_lt hk⟩ ⟨k % j, col_lt hk⟩) :
    ∑ k ∈ Finset.range (i * j), g k = ∑ a, ∑ b, f a b := by
  rw [Finset.sum_range, ← Fintype.sum_prod_type', ← Equiv.sum_comp finProdFinEquiv.symm]
  refine Finset.sum_congr rfl fun k _ => ?_
  rw [hg k.val k.2]
  rfl

theorem meanIn_exact {K : Type} [Ring K] [CScalar K] [ExactRing K] [Inhabited K] (o : AddOrder) (ho : o.Adds (i * j))
    (A : Mat K i j) : meanIn o A = mean A := by
  have key : ∀ o : AddOrder, o.Adds (i * j) → meanIn o A =
      CScalar.divSize (∑ k ∈ Finset.range (i * j), if hk : k < i * j then A ⟨k / j, row_lt hk⟩ ⟨k % j, col_lt hk⟩ else 0)
        (i * j) := by
    intro o ho
    unfold meanIn
    rw [sumIn_exact ho fun k hk => ?_, ok_bind]
    rw [rd_eq (row_lt hk) (col_lt hk), dif_pos hk]
  rw [key o ho, ← meanIn_seq, key]
  rcases Nat.eq_zero_or_pos (i * j) with h0 | h0
  · exact .inl h0
  · have := AddOrder.seq_adds (i * j - 1)
    rwa [Nat.sub_add_cancel h0] at this

open Standard in
theorem meanIn_err [Standard T] {o : AddOrder} (ho : o.Adds (i * j)) {A : Mat T i j} {μ : T} (hμ : meanIn o A = .ok μ)
    (h0 : i * j ≠ 0) :
    |val μ - (∑ a, ∑ b, val (A a b)) / ((i * j : Nat) : ℝ)| ≤
      ((1 + u T) ^ (i * j + 2) - 1) * ((∑ a, ∑ b, |val (A a b)|) / ((i * j : Nat) : ℝ)) +
        (2 * (1 + u T) ^ (i * j + 1) + 1) * h T := by
  have hu := u_nonneg (T := T)
  unfold meanIn at hμ
  obtain ⟨s, hs, hμ⟩ := Standard.bind_ok hμ
  have hl := sumIn_err ho (g := fun k => if hk : k < i * j then val (A ⟨k / j, row_lt hk⟩ ⟨k % j, col_lt hk⟩) else 0)
    (fun k hk => by
      rw [rd_eq (row_lt hk) (col_lt hk), wp_ok, dif_pos hk, sub_self, abs_zero]
      exact add_nonneg (mul_nonneg hu (abs_nonneg _)) e_nonneg) hs
  rw [sum_flat (fun a b => val (A a b)) _ fun k hk => dif_pos hk,
    sum_flat (fun a b => |val (A a b)|) _ fun k hk => by rw [dif_pos hk]] at hl
  have hd := divSize hμ
  have he := e_le_h (T := T)
  have hh := h_nonneg (T := T)
  have hB : |∑ a, ∑ b, val (A a b)| ≤ ∑ a, ∑ b, |val (A a b)| :=
    (Finset.abs_sum_le_sum_abs _ _).trans (Finset.sum_le_sum fun _ _ => Finset.abs_sum_le_sum_abs _ _)
  generalize ∑ a, ∑ b, val (A a b) = S at *
  generalize ∑ a, ∑ b, |val (A a b)| = B at *
  clear hs ho
  generalize hN : i * j = N at *
  have hN' : (0 : ℝ) < (N : ℝ) := by exact_mod_cast Nat.pos_of_ne_zero h0
  obtain ⟨k, rfl⟩ : ∃ k, N = k + 1 := ⟨N - 1, by omega⟩
  rw [Nat.add_sub_cancel] at hl
  have q1 : |val s / ((k + 1 : Nat) : ℝ) - S / ((k + 1 : Nat) : ℝ)| ≤
      ((1 + u T) ^ (k + 1) - 1) * (B / ((k + 1 : Nat) : ℝ)) + 2 * (1 + u T) ^ k * h T := by
    rw [← sub_div, abs_div, abs_of_pos hN', div_le_iff₀ hN']
    refine hl.trans (le_of_eq ?_)
    field_simp
  have q2 : |S / ((k + 1 : Nat) : ℝ)| ≤ B / ((k + 1 : Nat) : ℝ) := by
    rw [abs_div, abs_of_pos hN']
    exact div_le_div_of_nonneg_right hB hN'.le
  generalize val s / ((k + 1 : Nat) : ℝ) = v at *
  generalize S / ((k + 1 : Nat) : ℝ) = z at *
  generalize B / ((k + 1 : Nat) : ℝ) = Z at *
  generalize val μ = m at *
  have q3 := abs_sub_le m v z
  have q4 : |v| ≤ (1 + u T) ^ (k + 1) * Z + 2 * (1 + u T) ^ k * h T := by
    have := abs_sub_abs_le_abs_sub v z
    linarith
  have q5 : 0 ≤ (1 + u T) ^ 2 - 1 := by nlinarith
  have q6 := mul_le_mul_of_nonneg_left q4 q5
  calc |m - z| ≤ _ := q3
    _ ≤ ((1 + u T) ^ 2 - 1) * ((1 + u T) ^ (k + 1) * Z + 2 * (1 + u T) ^ k * h T) + h T +
        (((1 + u T) ^ (k + 1) - 1) * Z + 2 * (1 + u T) ^ k * h T) := by linarith
    _ = _ := by ring

/-! ## Integers held as floating point numbers -/

section ints
variable {F : Fmt}

/-- `x` holds the integer `k`. -/
def HoldsOne (x : Fl F) (k : ℤ) : Prop := x.Finite ∧ x.val = k

theorem HoldsOne.of_rounded {x : Fl F} {k : ℤ} {y : ℝ} (hy : y = k) (hr : Fl.Rounded y x) (hk : k.natAbs ≤ 2 ^ F.p) :
    HoldsOne x k := by
  subst hy
  refine hr.exact (k.natAbs * F.unit) ?_ (Fl.rep_int hk)
  rw [Nat.cast_mul, Nat.cast_natAbs, Int.cast_abs]

theorem AddOrder.eval_int {t : Nat → Res (Fl F)} {g : Nat → ℤ} :
    ∀ o : AddOrder, (∀ k ∈ o.terms, ∃ x, t k = .ok x ∧ HoldsOne x (g k)) →
      (o.terms.map fun k => (g k).natAbs).sum ≤ 2 ^ F.p →
      ∃ r, o.eval t = .ok r ∧ HoldsOne r (o.terms.map g).sum
  | term k, h, _ => by
    obtain ⟨x, hx, h1⟩ := h k (List.mem_singleton_self k)
    exact ⟨x, hx, by rwa [terms, List.map_singleton, List.sum_singleton]⟩
  | start k, h, hb => by
    obtain ⟨x, hx, h1⟩ := h k (List.mem_singleton_self k)
    rw [terms, List.map_singleton, List.sum_singleton] at hb
    have hz := Fl.val_ofInt_exact (F := F) 0 (by simp)
    refine ⟨(Fl.ofInt 0 : Fl F).add x, ?_, ?_⟩
    · rw [eval, hx]
      rfl
    · rw [terms, List.map_singleton, List.sum_singleton]
      refine .of_rounded ?_ (Fl.add_rounded hz.1 h1.1) hb
      rw [hz.2, h1.2]
      simp
  | add l q, h, hb => by
    rw [terms, List.map_append, List.sum_append] at hb
    obtain ⟨x, hx, h1⟩ := eval_int l (fun k hk => h k (List.mem_append_left _ hk)) (by omega)
    obtain ⟨y, hy, h2⟩ := eval_int q (fun k hk => h k (List.mem_append_right _ hk)) (by omega)
    refine ⟨x.add y, ?_, ?_⟩
    · rw [eval, hx, ok_bind, hy, ok_bind]
      rfl
    · rw [terms, List.map_append, List.sum_append]
      refine .of_rounded ?_ (Fl.add_rounded h1.1 h2.1) (le_trans ?_ hb)
      · rw [h1.2, h2.2]
        push_cast
        rfl
      · have key : ∀ ks : List Nat, (ks.map g).sum.natAbs ≤ (ks.map fun k => (g k).natAbs).sum := by
          intro ks
          induction ks with
          | nil => simp
          | cons k ks ih =>
            rw [List.map_cons, List.sum_cons, List.map_cons, List.sum_cons]
            exact (Int.natAbs_add_le _ _).trans (Nat.add_le_add_left ih _)
        exact (Int.natAbs_add_le _ _).trans (Nat.add_le_add (key _) (key _))

theorem sumIn_int {o : AddOrder} (ho : o.Adds m) {t : Nat → Res (Fl F)} {g : Nat → ℤ}
    (h : ∀ k < m, ∃ x, t k = .ok x ∧ HoldsOne x (g k)) (hb : ∑ k ∈ Finset.range m, (g k).natAbs ≤ 2 ^ F.p) :
    ∃ r, sumIn m o t = .ok r ∧ HoldsOne r (∑ k ∈ Finset.range m, g k) := by
  unfold sumIn
  split
  · next h0 =>
    subst h0
    exact ⟨_, rfl, Fl.val_ofInt_exact (F := F) 0 (by simp)⟩
  · next h0 =>
    have hp := ho.resolve_left h0
    have := o.eval_int (fun k hk => h k (List.mem_range.mp (hp.mem_iff.mp hk)))
      (by rw [(hp.map fun k => (g k).natAbs).sum_eq]; exact hb)
    rw [(hp.map g).sum_eq] at this
    exact this

end ints

end MatrixLibs
