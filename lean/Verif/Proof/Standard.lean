import Verif.Spec.Standard
import Verif.Spec.Conv
import Verif.Proof.Arith
import Verif.Proof.Conv
import Verif.Props.FloatConv

/-!
# Error analysis in the standard model: sums of products
-/

namespace MatrixLibs

set_option linter.unusedSectionVars false

open CScalar (ofInt)

namespace Standard

variable {T : Type} [Inhabited T] [CScalar T] [Standard T] {n m p : Nat}

theorem h_nonneg : 0 ≤ h T := add_nonneg (e_nonneg (T := T)) (d_nonneg (T := T))

theorem e_le_h : e T ≤ h T := le_add_of_nonneg_right (d_nonneg (T := T))

theorem d_le_h : d T ≤ h T := le_add_of_nonneg_left (e_nonneg (T := T))

theorem one_le_pow (k : Nat) : 1 ≤ (1 + u T) ^ k := one_le_pow₀ (by have := u_nonneg (T := T); linarith)

theorem pow_mono {a b : Nat} (hab : a ≤ b) : (1 + u T) ^ a ≤ (1 + u T) ^ b :=
  pow_le_pow_right₀ (by have := u_nonneg (T := T); linarith) hab

/-! ## Sums -/

/-- `r` is a sum of rounded terms, from left to right; `l` are the exact terms. -/
inductive Sums : List ℝ → T → Prop
  | nil : Sums [] (ofInt 0)
  | snoc {l : List ℝ} {s t r : T} {q : ℝ} : Sums l s → |val t - q| ≤ u T * |q| + e T → CScalar.add s t = .ok r →
      Sums (l ++ [q]) r

theorem Sums.err {l : List ℝ} {r : T} (hs : Sums l r) :
    |val r - l.sum| ≤ ((1 + u T) ^ l.length - 1) * (l.map fun x => |x|).sum + l.length * (1 + u T) ^ (l.length - 1) * h T := by
  have hu := u_nonneg (T := T)
  have he := h_nonneg (T := T)
  induction hs with
  | nil => simp [zero]
  | @snoc l s t r q hs ht hadd ih =>
    rw [List.map_append, List.sum_append, List.sum_append, List.length_append]
    simp only [List.map_cons, List.map_nil, List.sum_singleton, List.length_singleton, Nat.add_sub_cancel]
    have he' := e_le_h (T := T)
    rcases Nat.eq_zero_or_pos l.length with h0 | h0
    · rw [List.length_eq_zero_iff] at h0
      subst h0
      have es : s = ofInt 0 := by
        clear * - hs
        generalize hl : ([] : List ℝ) = l at hs
        cases hs with
        | nil => rfl
        | snoc => simp at hl
      subst es
      have hz := zero_add hadd
      simp only [List.sum_nil, List.map_nil, List.length_nil, _root_.zero_add, pow_one, pow_zero]
      push_cast
      have h3 := abs_sub_le (val r) (val t) q
      have h4 : h T = e T + d T := rfl
      linarith
    · have hB : 0 ≤ (l.map fun x => |x|).sum :=
        List.sum_nonneg fun y hy => by obtain ⟨t, -, rfl⟩ := List.mem_map.mp hy; exact abs_nonneg _
      have hS : |l.sum| ≤ (l.map fun x => |x|).sum := by
        clear * -
        induction l with
        | nil => simp
        | cons t l ih =>
          rw [List.map_cons, List.sum_cons, List.sum_cons]
          exact (abs_add_le _ _).trans (add_le_add_right ih _)
      have hq := abs_nonneg q
      have e1 := (add hadd).err
      have hd := d_nonneg (T := T)
      have hh : h T = e T + d T := rfl
      have hen := e_nonneg (T := T)
      generalize val r = r at *
      generalize val s = s at *
      generalize val t = t at *
      generalize (l.map fun x => |x|).sum = B at *
      generalize l.sum = S at *
      obtain ⟨k, hk⟩ : ∃ k, l.length = k + 1 := ⟨l.length - 1, by omega⟩
      rw [hk] at ih ⊢
      rw [Nat.add_sub_cancel] at ih
      have hp := one_le_pow (T := T) k
      have p1 : (1 + u T) ^ (k + 1) = (1 + u T) ^ k * (1 + u T) := pow_succ _ _
      have p2 : (1 + u T) ^ (k + 1 + 1) = (1 + u T) ^ k * (1 + u T) * (1 + u T) := by rw [pow_succ, pow_succ]
      rw [p1] at ih ⊢
      rw [p2]
      push_cast at ih ⊢
      generalize (1 + u T) ^ k = w at *
      generalize h T = η at *
      generalize e T = ε at *
      generalize d T = δ at *
      generalize u T = u at *
      have a1 : |s - S| + |S| ≥ |s| := by
        have := abs_sub_abs_le_abs_sub s S
        linarith
      have a1' : |t| ≤ |q| + (u * |q| + ε) := by
        have := abs_sub_abs_le_abs_sub t q
        linarith
      have a2 : |s + t| ≤ |s| + |t| := abs_add_le _ _
      have a3 : |r - (S + q)| ≤ |r - (s + t)| + (|s - S| + |t - q|) := by
        rw [show r - (S + q) = (r - (s + t)) + ((s - S) + (t - q)) by ring]
        exact (abs_add_le _ _).trans (add_le_add_right (abs_add_le _ _) _)
      have a4 := mul_le_mul_of_nonneg_left a2 hu
      have a5 := mul_le_mul_of_nonneg_left a1 hu
      have a6 := mul_le_mul_of_nonneg_left a1' hu
      have a7 := mul_le_mul_of_nonneg_left ih (by linarith : 0 ≤ 1 + u)
      have a8 := mul_le_mul_of_nonneg_left hS hu
      have a9 : 0 ≤ (w - 1) * ((1 + u) ^ 2 * |q|) := by
        have : 0 ≤ w - 1 := by linarith
        positivity
      have a10 : 0 ≤ (w - 1) * ((1 + u) * η) := by
        have : 0 ≤ w - 1 := by linarith
        positivity
      have a11 : (1 + u) * ε + δ ≤ (1 + u) * η := by
        rw [hh]
        nlinarith [mul_nonneg hu hd]
      calc |r - (S + q)| ≤ _ := a3
        _ ≤ (1 + u) * |s - S| + u * B + ((1 + u) ^ 2 - 1) * |q| + ((1 + u) * ε + δ) := by linarith
        _ ≤ (1 + u) * |s - S| + u * B + ((1 + u) ^ 2 - 1) * |q| + (1 + u) * η := by linarith
        _ ≤ (1 + u) * ((w * (1 + u) - 1) * B + (k + 1) * w * η) + u * B +
            (w * (1 + u) * (1 + u) - 1) * |q| + w * ((1 + u) * η) := by nlinarith
        _ = _ := by ring

theorem Sums.err_range {k : Nat} {g : Nat → ℝ} {r : T} (hs : Sums ((List.range k).map g) r) :
    |val r - ∑ i ∈ Finset.range k, g i| ≤
      ((1 + u T) ^ k - 1) * (∑ i ∈ Finset.range k, |g i|) + k * (1 + u T) ^ (k - 1) * h T := by
  have := hs.err
  rw [List.length_map, List.length_range, List.map_map] at this
  rw [Finset.sum_range, Finset.sum_range, ← List.sum_ofFn, ← List.sum_ofFn, List.ofFn_eq_map, List.ofFn_eq_map]
  have e1 : ∀ f : Nat → ℝ, (List.range k).map f = (List.finRange k).map fun i => f i.val := by
    intro f
    rw [← List.map_coe_finRange_eq_range, List.map_map]
    rfl
  rw [e1, e1] at this
  exact this

/-- A loop that adds products. -/
theorem wp_sums {k : Nat} (x y : Nat → Res T) (a b : Nat → ℝ)
    (hx : ∀ i < k, wp (x i) (fun v => val v = a i) (fun _ => True))
    (hy : ∀ i < k, wp (y i) (fun v => val v = b i) (fun _ => True)) :
    wp (forUp 0 k (ofInt 0 : T) fun i s => do CScalar.add s (← CScalar.mul (← x i) (← y i)))
      (fun r => Sums ((List.range k).map fun i => a i * b i) r) (fun _ => True) := by
  refine wp_forUp (fun i s => Sums ((List.range i).map fun i => a i * b i) s) (Nat.zero_le _) Sums.nil ?_ fun _ h => h
  intro i s _ hi hs
  rw [wp_bind]
  refine wp_mono (hx i hi) (fun v hv => ?_) fun _ h => h
  rw [wp_bind]
  refine wp_mono (hy i hi) (fun w hw => ?_) fun _ h => h
  rw [wp_bind]
  cases hm : CScalar.mul v w with
  | error _ => trivial
  | ok t =>
    rw [wp_ok]
    cases hadd : CScalar.add s t with
    | error _ => trivial
    | ok r =>
      rw [wp_ok, List.range_succ, List.map_append, List.map_singleton]
      refine hs.snoc ?_ hadd
      have := (mul hm).err
      rw [hv, hw] at this
      exact this

theorem wp_rd_val {r c : Nat} (A : Mat T r c) (i j : Nat) :
    wp (rd A i j) (fun v => val v = if hij : i < r ∧ j < c then val (A ⟨i, hij.1⟩ ⟨j, hij.2⟩) else 0) (fun _ => True) := by
  unfold rd
  split
  · next hij => exact rfl
  · trivial

/-- Sums of products over `Fin k`. -/
theorem Sums.err_fin {k : Nat} {a b : Nat → ℝ} {x y : Fin k → ℝ} (hx : ∀ i : Fin k, a i = x i) (hy : ∀ i : Fin k, b i = y i)
    {r : T} (hs : Sums ((List.range k).map fun i => a i * b i) r) :
    |val r - ∑ i, x i * y i| ≤
      ((1 + u T) ^ k - 1) * (∑ i, |x i| * |y i|) + k * (1 + u T) ^ (k - 1) * h T := by
  have := hs.err_range
  rw [Finset.sum_range, Finset.sum_range] at this
  simp only [hx, hy, abs_mul] at this
  exact this

theorem mult_err {A : Mat T n m} {B : Mat T m p} {P : Mat T n p} (hP : mult A B = .ok P) (i : Fin n) (j : Fin p) :
    |val (P i j) - ∑ k, val (A i k) * val (B k j)| ≤
      ((1 + u T) ^ m - 1) * (∑ k, |val (A i k)| * |val (B k j)|) + m * (1 + u T) ^ (m - 1) * h T := by
  have h1 := ((mult_elementwise A B).1 P).mp hP i j
  unfold dotFrom at h1
  have h2 := wp_ok_elim (wp_sums (k := m) _ _ _ _ (fun k _ => wp_rd_val A i.val k) fun k _ => wp_rd_val B k j.val) h1
  exact h2.err_fin (fun k => dif_pos ⟨i.2, k.2⟩) fun k => dif_pos ⟨k.2, j.2⟩

/-! ## Sums of given terms -/

theorem accum_sums : ∀ (ts : List (Res T × ℝ)) (l : List ℝ) (v : T), Sums l v →
    (∀ q ∈ ts, wp q.1 (fun t => |val t - q.2| ≤ u T * |q.2| + e T) fun _ => True) →
    wp (accumVal (ts.map Prod.fst) v) (fun r => Sums (l ++ ts.map Prod.snd) r) (fun _ => True)
  | [], l, v, hs, _ => by simpa [accumVal] using hs
  | (t, q) :: ts, l, v, hs, ht => by
    show wp (t >>= fun t => CScalar.add v t >>= fun v => accumVal (ts.map Prod.fst) v) _ _
    rw [wp_bind]
    refine wp_mono (ht _ (List.mem_cons_self ..)) (fun w hw => ?_) fun _ h => h
    rw [wp_bind]
    cases hadd : CScalar.add v w with
    | error _ => trivial
    | ok r =>
      rw [wp_ok]
      have := accum_sums ts (l ++ [q]) r (hs.snoc hw hadd) fun q hq => ht q (List.mem_cons_of_mem _ hq)
      rwa [List.append_assoc] at this

/-! ## Convolution -/

variable {i j : Nat}

theorem wp_convTerm (A : Mat T i j) (k : Mat T 3 3) (a' b' : Fin 3) (a b : ℤ)
    (hi : i ≤ 2 ^ 31) (hj : j ≤ 2 ^ 31)
    (ha : -(2 ^ 31) ≤ a) (ha' : a < 2 ^ 32) (hb : -(2 ^ 31) ≤ b) (hb' : b < 2 ^ 32) :
    wp (convTerm A k a' b' (szOf a) (szOf b))
      (fun t => |val t - k.map val a' b' * padded (A.map val) a b| ≤
        u T * |k.map val a' b' * padded (A.map val) a b| + e T) fun _ => True := by
  unfold convTerm
  by_cases hr : isOutOfRange i j (szToInt (szOf a)) (szToInt (szOf b)) = 0
  · rw [if_neg (not_not.mpr hr)]
    rw [isOutOfRange_eq_zero, inRange_iff i (by omega) a ha ha',
      inRange_iff j (by omega) b hb hb'] at hr
    obtain ⟨⟨⟨h1, h2⟩, h3⟩, ⟨h4, h5⟩, h6⟩ := hr
    have hM : (sizeMod : ℤ) = 2 ^ 64 := by unfold sizeMod; norm_num
    have ea : szOf a = a.toNat := by
      unfold szOf; rw [Int.emod_eq_of_lt h1 (by rw [hM]; omega)]
    have eb : szOf b = b.toNat := by
      unfold szOf; rw [Int.emod_eq_of_lt h4 (by rw [hM]; omega)]
    rw [ea, eb, rd_fin, ok_bind, rd_eq (by omega) (by omega), ok_bind]
    unfold padded
    rw [dif_pos ⟨⟨h1, h2⟩, h4, h5⟩]
    cases hm : CScalar.mul (k a' b') (A ⟨a.toNat, by omega⟩ ⟨b.toNat, by omega⟩) with
    | error _ => trivial
    | ok t => exact (mul hm).err
  · rw [if_pos hr, wp_ok]
    rw [isOutOfRange_eq_zero, inRange_iff i (by omega) a ha ha',
      inRange_iff j (by omega) b hb hb'] at hr
    have hp : padded (A.map val) a b = 0 := by
      unfold padded
      rw [dif_neg]
      omega
    rw [hp, mul_zero, zero, sub_zero, abs_zero, mul_zero, _root_.zero_add]
    exact e_nonneg

theorem wp_convCell (A : Mat T i j) (k : Mat T 3 3) (a b : ℤ)
    (hi : i ≤ 2 ^ 31) (hj : j ≤ 2 ^ 31)
    (ha : -1 ≤ a) (ha' : a + 1 < 2 ^ 32) (hb : -1 ≤ b) (hb' : b + 1 < 2 ^ 32) :
    wp (convCell A k a b) (fun y =>
      |val y - correlateAt (A.map val) (k.map val) a b| ≤
        ((1 + u T) ^ 9 - 1) *
          correlateAt ((A.map val).map fun x => |x|) ((k.map val).map fun x => |x|) a b +
          9 * (1 + u T) ^ 8 * h T) fun _ => True := by
  have key := accum_sums [
    (convTerm A k 0 0 (szOf (a - 1)) (szOf (b - 1)), k.map val 0 0 * padded (A.map val) (a - 1) (b - 1)),
    (convTerm A k 0 1 (szOf (a - 1)) (szOf b), k.map val 0 1 * padded (A.map val) (a - 1) b),
    (convTerm A k 0 2 (szOf (a - 1)) (szOf (b + 1)), k.map val 0 2 * padded (A.map val) (a - 1) (b + 1)),
    (convTerm A k 1 0 (szOf a) (szOf (b - 1)), k.map val 1 0 * padded (A.map val) a (b - 1)),
    (convTerm A k 1 1 (szOf a) (szOf b), k.map val 1 1 * padded (A.map val) a b),
    (convTerm A k 1 2 (szOf a) (szOf (b + 1)), k.map val 1 2 * padded (A.map val) a (b + 1)),
    (convTerm A k 2 0 (szOf (a + 1)) (szOf (b - 1)), k.map val 2 0 * padded (A.map val) (a + 1) (b - 1)),
    (convTerm A k 2 1 (szOf (a + 1)) (szOf b), k.map val 2 1 * padded (A.map val) (a + 1) b),
    (convTerm A k 2 2 (szOf (a + 1)) (szOf (b + 1)), k.map val 2 2 * padded (A.map val) (a + 1) (b + 1))]
    [] (ofInt 0 : T) Sums.nil (by
      intro q hq
      simp only [List.mem_cons, List.not_mem_nil, or_false] at hq
      rcases hq with rfl | rfl | rfl | rfl | rfl | rfl | rfl | rfl | rfl
      · exact wp_convTerm A k 0 0 (a - 1) (b - 1) hi hj (by omega) (by omega) (by omega) (by omega)
      · exact wp_convTerm A k 0 1 (a - 1) b hi hj (by omega) (by omega) (by omega) (by omega)
      · exact wp_convTerm A k 0 2 (a - 1) (b + 1) hi hj (by omega) (by omega) (by omega) (by omega)
      · exact wp_convTerm A k 1 0 a (b - 1) hi hj (by omega) (by omega) (by omega) (by omega)
      · exact wp_convTerm A k 1 1 a b hi hj (by omega) (by omega) (by omega) (by omega)
      · exact wp_convTerm A k 1 2 a (b + 1) hi hj (by omega) (by omega) (by omega) (by omega)
      · exact wp_convTerm A k 2 0 (a + 1) (b - 1) hi hj (by omega) (by omega) (by omega) (by omega)
      · exact wp_convTerm A k 2 1 (a + 1) b hi hj (by omega) (by omega) (by omega) (by omega)
      · exact wp_convTerm A k 2 2 (a + 1) (b + 1) hi hj (by omega) (by omega) (by omega) (by omega))
  refine wp_mono key (fun r hr => ?_) fun _ h => h
  have := hr.err
  rw [Fl.correlateAt_nine, Fl.correlateAt_nine]
  refine le_trans (le_of_eq rfl) (this.trans (le_of_eq ?_))
  simp only [abs_mul, Fl.abs_padded, List.map_cons, List.map_nil, List.length_cons, List.length_nil, List.nil_append]
  norm_num

theorem conv2_err {A : Mat T i j} {k : Mat T 3 3} {S : Mat T i j} (hS : conv2 A k = .ok S) (hi : i ≤ 2 ^ 31) (hj : j ≤ 2 ^ 31)
    (r : Fin i) (c : Fin j) :
    |val (S r c) - correlateAt (A.map val) (k.map val) r.val c.val| ≤
        ((1 + u T) ^ 9 - 1) *
          correlateAt ((A.map val).map fun x => |x|) ((k.map val).map fun x => |x|) r.val c.val +
          9 * (1 + u T) ^ 8 * h T := by
  rw [conv2_cells A k (by unfold sizeMod; omega) (by unfold sizeMod; omega)] at hS
  have := wp_ok_elim (wp_fill_first (g := fun it jt => convCell A k it jt) _) hS r c
  have hr := r.2
  have hc := c.2
  have hw := wp_convCell A k r.val c.val hi hj (by omega) (by omega) (by omega) (by omega)
  rw [this] at hw
  exact hw

theorem conv2_full_err {A : Mat T i j} {k : Mat T 3 3} {S : Mat T (i + 2) (j + 2)} (hS : conv2_full A k = .ok S)
    (hi : i ≤ 2 ^ 31) (hj : j ≤ 2 ^ 31) (r : Fin (i + 2)) (c : Fin (j + 2)) :
    |val (S r c) - correlateAt (A.map val) (k.map val) ((r.val : ℤ) - 1) ((c.val : ℤ) - 1)| ≤
        ((1 + u T) ^ 9 - 1) *
          correlateAt ((A.map val).map fun x => |x|) ((k.map val).map fun x => |x|) ((r.val : ℤ) - 1) ((c.val : ℤ) - 1) +
          9 * (1 + u T) ^ 8 * h T := by
  rw [conv2_full_cells A k (by unfold sizeMod; omega) (by unfold sizeMod; omega)] at hS
  have := wp_ok_elim (wp_fill_first (g := fun it jt => convCell A k ((it : ℤ) - 1) ((jt : ℤ) - 1)) _) hS r c
  have hr := r.2
  have hc := c.2
  have hw := wp_convCell A k ((r.val : ℤ) - 1) ((c.val : ℤ) - 1) hi hj (by omega) (by omega) (by omega) (by omega)
  rw [this] at hw
  exact hw

theorem conv2_valid_err {m : Nat} {A : Mat T (m + 2) (m + 2)} {k : Mat T 3 3} {V : Mat T m m}
    (hV : conv2_valid A k = .ok V) (hm : m + 2 ≤ 2 ^ 31) (r c : Fin m) :
    |val (V r c) - ∑ u : Fin 3, ∑ v : Fin 3, val (k u v) * val (A ⟨r.val + u.val, by omega⟩ ⟨c.val + v.val, by omega⟩)| ≤
        ((1 + u T) ^ 9 - 1) * (∑ u : Fin 3, ∑ v : Fin 3,
          |val (k u v)| * |val (A ⟨r.val + u.val, by omega⟩ ⟨c.val + v.val, by omega⟩)|) +
          9 * (1 + u T) ^ 8 * h T := by
  obtain ⟨S, hS⟩ : ∃ S, conv2 A k = .ok S := by
    cases hc : conv2 A k with
    | ok S => exact ⟨S, rfl⟩
    | error e => rw [(C49_conv2_valid_any A k).1 e hc] at hV; cases hV
  obtain ⟨V', hV', hVS⟩ := (C49_conv2_valid_any A k).2 S hS
  obtain rfl : V = V' := by rw [hV] at hV'; injection hV'
  have := conv2_err hS hm hm ⟨r.val + 1, by omega⟩ ⟨c.val + 1, by omega⟩
  rw [← hVS r c] at this
  have key : ∀ (B : Mat ℝ (m + 2) (m + 2)) (l : Mat ℝ 3 3),
      correlateAt B l ((r.val + 1 : Nat) : ℤ) ((c.val + 1 : Nat) : ℤ) =
      ∑ u : Fin 3, ∑ v : Fin 3, l u v * B ⟨r.val + u.val, by omega⟩ ⟨c.val + v.val, by omega⟩ := by
    intro B l
    unfold correlateAt
    refine Finset.sum_congr rfl fun u _ => Finset.sum_congr rfl fun v _ => ?_
    congr 1
    have e1 : ((r.val + 1 : Nat) : ℤ) + u.val - 1 = ((r.val + u.val : Nat) : ℤ) := by push_cast; ring
    have e2 : ((c.val + 1 : Nat) : ℤ) + v.val - 1 = ((c.val + v.val : Nat) : ℤ) := by push_cast; ring
    rw [e1, e2]
    exact padded_fin B ⟨r.val + u.val, by omega⟩ ⟨c.val + v.val, by omega⟩
  rw [key, key] at this
  exact this

/-! ## Determinants -/

/-- Running error bound: `x` differs from `z` by at most `((1+u)^k - 1) Z + η`, where `|z| ≤ Z`. -/
structure Tr (x : T) (z Z : ℝ) (k : Nat) (η : ℝ) : Prop where
  err : |val x - z| ≤ ((1 + u T) ^ k - 1) * Z + η
  le : |z| ≤ Z

variable {x y s : T} {z w Z W η η' : ℝ} {k : Nat}

theorem Tr.mono (hx : Tr x z Z k η) {k' : Nat} (hk : k ≤ k') : Tr x z Z k' η := by
  have := mul_le_mul_of_nonneg_right (pow_mono (T := T) hk) ((abs_nonneg _).trans hx.le)
  exact ⟨hx.err.trans (by linarith), hx.le⟩

/-- Rounding a value near `z` once more. -/
theorem round_err {r v ε θ : ℝ} (hz : |z| ≤ Z) (hv : |r - v| ≤ u T * |v| + ε)
    (hy : |v - z| ≤ ((1 + u T) ^ k - 1) * Z + θ) :
    |r - z| ≤ ((1 + u T) ^ (k + 1) - 1) * Z + ((1 + u T) * θ + ε) := by
  have hu := u_nonneg (T := T)
  have h1 : |v| ≤ (1 + u T) ^ k * Z + θ := by
    have := abs_sub_abs_le_abs_sub v z
    linarith
  have h2 := abs_sub_le r v z
  have h3 := mul_le_mul_of_nonneg_left h1 hu
  rw [pow_succ]
  nlinarith

theorem Tr.add (hx : Tr x z Z k η) (hy : Tr y w W k η') (hs : CScalar.add x y = .ok s) :
    Tr s (z + w) (Z + W) (k + 1) ((1 + u T) * (η + η') + d T) := by
  have hle := (abs_add_le z w).trans (add_le_add hx.le hy.le)
  refine ⟨round_err hle (Standard.add hs).err ?_, hle⟩
  rw [add_sub_add_comm]
  refine (abs_add_le _ _).trans ((add_le_add hx.err hy.err).trans (le_of_eq ?_))
  ring

theorem Tr.sub (hx : Tr x z Z k η) (hy : Tr y w W k η') (hs : CScalar.sub x y = .ok s) :
    Tr s (z - w) (Z + W) (k + 1) ((1 + u T) * (η + η') + d T) := by
  have hle := (abs_sub z w).trans (add_le_add hx.le hy.le)
  refine ⟨round_err hle (Standard.sub hs).err ?_, hle⟩
  rw [show val x - val y - (z - w) = (val x - z) - (val y - w) by ring]
  refine (abs_sub _ _).trans ((add_le_add hx.err hy.err).trans (le_of_eq ?_))
  ring

theorem Tr.mul2 (hs : CScalar.mul x y = .ok s) : Tr s (val x * val y) (|val x| * |val y|) 1 (e T) := by
  have := (Standard.mul hs).err
  rw [abs_mul] at this
  refine ⟨?_, (abs_mul _ _).le⟩
  rw [pow_one, add_sub_cancel_left]
  exact this

/-- Multiplying by an element. -/
theorem Tr.mul_elem (hx : Tr x z Z k η) {K : ℝ} (hη : 0 ≤ η) (hK : |val y| ≤ K) (hs : CScalar.mul x y = .ok s) :
    Tr s (z * val y) (Z * |val y|) (k + 1) ((1 + u T) * (η * K) + e T) := by
  have hle : |z * val y| ≤ Z * |val y| := by
    rw [abs_mul]
    exact mul_le_mul_of_nonneg_right hx.le (abs_nonneg _)
  refine ⟨round_err hle (Standard.mul hs).err ?_, hle⟩
  rw [← sub_mul, abs_mul]
  have h1 := mul_le_mul_of_nonneg_right hx.err (abs_nonneg (val y))
  have h2 := mul_le_mul_of_nonneg_left hK hη
  refine h1.trans ?_
  linarith

theorem bind_ok {α β : Type} {x : Res α} {f : α → Res β} {b : β} (hb : (x >>= f) = .ok b) : ∃ a, x = .ok a ∧ f a = .ok b := by
  cases x with
  | ok a => exact ⟨a, rfl, hb⟩
  | error e => cases hb

theorem det2_err {A : Mat T 2 2} {D : T} (hD : det A = .ok D) :
    |val D - (val (A 0 0) * val (A 1 1) - val (A 0 1) * val (A 1 0))| ≤
      ((1 + u T) ^ 2 - 1) * (|val (A 0 0)| * |val (A 1 1)| + |val (A 0 1)| * |val (A 1 0)|) + 2 * (1 + u T) * h T := by
  have hu := u_nonneg (T := T)
  change det2 A = .ok D at hD
  unfold det2 at hD
  rw [rd_eq (by omega) (by omega), rd_eq (by omega) (by omega), rd_eq (by omega) (by omega), rd_eq (by omega) (by omega)] at hD
  simp only [ok_bind] at hD
  obtain ⟨p1, hp1, hD⟩ := bind_ok hD
  obtain ⟨p2, hp2, hD⟩ := bind_ok hD
  have := ((Tr.mul2 hp1).sub (Tr.mul2 hp2) hD).err
  refine this.trans (add_le_add le_rfl ?_)
  have hd := d_nonneg (T := T)
  have he := e_nonneg (T := T)
  unfold h
  nlinarith [mul_nonneg hu hd]

theorem Tr.mul3 {a b c t r : T} {K : ℝ} (hK : |val c| ≤ K) (h1 : CScalar.mul a b = .ok t) (h2 : CScalar.mul t c = .ok r) :
    Tr r (val a * val b * val c) (|val a| * |val b| * |val c|) 2 ((1 + u T) * (e T * K) + e T) :=
  (Tr.mul2 h1).mul_elem e_nonneg hK h2

theorem det3_err {A : Mat T 3 3} {D : T} (hD : det A = .ok D) :
    |val D - (A.map val).det| ≤ ((1 + u T) ^ 7 - 1) * perm3 (A.map val) +
      6 * (1 + u T) ^ 6 * (1 + |val (A 2 0)| + |val (A 2 1)| + |val (A 2 2)|) * h T := by
  have hu := u_nonneg (T := T)
  have hd := d_nonneg (T := T)
  have he := e_nonneg (T := T)
  change det3 A = .ok D at hD
  unfold det3 at hD
  iterate 9 rw [rd_eq (by omega) (by omega), ok_bind] at hD
  obtain ⟨p1, hp1, hD⟩ := bind_ok hD
  obtain ⟨q1, hq1, hD⟩ := bind_ok hD
  obtain ⟨p2, hp2, hD⟩ := bind_ok hD
  obtain ⟨q2, hq2, hD⟩ := bind_ok hD
  obtain ⟨s2, hs2, hD⟩ := bind_ok hD
  obtain ⟨p3, hp3, hD⟩ := bind_ok hD
  obtain ⟨q3, hq3, hD⟩ := bind_ok hD
  obtain ⟨s3, hs3, hD⟩ := bind_ok hD
  obtain ⟨p4, hp4, hD⟩ := bind_ok hD
  obtain ⟨q4, hq4, hD⟩ := bind_ok hD
  obtain ⟨s4, hs4, hD⟩ := bind_ok hD
  obtain ⟨p5, hp5, hD⟩ := bind_ok hD
  obtain ⟨q5, hq5, hD⟩ := bind_ok hD
  obtain ⟨s5, hs5, hD⟩ := bind_ok hD
  obtain ⟨p6, hp6, hD⟩ := bind_ok hD
  obtain ⟨q6, hq6, hD⟩ := bind_ok hD
  have z0 := abs_nonneg (val (A 2 0))
  have z1 := abs_nonneg (val (A 2 1))
  have z2 := abs_nonneg (val (A 2 2))
  have b0 : |val (A 2 0)| ≤ |val (A 2 0)| + |val (A 2 1)| + |val (A 2 2)| := by linarith
  have b1 : |val (A 2 1)| ≤ |val (A 2 0)| + |val (A 2 1)| + |val (A 2 2)| := by linarith
  have b2 : |val (A 2 2)| ≤ |val (A 2 0)| + |val (A 2 1)| + |val (A 2 2)| := by linarith
  have t1 := Tr.mul3 b2 hp1 hq1
  have t2 := Tr.mul3 b0 hp2 hq2
  have t3 := (Tr.mul3 b1 hp3 hq3).mono (show 2 ≤ 3 by omega)
  have t4 := (Tr.mul3 b0 hp4 hq4).mono (show 2 ≤ 4 by omega)
  have t5 := (Tr.mul3 b2 hp5 hq5).mono (show 2 ≤ 5 by omega)
  have t6 := (Tr.mul3 b1 hp6 hq6).mono (show 2 ≤ 6 by omega)
  have t := (((((t1.add t2 hs2).add t3 hs3).sub t4 hs4).sub t5 hs5).sub t6 hD).err
  rw [Matrix.det_fin_three]
  refine le_trans (le_of_eq ?_) (t.trans ?_)
  · simp only [Matrix.map_apply]
    congr 1
    have : ∀ a c d : ℝ, c = d → a - c = a - d := fun a c d e => by rw [e]
    refine this _ _ _ ?_
    show _ = val (A 0 0) * val (A 1 1) * val (A 2 2) +
      val (A 0 1) * val (A 1 2) * val (A 2 0) + val (A 0 2) * val (A 1 0) * val (A 2 1) -
      val (A 0 2) * val (A 1 1) * val (A 2 0) - val (A 0 1) * val (A 1 0) * val (A 2 2) -
      val (A 0 0) * val (A 1 2) * val (A 2 1)
    ring
  · refine add_le_add (le_of_eq ?_) ?_
    · congr 1
    · generalize |val (A 2 0)| = c0 at *
      generalize |val (A 2 1)| = c1 at *
      generalize |val (A 2 2)| = c2 at *
      have e1 : 1 + c0 + c1 + c2 = 1 + (c0 + c1 + c2) := by ring
      rw [e1]
      have hc : 0 ≤ c0 + c1 + c2 := by linarith
      generalize c0 + c1 + c2 = K at *
      clear t t1 t2 t3 t4 t5 t6
      have hh : h T = e T + d T := rfl
      rw [hh]
      generalize e T = ε at *
      generalize d T = δ at *
      generalize u T = u at *
      -- each product, and each sum, costs at most `R`
      have r1 : (1 + u) * (ε * K) + ε ≤ (1 + u) * (1 + K) * ε := by nlinarith [mul_nonneg hu he]
      have hw : ∀ k, 1 ≤ (1 + u) ^ k := fun k => one_le_pow₀ (by linarith)
      have key : ∀ (k : Nat) (P : ℝ), P ≤ (1 + u) * (1 + K) * ε →
          (1 + u) ^ k * P ≤ (1 + u) ^ 6 * (1 + K) * ε ∨ 5 < k := by
        intro k P hP
        by_cases hk : 5 < k
        · exact .inr hk
        left
        have a1 := mul_le_mul_of_nonneg_left hP (by positivity : (0 : ℝ) ≤ (1 + u) ^ k)
        have a2 : (1 + u) ^ k * ((1 + u) * (1 + K) * ε) = (1 + u) ^ (k + 1) * ((1 + K) * ε) := by ring
        have a3 : (1 + u) ^ (k + 1) ≤ (1 + u) ^ 6 := pow_le_pow_right₀ (by linarith) (by omega)
        have a4 := mul_le_mul_of_nonneg_right a3 (by positivity : 0 ≤ (1 + K) * ε)
        nlinarith
      have kd : ∀ k, k ≤ 5 → (1 + u) ^ k * δ ≤ (1 + u) ^ 6 * (1 + K) * δ := by
        intro k hk
        have a3 : (1 + u) ^ k ≤ (1 + u) ^ 6 := pow_le_pow_right₀ (by linarith) (by omega)
        have a4 := mul_le_mul_of_nonneg_right a3 hd
        have a5 : 0 ≤ (1 + u) ^ 6 * K * δ := by positivity
        nlinarith
      have P1 := (key 1 _ r1).resolve_right (by omega)
      have P2 := (key 2 _ r1).resolve_right (by omega)
      have P3 := (key 3 _ r1).resolve_right (by omega)
      have P4 := (key 4 _ r1).resolve_right (by omega)
      have P5 := (key 5 _ r1).resolve_right (by omega)
      have D0 := kd 0 (by omega)
      have D1 := kd 1 (by omega)
      have D2 := kd 2 (by omega)
      have D3 := kd 3 (by omega)
      have D4 := kd 4 (by omega)
      have D5 : 0 ≤ (1 + u) ^ 6 * (1 + K) * δ := by positivity
      generalize (1 + u) * (ε * K) + ε = P at *
      calc _ = (1 + u) ^ 5 * P + (1 + u) ^ 5 * P + (1 + u) ^ 4 * P + (1 + u) ^ 3 * P + (1 + u) ^ 2 * P + (1 + u) ^ 1 * P +
            ((1 + u) ^ 4 * δ + (1 + u) ^ 3 * δ + (1 + u) ^ 2 * δ + (1 + u) ^ 1 * δ + (1 + u) ^ 0 * δ) := by ring
        _ ≤ 6 * ((1 + u) ^ 6 * (1 + K) * ε) + 6 * ((1 + u) ^ 6 * (1 + K) * δ) := by linarith
        _ = _ := by ring

/-! ## Mean -/

/-- A running sum of elements. -/
def SumOf (N : Nat) (S B : ℝ) (s : T) : Prop := ∃ l, Sums l s ∧ l.length = N ∧ l.sum = S ∧ (l.map fun x => |x|).sum = B

theorem SumOf.add {N : Nat} {S B : ℝ} {s t r : T} (hs : SumOf N S B s) (hr : CScalar.add s t = .ok r) :
    SumOf (N + 1) (S + val t) (B + |val t|) r := by
  obtain ⟨l, h1, h2, h3, h4⟩ := hs
  refine ⟨l ++ [val t], h1.snoc ?_ hr, by simp [h2], by simp [h3], by simp [h4]⟩
  rw [sub_self, abs_zero]
  exact add_nonneg (mul_nonneg u_nonneg (abs_nonneg _)) e_nonneg

theorem wp_sumAll (A : Mat T i j) :
    wp (forUp 0 i (ofInt 0 : T) fun it result => forUp 0 j result fun jt result => do CScalar.add result (← rd A it jt))
      (SumOf (i * j) (∑ a, ∑ b, val (A a b)) (∑ a, ∑ b, |val (A a b)|)) (fun _ => True) := by
  set g : Nat → Nat → ℝ := fun a b => if hab : a < i ∧ b < j then val (A ⟨a, hab.1⟩ ⟨b, hab.2⟩) else 0 with hg
  have eg : ∀ (a : Fin i) (b : Fin j), val (A a b) = g a b := fun a b => by
    rw [hg]
    dsimp only
    rw [dif_pos (show a.val < i ∧ b.val < j from ⟨a.2, b.2⟩)]
  have e1 : ∑ a, ∑ b, val (A a b) = ∑ a ∈ Finset.range i, ∑ b ∈ Finset.range j, g a b := by
    rw [Finset.sum_range]
    refine Finset.sum_congr rfl fun a _ => ?_
    rw [Finset.sum_range]
    exact Finset.sum_congr rfl fun b _ => eg a b
  have e2 : ∑ a, ∑ b, |val (A a b)| = ∑ a ∈ Finset.range i, ∑ b ∈ Finset.range j, |g a b| := by
    rw [Finset.sum_range]
    refine Finset.sum_congr rfl fun a _ => ?_
    rw [Finset.sum_range]
    exact Finset.sum_congr rfl fun b _ => by rw [eg a b]
  rw [e1, e2]
  refine wp_forUp (fun a s => SumOf (a * j) (∑ a ∈ Finset.range a, ∑ b ∈ Finset.range j, g a b)
    (∑ a ∈ Finset.range a, ∑ b ∈ Finset.range j, |g a b|) s) (Nat.zero_le _) ?_ ?_ fun _ h => h
  · exact ⟨[], Sums.nil, by simp, by simp, by simp⟩
  intro a s _ ha hs
  refine wp_forUp (fun b s => SumOf (a * j + b)
    ((∑ a ∈ Finset.range a, ∑ b ∈ Finset.range j, g a b) + ∑ b ∈ Finset.range b, g a b)
    ((∑ a ∈ Finset.range a, ∑ b ∈ Finset.range j, |g a b|) + ∑ b ∈ Finset.range b, |g a b|) s) (Nat.zero_le _) ?_ ?_ ?_
  · simpa using hs
  · intro b s _ hb hs
    rw [rd_eq ha hb, ok_bind]
    cases hr : CScalar.add s (A ⟨a, ha⟩ ⟨b, hb⟩) with
    | error _ => trivial
    | ok r =>
      rw [wp_ok]
      have := hs.add hr
      rw [Finset.sum_range_succ, Finset.sum_range_succ, ← add_assoc, ← add_assoc, ← add_assoc]
      rw [← show _ = g a b from eg ⟨a, ha⟩ ⟨b, hb⟩]
      exact this
  · intro s hs
    rw [Finset.sum_range_succ, Finset.sum_range_succ, Nat.succ_mul]
    exact hs

theorem mean_err {A : Mat T i j} {μ : T} (hμ : mean A = .ok μ) (h0 : i * j ≠ 0) :
    |val μ - (∑ a, ∑ b, val (A a b)) / ((i * j : Nat) : ℝ)| ≤
      ((1 + u T) ^ (i * j + 2) - 1) * ((∑ a, ∑ b, |val (A a b)|) / ((i * j : Nat) : ℝ)) + ((1 + u T) ^ (i * j + 1) + 1) * h T := by
  have hu := u_nonneg (T := T)
  unfold mean at hμ
  obtain ⟨s, hs, hμ⟩ := bind_ok hμ
  obtain ⟨l, h1, h2, h3, h4⟩ := wp_ok_elim (wp_sumAll A) hs
  have hl := h1.err
  rw [h2, h3, h4] at hl
  have hd := divSize hμ
  have he := e_le_h (T := T)
  have hh := h_nonneg (T := T)
  have hB : |∑ a, ∑ b, val (A a b)| ≤ ∑ a, ∑ b, |val (A a b)| :=
    (Finset.abs_sum_le_sum_abs _ _).trans (Finset.sum_le_sum fun _ _ => Finset.abs_sum_le_sum_abs _ _)
  generalize ∑ a, ∑ b, val (A a b) = S at *
  generalize ∑ a, ∑ b, |val (A a b)| = B at *
  generalize hN : i * j = N at *
  have hN' : (0 : ℝ) < (N : ℝ) := by exact_mod_cast Nat.pos_of_ne_zero h0
  obtain ⟨k, rfl⟩ : ∃ k, N = k + 1 := ⟨N - 1, by omega⟩
  rw [Nat.add_sub_cancel] at hl
  have q1 : |val s / ((k + 1 : Nat) : ℝ) - S / ((k + 1 : Nat) : ℝ)| ≤
      ((1 + u T) ^ (k + 1) - 1) * (B / ((k + 1 : Nat) : ℝ)) + (1 + u T) ^ k * h T := by
    rw [← sub_div, abs_div, abs_of_pos hN', div_le_iff₀ hN']
    refine hl.trans (le_of_eq ?_)
    field_simp
  have q2 : |S / ((k + 1 : Nat) : ℝ)| ≤ B / ((k + 1 : Nat) : ℝ) := by
    rw [abs_div, abs_of_pos hN']
    exact div_le_div_of_nonneg_right hB hN'.le
  generalize val s / ((k + 1 : Nat) : ℝ) = v at *
  generalize S / ((k + 1 : Nat) : ℝ) = z at *
  generalize B / ((k + 1 : Nat) : ℝ) = Z at *
  generalize val μ = m at *
  have q3 := abs_sub_le m v z
  have q4 : |v| ≤ (1 + u T) ^ (k + 1) * Z + (1 + u T) ^ k * h T := by
    have := abs_sub_abs_le_abs_sub v z
    linarith
  have q5 : 0 ≤ (1 + u T) ^ 2 - 1 := by nlinarith
  have q6 := mul_le_mul_of_nonneg_left q4 q5
  calc |m - z| ≤ _ := q3
    _ ≤ ((1 + u T) ^ 2 - 1) * ((1 + u T) ^ (k + 1) * Z + (1 + u T) ^ k * h T) + h T +
        (((1 + u T) ^ (k + 1) - 1) * Z + (1 + u T) ^ k * h T) := by linarith
    _ = _ := by ring

end Standard
end MatrixLibs
