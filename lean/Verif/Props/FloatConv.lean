import Verif.Proof.FloatTrack
import Verif.Proof.Conv
import Verif.Props.Conv
import Verif.Proof.FloatMat
import Mathlib.LinearAlgebra.Matrix.Notation

/-!
# Floating point convolution (C77)
-/

namespace MatrixLibs

set_option linter.unusedSectionVars false

namespace Fl
variable {F : Fmt} {i j : Nat}

/-- Error of a computed sum of rounded terms. -/
theorem fsum_pairs (l : List (Fl F × ℝ))
    (h : ∀ q ∈ l, q.1.Finite → |q.1.val - q.2| ≤ F.u * |q.2| + F.eta)
    (hf : (fsum (l.map Prod.fst)).Finite) :
    |(fsum (l.map Prod.fst)).val - (l.map Prod.snd).sum| ≤
      ((1 + F.u) ^ l.length - 1) * (l.map fun q => |q.2|).sum +
        l.length * (1 + F.u) ^ (l.length - 1) * F.eta := by
  have hu := u_nonneg F
  have he := eta_nonneg F
  rcases Nat.eq_zero_or_pos l.length with h0 | hm
  · rw [List.length_eq_zero_iff] at h0
    subst h0
    simp [fsum, zero_val]
  have hfin := fsum_finite _ hf
  have e1 := fsum_err _ hf
  rw [List.length_map, List.map_map, List.map_map] at e1
  have h' : ∀ q ∈ l, |q.1.val - q.2| ≤ F.u * |q.2| + F.eta := fun q hq =>
    h q hq (hfin _ (List.mem_map.mpr ⟨q, hq, rfl⟩))
  have key : ∀ l : List (Fl F × ℝ), (∀ q ∈ l, |q.1.val - q.2| ≤ F.u * |q.2| + F.eta) →
      |(l.map (val ∘ Prod.fst)).sum - (l.map Prod.snd).sum| ≤
        F.u * (l.map fun q => |q.2|).sum + l.length * F.eta ∧
      (l.map ((fun x => |x.val|) ∘ Prod.fst)).sum ≤
        (1 + F.u) * (l.map fun q => |q.2|).sum + l.length * F.eta := by
    intro l hl
    induction l with
    | nil => simp
    | cons q l ih =>
      obtain ⟨i1, i2⟩ := ih (fun x hx => hl x (by simp [hx]))
      have hq := hl q (by simp)
      simp only [List.map_cons, List.sum_cons, List.length_cons, Function.comp_apply]
      push_cast
      constructor
      · rw [add_sub_add_comm]
        refine (abs_add_le _ _).trans ?_
        linarith
      · have := abs_sub_abs_le_abs_sub q.1.val q.2
        linarith
  obtain ⟨k1, k2⟩ := key l h'
  have e6 : (1 + F.u) ^ l.length = (1 + F.u) ^ (l.length - 1) * (1 + F.u) := by
    rw [← pow_succ, Nat.sub_add_cancel hm]
  have e7 := one_add_u_pow F (l.length - 1)
  rw [e6]
  generalize (1 + F.u) ^ (l.length - 1) = q at *
  have a1 := mul_le_mul_of_nonneg_left k2 (by linarith : 0 ≤ q - 1)
  have a2 := abs_sub_le (fsum (l.map Prod.fst)).val (l.map (val ∘ Prod.fst)).sum
    (l.map Prod.snd).sum
  nlinarith

/-- One term of the correlation. -/
theorem convTerm_err (A : Mat (Fl F) i j) (k : Mat (Fl F) 3 3) (u v : Fin 3) (a b : ℤ)
    (hi : i ≤ 2 ^ 31) (hj : j ≤ 2 ^ 31)
    (ha : -(2 ^ 31) ≤ a) (ha' : a < 2 ^ 32) (hb : -(2 ^ 31) ≤ b) (hb' : b < 2 ^ 32) :
    ∃ t, convTerm A k u v (szOf a) (szOf b) = .ok t ∧ (t.Finite →
      |t.val - k.map val u v * padded (A.map val) a b| ≤
        F.u * |k.map val u v * padded (A.map val) a b| + F.eta) := by
  have he := eta_nonneg F
  unfold convTerm
  by_cases h : isOutOfRange i j (szToInt (szOf a)) (szToInt (szOf b)) = 0
  · rw [if_neg (not_not.mpr h)]
    rw [isOutOfRange_eq_zero, inRange_iff i (by omega) a ha ha',
      inRange_iff j (by omega) b hb hb'] at h
    obtain ⟨⟨⟨h1, h2⟩, h3⟩, ⟨h4, h5⟩, h6⟩ := h
    have hM : (sizeMod : ℤ) = 2 ^ 64 := by unfold sizeMod; norm_num
    have ea : szOf a = a.toNat := by
      unfold szOf; rw [Int.emod_eq_of_lt h1 (by rw [hM]; omega)]
    have eb : szOf b = b.toNat := by
      unfold szOf; rw [Int.emod_eq_of_lt h4 (by rw [hM]; omega)]
    rw [ea, eb, rd_fin, ok_bind, rd_eq (by omega) (by omega), ok_bind]
    refine ⟨_, rfl, fun hf => ?_⟩
    unfold padded
    rw [dif_pos ⟨⟨h1, h2⟩, h4, h5⟩]
    exact mul_err hf
  · rw [if_pos h]
    refine ⟨_, rfl, fun _ => ?_⟩
    rw [isOutOfRange_eq_zero, inRange_iff i (by omega) a ha ha',
      inRange_iff j (by omega) b hb hb'] at h
    have hp : padded (A.map val) a b = 0 := by
      unfold padded
      rw [dif_neg]
      omega
    have hz : (CScalar.ofInt 0 : Fl F).val = 0 := zero_val
    rw [hp, hz]
    simpa using he

theorem accumVal_eq (ts : List (Fl F)) : ∀ v : Fl F,
    accumVal (ts.map fun t => (.ok t : Res (Fl F))) v = .ok (ts.foldl Fl.add v) := by
  induction ts with
  | nil => intro v; rfl
  | cons t ts ih =>
    intro v
    exact ih (v.add t)

theorem correlateAt_nine {R : Type} [Ring R] (A : Mat R i j) (k : Mat R 3 3) (a b : ℤ) :
    correlateAt A k a b =
      [k 0 0 * padded A (a - 1) (b - 1), k 0 1 * padded A (a - 1) b,
       k 0 2 * padded A (a - 1) (b + 1), k 1 0 * padded A a (b - 1), k 1 1 * padded A a b,
       k 1 2 * padded A a (b + 1), k 2 0 * padded A (a + 1) (b - 1), k 2 1 * padded A (a + 1) b,
       k 2 2 * padded A (a + 1) (b + 1)].sum := by
  unfold correlateAt
  simp only [Fin.sum_univ_three, List.sum_cons, List.sum_nil, add_zero]
  have e0 : ∀ x : ℤ, x + ((0 : Fin 3).val : ℤ) - 1 = x - 1 := fun x => by simp
  have e1 : ∀ x : ℤ, x + ((1 : Fin 3).val : ℤ) - 1 = x := fun x => by simp
  have e2 : ∀ x : ℤ, x + ((2 : Fin 3).val : ℤ) - 1 = x + 1 := fun x => by
    show x + 2 - 1 = x + 1
    ring
  simp only [e0, e1, e2]
  abel

theorem abs_padded (A : Mat ℝ i j) (a b : ℤ) : |padded A a b| = padded (A.map fun x => |x|) a b := by
  unfold padded
  split
  · rfl
  · exact abs_zero

/-- One element of a convolution. -/
theorem convCell_err (A : Mat (Fl F) i j) (k : Mat (Fl F) 3 3) (a b : ℤ)
    (hi : i ≤ 2 ^ 31) (hj : j ≤ 2 ^ 31)
    (ha : -1 ≤ a) (ha' : a + 1 < 2 ^ 32) (hb : -1 ≤ b) (hb' : b + 1 < 2 ^ 32) :
    ∃ y, convCell A k a b = .ok y ∧ (y.Finite →
      |y.val - correlateAt (A.map val) (k.map val) a b| ≤
        ((1 + F.u) ^ 9 - 1) * correlateAt ((A.map val).map fun x => |x|) ((k.map val).map fun x => |x|) a b +
          9 * (1 + F.u) ^ 8 * F.eta) := by
  obtain ⟨t1, q1, r1⟩ := convTerm_err A k 0 0 (a - 1) (b - 1) hi hj (by omega) (by omega) (by omega) (by omega)
  obtain ⟨t2, q2, r2⟩ := convTerm_err A k 0 1 (a - 1) b hi hj (by omega) (by omega) (by omega) (by omega)
  obtain ⟨t3, q3, r3⟩ := convTerm_err A k 0 2 (a - 1) (b + 1) hi hj (by omega) (by omega) (by omega) (by omega)
  obtain ⟨t4, q4, r4⟩ := convTerm_err A k 1 0 a (b - 1) hi hj (by omega) (by omega) (by omega) (by omega)
  obtain ⟨t5, q5, r5⟩ := convTerm_err A k 1 1 a b hi hj (by omega) (by omega) (by omega) (by omega)
  obtain ⟨t6, q6, r6⟩ := convTerm_err A k 1 2 a (b + 1) hi hj (by omega) (by omega) (by omega) (by omega)
  obtain ⟨t7, q7, r7⟩ := convTerm_err A k 2 0 (a + 1) (b - 1) hi hj (by omega) (by omega) (by omega) (by omega)
  obtain ⟨t8, q8, r8⟩ := convTerm_err A k 2 1 (a + 1) b hi hj (by omega) (by omega) (by omega) (by omega)
  obtain ⟨t9, q9, r9⟩ := convTerm_err A k 2 2 (a + 1) (b + 1) hi hj (by omega) (by omega) (by omega) (by omega)
  have e : convTerms A k a b = [t1, t2, t3, t4, t5, t6, t7, t8, t9].map fun t => (.ok t : Res (Fl F)) := by
    unfold convTerms
    simp only [List.map_cons, List.map_nil]
    rw [← q1, ← q2, ← q3, ← q4, ← q5, ← q6, ← q7, ← q8, ← q9]
    rfl
  refine ⟨_, by unfold convCell; rw [e, accumVal_eq], fun hf => ?_⟩
  have h := fsum_pairs [(t1, k.map val 0 0 * padded (A.map val) (a - 1) (b - 1)),
    (t2, k.map val 0 1 * padded (A.map val) (a - 1) b),
    (t3, k.map val 0 2 * padded (A.map val) (a - 1) (b + 1)),
    (t4, k.map val 1 0 * padded (A.map val) a (b - 1)),
    (t5, k.map val 1 1 * padded (A.map val) a b),
    (t6, k.map val 1 2 * padded (A.map val) a (b + 1)),
    (t7, k.map val 2 0 * padded (A.map val) (a + 1) (b - 1)),
    (t8, k.map val 2 1 * padded (A.map val) (a + 1) b),
    (t9, k.map val 2 2 * padded (A.map val) (a + 1) (b + 1))] (by
      intro q hq
      simp only [List.mem_cons, List.not_mem_nil, or_false] at hq
      rcases hq with rfl | rfl | rfl | rfl | rfl | rfl | rfl | rfl | rfl <;> assumption) hf
  rw [correlateAt_nine, correlateAt_nine]
  simp only [abs_mul, abs_padded, List.map_cons, List.map_nil, List.length_cons,
    List.length_nil] at h
  norm_num at h ⊢
  exact h

end Fl

variable {F : Fmt} {i j : Nat}

/-- C77: every finite element of `conv2` of floating point matrices is the exact correlation up to
nine roundings of each term. -/
theorem C77_conv2_error (A : Mat (Fl F) i j) (k : Mat (Fl F) 3 3) (hi : i ≤ 2 ^ 31)
    (hj : j ≤ 2 ^ 31) :
    ∃ S, conv2 A k = .ok S ∧ ∀ r c, (S r c).Finite →
      |(S r c).val - correlateAt (A.map Fl.val) (k.map Fl.val) r.val c.val| ≤
        ((1 + F.u) ^ 9 - 1) *
          correlateAt ((A.map Fl.val).map fun x => |x|) ((k.map Fl.val).map fun x => |x|) r.val c.val +
        9 * (1 + F.u) ^ 8 * F.eta := by
  have hc : ∀ (r : Fin i) (c : Fin j), _ := fun r c =>
    Fl.convCell_err A k r.val c.val hi hj (by omega) (by have := r.2; omega) (by omega)
      (by have := c.2; omega)
  choose f hf1 hf2 using hc
  refine ⟨.of f, ?_, hf2⟩
  rw [conv2_cells A k (by unfold sizeMod; omega) (by unfold sizeMod; omega)]
  exact fill_eq (g := fun it jt => convCell A k it jt) (F := .of f) _ (fun r c => hf1 r c)

/-- C77: the same for `conv2_full`. -/
theorem C77_conv2_full_error (A : Mat (Fl F) i j) (k : Mat (Fl F) 3 3) (hi : i ≤ 2 ^ 31)
    (hj : j ≤ 2 ^ 31) :
    ∃ S, conv2_full A k = .ok S ∧ ∀ r c, (S r c).Finite →
      |(S r c).val - correlateAt (A.map Fl.val) (k.map Fl.val) ((r.val : ℤ) - 1) ((c.val : ℤ) - 1)| ≤
        ((1 + F.u) ^ 9 - 1) * correlateAt ((A.map Fl.val).map fun x => |x|) ((k.map Fl.val).map fun x => |x|)
          ((r.val : ℤ) - 1) ((c.val : ℤ) - 1) +
        9 * (1 + F.u) ^ 8 * F.eta := by
  have hc : ∀ (r : Fin (i + 2)) (c : Fin (j + 2)), _ := fun r c =>
    Fl.convCell_err A k ((r.val : ℤ) - 1) ((c.val : ℤ) - 1) hi hj (by omega)
      (by have := r.2; omega) (by omega) (by have := c.2; omega)
  choose f hf1 hf2 using hc
  refine ⟨.of f, ?_, hf2⟩
  rw [conv2_full_cells A k (by unfold sizeMod; omega) (by unfold sizeMod; omega)]
  exact fill_eq (g := fun it jt => convCell A k ((it : ℤ) - 1) ((jt : ℤ) - 1)) (F := .of f) _
    (fun r c => hf1 r c)

/-- C77: the same for `conv2_valid`; all its windows lie inside the matrix. -/
theorem C77_conv2_valid_error {m : Nat} (A : Mat (Fl F) (m + 2) (m + 2)) (k : Mat (Fl F) 3 3)
    (hm : m + 2 ≤ 2 ^ 31) :
    ∃ V, conv2_valid A k = .ok V ∧ ∀ r c : Fin m, (V r c).Finite →
      |(V r c).val - ∑ u : Fin 3, ∑ v : Fin 3,
          (k u v).val * (A ⟨r.val + u.val, by omega⟩ ⟨c.val + v.val, by omega⟩).val| ≤
        ((1 + F.u) ^ 9 - 1) * (∑ u : Fin 3, ∑ v : Fin 3,
          |(k u v).val| * |(A ⟨r.val + u.val, by omega⟩ ⟨c.val + v.val, by omega⟩).val|) +
        9 * (1 + F.u) ^ 8 * F.eta := by
  obtain ⟨S, hS, h⟩ := C77_conv2_error A k hm hm
  obtain ⟨V, hV, hVS⟩ := (C49_conv2_valid_any A k).2 S hS
  refine ⟨V, hV, fun r c hf => ?_⟩
  rw [hVS r c] at hf ⊢
  have := h _ _ hf
  have key : ∀ (B : Mat ℝ (m + 2) (m + 2)) (l : Mat ℝ 3 3),
      correlateAt B l ((r.val + 1 : Nat) : ℤ) ((c.val + 1 : Nat) : ℤ) =
      ∑ u : Fin 3, ∑ v : Fin 3, l u v * B ⟨r.val + u.val, by omega⟩ ⟨c.val + v.val, by omega⟩ := by
    intro B l
    unfold correlateAt
    refine Finset.sum_congr rfl fun u _ => Finset.sum_congr rfl fun v _ => ?_
    congr 1
    have e1 : ((r.val + 1 : Nat) : ℤ) + u.val - 1 = ((r.val + u.val : Nat) : ℤ) := by
      push_cast; ring
    have e2 : ((c.val + 1 : Nat) : ℤ) + v.val - 1 = ((c.val + v.val : Nat) : ℤ) := by
      push_cast; ring
    rw [e1, e2]
    exact padded_fin B ⟨r.val + u.val, by omega⟩ ⟨c.val + v.val, by omega⟩
  rw [key, key] at this
  exact this

/-- A box filter on a 2x2 matrix: 16777216 + 1 rounds to 16777216. -/
example : conv2 (!![Fl.ofInt 16777216, Fl.ofInt 1; Fl.ofInt 2, Fl.ofInt 3] : Mat (Fl binary32) 2 2)
    !![Fl.ofInt 1, Fl.ofInt 1, Fl.ofInt 1; Fl.ofInt 1, Fl.ofInt 1, Fl.ofInt 1;
      Fl.ofInt 1, Fl.ofInt 1, Fl.ofInt 1] =
    .ok !![Fl.ofInt 16777220, Fl.ofInt 16777220; Fl.ofInt 16777220, Fl.ofInt 16777220] := by
  decide +kernel

end MatrixLibs
