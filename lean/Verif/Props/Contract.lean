import Verif.Proof.ContractDet
import Verif.Proof.ContractLu
import Verif.Proof.SimHom
import Verif.Proof.FloatMono
import Verif.Props.FloatRange
import Verif.Props.FloatConv
import Verif.Props.FloatInv

/-!
# Property C143: contraction to fused multiply-adds

`Fused o` are floating point elements of which sums and differences with a product are evaluated with a single rounding
wherever `o` says so; `get` is the value of such an element.
-/

namespace MatrixLibs

set_option linter.unusedSectionVars false

variable {F : Fmt} {o : Ex F → Fuse} {r c n m p : Nat}

/-- The values of the elements. -/
abbrev Mat.get (A : Mat (Fused o) r c) : Mat (Fl F) r c := A.map Fused.get

namespace Fused

theorem mult_eq (A : Mat (Fused o) n m) (B : Mat (Fused o) m p) :
    mult A B = .ok (.of fun a b =>
      (Ex.total ((List.finRange m).map fun k => Ex.mul (A a k) (B k b)) : Fused o)) := by
  refine (mult_elementwise A B).eq_ok fun a b => ?_
  show dotFrom A B _ a b = _
  unfold dotFrom
  rw [forUp_foldlM]
  rw [foldlM_ok (List.finRange m) _ _ (fun (s : Fused o) k => (Ex.add s (Ex.mul (A a k) (B k b)) : Fused o)) (by
    intro s k
    rw [rd_fin, rd_fin]
    rfl)]
  exact congrArg Except.ok (List.foldl_map (f := fun k => Ex.mul (A a k) (B k b)) (g := Ex.add)).symm

/-- Nothing is contracted. -/
theorem hom_none (h : ∀ x, o x = .none) : HomRing (Fused.get (o := o)) where
  init := rfl
  zero := rfl
  one := rfl
  minusOne := rfl
  add a b _ := by
    show (Except.ok ((Ex.eval o a).add (Ex.eval o b)) : Res (Fl F)) = .ok (Ex.eval o (Ex.add a b))
    exact congrArg Except.ok (Ex.eval_add_none o (h _)).symm
  sub a b _ := by
    show (Except.ok ((Ex.eval o a).sub (Ex.eval o b)) : Res (Fl F)) = .ok (Ex.eval o (Ex.sub a b))
    exact congrArg Except.ok (Ex.eval_sub_none o (h _)).symm
  mul a b _ := rfl

end Fused

/-! ## What contraction is -/

/-- C143: the fused multiply-add of finite numbers is the number nearest to the exact `a*b + c`. -/
theorem C143_fma (a b c : Fl F) (ha : a.Finite) (hb : b.Finite) (hc : c.Finite) :
    Fl.Rounded (a.val * b.val + c.val) (a.fma b c) := Fl.fma_rounded ha hb hc

/-- C143: if nothing is contracted, the results are those of the other claims. -/
theorem C143_none (h : ∀ x, o x = .none) : Commutes (Fused.get (o := o)) := (Fused.hom_none h).commutes

/-- 4097 * 4097 - 4096 * 4098 is 1; rounding the products first makes it 0, one fused operation makes it 1. -/
example : (Fl.ofInt 4097 : Fl binary32).fma (Fl.ofInt 4097) ((Fl.ofInt 4096).mul (Fl.ofInt 4098)).neg = Fl.ofInt 1 ∧
    (((Fl.ofInt 4097 : Fl binary32).mul (Fl.ofInt 4097)).add ((Fl.ofInt 4096).mul (Fl.ofInt 4098)).neg) =
      Fl.ofInt 0 := by
  decide +kernel

/-! ## Functions with nothing to contract -/

/-- C143: sums and differences of matrices in memory, and products and quotients by a scalar of any matrix, are those
of the other claims. -/
theorem C143_elementwise (handled : Option Exc) (id id' : Fin r → Fin c → Nat) (k : Nat) (A B : Mat (Fl F) r c)
    (x : Fl F) (M : Mat (Fused o) r c) (y : Fused o) :
    (opAdd (Fused.load (o := o) id A) (Fused.load id' B)).map Mat.get = opAdd A B ∧
    (opSub (Fused.load (o := o) id A) (Fused.load id' B)).map Mat.get = opSub A B ∧
    (opAddScalar (Fused.load (o := o) id A) (Fused.mk k x)).map Mat.get = opAddScalar A x ∧
    (opSubScalar (Fused.load (o := o) id A) (Fused.mk k x)).map Mat.get = opSubScalar A x ∧
    (opMulScalar M y).map Mat.get = opMulScalar M.get y.get ∧
    (opDiv handled M y).map Mat.get = opDiv handled M.get y.get :=
  ⟨Fused.map_valMat (Fused.same_sum (Fused.load_is id A) (Fused.load_is id' B)),
    Fused.map_valMat (Fused.same_sub (Fused.load_is id A) (Fused.load_is id' B)),
    Fused.map_valMat (Fused.same_sumScalar (Fused.load_is id A) (Fused.mk_is k x)),
    Fused.map_valMat (Fused.same_subScalar (Fused.load_is id A) (Fused.mk_is k x)),
    Fused.map_valMat (Fused.same_multScalar (fun _ _ => rfl) rfl),
    Fused.map_valMat (Fused.same_div handled (fun _ _ => rfl) rfl)⟩

/-- C143: the mean of a matrix in memory, and determinants of order 1, 4 and above, are those of the other claims. -/
theorem C143_mean (id : Fin r → Fin c → Nat) (A : Mat (Fl F) r c) :
    (mean (Fused.load (o := o) id A)).map Fused.get = mean A :=
  Fused.map_val (Fused.same_mean (Fused.load_is id A)).val

theorem C143_det_general (id : Fin n → Fin n → Nat) (A : Mat (Fl F) n n) (hn : n ≠ 2 ∧ n ≠ 3) :
    (det (Fused.load (o := o) id A)).map Fused.get = det A :=
  Fused.map_val (Fused.same_det hn (Fused.load_is id A))

/-- C143: so are inverses of order 5 and above. -/
theorem C143_inv_general (handled : Option Exc) (id : Fin n → Fin n → Nat) (A : Mat (Fl F) n n) (hn : 5 ≤ n) :
    (inv handled (Fused.load (o := o) id A)).map Mat.get = inv handled A := by
  match n, hn, id, A with
  | n + 5, _, id, A => exact Fused.map_valMat (Fused.same_invN (by omega) handled (Fused.load_is id A))

/-- Not so for order 2: without contraction singular matrices are rejected (C86), but with the left product contracted the
determinant of the 2x2 matrix of which every element is 4097 is 1, and it is inverted. -/
theorem C143_inv2_singular_refuted :
    ∃ (o : Ex binary32 → Fuse) (A : Mat (Fl binary32) 2 2), A.map Fl.val = .of (fun _ _ => 4097) ∧
      (det (Fused.load (o := o) (fun _ _ => 0) A)).map Fused.get = .ok (Fl.ofInt 1) ∧
      (inv none (Fused.load (o := o) (fun _ _ => 0) A)).map Mat.get =
        .ok !![.ofInt 4097, .ofInt (-4097); .ofInt (-4097), .ofInt 4097] ∧
      inv none A = .error (.throws (.overflow_error "Divide by zero exception")) := by
  refine ⟨fun _ => .left, Mat.const (Fl.ofInt 4097), ?_, by decide +kernel, by decide +kernel, by decide +kernel⟩
  funext i j
  exact (Fl.val_ofInt_exact (F := binary32) 4097 (by decide)).2

/-! ## Products -/

/-- C143: a finite element of `A * B` has the error bound of C66, whichever sums are contracted, and comes from finite
rows and columns. -/
theorem C143_mul_error (A : Mat (Fused o) n m) (B : Mat (Fused o) m p) :
    ∃ P, opMul A B = .ok P ∧ ∀ a b, (P a b).get.Finite →
      (∀ k, (A a k).get.Finite ∧ (B k b).get.Finite) ∧
      |(P a b).get.val - ∑ k, (A a k).get.val * (B k b).get.val| ≤
        ((1 + F.u) ^ m - 1) * ∑ k, |(A a k).get.val| * |(B k b).get.val| +
          m * (1 + F.u) ^ (m - 1) * F.eta := by
  refine ⟨_, Fused.mult_eq A B, fun a b h => ?_⟩
  obtain ⟨h1, h2⟩ := Ex.total_err o _ h
  refine ⟨fun k => h1 _ (List.mem_map.mpr ⟨k, List.mem_finRange k, rfl⟩), ?_⟩
  rw [List.map_map, List.map_map, Fl.sum_finRange, Fl.sum_finRange, List.length_map, List.length_finRange] at h2
  have e : ∀ k, |(A a k).get.val| * |(B k b).get.val| = |(A a k).get.val * (B k b).get.val| := fun k =>
    (abs_mul _ _).symm
  simp only [e]
  exact h2

/-- C143: products of integer matrices are exact as in C69, whichever sums are contracted. -/
theorem C143_mul_int (A : Mat (Fused o) n m) (B : Mat (Fused o) m p) (X : Matrix (Fin n) (Fin m) ℤ)
    (Y : Matrix (Fin m) (Fin p) ℤ) (hA : ∀ i k, (A i k).get.Finite ∧ (A i k).get.val = X i k)
    (hB : ∀ k j, (B k j).get.Finite ∧ (B k j).get.val = Y k j)
    (hsum : ∀ i j, ∑ k, |X i k| * |Y k j| ≤ 2 ^ F.p) :
    ∃ P, opMul A B = .ok P ∧ ∀ i j, (P i j).get.Finite ∧ (P i j).get.val = ((X * Y) i j : ℤ) := by
  refine ⟨_, Fused.mult_eq A B, fun a b => ?_⟩
  have := Ex.total_int o (List.finRange m) (fun k => Ex.mul (A a k) (B k b)) (fun k => X a k * Y k b)
    (fun k _ => ⟨⟨(hA a k).1, (hB k b).1⟩, ?_⟩) ?_
  · rw [Fl.sum_finRange] at this
    rw [Matrix.mul_apply]
    exact this
  · show (A a k).get.val * (B k b).get.val = _
    rw [(hA a k).2, (hB k b).2, Int.cast_mul]
  · rw [Fl.sum_finRange]
    simp only [abs_mul]
    exact hsum a b

/-- Contraction matters: `[4096 4097] * [-4098 4097]^T` is exactly 1. It is computed as 1 if the second sum is
contracted with its product, and as 0 if not. -/
example : (opMul (!![Fused.mk 1 (.ofInt 4096), Fused.mk 2 (.ofInt 4097)] : Mat (Fused (F := binary32) fun _ => .right) 1 2)
    !![Fused.mk 3 (.ofInt (-4098)); Fused.mk 4 (.ofInt 4097)]).map (·.get) = .ok !![.ofInt 1] ∧
    (opMul (!![Fused.mk 1 (.ofInt 4096), Fused.mk 2 (.ofInt 4097)] : Mat (Fused (F := binary32) fun _ => .none) 1 2)
    !![Fused.mk 3 (.ofInt (-4098)); Fused.mk 4 (.ofInt 4097)]).map (·.get) = .ok !![.ofInt 0] := by
  decide +kernel

/-! ## Determinants -/

/-- C143: a finite 2x2 determinant has the error bound of C73, whichever products are contracted. -/
theorem C143_det2 (A : Mat (Fused o) 2 2) :
    ∃ d, det A = .ok d ∧ (d.get.Finite →
      |d.get.val - ((A 0 0).get.val * (A 1 1).get.val - (A 0 1).get.val * (A 1 0).get.val)| ≤
        ((1 + F.u) ^ 2 - 1) *
          (|(A 0 0).get.val| * |(A 1 1).get.val| + |(A 0 1).get.val| * |(A 1 0).get.val|) +
          2 * (1 + F.u) * F.eta) := by
  refine ⟨_, rfl, fun h => ?_⟩
  have := ((Ex.Tr.mul2 (o := o) (A 0 0) (A 1 1)).sub (Ex.Tr.mul2 (A 0 1) (A 1 0))).err h
  refine this.trans (le_of_eq ?_)
  show _ + (1 + F.u) * (F.eta + F.eta) = _
  rw [show (1 + F.u) * (F.eta + F.eta) = 2 * (1 + F.u) * F.eta by ring]
  rfl

/-- C143: a finite 3x3 determinant has the error bound of C73, whichever products are contracted. -/
theorem C143_det3 (A : Mat (Fused o) 3 3) :
    ∃ d, det A = .ok d ∧ (d.get.Finite →
      |d.get.val - (A.get.map Fl.val).det| ≤ ((1 + F.u) ^ 7 - 1) * perm3 A.get +
        6 * (1 + F.u) ^ 6 * (1 + |(A 2 0).get.val| + |(A 2 1).get.val| + |(A 2 2).get.val|) * F.eta) := by
  refine ⟨_, rfl, fun h => ?_⟩
  have hu := Fl.u_nonneg F
  have hη := Fl.eta_nonneg F
  have z0 := abs_nonneg (A 2 0).get.val
  have z1 := abs_nonneg (A 2 1).get.val
  have z2 := abs_nonneg (A 2 2).get.val
  have b0 : |(A 2 0).get.val| ≤ |(A 2 0).get.val| + |(A 2 1).get.val| + |(A 2 2).get.val| := by linarith
  have b1 : |(A 2 1).get.val| ≤ |(A 2 0).get.val| + |(A 2 1).get.val| + |(A 2 2).get.val| := by linarith
  have b2 : |(A 2 2).get.val| ≤ |(A 2 0).get.val| + |(A 2 1).get.val| + |(A 2 2).get.val| := by linarith
  have t1 := Ex.Tr.mul3 (o := o) (A 0 0) (A 1 1) (A 2 2) b2
  have t2 := Ex.Tr.mul3 (o := o) (A 0 1) (A 1 2) (A 2 0) b0
  have t3 := (Ex.Tr.mul3 (o := o) (A 0 2) (A 1 0) (A 2 1) b1).mono (show 2 ≤ 3 by omega)
  have t4 := (Ex.Tr.mul3 (o := o) (A 0 2) (A 1 1) (A 2 0) b0).mono (show 2 ≤ 4 by omega)
  have t5 := (Ex.Tr.mul3 (o := o) (A 0 1) (A 1 0) (A 2 2) b2).mono (show 2 ≤ 5 by omega)
  have t6 := (Ex.Tr.mul3 (o := o) (A 0 0) (A 1 2) (A 2 1) b1).mono (show 2 ≤ 6 by omega)
  have t := (((((t1.add t2).add t3).sub t4).sub t5).sub t6).err h
  rw [Matrix.det_fin_three]
  refine le_trans (le_of_eq ?_) (t.trans ?_)
  · show |_ - _| = |_ - _|
    congr 1
    simp only [Matrix.map_apply]
    show _ = _ - ((A 0 0).get.val * (A 1 1).get.val * (A 2 2).get.val +
      (A 0 1).get.val * (A 1 2).get.val * (A 2 0).get.val + (A 0 2).get.val * (A 1 0).get.val * (A 2 1).get.val -
      (A 0 2).get.val * (A 1 1).get.val * (A 2 0).get.val - (A 0 1).get.val * (A 1 0).get.val * (A 2 2).get.val -
      (A 0 0).get.val * (A 1 2).get.val * (A 2 1).get.val)
    have : ∀ a b c d : ℝ, c = d → a = b → a - c = b - d := fun a b c d e f => by rw [e, f]
    refine this _ _ _ _ ?_ rfl
    ring
  · refine add_le_add (le_of_eq ?_) ?_
    · congr 1
    · rw [← add_assoc, ← add_assoc]
      have hK : 0 ≤ (1 + F.u) * (1 + |(A 2 0).get.val| + |(A 2 1).get.val| + |(A 2 2).get.val|) * F.eta := by
        positivity
      have e : 6 * (1 + F.u) ^ 6 * (1 + |(A 2 0).get.val| + |(A 2 1).get.val| + |(A 2 2).get.val|) * F.eta =
          6 * (1 + F.u) ^ 5 *
            ((1 + F.u) * (1 + |(A 2 0).get.val| + |(A 2 1).get.val| + |(A 2 2).get.val|) * F.eta) := by ring
      rw [e]
      generalize (1 + F.u) * (1 + |(A 2 0).get.val| + |(A 2 1).get.val| + |(A 2 2).get.val|) * F.eta = K at *
      have q : ∀ k, k ≤ 5 → (1 + F.u) ^ k * K ≤ (1 + F.u) ^ 5 * K := fun k hk =>
        mul_le_mul_of_nonneg_right (pow_le_pow_right₀ (by linarith) hk) hK
      have q1 := q 1 (by omega)
      have q2 := q 2 (by omega)
      have q3 := q 3 (by omega)
      have q4 := q 4 (by omega)
      nlinarith

/-! ## Convolution -/

namespace Fused
variable {i j : Nat}

/-- One term of the correlation. -/
theorem convTerm_exact (A : Mat (Fused o) i j) (k : Mat (Fused o) 3 3) (u v : Fin 3) (a b : ℤ)
    (hi : i ≤ 2 ^ 31) (hj : j ≤ 2 ^ 31)
    (ha : -(2 ^ 31) ≤ a) (ha' : a < 2 ^ 32) (hb : -(2 ^ 31) ≤ b) (hb' : b < 2 ^ 32) :
    ∃ t : Fused o, convTerm A k u v (szOf a) (szOf b) = .ok t ∧
      Ex.exact o t = k.get.map Fl.val u v * padded (A.get.map Fl.val) a b := by
  unfold convTerm
  by_cases h : isOutOfRange i j (szToInt (szOf a)) (szToInt (szOf b)) = 0
  · rw [if_neg (not_not.mpr h)]
    rw [isOutOfRange_eq_zero, inRange_iff i (by omega) a ha ha',
      inRange_iff j (by omega) b hb hb'] at h
    obtain ⟨⟨⟨h1, h2⟩, h3⟩, ⟨h4, h5⟩, h6⟩ := h
    have hM : (sizeMod : ℤ) = 2 ^ 64 := by unfold sizeMod; norm_num
    have ea : szOf a = a.toNat := by
      unfold szOf; rw [Int.emod_eq_of_lt h1 (by rw [hM]; omega)]
    have eb : szOf b = b.toNat := by
      unfold szOf; rw [Int.emod_eq_of_lt h4 (by rw [hM]; omega)]
    rw [ea, eb, rd_fin, ok_bind, rd_eq (by omega) (by omega), ok_bind]
    refine ⟨_, rfl, ?_⟩
    unfold padded
    rw [dif_pos ⟨⟨h1, h2⟩, h4, h5⟩]
    rfl
  · rw [if_pos h]
    refine ⟨_, rfl, ?_⟩
    rw [isOutOfRange_eq_zero, inRange_iff i (by omega) a ha ha',
      inRange_iff j (by omega) b hb hb'] at h
    have hp : padded (A.get.map Fl.val) a b = 0 := by
      unfold padded
      rw [dif_neg]
      omega
    rw [hp, mul_zero]
    exact Fl.zero_val

theorem accumVal_eq (ts : List (Fused o)) : ∀ v : Fused o,
    accumVal (ts.map fun t => (.ok t : Res (Fused o))) v = .ok (ts.foldl Ex.add v) := by
  induction ts with
  | nil => intro v; rfl
  | cons t ts ih =>
    intro v
    exact ih (Ex.add v t)

/-- One element of a convolution. -/
theorem convCell_err (A : Mat (Fused o) i j) (k : Mat (Fused o) 3 3) (a b : ℤ)
    (hi : i ≤ 2 ^ 31) (hj : j ≤ 2 ^ 31)
    (ha : -1 ≤ a) (ha' : a + 1 < 2 ^ 32) (hb : -1 ≤ b) (hb' : b + 1 < 2 ^ 32) :
    ∃ y, convCell A k a b = .ok y ∧ (y.get.Finite →
      |y.get.val - correlateAt (A.get.map Fl.val) (k.get.map Fl.val) a b| ≤
        ((1 + F.u) ^ 9 - 1) *
          correlateAt ((A.get.map Fl.val).map fun x => |x|) ((k.get.map Fl.val).map fun x => |x|) a b +
          9 * (1 + F.u) ^ 8 * F.eta) := by
  obtain ⟨t1, q1, r1⟩ := convTerm_exact A k 0 0 (a - 1) (b - 1) hi hj (by omega) (by omega) (by omega) (by omega)
  obtain ⟨t2, q2, r2⟩ := convTerm_exact A k 0 1 (a - 1) b hi hj (by omega) (by omega) (by omega) (by omega)
  obtain ⟨t3, q3, r3⟩ := convTerm_exact A k 0 2 (a - 1) (b + 1) hi hj (by omega) (by omega) (by omega) (by omega)
  obtain ⟨t4, q4, r4⟩ := convTerm_exact A k 1 0 a (b - 1) hi hj (by omega) (by omega) (by omega) (by omega)
  obtain ⟨t5, q5, r5⟩ := convTerm_exact A k 1 1 a b hi hj (by omega) (by omega) (by omega) (by omega)
  obtain ⟨t6, q6, r6⟩ := convTerm_exact A k 1 2 a (b + 1) hi hj (by omega) (by omega) (by omega) (by omega)
  obtain ⟨t7, q7, r7⟩ := convTerm_exact A k 2 0 (a + 1) (b - 1) hi hj (by omega) (by omega) (by omega) (by omega)
  obtain ⟨t8, q8, r8⟩ := convTerm_exact A k 2 1 (a + 1) b hi hj (by omega) (by omega) (by omega) (by omega)
  obtain ⟨t9, q9, r9⟩ := convTerm_exact A k 2 2 (a + 1) (b + 1) hi hj (by omega) (by omega) (by omega) (by omega)
  have e : convTerms A k a b = [t1, t2, t3, t4, t5, t6, t7, t8, t9].map fun t => (.ok t : Res (Fused o)) := by
    unfold convTerms
    simp only [List.map_cons, List.map_nil]
    rw [← q1, ← q2, ← q3, ← q4, ← q5, ← q6, ← q7, ← q8, ← q9]
    rfl
  refine ⟨_, by unfold convCell; rw [e, accumVal_eq], fun hf => ?_⟩
  have h := Ex.total_pairs o [(t1, k.get.map Fl.val 0 0 * padded (A.get.map Fl.val) (a - 1) (b - 1)),
    (t2, k.get.map Fl.val 0 1 * padded (A.get.map Fl.val) (a - 1) b),
    (t3, k.get.map Fl.val 0 2 * padded (A.get.map Fl.val) (a - 1) (b + 1)),
    (t4, k.get.map Fl.val 1 0 * padded (A.get.map Fl.val) a (b - 1)),
    (t5, k.get.map Fl.val 1 1 * padded (A.get.map Fl.val) a b),
    (t6, k.get.map Fl.val 1 2 * padded (A.get.map Fl.val) a (b + 1)),
    (t7, k.get.map Fl.val 2 0 * padded (A.get.map Fl.val) (a + 1) (b - 1)),
    (t8, k.get.map Fl.val 2 1 * padded (A.get.map Fl.val) (a + 1) b),
    (t9, k.get.map Fl.val 2 2 * padded (A.get.map Fl.val) (a + 1) (b + 1))] (by
      intro q hq
      simp only [List.mem_cons, List.not_mem_nil, or_false] at hq
      rcases hq with rfl | rfl | rfl | rfl | rfl | rfl | rfl | rfl | rfl <;> assumption) hf
  rw [Fl.correlateAt_nine, Fl.correlateAt_nine]
  refine le_trans (le_of_eq rfl) (h.trans (le_of_eq ?_))
  simp only [abs_mul, Fl.abs_padded, List.map_cons, List.map_nil, List.length_cons, List.length_nil]
  norm_num

end Fused

/-- C143: a finite element of `conv2` has the error bound of C77, whichever sums are contracted. -/
theorem C143_conv2_error {i j : Nat} (A : Mat (Fused o) i j) (k : Mat (Fused o) 3 3) (hi : i ≤ 2 ^ 31)
    (hj : j ≤ 2 ^ 31) :
    ∃ S, conv2 A k = .ok S ∧ ∀ r c, (S r c).get.Finite →
      |(S r c).get.val - correlateAt (A.get.map Fl.val) (k.get.map Fl.val) r.val c.val| ≤
        ((1 + F.u) ^ 9 - 1) *
          correlateAt ((A.get.map Fl.val).map fun x => |x|) ((k.get.map Fl.val).map fun x => |x|) r.val c.val +
        9 * (1 + F.u) ^ 8 * F.eta := by
  have hc : ∀ (r : Fin i) (c : Fin j), _ := fun r c =>
    Fused.convCell_err A k r.val c.val hi hj (by omega) (by have := r.2; omega) (by omega)
      (by have := c.2; omega)
  choose f hf1 hf2 using hc
  refine ⟨.of f, ?_, hf2⟩
  rw [conv2_cells A k (by unfold sizeMod; omega) (by unfold sizeMod; omega)]
  exact fill_eq (g := fun it jt => convCell A k it jt) (F := .of f) _ (fun r c => hf1 r c)

/-- C143: the same for `conv2_full`. -/
theorem C143_conv2_full_error {i j : Nat} (A : Mat (Fused o) i j) (k : Mat (Fused o) 3 3) (hi : i ≤ 2 ^ 31)
    (hj : j ≤ 2 ^ 31) :
    ∃ S, conv2_full A k = .ok S ∧ ∀ r c, (S r c).get.Finite →
      |(S r c).get.val - correlateAt (A.get.map Fl.val) (k.get.map Fl.val) ((r.val : ℤ) - 1) ((c.val : ℤ) - 1)| ≤
        ((1 + F.u) ^ 9 - 1) *
          correlateAt ((A.get.map Fl.val).map fun x => |x|) ((k.get.map Fl.val).map fun x => |x|)
            ((r.val : ℤ) - 1) ((c.val : ℤ) - 1) +
        9 * (1 + F.u) ^ 8 * F.eta := by
  have hc : ∀ (r : Fin (i + 2)) (c : Fin (j + 2)), _ := fun r c =>
    Fused.convCell_err A k ((r.val : ℤ) - 1) ((c.val : ℤ) - 1) hi hj (by omega)
      (by have := r.2; omega) (by omega) (by have := c.2; omega)
  choose f hf1 hf2 using hc
  refine ⟨.of f, ?_, hf2⟩
  rw [conv2_full_cells A k (by unfold sizeMod; omega) (by unfold sizeMod; omega)]
  exact fill_eq (g := fun it jt => convCell A k ((it : ℤ) - 1) ((jt : ℤ) - 1)) (F := .of f) _
    (fun r c => hf1 r c)

/-- C143: the same for `conv2_valid`; all its windows lie inside the matrix. -/
theorem C143_conv2_valid_error {m : Nat} (A : Mat (Fused o) (m + 2) (m + 2)) (k : Mat (Fused o) 3 3)
    (hm : m + 2 ≤ 2 ^ 31) :
    ∃ V, conv2_valid A k = .ok V ∧ ∀ r c : Fin m, (V r c).get.Finite →
      |(V r c).get.val - ∑ u : Fin 3, ∑ v : Fin 3,
          (k u v).get.val * (A ⟨r.val + u.val, by omega⟩ ⟨c.val + v.val, by omega⟩).get.val| ≤
        ((1 + F.u) ^ 9 - 1) * (∑ u : Fin 3, ∑ v : Fin 3,
          |(k u v).get.val| * |(A ⟨r.val + u.val, by omega⟩ ⟨c.val + v.val, by omega⟩).get.val|) +
        9 * (1 + F.u) ^ 8 * F.eta := by
  obtain ⟨S, hS, h⟩ := C143_conv2_error A k hm hm
  obtain ⟨V, hV, hVS⟩ := (C49_conv2_valid_any A k).2 S hS
  refine ⟨V, hV, fun r c hf => ?_⟩
  rw [hVS r c] at hf ⊢
  have := h _ _ hf
  have key : ∀ (B : Mat ℝ (m + 2) (m + 2)) (l : Mat ℝ 3 3),
      correlateAt B l ((r.val + 1 : Nat) : ℤ) ((c.val + 1 : Nat) : ℤ) =
      ∑ u : Fin 3, ∑ v : Fin 3, l u v * B ⟨r.val + u.val, by omega⟩ ⟨c.val + v.val, by omega⟩ := by
    intro B l
    unfold correlateAt
    refine Finset.sum_congr rfl fun u _ => Finset.sum_congr rfl fun v _ => ?_
    congr 1
    have e1 : ((r.val + 1 : Nat) : ℤ) + u.val - 1 = ((r.val + u.val : Nat) : ℤ) := by
      push_cast; ring
    have e2 : ((c.val + 1 : Nat) : ℤ) + v.val - 1 = ((c.val + v.val : Nat) : ℤ) := by
      push_cast; ring
    rw [e1, e2]
    exact padded_fin B ⟨r.val + u.val, by omega⟩ ⟨c.val + v.val, by omega⟩
  rw [key, key] at this
  exact this

/-! ## Variance -/

namespace Fl
theorem fma_sq_nonNeg {a s : Fl F} (ha : a ≠ .nan) (hs : s.NonNeg) : (a.fma a s).NonNeg := by
  match a, s, ha, hs with
  | .fin u M hM, .fin w K hK, _, .inl ⟨h1, h2⟩ =>
    exact (fma_rounded (a := .fin u M hM) (b := .fin u M hM) trivial trivial h1).nonneg
      (add_nonneg (mul_self_nonneg _) h2)
  | .fin u M hM, .inf b, _, hs => exact hs
  | .inf u, s, _, hs => exact (sq_nonNeg (.inf u) (by intro e; cases e)).add hs
end Fl

namespace Ex
theorem total_sq_nonNeg (l : List (Ex F)) (h : ∀ x ∈ l, x.eval o ≠ .nan) :
    ((total (l.map fun x => mul x x)).eval o).NonNeg := by
  induction l using List.reverseRecOn with
  | nil => exact Fl.zero_nonNeg
  | append_singleton l x ih =>
    rw [List.map_append, List.map_singleton, total_concat]
    have ih := ih fun y hy => h y (List.mem_append_left _ hy)
    have hx := h x (List.mem_append_right _ (List.mem_singleton_self x))
    rcases eval_add o (total (l.map fun x => mul x x)) (mul x x) with e | ⟨a, b, e, -⟩ | ⟨a, b, e, h⟩
    · rw [e]; exact ih.add (Fl.sq_nonNeg _ hx)
    · exact absurd e (total_settled _ a b)
    · cases e
      rw [h]
      exact Fl.fma_sq_nonNeg hx ih
end Ex

namespace Fused

def devStep (m s x : Fused o) : Res (Fused o) := .ok (Ex.add s (Ex.mul (Ex.sub x m) (Ex.sub x m)))

theorem var_eq {m : Fused o} (A : Mat (Fused o) r c) (h : mean A = .ok m) :
    var A = .ok (Ex.div (Ex.total ((rowMajor A).map fun x => Ex.mul (Ex.sub x m) (Ex.sub x m)))
      (Ex.val 0 (Fl.ofInt (r * c : Nat))) : Fused o) := by
  unfold var
  rw [h, ok_bind]
  have : (fun (it : Nat) (result : Fused o) => forUp 0 c result fun jt result => (do
      let d ← CScalar.sub (← rd A it jt) m
      let e ← CScalar.sub (← rd A it jt) m
      CScalar.add result (← CScalar.mul d e))) =
      fun it result => forUp 0 c result fun jt result => (do
        devStep m result (← rd A it jt)) := by
    funext it s
    congr 1
    funext jt s
    cases rd A it jt with
    | error e => rfl
    | ok v => rfl
  rw [this, forElems, foldlM_ok (rowMajor A) (CScalar.ofInt 0) (devStep m)
    (fun s x => (Ex.add s (Ex.mul (Ex.sub x m) (Ex.sub x m)) : Fused o)) (fun _ _ => rfl)]
  exact congrArg (fun z => Except.ok (Ex.div z (Ex.val 0 (Fl.ofInt (r * c : Nat)))))
    (List.foldl_map (f := fun x => Ex.mul (Ex.sub x m) (Ex.sub x m)) (g := Ex.add)).symm
end Fused

/-- C143: the variance of a finite matrix in memory is never negative and never NaN, and the standard deviation is its
correctly rounded square root, whichever sums are contracted (compare C71). -/
theorem C143_var (id : Fin r → Fin c → Nat) (A : Mat (Fl F) r c) (h0 : r * c ≠ 0) (hn : r * c ≤ 2 ^ F.p)
    (hA : ∀ i j, (A i j).Finite) :
    ∃ v s, (var (Fused.load (o := o) id A)).map Fused.get = .ok v ∧
      (stddev (Fused.load (o := o) id A)).map Fused.get = .ok s ∧
      ((v.Finite ∧ 0 ≤ v.val ∧ Fl.Rounded (Real.sqrt v.val) s) ∨ (v = .inf false ∧ s = .inf false)) := by
  have hfin : ∀ x ∈ rowMajor A, x.Finite := fun x hx => by
    obtain ⟨i, j, rfl⟩ := (mem_rowMajor A x).mp hx
    exact hA i j
  obtain ⟨n1, n2⟩ := Fl.val_ofInt_exact (F := F) (r * c : Nat) (by rwa [Int.natAbs_natCast])
  rw [Int.cast_natCast] at n2
  have hN : (0 : ℝ) < (r * c : Nat) := by exact_mod_cast Nat.pos_of_ne_zero h0
  have hN0 : (Fl.ofInt (r * c : Nat) : Fl F).val ≠ 0 := by rw [n2]; exact hN.ne'
  rcases Fused.same_mean (Fused.load_is (o := o) id A) with ⟨m, μ, e1, hμ, hm1, hm2⟩ | ⟨e, -, h⟩
  swap
  · rw [Fl.mean_eq] at h; cases h
  have hv := Fused.var_eq _ e1
  have hμ' : μ ≠ .nan := by
    rw [Fl.mean_eq] at hμ
    rw [← Except.ok.inj hμ]
    exact Fl.div_ne_nan (Fl.fsum_ne_nan _ hfin) n1 hN0
  have hs : (Ex.eval o (Ex.total ((rowMajor (Fused.load (o := o) id A)).map fun x =>
      Ex.mul (Ex.sub x m) (Ex.sub x m)))).NonNeg := by
    have := Ex.total_sq_nonNeg (o := o) ((rowMajor (Fused.load (o := o) id A)).map fun x => Ex.sub x m)
      fun y hy => by
        obtain ⟨x, hx, rfl⟩ := List.mem_map.mp hy
        obtain ⟨i, j, rfl⟩ := (mem_rowMajor _ x).mp hx
        rw [Ex.eval_sub_settled o (Fused.load_is id A i j).1 hm1]
        show Fl.sub (A i j) m.get ≠ _
        rw [hm2]
        exact Fl.sub_ne_nan' (hA i j) hμ'
    exact Eq.mp (congrArg (fun l => (Ex.eval o (Ex.total l)).NonNeg)
      (List.map_map (f := fun x => Ex.sub x m) (g := fun x => Ex.mul x x))) this
  generalize (Ex.total ((rowMajor (Fused.load (o := o) id A)).map fun x =>
      Ex.mul (Ex.sub x m) (Ex.sub x m))) = S at hv hs
  have hd := (hs.div_count (Nat.pos_of_ne_zero h0)).resolve_right (Fl.div_ne_nan (Fl.NonNeg.ne_nan hs) n1 hN0)
  refine ⟨(Ex.eval o S).div (Fl.ofInt (r * c : Nat)), ((Ex.eval o S).div (Fl.ofInt (r * c : Nat))).sqrt, ?_, ?_, ?_⟩
  · rw [hv]; rfl
  · unfold stddev; rw [hv]; rfl
  rcases hd with ⟨h1, h2⟩ | h
  · exact .inl ⟨h1, h2, Fl.sqrt_rounded h1 h2⟩
  · right
    rw [h]
    exact ⟨rfl, rfl⟩

/-- The variance of 5001, 5001, 9097 and 901 is 8396803; without contraction it is computed as 8396802. -/
example : (var (Fused.load (o := fun _ => .right) (fun _ _ => 0)
      (!![.ofInt 5001, .ofInt 5001; .ofInt 9097, .ofInt 901] : Mat (Fl binary32) 2 2))).map Fused.get =
        .ok (.ofInt 8396803) ∧
    var (!![.ofInt 5001, .ofInt 5001; .ofInt 9097, .ofInt 901] : Mat (Fl binary32) 2 2) = .ok (.ofInt 8396802) := by
  decide +kernel

/-! ## Factorisations -/

/-- C143: `lu` of a matrix in memory returns or throws the divide-by-zero exception, and finite factors have the backward
error of C74, whichever sums are contracted. -/
theorem C143_lu_backward (id : Fin n → Fin n → Nat) (A : Mat (Fl F) n n) :
    lu (Fused.load (o := o) id A) = .error (.throws divideByZeroException) ∨
    ∃ L U : Mat (Fused o) n n, lu (Fused.load id A) = .ok (L, U) ∧
      ((∀ i j, (L i j).get.Finite) → (∀ i j, (U i j).get.Finite) →
        (∀ i, (L i i).get.val = 1) ∧ (∀ i j, i < j → (L i j).get.val = 0) ∧ (∀ i j, j < i → (U i j).get.val = 0) ∧
        ∀ i j, |((L.get.map Fl.val) * (U.get.map Fl.val)) i j - (A i j).val| ≤
          ((1 + F.u) ^ n - 1) * ∑ k, |(L i k).get.val| * |(U k j).get.val| +
            (n + |(U j j).get.val|) * (1 + F.u) ^ n * F.eta) := by
  have hc := Fused.wp_lu (Fused.load (o := o) id A)
  cases h : lu (Fused.load (o := o) id A) with
  | error e => rw [h] at hc; exact .inl (congrArg _ hc)
  | ok s =>
    rw [h, wp_ok] at hc
    refine .inr ⟨s.1, s.2, rfl, fun hL hU => ?_⟩
    have hv := hc.vals (fun i j => (Fused.load_is id A i j).1) hU
    refine ⟨hv.Ldiag, hv.Lupper, fun i j => hv.Ulower i j, fun i j => ?_⟩
    rw [Matrix.mul_apply]
    exact hv.backward hL hU i j

/-- C143: `chol` of a matrix in memory returns, and finite factors have the backward error of C75, whichever sums are
contracted. -/
theorem C143_chol_backward (id : Fin n → Fin n → Nat) (A : Mat (Fl F) n n) :
    ∃ L : Mat (Fused o) n n, chol (Fused.load id A) = .ok L ∧ ((∀ i j, (L i j).get.Finite) →
      (∀ i j, i < j → (L i j).get.val = 0) ∧ (∀ i, 0 ≤ (L i i).get.val) ∧
      ∀ i j, j ≤ i → |((L.get.map Fl.val) * (L.get.map Fl.val).transpose) i j - (A i j).val| ≤
        ((1 + F.u) ^ (n + 2) - 1) * ∑ k, |(L i k).get.val| * |(L j k).get.val| +
          (n + |(L j j).get.val|) * (1 + F.u) ^ n * F.eta) := by
  have hc := Fused.wp_chol (Fused.load (o := o) id A)
  cases h : chol (Fused.load (o := o) id A) with
  | error e => rw [h] at hc; exact hc.elim
  | ok L =>
    rw [h, wp_ok] at hc
    have hv := Fused.CholCells.vals (fun i j => (Fused.load_is id A i j).1) hc
    refine ⟨L, rfl, fun hL => ⟨hv.upper, fun i => hv.diag_nonneg i (hL i i), fun i j hji => ?_⟩⟩
    rw [Matrix.mul_apply]
    exact hv.backward i j hji (hL i j) (hL j j)

/-- Factors of matrices that meet the hypotheses. -/
example : (lu (Fused.load (o := fun _ => .right) (fun _ _ => 0)
      (!![.ofInt 3, .ofInt 1; .ofInt 1, .ofInt 1] : Mat (Fl binary32) 2 2))).map
        (fun q => (q.1.map Fused.get, q.2.map Fused.get)) =
    .ok (!![Fl.ofInt 1, Fl.ofInt 0; (Fl.ofInt 11184811).div (Fl.ofInt 33554432), Fl.ofInt 1],
      !![Fl.ofInt 3, Fl.ofInt 1; Fl.ofInt 0, (Fl.ofInt 11184810).div (Fl.ofInt 16777216)]) := by
  decide +kernel
example : (chol (Fused.load (o := fun _ => .right) (fun _ _ => 0)
      (!![.ofInt 4, .ofInt 2; .ofInt 2, .ofInt 2] : Mat (Fl binary32) 2 2))).map (·.map Fused.get) =
    .ok !![Fl.ofInt 2, Fl.ofInt 0; Fl.ofInt 1, Fl.ofInt 1] := by
  decide +kernel

end MatrixLibs
