import Verif.Proof.FloatTwice
import Verif.Props.Float
import Verif.Model.Det
import Verif.Model.Stats

/-!
# Property C142: `float` operations carried out in `double`
-/

namespace MatrixLibs

set_option linter.unusedSectionVars false

variable {F G : Fmt} {r c n m p : Nat}

/-- C142: carrying out every single operation in a format of more than twice the precision and range, and rounding
again, is the same as carrying it out in the format of the elements, bit for bit. -/
theorem C142_via (W : F.Wide G) : viaScalar F G = floatScalar F := by
  unfold viaScalar floatScalar
  congr 1
  · funext a b; exact congrArg _ (Fl.conv_add W a b)
  · funext a b; exact congrArg _ (Fl.conv_sub W a b)
  · funext a b; exact congrArg _ (Fl.conv_mul W a b)
  · funext a b; exact congrArg _ (Fl.conv_div W a b)
  · funext a; exact congrArg _ (Fl.conv_neg W a)
  · funext a b; exact (Fl.conv_key W a b).1
  · funext a b; exact (Fl.conv_key W a b).2
  · funext a; exact congrArg _ (Fl.conv_abs W a)
  · funext a; exact congrArg _ (Fl.conv_sqrt W a)
  · funext a n; exact congrArg _ (Fl.conv_div W a _)

/-- C142: in particular for `float` and `double`: `stddev` and `chol` of `float` matrices do not depend on whether
`sqrt` is the function for `float` or the one for `double`. -/
theorem C142_sqrt (A : Mat (Fl binary32) n n) (B : Mat (Fl binary32) r c) :
    @chol _ (viaScalar binary32 binary64) n A = chol A ∧
    @stddev _ (viaScalar binary32 binary64) r c B = stddev B := by
  rw [C142_via wide_float_double]
  exact ⟨rfl, rfl⟩

/-- C142: ... and no function depends on whether each operation is evaluated in `float` or `double`. -/
theorem C142_each_operation (handled : Option Exc) (A : Mat (Fl binary32) n m) (B : Mat (Fl binary32) m p)
    (C : Mat (Fl binary32) n n) :
    @opMul _ _ (viaScalar binary32 binary64) n m p A B = opMul A B ∧
    @det _ (viaScalar binary32 binary64) n C = det C ∧
    @inv _ _ (viaScalar binary32 binary64) handled n C = inv handled C ∧
    @lu _ _ (viaScalar binary32 binary64) n C = lu C ∧
    @mean _ (viaScalar binary32 binary64) n m A = mean A ∧
    @var _ (viaScalar binary32 binary64) n m A = var A := by
  rw [C142_via wide_float_double]
  exact ⟨rfl, rfl, rfl, rfl, rfl, rfl⟩

/-- C142: the conversion meant here rounds the value to nearest, and to the wider format it is exact. -/
theorem C142_conv (a : Fl F) :
    (a.Finite → Fl.Rounded a.val (a.conv G)) ∧
    (F.Wide G → ((a.conv G).Finite ↔ a.Finite) ∧ (a.conv G).val = a.val) := by
  constructor
  · intro ha
    match a, ha with
    | .fin s N h, _ =>
      have hu := Fl.unit_posR F
      unfold Fl.conv Fl.val
      refine Fl.rounded_pack ?_ fun h0 => ?_
      · have := Fl.roundQuot_nearest (F := G) (a := N * G.unit) (Fl.unit_pos F)
        rw [abs_div, Fl.abs_signed, abs_of_pos hu, div_mul_eq_mul_div]
        rwa [Nat.cast_mul] at this
      · have hN : (0 : ℝ) < N := by
          rcases Nat.eq_zero_or_pos N with rfl | hN
          · exfalso; apply h0; cases s <;> simp [Fl.signed]
          · exact_mod_cast hN
        rw [div_neg_iff]
        cases s <;> simp [Fl.signed]
        exact Or.inr ⟨by exact_mod_cast hN, by exact_mod_cast hu⟩
  · intro W
    cases a with
    | nan => exact ⟨Iff.rfl, rfl⟩
    | inf s => exact ⟨Iff.rfl, rfl⟩
    | fin s N h =>
      rw [Fl.conv_up W]
      refine ⟨Iff.rfl, ?_⟩
      unfold Fl.val
      have hu := Fl.unit_posR F
      rw [Fl.Wide.unit W]
      cases s <;> simp only [Fl.signed] <;> push_cast <;> field_simp

/-- C142: converting a matrix to the wider format and back gives the same matrix. -/
theorem C142_roundtrip (W : F.Wide G) (A : Mat (Fl F) r c) : (A.map (Fl.conv G)).map (Fl.conv F) = A := by
  ext i j
  exact Fl.conv_conv W _

/-- C142: sums and differences of matrices may be computed in the wider format as a whole. -/
theorem C142_add_sub (W : F.Wide G) (A B : Mat (Fl F) r c) (s : Fl F) :
    (opAdd (A.map (Fl.conv G)) (B.map (Fl.conv G))).map (·.map (Fl.conv F)) = opAdd A B ∧
    (opSub (A.map (Fl.conv G)) (B.map (Fl.conv G))).map (·.map (Fl.conv F)) = opSub A B ∧
    (opAddScalar (A.map (Fl.conv G)) (s.conv G)).map (·.map (Fl.conv F)) = opAddScalar A s ∧
    (opSubScalar (A.map (Fl.conv G)) (s.conv G)).map (·.map (Fl.conv F)) = opSubScalar A s := by
  unfold opAdd opSub opAddScalar opSubScalar
  simp only [Fl.sum_eq, Fl.sub_eq, Fl.sumScalar_eq, Fl.subScalar_eq, Except.map]
  refine ⟨?_, ?_, ?_, ?_⟩ <;> congr 1 <;> ext i j
  · exact Fl.conv_add W _ _
  · exact Fl.conv_sub W _ _
  · exact Fl.conv_add W _ _
  · exact Fl.conv_sub W _ _

/-- C142: ... and so may products and quotients by a scalar, and absolute values. -/
theorem C142_mul_div_scalar (W : F.Wide G) (handled : Option Exc) (A : Mat (Fl F) r c) (s : Fl F) :
    (opMulScalar (A.map (Fl.conv G)) (s.conv G)).map (·.map (Fl.conv F)) = opMulScalar A s ∧
    (opDiv handled (A.map (Fl.conv G)) (s.conv G)).map (·.map (Fl.conv F)) = opDiv handled A s ∧
    (abs (A.map (Fl.conv G))).map (·.map (Fl.conv F)) = abs A := by
  refine ⟨?_, ?_, ?_⟩
  · unfold opMulScalar
    simp only [Fl.multScalar_eq, Except.map]
    congr 1
    ext i j
    exact Fl.conv_mul W _ _
  · have hz : Fl.conv G (Fl.ofInt 0 : Fl F) = Fl.ofInt 0 := by
      rw [Fl.ofInt_zero', Fl.ofInt_zero', Fl.conv_up W]
      congr 1
      exact Nat.zero_mul _
    have h0 : (s.conv G).eq (Fl.ofInt 0) = s.eq (Fl.ofInt 0) := by
      rw [← hz]
      exact (Fl.conv_key W s _).1
    cases hs : s.eq (Fl.ofInt 0) with
    | false =>
      have e1 := (div_elementwise handled A s hs).eq_ok (R := .of fun i j => (A i j).div s) fun _ _ => rfl
      have e2 := (div_elementwise handled (A.map (Fl.conv G)) (s.conv G) (h0.trans hs)).eq_ok
        (R := .of fun i j => ((A i j).conv G).div (s.conv G)) fun _ _ => rfl
      unfold opDiv
      rw [e1, e2]
      simp only [Except.map]
      congr 1
      ext i j
      exact Fl.conv_div W _ _
    | true =>
      cases handled with
      | none => rw [(C22_div_zero_terminates A s hs).1, (C22_div_zero_terminates _ _ (h0.trans hs)).1]; rfl
      | some e => rw [(C22_div_zero_rethrows e A s hs).1, (C22_div_zero_rethrows e _ _ (h0.trans hs)).1]; rfl
  · have e1 := (abs_elementwise A).eq_ok (R := .of fun i j => (A i j).abs) fun _ _ => rfl
    have e2 := (abs_elementwise (A.map (Fl.conv G))).eq_ok (R := .of fun i j => ((A i j).conv G).abs) fun _ _ => rfl
    rw [e1, e2]
    simp only [Except.map]
    congr 1
    ext i j
    exact Fl.conv_abs W _

/-- C142: comparisons give the same in the wider format. -/
theorem C142_compare (W : F.Wide G) (A B : Mat (Fl F) r c) (C : Mat (Fl F) n n) :
    arrayEq (A.map (Fl.conv G)) (B.map (Fl.conv G)) = arrayEq A B ∧ isSymetric (C.map (Fl.conv G)) = isSymetric C := by
  have hrd : ∀ {k l : Nat} (M : Mat (Fl F) k l) (i j : Nat), rd (M.map (Fl.conv G)) i j = (rd M i j).map (Fl.conv G) := by
    intro k l M i j
    unfold rd
    split_ifs <;> rfl
  constructor
  · unfold arrayEq
    congr 1
    congr 1
    funext it _
    congr 1
    funext jt _
    rw [hrd, hrd]
    cases rd A it jt with
    | error e => rfl
    | ok a =>
      cases rd B it jt with
      | error e => rfl
      | ok b =>
        change (if (a.conv G).eq (b.conv G) then _ else _) = (if a.eq b then _ else _)
        rw [(Fl.conv_key W a b).1]
  · unfold isSymetric
    congr 1
    congr 1
    funext it _
    congr 1
    funext jt _
    rw [hrd, hrd]
    cases rd C it jt with
    | error e => rfl
    | ok a =>
      cases rd C jt it with
      | error e => rfl
      | ok b =>
        change (if !((a.conv G).eq (b.conv G)) then _ else _) = (if !(a.eq b) then _ else _)
        rw [(Fl.conv_key W a b).1]

/-- C142: a matrix product computed in the wider format as a whole, by contrast, is a different one: the sums are not
rounded in between. -/
theorem C142_product_differs : ∃ (A : Mat (Fl binary32) 1 3) (B : Mat (Fl binary32) 3 1),
    (opMul (A.map (Fl.conv binary64)) (B.map (Fl.conv binary64))).map (·.map (Fl.conv binary32)) ≠ opMul A B :=
  ⟨!![Fl.ofInt 16777216, Fl.ofInt 1, Fl.ofInt (-16777216)], !![Fl.ofInt 1; Fl.ofInt 1; Fl.ofInt 1], by decide +kernel⟩

end MatrixLibs
