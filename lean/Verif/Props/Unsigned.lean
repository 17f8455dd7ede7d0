import Verif.Props.Conv
import Verif.Proof.SimHom
import Verif.Props.Arith
import Verif.Props.Det
import Mathlib.LinearAlgebra.Matrix.Notation

/-!
# Conversions to unsigned types (C105)
-/

namespace MatrixLibs

set_option linter.unusedSectionVars false

open CScalar (ofInt)

theorem checked_map {w : Nat} {k : Int} (hd : Defined (SInt.checked k : Res (SInt w))) :
    (SInt.checked k : Res (SInt w)).map SInt.toUnsigned = .ok (BitVec.ofInt w k) := by
  unfold SInt.checked at hd ⊢
  by_cases hk : InRange w k
  · rw [dif_pos hk]; rfl
  · rw [dif_neg hk] at hd
    exact absurd rfl (hd _)

theorem ofInt_wrap (w : Nat) (k : Int) : (SInt.wrap k : SInt w).toUnsigned = BitVec.ofInt w k := by
  show BitVec.ofInt w (Int.bmod k (2 ^ w)) = _
  apply BitVec.eq_of_toInt_eq
  rw [BitVec.toInt_ofInt, BitVec.toInt_ofInt, Int.bmod_bmod]

/-- Conversion of signed integers to the unsigned type respects sums, differences and products. -/
theorem homRing_toUnsigned (w : Nat) : HomRing (SInt.toUnsigned : SInt w → BitVec w) where
  init := by
    show (default : BitVec w) = (SInt.wrap 0 : SInt w).toUnsigned
    rw [ofInt_wrap]; rfl
  zero := (ofInt_wrap w 0).symm
  one := (ofInt_wrap w 1).symm
  minusOne := (ofInt_wrap w (-1)).symm
  add a b hd := by
    show _ = (SInt.checked (a.val + b.val) : Res (SInt w)).map _
    rw [checked_map hd, BitVec.ofInt_add]; rfl
  sub a b hd := by
    show _ = (SInt.checked (a.val - b.val) : Res (SInt w)).map _
    rw [checked_map hd]
    exact congrArg Except.ok (Int.cast_sub (R := BitVec w) a.val b.val).symm
  mul a b hd := by
    show _ = (SInt.checked (a.val * b.val) : Res (SInt w)).map _
    rw [checked_map hd, BitVec.ofInt_mul]; rfl

theorem setWidth_ofInt {w w' : Nat} (h : w' ≤ w) (k : Int) : (BitVec.ofInt w k).setWidth w' = BitVec.ofInt w' k := by
  apply BitVec.eq_of_toNat_eq
  rw [BitVec.toNat_setWidth, BitVec.toNat_ofInt, BitVec.toNat_ofInt]
  have h1 : 0 ≤ k % (2 ^ w : Int) := Int.emod_nonneg _ (by positivity)
  have h2 : 0 ≤ k % (2 ^ w' : Int) := Int.emod_nonneg _ (by positivity)
  zify
  rw [Int.toNat_of_nonneg h1, Int.toNat_of_nonneg h2]
  exact Int.emod_emod_of_dvd _ (pow_dvd_pow 2 h)

/-- Conversion to a narrower unsigned type respects sums, differences and products. -/
theorem homRing_setWidth {w w' : Nat} (h : w' ≤ w) : HomRing (BitVec.setWidth w' : BitVec w → BitVec w') where
  init := (setWidth_ofInt h 0).symm
  zero := (setWidth_ofInt h 0).symm
  one := (setWidth_ofInt h 1).symm
  minusOne := (setWidth_ofInt h (-1)).symm
  add a b _ := by
    show Except.ok (a.setWidth w' + b.setWidth w') = Except.ok ((a + b).setWidth w')
    rw [BitVec.setWidth_add _ _ h]
  sub a b _ := by
    show Except.ok (a.setWidth w' - b.setWidth w') = Except.ok ((a - b).setWidth w')
    congr 1
    rw [sub_eq_iff_eq_add, ← BitVec.setWidth_add _ _ h, sub_add_cancel]
  mul a b _ := by
    show Except.ok (a.setWidth w' * b.setWidth w') = Except.ok ((a * b).setWidth w')
    rw [BitVec.setWidth_mul _ _ h]

section
variable {w r c n m p : Nat}

/-- C105: signed sums and differences, converted, are the sums and differences of the converted matrices. -/
theorem C105_signed_add_sub (A B : Mat (SInt w) r c) :
    (Defined (opAdd A B) → opAdd (A.map SInt.toUnsigned) (B.map SInt.toUnsigned) =
      (opAdd A B).map (·.map SInt.toUnsigned)) ∧
    (Defined (opSub A B) → opSub (A.map SInt.toUnsigned) (B.map SInt.toUnsigned) =
      (opSub A B).map (·.map SInt.toUnsigned)) :=
  ⟨(homRing_toUnsigned w).commutes.add A B, (homRing_toUnsigned w).commutes.sub A B⟩

/-- C105: with a scalar. -/
theorem C105_signed_scalar (A : Mat (SInt w) r c) (s : SInt w) :
    (Defined (opAddScalar A s) → opAddScalar (A.map SInt.toUnsigned) s.toUnsigned =
      (opAddScalar A s).map (·.map SInt.toUnsigned)) ∧
    (Defined (opSubScalar A s) → opSubScalar (A.map SInt.toUnsigned) s.toUnsigned =
      (opSubScalar A s).map (·.map SInt.toUnsigned)) ∧
    (Defined (opMulScalar A s) → opMulScalar (A.map SInt.toUnsigned) s.toUnsigned =
      (opMulScalar A s).map (·.map SInt.toUnsigned)) :=
  ⟨(homRing_toUnsigned w).commutes.addScalar A s, (homRing_toUnsigned w).commutes.subScalar A s,
    (homRing_toUnsigned w).commutes.mulScalar A s⟩

/-- C105: products. -/
theorem C105_signed_mul (A : Mat (SInt w) n m) (B : Mat (SInt w) m p) (hd : Defined (opMul A B)) :
    opMul (A.map SInt.toUnsigned) (B.map SInt.toUnsigned) = (opMul A B).map (·.map SInt.toUnsigned) :=
  (homRing_toUnsigned w).commutes.mul A B hd

/-- C105: the Strassen product. -/
theorem C105_signed_strassen (A B : Mat (SInt w) 2 2) (hd : Defined (strassen A B)) :
    strassen (A.map SInt.toUnsigned) (B.map SInt.toUnsigned) = (strassen A B).map (·.map SInt.toUnsigned) :=
  (homRing_toUnsigned w).commutes.strassen A B hd

/-- C105: powers with exponents that are not negative. -/
theorem C105_signed_pow (handled : Option Exc) (we : Nat) (A : Mat (SInt w) n n) (q : Int) (hq : 0 ≤ q)
    (hd : Defined (pow handled we A q)) :
    pow handled we (A.map SInt.toUnsigned) q = (pow handled we A q).map (·.map SInt.toUnsigned) :=
  (homRing_toUnsigned w).commutes.pow handled we A q hq hd

/-- C105: determinants of matrices of order at most three. -/
theorem C105_signed_det (h0 : 1 ≤ n) (hn : n ≤ 3) (A : Mat (SInt w) n n) (hd : Defined (det A)) :
    det (A.map SInt.toUnsigned) = (det A).map SInt.toUnsigned :=
  (homRing_toUnsigned w).commutes.det h0 hn A hd

/-- C105: convolutions. -/
theorem C105_signed_conv2 (A : Mat (SInt w) r c) (S : Mat (SInt w) n n) (K : Mat (SInt w) 3 3) :
    (Defined (conv2 A K) → conv2 (A.map SInt.toUnsigned) (K.map SInt.toUnsigned) =
      (conv2 A K).map (·.map SInt.toUnsigned)) ∧
    (Defined (conv2_full A K) → conv2_full (A.map SInt.toUnsigned) (K.map SInt.toUnsigned) =
      (conv2_full A K).map (·.map SInt.toUnsigned)) ∧
    (Defined (conv2_valid S K) → conv2_valid (S.map SInt.toUnsigned) (K.map SInt.toUnsigned) =
      (conv2_valid S K).map (·.map SInt.toUnsigned)) :=
  ⟨(homRing_toUnsigned w).commutes.conv2 A K, (homRing_toUnsigned w).commutes.conv2_full A K,
    (homRing_toUnsigned w).commutes.conv2_valid S K⟩

end

section
variable {w w' : Nat} (h : w' ≤ w) {r c n m p : Nat}
include h

/-- C105: reducing unsigned elements to fewer bits before a sum, a difference or a product gives the same as
reducing them after it. -/
theorem C105_truncate_add_sub (A B : Mat (BitVec w) r c) :
    opAdd (A.map (BitVec.setWidth w')) (B.map (BitVec.setWidth w')) = (opAdd A B).map (·.map (BitVec.setWidth w')) ∧
    opSub (A.map (BitVec.setWidth w')) (B.map (BitVec.setWidth w')) = (opSub A B).map (·.map (BitVec.setWidth w')) :=
  ⟨(homRing_setWidth h).commutes.add A B (by rw [sum_ok A B]; rintro k ⟨⟩),
    (homRing_setWidth h).commutes.sub A B (by rw [sub_ok A B]; rintro k ⟨⟩)⟩

/-- C105: products. -/
theorem C105_truncate_mul (A : Mat (BitVec w) n m) (B : Mat (BitVec w) m p) :
    opMul (A.map (BitVec.setWidth w')) (B.map (BitVec.setWidth w')) = (opMul A B).map (·.map (BitVec.setWidth w')) :=
  (homRing_setWidth h).commutes.mul A B (Defined.of_wp (wp_mult (RingSem.exact (BitVec w)) A B))

/-- C105: the Strassen product. -/
theorem C105_truncate_strassen (A B : Mat (BitVec w) 2 2) :
    strassen (A.map (BitVec.setWidth w')) (B.map (BitVec.setWidth w')) =
      (strassen A B).map (·.map (BitVec.setWidth w')) :=
  (homRing_setWidth h).commutes.strassen A B (Defined.of_wp (wp_strassen (RingSem.exact (BitVec w)) A B))

/-- C105: powers with exponents that are not negative. -/
theorem C105_truncate_pow (handled : Option Exc) (we : Nat) (A : Mat (BitVec w) n n) (q : Nat) :
    pow handled we (A.map (BitVec.setWidth w')) q = (pow handled we A q).map (·.map (BitVec.setWidth w')) :=
  (homRing_setWidth h).commutes.pow handled we A q (by omega) (Defined.of_wp
    (wp_powFuel (RingSem.exact (BitVec w)) handled we A q _ (by rw [Int.natAbs_natCast]; omega)))

/-- C105: determinants of matrices of order at most three. -/
theorem C105_truncate_det (h0 : 1 ≤ n) (hn : n ≤ 3) (A : Mat (BitVec w) n n) :
    det (A.map (BitVec.setWidth w')) = (det A).map (BitVec.setWidth w') := by
  refine (homRing_setWidth h).commutes.det h0 hn A ?_
  rw [C25_det_small h0 hn A]
  rintro k ⟨⟩

/-- C105: convolutions of images with fewer than 2^32 rows and columns. -/
theorem C105_truncate_conv2 (A : Mat (BitVec w) r c) (K : Mat (BitVec w) 3 3)
    (hr : r + 1 < 2 ^ 32) (hc : c + 1 < 2 ^ 32) :
    conv2 (A.map (BitVec.setWidth w')) (K.map (BitVec.setWidth w')) = (conv2 A K).map (·.map (BitVec.setWidth w')) ∧
    conv2_full (A.map (BitVec.setWidth w')) (K.map (BitVec.setWidth w')) =
      (conv2_full A K).map (·.map (BitVec.setWidth w')) :=
  ⟨(homRing_setWidth h).commutes.conv2 A K
      (Defined.of_wp (wp_conv2 (RingSem.exact (BitVec w)) A K (by omega) (by omega))),
    (homRing_setWidth h).commutes.conv2_full A K (Defined.of_wp (wp_conv2_full (RingSem.exact (BitVec w)) A K hr hc))⟩

/-- C105: the valid part of convolutions. -/
theorem C105_truncate_conv2_valid (A : Mat (BitVec w) (n + 2) (n + 2)) (K : Mat (BitVec w) 3 3) (hn : n + 2 ≤ 2 ^ 31) :
    conv2_valid (A.map (BitVec.setWidth w')) (K.map (BitVec.setWidth w')) =
      (conv2_valid A K).map (·.map (BitVec.setWidth w')) := by
  refine (homRing_setWidth h).commutes.conv2_valid A K ?_
  obtain ⟨S, V, -, hV, -⟩ := C49_conv2_valid A K hn
  rw [hV]
  rintro k ⟨⟩

end

/-! Division does not commute with these conversions: -6 / 2, and 260 / 2 in 8 bits. -/

/-- C105: the quotient by a scalar and the determinant of order four are not preserved. -/
theorem C105_division_differs :
    opDiv none (Mat.const (SInt.wrap (-6)) : Mat (SInt 8) 1 1) (SInt.wrap 2) = .ok (Mat.const (SInt.wrap (-3))) ∧
    opDiv none (Mat.const (SInt.wrap (-6) : SInt 8).toUnsigned : Mat (BitVec 8) 1 1) (SInt.wrap 2 : SInt 8).toUnsigned =
      .ok (Mat.const 125#8) ∧ (SInt.wrap (-3) : SInt 8).toUnsigned = 253#8 ∧
    opDiv none (Mat.const 260#16 : Mat (BitVec 16) 1 1) 2#16 = .ok (Mat.const 130#16) ∧
    opDiv none (Mat.const ((260#16).setWidth 8) : Mat (BitVec 8) 1 1) ((2#16).setWidth 8) = .ok (Mat.const 2#8) := by
  decide +kernel

/-! Concrete cases. -/

private def S8 : Mat (SInt 8) 2 2 := !![SInt.wrap 3, SInt.wrap (-2); SInt.wrap 4, SInt.wrap 5]

example : Defined (opMul S8 S8) ∧ Defined (det S8) ∧ Defined (pow none 32 S8 2) := by
  refine ⟨fun k => ?_, fun k => ?_, fun k => ?_⟩ <;> cases k <;> decide +kernel
example : opMul S8 S8 = .ok !![SInt.wrap 1, SInt.wrap (-16); SInt.wrap 32, SInt.wrap 17] ∧
    opMul (S8.map SInt.toUnsigned) (S8.map SInt.toUnsigned) = .ok !![1#8, 240#8; 32#8, 17#8] := by decide +kernel
example : opMul (!![300#16, 2#16] : Mat (BitVec 16) 1 2) !![5#16; 7#16] = .ok !![1514#16] ∧
    opMul (!![44#8, 2#8] : Mat (BitVec 8) 1 2) !![5#8; 7#8] = .ok !![234#8] ∧ (1514#16).setWidth 8 = 234#8 := by
  decide +kernel

end MatrixLibs
