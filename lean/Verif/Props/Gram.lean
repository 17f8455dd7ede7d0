import Verif.Proof.FloatMono
import Verif.Proof.Narrow
import Verif.Props.Chol
import Verif.Props.Arith
import Verif.Proof.Pow
import Mathlib.LinearAlgebra.Matrix.Notation

/-!
# Property C123: products of a matrix and its transpose are symmetric, element type by element type
-/

namespace MatrixLibs

set_option linter.unusedSectionVars false

/-- Operands of `+` and of `*` may be exchanged: same value, or same fault. -/
class CommScalar (T : Type) [CScalar T] : Prop where
  add_comm : ∀ a b : T, CScalar.add a b = CScalar.add b a
  mul_comm : ∀ a b : T, CScalar.mul a b = CScalar.mul b a

instance (w : Nat) : CommScalar (BitVec w) where
  add_comm a b := congrArg Except.ok (BitVec.add_comm a b)
  mul_comm a b := congrArg Except.ok (BitVec.mul_comm a b)

instance (w : Nat) : CommScalar (SInt w) where
  add_comm a b := congrArg SInt.checked (Int.add_comm a.val b.val)
  mul_comm a b := congrArg SInt.checked (Int.mul_comm a.val b.val)

instance (F : Fmt) : CommScalar (Fl F) where
  add_comm a b := congrArg Except.ok (Fl.add_comm' a b)
  mul_comm a b := congrArg Except.ok (Fl.mul_comm' a b)

instance : CommScalar ℚ where
  add_comm a b := congrArg Except.ok (_root_.add_comm a b)
  mul_comm a b := congrArg Except.ok (_root_.mul_comm a b)

instance : CommScalar ℝ where
  add_comm a b := congrArg Except.ok (_root_.add_comm a b)
  mul_comm a b := congrArg Except.ok (_root_.mul_comm a b)

section
variable {T : Type} [Inhabited T] [CScalar T] [CommScalar T] {n m : Nat}

theorem dotFrom_swap {n' : Nat} (A : Mat T n m) (B : Mat T m n') (A' : Mat T n' m) (B' : Mat T m n) (s : T)
    (h1 : ∀ a k, A a k = B' k a) (h2 : ∀ k b, B k b = A' b k) (a : Fin n) (b : Fin n') :
    dotFrom A B s a b = dotFrom A' B' s b a := by
  unfold dotFrom
  refine forUp_congr fun k s _ hk => ?_
  have e1 : rd A a k = .ok (A a ⟨k, hk⟩) := rd_eq a.2 hk
  have e2 : rd B k b = .ok (B ⟨k, hk⟩ b) := rd_eq hk b.2
  have e3 : rd A' b k = .ok (A' b ⟨k, hk⟩) := rd_eq b.2 hk
  have e4 : rd B' k a = .ok (B' ⟨k, hk⟩ a) := rd_eq hk a.2
  rw [e1, e2, e3, e4]
  simp only [ok_bind]
  rw [h1, h2, CommScalar.mul_comm]

/-- A matrix that is its own transpose passes `isSymetric`, if its elements equal themselves. -/
theorem isSymetric_of_trans (G : Mat T n n) (h : G.transpose = G)
    (heq : ∀ i j : Fin n, j < i → CScalar.eq (G i j) (G i j) = true) : isSymetric G = .ok true := by
  obtain ⟨b, hb, h'⟩ := C36_isSymetric_pairs G
  rw [hb, h'.mpr fun i j hij => ?_]
  have : G j i = G i j := congrFun (congrFun h i) j
  rw [this]
  exact heq i j hij

/-- C123: `A * trans(A)` equals its transpose, bit for bit. -/
theorem C123_gram (A : Mat T n m) (G : Mat T n n) (h : (do opMul A (← trans A)) = .ok G) : trans G = .ok G := by
  rw [trans_ok, ok_bind] at h
  rw [trans_ok]
  congr 1
  ext a b
  have h' := ((mult_elementwise A A.transpose).1 G).mp h
  have e := dotFrom_swap A A.transpose A A.transpose (CScalar.ofInt 0 : T) (fun _ _ => rfl) (fun _ _ => rfl) b a
  have e1 := (h' b a).symm.trans (e.trans (h' a b))
  exact Except.ok.inj e1

/-- C123: `trans(A) * A` equals its transpose, bit for bit. -/
theorem C123_gram_left (A : Mat T n m) (G : Mat T m m) (h : (do opMul (← trans A) A) = .ok G) : trans G = .ok G := by
  refine C123_gram A.transpose G ?_
  rw [trans_ok, ok_bind] at h ⊢
  exact h

/-- C123: `A + trans(A)` equals its transpose, bit for bit. -/
theorem C123_sum (A : Mat T n n) (G : Mat T n n) (h : (do opAdd A (← trans A)) = .ok G) : trans G = .ok G := by
  rw [trans_ok, ok_bind] at h
  rw [trans_ok]
  congr 1
  ext a b
  have h' := ((sum_elementwise A A.transpose).1 G).mp h
  have e := CommScalar.add_comm (A b a) (A a b)
  exact Except.ok.inj ((h' b a).symm.trans (e.trans (h' a b)))

/-- C123: the square of a matrix that equals its transpose equals its transpose, bit for bit. -/
theorem C123_square (A : Mat T n n) (hA : trans A = .ok A) (G : Mat T n n) (h : opMul A A = .ok G) :
    trans G = .ok G := by
  refine C123_gram A G ?_
  rw [hA, ok_bind]
  exact h

theorem powFuel_sym (handled : Option Exc) (w : Nat) (A : Mat T n n) (hA : trans A = .ok A) (k : Nat) :
    ∀ d (P : Mat T n n), k + 1 ≤ d → powFuel handled w d A ((2 ^ k : Nat) : Int) = .ok P → trans P = .ok P := by
  induction k with
  | zero =>
    intro d P hd h
    obtain ⟨d, rfl⟩ : ∃ e, d = e + 1 := ⟨d - 1, by omega⟩
    have h1 : powFuel handled w (d + 1) A ((2 ^ 0 : Nat) : Int) = .ok A := powFuel_one handled w d A
    rw [h1] at h
    cases h
    exact hA
  | succ k ih =>
    intro d P hd h
    obtain ⟨d, rfl⟩ : ∃ e, d = e + 1 := ⟨d - 1, by omega⟩
    have hp : 2 ≤ 2 ^ (k + 1) := by
      have : 1 ≤ 2 ^ k := Nat.one_le_two_pow
      rw [pow_succ]; omega
    rw [powFuel_step _ _ _ _ _ hp] at h
    unfold powStep at h
    have e1 : 2 ^ (k + 1) / 2 = 2 ^ k := by rw [pow_succ]; omega
    have e2 : 2 ^ (k + 1) % 2 = 0 := by rw [pow_succ]; omega
    rw [e1] at h
    cases hq : powFuel handled w d A ((2 ^ k : Nat) : Int) with
    | error e => rw [hq] at h; cases h
    | ok Q =>
      rw [hq, ok_bind, if_pos e2] at h
      exact C123_square Q (ih d Q (by omega) hq) P h

/-- C123: so does every power of it whose exponent is a power of two. -/
theorem C123_pow (handled : Option Exc) (w : Nat) (A : Mat T n n) (hA : trans A = .ok A) (k : Nat) (P : Mat T n n)
    (h : pow handled w A ((2 ^ k : Nat) : Int) = .ok P) : trans P = .ok P := by
  refine powFuel_sym handled w A hA k (((2 ^ k : Nat) : Int).natAbs.log2 + 2) P ?_ h
  rw [Int.natAbs_natCast, Nat.log2_two_pow]
  omega

end

section
open Promo (load store)
variable {T P : Type} [Inhabited T] [CScalar P] [CommScalar P] [Promo T P] {n m : Nat}

/-- C123: `A * trans(A)` equals its transpose for the promoted element types (the narrow integers and `bool`) too. -/
theorem C123_gram_narrow (A : Mat T n m) (G : Mat T n n) (h : (do Promoted.mult A (← trans A)) = .ok G) :
    trans G = .ok G := by
  rw [trans_ok, ok_bind] at h
  rw [trans_ok]
  congr 1
  ext a b
  have h' := ((Promoted.mult_elementwise A A.transpose).1 G).mp h
  have e : Promoted.dotFrom A A.transpose (Promoted.lit 0 : T) b a =
      Promoted.dotFrom A A.transpose (Promoted.lit 0 : T) a b := by
    unfold Promoted.dotFrom
    refine forUp_congr fun k s _ hk => ?_
    have e1 : rd A b k = .ok (A b ⟨k, hk⟩) := rd_eq b.2 hk
    have e2 : rd A.transpose k a = .ok (A a ⟨k, hk⟩) := rd_eq hk a.2
    have e3 : rd A a k = .ok (A a ⟨k, hk⟩) := rd_eq a.2 hk
    have e4 : rd A.transpose k b = .ok (A b ⟨k, hk⟩) := rd_eq hk b.2
    rw [e1, e2, e3, e4]
    simp only [ok_bind]
    rw [CommScalar.mul_comm]
  exact Except.ok.inj ((h' b a).symm.trans (e.trans (h' a b)))

/-- C123: and `A + trans(A)`. -/
theorem C123_sum_narrow (A : Mat T n n) (G : Mat T n n) (h : (do Promoted.sum A (← trans A)) = .ok G) :
    trans G = .ok G := by
  rw [trans_ok, ok_bind] at h
  rw [trans_ok]
  congr 1
  ext a b
  have h' := ((Promoted.sum_elementwise A A.transpose).1 G).mp h
  have e := CommScalar.add_comm (load (A b a) : P) (load (A a b))
  have e' : (do Except.ok (store (← CScalar.add (load (A b a) : P) (load (A a b)))) : Res T) =
      (do Except.ok (store (← CScalar.add (load (A a b) : P) (load (A b a)))) : Res T) := by rw [e]
  exact Except.ok.inj ((h' b a).symm.trans (e'.trans (h' a b)))

end

/-- C123: for integer elements `isSymetric` confirms it. -/
theorem C123_isSymetric_unsigned {w n m : Nat} (A : Mat (BitVec w) n m) (B : Mat (BitVec w) n n) :
    (do isSymetric (← opMul A (← trans A))) = .ok true ∧ (do isSymetric (← opAdd B (← trans B))) = .ok true := by
  constructor
  · cases h : (do opMul A (← trans A)) with
    | error e =>
      obtain ⟨R, hR, -⟩ := C18_mul A A.transpose
      rw [trans_ok, ok_bind, hR] at h
      cases h
    | ok G =>
      have hG := C123_gram A G h
      rw [trans_ok, ok_bind] at h
      rw [trans_ok, ok_bind, h, ok_bind]
      rw [trans_ok] at hG
      exact isSymetric_of_trans G (Except.ok.inj hG) fun i j _ => by
        show (G i j == G i j) = true
        exact beq_self_eq_true _
  · cases h : (do opAdd B (← trans B)) with
    | error e =>
      rw [trans_ok, ok_bind, (C14_add B B.transpose).eq_ok (R := .of fun a b => B a b + B b a) fun _ _ => rfl] at h
      cases h
    | ok G =>
      have hG := C123_sum B G h
      rw [trans_ok, ok_bind] at h
      rw [trans_ok, ok_bind, h, ok_bind]
      rw [trans_ok] at hG
      exact isSymetric_of_trans G (Except.ok.inj hG) fun i j _ => by
        show (G i j == G i j) = true
        exact beq_self_eq_true _

/-- C123: for signed elements too, unless the product overflows. -/
theorem C123_isSymetric_signed {w n m : Nat} [Inhabited (SInt w)] (A : Mat (SInt w) n m) (G : Mat (SInt w) n n)
    (h : (do opMul A (← trans A)) = .ok G) : isSymetric G = .ok true := by
  have hG := C123_gram A G h
  rw [trans_ok] at hG
  exact isSymetric_of_trans G (Except.ok.inj hG) fun i j _ => by
    show decide ((G i j).val = (G i j).val) = true
    exact decide_eq_true rfl

theorem Fl.eq_self {F : Fmt} (a : Fl F) : a.eq a = true ↔ a ≠ .nan := by
  cases a <;> simp [Fl.eq, Fl.key]

variable {F : Fmt} {n m : Nat}

/-- C123: for floating point elements `A * trans(A)` returns; it passes `isSymetric` exactly if no element off the
diagonal is NaN, which is so for all finite contents of moderate size. -/
theorem C123_isSymetric_float (A : Mat (Fl F) n m) :
    ∃ G, (do opMul A (← trans A)) = .ok G ∧ G.transpose = G ∧
      (isSymetric G = .ok true ↔ ∀ i j, j < i → G i j ≠ .nan) := by
  have h : (do opMul A (← trans A)) = .ok (.of fun a b => Fl.fsum (Fl.terms A A.transpose a b)) := by
    rw [trans_ok, ok_bind]
    exact Fl.mult_eq A A.transpose
  have hG := C123_gram A _ h
  rw [trans_ok] at hG
  have hG' := Except.ok.inj hG
  refine ⟨_, h, hG', ?_⟩
  generalize (Matrix.of fun a b => Fl.fsum (Fl.terms A A.transpose a b) : Mat (Fl F) n n) = G at hG' ⊢
  obtain ⟨b, hb, h'⟩ := C36_isSymetric_pairs G
  have e : ∀ i j, G j i = G i j := fun i j => congrFun (congrFun hG' i) j
  rw [hb]
  constructor
  · intro hh i j hij
    have := h'.mp (Except.ok.inj hh) i j hij
    rw [e i j] at this
    exact (Fl.eq_self _).mp this
  · intro hh
    rw [h'.mpr fun i j hij => ?_]
    rw [e i j]
    exact (Fl.eq_self _).mpr (hh i j hij)

/-- C123: the diagonal of `A * trans(A)` is never negative and, unless `A` contains NaN, not NaN. -/
theorem C123_diagonal (A : Mat (Fl F) n m) (i : Fin n) (hA : ∀ k, A i k ≠ .nan) :
    ∃ G, (do opMul A (← trans A)) = .ok G ∧ (G i i = .inf false ∨ ((G i i).Finite ∧ 0 ≤ (G i i).val)) := by
  refine ⟨_, by rw [trans_ok, ok_bind]; exact Fl.mult_eq A A.transpose, ?_⟩
  rw [Matrix.of_apply]
  refine (Fl.fsum_nonNeg _ ?_).symm
  intro x hx
  unfold Fl.terms at hx
  rw [List.mem_map] at hx
  obtain ⟨k, -, rfl⟩ := hx
  exact Fl.sq_nonNeg _ (hA k)

/-- Rounding does happen in this product, 0.1 being the float nearest to one tenth. -/
example : (do isSymetric (← opMul (!![Fl.div (Fl.ofInt 1) (Fl.ofInt 10), Fl.ofInt 3; Fl.ofInt 5, Fl.ofInt 7] :
    Mat (Fl binary32) 2 2) (← trans (!![Fl.div (Fl.ofInt 1) (Fl.ofInt 10), Fl.ofInt 3; Fl.ofInt 5, Fl.ofInt 7] :
    Mat (Fl binary32) 2 2)))) = .ok true := by decide +kernel

/-- With an infinity and a zero the product contains NaN and does not pass. -/
example : (do isSymetric (← opMul (!![Fl.inf false; Fl.ofInt 0] : Mat (Fl binary32) 2 1)
    (← trans (!![Fl.inf false; Fl.ofInt 0] : Mat (Fl binary32) 2 1)))) = .ok false := by decide +kernel

/-- C123: other powers of a symmetric matrix need not be symmetric in floating point: the factors of the two
products are rounded in different orders. -/
theorem C123_cube : ∃ (A P : Mat (Fl binary32) 2 2), trans A = .ok A ∧ (∀ i j, (A i j).Finite) ∧
    pow none 32 A 3 = .ok P ∧ isSymetric P = .ok false :=
  ⟨!![Fl.ofInt 196649, Fl.ofInt 595696; Fl.ofInt 595696, Fl.ofInt 195896], _, by decide +kernel,
    fun i j => by fin_cases i <;> fin_cases j <;> decide +kernel, rfl, by decide +kernel⟩

end MatrixLibs
