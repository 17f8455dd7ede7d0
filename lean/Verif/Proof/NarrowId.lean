import Verif.Model.Narrow
import Verif.Proof.Wp

/-!
# The promoted functions are the ordinary ones when nothing is promoted

A check of the transcription in `Verif.Model.Narrow`.
-/

namespace MatrixLibs

set_option linter.unusedSectionVars false

namespace Promoted

variable {T : Type} [Inhabited T] [CScalar T] {i j n m p : Nat}

attribute [local instance] selfPromo

theorem bind_ok {α : Type} (x : Res α) : (x >>= fun a => .ok a) = x := bind_pure x

theorem id_zeros : (zeros i j : Res (Mat T i j)) = MatrixLibs.zeros i j := rfl
theorem id_ones : (ones i j : Res (Mat T i i)) = MatrixLibs.ones i j := rfl
theorem id_eye (data : T) : eye n data = MatrixLibs.eye n data := rfl
theorem id_eye1 : (eye1 n : Res (Mat T n n)) = MatrixLibs.eye1 n := rfl
theorem id_sum (A B : Mat T i j) : sum A B = MatrixLibs.sum A B := rfl
theorem id_sumScalar (A : Mat T i j) (s : T) : sumScalar A s = MatrixLibs.sumScalar A s := rfl
theorem id_opPostInc (A : Mat T i j) : opPostInc A = MatrixLibs.opPostInc A := rfl
theorem id_sub (A B : Mat T i j) : sub A B = MatrixLibs.sub A B := rfl
theorem id_subScalar (A : Mat T i j) (s : T) : subScalar A s = MatrixLibs.subScalar A s := rfl
theorem id_opPostDec (A : Mat T i j) : opPostDec A = MatrixLibs.opPostDec A := rfl
theorem id_mult (A : Mat T n m) (B : Mat T m p) : mult A B = MatrixLibs.mult A B := rfl
theorem id_multScalar (A : Mat T i j) (s : T) : multScalar A s = MatrixLibs.multScalar A s := rfl
theorem id_div (handled : Option Exc) (A : Mat T i j) (s : T) :
    div handled A s = MatrixLibs.div handled A s := rfl
theorem id_abs (A : Mat T i j) : abs A = MatrixLibs.abs A := rfl
theorem id_strassen (A B : Mat T 2 2) : strassen A B = MatrixLibs.strassen A B := rfl
theorem id_det1 (A : Mat T 1 1) : det1 A = MatrixLibs.det1 A := rfl

theorem id_det2 (A : Mat T 2 2) : det2 A = MatrixLibs.det2 A := by
  simp only [det2, MatrixLibs.det2, Promo.load, Promo.store, id, bind_ok]

theorem id_det3 (A : Mat T 3 3) : det3 A = MatrixLibs.det3 A := by
  simp only [det3, MatrixLibs.det3, Promo.load, Promo.store, id, bind_ok]

theorem id_detProd (A : Mat T n n) (f : T) : detProd A f = MatrixLibs.detProd A f := by
  simp only [detProd, MatrixLibs.detProd, lit, Promo.load, Promo.store, id, bind_ok]

theorem id_detSearch (A : Mat T n n) (r : Nat) (fuel : Nat) :
    ∀ i pivot, detSearch A r fuel i pivot = MatrixLibs.detSearch A r fuel i pivot := by
  induction fuel with
  | zero => intro i pivot; rfl
  | succ k ih =>
    intro i pivot
    simp only [detSearch, MatrixLibs.detSearch, Promo.load, id, ih]

theorem id_detEliminate (A : Mat T n n) (r pivot : Nat) :
    detEliminate A r pivot = MatrixLibs.detEliminate A r pivot := rfl

theorem id_detSwap (A : Mat T n n) (f : T) (i r : Nat) :
    detSwap A f i r = MatrixLibs.detSwap A f i r := rfl

theorem id_detStep (r : Nat) (s : DetState T n) : detStep r s = MatrixLibs.detStep r s := by
  simp only [detStep, MatrixLibs.detStep, id_detProd, id_detSearch, id_detSwap, id_detEliminate]
  rfl

theorem id_detN (A : Mat T n n) : detN A = MatrixLibs.detN A := by
  have h : (detStep : Nat → DetState T n → _) = MatrixLibs.detStep := by
    funext r s; exact id_detStep r s
  simp only [detN, MatrixLibs.detN, id_detProd, h]
  rfl

theorem id_det : ∀ {n : Nat} (A : Mat T n n), det A = MatrixLibs.det A
  | 0, A => id_detN A
  | 1, A => id_det1 A
  | 2, A => id_det2 A
  | 3, A => id_det3 A
  | _ + 4, A => id_detN A

theorem id_invN (handled : Option Exc) (A : Mat T n n) :
    invN handled A = MatrixLibs.invN handled A := by
  simp only [invN, MatrixLibs.invN, id_det]
  rfl

theorem id_lu (A : Mat T n n) : lu A = MatrixLibs.lu A := by
  have h1 : (luSum : Mat T n n → _) = MatrixLibs.luSum := by
    funext L U i j
    simp only [luSum, MatrixLibs.luSum, lit, Promo.load, Promo.store, id, bind_ok]
  have h2 : (luUpper : Mat T n n → _) = MatrixLibs.luUpper := by
    funext A L j U
    simp only [luUpper, MatrixLibs.luUpper, h1]
    rfl
  have h3 : (luLower : Mat T n n → _) = MatrixLibs.luLower := by
    funext A U j L
    simp only [luLower, MatrixLibs.luLower, h1]
    rfl
  simp only [lu, MatrixLibs.lu, h2, h3]
  rfl

theorem id_isSymetric (A : Mat T n n) : isSymetric A = MatrixLibs.isSymetric A := rfl

theorem id_chol (A : Mat T n n) : chol A = MatrixLibs.chol A := by
  have h1 : (cholSum : Mat T n n → _) = MatrixLibs.cholSum := by
    funext L i j
    simp only [cholSum, MatrixLibs.cholSum, lit, Promo.load, Promo.store, id, bind_ok]
  have h2 : (cholStep : Mat T n n → _) = MatrixLibs.cholStep := by
    funext A i j L
    simp only [cholStep, MatrixLibs.cholStep, h1]
    rfl
  simp only [chol, MatrixLibs.chol, h2]
  rfl

theorem id_conv2 (A : Mat T i j) (k : Mat T 3 3) : conv2 A k = MatrixLibs.conv2 A k := rfl
theorem id_conv2_full (A : Mat T i j) (k : Mat T 3 3) : conv2_full A k = MatrixLibs.conv2_full A k := rfl
theorem id_conv2_valid (A : Mat T n n) (k : Mat T 3 3) : conv2_valid A k = MatrixLibs.conv2_valid A k := rfl

theorem id_mean (A : Mat T i j) : mean A = MatrixLibs.mean A := by
  simp only [mean, MatrixLibs.mean, lit, Promo.load, Promo.store, id, bind_ok]

theorem id_median (sort : List T → List T) (A : Mat T i j) (h : StrictWeak A) :
    median sort A = MatrixLibs.median sort A := by
  simp only [median, MatrixLibs.median, stdSort, if_pos h, Promo.load, Promo.store, id, bind_ok, ok_bind]

theorem id_var (A : Mat T i j) : var A = MatrixLibs.var A := by
  simp only [var, MatrixLibs.var, id_mean, lit, Promo.load, Promo.store, id, bind_ok]

theorem id_stddev (A : Mat T i j) : stddev A = MatrixLibs.stddev A := by
  simp only [stddev, MatrixLibs.stddev, id_var]
  rfl

theorem id_compareLoop (f : T → Bool) (A B : Mat T i j) :
    compareLoop f A B = MatrixLibs.compareLoop f A B := rfl

/-- (For `n < 4` the ordinary `inv` is one of the three closed forms, and `Promoted.pow` is not used.) -/
theorem id_powFuel (handled : Option Exc) (w d : Nat) (A : Mat T (n + 4) (n + 4)) (p : Int) :
    powFuel handled w d A p = MatrixLibs.powFuel handled w d A p := by
  induction d generalizing A p with
  | zero => rfl
  | succ d ih =>
    have h : ∀ A : Mat T (n + 4) (n + 4), MatrixLibs.inv handled A = MatrixLibs.invN handled A := fun _ => rfl
    simp only [powFuel, MatrixLibs.powFuel, id_invN, h, ih]
    rfl

theorem id_pow (handled : Option Exc) (w : Nat) (A : Mat T (n + 4) (n + 4)) (p : Int) :
    pow handled w A p = MatrixLibs.pow handled w A p := id_powFuel ..

end Promoted

end MatrixLibs
