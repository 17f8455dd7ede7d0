import Verif.Proof.Arith
import Mathlib.Tactic.Abel

/-!
# Strassen's 2x2 product
-/

namespace MatrixLibs

/-! ### Strassen -/

theorem map_two {T R : Type} (f : T → R) (P : Mat T 2 2) (Q : Matrix (Fin 2) (Fin 2) R)
    (h00 : f (P 0 0) = Q 0 0) (h01 : f (P 0 1) = Q 0 1) (h10 : f (P 1 0) = Q 1 0)
    (h11 : f (P 1 1) = Q 1 1) : P.map f = Q := by
  ext a b
  rw [Matrix.map_apply]
  match a, b with
  | 0, 0 => exact h00
  | 0, 1 => exact h01
  | 1, 0 => exact h10
  | 1, 1 => exact h11

theorem wp_strassen {T R : Type} [Inhabited T] [CScalar T] [Ring R] (S : RingSem T R)
    (A B : Mat T 2 2) :
    wp (strassen A B) (fun P => P.map S.val = A.map S.val * B.map S.val) S.Bad := by
  have l0 : (0 : Nat) < 2 := by norm_num
  have l1 : (1 : Nat) < 2 := by norm_num
  unfold strassen
  rw [rd_eq l0 l0, ok_bind, rd_eq l0 l1, ok_bind, rd_eq l1 l0, ok_bind, rd_eq l1 l1, ok_bind,
    rd_eq l0 l0, ok_bind, rd_eq l0 l1, ok_bind, rd_eq l1 l0, ok_bind, rd_eq l1 l1, ok_bind]
  rw [wp_bind]
  refine wp_mono (S.sub _ _) (fun x1 e1 => ?_) (fun _ h => h)
  rw [wp_bind]
  refine wp_mono (S.mul _ _) (fun M1 f1 => ?_) (fun _ h => h)
  rw [wp_bind]
  refine wp_mono (S.add _ _) (fun x2 e2 => ?_) (fun _ h => h)
  rw [wp_bind]
  refine wp_mono (S.mul _ _) (fun M2 f2 => ?_) (fun _ h => h)
  rw [wp_bind]
  refine wp_mono (S.add _ _) (fun x3 e3 => ?_) (fun _ h => h)
  rw [wp_bind]
  refine wp_mono (S.mul _ _) (fun M3 f3 => ?_) (fun _ h => h)
  rw [wp_bind]
  refine wp_mono (S.sub _ _) (fun x4 e4 => ?_) (fun _ h => h)
  rw [wp_bind]
  refine wp_mono (S.mul _ _) (fun M4 f4 => ?_) (fun _ h => h)
  rw [wp_bind]
  refine wp_mono (S.add _ _) (fun x5 e5 => ?_) (fun _ h => h)
  rw [wp_bind]
  refine wp_mono (S.add _ _) (fun y5 g5 => ?_) (fun _ h => h)
  rw [wp_bind]
  refine wp_mono (S.mul _ _) (fun M5 f5 => ?_) (fun _ h => h)
  rw [wp_bind]
  refine wp_mono (S.sub _ _) (fun x6 e6 => ?_) (fun _ h => h)
  rw [wp_bind]
  refine wp_mono (S.add _ _) (fun y6 g6 => ?_) (fun _ h => h)
  rw [wp_bind]
  refine wp_mono (S.mul _ _) (fun M6 f6 => ?_) (fun _ h => h)
  rw [wp_bind]
  refine wp_mono (S.sub _ _) (fun x7 e7 => ?_) (fun _ h => h)
  rw [wp_bind]
  refine wp_mono (S.add _ _) (fun y7 g7 => ?_) (fun _ h => h)
  rw [wp_bind]
  refine wp_mono (S.mul _ _) (fun M7 f7 => ?_) (fun _ h => h)
  rw [wp_bind]
  refine wp_mono (S.add _ _) (fun p1 q1 => ?_) (fun _ h => h)
  rw [wp_bind]
  refine wp_mono (S.sub _ _) (fun p2 q2 => ?_) (fun _ h => h)
  rw [wp_bind]
  refine wp_mono (S.add _ _) (fun p3 q3 => ?_) (fun _ h => h)
  rw [wr_eq l0 l0, ok_bind, wp_bind]
  refine wp_mono (S.add _ _) (fun p4 q4 => ?_) (fun _ h => h)
  rw [wr_eq l0 l1, ok_bind, wp_bind]
  refine wp_mono (S.add _ _) (fun p5 q5 => ?_) (fun _ h => h)
  rw [wr_eq l1 l0, ok_bind, wp_bind]
  refine wp_mono (S.add _ _) (fun p6 q6 => ?_) (fun _ h => h)
  rw [wp_bind]
  refine wp_mono (S.add _ _) (fun p7 q7 => ?_) (fun _ h => h)
  rw [wp_bind]
  refine wp_mono (S.sub _ _) (fun p8 q8 => ?_) (fun _ h => h)
  rw [wr_eq l1 l1, wp_ok]
  have z0 : (⟨0, l0⟩ : Fin 2) = 0 := rfl
  have z1 : (⟨1, l1⟩ : Fin 2) = 1 := rfl
  simp only [z0, z1] at *
  apply map_two <;> rw [Matrix.mul_apply, Fin.sum_univ_two] <;>
    simp only [Matrix.of_apply, Matrix.map_apply, Fin.val_zero, Fin.val_one, and_self, one_ne_zero,
      zero_ne_one, and_true, and_false, if_true, if_false]
  · rw [q3, q2, q1, f5, f4, f2, f6, e5, g5, e4, e2, e6, g6]; simp only [mul_add, add_mul, mul_sub, sub_mul]; abel
  · rw [q4, f1, f2, e1, e2]; simp only [add_mul, mul_sub]; abel
  · rw [q5, f3, f4, e3, e4]; simp only [add_mul, mul_sub]; abel
  · rw [q8, q6, q7, f1, f5, f3, f7, e1, e5, g5, e3, e7, g7]; simp only [mul_add, add_mul, mul_sub, sub_mul]; abel

end MatrixLibs
