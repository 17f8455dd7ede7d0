import Verif.Proof.StandardLu

/-!
# Property C150: error bounds in every arithmetic of the standard model
-/

namespace MatrixLibs

set_option linter.unusedSectionVars false

open Standard (val u h perm3)

variable {T : Type} [Inhabited T] [CScalar T] [Standard T] {n m p r c : Nat}

/-- C150: a product that is returned is near the exact product. -/
theorem C150_mult (A : Mat T n m) (B : Mat T m p) (P : Mat T n p) (hP : mult A B = .ok P) (i : Fin n) (j : Fin p) :
    |val (P i j) - ∑ k, val (A i k) * val (B k j)| ≤
      ((1 + u T) ^ m - 1) * (∑ k, |val (A i k)| * |val (B k j)|) + m * (1 + u T) ^ (m - 1) * h T :=
  Standard.mult_err hP i j

/-- C150: `conv2`. -/
theorem C150_conv2 (A : Mat T r c) (k : Mat T 3 3) (S : Mat T r c) (hS : conv2 A k = .ok S) (hr : r ≤ 2 ^ 31) (hc : c ≤ 2 ^ 31)
    (i : Fin r) (j : Fin c) :
    |val (S i j) - correlateAt (A.map val) (k.map val) i.val j.val| ≤
      ((1 + u T) ^ 9 - 1) * correlateAt ((A.map val).map fun x => |x|) ((k.map val).map fun x => |x|) i.val j.val +
        9 * (1 + u T) ^ 8 * h T :=
  Standard.conv2_err hS hr hc i j

/-- C150: `conv2_full`. -/
theorem C150_conv2_full (A : Mat T r c) (k : Mat T 3 3) (S : Mat T (r + 2) (c + 2)) (hS : conv2_full A k = .ok S)
    (hr : r ≤ 2 ^ 31) (hc : c ≤ 2 ^ 31) (i : Fin (r + 2)) (j : Fin (c + 2)) :
    |val (S i j) - correlateAt (A.map val) (k.map val) ((i.val : ℤ) - 1) ((j.val : ℤ) - 1)| ≤
      ((1 + u T) ^ 9 - 1) *
          correlateAt ((A.map val).map fun x => |x|) ((k.map val).map fun x => |x|) ((i.val : ℤ) - 1) ((j.val : ℤ) - 1) +
        9 * (1 + u T) ^ 8 * h T :=
  Standard.conv2_full_err hS hr hc i j

/-- C150: `conv2_valid`. -/
theorem C150_conv2_valid (A : Mat T (m + 2) (m + 2)) (k : Mat T 3 3) (V : Mat T m m) (hV : conv2_valid A k = .ok V)
    (hm : m + 2 ≤ 2 ^ 31) (i j : Fin m) :
    |val (V i j) - ∑ x : Fin 3, ∑ y : Fin 3, val (k x y) * val (A ⟨i.val + x.val, by omega⟩ ⟨j.val + y.val, by omega⟩)| ≤
      ((1 + u T) ^ 9 - 1) * (∑ x : Fin 3, ∑ y : Fin 3,
          |val (k x y)| * |val (A ⟨i.val + x.val, by omega⟩ ⟨j.val + y.val, by omega⟩)|) +
        9 * (1 + u T) ^ 8 * h T :=
  Standard.conv2_valid_err hV hm i j

/-- C150: determinants of 2x2 matrices. -/
theorem C150_det2 (A : Mat T 2 2) (D : T) (hD : det A = .ok D) :
    |val D - (A.map val).det| ≤
      ((1 + u T) ^ 2 - 1) * (|val (A 0 0)| * |val (A 1 1)| + |val (A 0 1)| * |val (A 1 0)|) + 2 * (1 + u T) * h T := by
  rw [Matrix.det_fin_two]
  exact Standard.det2_err hD

/-- C150: determinants of 3x3 matrices. -/
theorem C150_det3 (A : Mat T 3 3) (D : T) (hD : det A = .ok D) :
    |val D - (A.map val).det| ≤ ((1 + u T) ^ 7 - 1) * perm3 (A.map val) +
      6 * (1 + u T) ^ 6 * (1 + |val (A 2 0)| + |val (A 2 1)| + |val (A 2 2)|) * h T :=
  Standard.det3_err hD

/-- C150: means. -/
theorem C150_mean (A : Mat T r c) (μ : T) (hμ : mean A = .ok μ) (h0 : r * c ≠ 0) :
    |val μ - (∑ a, ∑ b, val (A a b)) / ((r * c : Nat) : ℝ)| ≤
      ((1 + u T) ^ (r * c + 2) - 1) * ((∑ a, ∑ b, |val (A a b)|) / ((r * c : Nat) : ℝ)) + ((1 + u T) ^ (r * c + 1) + 1) * h T :=
  Standard.mean_err hμ h0

/-- C150: the product of the factors that `lu` returns is near the matrix. -/
theorem C150_lu (A L U : Mat T n n) (hlu : lu A = .ok (L, U)) (i j : Fin n) :
    |(∑ k, val (L i k) * val (U k j)) - val (A i j)| ≤
      ((1 + u T) ^ n - 1) * (∑ k, |val (L i k)| * |val (U k j)|) + (n + |val (U j j)|) * (1 + u T) ^ n * h T :=
  Standard.lu_err hlu i j

/-- C150: `L * L^T` is near the lower triangle of the matrix. -/
theorem C150_chol (A L : Mat T n n) (hL : chol A = .ok L) (i j : Fin n) (hij : j ≤ i) :
    |(∑ k, val (L i k) * val (L j k)) - val (A i j)| ≤
      ((1 + u T) ^ (n + 2) - 1) * (∑ k, |val (L i k)| * |val (L j k)|) + (n + |val (L j j)|) * (1 + u T) ^ n * h T :=
  Standard.chol_err hL i j hij

end MatrixLibs
