import Verif.Proof.Scale

/-!
# C148: multiplying rows and columns by powers of two changes results by powers of two only

`Guarded F` are the numbers of the format `F` with operations that stop if a result overflows or underflows
(`Verif/Spec/Scale.lean`): that a call on them returns `v` says that no operation of the call leaves the range, and each
theorem concludes that the call on ordinary floating point numbers then returns `v` too.
-/

namespace MatrixLibs

set_option linter.unusedSectionVars false

open scoped MatrixLibs

variable {F : Fmt}

/-- What "in range" means, in real numbers: the operations of `Guarded F` return the floating point result if it is finite and,
for products and quotients, the exact value is at least the smallest normal number `2 ^ (1 - emax)` or is the result. -/
theorem C148_range (a b c : Fl F) (ha : a.Finite) (hb : b.Finite) :
    (CScalar.add (T := Guarded F) a b = .ok c ↔ c = a.add b ∧ c.Finite) ∧
    (CScalar.sub (T := Guarded F) a b = .ok c ↔ c = a.sub b ∧ c.Finite) ∧
    (CScalar.mul (T := Guarded F) a b = .ok c ↔
      c = a.mul b ∧ c.Finite ∧ ((2 : ℝ) ^ (1 - (F.emax : ℤ)) ≤ |a.val * b.val| ∨ c.val = a.val * b.val)) ∧
    (CScalar.div (T := Guarded F) a b = .ok c ↔
      c = a.div b ∧ c.Finite ∧ ((2 : ℝ) ^ (1 - (F.emax : ℤ)) ≤ |a.val / b.val| ∨ c.val = a.val / b.val)) ∧
    (CScalar.sqrt (T := Guarded F) a = .ok c ↔ c = a.sqrt ∧ c.Finite) := by
  have key : ∀ {x : Fl F}, guarded x.Finite x = .ok c ↔ c = x ∧ c.Finite := by
    intro x
    rw [guarded_iff]
    exact and_congr_right fun e => by rw [e]
  exact ⟨key, key, Fl.gMul_iff ha hb, Fl.gDiv_iff ha hb, key⟩

/-- Sums and differences, products with and quotients by a number. -/
theorem C148_elementwise (handled : Option Exc) {m n : Nat} (k : Fin m → Fin n → ℤ) (l : ℤ) (A A' B B' : Mat (Fl F) m n)
    (s s' : Fl F) (hA : TimesPows k A A') (hB : TimesPows k B B') (hs : s.TimesPow l s') (S S' : Mat (Fl F) m n) :
    (sum (T := Guarded F) A B = .ok S → sum (T := Guarded F) A' B' = .ok S' →
      sum A B = .ok S ∧ sum A' B' = .ok S' ∧ TimesPows k S S') ∧
    (sub (T := Guarded F) A B = .ok S → sub (T := Guarded F) A' B' = .ok S' →
      sub A B = .ok S ∧ sub A' B' = .ok S' ∧ TimesPows k S S') ∧
    (multScalar (T := Guarded F) A s = .ok S → multScalar (T := Guarded F) A' s' = .ok S' →
      multScalar A s = .ok S ∧ multScalar A' s' = .ok S' ∧ TimesPows (fun i j => k i j + l) S S') ∧
    (div (T := Guarded F) handled A s = .ok S → div (T := Guarded F) handled A' s' = .ok S' →
      div handled A s = .ok S ∧ div handled A' s' = .ok S' ∧ TimesPows (fun i j => k i j - l) S S') := by
  have a := toM hA (extend₂_fin k)
  have b := toM hB (extend₂_fin k)
  have sA := sim_mat _ _ A
  have sA' := sim_mat _ _ A'
  have sB := sim_mat _ _ B
  have sB' := sim_mat _ _ B'
  refine ⟨fun h h' => ⟨plain_mat (sim_sum sA sB) h, plain_mat (sim_sum sA' sB') h', ofM (Graded.sum a b _ _ h h') (extend₂_fin k)⟩,
    fun h h' => ⟨plain_mat (sim_sub sA sB) h, plain_mat (sim_sub sA' sB') h', ofM (Graded.sub' a b _ _ h h') (extend₂_fin k)⟩,
    fun h h' => ⟨plain_mat (sim_multScalar sA rfl) h, plain_mat (sim_multScalar sA' rfl) h',
      ofM (Graded.multScalar a hs _ _ h h') fun i j => by rw [extend₂_fin]⟩,
    fun h h' => ⟨plain_mat (sim_div handled sA rfl) h, plain_mat (sim_div handled sA' rfl) h',
      ofM (Graded.div' handled a hs _ _ h h') fun i j => by rw [extend₂_fin]⟩⟩

/-- Matrix products: the rows of `A` times `2 ^ r i`, the columns of `B` times `2 ^ c j`, and the columns of `A` times `2 ^ m k`
where the rows of `B` are divided by it. -/
theorem C148_mult {l m n : Nat} (r : Fin l → ℤ) (q : Fin m → ℤ) (c : Fin n → ℤ) (A A' : Mat (Fl F) l m) (B B' : Mat (Fl F) m n)
    (hA : TimesPows (fun i k => r i + q k) A A') (hB : TimesPows (fun k j => c j - q k) B B') (P P' : Mat (Fl F) l n)
    (h : mult (T := Guarded F) A B = .ok P) (h' : mult (T := Guarded F) A' B' = .ok P') :
    mult A B = .ok P ∧ mult A' B' = .ok P' ∧ TimesPows (fun i j => r i + c j) P P' := by
  refine ⟨plain_mat (sim_mult (sim_mat _ _ A) (sim_mat _ _ B)) h, plain_mat (sim_mult (sim_mat _ _ A') (sim_mat _ _ B')) h', ?_⟩
  refine ofM (d := fun i j => extend r i + extend c j) (Graded.mult (d := fun i k => extend r i + extend q k)
    (e := fun k j => extend c j - extend q k) (toM hA fun i j => ?_) (toM hB fun i j => ?_) (fun _ _ _ _ _ _ => by ring) _ _ h h')
    fun i j => ?_ <;> simp only [extend_fin]

theorem C148_strassen (a b : ℤ) (A A' B B' : Mat (Fl F) 2 2) (hA : TimesPows (fun _ _ => a) A A')
    (hB : TimesPows (fun _ _ => b) B B') (P P' : Mat (Fl F) 2 2) (h : strassen (T := Guarded F) A B = .ok P)
    (h' : strassen (T := Guarded F) A' B' = .ok P') :
    strassen A B = .ok P ∧ strassen A' B' = .ok P' ∧ TimesPows (fun _ _ => a + b) P P' :=
  ⟨plain_mat (sim_strassen (sim_mat _ _ A) (sim_mat _ _ B)) h, plain_mat (sim_strassen (sim_mat _ _ A') (sim_mat _ _ B')) h',
    ofM (Graded.strassen (toM hA fun _ _ => rfl) (toM hB fun _ _ => rfl) _ _ h h') fun _ _ => rfl⟩

theorem C148_conv {m n : Nat} (a k : ℤ) (A A' : Mat (Fl F) m n) (B B' : Mat (Fl F) (n + 2) (n + 2)) (K K' : Mat (Fl F) 3 3)
    (hA : TimesPows (fun _ _ => a) A A') (hB : TimesPows (fun _ _ => a) B B') (hK : TimesPows (fun _ _ => k) K K') :
    (∀ S S' : Mat (Fl F) m n, conv2 (T := Guarded F) A K = .ok S → conv2 (T := Guarded F) A' K' = .ok S' →
      conv2 A K = .ok S ∧ conv2 A' K' = .ok S' ∧ TimesPows (fun _ _ => a + k) S S') ∧
    (∀ S S' : Mat (Fl F) (m + 2) (n + 2), conv2_full (T := Guarded F) A K = .ok S → conv2_full (T := Guarded F) A' K' = .ok S' →
      conv2_full A K = .ok S ∧ conv2_full A' K' = .ok S' ∧ TimesPows (fun _ _ => a + k) S S') ∧
    (∀ S S' : Mat (Fl F) n n, conv2_valid (T := Guarded F) B K = .ok S → conv2_valid (T := Guarded F) B' K' = .ok S' →
      conv2_valid B K = .ok S ∧ conv2_valid B' K' = .ok S' ∧ TimesPows (fun _ _ => a + k) S S') := by
  have a' := toM (d := fun _ _ => a) hA fun _ _ => rfl
  have b' := toM (d := fun _ _ => a) hB fun _ _ => rfl
  have k' := toM (d := fun _ _ => k) hK fun _ _ => rfl
  have sK := sim_mat _ _ K
  have sK' := sim_mat _ _ K'
  refine ⟨fun S S' h h' => ⟨plain_mat (sim_conv2 (sim_mat _ _ A) sK) h, plain_mat (sim_conv2 (sim_mat _ _ A') sK') h',
      ofM (Graded.conv2 a' k' _ _ h h') fun _ _ => add_comm _ _⟩,
    fun S S' h h' => ⟨plain_mat (sim_conv2_full (sim_mat _ _ A) sK) h, plain_mat (sim_conv2_full (sim_mat _ _ A') sK') h',
      ofM (Graded.conv2_full a' k' _ _ h h') fun _ _ => add_comm _ _⟩,
    fun S S' h h' => ⟨plain_mat (sim_conv2_valid (sim_mat _ _ B) sK) h, plain_mat (sim_conv2_valid (sim_mat _ _ B') sK') h',
      ofM (Graded.conv2_valid b' k' _ _ h h') fun _ _ => add_comm _ _⟩⟩

/-- Mean and standard deviation scale as the elements, the variance with the square. -/
theorem C148_statistics {m n : Nat} (k : ℤ) (A A' : Mat (Fl F) m n) (hA : TimesPows (fun _ _ => k) A A') (v v' : Fl F) :
    (mean (T := Guarded F) A = .ok v → mean (T := Guarded F) A' = .ok v' →
      mean A = .ok v ∧ mean A' = .ok v' ∧ v.TimesPow k v') ∧
    (var (T := Guarded F) A = .ok v → var (T := Guarded F) A' = .ok v' →
      var A = .ok v ∧ var A' = .ok v' ∧ v.TimesPow (k + k) v') ∧
    (stddev (T := Guarded F) A = .ok v → stddev (T := Guarded F) A' = .ok v' →
      stddev A = .ok v ∧ stddev A' = .ok v' ∧ v.TimesPow k v') := by
  have a := toM (d := fun _ _ => k) hA fun _ _ => rfl
  have s := sim_mat _ _ A
  have s' := sim_mat _ _ A'
  exact ⟨fun h h' => ⟨plain_num (sim_mean s) h, plain_num (sim_mean s') h', Graded.mean a _ _ h h'⟩,
    fun h h' => ⟨plain_num (sim_var s) h, plain_num (sim_var s') h', Graded.var a _ _ h h'⟩,
    fun h h' => ⟨plain_num (sim_stddev s) h, plain_num (sim_stddev s') h', Graded.stddev a _ _ h h'⟩⟩

/-- The answers do not change. -/
theorem C148_predicates {m n : Nat} (k : ℤ) (h : Fin n → ℤ) (A A' B B' : Mat (Fl F) m n) (eps eps' : Fl F) (S S' : Mat (Fl F) n n)
    (hA : TimesPows (fun _ _ => k) A A') (hB : TimesPows (fun _ _ => k) B B') (he : eps.TimesPow k eps')
    (hS : TimesPows (fun i j => h i + h j) S S') (b b' : Bool) :
    (compare (T := Guarded F) A B eps = .ok b → compare (T := Guarded F) A' B' eps' = .ok b' →
      compare A B eps = .ok b ∧ compare A' B' eps' = .ok b' ∧ b = b') ∧
    isSymetric S = isSymetric S' := by
  have sA := sim_mat _ _ A
  have sA' := sim_mat _ _ A'
  have sB := sim_mat _ _ B
  have sB' := sim_mat _ _ B'
  refine ⟨fun e e' => ⟨plain_bool (sim_compare (T := Guarded F) (e := eps) sA sB rfl) e, plain_bool (sim_compare (T := Guarded F) (e := eps') sA' sB' rfl) e',
    Graded.compare (toM (d := fun _ _ => k) hA fun _ _ => rfl) (toM (d := fun _ _ => k) hB fun _ _ => rfl) he _ _ e e'⟩, ?_⟩
  obtain ⟨x, hx⟩ := isSymetric_returns (F := F) S
  obtain ⟨y, hy⟩ := isSymetric_returns (F := F) S'
  have := Graded.isSymetric (h := extend h) (toM (d := fun i j => extend h i + extend h j) hS fun i j => by
    simp only [extend_fin]) _ _ hx hy
  rw [plain_bool (sim_isSymetric (T := Guarded F) (sim_mat _ _ S)) hx, plain_bool (sim_isSymetric (T := Guarded F) (sim_mat _ _ S')) hy, this]

/-- Determinants: row `i` times `2 ^ r i` and column `j` times `2 ^ c j`. -/
theorem C148_det {n : Nat} (r c : Fin n → ℤ) (A A' : Mat (Fl F) n n) (hA : TimesPows (fun i j => r i + c j) A A') (d d' : Fl F)
    (h : det (T := Guarded F) A = .ok d) (h' : det (T := Guarded F) A' = .ok d') :
    det A = .ok d ∧ det A' = .ok d' ∧ d.TimesPow (∑ i, r i + ∑ j, c j) d' := by
  refine ⟨plain_num (sim_det (sim_mat _ _ A)) h, plain_num (sim_det (sim_mat _ _ A')) h', ?_⟩
  have := Graded.det (toM (d := fun i j => extend r i + extend c j) hA fun i j => by simp only [extend_fin]) _ _ h h'
  rwa [extend_sum, extend_sum] at this

/-- Inverses: rows and columns change places, and the exponents their signs. -/
theorem C148_inv (handled : Option Exc) {n : Nat} (r c : Fin n → ℤ) (A A' : Mat (Fl F) n n)
    (hA : TimesPows (fun i j => r i + c j) A A') (B B' : Mat (Fl F) n n)
    (h : inv (T := Guarded F) handled A = .ok B) (h' : inv (T := Guarded F) handled A' = .ok B') :
    inv handled A = .ok B ∧ inv handled A' = .ok B' ∧ TimesPows (fun i j => -(c i + r j)) B B' := by
  refine ⟨plain_mat (sim_inv handled (sim_mat _ _ A)) h, plain_mat (sim_inv handled (sim_mat _ _ A')) h', ?_⟩
  refine ofM (Graded.inv handled (toM (d := fun i j => extend r i + extend c j) hA fun i j => by
    simp only [extend_fin]) _ _ h h') fun i j => ?_
  simp only [extend_fin]
  ring

/-- LU: the unit diagonal of `L` stays. -/
theorem C148_lu {n : Nat} (r c : Fin n → ℤ) (A A' : Mat (Fl F) n n) (hA : TimesPows (fun i j => r i + c j) A A')
    (L U L' U' : Mat (Fl F) n n) (h : lu (T := Guarded F) A = .ok (L, U)) (h' : lu (T := Guarded F) A' = .ok (L', U')) :
    lu A = .ok (L, U) ∧ lu A' = .ok (L', U') ∧ TimesPows (fun i j => r i - r j) L L' ∧ TimesPows (fun i j => r i + c j) U U' := by
  refine ⟨plain_pair (sim_lu (sim_mat _ _ A)) h, plain_pair (sim_lu (sim_mat _ _ A')) h', ?_⟩
  obtain ⟨hL, hU⟩ := Graded.lu (toM (d := fun i j => extend r i + extend c j) hA fun i j => by
    simp only [extend_fin]) _ _ h h'
  exact ⟨ofM hL fun i j => by simp only [extend_fin], ofM hU fun i j => by simp only [extend_fin]⟩

/-- Cholesky: row and column `i` times `2 ^ k i`. -/
theorem C148_chol {n : Nat} (k : Fin n → ℤ) (A A' : Mat (Fl F) n n) (hA : TimesPows (fun i j => k i + k j) A A')
    (L L' : Mat (Fl F) n n) (h : chol (T := Guarded F) A = .ok L) (h' : chol (T := Guarded F) A' = .ok L') :
    chol A = .ok L ∧ chol A' = .ok L' ∧ TimesPows (fun i _ => k i) L L' := by
  refine ⟨plain_mat (sim_chol (sim_mat _ _ A)) h, plain_mat (sim_chol (sim_mat _ _ A')) h', ?_⟩
  exact ofM (Graded.chol (h := extend k) (toM (d := fun i j => extend k i + extend k j) hA fun i j => by
    simp only [extend_fin]) _ _ h h') fun i j => by simp only [extend_fin]

/-- Powers: `D A D⁻¹` and multiples. -/
theorem C148_pow (handled : Option Exc) (w : Nat) {n : Nat} (r : Fin n → ℤ) (k p : ℤ) (A A' : Mat (Fl F) n n)
    (hA : TimesPows (fun i j => r i - r j + k) A A') (P P' : Mat (Fl F) n n)
    (h : pow (T := Guarded F) handled w A p = .ok P) (h' : pow (T := Guarded F) handled w A' p = .ok P') :
    pow handled w A p = .ok P ∧ pow handled w A' p = .ok P' ∧ TimesPows (fun i j => r i - r j + p * k) P P' := by
  refine ⟨plain_mat (sim_pow (T := Guarded F) handled w (sim_mat _ _ A) p) h, plain_mat (sim_pow (T := Guarded F) handled w (sim_mat _ _ A') p) h', ?_⟩
  exact ofM (Graded.pow handled w p (toM (d := fun i j => extend r i - extend r j + k) hA fun i j => by
    simp only [extend_fin]) _ _ h h') fun i j => by simp only [extend_fin]

/-- A call that returns this 1x1 matrix. -/
theorem ok_single {x : Res (Mat (Fl F) 1 1)} {a : Fl F} (h : (match x with | .ok P => decide (P 0 0 = a) | _ => false) = true) :
    x = .ok (Mat.const a) := by
  split at h
  · refine congrArg _ (Matrix.ext fun i j => ?_)
    rw [Fin.fin_one_eq_zero i, Fin.fin_one_eq_zero j]
    exact of_decide_eq_true h
  · cases h

/-- Without the condition on the range it is false: 3 and 6 times the smallest positive number, both halved. -/
theorem C148_underflow : ∃ A A' B P P' : Mat (Fl binary32) 1 1, TimesPows (fun _ _ => 1) A A' ∧ TimesPows (fun _ _ => 0) B B ∧
    mult A B = .ok P ∧ mult A' B = .ok P' ∧ ¬ TimesPows (fun _ _ => 1) P P' := by
  refine ⟨Mat.const (.fin false 3 (by decide)), Mat.const (.fin false 6 (by decide)),
    Mat.const (.fin false (2 ^ 148) (by decide +kernel)), Mat.const (.fin false 2 (by decide)), Mat.const (.fin false 3 (by decide)),
    fun _ _ => Fl.timesPow_fin (by norm_num), fun _ _ => Fl.timesPow_self trivial, ?_, ?_, ?_⟩
  · exact ok_single (by decide +kernel)
  · exact ok_single (by decide +kernel)
  · intro h
    obtain ⟨s, N, N', _, _, e1, e2, e⟩ := (h 0 0).cases
    simp only [Mat.const, Matrix.of_apply, Fl.fin.injEq] at e1 e2
    rw [← e1.2, ← e2.2] at e
    norm_num at e

/-- A case: a 4x4 matrix of `float`s, its rows and columns times different powers of two, and no operation leaves the range. -/
def scaleExample : Fin 4 → Fin 4 → ℤ := ![![4, 1, 0, 2], ![1, 5, 3, 0], ![0, 3, 6, 1], ![2, 0, 1, 7]]

/-- The exponents of the rows; the columns have the same. -/
def scaleExps : Fin 4 → ℤ := ![0, 3, 1, 2]

/-- The matrix. -/
def scaleA : Mat (Fl binary32) 4 4 := .of fun i j => Fl.ofInt (scaleExample i j)

/-- The matrix in other units. -/
def scaleA' : Mat (Fl binary32) 4 4 := .of fun i j => Fl.ofInt (scaleExample i j * 2 ^ (scaleExps i + scaleExps j).toNat)

example : TimesPows (fun i j => scaleExps i + scaleExps j) scaleA scaleA' := by
  have h : ∀ i j : Fin 4, (Fl.ofInt (scaleExample i j) : Fl binary32).Finite := by decide +kernel
  have h' : ∀ i j : Fin 4, (Fl.ofInt (scaleExample i j * 2 ^ (scaleExps i + scaleExps j).toNat) : Fl binary32).Finite := by
    decide +kernel
  have h0 : ∀ i j : Fin 4, 0 ≤ scaleExps i + scaleExps j := by decide
  intro i j
  refine timesPow_ofInt (h i j) (h' i j) ?_
  push_cast
  rw [← zpow_natCast, Int.toNat_of_nonneg (h0 i j)]
  ring

example : (det (T := Guarded binary32) scaleA).isOk ∧ (det (T := Guarded binary32) scaleA').isOk := by decide +kernel
example : (inv (T := Guarded binary32) none scaleA).isOk ∧ (inv (T := Guarded binary32) none scaleA').isOk := by decide +kernel
example : (lu (T := Guarded binary32) scaleA).isOk ∧ (lu (T := Guarded binary32) scaleA').isOk := by decide +kernel
example : (chol (T := Guarded binary32) scaleA).isOk ∧ (chol (T := Guarded binary32) scaleA').isOk := by decide +kernel
example : (mult (T := Guarded binary32) scaleA scaleA).isOk ∧ (mult (T := Guarded binary32) scaleA' scaleA').isOk := by
  decide +kernel
example : (pow (T := Guarded binary32) none 32 scaleA (-2)).isOk ∧ (stddev (T := Guarded binary32) scaleA).isOk ∧
    (conv2 (T := Guarded binary32) scaleA (Mat.const (Fl.ofInt 3 : Fl binary32))).isOk := by decide +kernel

end MatrixLibs
