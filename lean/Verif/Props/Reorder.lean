import Verif.Proof.Reorder
import Verif.Props.Env
import Verif.Props.Unsigned

/-!
# Property C154: sums evaluated in another order
-/

namespace MatrixLibs

set_option linter.unusedSectionVars false
set_option exponentiation.threshold 300

open CScalar (ofInt)

/-! ## The code is one of the orders -/

section
variable {T : Type} [Inhabited T] [CScalar T] {n m p r c : Nat}

/-- C154: the order from left to right gives the functions as they are written, for every element type. -/
theorem C154_code (A : Mat T n m) (B : Mat T m p) (D : Mat T r c) (k : Mat T 3 3) :
    multIn (fun _ _ => .seq (m - 1)) A B = mult A B ∧ conv2In (fun _ _ => .seq 8) D k = conv2 D k ∧
    conv2FullIn (fun _ _ => .seq 8) D k = conv2_full D k ∧ meanIn (.seq (r * c - 1)) D = mean D :=
  ⟨multIn_seq A B, conv2In_seq D k, conv2FullIn_seq D k, meanIn_seq D⟩

/-- C154: orders that add every term once: from left to right, pairwise, and with `s + 1` accumulators. -/
theorem C154_orders (m k s q : Nat) :
    (AddOrder.seq m).Adds (m + 1) ∧ (AddOrder.pairs k 0).Adds (2 ^ k) ∧ (AddOrder.lanes (s + 1) q s).Adds ((s + 1) * (q + 1)) :=
  ⟨AddOrder.seq_adds m, AddOrder.pairs_adds k, AddOrder.lanes_adds s q⟩

end

/-! ## Exact arithmetic -/

section
variable {K : Type} [Ring K] [Inhabited K] [CScalar K] [ExactRing K] {n m p r c : Nat}

/-- C154: in exact arithmetic the order has no influence. -/
theorem C154_exact (o : Nat → Nat → AddOrder) (q : AddOrder) (A : Mat K n m) (B : Mat K m p) (D : Mat K r c) (k : Mat K 3 3) :
    ((∀ a b, (o a b).Adds m) → multIn o A B = mult A B) ∧
    ((∀ a b, (o a b).Adds 9) → r < 2 ^ 32 → c < 2 ^ 32 → conv2In o D k = conv2 D k) ∧
    ((∀ a b, (o a b).Adds 9) → r + 1 < 2 ^ 32 → c + 1 < 2 ^ 32 → conv2FullIn o D k = conv2_full D k) ∧
    (q.Adds (r * c) → meanIn q D = mean D) :=
  ⟨fun h => multIn_exact o h A B, fun h h1 h2 => conv2In_exact o h D k h1 h2, fun h h1 h2 => conv2FullIn_exact o h D k h1 h2,
    fun h => meanIn_exact q h D⟩

end

/-- C154: in particular for unsigned integers, whose sums wrap. -/
theorem C154_unsigned {w n m p : Nat} (o : Nat → Nat → AddOrder) (ho : ∀ a b, (o a b).Adds m) (A : Mat (BitVec w) n m)
    (B : Mat (BitVec w) m p) : ∃ R, multIn o A B = .ok R ∧ ∀ a b, (R a b).toNat = (∑ k, (A a k).toNat * (B k b).toNat) % 2 ^ w := by
  obtain ⟨R, h1, h2⟩ := C18_mul_unsigned w A B
  exact ⟨R, (multIn_exact o ho A B).trans h1, h2⟩

/-! ## Error bounds in the standard model -/

section
variable {T : Type} [Inhabited T] [CScalar T] [Standard T] {n m p r c : Nat}
open Standard (val u h)

/-- C154: products. -/
theorem C154_mult (o : Nat → Nat → AddOrder) (A : Mat T n m) (B : Mat T m p) (P : Mat T n p) (hP : multIn o A B = .ok P)
    (i : Fin n) (j : Fin p) (ho : (o i j).Adds m) :
    |val (P i j) - ∑ k, val (A i k) * val (B k j)| ≤
      ((1 + u T) ^ m - 1) * (∑ k, |val (A i k)| * |val (B k j)|) + 2 * m * (1 + u T) ^ (m - 1) * h T :=
  multIn_err hP i j ho

/-- C154: products, by the depth of the order: the fewer additions a term passes through, the better the bound. -/
theorem C154_mult_depth (o : Nat → Nat → AddOrder) (A : Mat T n m) (B : Mat T m p) (P : Mat T n p) (hP : multIn o A B = .ok P)
    (i : Fin n) (j : Fin p) (ho : (o i j).Adds m) :
    |val (P i j) - ∑ k, val (A i k) * val (B k j)| ≤
      ((1 + u T) ^ ((o i j).depth + 1) - 1) * (∑ k, |val (A i k)| * |val (B k j)|) +
        2 * m * (1 + u T) ^ (o i j).depth * h T :=
  multIn_err_depth hP i j ho

/-- C154: pairwise summation: the relative error grows with the logarithm of the number of terms. -/
theorem C154_mult_pairs (k : Nat) (A : Mat T n (2 ^ k)) (B : Mat T (2 ^ k) p) (P : Mat T n p)
    (hP : multIn (fun _ _ => .pairs k 0) A B = .ok P) (i : Fin n) (j : Fin p) :
    |val (P i j) - ∑ k, val (A i k) * val (B k j)| ≤
      ((1 + u T) ^ (k + 1) - 1) * (∑ k, |val (A i k)| * |val (B k j)|) + 2 ^ (k + 1) * (1 + u T) ^ k * h T := by
  have := multIn_err_depth hP i j (AddOrder.pairs_adds k)
  rw [AddOrder.pairs_depth] at this
  refine this.trans (le_of_eq ?_)
  push_cast
  ring

/-- C154: a loop with `s + 1` accumulators: every term passes through at most `q + s` additions. -/
theorem C154_mult_lanes (s q : Nat) (A : Mat T n ((s + 1) * (q + 1))) (B : Mat T ((s + 1) * (q + 1)) p) (P : Mat T n p)
    (hP : multIn (fun _ _ => .lanes (s + 1) q s) A B = .ok P) (i : Fin n) (j : Fin p) :
    |val (P i j) - ∑ k, val (A i k) * val (B k j)| ≤
      ((1 + u T) ^ (q + s + 1) - 1) * (∑ k, |val (A i k)| * |val (B k j)|) +
        2 * ((s + 1) * (q + 1)) * (1 + u T) ^ (q + s) * h T := by
  have := multIn_err_depth hP i j (AddOrder.lanes_adds s q)
  rw [AddOrder.lanes_depth] at this
  refine this.trans (le_of_eq ?_)
  push_cast
  ring

/-- C154: products evaluated in two orders (for example by two builds) are near each other. -/
theorem C154_mult_two (o o' : Nat → Nat → AddOrder) (A : Mat T n m) (B : Mat T m p) (P P' : Mat T n p)
    (hP : multIn o A B = .ok P) (hP' : multIn o' A B = .ok P') (i : Fin n) (j : Fin p) (ho : (o i j).Adds m)
    (ho' : (o' i j).Adds m) :
    |val (P i j) - val (P' i j)| ≤
      2 * ((1 + u T) ^ m - 1) * (∑ k, |val (A i k)| * |val (B k j)|) + 4 * m * (1 + u T) ^ (m - 1) * h T := by
  have h1 := multIn_err hP i j ho
  have h2 := multIn_err hP' i j ho'
  rw [abs_sub_comm] at h2
  have := abs_sub_le (val (P i j)) (∑ k, val (A i k) * val (B k j)) (val (P' i j))
  linarith

/-- C154: convolution. -/
theorem C154_conv2 (o : Nat → Nat → AddOrder) (ho : ∀ a b, (o a b).Adds 9) (A : Mat T r c) (k : Mat T 3 3) (S : Mat T r c)
    (hS : conv2In o A k = .ok S) (hr : r ≤ 2 ^ 31) (hc : c ≤ 2 ^ 31) (i : Fin r) (j : Fin c) :
    |val (S i j) - correlateAt (A.map val) (k.map val) i.val j.val| ≤
      ((1 + u T) ^ 9 - 1) * correlateAt ((A.map val).map fun x => |x|) ((k.map val).map fun x => |x|) i.val j.val +
        18 * (1 + u T) ^ 8 * h T :=
  conv2In_err ho hS hr hc i j

/-- C154: full convolution. -/
theorem C154_conv2_full (o : Nat → Nat → AddOrder) (ho : ∀ a b, (o a b).Adds 9) (A : Mat T r c) (k : Mat T 3 3)
    (S : Mat T (r + 2) (c + 2)) (hS : conv2FullIn o A k = .ok S) (hr : r ≤ 2 ^ 31) (hc : c ≤ 2 ^ 31) (i : Fin (r + 2))
    (j : Fin (c + 2)) :
    |val (S i j) - correlateAt (A.map val) (k.map val) ((i.val : ℤ) - 1) ((j.val : ℤ) - 1)| ≤
      ((1 + u T) ^ 9 - 1) *
          correlateAt ((A.map val).map fun x => |x|) ((k.map val).map fun x => |x|) ((i.val : ℤ) - 1) ((j.val : ℤ) - 1) +
        18 * (1 + u T) ^ 8 * h T :=
  conv2FullIn_err ho hS hr hc i j

/-- C154: means. -/
theorem C154_mean (o : AddOrder) (ho : o.Adds (r * c)) (A : Mat T r c) (μ : T) (hμ : meanIn o A = .ok μ) (h0 : r * c ≠ 0) :
    |val μ - (∑ a, ∑ b, val (A a b)) / ((r * c : Nat) : ℝ)| ≤
      ((1 + u T) ^ (r * c + 2) - 1) * ((∑ a, ∑ b, |val (A a b)|) / ((r * c : Nat) : ℝ)) +
        (2 * (1 + u T) ^ (r * c + 1) + 1) * h T :=
  meanIn_err ho hμ h0

end

/-! ## Floating point environments -/

section
variable {T U : Type} [Inhabited T] [CScalar T] [Inhabited U] [CScalar U] [Rel T U] [SimRing T U] {n m p r c : Nat}

theorem AddOrder.sim_eval {t : Nat → Res T} {t' : Nat → Res U} (h : ∀ k, SimRes (t k) (t' k)) :
    ∀ o : AddOrder, SimRes (o.eval t) (o.eval t')
  | term k => h k
  | start k => sim_bind (h k) fun _ _ h => SimRing.add SimRing.zero h
  | add l q => sim_bind (sim_eval h l) fun _ _ h1 => sim_bind (sim_eval h q) fun _ _ h2 => SimRing.add h1 h2

theorem sim_sumIn {t : Nat → Res T} {t' : Nat → Res U} (h : ∀ k, SimRes (t k) (t' k)) (o : AddOrder) :
    SimRes (sumIn m o t) (sumIn m o t') := by
  unfold sumIn
  exact sim_ite (fun _ => sim_ok SimRing.zero) fun _ => o.sim_eval h

theorem sim_multIn (o : Nat → Nat → AddOrder) {A : Mat T n m} {A' : Mat U n m} {B : Mat T m p} {B' : Mat U m p} (hA : A ≈≈ A')
    (hB : B ≈≈ B') : SimRes (multIn o A B) (multIn o A' B') := by
  unfold multIn
  refine sim_bind sim_zeros fun _ _ h => sim_forUp h fun _ _ _ h => sim_forUp h fun _ _ _ h => ?_
  refine sim_bind (sim_sumIn (fun k => ?_) _) fun _ _ h' => sim_wr h h' _ _
  exact sim_bind (sim_rd hA _ _) fun _ _ h1 => sim_bind (sim_rd hB _ _) fun _ _ h2 => SimRing.mul h1 h2

theorem sim_conv2In (o : Nat → Nat → AddOrder) {A : Mat T r c} {A' : Mat U r c} {K : Mat T 3 3} {K' : Mat U 3 3} (hA : A ≈≈ A')
    (hK : K ≈≈ K') : SimRes (conv2In o A K) (conv2In o A' K') := by
  unfold conv2In
  refine sim_forUp ?_ fun _ _ _ h => sim_forUp h fun _ _ _ h => ?_
  · exact fun _ _ => SimRing.init
  · exact sim_bind (sim_sumIn (fun k => sim_convTerm hA hK _ _ _ _) _) fun _ _ h' => sim_wr h h' _ _

theorem sim_conv2FullIn (o : Nat → Nat → AddOrder) {A : Mat T r c} {A' : Mat U r c} {K : Mat T 3 3} {K' : Mat U 3 3}
    (hA : A ≈≈ A') (hK : K ≈≈ K') : SimRes (conv2FullIn o A K) (conv2FullIn o A' K') := by
  unfold conv2FullIn
  refine sim_forUp ?_ fun _ _ _ h => sim_forUp h fun _ _ _ h => ?_
  · exact fun _ _ => SimRing.init
  · exact sim_bind (sim_sumIn (fun k => sim_convTerm hA hK _ _ _ _) _) fun _ _ h' => sim_wr h h' _ _

end

theorem env_meanIn {e : FpEnv} {F : Fmt} {r c : Nat} (o : AddOrder) {A : Mat (Trapped e F) r c} {A' : Mat (InEnv e F) r c}
    (hA : A ≈≈ A') : SimRes (meanIn o A) (meanIn o A') := by
  unfold meanIn
  refine sim_bind (sim_sumIn (fun k => sim_rd hA _ _) o) fun a b h => ?_
  obtain rfl : Eq (α := Fl F) a b := h
  exact sim_tDivSize a _

section
variable {F : Fmt} {n m p r c : Nat} (e : FpEnv)

/-- C154: products in a floating point environment (`-ffast-math`: any order, FTZ and DAZ set): if no operation overflows or is
invalid, the result is near the exact product of the operands as they are read. -/
theorem C154_mult_env (o : Nat → Nat → AddOrder) (ho : ∀ a b, (o a b).Adds m) (A : Mat (Fl F) n m) (B : Mat (Fl F) m p)
    (P : Mat (Fl F) n p) (hP : multIn (T := Trapped e F) o A B = .ok P) :
    multIn (T := InEnv e F) o A B = .ok P ∧ ∀ i j, |e.val (P i j) - ∑ k, e.val (A i k) * e.val (B k j)| ≤
      ((1 + e.u F) ^ m - 1) * (∑ k, |e.val (A i k)| * |e.val (B k j)|) + 2 * m * (1 + e.u F) ^ (m - 1) * e.eta F := by
  refine ⟨env_res (sim_multIn o (env_mat e A) (env_mat e B)) hP, fun i j => ?_⟩
  rw [← trapped_h]
  exact C154_mult (T := Trapped e F) o A B P hP i j (ho i j)

/-- C154: convolutions in a floating point environment. -/
theorem C154_conv2_env (o : Nat → Nat → AddOrder) (ho : ∀ a b, (o a b).Adds 9) (A S : Mat (Fl F) r c) (k : Mat (Fl F) 3 3)
    (hS : conv2In (T := Trapped e F) o A k = .ok S) (hr : r ≤ 2 ^ 31) (hc : c ≤ 2 ^ 31) :
    conv2In (T := InEnv e F) o A k = .ok S ∧ ∀ (i : Fin r) (j : Fin c),
      |e.val (S i j) - correlateAt (A.map e.val) (k.map e.val) i.val j.val| ≤
        ((1 + e.u F) ^ 9 - 1) * correlateAt ((A.map e.val).map fun x => |x|) ((k.map e.val).map fun x => |x|) i.val j.val +
          18 * (1 + e.u F) ^ 8 * e.eta F := by
  refine ⟨env_res (sim_conv2In o (env_mat e A) (env_mat e k)) hS, fun i j => ?_⟩
  rw [← trapped_h]
  exact C154_conv2 (T := Trapped e F) o ho A k S hS hr hc i j

/-- C154: full convolutions in a floating point environment. -/
theorem C154_conv2_full_env (o : Nat → Nat → AddOrder) (ho : ∀ a b, (o a b).Adds 9) (A : Mat (Fl F) r c)
    (S : Mat (Fl F) (r + 2) (c + 2)) (k : Mat (Fl F) 3 3) (hS : conv2FullIn (T := Trapped e F) o A k = .ok S) (hr : r ≤ 2 ^ 31)
    (hc : c ≤ 2 ^ 31) :
    conv2FullIn (T := InEnv e F) o A k = .ok S ∧ ∀ (i : Fin (r + 2)) (j : Fin (c + 2)),
      |e.val (S i j) - correlateAt (A.map e.val) (k.map e.val) ((i.val : ℤ) - 1) ((j.val : ℤ) - 1)| ≤
        ((1 + e.u F) ^ 9 - 1) * correlateAt ((A.map e.val).map fun x => |x|) ((k.map e.val).map fun x => |x|) ((i.val : ℤ) - 1)
            ((j.val : ℤ) - 1) +
          18 * (1 + e.u F) ^ 8 * e.eta F := by
  refine ⟨env_res (sim_conv2FullIn o (env_mat e A) (env_mat e k)) hS, fun i j => ?_⟩
  rw [← trapped_h]
  exact C154_conv2_full (T := Trapped e F) o ho A k S hS hr hc i j

/-- C154: means in a floating point environment. -/
theorem C154_mean_env (o : AddOrder) (ho : o.Adds (r * c)) (A : Mat (Fl F) r c) (μ : Fl F)
    (hμ : meanIn (T := Trapped e F) o A = .ok μ) (h0 : r * c ≠ 0) :
    meanIn (T := InEnv e F) o A = .ok μ ∧ |e.val μ - (∑ a, ∑ b, e.val (A a b)) / ((r * c : Nat) : ℝ)| ≤
      ((1 + e.u F) ^ (r * c + 2) - 1) * ((∑ a, ∑ b, |e.val (A a b)|) / ((r * c : Nat) : ℝ)) +
        (2 * (1 + e.u F) ^ (r * c + 1) + 1) * e.eta F := by
  refine ⟨env_num (env_meanIn o (env_mat e A)) hμ, ?_⟩
  rw [← trapped_h]
  exact C154_mean (T := Trapped e F) o ho A μ hμ h0

end

/-! ## Integers held as floating point numbers -/

section
variable {F : Fmt} {n m p r c : Nat}

/-- C154: if all elements are integers and the sums of the absolute values of the terms are at most `2 ^ p`, every order gives the
exact product: then the order has no influence on floating point results either. -/
theorem C154_integers (o : Nat → Nat → AddOrder) (ho : ∀ a b, (o a b).Adds m) (A : Mat ℤ n m) (B : Mat ℤ m p)
    (X : Mat (Fl F) n m) (Y : Mat (Fl F) m p) (hX : ∀ i j, (X i j).Finite ∧ (X i j).val = A i j)
    (hY : ∀ i j, (Y i j).Finite ∧ (Y i j).val = B i j) (hb : ∀ i j, ∑ k, |A i k| * |B k j| ≤ 2 ^ F.p) :
    ∃ Z, multIn o X Y = .ok Z ∧ ∀ i j, (Z i j).Finite ∧ (Z i j).val = ((A * B) i j : ℤ) := by
  have key : ∀ (i : Fin n) (j : Fin p), ∃ z : Fl F, sumIn m (o i j) (dotTerm X Y i j) = .ok z ∧ HoldsOne z ((A * B) i j) := by
    intro i j
    have hsum : ∑ k : Fin m, (A i k * B k j).natAbs ≤ 2 ^ F.p := by
      have := hb i j
      zify
      simpa only [abs_mul] using this
    have ht : ∀ k < m, ∃ x, dotTerm X Y i j k = .ok x ∧ HoldsOne x (if hk : k < m then A i ⟨k, hk⟩ * B ⟨k, hk⟩ j else 0) := by
      intro k hk
      refine ⟨(X i ⟨k, hk⟩).mul (Y ⟨k, hk⟩ j), ?_, ?_⟩
      · unfold dotTerm
        rw [rd_eq i.2 hk, ok_bind, rd_eq hk j.2, ok_bind]
        rfl
      · rw [dif_pos hk]
        refine .of_rounded ?_ (Fl.mul_rounded (hX i ⟨k, hk⟩).1 (hY ⟨k, hk⟩ j).1) ?_
        · rw [(hX _ _).2, (hY _ _).2]
          push_cast
          ring
        · exact (Finset.single_le_sum (f := fun k : Fin m => (A i k * B k j).natAbs) (fun _ _ => Nat.zero_le _)
            (Finset.mem_univ (⟨k, hk⟩ : Fin m))).trans hsum
    obtain ⟨z, h1, h2⟩ := sumIn_int (ho i j) ht (by rw [Finset.sum_range]; simpa using hsum)
    refine ⟨z, h1, ?_⟩
    rw [Finset.sum_range] at h2
    simpa [Matrix.mul_apply] using h2
  choose Z h1 h2 using key
  exact ⟨.of Z, (multIn_elementwise o X Y).eq_ok h1, h2⟩

end

/-! ## The order matters in general, and concrete cases -/

/-- 2^24, 1, 1 -/
def reA : Mat (Fl binary32) 1 3 := !![Fl.ofInt 16777216, Fl.ofInt 1, Fl.ofInt 1]
/-- 1, 1, 1 -/
def reB : Mat (Fl binary32) 3 1 := !![Fl.ofInt 1; Fl.ofInt 1; Fl.ofInt 1]
/-- The last two terms first. -/
def reO : AddOrder := .add (.term 0) (.add (.term 1) (.term 2))

/-- C154: in binary32 the order has an influence: 2^24 + 1 + 1 is 2^24 from left to right and 2^24 + 2 if the ones are added first. -/
theorem C154_matters : reO.Adds 3 ∧ multIn (fun _ _ => reO) reA reB = .ok !![(Fl.ofInt 16777218 : Fl binary32)] ∧
    mult reA reB = .ok !![(Fl.ofInt 16777216 : Fl binary32)] := by
  refine ⟨.inr (by decide), ?_, ?_⟩
  · refine (multIn_elementwise _ _ _).eq_ok fun a b => ?_
    fin_cases a
    fin_cases b
    decide +kernel
  · refine (mult_elementwise _ _).eq_ok fun a b => ?_
    fin_cases a
    fin_cases b
    decide +kernel

example : (multIn (T := Trapped envFast binary32) (fun _ _ => reO) envA envS).isOk ∧
    (multIn (T := Trapped envArm binary32) (fun a b => if a < b then .seq 2 else reO) envA envS).isOk := by decide +kernel
example : (conv2In (T := Trapped envFast binary32) (fun _ _ => .lanes 3 2 2) envA envS).isOk ∧
    (conv2FullIn (T := Trapped envArm binary32) (fun _ _ => .lanes 3 2 2) envA envS).isOk := by decide +kernel
example : (AddOrder.lanes 3 2 2).Adds 9 := AddOrder.lanes_adds 2 2
example : (meanIn (T := Trapped envFast binary32) (.lanes 3 2 2) envA).isOk := by decide +kernel
example : (multIn (T := Trapped envFast binary32) (fun _ _ => .pairs 1 0)
    (envA.submatrix (Fin.castSucc : Fin 2 → Fin 3) Fin.castSucc) (envS.submatrix (Fin.castSucc : Fin 2 → Fin 3) Fin.castSucc)).isOk := by
  decide +kernel
example : (multIn (T := Trapped envFast binary32) (fun _ _ => .lanes 2 0 1)
    (envA.submatrix (Fin.castSucc : Fin 2 → Fin 3) Fin.castSucc) (envS.submatrix (Fin.castSucc : Fin 2 → Fin 3) Fin.castSucc)).isOk := by
  decide +kernel
example : ∀ i j : Fin 3, ∑ k, |(!![1, -2, 3; 4, 5, -6; 7, 8, 9] : Mat ℤ 3 3) i k| * |(!![1, 0, 3; -4, 5, 6; 7, 1, 2] : Mat ℤ 3 3) k j| ≤
    2 ^ binary32.p := by decide +kernel

end MatrixLibs
