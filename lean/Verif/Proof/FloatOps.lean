import Verif.Proof.Float
import Verif.Proof.Safety
import Mathlib.Algebra.BigOperators.Group.List.Basic
import Mathlib.Algebra.Order.BigOperators.Group.List

/-!
# Facts about floating point operations and sums
-/

namespace MatrixLibs

namespace Fl
variable {F : Fmt}

/-! ## Non-finite operands -/

theorem pack_finite {s : Bool} {N : Nat} : (pack s N : Fl F).Finite ↔ F.Rep N := by
  unfold pack
  split
  · next h => exact ⟨fun _ => h, fun _ => trivial⟩
  · next h => exact ⟨fun h' => h'.elim, fun h' => absurd h' h⟩

theorem pack_ne_nan {s : Bool} {N : Nat} : (pack s N : Fl F) ≠ .nan := by
  unfold pack
  split <;> intro h <;> cases h

theorem roundInt_ne_nan {s : Bool} {z : Int} : (roundInt s z : Fl F) ≠ .nan := by
  unfold roundInt
  split <;> exact pack_ne_nan

theorem add_finite {a b : Fl F} (h : (a.add b).Finite) : a.Finite ∧ b.Finite := by
  cases a <;> cases b <;> simp only [add] at h
  all_goals first | exact ⟨trivial, trivial⟩ | exact h.elim | skip
  split at h <;> exact h.elim

theorem sub_finite {a b : Fl F} (h : (a.sub b).Finite) : a.Finite ∧ b.Finite := by
  obtain ⟨h1, h2⟩ := add_finite h
  exact ⟨h1, (neg_finite b).mp h2⟩

theorem mul_finite {a b : Fl F} (h : (a.mul b).Finite) : a.Finite ∧ b.Finite := by
  cases a <;> cases b <;> simp only [mul] at h
  all_goals first | exact ⟨trivial, trivial⟩ | exact h.elim | skip
  all_goals split at h <;> exact h.elim

/-- A finite quotient has a finite dividend. -/
theorem div_finite_left {a b : Fl F} (h : (a.div b).Finite) : a.Finite := by
  cases a <;> cases b <;> simp only [div] at h
  all_goals first | trivial | exact h.elim

theorem nan_add (a : Fl F) : add .nan a = .nan := by cases a <;> rfl
theorem add_nan (a : Fl F) : add a .nan = .nan := by cases a <;> rfl
theorem nan_sub (a : Fl F) : sub .nan a = .nan := nan_add _
theorem sub_nan (a : Fl F) : sub a .nan = .nan := add_nan _
theorem nan_mul (a : Fl F) : mul .nan a = .nan := by cases a <;> rfl
theorem mul_nan (a : Fl F) : mul a .nan = .nan := by cases a <;> rfl
theorem nan_div (a : Fl F) : div .nan a = .nan := by cases a <;> rfl
theorem div_nan (a : Fl F) : div a .nan = .nan := by cases a <;> rfl

/-! ## Algebra -/

theorem add_comm' (a b : Fl F) : a.add b = b.add a := by
  cases a <;> cases b <;> simp only [add]
  · next s t => cases s <;> cases t <;> rfl
  · next s M _ t N _ => rw [add_comm, Bool.and_comm]

theorem mul_comm' (a b : Fl F) : a.mul b = b.mul a := by
  cases a <;> cases b <;> simp only [mul]
  · rw [Bool.xor_comm]
  · rw [Bool.xor_comm]
  · rw [Bool.xor_comm]
  · rw [Bool.xor_comm, mul_comm]

/-! ## Values -/

theorem ofInt_zero : (ofInt 0 : Fl F) = pack false 0 := by
  unfold ofInt roundInt
  rw [zero_mul, if_pos rfl]

theorem rep_zero : F.Rep 0 := ⟨bound_pos F, grid_zero⟩

theorem ofInt_zero' : (ofInt 0 : Fl F) = .fin false 0 rep_zero := by
  rw [ofInt_zero]
  unfold pack
  rw [dif_pos rep_zero]

/-- Integers of at most `2^p` are numbers of the format. -/
theorem rep_int {k : Nat} (h : k ≤ 2 ^ F.p) : F.Rep (k * F.unit) := by
  constructor
  · calc k * F.unit ≤ 2 ^ F.p * F.unit := Nat.mul_le_mul_right _ h
      _ < F.bound := by
        unfold Fmt.unit Fmt.bound
        rw [← pow_add]
        refine Nat.pow_lt_pow_right (by omega) ?_
        have := F.he
        have := F.hp
        omega
  · exact grid_mul h

theorem fin_units {a : Fl F} (ha : a.Finite) : ∃ z : Int, a.val * F.unit = z := by
  match a, ha with
  | .fin s N h, _ => exact ⟨_, val_mul_unit s N h⟩

/-- The magnitude of a finite number is on the grid. -/
theorem fin_rep {a : Fl F} (ha : a.Finite) : ∃ N, F.Rep N ∧ |a.val| * F.unit = N := by
  match a, ha with
  | .fin s N h, _ =>
    refine ⟨N, h, ?_⟩
    unfold val
    rw [abs_div, abs_signed, abs_of_pos (unit_posR F), div_mul_cancel₀ _ (unit_posR F).ne']

theorem val_ofInt_exact (k : Int) (h : k.natAbs ≤ 2 ^ F.p) :
    (ofInt k : Fl F).Finite ∧ (ofInt k : Fl F).val = k := by
  refine (ofInt_rounded (F := F) k).exact (k.natAbs * F.unit) ?_ (rep_int h)
  push_cast
  rw [Nat.cast_natAbs, Int.cast_abs]

theorem zero_finite : (ofInt 0 : Fl F).Finite := (val_ofInt_exact 0 (by simp)).1

theorem zero_val : (ofInt 0 : Fl F).val = 0 := by
  rw [(val_ofInt_exact 0 (by simp)).2, Int.cast_zero]

theorem add_err {a b : Fl F} (h : (a.add b).Finite) :
    |(a.add b).val - (a.val + b.val)| ≤ F.u * |a.val + b.val| := by
  obtain ⟨ha, hb⟩ := add_finite h
  obtain ⟨x, hx⟩ := fin_units ha
  obtain ⟨y, hy⟩ := fin_units hb
  refine (add_rounded ha hb).err_units h (x + y) ?_
  rw [add_mul, hx, hy, Int.cast_add]

theorem sub_err {a b : Fl F} (h : (a.sub b).Finite) :
    |(a.sub b).val - (a.val - b.val)| ≤ F.u * |a.val - b.val| := by
  have := add_err h
  rwa [neg_val, ← sub_eq_add_neg] at this

theorem mul_err {a b : Fl F} (h : (a.mul b).Finite) :
    |(a.mul b).val - a.val * b.val| ≤ F.u * |a.val * b.val| + F.eta := by
  obtain ⟨ha, hb⟩ := mul_finite h
  exact (mul_rounded ha hb).err h

/-- Adding to zero is exact. -/
theorem zero_add_val {a : Fl F} (ha : a.Finite) :
    ((ofInt 0).add a).Finite ∧ ((ofInt 0).add a).val = a.val := by
  obtain ⟨N, hN, e⟩ := fin_rep ha
  have := add_rounded (zero_finite (F := F)) ha
  rw [zero_val, zero_add] at this
  exact this.exact N e hN

/-- An exact result bounded by a finite number is finite, and stays bounded by it. -/
theorem Rounded.le {x : ℝ} {a e : Fl F} (h : Rounded x a) (he : e.Finite) (hx : |x| ≤ |e.val|) :
    a.Finite ∧ |a.val| ≤ |e.val| := by
  have hu := unit_posR F
  obtain ⟨M, hM, eM⟩ := fin_rep he
  have hM' : Nearest F (|e.val| * F.unit) M := by rw [eM]; exact Nearest.self hM.2
  have hh := h
  obtain ⟨N, hN, h'⟩ := h
  have hle : N ≤ M := hN.mono hM' (mul_le_mul_of_nonneg_right hx hu.le)
  have hf : a.Finite := by
    rcases h' with ⟨-, s, hr, rfl, -⟩ | ⟨hb, -⟩
    · trivial
    · have := hM.1; omega
  refine ⟨hf, ?_⟩
  obtain ⟨N2, hN2, -, -, e2⟩ := hh.val_sub hf
  rw [e2, hN2.unique hN, div_le_iff₀ hu, eM]
  exact_mod_cast hle

/-- Rounding never moves a result across a finite number. -/
theorem Rounded.ge {x : ℝ} {a e : Fl F} (h : Rounded x a) (ha : a.Finite) (he : e.Finite)
    (hx : |e.val| ≤ |x|) : |e.val| ≤ |a.val| := by
  have hu := unit_posR F
  obtain ⟨M, hM, eM⟩ := fin_rep he
  have hM' : Nearest F (|e.val| * F.unit) M := by rw [eM]; exact Nearest.self hM.2
  obtain ⟨N, hN, -, -, e2⟩ := h.val_sub ha
  have hle : M ≤ N := hM'.mono hN (mul_le_mul_of_nonneg_right hx hu.le)
  rw [e2, le_div_iff₀ hu, eM]
  exact_mod_cast hle

/-! ## Order -/

theorem signed_lt_bound {s : Bool} {N : Nat} (h : F.Rep N) :
    signed s N < F.bound ∧ -(F.bound : Int) < signed s N := by
  have := h.1
  unfold signed
  cases s
  · simp; omega
  · simp; omega

/-- `<` and `==` of finite numbers compare their values. -/
theorem lt_iff {a b : Fl F} (ha : a.Finite) (hb : b.Finite) : a.lt b = true ↔ a.val < b.val := by
  match a, b, ha, hb with
  | .fin s M hM, .fin t N hN, _, _ =>
    simp only [lt, key, val, decide_eq_true_eq]
    rw [div_lt_div_iff_of_pos_right (unit_posR F), Int.cast_lt]

theorem eq_iff {a b : Fl F} (ha : a.Finite) (hb : b.Finite) : a.eq b = true ↔ a.val = b.val := by
  match a, b, ha, hb with
  | .fin s M hM, .fin t N hN, _, _ =>
    simp only [eq, key, val, decide_eq_true_eq]
    rw [div_left_inj' (unit_posR F).ne', Int.cast_inj]

theorem abs_val (a : Fl F) : a.abs.val = |a.val| := by
  cases a with
  | nan => simp [Fl.abs, val]
  | inf s => simp [Fl.abs, val]
  | fin s N h =>
    simp only [Fl.abs, val]
    rw [abs_div, abs_signed, abs_of_pos (unit_posR F)]
    simp [signed]

theorem abs_finite (a : Fl F) : a.abs.Finite ↔ a.Finite := by cases a <;> exact Iff.rfl

/-! ## Sums -/

/-- Left-to-right floating point sum, starting from zero. -/
def fsum (l : List (Fl F)) : Fl F := l.foldl Fl.add (ofInt 0)

theorem fsum_concat (l : List (Fl F)) (x : Fl F) : fsum (l ++ [x]) = (fsum l).add x := by
  unfold fsum
  rw [List.foldl_append]
  rfl

/-- A finite sum has only finite terms. -/
theorem fsum_finite (l : List (Fl F)) (h : (fsum l).Finite) : ∀ x ∈ l, x.Finite := by
  induction l using List.reverseRecOn with
  | nil => simp
  | append_singleton l x ih =>
    rw [fsum_concat] at h
    obtain ⟨h1, h2⟩ := add_finite h
    intro y hy
    rcases List.mem_append.mp hy with hy | hy
    · exact ih h1 y hy
    · rw [List.mem_singleton.mp hy]; exact h2

theorem fsum_nan (l : List (Fl F)) (h : Fl.nan ∈ l) : fsum l = .nan := by
  induction l using List.reverseRecOn with
  | nil => simp at h
  | append_singleton l x ih =>
    rw [fsum_concat]
    rcases List.mem_append.mp h with h | h
    · rw [ih h, nan_add]
    · rw [← List.mem_singleton.mp h, add_nan]

theorem one_add_u_pow (F : Fmt) (k : Nat) : 1 ≤ (1 + F.u) ^ k :=
  one_le_pow₀ (by have := u_nonneg F; linarith)

theorem sum_abs_nonneg (l : List (Fl F)) : 0 ≤ (l.map fun x => |x.val|).sum := by
  apply List.sum_nonneg
  intro x hx
  obtain ⟨y, -, rfl⟩ := List.mem_map.mp hx
  exact abs_nonneg _

theorem abs_sum_le (l : List (Fl F)) : |(l.map val).sum| ≤ (l.map fun x => |x.val|).sum := by
  induction l with
  | nil => simp
  | cons a l ih =>
    rw [List.map_cons, List.map_cons, List.sum_cons, List.sum_cons]
    exact (abs_add_le _ _).trans (by linarith)

/-- Error of a left-to-right sum. -/
theorem fsum_err (l : List (Fl F)) (h : (fsum l).Finite) :
    |(fsum l).val - (l.map val).sum| ≤
      ((1 + F.u) ^ (l.length - 1) - 1) * (l.map fun x => |x.val|).sum := by
  have hu := u_nonneg F
  induction l using List.reverseRecOn with
  | nil => simp [fsum, zero_val]
  | append_singleton l x ih =>
    rw [fsum_concat] at h ⊢
    obtain ⟨h1, h2⟩ := add_finite h
    rcases l.eq_nil_or_concat with rfl | ⟨l', y, hl⟩
    · have := (zero_add_val h2).2
      simp only [fsum, List.foldl_nil, List.nil_append, List.map_cons, List.map_nil,
        List.sum_singleton, List.length_singleton]
      rw [this]
      simp
    · have hlen : l.length - 1 + 1 = l.length := by rw [hl]; simp
      have e1 := ih h1
      have e2 := add_err h
      have e3 := abs_sum_le l
      have e4 := sum_abs_nonneg l
      rw [List.map_append, List.sum_append, List.map_append, List.sum_append, List.length_append]
      simp only [List.map_cons, List.map_nil, List.sum_singleton, List.length_singleton,
        Nat.add_sub_cancel]
      have e5 := one_add_u_pow F (l.length - 1)
      have e6 : (1 + F.u) ^ l.length = (1 + F.u) ^ (l.length - 1) * (1 + F.u) := by
        conv_lhs => rw [← hlen]
        exact pow_succ _ _
      rw [e6]
      generalize (fsum l).val = s at *
      generalize (l.map val).sum = S at *
      generalize (l.map fun x => |x.val|).sum = B at *
      generalize (1 + F.u) ^ (l.length - 1) = q at *
      generalize F.u = u at *
      generalize ((fsum l).add x).val = f at *
      generalize x.val = v at *
      have a1 : |s + v - (S + v)| ≤ (q - 1) * B := by
        rw [add_sub_add_right_eq_sub]; exact e1
      have a2 : |s + v| ≤ (q - 1) * B + (B + |v|) := by
        have : |S + v| ≤ B + |v| := (abs_add_le _ _).trans (by linarith)
        calc |s + v| = |(s + v - (S + v)) + (S + v)| := by ring_nf
          _ ≤ _ := (abs_add_le _ _).trans (add_le_add a1 this)
      have hv := abs_nonneg v
      calc |f - (S + v)| = |(f - (s + v)) + (s + v - (S + v))| := by ring_nf
        _ ≤ u * |s + v| + (q - 1) * B := (abs_add_le _ _).trans (add_le_add e2 a1)
        _ ≤ u * ((q - 1) * B + (B + |v|)) + (q - 1) * B := by
          have := mul_le_mul_of_nonneg_left a2 hu
          linarith
        _ ≤ (q * (1 + u) - 1) * (B + |v|) := by
          have : 0 ≤ (q - 1) * (1 + u) * |v| := by
            have : 0 ≤ q - 1 := by linarith
            positivity
          nlinarith

/-- A sum of integers whose absolute values add up to at most `2^p` is exact. -/
theorem fsum_int (l : List (Fl F)) (z : Fl F → Int) (hf : ∀ x ∈ l, x.Finite ∧ x.val = z x)
    (hb : (l.map fun x => (z x).natAbs).sum ≤ 2 ^ F.p) :
    (fsum l).Finite ∧ (fsum l).val = ((l.map z).sum : Int) := by
  induction l using List.reverseRecOn with
  | nil => exact ⟨zero_finite, by simp [fsum, zero_val]⟩
  | append_singleton l x ih =>
    rw [List.map_append, List.sum_append] at hb
    simp only [List.map_cons, List.map_nil, List.sum_singleton] at hb
    obtain ⟨i1, i2⟩ := ih (fun y hy => hf y (List.mem_append_left _ hy)) (by omega)
    obtain ⟨x1, x2⟩ := hf x (List.mem_append_right _ (List.mem_singleton_self x))
    rw [fsum_concat, List.map_append, List.sum_append]
    simp only [List.map_cons, List.map_nil, List.sum_singleton]
    have hr := add_rounded i1 x1
    rw [i2, x2, ← Int.cast_add] at hr
    have hle : ((l.map z).sum + z x).natAbs ≤ 2 ^ F.p := by
      refine le_trans ?_ hb
      refine (Int.natAbs_add_le _ _).trans (Nat.add_le_add_right ?_ _)
      clear ih hb hf hr i1 i2
      induction l with
      | nil => simp
      | cons a l ih =>
        simp only [List.map_cons, List.sum_cons]
        exact (Int.natAbs_add_le _ _).trans (by omega)
    refine hr.exact _ ?_ (rep_int hle)
    rw [Nat.cast_mul, Nat.cast_natAbs, Int.cast_abs]

end Fl

end MatrixLibs
