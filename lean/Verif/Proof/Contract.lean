import Verif.Model.Contract
import Verif.Proof.FloatTrack
import Verif.Proof.FloatRes

/-!
# Contracted expressions
-/

namespace MatrixLibs

set_option linter.unusedSectionVars false

namespace Fl
variable {F : Fmt}

/-- `fma(a, b, c)` is the exact `a*b + c`, correctly rounded. -/
theorem fma_rounded {a b c : Fl F} (ha : a.Finite) (hb : b.Finite) (hc : c.Finite) :
    Rounded (a.val * b.val + c.val) (a.fma b c) := by
  match a, b, c, ha, hb, hc with
  | .fin s M hM, .fin t N hN, .fin w K hK, _, _, _ =>
    have hu := unit_posR F
    have e0 : (signed s M : ℝ) * signed t N = (signed (s ^^ t) (M * N) : Int) := by
      cases s <;> cases t <;> simp [signed]
    have e1 : (signed w (K * F.unit) : ℝ) = signed w K * F.unit := by
      cases w <;> simp [signed]
    have e : (signed s M : ℝ) / F.unit * (signed t N / F.unit) + signed w K / F.unit =
        ((signed (s ^^ t) (M * N) + signed w (K * F.unit) : Int) : ℝ) / (F.unit * F.unit) := by
      push_cast
      rw [← e0, e1]
      field_simp
    unfold fma val
    dsimp only
    rw [e]
    generalize signed (s ^^ t) (M * N) + signed w (K * F.unit) = z
    have hu2 := mul_pos hu hu
    split
    · next h =>
      subst h
      refine rounded_pack ?_ (fun h => absurd (by simp) h)
      rw [Int.cast_zero, zero_div, abs_zero, zero_mul]
      exact Nearest.zero
    · next h =>
      refine rounded_pack ?_ (fun _ => ?_)
      · have := roundQuot_nearest (F := F) (a := z.natAbs) (b := F.unit) (unit_pos F)
        rw [abs_div, abs_of_pos hu2]
        have e2 : |(z : ℝ)| / (F.unit * F.unit) * F.unit = (z.natAbs : ℝ) / F.unit := by
          rw [Nat.cast_natAbs, Int.cast_abs]; field_simp
        rwa [e2]
      · rw [decide_eq_true_eq, div_neg_iff]
        constructor
        · intro h
          exact Or.inr ⟨by exact_mod_cast h, hu2⟩
        · rintro (⟨_, h⟩ | ⟨h, _⟩)
          · linarith
          · exact_mod_cast h

/-- A finite `fma` has finite operands. -/
theorem fma_finite {a b c : Fl F} (h : (a.fma b c).Finite) : a.Finite ∧ b.Finite ∧ c.Finite := by
  match a, b, c with
  | .fin s M hM, .fin t N hN, .fin w K hK => exact ⟨trivial, trivial, trivial⟩
  | .fin s M hM, .fin t N hN, .nan => exact h.elim
  | .fin s M hM, .fin t N hN, .inf w => exact h.elim
  | .nan, b, c =>
    have := mul_finite (add_finite (show ((nan : Fl F).mul b |>.add c).Finite by cases b <;> cases c <;> exact h)).1
    exact this.1.elim
  | .inf s, b, c =>
    have := mul_finite (add_finite (show ((inf s : Fl F).mul b |>.add c).Finite by cases b <;> cases c <;> exact h)).1
    exact this.1.elim
  | .fin s M hM, .nan, c =>
    have := mul_finite (add_finite (show ((fin s M hM : Fl F).mul .nan |>.add c).Finite by cases c <;> exact h)).1
    exact this.2.elim
  | .fin s M hM, .inf t, c =>
    have := mul_finite (add_finite (show ((fin s M hM : Fl F).mul (.inf t) |>.add c).Finite by cases c <;> exact h)).1
    exact this.2.elim

end Fl

namespace Ex
variable {F : Fmt} (o : Ex F → Fuse)

@[simp] theorem eval_val (k : Nat) (a : Fl F) : (val k a).eval o = a := rfl
@[simp] theorem eval_mul (x y : Ex F) : (mul x y).eval o = (x.eval o).mul (y.eval o) := rfl
@[simp] theorem eval_div (x y : Ex F) : (div x y).eval o = (x.eval o).div (y.eval o) := rfl
@[simp] theorem eval_neg (x : Ex F) : (neg x).eval o = (x.eval o).neg := rfl
@[simp] theorem eval_abs (x : Ex F) : (abs x).eval o = (x.eval o).abs := rfl
@[simp] theorem eval_sqrt (x : Ex F) : (sqrt x).eval o = (x.eval o).sqrt := rfl

theorem ev_some {x : Ex F} {a b : Fl F} (h : (ev o x).2 = some (a, b)) :
    ∃ y z, x = mul y z ∧ a = y.eval o ∧ b = z.eval o := by
  cases x with
  | mul y z =>
    cases h
    exact ⟨y, z, rfl, rfl, rfl⟩
  | _ => cases h

theorem eval_add_none {x y : Ex F} (h : o (add x y) = .none) : (add x y).eval o = (x.eval o).add (y.eval o) := by
  show (match o (add x y), (ev o x).2, (ev o y).2 with
      | .left, some (a, b), _ => a.fma b (ev o y).1
      | .right, _, some (a, b) => a.fma b (ev o x).1
      | _, _, _ => (ev o x).1.add (ev o y).1) = _
  rw [h]
  rfl

theorem eval_sub_none {x y : Ex F} (h : o (sub x y) = .none) : (sub x y).eval o = (x.eval o).sub (y.eval o) := by
  show (match o (sub x y), (ev o x).2, (ev o y).2 with
      | .left, some (a, b), _ => a.fma b (ev o y).1.neg
      | .right, _, some (a, b) => a.neg.fma b (ev o x).1
      | _, _, _ => (ev o x).1.sub (ev o y).1) = _
  rw [h]
  rfl

/-- What a sum can be. -/
theorem eval_add (x y : Ex F) :
    (add x y).eval o = (x.eval o).add (y.eval o) ∨
    (∃ a b, x = mul a b ∧ (add x y).eval o = (a.eval o).fma (b.eval o) (y.eval o)) ∨
    (∃ a b, y = mul a b ∧ (add x y).eval o = (a.eval o).fma (b.eval o) (x.eval o)) := by
  unfold eval
  rw [ev]
  dsimp only
  cases h : o (x.add y) with
  | none => exact .inl rfl
  | left =>
    cases hx : (ev o x).2 with
    | none => exact .inl rfl
    | some q =>
      obtain ⟨a, b, rfl, e1, e2⟩ := ev_some o (show (ev o x).2 = some (q.1, q.2) from hx)
      refine .inr (.inl ⟨a, b, rfl, ?_⟩)
      show q.1.fma q.2 _ = _
      rw [e1, e2]; rfl
  | right =>
    cases hy : (ev o y).2 with
    | none => left; cases (ev o x).2 <;> rfl
    | some q =>
      obtain ⟨a, b, rfl, e1, e2⟩ := ev_some o (show (ev o y).2 = some (q.1, q.2) from hy)
      refine .inr (.inr ⟨a, b, rfl, ?_⟩)
      cases (ev o x).2 <;> (show q.1.fma q.2 _ = _; rw [e1, e2]; rfl)

/-- What a difference can be. -/
theorem eval_sub (x y : Ex F) :
    (sub x y).eval o = (x.eval o).sub (y.eval o) ∨
    (∃ a b, x = mul a b ∧ (sub x y).eval o = (a.eval o).fma (b.eval o) (y.eval o).neg) ∨
    (∃ a b, y = mul a b ∧ (sub x y).eval o = (a.eval o).neg.fma (b.eval o) (x.eval o)) := by
  unfold eval
  rw [ev]
  dsimp only
  cases h : o (x.sub y) with
  | none => exact .inl rfl
  | left =>
    cases hx : (ev o x).2 with
    | none => exact .inl rfl
    | some q =>
      obtain ⟨a, b, rfl, e1, e2⟩ := ev_some o (show (ev o x).2 = some (q.1, q.2) from hx)
      refine .inr (.inl ⟨a, b, rfl, ?_⟩)
      show q.1.fma q.2 _ = _
      rw [e1, e2]; rfl
  | right =>
    cases hy : (ev o y).2 with
    | none => left; cases (ev o x).2 <;> rfl
    | some q =>
      obtain ⟨a, b, rfl, e1, e2⟩ := ev_some o (show (ev o y).2 = some (q.1, q.2) from hy)
      refine .inr (.inr ⟨a, b, rfl, ?_⟩)
      cases (ev o x).2 <;> (show q.1.neg.fma q.2 _ = _; rw [e1, e2]; rfl)

/-- Not a product, so that a sum with it is not contracted on its account. -/
def Settled (x : Ex F) : Prop := ∀ a b, x ≠ mul a b

theorem eval_add_settled {x y : Ex F} (hx : x.Settled) (hy : y.Settled) :
    (add x y).eval o = (x.eval o).add (y.eval o) := by
  rcases eval_add o x y with h | ⟨a, b, h, -⟩ | ⟨a, b, h, -⟩
  · exact h
  · exact absurd h (hx a b)
  · exact absurd h (hy a b)

theorem eval_sub_settled {x y : Ex F} (hx : x.Settled) (hy : y.Settled) :
    (sub x y).eval o = (x.eval o).sub (y.eval o) := by
  rcases eval_sub o x y with h | ⟨a, b, h, -⟩ | ⟨a, b, h, -⟩
  · exact h
  · exact absurd h (hx a b)
  · exact absurd h (hy a b)

/-- The exact value of a term of a sum: of a product, that of its factors. -/
noncomputable def exact : Ex F → ℝ
  | mul x y => (x.eval o).val * (y.eval o).val
  | x => (x.eval o).val

/-- The operands of a term of a sum are finite. -/
def Fin : Ex F → Prop
  | mul x y => (x.eval o).Finite ∧ (y.eval o).Finite
  | x => (x.eval o).Finite

theorem exact_settled {x : Ex F} (h : x.Settled) : x.exact o = (x.eval o).val := by
  cases x with
  | mul a b => exact absurd rfl (h a b)
  | _ => rfl

theorem fin_settled {x : Ex F} (h : x.Settled) : x.Fin o ↔ (x.eval o).Finite := by
  cases x with
  | mul a b => exact absurd rfl (h a b)
  | _ => exact Iff.rfl

theorem settled_or (x : Ex F) : x.Settled ∨ ∃ a b, x = mul a b := by
  by_cases h : ∃ a b, x = mul a b
  · exact .inr h
  · exact .inl fun a b e => h ⟨a, b, e⟩

/-- One step of a sum. -/
theorem step_err {s t : Ex F} (hs : s.Settled) (hf : ((add s t).eval o).Finite) :
    (s.eval o).Finite ∧ t.Fin o ∧
    |((add s t).eval o).val - ((s.eval o).val + t.exact o)| ≤
      F.u * |(s.eval o).val| + ((1 + F.u) ^ 2 - 1) * |t.exact o| + (1 + F.u) * F.eta ∧
    ((s.eval o).val = 0 → |((add s t).eval o).val - t.exact o| ≤ F.u * |t.exact o| + F.eta) := by
  have hu := Fl.u_nonneg F
  have he := Fl.eta_nonneg F
  rcases eval_add o s t with h | ⟨a, b, h, -⟩ | ⟨a, b, rfl, h⟩
  · rw [h] at hf ⊢
    obtain ⟨f1, f2⟩ := Fl.add_finite hf
    have e1 := Fl.add_err hf
    have key : t.Fin o ∧ |(t.eval o).val - t.exact o| ≤ F.u * |t.exact o| + F.eta := by
      rcases settled_or t with ht | ⟨a, b, rfl⟩
      · rw [exact_settled o ht, fin_settled o ht, sub_self, abs_zero]
        exact ⟨f2, by positivity⟩
      · exact ⟨Fl.mul_finite f2, Fl.mul_err f2⟩
    refine ⟨f1, key.1, ?_, fun h0 => ?_⟩
    · have k := key.2
      generalize ((s.eval o).add (t.eval o)).val = r at *
      generalize (s.eval o).val = s at *
      generalize (t.eval o).val = t' at *
      generalize t.exact o = x at *
      have a1 := abs_sub_le r (s + t') (s + x)
      rw [add_sub_add_left_eq_sub] at a1
      have a2 : |t'| ≤ |x| + (F.u * |x| + F.eta) := by
        have := abs_sub_abs_le_abs_sub t' x
        linarith
      have a3 := mul_le_mul_of_nonneg_left (abs_add_le s t') hu
      have a4 := mul_le_mul_of_nonneg_left a2 hu
      nlinarith
    · have hz : ((s.eval o).add (t.eval o)).val = (t.eval o).val := by
        have hr := Fl.add_rounded f1 f2
        rw [h0, zero_add] at hr
        obtain ⟨N, hN, e⟩ := Fl.fin_rep f2
        exact (hr.exact N e hN).2
      rw [hz]
      exact key.2
  · exact absurd h (hs a b)
  · rw [h] at hf ⊢
    obtain ⟨fa, fb, fs⟩ := Fl.fma_finite hf
    have e1 := (Fl.fma_rounded fa fb fs).err hf
    refine ⟨fs, ⟨fa, fb⟩, ?_, fun h0 => ?_⟩
    · show |_ - (_ + (a.eval o).val * (b.eval o).val)| ≤ _ * _ + _ * |(a.eval o).val * (b.eval o).val| + _
      generalize (a.eval o).val * (b.eval o).val = x at *
      generalize ((a.eval o).fma (b.eval o) (s.eval o)).val = r at *
      generalize (s.eval o).val = s at *
      rw [add_comm x s] at e1
      have a3 := mul_le_mul_of_nonneg_left (abs_add_le s x) hu
      have hx := abs_nonneg x
      nlinarith [mul_nonneg hu hx, mul_nonneg hu he, mul_nonneg (mul_nonneg hu hu) hx]
    · rw [h0, add_zero] at e1
      exact e1

/-- A sum of terms, from left to right. -/
def total (l : List (Ex F)) : Ex F := l.foldl add (val 0 (Fl.ofInt 0))

theorem total_concat (l : List (Ex F)) (x : Ex F) : total (l ++ [x]) = add (total l) x := by
  unfold total
  rw [List.foldl_append]
  rfl

theorem total_settled (l : List (Ex F)) : (total l).Settled := by
  induction l using List.reverseRecOn with
  | nil => intro a b h; cases h
  | append_singleton l x _ => rw [total_concat]; intro a b h; cases h

/-- Error of a sum, whichever of its products are contracted. -/
theorem total_err (l : List (Ex F)) (hf : ((total l).eval o).Finite) :
    (∀ t ∈ l, t.Fin o) ∧
    |((total l).eval o).val - (l.map (exact o)).sum| ≤
      ((1 + F.u) ^ l.length - 1) * (l.map fun t => |t.exact o|).sum +
        l.length * (1 + F.u) ^ (l.length - 1) * F.eta := by
  have hu := Fl.u_nonneg F
  have he := Fl.eta_nonneg F
  induction l using List.reverseRecOn with
  | nil => simp [total, Fl.zero_val]
  | append_singleton l x ih =>
    rw [total_concat] at hf ⊢
    obtain ⟨f1, f2, e1, e2⟩ := step_err o (total_settled l) hf
    obtain ⟨i1, i2⟩ := ih f1
    refine ⟨fun t ht => ?_, ?_⟩
    · rcases List.mem_append.mp ht with h | h
      · exact i1 t h
      · rw [List.mem_singleton.mp h]; exact f2
    rw [List.map_append, List.map_append, List.sum_append, List.sum_append, List.length_append]
    simp only [List.map_cons, List.map_nil, List.sum_singleton, List.length_singleton, Nat.add_sub_cancel]
    rcases Nat.eq_zero_or_pos l.length with h0 | h0
    · rw [List.length_eq_zero_iff] at h0
      subst h0
      have := e2 Fl.zero_val
      simpa using this
    · have hB : 0 ≤ (l.map fun t => |t.exact o|).sum :=
        List.sum_nonneg fun y hy => by obtain ⟨t, -, rfl⟩ := List.mem_map.mp hy; exact abs_nonneg _
      have hS : |(l.map (exact o)).sum| ≤ (l.map fun t => |t.exact o|).sum := by
        clear * -
        induction l with
        | nil => simp
        | cons t l ih =>
          rw [List.map_cons, List.map_cons, List.sum_cons, List.sum_cons]
          exact (abs_add_le _ _).trans (add_le_add_right ih _)
      have hx := abs_nonneg (x.exact o)
      generalize ((add (total l) x).eval o).val = r at *
      generalize ((total l).eval o).val = s at *
      generalize x.exact o = t at *
      generalize (l.map fun t => |t.exact o|).sum = B at *
      generalize (l.map (exact o)).sum = S at *
      obtain ⟨k, hk⟩ : ∃ k, l.length = k + 1 := ⟨l.length - 1, by omega⟩
      rw [hk] at i2 ⊢
      rw [Nat.add_sub_cancel] at i2
      have hq := Fl.one_add_u_pow F k
      have p1 : (1 + F.u) ^ (k + 1) = (1 + F.u) ^ k * (1 + F.u) := pow_succ _ _
      have p2 : (1 + F.u) ^ (k + 1 + 1) = (1 + F.u) ^ k * (1 + F.u) * (1 + F.u) := by rw [pow_succ, pow_succ]
      rw [p1] at i2 ⊢
      rw [p2]
      push_cast at i2 ⊢
      generalize (1 + F.u) ^ k = q at *
      have a1 : |s| ≤ |s - S| + B := by
        have := abs_sub_abs_le_abs_sub s S
        linarith
      have a2 := abs_sub_le r (s + t) (S + t)
      rw [add_sub_add_right_eq_sub] at a2
      have a3 := mul_le_mul_of_nonneg_left a1 hu
      have a4 := mul_le_mul_of_nonneg_left i2 (by linarith : 0 ≤ 1 + F.u)
      have a5 : 0 ≤ (q - 1) * ((1 + F.u) ^ 2 * |t|) := by
        have : 0 ≤ q - 1 := by linarith
        positivity
      have a6 : 0 ≤ (q - 1) * ((1 + F.u) * F.eta) := by
        have : 0 ≤ q - 1 := by linarith
        positivity
      calc |r - (S + t)| ≤ _ := a2
        _ ≤ (1 + F.u) * |s - S| + F.u * B + ((1 + F.u) ^ 2 - 1) * |t| + (1 + F.u) * F.eta := by linarith
        _ ≤ (1 + F.u) * ((q * (1 + F.u) - 1) * B + (k + 1) * q * F.eta) + F.u * B +
            (q * (1 + F.u) * (1 + F.u) - 1) * |t| + q * ((1 + F.u) * F.eta) := by nlinarith
        _ = _ := by ring

theorem total_pairs (l : List (Ex F × ℝ)) (h : ∀ q ∈ l, q.1.exact o = q.2)
    (hf : ((total (l.map Prod.fst)).eval o).Finite) :
    |((total (l.map Prod.fst)).eval o).val - (l.map Prod.snd).sum| ≤
      ((1 + F.u) ^ l.length - 1) * (l.map fun q => |q.2|).sum + l.length * (1 + F.u) ^ (l.length - 1) * F.eta := by
  have := (total_err o _ hf).2
  rw [List.map_map, List.map_map, List.length_map] at this
  rw [List.map_congr_left (f := exact o ∘ Prod.fst) (g := Prod.snd) h,
    List.map_congr_left (f := (fun t => |t.exact o|) ∘ Prod.fst) (g := fun q => |q.2|)
      (fun q hq => congrArg _ (h q hq))] at this
  exact this

/-! ## Integers -/

/-- A small integer is a number of the format. -/
theorem exact_int {x : ℝ} {a : Fl F} (h : Fl.Rounded x a) {z : ℤ} (hx : x = z) (hz : |z| ≤ 2 ^ F.p) :
    a.Finite ∧ a.val = z := by
  subst hx
  refine h.exact (z.natAbs * F.unit) ?_ (Fl.rep_int ?_)
  · rw [Nat.cast_mul, Nat.cast_natAbs, Int.cast_abs]
  · rw [Int.abs_eq_natAbs] at hz
    exact_mod_cast hz

/-- A sum of small integers is exact, whichever of its products are contracted. -/
theorem total_int {ι : Type} (l : List ι) (t : ι → Ex F) (z : ι → ℤ)
    (h : ∀ k ∈ l, (t k).Fin o ∧ (t k).exact o = z k) (hb : (l.map fun k => |z k|).sum ≤ 2 ^ F.p) :
    ((total (l.map t)).eval o).Finite ∧ ((total (l.map t)).eval o).val = ((l.map z).sum : ℤ) := by
  induction l using List.reverseRecOn with
  | nil => exact ⟨Fl.zero_finite, by simp [total, Fl.zero_val]⟩
  | append_singleton l k ih =>
    rw [List.map_append, List.sum_append] at hb
    simp only [List.map_cons, List.map_nil, List.sum_singleton] at hb
    have hz := abs_nonneg (z k)
    obtain ⟨i1, i2⟩ := ih (fun y hy => h y (List.mem_append_left _ hy)) (by linarith)
    obtain ⟨k1, k2⟩ := h k (by simp)
    rw [List.map_append, List.map_append, List.sum_append]
    simp only [List.map_cons, List.map_nil, List.sum_singleton]
    rw [total_concat]
    have hS : |(l.map z).sum| ≤ (l.map fun k => |z k|).sum := by
      clear * -
      induction l with
      | nil => simp
      | cons t l ih =>
        rw [List.map_cons, List.map_cons, List.sum_cons, List.sum_cons]
        exact (abs_add_le _ _).trans (add_le_add_right ih _)
    have hle := (abs_add_le (l.map z).sum (z k)).trans (add_le_add_left hS |z k|)
    have hzk : |z k| ≤ 2 ^ F.p := by
      have := (abs_nonneg _).trans hS
      linarith
    rcases eval_add o (total (l.map t)) (t k) with e | ⟨a, b, e, -⟩ | ⟨a, b, e1, e⟩
    · rw [e]
      have ht : ((t k).eval o).Finite ∧ ((t k).eval o).val = z k := by
        rcases settled_or (t k) with hs | ⟨a, b, hab⟩
        · rw [exact_settled o hs] at k2
          exact ⟨(fin_settled o hs).mp k1, k2⟩
        · rw [hab] at k1 k2 ⊢
          exact exact_int (Fl.mul_rounded k1.1 k1.2) k2 hzk
      refine exact_int (Fl.add_rounded i1 ht.1) ?_ (hle.trans hb)
      rw [i2, ht.2, Int.cast_add]
    · exact absurd e (total_settled _ a b)
    · rw [e]
      rw [e1] at k1 k2
      refine exact_int (Fl.fma_rounded k1.1 k1.2 i1) ?_ (hle.trans hb)
      rw [i2, show (a.eval o).val * (b.eval o).val = z k from k2, Int.cast_add, add_comm]

/-! ## Running error bounds -/

/-- The value of `x`, if finite, differs from `z` by at most `((1+u)^k - 1) Z + h`, where `|z| ≤ Z`. If `x` is a
product, so does, with room for one rounding, the exact product of its factors. -/
structure Tr (x : Ex F) (z Z : ℝ) (k : Nat) (h : ℝ) : Prop where
  err : (x.eval o).Finite → |(x.eval o).val - z| ≤ ((1 + F.u) ^ k - 1) * Z + h
  prod : ∀ a b, x = mul a b → (a.eval o).Finite → (b.eval o).Finite →
    |(a.eval o).val * (b.eval o).val - z| ≤ ((1 + F.u) ^ k - 1) * Z + (h - F.eta)
  le : |z| ≤ Z
  nonneg : 0 ≤ h

variable {o} {x y : Ex F} {z w Z W h h' : ℝ} {k : Nat}

theorem Tr.mono (hx : Tr o x z Z k h) {k' : Nat} (hk : k ≤ k') : Tr o x z Z k' h := by
  have : (1 + F.u) ^ k ≤ (1 + F.u) ^ k' := pow_le_pow_right₀ (by have := Fl.u_nonneg F; linarith) hk
  have := mul_le_mul_of_nonneg_right this ((abs_nonneg _).trans hx.le)
  refine ⟨fun hf => (hx.err hf).trans ?_, fun a b e fa fb => (hx.prod a b e fa fb).trans ?_, hx.le, hx.nonneg⟩ <;>
    linarith

/-- Rounding a value near `z` once more. -/
theorem round_err {r v e h : ℝ} (hz : |z| ≤ Z) (hv : |r - v| ≤ F.u * |v| + e)
    (hy : |v - z| ≤ ((1 + F.u) ^ k - 1) * Z + h) :
    |r - z| ≤ ((1 + F.u) ^ (k + 1) - 1) * Z + ((1 + F.u) * h + e) := by
  have hu := Fl.u_nonneg F
  have h1 : |v| ≤ (1 + F.u) ^ k * Z + h := by
    have := abs_sub_abs_le_abs_sub v z
    linarith
  have h2 := abs_sub_le r v z
  have h3 := mul_le_mul_of_nonneg_left h1 hu
  rw [pow_succ]
  nlinarith

theorem near_add {a b A B : ℝ} (h1 : |a - z| ≤ A) (h2 : |b - w| ≤ B) : |a + b - (z + w)| ≤ A + B := by
  rw [add_sub_add_comm]
  exact (abs_add_le _ _).trans (add_le_add h1 h2)

theorem near_sub {a b A B : ℝ} (h1 : |a - z| ≤ A) (h2 : |b - w| ≤ B) : |a - b - (z - w)| ≤ A + B := by
  rw [show a - b - (z - w) = (a - z) - (b - w) by ring]
  exact (abs_sub _ _).trans (add_le_add h1 h2)

theorem Tr.add (hx : Tr o x z Z k h) (hy : Tr o y w W k h') :
    Tr o (add x y) (z + w) (Z + W) (k + 1) ((1 + F.u) * (h + h')) := by
  have hu := Fl.u_nonneg F
  have he := Fl.eta_nonneg F
  have hle := (abs_add_le z w).trans (add_le_add hx.le hy.le)
  have e1 : ∀ a b : ℝ, ((1 + F.u) ^ k - 1) * Z + a + (((1 + F.u) ^ k - 1) * W + b) =
      ((1 + F.u) ^ k - 1) * (Z + W) + (a + b) := fun a b => by ring
  refine ⟨fun hf => ?_, fun a b e => (by cases e), hle, mul_nonneg (by linarith) (add_nonneg hx.nonneg hy.nonneg)⟩
  rcases eval_add o x y with e | ⟨a, b, e, e'⟩ | ⟨a, b, e, e'⟩
  · rw [e] at hf ⊢
    obtain ⟨f1, f2⟩ := Fl.add_finite hf
    have := near_add (hx.err f1) (hy.err f2)
    rw [e1] at this
    refine (round_err hle (by rw [add_zero]; exact Fl.add_err hf) this).trans (le_of_eq (by ring))
  · rw [e'] at hf ⊢
    obtain ⟨f1, f2, f3⟩ := Fl.fma_finite hf
    have := near_add (hx.prod a b e f1 f2) (hy.err f3)
    rw [e1] at this
    refine (round_err hle ((Fl.fma_rounded f1 f2 f3).err hf) this).trans ?_
    nlinarith [mul_nonneg hu he]
  · rw [e'] at hf ⊢
    obtain ⟨f1, f2, f3⟩ := Fl.fma_finite hf
    have := near_add (hx.err f3) (hy.prod a b e f1 f2)
    rw [e1, add_comm (x.eval o).val] at this
    refine (round_err hle ((Fl.fma_rounded f1 f2 f3).err hf) this).trans ?_
    nlinarith [mul_nonneg hu he]

theorem Tr.sub (hx : Tr o x z Z k h) (hy : Tr o y w W k h') :
    Tr o (sub x y) (z - w) (Z + W) (k + 1) ((1 + F.u) * (h + h')) := by
  have hu := Fl.u_nonneg F
  have he := Fl.eta_nonneg F
  have hle := (abs_sub z w).trans (add_le_add hx.le hy.le)
  have e1 : ∀ a b : ℝ, ((1 + F.u) ^ k - 1) * Z + a + (((1 + F.u) ^ k - 1) * W + b) =
      ((1 + F.u) ^ k - 1) * (Z + W) + (a + b) := fun a b => by ring
  refine ⟨fun hf => ?_, fun a b e => (by cases e), hle, mul_nonneg (by linarith) (add_nonneg hx.nonneg hy.nonneg)⟩
  rcases eval_sub o x y with e | ⟨a, b, e, e'⟩ | ⟨a, b, e, e'⟩
  · rw [e] at hf ⊢
    obtain ⟨f1, f2⟩ := Fl.sub_finite hf
    have := near_sub (hx.err f1) (hy.err f2)
    rw [e1] at this
    refine (round_err hle (by rw [add_zero]; exact Fl.sub_err hf) this).trans (le_of_eq (by ring))
  · rw [e'] at hf ⊢
    obtain ⟨f1, f2, f3⟩ := Fl.fma_finite hf
    have := near_sub (hx.prod a b e f1 f2) (hy.err ((Fl.neg_finite _).mp f3))
    have r := (Fl.fma_rounded f1 f2 f3).err hf
    rw [Fl.neg_val, ← sub_eq_add_neg] at r
    rw [e1] at this
    refine (round_err hle r this).trans ?_
    nlinarith [mul_nonneg hu he]
  · rw [e'] at hf ⊢
    obtain ⟨f1, f2, f3⟩ := Fl.fma_finite hf
    have := near_sub (hx.err f3) (hy.prod a b e ((Fl.neg_finite _).mp f1) f2)
    have r := (Fl.fma_rounded f1 f2 f3).err hf
    rw [Fl.neg_val, neg_mul, neg_add_eq_sub] at r
    rw [e1] at this
    refine (round_err hle r this).trans ?_
    nlinarith [mul_nonneg hu he]

/-- A product of two elements. -/
theorem Tr.mul2 (a b : Ex F) : Tr o (mul a b) ((a.eval o).val * (b.eval o).val)
    (|(a.eval o).val| * |(b.eval o).val|) 1 F.eta := by
  have hu := Fl.u_nonneg F
  have he := Fl.eta_nonneg F
  have hp := mul_nonneg (abs_nonneg (a.eval o).val) (abs_nonneg (b.eval o).val)
  refine ⟨fun hf => ?_, fun a' b' e fa fb => ?_, (abs_mul _ _).le, he⟩
  · have := Fl.mul_err hf
    rw [abs_mul] at this
    rw [pow_one, add_sub_cancel_left]
    exact this
  · cases e
    rw [sub_self, abs_zero, pow_one]
    nlinarith [mul_nonneg hu hp]

/-- A product of three elements. -/
theorem Tr.mul3 (a b c : Ex F) {K : ℝ} (hK : |(c.eval o).val| ≤ K) : Tr o (mul (mul a b) c)
    ((a.eval o).val * (b.eval o).val * (c.eval o).val)
    (|(a.eval o).val| * |(b.eval o).val| * |(c.eval o).val|) 2 ((1 + F.u) * (1 + K) * F.eta) := by
  have hu := Fl.u_nonneg F
  have he := Fl.eta_nonneg F
  have hc := abs_nonneg (c.eval o).val
  have hp := mul_nonneg (mul_nonneg (abs_nonneg (a.eval o).val) (abs_nonneg (b.eval o).val)) hc
  have h1 := mul_le_mul_of_nonneg_left hK he
  have h2 := mul_le_mul_of_nonneg_left h1 hu
  have h3 := mul_nonneg hu he
  refine ⟨fun hf => ?_, fun a' b' e fa fb => ?_, by rw [abs_mul, abs_mul], ?_⟩
  · rw [eval_mul, eval_mul] at hf ⊢
    have hab := (Fl.mul_finite hf).1
    have := (((Fl.Tracks.exact (Fl.mul_finite hab).1).mul_exact hab).mul_exact hf).err
    refine this.trans (add_le_add le_rfl ?_)
    rw [zero_mul, mul_zero, zero_add]
    nlinarith
  · cases e
    rw [eval_mul] at fa ⊢
    have := Fl.mul_err fa
    have := mul_le_mul_of_nonneg_right this hc
    rw [← abs_mul, sub_mul] at this
    refine this.trans ?_
    rw [abs_mul]
    nlinarith [mul_nonneg hu hp, mul_nonneg hu (mul_nonneg hu hp)]
  · have : 0 ≤ K := hc.trans hK
    positivity

end Ex
end MatrixLibs
