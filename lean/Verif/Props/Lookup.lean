import Verif.Model.Lookup
import Verif.Spec.Include

/-!
# C156: names of the library in the user's files; C157: programs of several files
-/

namespace MatrixLibs

open Incl

/-! ## C156 -/

/-- Calls with matrices as arguments are looked up in `mlib` only if the type of the elements belongs to `mlib`: the type
of matrices itself belongs to `std`. -/
theorem C156_assoc (t : CTy) : .mlib ∈ t.matrix.assoc ↔ .mlib ∈ t.assoc := by
  simp [CTy.matrix, CTy.assoc]

/-- The type is built from arithmetic types and classes of `std` and of the user. -/
inductive NotMlib : CTy → Prop
  | arith : NotMlib .arith
  | cls {ns} : ns ≠ .mlib → NotMlib (.cls ns)
  | app {ns t} : ns ≠ .mlib → NotMlib t → NotMlib (.app ns t)
  | app2 {ns t u} : ns ≠ .mlib → NotMlib t → NotMlib u → NotMlib (.app2 ns t u)
  | ptr {t} : NotMlib t → NotMlib (.ptr t)

theorem NotMlib.assoc {t : CTy} (h : NotMlib t) : .mlib ∉ t.assoc := by
  induction h with
  | arith => simp [CTy.assoc]
  | cls h => simp [CTy.assoc, h.symm]
  | app h _ ih => simp [CTy.assoc, h.symm, ih]
  | app2 h _ _ ih ih' => simp [CTy.assoc, h.symm, ih, ih']
  | ptr _ ih => simpa [CTy.assoc] using ih

/-- The innermost scope that says anything about `n`, if it is one of `mlib`'s; the global namespace counts last. -/
def Sees (p : Place) (n : Name) : Prop :=
  (∃ a s b, p.scopes = a ++ s :: b ∧ (∀ x ∈ a, x.mlib = false ∧ n ∉ x.decl ∧ n ∉ x.own) ∧ (s.mlib = true ∨ n ∈ s.decl)) ∨
  ((∀ x ∈ p.scopes, x.mlib = false ∧ n ∉ x.decl ∧ n ∉ x.own) ∧ (n ∈ p.global.decl ∨ p.directive = true))

theorem byScopes_iff (n : Name) (g : Bool) : ∀ ss : List Scope, byScopes n g ss = true ↔
    (∃ a s b, ss = a ++ s :: b ∧ (∀ x ∈ a, x.mlib = false ∧ n ∉ x.decl ∧ n ∉ x.own) ∧ (s.mlib = true ∨ n ∈ s.decl)) ∨
    ((∀ x ∈ ss, x.mlib = false ∧ n ∉ x.decl ∧ n ∉ x.own) ∧ g = true)
  | [] => by simp [byScopes]
  | s :: ss => by
    have ih := byScopes_iff n g ss
    unfold byScopes
    by_cases h1 : s.mlib = true ∨ n ∈ s.decl
    · rw [if_pos h1]
      exact ⟨fun _ => .inl ⟨[], s, ss, rfl, fun x hx => absurd hx List.not_mem_nil, h1⟩, fun _ => rfl⟩
    rw [if_neg h1]
    rw [not_or, Bool.not_eq_true] at h1
    by_cases h2 : n ∈ s.own
    · rw [if_pos h2]
      refine ⟨fun h => (Bool.false_ne_true h).elim, ?_⟩
      rintro (⟨a, t, b, e, ha, ht⟩ | ⟨h, -⟩)
      · rcases List.cons_eq_append_iff.1 e with ⟨rfl, e'⟩ | ⟨a', rfl, e'⟩
        · rw [List.cons.injEq] at e'
          obtain ⟨rfl, rfl⟩ := e'
          rcases ht with ht | ht
          · rw [h1.1] at ht; cases ht
          · exact absurd ht h1.2
        · exact absurd h2 (ha s List.mem_cons_self).2.2
      · exact absurd h2 (h s List.mem_cons_self).2.2
    rw [if_neg h2, ih]
    constructor
    · rintro (⟨a, t, b, e, ha, ht⟩ | ⟨h, hg⟩)
      · exact .inl ⟨s :: a, t, b, by rw [e]; rfl, fun x hx => (List.mem_cons.1 hx).elim (fun e => e ▸ ⟨h1.1, h1.2, h2⟩) (ha x), ht⟩
      · exact .inr ⟨fun x hx => (List.mem_cons.1 hx).elim (fun e => e ▸ ⟨h1.1, h1.2, h2⟩) (h x), hg⟩
    · rintro (⟨a, t, b, e, ha, ht⟩ | ⟨h, hg⟩)
      · rcases List.cons_eq_append_iff.1 e with ⟨rfl, e'⟩ | ⟨a', rfl, e'⟩
        · rw [List.cons.injEq] at e'
          obtain ⟨rfl, rfl⟩ := e'
          rcases ht with ht | ht
          · rw [h1.1] at ht; cases ht
          · exact absurd ht h1.2
        · exact .inl ⟨a', t, b, e', fun x hx => ha x (List.mem_cons_of_mem _ hx), ht⟩
      · exact .inr ⟨fun x hx => h x (List.mem_cons_of_mem _ hx), hg⟩

/-- An operator or a function called on matrices, and possibly scalars, whose types do not belong to `mlib`, is found
exactly where the scopes lead to `mlib`: a using-declaration or a directive is needed outside `mlib`. -/
theorem C156_finds (p : Place) (n : Name) {args : List CTy} (h : ∀ t ∈ args, NotMlib t) : p.finds n args = true ↔ Sees p n := by
  have : .mlib ∉ args.flatMap CTy.assoc := by
    rw [List.mem_flatMap]; rintro ⟨t, ht, q⟩; exact (h t ht).assoc q
  simp [Place.finds, this, byScopes_iff, Sees]

/-- Matrices of arithmetic types, of `std::complex`, and of matrices. -/
theorem C156_elements {t : CTy} (h : NotMlib t) : NotMlib t.matrix := .app (by decide) (.app (by decide) h)

/-- With neither a directive nor a using-declaration nothing is found outside `mlib`. -/
theorem C156_unseen (p : Place) (n : Name) {args : List CTy} (h : ∀ t ∈ args, NotMlib t) (hd : p.directive = false)
    (hs : ∀ s ∈ p.global :: p.scopes, s.mlib = false ∧ n ∉ s.decl) : p.finds n args = false := by
  rw [Bool.eq_false_iff, Ne, C156_finds p n h]
  rintro (⟨a, s, b, e, -, q⟩ | ⟨-, q⟩)
  · have := hs s (List.mem_cons_of_mem _ (by rw [e]; simp))
    rcases q with q | q
    · rw [this.1] at q; cases q
    · exact this.2 q
  · rcases q with q | q
    · exact (hs _ List.mem_cons_self).2 q
    · rw [hd] at q; cases q

/-- A function or operator of the same name that the user declares in their own namespace hides those of `mlib` there,
in spite of `using namespace mlib`. -/
theorem C156_hidden (p : Place) (n : Name) {args : List CTy} (h : ∀ t ∈ args, NotMlib t) {s : Scope} {ss : List Scope}
    (hp : p.scopes = s :: ss) (hs : n ∈ s.own) (hm : s.mlib = false) (hn : n ∉ s.decl) : p.finds n args = false := by
  rw [Bool.eq_false_iff, Ne, C156_finds p n h]
  rintro (⟨a, t, b, e, ha, q⟩ | ⟨q, -⟩)
  · rw [hp] at e
    rcases List.cons_eq_append_iff.1 e with ⟨rfl, e'⟩ | ⟨a', rfl, e'⟩
    · rw [List.cons.injEq] at e'
      obtain ⟨rfl, rfl⟩ := e'
      rcases q with q | q
      · rw [hm] at q; cases q
      · exact hn q
    · exact (ha s List.mem_cons_self).2.2 hs
  · exact (q s (by rw [hp]; exact List.mem_cons_self)).2.2 hs

/-- The directive is enough where no scope but the global namespace declares the name, as in the tests. -/
theorem C156_directive (p : Place) (n : Name) (args : List CTy) (hd : p.directive = true)
    (hs : ∀ s ∈ p.scopes, s.mlib = false ∧ n ∉ s.decl ∧ n ∉ s.own) : p.finds n args = true := by
  rw [Place.finds, Bool.or_eq_true, byScopes_iff]
  exact .inl (.inr ⟨hs, by simp [hd]⟩)

/-- A using-declaration in the innermost scope is always enough. -/
theorem C156_declaration (p : Place) (n : Name) (args : List CTy) {s : Scope} {ss : List Scope} (hp : p.scopes = s :: ss)
    (hs : n ∈ s.decl) : p.finds n args = true := by
  rw [Place.finds, Bool.or_eq_true, byScopes_iff, hp]
  exact .inl (.inl ⟨[], s, ss, rfl, fun x hx => absurd hx List.not_mem_nil, .inr hs⟩)

/-- Without a directive: `A * B` on matrices of `double` in `main`. -/
example : ({ } : Place).finds .opMul [.matrix .arith, .matrix .arith] = false :=
  C156_unseen _ _ (by simpa using C156_elements .arith) rfl (by simp)

/-- As in the tests: `using namespace mlib` and a function in the global namespace. -/
example : ({ scopes := [{}], directive := true } : Place).finds .opMul [.matrix .arith, .matrix .arith] = true :=
  C156_directive _ _ _ rfl (by simp)

/-- A namespace of the user with its own `operator*`. -/
example : ({ scopes := [{ own := [.opMul] }], directive := true } : Place).finds .opMul [.matrix .arith, .matrix .arith] = false :=
  C156_hidden _ _ (by simpa using C156_elements .arith) rfl (by simp) rfl (by simp)

/-- Elements of a class that the user has put into `mlib`. -/
example : ({ } : Place).finds .opMul [.matrix (.cls .mlib), .matrix (.cls .mlib)] = true := by decide

/-! ## C157 -/

/-- Files of a program, each with the headers it includes and with or without `PRINT_IOSTREAM_ENABLE`, define no function twice as far as the linker can see: whatever
is not a template is `static`. -/
theorem C157_link (files : List (Bool × List Hdr)) :
    files.flatMap (fun f => f.2.flatMap fun h => (brings h).flatMap (strong f.1)) = [] := by
  have : ∀ on h, strong on h = [] := by intro on h; cases on <;> cases h <;> decide
  simp [List.flatMap_eq_nil_iff, this]

/-- The definitions whose names refer to the same entities in every file. -/
def SameEntities (on : Bool) (d : Def) : Prop := ∀ f g, refers on f d = refers on g d

theorem same_iff (on : Bool) (d : Def) : SameEntities on d ↔ ∀ n ∈ d.parse ++ d.call, isStatic on n = false := by
  constructor
  · intro h n hn
    have := List.map_inj_left.1 (h 0 1) n hn
    cases hs : isStatic on n with
    | false => rfl
    | true => simp [entity, hs] at this
  · intro h f g
    refine List.map_congr_left fun n hn => ?_
    simp [entity, h n hn]

/-- The C++ standard asks of a function template with external linkage that the names in its definition refer to the same
entities in every file of a program (the one-definition rule). The library's templates meet this, except for the operators
on matrices, `conv2_valid`, the general `inv`, and `print`: these use functions declared `static`. -/
theorem C157_same_partial (on : Bool) (h : Hdr) (d : Def) (hd : d ∈ defs on h) (hs : d.static = false) :
    SameEntities on d ↔ d.name ∉ [.opDiv, .opMul, .opMulScalar, .opScalarMul, .opSub, .opSubScalar, .opAdd, .opAddScalar, .opScalarAdd,
      .conv2_valid, .inv, .print] := by
  rw [same_iff]
  revert d
  cases on <;> cases h <;> decide

/-- `operator+` does not meet it. -/
theorem C157_operator_differs : ∃ d ∈ defs true .sum, d.name = .opAdd ∧ d.static = false ∧ ¬ SameEntities true d := by
  refine ⟨⟨.opAdd, [.Matrix], [], [.sum], [], false, false, false⟩, by simp [defs], rfl, rfl, ?_⟩
  rw [same_iff]; decide

end MatrixLibs
