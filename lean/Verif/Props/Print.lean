import Verif.Proof.RowMajor
import Verif.Model.Stats
import Verif.Spec.Print
import Mathlib.LinearAlgebra.Matrix.Notation

/-!
# Property C59: printing

`fmt x` is what `std::cout << x` writes.
-/

namespace MatrixLibs

set_option linter.unusedSectionVars false

section
variable {T : Type} {i j : Nat}

/-- C59: `print(A)` writes, row by row, every element followed by one space, and ends every row with
a newline. -/
theorem C59_print (fmt : T → List Char) (out : List Char) (A : Mat T i j) :
    print fmt out A = .ok (out ++ render fmt A) := by
  unfold print render
  rw [forUp_foldlM, List.ofFn_eq_map]
  generalize hl : List.finRange i = l
  clear hl
  induction l generalizing out with
  | nil => rw [List.foldlM_nil, List.map_nil, List.flatten_nil, List.append_nil]; rfl
  | cons a l ih =>
    rw [List.foldlM_cons, List.map_cons, List.flatten_cons]
    have hrow : ∀ (bs : List (Fin j)) (out : List Char), (bs.foldlM (fun out b => do
        let tmp ← rd A a.val b.val
        .ok (out ++ fmt tmp ++ [' '])) out : Res (List Char)) =
        .ok (out ++ (bs.map fun b => A a b).flatMap fun x => fmt x ++ [' ']) := by
      intro bs
      induction bs with
      | nil => intro out; rw [List.foldlM_nil, List.map_nil, List.flatMap_nil, List.append_nil]; rfl
      | cons b bs ihb =>
        intro out
        rw [List.foldlM_cons, rd_fin, ok_bind, ok_bind, ihb, List.map_cons, List.flatMap_cons,
          List.append_assoc, List.append_assoc, List.append_assoc]
    rw [forUp_foldlM, hrow, ok_bind, ok_bind, ih, List.ofFn_eq_map]
    unfold renderRow
    simp only [List.append_assoc]

/-- Text up to the first occurrence of a separator is determined. -/
theorem append_sep_inj {s : Char} (a b r r' : List Char) (ha : s ∉ a) (hb : s ∉ b)
    (h : a ++ s :: r = b ++ s :: r') : a = b ∧ r = r' := by
  induction a generalizing b with
  | nil =>
    cases b with
    | nil => exact ⟨rfl, by simpa using h⟩
    | cons y b =>
      simp only [List.nil_append, List.cons_append, List.cons.injEq] at h
      exact absurd (by rw [h.1]; exact List.mem_cons_self) hb
  | cons x a ih =>
    cases b with
    | nil =>
      simp only [List.nil_append, List.cons_append, List.cons.injEq] at h
      exact absurd (by rw [← h.1]; exact List.mem_cons_self) ha
    | cons y b =>
      simp only [List.cons_append, List.cons.injEq] at h
      obtain ⟨h1, h2⟩ := ih b (fun hm => ha (List.mem_cons_of_mem _ hm))
        (fun hm => hb (List.mem_cons_of_mem _ hm)) h.2
      exact ⟨by rw [h.1, h1], h2⟩

theorem row_inj {fmt : T → List Char} (hinj : Function.Injective fmt)
    (hsp : ∀ x, ' ' ∉ fmt x) (l l' : List T) (hlen : l.length = l'.length) (r r' : List Char)
    (h : renderRow fmt l ++ r = renderRow fmt l' ++ r') : l = l' ∧ r = r' := by
  induction l generalizing l' with
  | nil =>
    cases l' with
    | nil => exact ⟨rfl, by simpa [renderRow] using h⟩
    | cons y l' => cases hlen
  | cons x l ih =>
    cases l' with
    | nil => cases hlen
    | cons y l' =>
      have h' : fmt x ++ ' ' :: (renderRow fmt l ++ r) = fmt y ++ ' ' :: (renderRow fmt l' ++ r') := by
        simpa [renderRow] using h
      obtain ⟨h1, h2⟩ := append_sep_inj _ _ _ _ (hsp x) (hsp y) h'
      obtain ⟨h3, h4⟩ := ih l' (by simpa using hlen) h2
      exact ⟨by rw [hinj h1, h3], h4⟩

/-- C59: if different numbers are written differently and without spaces, the output
determines the matrix, given its shape. -/
theorem C59_print_injective (fmt : T → List Char) (hinj : Function.Injective fmt)
    (hsp : ∀ x, ' ' ∉ fmt x) (out : List Char) (A B : Mat T i j)
    (h : print fmt out A = print fmt out B) : A = B := by
  rw [C59_print, C59_print, Except.ok.injEq, List.append_cancel_left_eq] at h
  unfold render at h
  have key : ∀ (as : List (Fin i)), (as.map fun a => renderRow fmt (List.ofFn fun b => A a b)).flatten
      = (as.map fun a => renderRow fmt (List.ofFn fun b => B a b)).flatten →
      ∀ a ∈ as, ∀ b, A a b = B a b := by
    intro as
    induction as with
    | nil => intro _ a ha; cases ha
    | cons a0 as ih =>
      intro h
      rw [List.map_cons, List.map_cons, List.flatten_cons, List.flatten_cons] at h
      obtain ⟨h1, h2⟩ := row_inj hinj hsp _ _ (by simp) _ _ h
      intro a ha b
      rcases List.mem_cons.mp ha with rfl | ha
      · exact congrFun (List.ofFn_injective h1) b
      · exact ih h2 a ha b
  rw [List.ofFn_eq_map, List.ofFn_eq_map] at h
  ext a b
  exact key _ h a (List.mem_finRange a) b

theorem count_render (fmt : T → List Char) (hsp : ∀ x, ' ' ∉ fmt x) (hnl : ∀ x, '\n' ∉ fmt x)
    (A : Mat T i j) : (render fmt A).count '\n' = i ∧ (render fmt A).count ' ' = i * j := by
  have hrow : ∀ l : List T, (renderRow fmt l).count '\n' = 1 ∧
      (renderRow fmt l).count ' ' = l.length := by
    intro l
    induction l with
    | nil => exact ⟨rfl, rfl⟩
    | cons x l ih =>
      have e : renderRow fmt (x :: l) = fmt x ++ (' ' :: renderRow fmt l) := by simp [renderRow]
      rw [e, List.count_append, List.count_append, List.count_eq_zero.mpr (hnl x),
        List.count_eq_zero.mpr (hsp x), List.count_cons, List.count_cons, ih.1, ih.2,
        List.length_cons]
      exact ⟨rfl, by simp⟩
  unfold render
  rw [List.count_flatten, List.count_flatten, List.map_ofFn, List.map_ofFn, List.sum_ofFn,
    List.sum_ofFn]
  constructor
  · refine (Finset.sum_congr rfl (fun a _ => (hrow (List.ofFn fun b => A a b)).1)).trans ?_
    simp
  · refine (Finset.sum_congr rfl (fun a _ => (hrow (List.ofFn fun b => A a b)).2)).trans ?_
    simp

/-- C59: if numbers are written without spaces and newlines, the output also determines the shape:
the number of rows and the number of elements. -/
theorem C59_print_shape {i' j' : Nat} (fmt : T → List Char) (hsp : ∀ x, ' ' ∉ fmt x)
    (hnl : ∀ x, '\n' ∉ fmt x) (out : List Char) (A : Mat T i j) (B : Mat T i' j')
    (h : print fmt out A = print fmt out B) : i = i' ∧ i * j = i' * j' := by
  rw [C59_print, C59_print, Except.ok.injEq, List.append_cancel_left_eq] at h
  obtain ⟨h1, h2⟩ := count_render fmt hsp hnl A
  obtain ⟨h3, h4⟩ := count_render fmt hsp hnl B
  rw [h] at h1 h2
  exact ⟨h1.symm.trans h3, h2.symm.trans h4⟩

end

/-- A formatter that meets the hypotheses: `n` ones. -/
def tally (x : BitVec 32) : List Char := List.replicate x.toNat '1'

example : Function.Injective tally ∧ (∀ x, ' ' ∉ tally x) ∧ ∀ x, '\n' ∉ tally x := by
  refine ⟨fun a b h => ?_, fun x => ?_, fun x => ?_⟩
  · exact BitVec.eq_of_toNat_eq (by simpa [tally] using congrArg List.length h)
  · simp [tally]
  · simp [tally]

example : print tally [] (!![1, 2; 3, 0] : Mat (BitVec 32) 2 2) = .ok "1 11 \n111  \n".toList := by
  decide +kernel

end MatrixLibs
