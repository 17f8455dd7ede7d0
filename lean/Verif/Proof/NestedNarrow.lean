import Verif.Proof.Nested
import Verif.Model.Narrow

/-!
# Runs on a leading block, with promotions
-/

namespace MatrixLibs

set_option linter.unusedSectionVars false

namespace Promoted

open Promo (load store sqrtTo)
open CScalar (ofInt)

variable {T P : Type} [Inhabited T] [CScalar P] [Promo T P] {n k : Nat}

theorem luSum_leading (h : k ≤ n) (L U : Mat T n n) {i j : Nat} (hi : i < k) (hj : j < k) :
    luSum (leading h L) (leading h U) i j = luSum L U i j := by
  unfold luSum
  refine forUp_congr (fun p s _ hp => ?_)
  rw [rd_leading h U (by omega) hj, rd_leading h L hi (by omega)]

theorem luUpper_leading (h : k ≤ n) (A L U : Mat T n n) {j : Nat} (hj : j < k) :
    Proj (leading h) (luUpper A L j U) (luUpper (leading h A) (leading h L) j (leading h U)) := by
  unfold luUpper
  refine Proj.forUp rfl (fun i U _ hi => ?_)
  rw [luSum_leading h L U (by omega) hj, rd_leading h A (by omega) hj]
  refine Proj.bind (Proj.refl _) (fun s => Proj.bind (Proj.refl _) (fun a => Proj.bind (Proj.refl _) (fun v => ?_)))
  exact proj_wr h U (by omega) hj _

theorem luUpper_keeps (h : k ≤ n) {A L U U' : Mat T n n} {j : Nat} (hj : k ≤ j) (hu : luUpper A L j U = .ok U') :
    leading h U' = leading h U := by
  unfold luUpper at hu
  refine forUp_keeps (f := leading h) (fun i s s' _ _ hb => ?_) hu
  obtain ⟨_, _, hb⟩ := bind_ok_elim hb
  obtain ⟨_, _, hb⟩ := bind_ok_elim hb
  obtain ⟨_, _, hb⟩ := bind_ok_elim hb
  exact leading_wr h (.inr hj) hb

theorem luLower_step_keeps (h : k ≤ n) {A U L L' : Mat T n n} {i j : Nat} (hij : k ≤ i ∨ k ≤ j)
    (hb : (do
      let sum ← luSum L U i j
      let u ← rd U j j
      if CScalar.eq (load u) (ofInt 0 : P) then .error (.throws divideByZeroException)
      else
        wr L i j (store (← CScalar.div (← CScalar.sub (load (← rd A i j)) (load sum)) (load u)))) = Except.ok L') :
    leading h L' = leading h L := by
  obtain ⟨_, _, hb⟩ := bind_ok_elim hb
  obtain ⟨u, _, hb⟩ := bind_ok_elim hb
  split at hb
  · cases hb
  obtain ⟨_, _, hb⟩ := bind_ok_elim hb
  obtain ⟨_, _, hb⟩ := bind_ok_elim hb
  obtain ⟨_, _, hb⟩ := bind_ok_elim hb
  exact leading_wr h hij hb

theorem luLower_leading (h : k ≤ n) (A U L : Mat T n n) {j : Nat} (hj : j < k) :
    Proj (leading h) (luLower A U j L) (luLower (leading h A) (leading h U) j (leading h L)) := by
  unfold luLower
  refine Proj.forUp_longer hj.le h rfl (fun i L hji hi => ?_) (fun i s s' hi _ hb => ?_)
  · rw [luSum_leading h L U hi hj, rd_leading h A hi hj, rd_leading h U hj hj]
    refine Proj.bind (Proj.refl _) (fun s => Proj.bind (Proj.refl _) (fun u => ?_))
    split
    · rename_i hu
      rw [if_pos (by exact hu)]
      exact .error
    · rename_i hu
      rw [if_neg (by exact hu)]
      refine Proj.bind (Proj.refl _) (fun a => Proj.bind (Proj.refl _) (fun v => Proj.bind (Proj.refl _) (fun q => ?_)))
      exact proj_wr h L hi hj _
  · exact luLower_step_keeps h (.inl hi) hb

theorem luLower_keeps (h : k ≤ n) {A U L L' : Mat T n n} {j : Nat} (hj : k ≤ j) (hl : luLower A U j L = .ok L') :
    leading h L' = leading h L := by
  unfold luLower at hl
  exact forUp_keeps (f := leading h) (fun i s s' _ _ hb => luLower_step_keeps h (.inr hj) hb) hl

theorem eye1_leading (h : k ≤ n) : Proj (leading h) (eye1 n : Res (Mat T n n)) (eye1 k) := by
  unfold eye1 eye
  refine Proj.bind (f := leading h) ?_ (fun E => ?_)
  · rw [fill_ok, fill_ok]; exact .ok rfl
  · exact Proj.forUp_longer (Nat.zero_le _) h rfl (fun i E _ hi => proj_wr h E hi hi _)
      (fun i s s' hi _ hb => leading_wr h (.inl hi) hb)

theorem zeros_leading (h : k ≤ n) : Proj (leading h) (zeros n n : Res (Mat T n n)) (zeros k k) := by
  unfold zeros
  rw [fill_ok, fill_ok]
  exact .ok rfl

theorem lu_leading (h : k ≤ n) (A : Mat T n n) :
    Proj (fun s => (leading h s.1, leading h s.2)) (lu A) (lu (leading h A)) := by
  unfold lu
  refine Proj.bind (eye1_leading h) (fun L => Proj.bind (zeros_leading h) (fun U => ?_))
  refine Proj.forUp_longer (Nat.zero_le _) h rfl (fun j s _ hj => ?_) (fun j s s' hj _ hb => ?_)
  · exact Proj.bind (luUpper_leading h A s.1 s.2 hj) (fun U => Proj.bind (luLower_leading h A U s.1 hj) (fun L => .ok rfl))
  · obtain ⟨U, hU, hb⟩ := bind_ok_elim hb
    obtain ⟨L, hL, hb⟩ := bind_ok_elim hb
    cases hb
    simp only [luUpper_keeps h hj hU, luLower_keeps h hj hL]

theorem cholSum_leading (h : k ≤ n) (L : Mat T n n) {i j : Nat} (hi : i < k) (hj : j < k) :
    cholSum (leading h L) i j = cholSum L i j := by
  unfold cholSum
  refine forUp_congr (fun p s _ hp => ?_)
  rw [rd_leading h L hi (by omega), rd_leading h L hj (by omega)]

theorem cholStep_leading (h : k ≤ n) (A L : Mat T n n) {i j : Nat} (hi : i < k) (hj : j < k) :
    Image (leading h) (cholStep A i j L) (cholStep (leading h A) i j (leading h L)) := by
  unfold cholStep
  split
  · rw [cholSum_leading h L hi hi, rd_leading h A hi hi]
    refine Image.bind (Image.refl _) (fun s => Image.bind (Image.refl _) (fun u => Image.bind (Image.refl _) (fun u =>
      Image.bind (Image.refl _) (fun u => ?_))))
    exact image_wr h L hi hi _
  · rw [cholSum_leading h L hi hj, rd_leading h A hi hj, rd_leading h L hj hj]
    refine Image.bind (Image.refl _) (fun s => Image.bind (Image.refl _) (fun u => Image.bind (Image.refl _) (fun u =>
      Image.bind (Image.refl _) (fun u => Image.bind (Image.refl _) (fun u => ?_)))))
    exact image_wr h L hi hj _

theorem cholStep_keeps (h : k ≤ n) {A L L' : Mat T n n} {i j : Nat} (hi : k ≤ i) (hb : cholStep A i j L = .ok L') :
    leading h L' = leading h L := by
  unfold cholStep at hb
  split at hb
  · obtain ⟨_, _, hb⟩ := bind_ok_elim hb
    obtain ⟨_, _, hb⟩ := bind_ok_elim hb
    obtain ⟨_, _, hb⟩ := bind_ok_elim hb
    obtain ⟨_, _, hb⟩ := bind_ok_elim hb
    exact leading_wr h (.inl hi) hb
  · obtain ⟨_, _, hb⟩ := bind_ok_elim hb
    obtain ⟨_, _, hb⟩ := bind_ok_elim hb
    obtain ⟨_, _, hb⟩ := bind_ok_elim hb
    obtain ⟨_, _, hb⟩ := bind_ok_elim hb
    obtain ⟨_, _, hb⟩ := bind_ok_elim hb
    exact leading_wr h (.inl hi) hb

theorem cholRow_leading (h : k ≤ n) (A L : Mat T n n) {i : Nat} (hi : i < k) :
    Image (leading h) (forUp 0 (i + 1) L fun j L => cholStep A i j L)
      (forUp 0 (i + 1) (leading h L) fun j L => cholStep (leading h A) i j L) := by
  refine Image.forUp rfl (fun j L _ hj => ?_)
  exact cholStep_leading h A L hi (by omega)

theorem chol_leading (h : k ≤ n) (A : Mat T n n) : Proj (leading h) (chol A) (chol (leading h A)) := by
  unfold chol
  refine Proj.forUp_longer (Nat.zero_le _) h rfl (fun i L _ hi => ?_) (fun i s s' hi _ hb => ?_)
  · exact (cholRow_leading h A L hi).1
  · exact forUp_keeps (f := leading h) (fun j s s' _ _ hb => cholStep_keeps h hi hb) hb

theorem chol_leading_error (h : k ≤ n) (A : Mat T n n) {e : Stop} (he : chol (leading h A) = .error e) :
    chol A = .error e := by
  unfold chol at he ⊢
  refine Image.forUp_longer_error (f := leading h) (Nat.zero_le _) h rfl (fun i L _ hi => ?_) he
  exact cholRow_leading h A L hi

end Promoted

end MatrixLibs
