import Verif.Proof.Wp

/-!
# Row-major scans that return at the first failing element
-/

namespace MatrixLibs

variable {r c : Nat}

/-- A double loop that returns `false` at the first element violating `P`. -/
theorem scan_ok (body : Nat → Nat → Res (Ctl Unit Bool)) (P : Fin r → Fin c → Prop)
    (hok : ∀ a b, P a b → body a.val b.val = .ok (.cont ()))
    (hret : ∀ a b, ¬ P a b → body a.val b.val = .ok (.ret false)) :
    ∃ b, (do
      match ← forRet 0 r () fun it _ => forRet 0 c () fun jt _ => body it jt with
      | .ret b => .ok b
      | .cont _ => .ok true) = .ok b ∧ (b = true ↔ ∀ a b, P a b) := by
  suffices h : wp (do
      match ← forRet 0 r () fun it _ => forRet 0 c () fun jt _ => body it jt with
      | .ret b => .ok b
      | .cont _ => .ok true) (fun b => b = true ↔ ∀ a b, P a b) (fun _ => False) by
    obtain ⟨b, hb, h⟩ := wp_total h
    exact ⟨b, hb, h⟩
  rw [wp_bind]
  refine wp_forRet (fun it _ => ∀ a : Fin r, a.val < it → ∀ b, P a b)
    (fun v => v = false ∧ ∃ a b, ¬ P a b) (Nat.zero_le _) (fun a h => by omega) ?_ ?_ ?_
  · intro it _ _ hit hI
    refine wp_forRet (fun jt _ => ∀ b : Fin c, b.val < jt → P ⟨it, hit⟩ b)
      (fun v => v = false ∧ ∃ a b, ¬ P a b) (Nat.zero_le _) (fun b h => by omega) ?_ ?_
      (fun v h => h)
    · intro jt _ _ hjt hJ
      by_cases hP : P ⟨it, hit⟩ ⟨jt, hjt⟩
      · rw [hok ⟨it, hit⟩ ⟨jt, hjt⟩ hP]
        intro b hb
        rcases Nat.lt_succ_iff_lt_or_eq.mp hb with h | h
        · exact hJ b h
        · have hb' : b = ⟨jt, hjt⟩ := Fin.ext h
          rw [hb']
          exact hP
      · rw [hret ⟨it, hit⟩ ⟨jt, hjt⟩ hP]
        exact ⟨rfl, _, _, hP⟩
    · intro _ hJ a ha b
      rcases Nat.lt_succ_iff_lt_or_eq.mp ha with h | h
      · exact hI a h b
      · have ha' : a = ⟨it, hit⟩ := Fin.ext h
        subst ha'
        exact hJ b b.2
  · intro _ h
    exact ⟨fun _ a b => h a a.2 b, fun _ => rfl⟩
  · rintro v ⟨rfl, a, b, hP⟩
    exact ⟨fun h => by simp at h, fun h => absurd (h a b) hP⟩

end MatrixLibs
