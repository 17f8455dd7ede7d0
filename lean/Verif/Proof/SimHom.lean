import Verif.Proof.Sim
import Verif.Spec.Widen
import Verif.Proof.Strassen
import Verif.Proof.Pow
import Verif.Proof.Det
import Verif.Proof.Conv

/-!
# Conversions that respect sums, differences and products
-/

namespace MatrixLibs

set_option linter.unusedSectionVars false

open CScalar (ofInt)

theorem SimRes.map_eq {α β : Type} [Rel α β] {g : α → β} (hg : ∀ {a b}, a ≈≈ b → b = g a) {x : Res α} {y : Res β}
    (h : SimRes x y) (hd : Defined x) : y = x.map g := by
  cases x with
  | ok a =>
    obtain ⟨b, rfl, hab⟩ := h
    rw [hg hab]
    rfl
  | error e =>
    rcases h with ⟨k, rfl⟩ | rfl
    · exact absurd rfl (hd k)
    · rfl

theorem Defined.of_wp {α : Type} {x : Res α} {P : α → Prop} (h : wp x P (fun _ => False)) : Defined x := by
  rintro k rfl
  exact h

/-- `b` is `a`, converted. -/
abbrev relHom {T U : Type} (g : T → U) : Rel T U := ⟨fun a b => b = g a⟩

/-- `g` respects the literals and, where they are defined, sums, differences and products. -/
structure HomRing {T U : Type} [Inhabited T] [Inhabited U] [CScalar T] [CScalar U] (g : T → U) : Prop where
  init : (default : U) = g default
  zero : (ofInt 0 : U) = g (ofInt 0)
  one : (ofInt 1 : U) = g (ofInt 1)
  minusOne : (ofInt (-1) : U) = g (ofInt (-1))
  add (a b : T) : Defined (CScalar.add a b) → CScalar.add (g a) (g b) = (CScalar.add a b).map g
  sub (a b : T) : Defined (CScalar.sub a b) → CScalar.sub (g a) (g b) = (CScalar.sub a b).map g
  mul (a b : T) : Defined (CScalar.mul a b) → CScalar.mul (g a) (g b) = (CScalar.mul a b).map g

section
variable {T U : Type} [Inhabited T] [Inhabited U] [CScalar T] [CScalar U] {g : T → U}

theorem sim_of_map {x : Res T} {y : Res U} (h : Defined x → y = x.map g) : @SimRes T U (relHom g) x y := by
  cases x with
  | ok a => exact ⟨g a, h (fun k hk => by cases hk), rfl⟩
  | error e =>
    by_cases hk : ∃ k, e = .ub k
    · exact .inl hk
    · exact .inr (h (fun k hek => hk ⟨k, by cases hek; rfl⟩))

theorem HomRing.simRing (H : HomRing g) : @SimRing T U _ _ _ _ (relHom g) :=
  let _ := relHom g
  { init := H.init
    zero := H.zero
    one := H.one
    minusOne := H.minusOne
    add := fun {a b a' b'} h1 h2 => by
      rw [show a' = g a from h1, show b' = g b from h2]
      exact sim_of_map (H.add a b)
    sub := fun {a b a' b'} h1 h2 => by
      rw [show a' = g a from h1, show b' = g b from h2]
      exact sim_of_map (H.sub a b)
    mul := fun {a b a' b'} h1 h2 => by
      rw [show a' = g a from h1, show b' = g b from h2]
      exact sim_of_map (H.mul a b) }

/-- What holds of a conversion that respects sums, differences and products. -/
structure Commutes (g : T → U) : Prop where
  add {r c : Nat} (A B : Mat T r c) : Defined (sum A B) → sum (A.map g) (B.map g) = (sum A B).map (·.map g)
  sub {r c : Nat} (A B : Mat T r c) :
    Defined (MatrixLibs.sub A B) → MatrixLibs.sub (A.map g) (B.map g) = (MatrixLibs.sub A B).map (·.map g)
  addScalar {r c : Nat} (A : Mat T r c) (s : T) :
    Defined (sumScalar A s) → sumScalar (A.map g) (g s) = (sumScalar A s).map (·.map g)
  subScalar {r c : Nat} (A : Mat T r c) (s : T) :
    Defined (MatrixLibs.subScalar A s) →
      MatrixLibs.subScalar (A.map g) (g s) = (MatrixLibs.subScalar A s).map (·.map g)
  mulScalar {r c : Nat} (A : Mat T r c) (s : T) :
    Defined (multScalar A s) → multScalar (A.map g) (g s) = (multScalar A s).map (·.map g)
  mul {n m p : Nat} (A : Mat T n m) (B : Mat T m p) :
    Defined (mult A B) → mult (A.map g) (B.map g) = (mult A B).map (·.map g)
  strassen (A B : Mat T 2 2) :
    Defined (MatrixLibs.strassen A B) →
      MatrixLibs.strassen (A.map g) (B.map g) = (MatrixLibs.strassen A B).map (·.map g)
  pow {n : Nat} (handled : Option Exc) (w : Nat) (A : Mat T n n) (p : Int) (hp : 0 ≤ p) :
    Defined (MatrixLibs.pow handled w A p) →
      MatrixLibs.pow handled w (A.map g) p = (MatrixLibs.pow handled w A p).map (·.map g)
  det {n : Nat} (h0 : 1 ≤ n) (hn : n ≤ 3) (A : Mat T n n) :
    Defined (MatrixLibs.det A) → MatrixLibs.det (A.map g) = (MatrixLibs.det A).map g
  conv2 {r c : Nat} (A : Mat T r c) (K : Mat T 3 3) :
    Defined (MatrixLibs.conv2 A K) → MatrixLibs.conv2 (A.map g) (K.map g) = (MatrixLibs.conv2 A K).map (·.map g)
  conv2_full {r c : Nat} (A : Mat T r c) (K : Mat T 3 3) :
    Defined (MatrixLibs.conv2_full A K) →
      MatrixLibs.conv2_full (A.map g) (K.map g) = (MatrixLibs.conv2_full A K).map (·.map g)
  conv2_valid {n : Nat} (A : Mat T n n) (K : Mat T 3 3) :
    Defined (MatrixLibs.conv2_valid A K) →
      MatrixLibs.conv2_valid (A.map g) (K.map g) = (MatrixLibs.conv2_valid A K).map (·.map g)

theorem HomRing.commutes (H : HomRing g) : Commutes g := by
  let _ := relHom g
  have := H.simRing
  have rm : ∀ {r c : Nat} (A : Mat T r c), A ≈≈ A.map g := fun A _ _ => rfl
  have er : ∀ {r c : Nat} {A : Mat T r c} {B : Mat U r c}, A ≈≈ B → B = A.map g :=
    fun {_ _ A B} h => by funext a b; exact h a b
  have sr : ∀ s : T, s ≈≈ g s := fun s => rfl
  exact
    { add := fun A B => (sim_sum (rm A) (rm B)).map_eq er
      sub := fun A B => (sim_sub (rm A) (rm B)).map_eq er
      addScalar := fun A s => (sim_sumScalar (rm A) (sr s)).map_eq er
      subScalar := fun A s => (sim_subScalar (rm A) (sr s)).map_eq er
      mulScalar := fun A s => (sim_multScalar (rm A) (sr s)).map_eq er
      mul := fun A B => (sim_mult (rm A) (rm B)).map_eq er
      strassen := fun A B => (sim_strassen (rm A) (rm B)).map_eq er
      pow := fun handled w A p hp => (sim_pow_nonneg handled w (rm A) hp).map_eq er
      det := fun h0 hn A => (sim_det_small h0 hn (rm A)).map_eq (fun {a b} (h : b = g a) => h)
      conv2 := fun A K => (sim_conv2 (rm A) (rm K)).map_eq er
      conv2_full := fun A K => (sim_conv2_full (rm A) (rm K)).map_eq er
      conv2_valid := fun A K => (sim_conv2_valid (rm A) (rm K)).map_eq er }

end

end MatrixLibs
