import Verif.Search.Spec
/- A small concrete world and programs, used to show that the hypotheses of the theorems are met
by non-trivial cases and to exhibit behaviours of the real algorithm. -/
namespace Verif.Search.Demo
open Verif.Search

/-- Expressions about one symbolic number below 8. -/
inductive Ex where
  | lt (n : Nat)
  | eq (n : Nat)
  deriving DecidableEq

def world : World where
  E := Ex
  X := Unit
  V := Nat
  Inp := Fin 8
  holds e i := match e with
    | .lt n => decide (i.val < n)
    | .eq n => decide (i.val = n)
  value _ i := i.val
  eqE _ v := .eq v
  eqE_spec := by intro x v i; simp

/-- First input meeting the constraints. -/
def first (pc : List (Ex × Bool)) : Option (Fin 8) :=
  (List.finRange 8).find? fun i => pc.all fun c => world.holds c.1 i == c.2

/-- An exact solver, with a given random draw. -/
def exact (coin : Bool) : Env world where
  coin := coin
  solve pc := match first pc with
    | some _ => .sat
    | none => .unsat
  model pc _ := match first pc with
    | some i => i.val
    | none => (0 : Nat)

theorem first_some {pc i} (h : first pc = some i) : Meets (W := world) i pc := by
  have h2 := List.find?_some h
  intro c hc
  simp only [List.all_eq_true] at h2
  simpa using h2 c hc

theorem first_none {pc} (h : first pc = none) (i : Fin 8) : ¬ Meets (W := world) i pc := by
  intro hm
  have h2 := List.find?_eq_none.1 h i (List.mem_finRange i)
  apply h2
  simp only [List.all_eq_true]
  intro c hc
  simpa using hm c hc

theorem exact_unsatSound (c : Bool) : (exact c).UnsatSound := by
  intro pc h i
  cases hf : first pc with
  | none => exact first_none hf i
  | some j => simp [exact, hf] at h

theorem exact_satSound (c : Bool) : (exact c).SatSound := by
  intro pc h
  cases hf : first pc with
  | none => simp [exact, hf] at h
  | some j => exact ⟨j, first_some hf, fun x => by simp [exact, hf, world]⟩

/-- `pre: x >= 3`, then `x` is realized; the result is checked by `bad`. -/
def guarded (bad : Nat → Bool) : Prog world where
  S := Option Nat ⊕ Bool
  act
    | .inl none => .ask (Ex.lt 3) Sum.inr
    | .inl (some v) => .done true
        (if bad v then { status := some .refuted, messages := ["post failed"] }
         else { status := some .confirmed })
    | .inr true => .done true { failPre := some ⟨1, ""⟩ }
    | .inr false => .realize () fun v => .inl (some v)

/-- Enough random draws for any path of the demo programs. -/
def path (coin : Bool) : List (Env world) := List.replicate 12 (exact coin)

end Verif.Search.Demo
