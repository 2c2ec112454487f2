import Verif.Replays.Spec
/-
Counterexamples with functions that are skipped: what `crosshair.patch_to_return` in the message makes the functions return (crosshair/core.py 1057-1101,
1179-1182, 1493-1514). In `Verif.Skip` values do not change; here they are lists that do.
-/
namespace Verif.Replays

/-- The values by function. -/
abbrev Patches := Nat → List (List Nat)

/-- `append_return` (1091-1092) keeps the returned objects; `patch_string` (1094-1101) is called for the message, after the execution (1507), and shows the
objects as they are then. -/
def message (final : Lists) : Patches := fun f => (final.filter fun p => p.1 == f).map Prod.snd

/-- An execution with `patch_to_return` (1057-1083); `none` is `NotDeterministic`, when there are no more values. Functions without values would be
called; here all functions are skipped. -/
def replay : List Step → Patches → Lists → Option (List (Option (List Nat)))
  | [], _, _ => some []
  | .call f :: p, q, ls => match q f with
    | [] => none
    | v :: vs => replay p (fun g => if g = f then vs else q g) (ls ++ [(f, v)])
  | .push i x :: p, q, ls => replay p q (pushAt ls i x)
  | .look i :: p, q, ls => (replay p q ls).map ((ls[i]?.map Prod.snd) :: ·)

/-- The execution for a path, with made up values, and the replay of the message for it. -/
def reproduced (p : List Step) (vals : List (List Nat)) : Option (List (Option (List Nat))) := replay p (message (run p vals []).2) []

end Verif.Replays
