/-
Programs that call functions which return lists, change these lists, and look at them.
-/
namespace Verif.Replays

/-- Steps of a program: calling function `f`, which returns a new list; appending to the list that the `i`-th call returned; looking at that list. -/
inductive Step
  | call (f : Nat) | push (i x : Nat) | look (i : Nat)
deriving DecidableEq

/-- The lists that were returned so far, with the functions that returned them. -/
abbrev Lists := List (Nat × List Nat)

/-- The `i`-th list with an item appended. -/
def pushAt : Lists → Nat → Nat → Lists
  | [], _, _ => []
  | (f, l) :: ls, 0, x => (f, l ++ [x]) :: ls
  | p :: ls, i + 1, x => p :: pushAt ls i x

/-- An execution in which the calls return the lists in `vals`, in turn: what is looked at, and the lists at the end. -/
def run : List Step → List (List Nat) → Lists → List (Option (List Nat)) × Lists
  | [], _, ls => ([], ls)
  | .call f :: p, vals, ls => run p vals.tail (ls ++ [(f, vals.headD [])])
  | .push i x :: p, vals, ls => run p vals (pushAt ls i x)
  | .look i :: p, vals, ls => ((ls[i]?.map Prod.snd) :: (run p vals ls).1, (run p vals ls).2)

end Verif.Replays
