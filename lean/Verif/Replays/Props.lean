import Verif.Replays.Model
/-
What the replay of a counterexample sees, if returned lists are changed.
-/
namespace Verif.Replays

/-- The functions that are called. -/
def calls : List Step → List Nat
  | [] => []
  | .call f :: p => f :: calls p
  | _ :: p => calls p

theorem message_cons (f : Nat) (v : List Nat) (cs : Lists) : message ((f, v) :: cs) f = v :: message cs f := by
  simp [message]

theorem message_pop (f : Nat) (v : List Nat) (cs : Lists) : (fun g => if g = f then message cs f else message ((f, v) :: cs) g) = message cs := by
  funext g
  by_cases h : g = f
  · rw [if_pos h, h]
  · have h' : (f == g) = false := by simpa using fun e : f = g => h e.symm
    rw [if_neg h]
    simp [message, h']

/-- Values that are given by function, in the order of the calls, come back in the order of the calls. -/
theorem replay_message : ∀ (p : List Step) (cs ls : Lists), cs.map Prod.fst = calls p →
    replay p (message cs) ls = some (run p (cs.map Prod.snd) ls).1
  | [], _, _, _ => rfl
  | .push i x :: p, cs, ls, h => by
    simp only [replay, run]
    exact replay_message p cs _ h
  | .look i :: p, cs, ls, h => by
    simp only [replay, run, replay_message p cs ls h, Option.map_some]
  | .call f :: p, [], ls, h => by cases h
  | .call f :: p, (g, v) :: cs, ls, h => by
    simp only [List.map_cons, calls] at h
    injection h with h1 h2
    subst h1
    simp only [replay, message_cons, message_pop, run, List.map_cons, List.headD_cons, List.tail_cons]
    exact replay_message p cs _ h2

theorem pushAt_fst : ∀ (ls : Lists) (i x : Nat), (pushAt ls i x).map Prod.fst = ls.map Prod.fst
  | [], _, _ => rfl
  | (f, l) :: ls, 0, x => rfl
  | p :: ls, i + 1, x => by simp only [pushAt, List.map_cons, pushAt_fst ls i x]

theorem final_fst : ∀ (p : List Step) (vals : List (List Nat)) (ls : Lists), (run p vals ls).2.map Prod.fst = ls.map Prod.fst ++ calls p
  | [], _, ls => by simp [run, calls]
  | .call f :: p, vals, ls => by
    simp only [run, calls, final_fst p]
    simp
  | .push i x :: p, vals, ls => by
    simp only [run, calls, final_fst p, pushAt_fst]
  | .look i :: p, vals, ls => by
    simp only [run, calls, final_fst p]

/-- The replay never lacks a value; and it is exactly the execution in which each call returns the list as it was at the end of the first execution. -/
theorem replay_is_final (p : List Step) (vals : List (List Nat)) :
    reproduced p vals = some (run p ((run p vals []).2.map Prod.snd) []).1 := by
  refine replay_message p _ [] ?_
  rw [final_fst]
  rfl

/-- Values for the calls of a program: those that are made up, and empty lists if there are none left. -/
def made : List Step → List (List Nat) → Lists
  | [], _ => []
  | .call f :: p, vals => (f, vals.headD []) :: made p vals.tail
  | _ :: p, vals => made p vals

theorem run_made : ∀ (p : List Step) (vals : List (List Nat)) (ls : Lists), (run p ((made p vals).map Prod.snd) ls).1 = (run p vals ls).1
  | [], _, _ => rfl
  | .call f :: p, vals, ls => by
    simp only [run, made, List.map_cons, List.headD_cons, List.tail_cons]
    exact run_made p _ _
  | .push i x :: p, vals, ls => by
    simp only [run, made]
    exact run_made p _ _
  | .look i :: p, vals, ls => by
    simp only [run, made, run_made p vals ls]

theorem made_fst : ∀ (p : List Step) (vals : List (List Nat)), (made p vals).map Prod.fst = calls p
  | [], _ => rfl
  | .call f :: p, vals => by simp only [made, calls, List.map_cons, made_fst p]
  | .push i x :: p, vals => by simp only [made, calls, made_fst p]
  | .look i :: p, vals => by simp only [made, calls, made_fst p]

theorem final_unchanged : ∀ (p : List Step) (vals : List (List Nat)) (ls : Lists), (∀ i x, Step.push i x ∉ p) → (run p vals ls).2 = ls ++ made p vals
  | [], _, ls, _ => by simp [run, made]
  | .call f :: p, vals, ls, h => by
    simp only [run, made, final_unchanged p _ _ fun i x hx => h i x (List.mem_cons_of_mem _ hx)]
    simp
  | .push i x :: p, vals, ls, h => absurd List.mem_cons_self (h i x)
  | .look i :: p, vals, ls, h => by
    simp only [run, made, final_unchanged p _ _ fun i x hx => h i x (List.mem_cons_of_mem _ hx)]

/-- If the program does not change the returned lists, the replay sees what the execution saw. -/
theorem reproduced_partial (p : List Step) (vals : List (List Nat)) (h : ∀ i x, Step.push i x ∉ p) : reproduced p vals = some (run p vals []).1 := by
  rw [replay_is_final, final_unchanged p vals [] h]
  exact congrArg some (run_made p vals [])

example : reproduced [.call 3, .call 4, .call 3, .look 2, .look 0] [[1], [2], [5]] = some [some [5], some [1]] := by decide +kernel

/-- With the lists as they were when they were returned, all programs would see in the replay what the execution saw. -/
theorem early_copies_suffice (p : List Step) (vals : List (List Nat)) : replay p (message (made p vals)) [] = some (run p vals []).1 := by
  rw [replay_message p (made p vals) [] (made_fst p vals), run_made]

example : replay [.call 3, .push 0 7, .look 0] (message (made [.call 3, .push 0 7, .look 0] [[1]])) [] = some [some [1, 7]] := by decide +kernel

/-- Disagreement: if the program changes a returned list, the replay starts with the changed list: whatever list is returned, and whatever is
appended. -/
theorem changed_twice (f x : Nat) (l : List Nat) : (run [.call f, .push 0 x, .look 0] [l] []).1 = [some (l ++ [x])] ∧
    reproduced [.call f, .push 0 x, .look 0] [l] = some [some (l ++ [x] ++ [x])] := by
  refine ⟨rfl, ?_⟩
  rw [replay_is_final]
  rfl

end Verif.Replays
