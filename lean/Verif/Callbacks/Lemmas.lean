import Verif.Callbacks.Spec
namespace Verif.Callbacks

theorem handleAll_append (stack : List Entry) (a b : List Event) : handleAll stack (a ++ b) =
    ((handleAll (handleAll stack a).1 b).1, (handleAll stack a).2 ++ (handleAll (handleAll stack a).1 b).2) := by
  induction a generalizing stack with
  | nil => simp [handleAll]
  | cons e a ih => simp only [List.cons_append, handleAll, ih, List.append_assoc]

/-- The stack of a frame with a pending callback. -/
def pendStack (frame : Nat) (pending : Option Nat) (pc : Nat) (stack : List Entry) : List Entry :=
  match pending with
  | none => stack
  | some cb => ⟨frame, pc, cb⟩ :: stack

theorem handle_pend (stack : List Entry) (frame pc : Nat) (pending push : Option Nat) (hs : ∀ e ∈ stack, e.frame ≠ frame) :
    handle (pendStack frame pending pc stack) ⟨frame, pc, push⟩ =
      (pendStack frame push (pc + 2) stack, ranOf pending ++ [.op frame pc]) := by
  cases pending with
  | none =>
    cases stack with
    | nil => cases push <;> simp [handle, pendStack, runTop, pushCallback, ranOf]
    | cons e stack =>
      have he := hs e (by simp)
      cases push <;> simp [handle, pendStack, runTop, pushCallback, ranOf, he]
  | some cb => cases push <;> simp [handle, pendStack, runTop, pushCallback, ranOf]

mutual
theorem run_exact : ∀ (r : Run) (active : List Nat) (frame : Nat) (stack : List Entry) (pending : Option Nat) (pc : Nat),
    r.Ok active frame → r.Clean → (∀ e ∈ stack, e.frame ∈ active) → frame ∉ active → (pending ≠ none → r.next = some pc) →
    handleAll (pendStack frame pending pc stack) (r.events frame) = (stack, r.shows frame pending)
  | .done, active, frame, stack, pending, pc, _, _, _, _, hp => by
    cases pending with
    | some cb => simp [Run.next] at hp
    | none => simp [Run.events, Run.shows, handleAll, pendStack]
  | .step pc' push completes inner rest, active, frame, stack, pending, pc, hok, hc, hs, hf, hp => by
    rw [Run.Ok] at hok
    rw [Run.Clean] at hc
    obtain ⟨ok1, ok2, ok3⟩ := hok
    obtain ⟨c1, c2, c3⟩ := hc
    have hpc : pendStack frame pending pc stack = pendStack frame pending pc' stack := by
      cases pending with
      | none => rfl
      | some cb =>
        have := hp (by simp)
        simp only [Run.next, Option.some.injEq] at this
        rw [this]
    have hne : ∀ e ∈ stack, e.frame ≠ frame := fun e he h => hf (h ▸ hs e he)
    rw [Run.events, Run.shows, hpc, handleAll, handle_pend stack frame pc' pending push hne]
    simp only []
    rw [handleAll_append]
    have hin := calls_exact inner (frame :: active) (pendStack frame push (pc' + 2) stack) ok1 c2 (by
      intro e he
      cases push with
      | none => exact List.mem_cons_of_mem _ (hs e he)
      | some cb =>
        simp only [pendStack, List.mem_cons] at he
        rcases he with rfl | he
        · exact List.mem_cons_self
        · exact List.mem_cons_of_mem _ (hs e he))
    rw [hin]
    have hrest := run_exact rest active frame stack push (pc' + 2) ok2 c3 hs hf (fun h => ok3 h (c1 h))
    simp only [hrest]
    have hpush : (if completes = true then push else none) = push := by
      cases push with
      | none => simp
      | some cb => rw [c1 (by simp)]; simp
    rw [hpush]
    simp
theorem calls_exact : ∀ (c : Calls) (active : List Nat) (stack : List Entry), c.Ok active → c.Clean → (∀ e ∈ stack, e.frame ∈ active) →
    handleAll stack c.events = (stack, c.shows)
  | .nil, _, _, _, _, _ => by simp [Calls.events, Calls.shows, handleAll]
  | .cons frame run rest, active, stack, hok, hc, hs => by
    rw [Calls.Ok] at hok
    rw [Calls.Clean] at hc
    rw [Calls.events, Calls.shows, handleAll_append]
    have h1 := run_exact run active frame stack none 0 hok.2.1 hc.1 hs hok.1 (by simp)
    simp only [pendStack] at h1
    rw [h1]
    simp only [calls_exact rest active stack hok.2.2 hc.2 hs]
end

end Verif.Callbacks
