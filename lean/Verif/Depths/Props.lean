import Verif.Depths.Rounds
import Verif.Depths.Cache
/-
Theorems: the depths of the stack that CrossHair computes for code (in 3.12 and 3.13) are those of every run, all instructions that
CrossHair replaces are flagged, and the cache of depths never mixes codes up.
-/
namespace Verif.Depths

/-- What `mark` ends with. -/
theorem mark_end {code : List Instr} {table : List Entry} {d0 : Int} (w : Compiled code table d0) (hne : code ≠ []) (g : Bool) :
    ∃ s', Sound code table d0 (mark code table d0 g) ∧ mark code table d0 g = scan code 0 s' ∧
      (mark code table d0 g).todo = false ∧ (mark code table d0 g).stacks 0 ≠ none ∧
      ∀ e ∈ table, (mark code table d0 g).stacks e.start ≠ none → (mark code table d0 g).stacks e.handler ≠ none := by
  have hz : Start code 0 ∨ 0 = total code := by
    cases code with
    | nil => exact absurd rfl hne
    | cons a r => exact Or.inl ⟨a, At.here a r⟩
  have hs : Sound code table d0 ⟨fun k => if k = 0 then some d0 else none, fun k => if k = 0 then g else false, false⟩ := by
    intro k d hk
    dsimp only at hk
    split at hk
    · rename_i h
      subst h
      cases hk
      exact Or.inl ⟨_, Run.start⟩
    · cases hk
  have hcount : 1 ≤ count code ⟨fun k => if k = 0 then some d0 else none, fun k => if k = 0 then g else false, false⟩ := by
    have := mem_places code 0 0 hz
    unfold count
    exact List.countP_pos_iff.2 ⟨0, this, by simp⟩
  obtain ⟨s', h1, h0, h2, h3⟩ := passes_end w (code.length + 1) _ hs (by simp) hz (by omega)
  have hm : mark code table d0 g = pass code table s' := h2
  have hp : pass code table s' = excScan table (scan code 0 { s' with todo := false }) := rfl
  have hq := excScan_quiet table (scan code 0 { s' with todo := false }) (by rw [← hp]; exact h3)
  refine ⟨{ s' with todo := false }, ?_, ?_, ?_, ?_, ?_⟩
  · rw [hm]
    exact excScan_sound w table (fun _ h => h) _ (scan_sound w code [] rfl { s' with todo := false } h1)
  · rw [hm, hp, hq.1]
  · rw [hm]; exact h3
  · rw [hm]; exact pass_keeps w s' 0 hz h0
  · rw [hm, hp, hq.1]; exact hq.2

/-- Whatever a run passes is marked. -/
theorem run_marked {code : List Instr} {table : List Entry} {d0 : Int} (w : Compiled code table d0) (hne : code ≠ []) (g : Bool)
    {v : List Nat} {pc : Nat} {d : Int} (h : Run code table d0 v pc d) :
    (mark code table d0 g).stacks pc ≠ none ∧ ∀ k ∈ v, (mark code table d0 g).stacks k ≠ none := by
  obtain ⟨s', _, he, ht, h0, hx⟩ := mark_end w hne g
  induction h with
  | start => exact ⟨h0, by simpa using h0⟩
  | step v pc d ins j δ h hat hs ih =>
    have hj : (mark code table d0 g).stacks j ≠ none := by
      rw [he] at ht ih ⊢
      have := (scan_closed w code [] rfl s' ht pc ins hat (by simpa [total] using ih.1)).1 j δ (by simpa [total] using hs)
      simpa [total] using this
    exact ⟨hj, by intro k hk; rcases List.mem_cons.1 hk with rfl | hk; exacts [hj, ih.2 k hk]⟩
  | raise v pc d ins e h hat hm hc ih =>
    obtain ⟨e', he', heq, hin⟩ := w.entered v pc d ins e h hat hm hc
    have hj : (mark code table d0 g).stacks e.handler ≠ none := by
      rw [← heq]
      exact hx e' he' (ih.2 _ hin)
    exact ⟨hj, by intro k hk; rcases List.mem_cons.1 hk with rfl | hk; exacts [hj, ih.2 k hk]⟩

/-! ### C237 -/

/-- Whenever the interpreter is at an instruction, in any run of the code, with any jumps and exceptions, the depth that is found for the
instruction is the depth of the interpreter's stack (at the first prefix of the instruction and at the instruction itself). -/
theorem depth_correct {code : List Instr} {table : List Entry} {d0 : Int} (w : Compiled code table d0) (g : Bool)
    {v : List Nat} {pc : Nat} {d : Int} {ins : Instr} (h : Run code table d0 v pc d) (hat : At code pc ins) :
    (mark code table d0 g).stacks pc = some d ∧ (mark code table d0 g).stacks (pc + ins.ext) = some d := by
  have hne : code ≠ [] := by rintro rfl; cases hat
  obtain ⟨s', hsound, he, ht, h0, hx⟩ := mark_end w hne g
  have hm := (run_marked w hne g h).1
  constructor
  · cases hd : (mark code table d0 g).stacks pc with
    | none => exact absurd hd hm
    | some d' =>
      obtain ⟨v', hr⟩ := sound_start hsound ⟨ins, hat⟩ hd
      rw [w.unique v' v pc d' d hr h]
  · have hi : (mark code table d0 g).stacks (pc + ins.ext) ≠ none := by
      rw [he] at ht hm ⊢
      have := (scan_closed w code [] rfl s' ht pc ins hat (by simpa [total] using hm)).2.1
      simpa [total] using this
    cases hd : (mark code table d0 g).stacks (pc + ins.ext) with
    | none => exact absurd hd hi
    | some d' =>
      congr 1
      have key : ∀ pc' ins' v', At code pc' ins' → Run code table d0 v' pc' d' → pc' ≤ pc + ins.ext → pc + ins.ext ≤ pc' + ins'.ext → d' = d := by
        intro pc' ins' v' hat' hr h1 h2
        have hs := size_pos ins
        have hs' := size_pos ins'
        rcases at_order hat hat' with ⟨rfl, rfl⟩ | ho | ho
        · exact w.unique v' v pc' d' d hr h
        · omega
        · omega
      rcases hsound _ _ hd with ⟨v', hr⟩ | ⟨pc', ins', v', hat', hr, h1, h2⟩
      · have hst : Start code (pc + ins.ext) ∨ pc + ins.ext = total code := by
          generalize pc + ins.ext = q at hr
          cases hr with
          | start =>
            left
            cases code with
            | nil => exact absurd rfl hne
            | cons a r => exact ⟨a, At.here a r⟩
          | step _ _ _ _ _ _ _ hat' hs => exact w.targets _ _ hat' _ _ hs
          | raise _ _ _ _ e _ _ hm _ => exact Or.inl (w.handlers e hm)
        have hno := not_inner hat hst
        have hx0 : ins.ext = 0 := by omega
        rw [hx0, Nat.add_zero] at hr
        exact w.unique v' v pc d' d hr h
      · exact key pc' ins' v' hat' hr (by omega) h2

/-- A loop in a `try`, with a prefixed instruction. -/
def sample : List Instr :=
  [⟨.other 1, 1, 0, 300, false⟩, ⟨.popJump, 0, 0, 1, false⟩, ⟨.jumpBackward, 0, 0, 4, false⟩, ⟨.stop, 0, 0, 0, false⟩,
   ⟨.other (-1), 0, 0, 0, true⟩, ⟨.stop, 0, 0, 0, false⟩]

def sampleTable : List Entry := [⟨0, 3, 5, 0, false⟩]

theorem sample_at {pc : Nat} {ins : Instr} (h : At sample pc ins) :
    (pc, ins) ∈ ([(0, ⟨.other 1, 1, 0, 300, false⟩), (2, ⟨.popJump, 0, 0, 1, false⟩), (3, ⟨.jumpBackward, 0, 0, 4, false⟩),
      (4, ⟨.stop, 0, 0, 0, false⟩), (5, ⟨.other (-1), 0, 0, 0, true⟩), (6, ⟨.stop, 0, 0, 0, false⟩)] : List (Nat × Instr)) := by
  unfold sample at h
  cases h with
  | here => simp
  | there _ _ _ _ h => cases h with
    | here => simp [Instr.size]
    | there _ _ _ _ h => cases h with
      | here => simp [Instr.size]
      | there _ _ _ _ h => cases h with
        | here => simp [Instr.size]
        | there _ _ _ _ h => cases h with
          | here => simp [Instr.size]
          | there _ _ _ _ h => cases h with
            | here => simp [Instr.size]
            | there _ _ _ _ h => cases h

theorem sample_start {k : Nat} (h : k ∈ [0, 2, 3, 4, 5, 6]) : Start sample k := by
  simp only [List.mem_cons, List.not_mem_nil, or_false] at h
  rcases h with rfl | rfl | rfl | rfl | rfl | rfl
  · exact ⟨_, At.here _ _⟩
  · exact ⟨_, At.there _ _ 0 _ (At.here _ _)⟩
  · exact ⟨_, At.there _ _ 1 _ (At.there _ _ 0 _ (At.here _ _))⟩
  · exact ⟨_, At.there _ _ 2 _ (At.there _ _ 1 _ (At.there _ _ 0 _ (At.here _ _)))⟩
  · exact ⟨_, At.there _ _ 3 _ (At.there _ _ 2 _ (At.there _ _ 1 _ (At.there _ _ 0 _ (At.here _ _))))⟩
  · exact ⟨_, At.there _ _ 4 _ (At.there _ _ 3 _ (At.there _ _ 2 _ (At.there _ _ 1 _ (At.there _ _ 0 _ (At.here _ _)))))⟩

theorem sample_run {v : List Nat} {pc : Nat} {d : Int} (h : Run sample sampleTable 0 v pc d) :
    0 ∈ v ∧ (pc, d) ∈ ([(0, 0), (2, 1), (3, 0), (4, 0), (5, 1), (6, 0)] : List (Nat × Int)) := by
  induction h with
  | start => simp
  | step v pc d ins j δ h hat hs ih =>
    refine ⟨List.mem_cons_of_mem _ ih.1, ?_⟩
    have ha := sample_at hat
    have hb := ih.2
    simp only [List.mem_cons, List.not_mem_nil, or_false, Prod.mk.injEq] at ha hb
    rcases ha with ⟨rfl, rfl⟩ | ⟨rfl, rfl⟩ | ⟨rfl, rfl⟩ | ⟨rfl, rfl⟩ | ⟨rfl, rfl⟩ | ⟨rfl, rfl⟩ <;>
      simp [succ, Instr.size] at hs hb <;> (try rcases hs with ⟨rfl, rfl⟩ | ⟨rfl, rfl⟩) <;> simp_all
  | raise v pc d ins e h hat he hc ih =>
    refine ⟨List.mem_cons_of_mem _ ih.1, ?_⟩
    simp only [sampleTable, List.mem_singleton] at he
    subst he
    simp [Entry.depth]

theorem sample_compiled : Compiled sample sampleTable 0 where
  targets := by
    intro pc ins hat j δ hs
    left
    apply sample_start
    have ha := sample_at hat
    simp only [List.mem_cons, List.not_mem_nil, or_false, Prod.mk.injEq] at ha
    rcases ha with ⟨rfl, rfl⟩ | ⟨rfl, rfl⟩ | ⟨rfl, rfl⟩ | ⟨rfl, rfl⟩ | ⟨rfl, rfl⟩ | ⟨rfl, rfl⟩ <;>
      simp [succ, Instr.size] at hs <;> (try rcases hs with ⟨rfl, rfl⟩ | ⟨rfl, rfl⟩) <;> simp_all
  starts := by
    intro e he
    simp only [sampleTable, List.mem_singleton] at he
    subst he
    exact ⟨_, At.here _ _, by simp [Entry.covers]⟩
  handlers := by
    intro e he
    simp only [sampleTable, List.mem_singleton] at he
    subst he
    exact sample_start (by simp)
  forward := by
    intro pc ins hat hk
    have ha := sample_at hat
    simp only [List.mem_cons, List.not_mem_nil, or_false, Prod.mk.injEq] at ha
    rcases ha with ⟨rfl, rfl⟩ | ⟨rfl, rfl⟩ | ⟨rfl, rfl⟩ | ⟨rfl, rfl⟩ | ⟨rfl, rfl⟩ | ⟨rfl, rfl⟩ <;> rfl
  unique := by
    intro v v' pc d d' h h'
    have h1 := (sample_run h).2
    have h2 := (sample_run h').2
    simp only [List.mem_cons, List.not_mem_nil, or_false, Prod.mk.injEq] at h1 h2
    omega
  levels := by
    intro e he v d h
    simp only [sampleTable, List.mem_singleton] at he
    subst he
    have h1 := (sample_run h).2
    simp only [List.mem_cons, List.not_mem_nil, or_false, Prod.mk.injEq] at h1
    dsimp only
    omega
  entered := by
    intro v pc d ins e h hat he hc
    simp only [sampleTable, List.mem_singleton] at he
    subst he
    exact ⟨_, by simp [sampleTable], rfl, (sample_run h).1⟩

theorem sample_handler : Run sample sampleTable 0 [5, 0] 5 1 :=
  Run.raise [0] 0 0 _ ⟨0, 3, 5, 0, false⟩ Run.start (At.here _ _) (by simp [sampleTable]) (by simp [Entry.covers])

theorem sample_five : At sample 5 ⟨.other (-1), 0, 0, 0, true⟩ :=
  At.there _ _ 3 _ (At.there _ _ 2 _ (At.there _ _ 1 _ (At.there _ _ 0 _ (At.here _ _))))

example (g : Bool) : (mark sample sampleTable 0 g).stacks 5 = some 1 := (depth_correct sample_compiled g sample_handler sample_five).1

/-- The computation comes to an end: within one pass more than there are instructions, a pass changes nothing that would need another. -/
theorem marking_ends {code : List Instr} {table : List Entry} {d0 : Int} (w : Compiled code table d0) (hne : code ≠ []) (g : Bool) :
    (mark code table d0 g).todo = false := (mark_end w hne g).choose_spec.2.2.1

example (g : Bool) : (mark sample sampleTable 0 g).todo = false := marking_ends sample_compiled (by decide) g

/-- A depth is never found for a place that no run comes to. -/
theorem only_reached {code : List Instr} {table : List Entry} {d0 : Int} (w : Compiled code table d0) (g : Bool) {pc : Nat} {d : Int} {ins : Instr}
    (hat : At code pc ins) (h : (mark code table d0 g).stacks pc = some d) : ∃ v, Run code table d0 v pc d :=
  sound_start (mark_end w (by rintro rfl; cases hat) g).choose_spec.1 ⟨ins, hat⟩ h

example : (mark [⟨.stop, 0, 0, 0, false⟩, ⟨.stop, 0, 0, 0, false⟩] [] 0 false).stacks 1 = none := by decide +kernel

/-- Disagreement: when a range is entered behind its start, and its start is not reached otherwise, no depth is found for its handler.
(CrossHair then raises an exception of its own when a call in the handler is intercepted. The compiler makes no such code now.) -/
theorem range_entered_late :
    let code : List Instr := [⟨.jumpForward, 0, 0, 1, false⟩, ⟨.stop, 0, 0, 0, false⟩, ⟨.stop, 0, 0, 0, false⟩, ⟨.stop, 0, 0, 0, false⟩]
    let table : List Entry := [⟨1, 2, 3, 0, false⟩]
    (∃ v, Run code table 0 v 3 1) ∧ (mark code table 0 false).stacks 3 = none := by
  intro code table
  refine ⟨?_, by decide +kernel⟩
  have h2 : Run code table 0 [2, 0] 2 0 := Run.step [0] 0 0 ⟨.jumpForward, 0, 0, 1, false⟩ 2 0 Run.start (At.here _ _) (by simp [succ, Instr.size])
  have hat : At code 2 ⟨.stop, 0, 0, 0, false⟩ := At.there _ _ 1 _ (At.there _ _ 0 _ (At.here _ _))
  have h3 : Run code table 0 [3, 2, 0] 3 1 := Run.raise [2, 0] 2 0 _ ⟨1, 2, 3, 0, false⟩ h2 hat (by simp [table]) (by simp [Entry.covers])
  exact ⟨_, h3⟩

/-! ### C238 -/

/-- An instruction that CrossHair wants to trace and that has no prefix is flagged when a run comes to it, and so is every instruction that
the run can go on with (where what has to be done after it is done). -/
theorem flagged_partial {code : List Instr} {table : List Entry} {d0 : Int} (w : Compiled code table d0) (g : Bool)
    {v : List Nat} {pc : Nat} {d : Int} {ins : Instr} (h : Run code table d0 v pc d) (hat : At code pc ins) (hx : ins.ext = 0)
    (ht : ins.traced = true) :
    (mark code table d0 g).enabled pc = true ∧ ∀ j δ, (j, δ) ∈ succ ins pc → (mark code table d0 g).enabled j = true := by
  have hne : code ≠ [] := by rintro rfl; cases hat
  obtain ⟨s', hsound, he, htodo, h0, hx'⟩ := mark_end w hne g
  have hm := (run_marked w hne g h).1
  rw [he] at htodo hm ⊢
  have := (scan_closed w code [] rfl s' htodo pc ins hat (by simpa [total] using hm)).2.2 hx ht
  simpa [total] using this

example (g : Bool) : (mark sample sampleTable 0 g).enabled 5 = true ∧ (mark sample sampleTable 0 g).enabled 6 = true := by
  have := flagged_partial sample_compiled g sample_handler sample_five rfl rfl
  exact ⟨this.1, this.2 6 (-1) (by simp [succ, Instr.size])⟩

/-- Disagreement: an instruction with a prefix is not flagged, so CrossHair does not intercept it: here a call with 300 arguments. -/
theorem prefixed_not_traced :
    let code : List Instr := [⟨.other 301, 0, 0, 0, false⟩, ⟨.other (-300), 1, 3, 300, true⟩, ⟨.stop, 0, 0, 0, false⟩]
    (∃ v, Run code [] 0 v 1 301) ∧ (mark code [] 0 false).stacks 2 = some 301 ∧
    (mark code [] 0 false).enabled 1 = false ∧ (mark code [] 0 false).enabled 2 = false := by
  intro code
  have h1 : Run code [] 0 [1, 0] 1 (0 + 301) := Run.step [0] 0 0 ⟨.other 301, 0, 0, 0, false⟩ 1 301 Run.start (At.here _ _) (by simp [succ, Instr.size])
  rw [Int.zero_add] at h1
  exact ⟨⟨_, h1⟩, by decide +kernel⟩

/-! ### C239 -/

/-- The answers of the cache for a history of requests, with what `rand` gives at each. -/
def answers {α β : Type} [DecidableEq α] (f : α → β) : List (α × β) → List (α × Nat) → List β
  | _, [] => []
  | cache, (code, rnd) :: r => (getStacks f rnd cache code).2 :: answers f (getStacks f rnd cache code).1 r

/-- For any history of requests and any random numbers, the depths that are given for a code are those computed for that code. -/
theorem cache_transparent {α β : Type} [DecidableEq α] (f : α → β) (history : List (α × Nat)) :
    answers f [] history = history.map fun r => f r.1 := by
  have h : ∀ (history : List (α × Nat)) (cache : List (α × β)), (∀ e ∈ cache, e.2 = f e.1) → cache.length ≤ 64 →
      answers f cache history = history.map fun r => f r.1 := by
    intro history
    induction history with
    | nil => intros; rfl
    | cons r l ih =>
      intro cache hc hl
      obtain ⟨h1, h2, h3⟩ := getStacks_ok f r.2 cache r.1 hc hl
      show _ :: _ = _
      rw [h1, ih _ h2 h3]
      rfl
  exact h history [] (by simp) (by simp)

example : answers (fun n : Nat => n * n) [] [(3, 7), (4, 1), (3, 5), (5, 9), (4, 4)] = [9, 16, 9, 25, 16] := cache_transparent _ _

/-- The cache never holds more than 64 codes. -/
theorem cache_bounded {α β : Type} [DecidableEq α] (f : α → β) (history : List (α × Nat)) :
    (history.foldl (fun cache r => (getStacks f r.2 cache r.1).1) []).length ≤ 64 := by
  have h : ∀ (history : List (α × Nat)) (cache : List (α × β)), (∀ e ∈ cache, e.2 = f e.1) → cache.length ≤ 64 →
      (history.foldl (fun cache r => (getStacks f r.2 cache r.1).1) cache).length ≤ 64 := by
    intro history
    induction history with
    | nil => intro _ _ h; exact h
    | cons r l ih =>
      intro cache hc hl
      obtain ⟨_, h2, h3⟩ := getStacks_ok f r.2 cache r.1 hc hl
      exact ih _ h2 h3
  exact h history [] (by simp) (by simp)

example : (([(3, 7), (4, 1), (3, 5), (5, 9), (4, 4)] : List (Nat × Nat)).foldl (fun cache r => (getStacks (fun n => n * n) r.2 cache r.1).1) []).length = 3 := by
  decide +kernel

end Verif.Depths
