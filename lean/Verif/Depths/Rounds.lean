import Verif.Depths.Lemmas
/-
Helper lemmas: what whole rounds do.
-/
namespace Verif.Depths

theorem mem_split_at {code pre : List Instr} {ins : Instr} {r : List Instr} (h : code = pre ++ ins :: r) : At code (total pre) ins := by
  subst h; exact at_append pre (At.here ins r)

theorem total_snoc (pre : List Instr) (ins : Instr) : total (pre ++ [ins]) = total pre + ins.ext + ins.caches + 1 := by
  rw [total_append]; simp only [total, Instr.size]; omega

section
variable {code : List Instr} {table : List Entry} {d0 : Int} (w : Compiled code table d0)
include w

/-- Places that are instructions stay marked. -/
theorem visit_keeps {pc : Nat} {ins : Instr} (hat : At code pc ins) (s : State) (k : Nat) (hk : Start code k ∨ k = total code)
    (h : s.stacks k ≠ none) : (visit ins pc s).stacks k ≠ none := by
  have hni := not_inner hat hk
  cases hs : s.stacks pc with
  | none => rw [(visit_none ins pc s hs).1, if_neg hni]; exact h
  | some d =>
    by_cases hj : ∃ δ, (k, δ) ∈ succ ins pc
    · obtain ⟨δ, hj⟩ := hj
      rw [visit_in ins pc s d hs (w.forward pc ins hat) k δ hj]
      simp
    · rw [visit_out ins pc s d hs (w.forward pc ins hat) k (fun δ hδ => hj ⟨δ, hδ⟩), if_neg hni]
      exact h

theorem scan_keeps (rest pre : List Instr) (hc : code = pre ++ rest) (s : State) (k : Nat) (hk : Start code k ∨ k = total code)
    (h : s.stacks k ≠ none) : (scan rest (total pre) s).stacks k ≠ none := by
  induction rest generalizing pre s with
  | nil => exact h
  | cons ins r ih =>
    have := ih (pre ++ [ins]) (by simp [hc]) (visit ins (total pre) s) (visit_keeps w (mem_split_at hc) s k hk h)
    rw [total_snoc] at this
    exact this

omit w in
theorem scan_todo_mono (rest : List Instr) (i : Nat) (s : State) (h : s.todo = true) : (scan rest i s).todo = true := by
  induction rest generalizing i s with
  | nil => exact h
  | cons ins r ih => exact ih _ _ (visit_todo_mono ins i s h)

omit w in
theorem scan_enabled (rest : List Instr) (i : Nat) (s : State) (k : Nat) (h : s.enabled k = true) : (scan rest i s).enabled k = true := by
  induction rest generalizing i s with
  | nil => exact h
  | cons ins r ih => exact ih _ _ (visit_enabled ins i s k h)

/-- A place before the instruction keeps its mark. -/
theorem visit_before {pc : Nat} {ins : Instr} (hat : At code pc ins) (s : State) (k : Nat) (hk : k ≤ pc) (h : s.stacks k ≠ none) :
    (visit ins pc s).stacks k ≠ none := by
  cases hs : s.stacks pc with
  | none => rw [(visit_none ins pc s hs).1, if_neg (by omega)]; exact h
  | some d =>
    by_cases hj : ∃ δ, (k, δ) ∈ succ ins pc
    · obtain ⟨δ, hj⟩ := hj
      rw [visit_in ins pc s d hs (w.forward pc ins hat) k δ hj]
      simp
    · rw [visit_out ins pc s d hs (w.forward pc ins hat) k (fun δ hδ => hj ⟨δ, hδ⟩), if_neg (by omega)]
      exact h

theorem scan_before (rest pre : List Instr) (hc : code = pre ++ rest) (s : State) (k : Nat) (hk : k < total pre) (h : s.stacks k ≠ none) :
    (scan rest (total pre) s).stacks k ≠ none := by
  induction rest generalizing pre s with
  | nil => exact h
  | cons ins r ih =>
    have := ih (pre ++ [ins]) (by simp [hc]) (visit ins (total pre) s) (by rw [total_snoc]; omega)
      (visit_before w (mem_split_at hc) s k (by omega) h)
    rw [total_snoc] at this
    exact this

/-- A place before the instruction that is not marked stays so, or another round is asked for. -/
theorem visit_unmarked {pc : Nat} {ins : Instr} (hat : At code pc ins) (s : State) (k : Nat) (hk : k < pc) (h : s.stacks k = none)
    (ht : (visit ins pc s).todo = false) : (visit ins pc s).stacks k = none := by
  cases hs : s.stacks pc with
  | none => rw [(visit_none ins pc s hs).1]; split <;> simp [h]
  | some d =>
    by_cases hj : ∃ δ, (k, δ) ∈ succ ins pc
    · obtain ⟨δ, hj⟩ := hj
      exfalso
      have : (visit ins pc s).todo = true := by
        unfold visit
        simp only [hs]
        refine effect_todo_back _ ins pc d _ k δ hj hk ?_
        simp only [State.fill, State.enable]
        rw [if_neg (by omega)]
        exact h
      rw [this] at ht
      cases ht
    · rw [visit_out ins pc s d hs (w.forward pc ins hat) k (fun δ hδ => hj ⟨δ, hδ⟩), if_neg (by omega)]
      exact h

theorem scan_unmarked (rest pre : List Instr) (hc : code = pre ++ rest) (s : State) (k : Nat) (hk : k < total pre) (h : s.stacks k = none)
    (ht : (scan rest (total pre) s).todo = false) : (scan rest (total pre) s).stacks k = none := by
  induction rest generalizing pre s with
  | nil => exact h
  | cons ins r ih =>
    have e : scan (ins :: r) (total pre) s = scan r (total (pre ++ [ins])) (visit ins (total pre) s) := by rw [total_snoc]; rfl
    rw [e] at ht ⊢
    refine ih (pre ++ [ins]) (by simp [hc]) _ (by rw [total_snoc]; omega) ?_ ht
    refine visit_unmarked w (mem_split_at hc) s k hk h ?_
    by_contra hv
    have := scan_todo_mono r (total (pre ++ [ins])) _ (by simpa using hv)
    rw [this] at ht
    cases ht

/-- After a round that asks for no other: what follows a marked instruction is marked, so is the rest of the instruction, and if it is
traced, so are those that follow it. -/
theorem scan_closed (rest pre : List Instr) (hc : code = pre ++ rest) (s : State) (ht : (scan rest (total pre) s).todo = false)
    (k : Nat) (ins : Instr) (hk : At rest k ins) (hm : (scan rest (total pre) s).stacks (total pre + k) ≠ none) :
    (∀ j δ, (j, δ) ∈ succ ins (total pre + k) → (scan rest (total pre) s).stacks j ≠ none) ∧
    (scan rest (total pre) s).stacks (total pre + k + ins.ext) ≠ none ∧
    (ins.ext = 0 → ins.traced = true → (scan rest (total pre) s).enabled (total pre + k) = true ∧
      ∀ j δ, (j, δ) ∈ succ ins (total pre + k) → (scan rest (total pre) s).enabled j = true) := by
  induction rest generalizing pre s k with
  | nil => cases hk
  | cons a r ih =>
    have e : scan (a :: r) (total pre) s = scan r (total (pre ++ [a])) (visit a (total pre) s) := by rw [total_snoc]; rfl
    rw [e] at ht hm ⊢
    have hc' : code = (pre ++ [a]) ++ r := by simp [hc]
    have hat := mem_split_at hc
    cases hk with
    | here =>
      rw [Nat.add_zero] at hm ⊢
      cases hs : s.stacks (total pre) with
      | none =>
        exfalso
        apply hm
        refine scan_unmarked w r (pre ++ [ins]) hc' _ _ (by rw [total_snoc]; omega) ?_ ht
        rw [(visit_none ins (total pre) s hs).1, if_neg (by omega)]
        exact hs
      | some d =>
        have hsucc : ∀ j δ, (j, δ) ∈ succ ins (total pre) → (scan r (total (pre ++ [ins])) (visit ins (total pre) s)).stacks j ≠ none := by
          intro j δ hj
          refine scan_keeps w r (pre ++ [ins]) hc' _ j (w.targets _ _ hat j δ hj) ?_
          rw [visit_in ins (total pre) s d hs (w.forward _ _ hat) j δ hj]
          simp
        refine ⟨hsucc, ?_, ?_⟩
        · refine scan_before w r (pre ++ [ins]) hc' _ _ (by rw [total_snoc]; omega) ?_
          by_cases hj : ∃ δ, (total pre + ins.ext, δ) ∈ succ ins (total pre)
          · obtain ⟨δ, hj⟩ := hj
            rw [visit_in ins (total pre) s d hs (w.forward _ _ hat) _ δ hj]
            simp
          · rw [visit_out ins (total pre) s d hs (w.forward _ _ hat) _ (fun δ hδ => hj ⟨δ, hδ⟩)]
            split
            · simp
            · rename_i h
              have : total pre + ins.ext = total pre := by omega
              rw [this, hs]; simp
        · intro hx htr
          constructor
          · refine scan_enabled r _ _ _ ?_
            unfold visit
            simp only [hs, hx, htr, if_true]
            have : ∀ (s : State) (k j : Nat) t, s.enabled k = true → (s.enable j t).enabled k = true := by
              intro s k j t h; simp only [State.enable]; split <;> simp [h]
            refine this _ _ _ _ (effect_enabled _ ins _ _ d _ _ ?_)
            simp [State.fill, State.enable]
          · intro j δ hj
            refine scan_enabled r _ _ _ ?_
            unfold visit
            simp only [hs]
            rw [if_pos hx, htr]
            exact effect_enables _ ins (total pre) d (w.forward _ _ hat) j δ hj
    | there _ _ k _ hk =>
      have hz : total pre + (a.size + k) = total (pre ++ [a]) + k := by rw [total_snoc]; unfold Instr.size; omega
      rw [hz] at hm ⊢
      exact ih (pre ++ [a]) hc' _ ht k hk hm

/-- A round that asks for another has marked an instruction for the first time. -/
theorem scan_todo (rest pre : List Instr) (hc : code = pre ++ rest) (s : State) (ht : (scan rest (total pre) s).todo = true) :
    s.todo = true ∨ ∃ j, (Start code j ∨ j = total code) ∧ s.stacks j = none ∧ (scan rest (total pre) s).stacks j ≠ none := by
  induction rest generalizing pre s with
  | nil => exact Or.inl ht
  | cons a r ih =>
    have e : scan (a :: r) (total pre) s = scan r (total (pre ++ [a])) (visit a (total pre) s) := by rw [total_snoc]; rfl
    rw [e] at ht ⊢
    have hc' : code = (pre ++ [a]) ++ r := by simp [hc]
    have hat := mem_split_at hc
    rcases ih (pre ++ [a]) hc' _ ht with h | ⟨j, hj, hn, hm⟩
    · cases hs : s.stacks (total pre) with
      | none => rw [(visit_none a _ s hs).2] at h; exact Or.inl h
      | some d =>
        have h' := h
        unfold visit at h'
        simp only [hs] at h'
        rcases effect_todo _ a (total pre) d _ h' with h' | ⟨j, δ, hj, hn⟩
        · exact Or.inl h'
        · right
          have hst := w.targets _ _ hat j δ hj
          refine ⟨j, hst, ?_, ?_⟩
          · simp only [State.fill, State.enable] at hn
            rw [if_neg (not_inner hat hst)] at hn
            exact hn
          · refine scan_keeps w r (pre ++ [a]) hc' _ j hst ?_
            rw [visit_in a _ s d hs (w.forward _ _ hat) j δ hj]
            simp
    · right
      refine ⟨j, hj, ?_, hm⟩
      by_contra h
      exact visit_keeps w hat s j hj h hn

/-! ### The table of exceptions -/

omit w in
theorem excScan_keeps (t : List Entry) (s : State) (k : Nat) (h : s.stacks k ≠ none) : (excScan t s).stacks k ≠ none := by
  induction t generalizing s with
  | nil => exact h
  | cons e r ih =>
    unfold excScan
    split
    · apply ih
      simp only [State.put]
      split
      · simp
      · exact h
    · exact ih _ h

omit w in
theorem excScan_enabled (t : List Entry) (s : State) : (excScan t s).enabled = s.enabled := by
  induction t generalizing s with
  | nil => rfl
  | cons e r ih =>
    unfold excScan
    split
    · rw [ih]; rfl
    · rw [ih]

omit w in
theorem excScan_todo_mono (t : List Entry) (s : State) (h : s.todo = true) : (excScan t s).todo = true := by
  induction t generalizing s with
  | nil => exact h
  | cons e r ih =>
    unfold excScan
    split
    · exact ih _ rfl
    · exact ih _ h

omit w in
theorem excScan_quiet (t : List Entry) (s : State) (ht : (excScan t s).todo = false) :
    excScan t s = s ∧ ∀ e ∈ t, s.stacks e.start ≠ none → s.stacks e.handler ≠ none := by
  induction t generalizing s with
  | nil => exact ⟨rfl, by simp⟩
  | cons e r ih =>
    unfold excScan at ht ⊢
    split at ht
    · exfalso
      rename_i d h1 h2
      rw [excScan_todo_mono r _ rfl] at ht
      cases ht
    · rename_i hno
      obtain ⟨h1, h2⟩ := ih s ht
      refine ⟨h1, ?_⟩
      intro e' he'
      rcases List.mem_cons.1 he' with rfl | he'
      · intro hs hh
        cases hd : s.stacks e'.start with
        | none => exact hs hd
        | some d => exact (hno d hd hh).elim
      · exact h2 e' he'

omit w in
theorem excScan_todo (t : List Entry) (s : State) (ht : (excScan t s).todo = true) :
    s.todo = true ∨ ∃ e ∈ t, s.stacks e.handler = none ∧ (excScan t s).stacks e.handler ≠ none := by
  induction t generalizing s with
  | nil => exact Or.inl ht
  | cons e r ih =>
    unfold excScan at ht ⊢
    split at ht
    · rename_i d h1 h2
      right
      refine ⟨e, by simp, h2, ?_⟩
      apply excScan_keeps
      simp [State.put]
    · rename_i hno
      rcases ih s ht with h | ⟨e', he', h⟩
      · exact Or.inl h
      · right
        exact ⟨e', by simp [he'], h.1, h.2⟩

/-! ### Only depths of runs are marked -/

/-- All marked depths are depths of runs. -/
def Sound (code : List Instr) (table : List Entry) (d0 : Int) (s : State) : Prop :=
  ∀ k d, s.stacks k = some d → (∃ v, Run code table d0 v k d) ∨
    ∃ pc ins v, At code pc ins ∧ Run code table d0 v pc d ∧ pc < k ∧ k ≤ pc + ins.ext

omit w in
theorem sound_start {s : State} (h : Sound code table d0 s) {k : Nat} {d : Int} (hk : Start code k) (hs : s.stacks k = some d) :
    ∃ v, Run code table d0 v k d := by
  rcases h k d hs with h | ⟨pc, ins, v, hat, _, hin⟩
  · exact h
  · exact absurd hin (not_inner hat (Or.inl hk))

theorem visit_sound {pc : Nat} {ins : Instr} (hat : At code pc ins) (s : State) (h : Sound code table d0 s) :
    Sound code table d0 (visit ins pc s) := by
  intro k d' hk
  cases hs : s.stacks pc with
  | none =>
    rw [(visit_none ins pc s hs).1] at hk
    split at hk
    · cases hk
    · exact h k d' hk
  | some d =>
    obtain ⟨v, hr⟩ := sound_start h ⟨ins, hat⟩ hs
    by_cases hj : ∃ δ, (k, δ) ∈ succ ins pc
    · obtain ⟨δ, hj⟩ := hj
      rw [visit_in ins pc s d hs (w.forward pc ins hat) k δ hj] at hk
      cases hk
      exact Or.inl ⟨_, Run.step v pc d ins k δ hr hat hj⟩
    · rw [visit_out ins pc s d hs (w.forward pc ins hat) k (fun δ hδ => hj ⟨δ, hδ⟩)] at hk
      split at hk
      · rename_i hin
        cases hk
        exact Or.inr ⟨pc, ins, v, hat, hr, hin⟩
      · exact h k d' hk

theorem scan_sound (rest pre : List Instr) (hc : code = pre ++ rest) (s : State) (h : Sound code table d0 s) :
    Sound code table d0 (scan rest (total pre) s) := by
  induction rest generalizing pre s with
  | nil => exact h
  | cons ins r ih =>
    have := ih (pre ++ [ins]) (by simp [hc]) (visit ins (total pre) s) (visit_sound w (mem_split_at hc) s h)
    rw [total_snoc] at this
    exact this

theorem excScan_sound (t : List Entry) (ht : ∀ e ∈ t, e ∈ table) (s : State) (h : Sound code table d0 s) :
    Sound code table d0 (excScan t s) := by
  induction t generalizing s with
  | nil => exact h
  | cons e r ih =>
    have ih := ih (fun e he => ht e (by simp [he]))
    have he := ht e (by simp)
    unfold excScan
    split
    · rename_i d h1 h2
      apply ih
      intro k d' hk
      simp only [State.put] at hk
      split at hk
      · rename_i hke
        obtain ⟨ins, hat, hc⟩ := w.starts e he
        obtain ⟨v, hr⟩ := sound_start h ⟨ins, hat⟩ h1
        have hl := w.levels e he v d hr
        left
        have hd : d' = e.depth := by
          have hp : popToLevel d e.level = e.level := by
            unfold popToLevel
            split
            · omega
            · split <;> omega
          rw [hp] at hk
          injection hk with hk
          rw [← hk]
          unfold Entry.depth
          split <;> omega
        rw [hke, hd]
        exact ⟨_, Run.raise v _ d ins e hr hat he hc⟩
      · exact h k d' hk
    · exact ih s h

/-! ### Rounds come to an end -/

/-- The places that can be marked. -/
def places : List Instr → Nat → List Nat
  | [], i => [i]
  | ins :: r, i => i :: places r (i + ins.size)

omit w in
theorem places_length (l : List Instr) (i : Nat) : (places l i).length = l.length + 1 := by
  induction l generalizing i with
  | nil => rfl
  | cons a r ih => simp [places, ih]

omit w in
theorem mem_places (l : List Instr) (i k : Nat) (h : Start l k ∨ k = total l) : i + k ∈ places l i := by
  induction l generalizing i k with
  | nil =>
    rcases h with ⟨_, h⟩ | h
    · cases h
    · simp [places, h, total]
  | cons a r ih =>
    rcases h with ⟨ins, h⟩ | h
    · cases h with
      | here => simp [places]
      | there _ _ k _ h =>
        have := ih (i + a.size) k (Or.inl ⟨ins, h⟩)
        rw [Nat.add_assoc] at this
        exact List.mem_cons_of_mem _ this
    · subst h
      have := ih (i + a.size) (total r) (Or.inr rfl)
      rw [Nat.add_assoc] at this
      exact List.mem_cons_of_mem _ this

/-- How many places are marked. -/
def count (code : List Instr) (s : State) : Nat := (places code 0).countP (fun k => (s.stacks k).isSome)

omit w in
theorem countP_le (l : List Nat) (p q : Nat → Bool) (h : ∀ a ∈ l, p a = true → q a = true) : l.countP p ≤ l.countP q :=
  List.countP_mono_left h

omit w in
theorem countP_lt (l : List Nat) (p q : Nat → Bool) (h : ∀ a ∈ l, p a = true → q a = true) (x : Nat) (hx : x ∈ l) (hp : p x = false)
    (hq : q x = true) : l.countP p < l.countP q := by
  induction l with
  | nil => cases hx
  | cons a r ih =>
    have hr : ∀ a ∈ r, p a = true → q a = true := fun a ha => h a (by simp [ha])
    rcases List.mem_cons.1 hx with rfl | hx
    · have := countP_le r p q hr
      simp only [List.countP_cons, hp, hq]
      simp
      omega
    · have := ih hr hx
      simp only [List.countP_cons]
      by_cases hpa : p a = true
      · simp [hpa, h a (by simp) hpa, this]
      · simp [hpa]; omega

omit w in
theorem mem_place_iff (l : List Instr) (i k : Nat) (h : k ∈ places l i) : ∃ k', k = i + k' ∧ (Start l k' ∨ k' = total l) := by
  induction l generalizing i with
  | nil => simp only [places, List.mem_singleton] at h; exact ⟨0, by omega, Or.inr rfl⟩
  | cons a r ih =>
    rcases List.mem_cons.1 h with rfl | h
    · exact ⟨0, rfl, Or.inl ⟨a, At.here a r⟩⟩
    · obtain ⟨k', rfl, hk⟩ := ih _ h
      refine ⟨a.size + k', by omega, ?_⟩
      rcases hk with ⟨ins, hk⟩ | hk
      · exact Or.inl ⟨ins, At.there a r _ _ hk⟩
      · right; rw [hk]; rfl

/-- One pass. -/
def pass (code : List Instr) (table : List Entry) (s : State) : State := excScan table (scan code 0 { s with todo := false })

theorem pass_keeps (s : State) (k : Nat) (hk : Start code k ∨ k = total code) (h : s.stacks k ≠ none) : (pass code table s).stacks k ≠ none :=
  excScan_keeps _ _ _ (scan_keeps w code [] rfl { s with todo := false } k hk h)

theorem pass_count (s : State) (h : (pass code table s).todo = true) : count code s < count code (pass code table s) := by
  have hmono : ∀ a ∈ places code 0, (s.stacks a).isSome = true → ((pass code table s).stacks a).isSome = true := by
    intro a ha hs
    obtain ⟨k, hk, hp⟩ := mem_place_iff _ _ _ ha
    rw [Nat.zero_add] at hk
    subst hk
    have := pass_keeps w s a hp (by intro hn; rw [hn] at hs; cases hs)
    exact Option.isSome_iff_ne_none.2 this
  obtain ⟨x, hx, hn, hm⟩ : ∃ x, (Start code x ∨ x = total code) ∧ s.stacks x = none ∧ (pass code table s).stacks x ≠ none := by
    rcases excScan_todo _ _ h with h | ⟨e, he, hn, hm⟩
    · rcases scan_todo w code [] rfl _ h with h | ⟨j, hj, hn, hm⟩
      · cases h
      · exact ⟨j, hj, hn, excScan_keeps _ _ _ hm⟩
    · refine ⟨e.handler, Or.inl (w.handlers e he), ?_, hm⟩
      by_contra hs
      exact scan_keeps w code [] rfl { s with todo := false } e.handler (Or.inl (w.handlers e he)) hs hn
  refine countP_lt _ _ _ hmono x ?_ (by simp [hn]) (Option.isSome_iff_ne_none.2 hm)
  have := mem_places code 0 x hx
  rwa [Nat.zero_add] at this

omit w in
theorem count_le (s : State) : count code s ≤ code.length + 1 := by
  rw [← places_length code 0]; exact List.countP_le_length

theorem passes_end (n : Nat) (s : State) (hs : Sound code table d0 s) (h0 : s.stacks 0 ≠ none) (hz : Start code 0 ∨ 0 = total code)
    (hn : code.length + 1 < count code s + n) :
    ∃ s', Sound code table d0 s' ∧ s'.stacks 0 ≠ none ∧ passes code table n s = pass code table s' ∧ (pass code table s').todo = false := by
  induction n generalizing s with
  | zero => have := count_le (code := code) s; omega
  | succ n ih =>
    have e : passes code table (n + 1) s = if (pass code table s).todo = true then passes code table n (pass code table s) else pass code table s := rfl
    by_cases ht : (pass code table s).todo = true
    · rw [e, if_pos ht]
      have hc := pass_count w s ht
      have hs' : Sound code table d0 (pass code table s) :=
        excScan_sound w table (fun _ h => h) _ (scan_sound w code [] rfl { s with todo := false } hs)
      exact ih _ hs' (pass_keeps w s 0 hz h0) (by omega)
    · rw [e, if_neg ht]
      exact ⟨s, hs, h0, rfl, by simpa using ht⟩

end

end Verif.Depths
