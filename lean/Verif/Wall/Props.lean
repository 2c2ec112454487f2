import Verif.Wall.Lemmas
/-
The properties proved about the audit wall.
-/
namespace Verif.Wall

/-- The verdict on an event, given a table of special handlers. -/
def decision (special : Table) (env : Env) (e : Str) (args : List Arg) : Verdict :=
  (makeHandler special e).run env e args

/-! ### The default policy -/

theorem mem_accepted (e : Str) : e ∈ acceptedEvents ↔ e ∈ harmless.map String.toList := by
  have : acceptedEvents.Perm (harmless.map String.toList) := by decide +kernel
  exact this.mem_iff

/-- **C33.** Without rules: opening a file is rejected exactly for flags that can change it (and never for the null
device), starting a process exactly outside the modules that need it, and any other event exactly if it is one that
reaches outside the process or writes the registry. -/
theorem default_policy (env : Env) (e : Str) (args : List Arg) :
    (∀ name mode flags, e = "open".toList → args = [name, mode, .int flags] →
      (decision initialSpecial env e args = .reject ↔
        WriteFlags flags ∧ name ≠ .text "/dev/null".toList ∧ name ≠ .text "nul".toList) ∧
      decision initialSpecial env e args ≠ .crash) ∧
    (∀ h flags, e = "msvcrt.open_osfhandle".toList → args = [h, .int flags] →
      (decision initialSpecial env e args = .reject ↔ WriteFlags flags) ∧ decision initialSpecial env e args ≠ .crash) ∧
    (e = "subprocess.Popen".toList ∨ e = "os.posix_spawn".toList →
      decision initialSpecial env e args = if env.insideAllowed then .allow else .reject) ∧
    (e ≠ "open".toList → e ≠ "msvcrt.open_osfhandle".toList → e ≠ "subprocess.Popen".toList →
      e ≠ "os.posix_spawn".toList →
      (Dangerous e → decision initialSpecial env e args = .reject) ∧
      (¬ Dangerous e → decision initialSpecial env e args = .allow)) := by
  refine ⟨?_, ?_, ?_, ?_⟩
  · rintro name mode flags rfl rfl
    have hd : decision initialSpecial env "open".toList [name, mode, .int flags] =
        if name = .text "/dev/null".toList ∨ name = .text "nul".toList then .allow
        else if flags &&& blockedOpenFlags ≠ 0 then .reject else .allow := rfl
    rw [hd, ← flags_iff]
    split
    · rename_i h
      refine ⟨⟨fun hh => (by cases hh), fun hh => absurd h (not_or.mpr hh.2)⟩, fun hh => by cases hh⟩
    · rename_i h
      split
      · rename_i hf
        exact ⟨⟨fun _ => ⟨hf, not_or.mp h⟩, fun _ => rfl⟩, fun hh => by cases hh⟩
      · rename_i hf
        exact ⟨⟨fun hh => (by cases hh), fun hh => absurd hh.1 hf⟩, fun hh => by cases hh⟩
  · rintro h flags rfl rfl
    have hd : decision initialSpecial env "msvcrt.open_osfhandle".toList [h, .int flags] =
        if flags &&& blockedOpenFlags ≠ 0 then .reject else .allow := rfl
    rw [hd, ← flags_iff]
    split
    · rename_i hf
      exact ⟨⟨fun _ => hf, fun _ => rfl⟩, fun hh => by cases hh⟩
    · rename_i hf
      exact ⟨⟨fun hh => (by cases hh), fun hh => absurd hh hf⟩, fun hh => by cases hh⟩
  · rintro (rfl | rfl) <;> rfl
  · intro h1 h2 h3 h4
    have hn : initialSpecial e = none := by
      unfold initialSpecial Table.set
      rw [if_neg h2, if_neg h4, if_neg h3, if_neg h1]
    unfold decision makeHandler
    rw [hn]
    simp only
    have hr : e ∈ rejectedEvents ↔ e ∈ registryWrites.map String.toList := Iff.rfl
    have hp : (e.takeWhile (· ≠ '.') ∈ rejectedPrefixes) ↔ family e ∈ outsideFamilies.map String.toList := Iff.rfl
    unfold Dangerous
    rw [← hr, ← mem_accepted]
    constructor
    · rintro (h | ⟨h, h'⟩)
      · rw [if_pos h]; rfl
      · rw [if_neg h', if_pos (hp.mpr h)]
        split <;> rfl
    · intro h
      rw [not_or] at h
      rw [if_neg h.1]
      split
      · rfl
      · rename_i ha
        rw [if_neg (fun hf => h.2 ⟨hp.mp hf, ha⟩)]
        rfl

/-- An interpreter for the examples. -/
def env0 : Env :=
  { str := fun a => match a with
      | .none => "None".toList | .text s => s | .seq _ => "[...]".toList | .int n => (toString n).toList | .other s => s
    asText := fun a => match a with | .text s => s | _ => []
    splitCommand := fun s => [s]
    insideAllowed := false }

example : decision initialSpecial env0 "open".toList [.text "f".toList, .text "w".toList, .int 577] = .reject ∧
    decision initialSpecial env0 "open".toList [.text "f".toList, .text "r".toList, .int 524288] = .allow ∧
    decision initialSpecial env0 "os.remove".toList [.text "f".toList] = .reject ∧
    decision initialSpecial env0 "os.listdir".toList [.text "f".toList] = .allow ∧
    decision initialSpecial env0 "import".toList [] = .allow := by decide +kernel

/-- **C33.** What rules are matched against.  For the start of a process it is the program and its arguments, the same
whether the platform reports them as a list or as one command line, and the executable if there are none; for every other
event it is the text of each argument. -/
theorem tokens_of_event (env : Env) (e : Str) :
    (e = "subprocess.Popen".toList ∨ e = "os.posix_spawn".toList → ∀ (executable : Arg) (rest : List Arg),
      (∀ argv, argv ≠ [] → matchTokens env e (executable :: .seq argv :: rest) = argv) ∧
      (∀ line, env.splitCommand line ≠ [] → matchTokens env e (executable :: .text line :: rest) = env.splitCommand line) ∧
      (executable ≠ .none → matchTokens env e (executable :: .seq [] :: rest) = [env.asText executable] ∧
        matchTokens env e (executable :: .none :: rest) = [env.asText executable])) ∧
    (e ≠ "subprocess.Popen".toList ∧ e ≠ "os.posix_spawn".toList → ∀ args, matchTokens env e args = args.map env.str) := by
  constructor
  · intro he executable rest
    have hs : e ∈ spawnEvents := by
      unfold spawnEvents
      rcases he with rfl | rfl
      · exact List.mem_cons_self ..
      · exact List.mem_cons_of_mem _ (List.mem_cons_self ..)
    refine ⟨fun argv h => ?_, fun line h => ?_, fun h => ⟨?_, ?_⟩⟩ <;> simp [matchTokens, hs, cmdTokens, h]
  · intro he args
    have hs : e ∉ spawnEvents := by
      unfold spawnEvents
      intro h
      rcases List.mem_cons.mp h with h | h
      · exact he.1 h
      · exact he.2 (List.mem_singleton.mp h)
    unfold matchTokens
    split
    · rw [if_neg hs]
    · rfl

example : matchTokens env0 "subprocess.Popen".toList [.text "/bin/echo".toList, .seq ["echo".toList, "hi".toList], .none, .none] =
    ["echo".toList, "hi".toList] := by decide +kernel

/-! ### Rules -/

/-- **C33.** A list of allow rules accepts exactly the events some rule covers; an event that rules mention but do not
cover is decided by the special handler it had, or rejected; an event no rule mentions is decided as before. -/
theorem allow_rules_apply (special : Table) (rules : List Str) (env : Env) (e : Str) (args : List Arg) :
    (Covered rules e (matchTokens env e args) → decision (updateSpecial special rules true) env e args = .allow) ∧
    (¬ Covered rules e (matchTokens env e args) → Mentioned rules e →
      decision (updateSpecial special rules true) env e args =
        ((special e).map fun h => h.run env e args).getD .reject) ∧
    (¬ Mentioned rules e →
      decision (updateSpecial special rules true) env e args = decision special env e args) := by
  obtain ⟨u1, u2, u3⟩ := update_spec special rules true e
  refine ⟨fun h => u2 env args h, fun hc hm => ?_, fun h => ?_⟩
  · unfold decision
    rw [u3 env args hm hc]
    cases special e <;> rfl
  · unfold decision makeHandler
    rw [u1 h]

/-- **C33.** The same for lists of reject rules, with an uncovered event accepted if it had no special handler. -/
theorem reject_rules_apply (special : Table) (rules : List Str) (env : Env) (e : Str) (args : List Arg) :
    (Covered rules e (matchTokens env e args) → decision (updateSpecial special rules false) env e args = .reject) ∧
    (¬ Covered rules e (matchTokens env e args) → Mentioned rules e →
      decision (updateSpecial special rules false) env e args =
        ((special e).map fun h => h.run env e args).getD .allow) ∧
    (¬ Mentioned rules e →
      decision (updateSpecial special rules false) env e args = decision special env e args) := by
  obtain ⟨u1, u2, u3⟩ := update_spec special rules false e
  refine ⟨fun h => u2 env args h, fun hc hm => ?_, fun h => ?_⟩
  · unfold decision
    rw [u3 env args hm hc]
    cases special e <;> rfl
  · unfold decision makeHandler
    rw [u1 h]

example : decision (updateSpecial initialSpecial ["subprocess.Popen:echo".toList] true) env0 "subprocess.Popen".toList
      [.none, .seq ["echo".toList, "hi".toList]] = .allow ∧
    decision (updateSpecial initialSpecial ["subprocess.Popen:echo".toList] true) env0 "subprocess.Popen".toList
      [.none, .seq ["rm".toList, "hi".toList]] = .reject := by decide +kernel

/-- **C33.** At the command line: with `--unblock` rules, an event goes ahead if a rule covers it, and `EVERYTHING` lets
every event through. -/
theorem unblock_allows (rules : List Str) (env : Env) (e : Str) (args : List Arg)
    (h : Covered rules e (matchTokens env e args) ∨ "EVERYTHING".toList ∈ rules) :
    (fire env (engage initialWall rules) e args).1 = .allow := by
  unfold engage
  by_cases he : "EVERYTHING".toList ∈ rules
  · rw [if_pos he]; rfl
  · rw [if_neg he]
    exact (allow_rules_apply initialSpecial rules env e args).1 (h.resolve_right he)

/-- **C33.** At the command line: an event no rule mentions is decided by the default policy. -/
theorem unblock_leaves_others (rules : List Str) (env : Env) (e : Str) (args : List Arg)
    (he : "EVERYTHING".toList ∉ rules) (h : ¬ Mentioned rules e) :
    (fire env (engage initialWall rules) e args).1 = decision initialSpecial env e args := by
  unfold engage
  rw [if_neg he]
  exact (allow_rules_apply initialSpecial rules env e args).2.2 h

/-- **C67.** Adding `--unblock` rules never blocks an operation that was allowed, as long as its event has a special
handler, or no rule with arguments is about it.  (Missing: rules with arguments on events that are allowed by
default; see `unblock_can_block`.) -/
theorem unblock_monotone_partial (rules : List Str) (env : Env) (e : Str) (args : List Arg)
    (h : initialSpecial e ≠ none ∨ ¬ Mentioned rules e ∨ e ∈ rules)
    (hcolon : ':' ∉ e)
    (ha : decision initialSpecial env e args = .allow) :
    (fire env (engage initialWall rules) e args).1 = .allow := by
  unfold engage
  by_cases he : "EVERYTHING".toList ∈ rules
  · rw [if_pos he]; rfl
  · rw [if_neg he]
    obtain ⟨a1, a2, a3⟩ := allow_rules_apply initialSpecial rules env e args
    change decision (updateSpecial initialSpecial rules true) env e args = .allow
    by_cases hm : Mentioned rules e
    · by_cases hc : Covered rules e (matchTokens env e args)
      · exact a1 hc
      · rw [a2 hc hm]
        rcases h with h | h | h
        · unfold decision makeHandler at ha
          cases hs : initialSpecial e with
          | none => exact absurd hs h
          | some x =>
            rw [hs] at ha
            exact ha
        · exact absurd hm h
        · exact absurd ⟨⟨e, []⟩, ⟨hcolon, by simp⟩, by simpa [Rule.text] using h, rfl, List.nil_prefix⟩ hc
    · rw [a3 hm]; exact ha

/-- **C67, disagreement.** Unblocking one directory for `os.listdir` blocks every other one. -/
theorem unblock_can_block :
    (fire env0 (engage initialWall []) "os.listdir".toList [.text "/home".toList]).1 = .allow ∧
    (fire env0 (engage initialWall ["os.listdir:/tmp".toList]) "os.listdir".toList [.text "/home".toList]).1
      = .reject := by decide +kernel

/-- **C67, disagreement.** A reject rule with arguments opens the rest of an event that was blocked. -/
theorem reject_rule_can_allow :
    decision initialSpecial env0 "os.remove".toList [.text "/home".toList] = .reject ∧
    decision (updateSpecial initialSpecial ["os.remove:/tmp".toList] false) env0 "os.remove".toList
      [.text "/home".toList] = .allow := by decide +kernel

/-! ### The advice -/

/-- **C68.** The advice in the error message works: running again with the advised entry, or any colon-delimited prefix
of it, lets the operation through.  (Missing: tokens with colons; see `advice_fails`.) -/
theorem advice_works_partial (rules : List Str) (env : Env) (e : Str) (args : List Arg) (k : Nat)
    (he : ':' ∉ e) (ht : ∀ t ∈ matchTokens env e args, ':' ∉ t)
    (h : e ++ ((matchTokens env e args).take k).flatMap (':' :: ·) ∈ rules) :
    (fire env (engage initialWall rules) e args).1 = .allow := by
  apply unblock_allows
  left
  refine ⟨⟨e, (matchTokens env e args).take k⟩, ⟨he, ?_⟩, h, rfl, List.take_prefix _ _⟩
  intro t hh
  exact ht t (List.mem_of_mem_take hh)

/-- The advised entry is the longest of those. -/
theorem advice_is_full (env : Env) (e : Str) (args : List Arg) :
    advice env e args =
      e ++ ((matchTokens env e args).take (matchTokens env e args).length).flatMap (':' :: ·) := by
  rw [List.take_length]; rfl

example : advice env0 "os.remove".toList [.text "f".toList, .int 3] = "os.remove:f:3".toList := by decide +kernel

/-- **C68, disagreement.** For arguments with a colon the advice does not help. -/
theorem advice_fails :
    let args := [.text "http://x".toList, .none, .none, .text "GET".toList]
    advice env0 "urllib.Request".toList args = "urllib.Request:http://x:None:None:GET".toList ∧
    (fire env0 (engage initialWall [advice env0 "urllib.Request".toList args]) "urllib.Request".toList args).1 =
      .reject := by decide +kernel

/-! ### Scopes -/

/-- Scopes, without state: whether the wall is up, and the handlers in force. -/
structure Scope where
  up : Bool
  special : Table

/-- What code means, each construct seeing only the scopes around it. -/
def Prog.meaning (env : Env) : Prog → Scope → End × List Verdict
  | .skip, _ => (.done, [])
  | .event e args, s =>
    let v := if s.up then decision s.special env e args else .allow
    (verdictEnd v, [v])
  | .seq a b, s =>
    let r := a.meaning env s
    if r.1 = .done then
      let r' := b.meaning env s
      (r'.1, r.2 ++ r'.2)
    else r
  | .attempt a, s => (.done, (a.meaning env s).2)
  | .opened a, s => if s.up then a.meaning env ⟨false, s.special⟩ else (.assertion, [])
  | .enabled allow reject a, s =>
    a.meaning env ⟨true, updateSpecial (updateSpecial s.special allow true) reject false⟩

/-- The cache agrees with the handlers in force. -/
def Wall.Coherent (w : Wall) : Prop := ∀ e h, w.cache e = some h → h = makeHandler w.special e

theorem audithook_spec (env : Env) {w : Wall} (hc : w.Coherent) (e : Str) (args : List Arg) :
    (audithook env w e args).1 = (if w.enabled then decision w.special env e args else .allow) ∧
    (audithook env w e args).2.special = w.special ∧ (audithook env w e args).2.enabled = w.enabled ∧
    (audithook env w e args).2.installed = w.installed ∧ (audithook env w e args).2.Coherent := by
  unfold audithook
  split
  · rename_i he
    cases hk : w.cache e with
    | none =>
      refine ⟨rfl, rfl, rfl, rfl, ?_⟩
      intro x h hx
      simp only [Table.set] at hx
      split at hx
      · rename_i hxe
        subst hxe
        simp only [Option.some.injEq] at hx
        exact hx.symm
      · exact hc x h hx
    | some h =>
      refine ⟨?_, rfl, rfl, rfl, hc⟩
      simp only [decision]
      rw [hc e h hk]
  · exact ⟨rfl, rfl, rfl, rfl, hc⟩

theorem enterEnabled_spec {w : Wall} (hi : w.installed = true) (hc : w.Coherent) (allow reject : List Str) :
    (enterEnabled w allow reject).Coherent ∧ (enterEnabled w allow reject).installed = true ∧
    (enterEnabled w allow reject).enabled = true ∧
    (enterEnabled w allow reject).special = updateSpecial (updateSpecial w.special allow true) reject false := by
  have e0 : ∀ sp : Table, ∀ b, updateSpecial sp [] b = sp := fun _ _ => rfl
  unfold enterEnabled
  rw [if_pos hi]
  by_cases ha : allow = [] <;> by_cases hr : reject = []
  · subst ha hr
    simp only [ne_eq, not_true_eq_false, if_false, or_self, e0]
    exact ⟨hc, hi, trivial, trivial⟩
  · subst ha
    simp only [ne_eq, not_true_eq_false, if_false, hr, not_false_eq_true, if_true, or_true, e0]
    exact ⟨fun e h hh => by simp at hh, hi, trivial, trivial⟩
  · subst hr
    simp only [ne_eq, not_true_eq_false, if_false, ha, not_false_eq_true, if_true, true_or, e0]
    exact ⟨fun e h hh => by simp at hh, hi, trivial, trivial⟩
  · simp only [ne_eq, ha, hr, not_false_eq_true, if_true, true_or]
    exact ⟨fun e h hh => by simp at hh, hi, trivial, trivial⟩

/-- **C34.** On an engaged wall, any nesting of opened and enabled scopes, with or without failures inside, acts as
lexical scoping, and leaves the wall as it was. -/
theorem scopes_are_lexical (env : Env) (p : Prog) (w : Wall) (hi : w.installed = true) (hc : w.Coherent) :
    ((p.run env w).1, (p.run env w).2.1) = p.meaning env ⟨w.enabled, w.special⟩ ∧
    (p.run env w).2.2.enabled = w.enabled ∧ (p.run env w).2.2.special = w.special ∧
    (p.run env w).2.2.installed = true ∧ (p.run env w).2.2.Coherent := by
  induction p generalizing w with
  | skip => exact ⟨rfl, rfl, rfl, hi, hc⟩
  | event e args =>
    obtain ⟨a1, a2, a3, a4, a5⟩ := audithook_spec env hc e args
    dsimp only [Prog.run, Prog.meaning, fire]
    rw [if_pos hi]
    exact ⟨by rw [a1], a3, a2, a4.trans hi, a5⟩
  | seq a b iha ihb =>
    obtain ⟨a1, a2, a3, a4, a5⟩ := iha w hi hc
    obtain ⟨b1, b2, b3, b4, b5⟩ := ihb (a.run env w).2.2 a4 a5
    dsimp only [Prog.run, Prog.meaning]
    rw [← a1]
    dsimp only
    split
    · refine ⟨?_, b2.trans a2, b3.trans a3, b4, b5⟩
      rw [a2, a3] at b1
      rw [← b1]
    · exact ⟨rfl, a2, a3, a4, a5⟩
  | attempt a iha =>
    obtain ⟨a1, a2, a3, a4, a5⟩ := iha w hi hc
    dsimp only [Prog.run, Prog.meaning]
    rw [← a1]
    exact ⟨rfl, a2, a3, a4, a5⟩
  | opened a iha =>
    dsimp only [Prog.run, Prog.meaning]
    by_cases he : w.enabled = true
    · obtain ⟨a1, a2, a3, a4, a5⟩ := iha { w with enabled := false } hi hc
      rw [if_pos he, if_pos he]
      exact ⟨a1, he.symm, a3, a4, a5⟩
    · rw [if_neg he, if_neg he]
      exact ⟨rfl, rfl, rfl, hi, hc⟩
  | enabled allow reject a iha =>
    obtain ⟨s1, s2, s3, s4⟩ := enterEnabled_spec hi hc allow reject
    obtain ⟨a1, a2, a3, a4, a5⟩ := iha _ s2 s1
    dsimp only [Prog.run, Prog.meaning, exitEnabled]
    rw [s3, s4] at a1
    refine ⟨a1, ?_, rfl, a4, hc⟩
    rw [hi]
    simp

/-- **C34.** From start-up: after engaging the wall with any rules, whatever runs under it, every event is decided by
the scopes around it and those rules. -/
theorem engaged_wall_scopes (env : Env) (rules : List Str) (he : "EVERYTHING".toList ∉ rules) (p : Prog) :
    ((p.run env (engage initialWall rules)).1, (p.run env (engage initialWall rules)).2.1) =
      p.meaning env ⟨true, updateSpecial initialSpecial rules true⟩ := by
  have h : engage initialWall rules =
      { initialWall with special := updateSpecial initialSpecial rules true, installed := true } := by
    unfold engage
    rw [if_neg he]
    rfl
  rw [h]
  exact (scopes_are_lexical env p _ rfl (fun e h hh => by simp [initialWall] at hh)).1

/-- A nesting for the examples: an open inside a stricter region inside an opened one. -/
def demo : Prog :=
  .seq (.attempt (.opened (.seq (.event "os.remove".toList [])
    (.enabled [] ["os.chdir".toList] (.event "os.chdir".toList []))))) (.event "os.remove".toList [])

example : ((demo.run env0 (engage initialWall [])).1, (demo.run env0 (engage initialWall [])).2.1) =
    (.sideEffect, [.allow, .reject, .reject]) := by decide +kernel

/-- **C34, disagreement.** In a process that has not engaged the wall, an enabled scope leaves it switched off for good:
engaging it afterwards does not stop anything, and opening it is an assertion failure. -/
theorem enabled_before_engage :
    let w := ((Prog.enabled [] [] .skip).run env0 initialWall).2.2
    (fire env0 (engage initialWall []) "os.remove".toList []).1 = .reject ∧
    (fire env0 (engage w []) "os.remove".toList []).1 = .allow ∧
    ((Prog.opened .skip).run env0 initialWall).1 = .done ∧
    ((Prog.opened .skip).run env0 w).1 = .assertion := by decide +kernel

/-- **C34, disagreement.** Rules given to a wall that is engaged already do not reach events it has seen. -/
theorem late_rules_ignored :
    let w := (fire env0 (engage initialWall []) "os.remove".toList []).2
    (fire env0 (engage w ["os.remove".toList]) "os.remove".toList []).1 = .reject ∧
    (fire env0 (engage initialWall ["os.remove".toList]) "os.remove".toList []).1 = .allow := by decide +kernel

end Verif.Wall
