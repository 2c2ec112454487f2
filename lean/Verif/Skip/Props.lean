import Verif.Skip.Lemmas

/-! Skipped calls: counterexamples are real, what is confirmed is so, and made-up values reproduce a counterexample. -/
namespace Verif.Skip

/-! ## Counterexamples are real -/

/-- **C95.** When a path with skipped calls is reported as a counterexample, and values that are `==` are the same, then the outcome that is reported is
that of calling all functions, and it breaks the postcondition. -/
theorem refuted_real {σ α ο : Type} {sem : Nat → σ → Ret α} {eq : α → α → Bool} (heq : ∀ a b, eq a b = true → a = b) {post : ο → Bool}
    (p : Prog σ α ο) (s : σ) (ds : List (Decision α)) (o : ο) (h : attempt sem eq post p s ds = .refuted o) :
    o = exec sem p s ∧ post o = false := by
  unfold attempt at h
  simp only at h
  split at h
  · simp at h
  · rename_i hp
    obtain ⟨h1, h2⟩ := reconcile_refuted _ h
    subst h1
    refine ⟨run_exec p s ds ?_, by simpa using hp⟩
    intro a ha
    obtain ⟨w, hw, he⟩ := h2 a ha
    rw [hw, heq _ _ he]

/-- A function that doubles, called with a variable that is changed in between. -/
def doubles : Prog Int Int Int := .call 0 fun r =>
  match r with
  | .val v => .write (· + 1) (.call 0 fun r =>
    match r with
    | .val w => .done fun s => v + w + s
    | .exc _ => .done fun _ => 0)
  | .exc _ => .done fun _ => 0

/-- What the function does. -/
def doubling : Nat → Int → Ret Int := fun _ s => .val (2 * s)

example : attempt doubling (fun a b => a == b) (fun o : Int => o != 21) doubles 3 [] = .confirmed ∧
    attempt doubling (fun a b => a == b) (fun o : Int => o != 18) doubles 3 [.skip 6, .skip 8] = .refuted 18 ∧
    attempt doubling (fun a b => a == b) (fun o : Int => o != 18) doubles 3 [.into, .skip 8] = .refuted 18 ∧
    attempt doubling (fun a b => a == b) (fun o : Int => o != 19) doubles 3 [.skip 7, .skip 8] = .ignored := by decide +kernel

/-- **C95.** Real counterexamples are not lost by skipping: if functions do not raise, then whichever calls are skipped, some returned values lead to the
report of what really happens. -/
theorem refuted_found {σ α ο : Type} {sem : Nat → σ → Ret α} {eq : α → α → Bool} (hrefl : ∀ a, eq a a = true) {post : ο → Bool}
    (p : Prog σ α ο) (s : σ) (hval : ∀ f s, ∃ v, sem f s = .val v) (hpost : post (exec sem p s) = false) (choice : List Bool) :
    ∃ ds : List (Decision α), skips ds = choice ∧ attempt sem eq post p s ds = .refuted (exec sem p s) := by
  obtain ⟨ds, h1, _, h3⟩ := real_decisions (sem := sem) (fun _ _ _ => True) (fun f s => by
    obtain ⟨v, hv⟩ := hval f s
    exact ⟨v, hv, trivial⟩) p s choice
  have he := run_exec p s ds h3
  refine ⟨ds, h1, ?_⟩
  unfold attempt
  simp only [he, hpost, Bool.false_eq_true, if_false]
  exact reconcile_all _ fun a ha => ⟨a.ret, h3 a ha, hrefl _⟩

example : exec doubling doubles 3 = 18 := by decide +kernel

/-- Zero and minus zero, which are `==`. -/
inductive Zero where
  | pos
  | neg
deriving DecidableEq

/-- **C95, disagreement.** Assumed and real results are compared with `==`. When the assumed `-0.0` is compared with the real `0.0`, a counterexample is
reported (here that the sign is that of `-0.0`) that does not happen. -/
theorem equal_not_same : ∃ (sem : Nat → Unit → Ret Zero) (p : Prog Unit Zero Zero) (ds : List (Decision Zero)),
    attempt sem (fun _ _ => true) (fun o => o = .pos) p () ds = .refuted .neg ∧ exec sem p () = .pos :=
  ⟨fun _ _ => .val .pos, .call 0 (fun r => match r with | .val v => .done fun _ => v | .exc _ => .done fun _ => .pos), [.skip .neg], rfl, rfl⟩

/-- **C95, disagreement.** When a skipped function raises where its assumed result is checked, the exception ends the whole check, although the code
handles that exception and never breaks its postcondition. -/
theorem raising_crashes : ∃ (sem : Nat → Int → Ret Int) (p : Prog Int Int Int) (ds : List (Decision Int)),
    attempt sem (fun a b => a == b) (fun o => o != 0) p 5 ds = .crash 7 ∧ ∀ s, (exec sem p s != 0) = true :=
  ⟨fun _ _ => .exc 7, .call 0 (fun r => match r with | .val v => .done fun _ => v | .exc _ => .done fun _ => 1), [.skip 0], rfl, fun _ => rfl⟩

/-! ## What is confirmed is so -/

/-- **C96.** Let every function return, without exceptions, only what its contract allows. If, whatever the skipped calls return within their contracts,
no path is refuted, dropped or ended by an exception, then the real outcome meets the postcondition. Which calls are skipped does not matter. -/
theorem confirmed_holds {σ α ο : Type} {sem : Nat → σ → Ret α} {eq : α → α → Bool} {post : ο → Bool} (spec : Nat → σ → α → Prop)
    (hspec : ∀ f s, ∃ v, sem f s = .val v ∧ spec f s v) (p : Prog σ α ο) (s : σ) (choice : List Bool)
    (h : ∀ ds : List (Decision α), skips ds = choice → Allowed sem spec p s ds → attempt sem eq post p s ds = .confirmed) :
    post (exec sem p s) = true := by
  obtain ⟨ds, h1, h2, h3⟩ := real_decisions spec hspec p s choice
  have := h ds h1 h2
  unfold attempt at this
  simp only [run_exec p s ds h3] at this
  by_cases hp : post (exec sem p s) = true
  · exact hp
  · rw [if_neg hp, reconcile.eq_def] at this
    exfalso
    split at this
    · simp at this
    · split at this
      · simp at this
      · split at this
        · have hr : ∀ as, reconcile (ο := ο) sem eq (exec sem p s) as ≠ .confirmed := by
            intro as
            induction as with
            | nil => simp [reconcile]
            | cons a as ih =>
              rw [reconcile]
              split
              · simp
              · split
                · exact ih
                · simp
          exact hr _ this
        · simp at this

/-- Non-negative results for non-negative arguments. -/
def atLeast : Nat → Int → Int → Prop := fun _ s v => 0 ≤ s → s ≤ v

/-- A sum of results. -/
def once : Prog Int Int Int := .call 0 fun r =>
  match r with
  | .val v => .done fun s => v - s
  | .exc _ => .done fun _ => -1

example : (∀ f s, ∃ v, doubling f s = .val v ∧ atLeast f s v) ∧
    ∀ ds : List (Decision Int), skips ds = [true] → Allowed doubling atLeast once 4 ds →
      attempt doubling (fun a b => a == b) (fun o => decide (0 ≤ o)) once 4 ds = .confirmed := by
  refine ⟨fun f s => ⟨2 * s, rfl, fun h => by omega⟩, ?_⟩
  intro ds hd ha
  match ds, hd, ha with
  | [.skip v], _, ha =>
    have : (4 : Int) ≤ v := ha.1 (by decide)
    simp only [attempt, once, run]
    rw [if_pos (by simp; omega)]

/-- **C96, disagreement.** Exceptions are no part of what is assumed of a skipped call: code whose only failure is in its handler for an exception of the
function is confirmed whenever that call is skipped. -/
theorem exceptions_missed : ∃ (sem : Nat → Int → Ret Int) (p : Prog Int Int Int),
    (∀ (ds : List (Decision Int)) (s : Int), skips ds = [true] → attempt sem (fun a b => a == b) (fun o => o != 0) p s ds = .confirmed) ∧
    ∀ s, exec sem p s = 0 :=
  ⟨fun _ _ => .exc 7, .call 0 (fun r => match r with | .val _ => .done fun _ => 1 | .exc _ => .done fun _ => 0),
    fun ds s h => by
      match ds, h with
      | [.skip v], _ => rfl,
    fun _ => rfl⟩

/-! ## When calls are skipped -/

/-- **C97.** A call is skipped, with a later check, exactly if the mechanism is on, within a path, the function is declared to change no argument, it is
not one whose body is to be skipped always (or it is, but no signature fits), type variables of the result can be solved with symbolic arguments, and the
path chooses to. -/
theorem checked_iff (s : Situation) : intercept s = .skipChecked ↔
    s.engaged = true ∧ s.inSpace = true ∧ s.mutableArgs = some 0 ∧
    (s.specsComplete = true ∨ s.skipBody = true → s.overloaded = true ∧ s.sigFound = false) ∧
    (s.genericReturn = true → s.allSymbolic = true ∧ s.unifies = true) ∧ s.forkSkips = true := by
  obtain ⟨a, b, c, d, e, f, m, g, h, i, j⟩ := s
  have hm : m = some 0 ↔ (m.isNone || m != some 0) = false := by cases m <;> simp
  rw [intercept_flags]
  simp only [hm]
  clear hm
  generalize (m.isNone || m != some 0) = x
  clear m
  cases a <;> cases b <;> cases c <;> cases d <;> simp only [flags, Bool.not_false, Bool.not_true, Bool.or_true, Bool.true_or, Bool.or_self] <;>
    cases e <;> cases f <;> cases x <;> cases g <;> cases h <;> cases i <;> cases j <;> decide

/-- **C97.** A call is skipped for good exactly if that is asked for, and a signature is found, with types that can be solved. -/
theorem trusted_iff (s : Situation) : intercept s = .skipTrusted ↔
    s.engaged = true ∧ s.inSpace = true ∧ (s.specsComplete = true ∨ s.skipBody = true) ∧ (s.overloaded = true → s.sigFound = true) ∧
    (s.genericReturn = true → s.unifies = true) := by
  obtain ⟨a, b, c, d, e, f, m, g, h, i, j⟩ := s
  rw [intercept_flags]
  simp only
  generalize (m.isNone || m != some 0) = x
  clear m
  cases a <;> cases b <;> cases c <;> cases d <;> simp only [flags, Bool.not_false, Bool.not_true, Bool.or_true, Bool.true_or, Bool.or_self] <;>
    cases e <;> cases f <;> cases x <;> cases g <;> cases h <;> cases i <;> cases j <;> decide

/-- **C97.** A path ends as unsupported exactly if the call had to be skipped and the type variables of its result cannot be solved. -/
theorem unsupported_iff (s : Situation) : intercept s = .unsupported ↔
    s.engaged = true ∧ s.inSpace = true ∧ (s.specsComplete = true ∨ s.skipBody = true) ∧ (s.overloaded = true → s.sigFound = true) ∧
    s.genericReturn = true ∧ s.unifies = false := by
  obtain ⟨a, b, c, d, e, f, m, g, h, i, j⟩ := s
  rw [intercept_flags]
  simp only
  generalize (m.isNone || m != some 0) = x
  clear m
  cases a <;> cases b <;> cases c <;> cases d <;> simp only [flags, Bool.not_false, Bool.not_true, Bool.or_true, Bool.true_or, Bool.or_self] <;>
    cases e <;> cases f <;> cases x <;> cases g <;> cases h <;> cases i <;> cases j <;> decide

/-- **C97.** Whatever else, a function that is declared to change an argument, or of which nothing is declared, is called, unless its body is to be
skipped always. -/
theorem mutating_called (s : Situation) (hm : s.mutableArgs ≠ some 0) (hs : s.specsComplete = false) (hb : s.skipBody = false) : intercept s = .call := by
  obtain ⟨a, b, c, d, e, f, m, g, h, i, j⟩ := s
  have h0' : (m.isNone || m != some 0) = true := by cases m <;> simp_all
  simp only at hs hb
  subst hs hb
  simp only [intercept, consider, h0']
  cases a <;> cases b <;> rfl

/-- An ordinary function with a contract. -/
def plain : Situation := ⟨true, true, false, false, false, false, some 0, false, false, false, true⟩

example : intercept plain = .skipChecked ∧ intercept { plain with specsComplete := true } = .skipTrusted ∧
    intercept { plain with skipBody := true, genericReturn := true } = .unsupported ∧ intercept { plain with mutableArgs := none } = .call ∧
    intercept { plain with mutableArgs := some 1 } = .call ∧
    intercept { plain with specsComplete := true, overloaded := true } = .skipChecked := by decide +kernel

/-! ## The signature of an overloaded function -/

/-- **C98, part.** Without keyword arguments, and if all signatures take as many arguments as are given, the first signature is found that fits. Missing:
keyword arguments, and signatures with other numbers of parameters; see `keyword_wrong` and `other_arity_raises`. -/
theorem best_first_partial (fits : Nat → Nat → Bool) (str : Nat) (args : List Nat) (sigs : List (List Nat)) (hlen : ∀ sig ∈ sigs, sig.length = args.length) :
    findBest fits str args [] sigs = (match firstFit fits args 0 sigs with | some i => .sig i | none => .none) := by
  have key : ∀ (sigs : List (List Nat)) (i : Nat), (∀ sig ∈ sigs, sig.length = args.length) →
      findBestFrom fits args i sigs = (match firstFit fits args i sigs with | some i => .sig i | none => .none) := by
    intro sigs
    induction sigs with
    | nil => intro i _; rfl
    | cons sig sigs ih =>
      intro i h
      have hl := h sig (by simp)
      rw [findBestFrom, firstFit, if_neg (by simp [hl])]
      by_cases hc : ∀ ap ∈ args.zip sig, fits ap.1 ap.2 = true
      · rw [if_pos (by rw [List.all_eq_true]; exact hc), if_pos ⟨hl, hc⟩]
      · rw [if_neg (by rw [List.all_eq_true]; exact hc), if_neg (by simp only [hl, true_and]; exact hc)]
        exact ih _ fun s hs => h s (by simp [hs])
  unfold findBest
  simp only [List.map_nil, List.append_nil]
  exact key sigs 0 hlen

/-- Types and annotations `0` (`int`) and `1` (`str`). -/
def same : Nat → Nat → Bool := fun a p => a == p

example : findBest same 1 [0, 1] [] [[1, 1], [0, 0], [0, 1], [0, 1]] = .sig 2 ∧ findBest same 1 [0] [] [[1]] = .none := by decide +kernel

/-- **C98, disagreement.** `find_best_sig` is given the names of keyword arguments as arguments: for `f(x=5)` with signatures for `str` and for `int`, that
for `str` is found. -/
theorem keyword_wrong : findBest same 1 [] [0] [[1], [0]] = .sig 0 ∧ firstFit same [0] 0 [[1], [0]] = some 1 := by decide +kernel

/-- **C98, disagreement.** A signature with another number of parameters raises `TypeError`, although a later signature fits. -/
theorem other_arity_raises : findBest same 1 [0] [] [[0, 0], [0]] = .typeError ∧ firstFit same [0] 0 [[0, 0], [0]] = some 1 := by decide +kernel

/-! ## Made-up values reproduce the counterexample -/

/-- **C99, part.** If a path makes up values for functions that are skipped for good, then with those functions replaced by ones that return the values
shown with the counterexample, the code has the same outcome. Missing: values made up before the body, for calls in preconditions; see `values_shift`. -/
theorem reproduces_partial {σ α ο : Type} {sem : Nat → σ → Ret α} (trusted : Nat → Bool) (d : α) (p : Prog σ α ο) (s : σ) (vals : List α) :
    replay sem p s (runTrusted sem trusted d p s vals []).2 = some (runTrusted sem trusted d p s vals []).1 := by
  refine replay_spec p s vals [] _ (fun f => by simp [get]) ?_
  intro f hf hm
  have := keys_runTrusted (sem := sem) (trusted := trusted) (d := d) p s vals [] (by simp) f hm
  simp [hf] at this

example : runTrusted doubling (· == 0) 0 doubles 3 [10, 20] [] = (34, [(0, [10, 20])]) ∧
    replay doubling doubles 3 [(0, [10, 20])] = some 34 ∧ exec doubling doubles 3 = 18 := by decide +kernel

/-- **C99.** Functions that are not skipped for good are not replaced. -/
theorem only_trusted {σ α ο : Type} {sem : Nat → σ → Ret α} (trusted : Nat → Bool) (d : α) (p : Prog σ α ο) (s : σ) (vals : List α) :
    ∀ f ∈ (runTrusted sem trusted d p s vals []).2.map (·.1), trusted f = true :=
  keys_runTrusted p s vals [] (by simp)

example : (runTrusted doubling (· == 1) 0 doubles 3 [10, 20] []) = (18, []) := by decide +kernel

/-- **C99, disagreement.** The values of calls in preconditions come first among those that are shown. A precondition that calls the function gets `0`,
then the body gets `9` and fails; but with the values `0, 9` the body gets `0`, and does not. -/
theorem values_shift : ∃ (sem : Nat → Int → Ret Int) (pre : Prog Int Int Bool) (body : Prog Int Int Int),
    let first := runTrusted sem (fun _ => true) 0 pre 3 [0] []
    let second := runTrusted sem (fun _ => true) 0 body 3 [9] first.2
    first.1 = true ∧ second = (9, [(0, [0, 9])]) ∧ replay sem body 3 second.2 = some 0 := by
  refine ⟨doubling, .call 0 (fun _ => .done fun _ => true), .call 0 (fun r => match r with | .val v => .done fun _ => v | .exc _ => .done fun _ => -1), ?_⟩
  decide +kernel

end Verif.Skip
