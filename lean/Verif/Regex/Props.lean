import Verif.Regex.Find

/-! Regular expressions: properties C55 (matching), C86 (search), C87 (finditer), C88 (split), C89 (sub). -/
namespace Verif.Regex

/-- ASCII word characters, for examples. -/
def asciiWord (c : Nat) : Bool := (48 ≤ c && c < 58) || (65 ≤ c && c < 91) || c == 95 || (97 ≤ c && c < 123)

/-- A string to match, for examples. -/
def onText (t : List Nat) : Subject := { text := t, word := asciiWord }
def one (c : Nat) : Re := .char (· == c)

/-! ## C55 -/

/-- `(a|ab)(c|bcd)(d*)`. -/
def abcd : List Re :=
  [.group 1 [.branch [[one 97], [one 97, one 98]]], .group 2 [.branch [[one 99], [one 98, one 99, one 100]]], .group 3 [.rep true 0 none [one 100]]]

theorem abcd_plain : PlainSeq false abcd := by
  simp [PlainSeq, Plain, PlainAlts, abcd, one, DetSeq, Det, widthSeq, width]

theorem abcd_groups : (groupsSeq abcd).Nodup := by simp [groupsSeq, groupsOf, groupsAlts, abcd, one]

/-- C55: expressions are good if they look like it, whatever the string is. -/
theorem plain_fits (s : Subject) (pats : List Re) (h : PlainSeq s.multiline pats) : GoodSeq s pats := plain_goodSeq s pats h

example (t : List Nat) : GoodSeq (onText t) abcd := plain_fits (onText t) abcd abcd_plain

/-- C55 (partial, see `Good` for the expressions that are left out): the matcher ends, and returns the match that is preferred, with its groups,
or `None` if there is no match. With `allow = false`, the empty match does not count. -/
theorem match_partial (s : Subject) (pats : List Re) (off : Nat) (allow : Bool) (hg : GoodSeq s pats) (hn : (groupsSeq pats).Nodup) (hoff : off ≤ s.text.length) :
    ∃ N, ∀ n ≥ N, go s n pats off allow = match firstMatch s pats off allow with | some h => .hit h | none => .no := by
  obtain ⟨N, hN⟩ := go_exact s pats off allow hg hn hoff
  exact ⟨N, fun n hn => by rw [hN n hn, pick_first]; cases firstMatch s pats off allow <;> rfl⟩

example : (firstMatch (onText [97, 98, 99, 100]) abcd 0 true).map (fun h => (h.stop, h.groups 1, h.groups 2, h.groups 3)) =
    some (4, some (0, 1), some (1, 4), some (4, 4)) := by decide +kernel
example := match_partial (onText [97, 98, 99, 100]) abcd 0 true (plain_fits _ _ abcd_plain) abcd_groups (by decide)

/-- C55: the matches in order of preference are exactly those of the language. -/
theorem runs_language (s : Subject) (pats : List Re) (h : WfSeq pats) (off e : Nat) : (∃ h ∈ runsSeq s pats off, h.stop = e) ↔ langSeq s pats off e :=
  agree_seq s pats h off e

example := runs_language (onText [97, 98, 99, 100]) abcd (good_wfSeq _ _ (plain_fits (onText []) _ abcd_plain)) 0 4
example : (runsSeq (onText [97, 98, 99, 100]) abcd 0).map (·.stop) = [4, 4, 3] := by decide +kernel

/-- C55 (partial): the matcher accepts exactly if there is something in the language at the position. -/
theorem accepts_partial (s : Subject) (pats : List Re) (off : Nat) (hg : GoodSeq s pats) (hn : (groupsSeq pats).Nodup) (hoff : off ≤ s.text.length) :
    ∃ N, ∀ n ≥ N, (∃ h, go s n pats off true = .hit h) ↔ ∃ e, langSeq s pats off e := by
  obtain ⟨N, hN⟩ := go_exact s pats off true hg hn hoff
  refine ⟨N, fun n hn => ?_⟩
  rw [hN n hn, pick_true]
  constructor
  · rintro ⟨h, hh⟩
    cases hr : runsSeq s pats off with
    | nil => rw [hr] at hh; cases hh
    | cons a l => exact ⟨a.stop, (agree_seq s pats (good_wfSeq s pats hg) off a.stop).1 ⟨a, by rw [hr]; simp, rfl⟩⟩
  · rintro ⟨e, he⟩
    obtain ⟨h, hh, _⟩ := (agree_seq s pats (good_wfSeq s pats hg) off e).2 he
    cases hr : runsSeq s pats off with
    | nil => rw [hr] at hh; cases hh
    | cons a l => exact ⟨a, rfl⟩

example := accepts_partial (onText [97, 98, 99, 100]) abcd 0 (plain_fits _ _ abcd_plain) abcd_groups (by decide)

/-- C55 (partial, see `Sane`): every match that is returned is in the language, also for repetitions of any expression. -/
theorem sound_partial (s : Subject) (n : Nat) (pats : List Re) (off : Nat) (allow : Bool) (h : Hit) (hs : SaneSeq s pats) (hoff : off ≤ s.text.length)
    (hm : go s n pats off allow = .hit h) : langSeq s pats off h.stop ∧ (allow = false → off < h.stop) :=
  have := go_sound s n pats off allow h hs hoff hm
  ⟨this.1, this.2.1⟩

/-- `(?:a|ab)*b`. -/
def starred : List Re := [.rep true 0 none [.branch [[one 97], [one 97, one 98]]], one 98]

theorem starred_sane (s : Subject) : SaneSeq s starred := by simp [SaneSeq, Sane, SaneAlts, starred, one]

example : ((go (onText [97, 98, 98]) 10 starred 0 true).result.map (·.stop)) = some 2 := by decide +kernel
example (h : Hit) := sound_partial (onText [97, 98, 98]) 10 starred 0 true h (starred_sane _) (by decide)

/-- C55: what the matcher returns does not depend on how many calls may be nested, once these are enough. -/
theorem match_stable (s : Subject) (n m : Nat) (h : n ≤ m) (pats : List Re) (off : Nat) (allow : Bool) (he : go s n pats off allow ≠ .endless) :
    go s m pats off allow = go s n pats off allow := go_mono s h he

theorem ends_of_result {o : Out} (h : o.result.isSome = true) : o ≠ .endless := by rintro rfl; cases h

example := match_stable (onText [97, 98, 98]) 10 100 (by decide) starred 0 true (ends_of_result (by decide +kernel))

/-- C55 (partial): fullmatch returns the match that is preferred among those that end at the end of the string. -/
theorem fullmatch_partial (s : Subject) (pats : List Re) (off : Nat) (hg : GoodSeq s pats) (hn : (groupsSeq pats).Nodup) (hoff : off ≤ s.text.length) :
    ∃ N, ∀ n ≥ N, go s n (fullPattern pats) off true =
      match (runsSeq s pats off).find? fun h => h.stop = s.text.length with | some h => .hit h | none => .no := by
  obtain ⟨N, hN⟩ := go_exact s (fullPattern pats) off true (good_full hg) (by rw [groups_full]; exact hn) hoff
  refine ⟨N, fun n hn => ?_⟩
  rw [hN n hn, runs_full s pats off hoff]
  unfold pick
  rw [List.find?_filter]
  simp only [Bool.true_or, and_true, decide_eq_true_eq]
  cases (runsSeq s pats off).find? fun h => h.stop = s.text.length <;> rfl

/-- `a|ab`. -/
def aOrAb : List Re := [.branch [[one 97], [one 97, one 98]]]
theorem aOrAb_plain : PlainSeq false aOrAb := by simp [PlainSeq, Plain, PlainAlts, aOrAb, one]

example : ((runsSeq (onText [97, 98]) aOrAb 0).find? fun h => h.stop = 2).map (·.stop) = some 2 := by decide +kernel
example := fullmatch_partial (onText [97, 98]) aOrAb 0 (plain_fits _ _ aOrAb_plain) (by simp [groupsSeq, groupsOf, groupsAlts, aOrAb, one]) (by decide)

/-- C55 (partial): a greedy repetition matches as much as it can. -/
theorem greedy_longest_partial (s : Subject) (min : Nat) (max : Option Nat) (body : List Re) (off : Nat) (hg : Good s (.rep true min max body))
    (hn : (groupsSeq body).Nodup) (hoff : off ≤ s.text.length) :
    ∃ N, ∀ n ≥ N, ∀ h, go s n [.rep true min max body] off true = .hit h → ∀ e, lang s (.rep true min max body) off e → e ≤ h.stop := by
  obtain ⟨N, hN⟩ := go_exact s [.rep true min max body] off true (by rw [GoodSeq, GoodSeq]; exact ⟨hg, trivial⟩) (by simpa [groupsSeq, groupsOf] using hn) hoff
  refine ⟨N, fun n hn h hh e he => ?_⟩
  rw [hN n hn, pick_true, runsSeq_cons, bind_congr (g := fun o => [.at o]) (fun _ _ => runsSeq_nil s _), bind_right] at hh
  have hs := rep_sorted hg off
  obtain ⟨x, hx, rfl⟩ := (agree_runs s _ (good_wf s _ hg) off e).2 he
  cases hr : runs s (.rep true min max body) off with
  | nil => rw [hr] at hh; cases hh
  | cons a l =>
    rw [hr] at hh hs hx
    cases hh
    rcases List.mem_cons.1 hx with rfl | hx
    · exact Nat.le_refl _
    · have := (List.pairwise_cons.1 hs).1 x.stop (List.mem_map.2 ⟨x, hx, rfl⟩)
      simp only [if_true] at this
      omega

/-- C55 (partial): a lazy repetition matches as little as it can. -/
theorem lazy_shortest_partial (s : Subject) (min : Nat) (max : Option Nat) (body : List Re) (off : Nat) (hg : Good s (.rep false min max body))
    (hn : (groupsSeq body).Nodup) (hoff : off ≤ s.text.length) :
    ∃ N, ∀ n ≥ N, ∀ h, go s n [.rep false min max body] off true = .hit h → ∀ e, lang s (.rep false min max body) off e → h.stop ≤ e := by
  obtain ⟨N, hN⟩ := go_exact s [.rep false min max body] off true (by rw [GoodSeq, GoodSeq]; exact ⟨hg, trivial⟩) (by simpa [groupsSeq, groupsOf] using hn) hoff
  refine ⟨N, fun n hn h hh e he => ?_⟩
  rw [hN n hn, pick_true, runsSeq_cons, bind_congr (g := fun o => [.at o]) (fun _ _ => runsSeq_nil s _), bind_right] at hh
  have hs := rep_sorted hg off
  obtain ⟨x, hx, rfl⟩ := (agree_runs s _ (good_wf s _ hg) off e).2 he
  cases hr : runs s (.rep false min max body) off with
  | nil => rw [hr] at hh; cases hh
  | cons a l =>
    rw [hr] at hh hs hx
    cases hh
    rcases List.mem_cons.1 hx with rfl | hx
    · exact Nat.le_refl _
    · have := (List.pairwise_cons.1 hs).1 x.stop (List.mem_map.2 ⟨x, hx, rfl⟩)
      simp only [Bool.false_eq_true, if_false] at this
      omega

theorem as_good (s : Subject) (greedy : Bool) : Good s (.rep greedy 1 none [one 97]) :=
  plain_good s _ (by simp [Plain, DetSeq, Det, one, widthSeq, width, PlainSeq])

example : (runs (onText [97, 97, 97, 98]) (.rep true 1 none [one 97]) 0).map (·.stop) = [3, 2, 1] := by decide +kernel
example : (runs (onText [97, 97, 97, 98]) (.rep false 1 none [one 97]) 0).map (·.stop) = [1, 2, 3] := by decide +kernel
example := greedy_longest_partial (onText [97, 97, 97, 98]) 1 none [one 97] 0 (as_good _ true) (by simp [groupsSeq, groupsOf, one]) (by decide)
example := lazy_shortest_partial (onText [97, 97, 97, 98]) 1 none [one 97] 0 (as_good _ false) (by simp [groupsSeq, groupsOf, one]) (by decide)

/-- The matcher has ended without a match. -/
def Out.isNo : Out → Bool
  | .no => true
  | _ => false

theorem no_of_isNo {o : Out} (h : o.isNo = true) : o = .no := by cases o <;> first | rfl | cases h

/-- Disagreement: `(?:a|ab)?c` and `(?:a|ab)+c` (which `sre_parse` makes `a(?:|b)`) do not match "abc", since the first choice in a repetition is final. -/
theorem repetition_final : (∀ n ≥ 20, go (onText [97, 98, 99]) n [.rep true 0 (some 1) [one 97, .branch [[], [one 98]]], one 99] 0 true = .no) ∧
    (∀ n ≥ 20, go (onText [97, 98, 99]) n [.rep true 1 none [one 97, .branch [[], [one 98]]], one 99] 0 true = .no) ∧
    langSeq (onText [97, 98, 99]) [.rep true 0 (some 1) [one 97, .branch [[], [one 98]]], one 99] 0 3 ∧
    langSeq (onText [97, 98, 99]) [.rep true 1 none [one 97, .branch [[], [one 98]]], one 99] 0 3 := by
  have h1 : go (onText [97, 98, 99]) 20 [.rep true 0 (some 1) [one 97, .branch [[], [one 98]]], one 99] 0 true = .no := no_of_isNo (by decide +kernel)
  have h2 : go (onText [97, 98, 99]) 20 [.rep true 1 none [one 97, .branch [[], [one 98]]], one 99] 0 true = .no := no_of_isNo (by decide +kernel)
  refine ⟨fun n hn => ?_, fun n hn => ?_, ?_, ?_⟩
  · rw [go_mono _ hn (by rw [h1]; simp), h1]
  · rw [go_mono _ hn (by rw [h2]; simp), h2]
  · rw [← agree_seq _ _ (by simp [WfSeq, Wf, WfAlts, one])]
    have : 3 ∈ (runsSeq (onText [97, 98, 99]) [.rep true 0 (some 1) [one 97, .branch [[], [one 98]]], one 99] 0).map (·.stop) := by decide +kernel
    exact List.mem_map.1 this
  · rw [← agree_seq _ _ (by simp [WfSeq, Wf, WfAlts, one])]
    have : 3 ∈ (runsSeq (onText [97, 98, 99]) [.rep true 1 none [one 97, .branch [[], [one 98]]], one 99] 0).map (·.stop) := by decide +kernel
    exact List.mem_map.1 this

/-- Disagreement: `(?:a*)*` does not end, on any string in which no `a` is at the position. -/
theorem empty_repetition_endless (s : Subject) (off : Nat) (h : s.text[off]? ≠ some 97) :
    ∀ n, go s n [.rep true 0 none [.rep true 0 none [one 97]]] off true = .endless := by
  have inner : ∀ n, go s n [.rep true 0 none [one 97]] off true = .endless ∨ go s n [.rep true 0 none [one 97]] off true = .hit (.at off) := by
    intro n
    have hc : ∀ n rest, go s n (one 97 :: rest) off true = .endless ∨ go s n (one 97 :: rest) off true = .no := by
      intro n rest
      cases n with
      | zero => exact .inl rfl
      | succ n =>
        right
        show step s (go s n) _ _ _ = _
        simp only [step, one]
        cases hx : s.text[off]? with
        | none => rfl
        | some c =>
          have : c ≠ 97 := fun e => h (by rw [hx, e])
          simp [this]
    have hr : ∀ n, go s n [.rep true 1 none [one 97]] off true = .endless ∨ go s n [.rep true 1 none [one 97]] off true = .no := by
      intro n
      cases n with
      | zero => exact .inl rfl
      | succ n =>
        show step s (go s n) _ _ _ = _ ∨ step s (go s n) _ _ _ = _
        simp only [step, repeat_, Option.any_none, Bool.false_eq_true, if_false, atLeast, Hit.at]
        rcases hc n [] with h | h <;> rw [h] <;> simp
    cases n with
    | zero => exact .inl rfl
    | succ n =>
      show step s (go s n) _ _ _ = _ ∨ step s (go s n) _ _ _ = _
      simp only [step, repeat_, Option.any_none, Bool.false_eq_true, if_false, atLeast, repeatRest, if_true, remaining, Hit.at, Bool.true_or]
      rcases hr n with h | h
      · rw [h]; exact .inl rfl
      · rw [h]
        simp only [cont, Nat.le_refl, if_true]
        cases n with
        | zero => exact .inl rfl
        | succ n => right; rfl
  have loop : ∀ n, go s n [.rep true 1 none [.rep true 0 none [one 97]]] off true = .endless := by
    intro n
    induction n with
    | zero => rfl
    | succ n ih =>
      show step s (go s n) _ _ _ = _
      simp only [step, repeat_, Option.any_none, Bool.false_eq_true, if_false, atLeast, repeatRest, if_true, remaining, Hit.at, Bool.true_or]
      rcases inner n with h | h
      · rw [h]
      · rw [h]
        simp only [Hit.add, Hit.at]
        have : Option.any (fun x => decide (x ≤ 1)) (none : Option Nat) = false := rfl
        rw [ih]
  intro n
  cases n with
  | zero => rfl
  | succ n =>
    show step s (go s n) _ _ _ = _
    simp only [step, repeat_, Option.any_none, Bool.false_eq_true, if_false, atLeast, repeatRest, if_true, remaining, Hit.at, Bool.true_or, loop]

example := empty_repetition_endless (onText [98]) 0 (by decide)

/-- Disagreement: `$` does not match in front of a line feed at the end ("a$" on "a\n"). -/
theorem dollar_newline : (∀ n ≥ 5, go (onText [97, 10]) n [one 97, .at .ending] 0 true = .no) ∧ langSeq (onText [97, 10]) [one 97, .at .ending] 0 1 := by
  have h1 : go (onText [97, 10]) 5 [one 97, .at .ending] 0 true = .no := no_of_isNo (by decide +kernel)
  refine ⟨fun n hn => ?_, ?_⟩
  · rw [go_mono _ hn (by rw [h1]; simp), h1]
  · rw [← agree_seq _ _ (by simp [WfSeq, Wf, one])]
    have : 1 ∈ (runsSeq (onText [97, 10]) [one 97, .at .ending] 0).map (·.stop) := by decide +kernel
    exact List.mem_map.1 this

/-- Disagreement: `\b` matches in front of a space at the beginning, and `\B` does not. -/
theorem boundary_at_start : (∃ h, ∀ n ≥ 5, go (onText [32]) n [.at .boundary] 0 true = .hit h) ∧ (∀ e, ¬langSeq (onText [32]) [.at .boundary] 0 e) ∧
    (∀ n ≥ 5, go (onText [32]) n [.at .nonBoundary] 0 true = .no) ∧ langSeq (onText [32]) [.at .nonBoundary] 0 0 := by
  have h1 : go (onText [32]) 5 [.at .boundary] 0 true = .hit (.at 0) := rfl
  have h2 : go (onText [32]) 5 [.at .nonBoundary] 0 true = .no := no_of_isNo (by decide +kernel)
  refine ⟨⟨.at 0, fun n hn => ?_⟩, fun e he => ?_, fun n hn => ?_, ?_⟩
  · rw [go_mono _ hn (by rw [h1]; simp), h1]
  · rw [← agree_seq _ _ (by simp [WfSeq, Wf])] at he
    have : runsSeq (onText [32]) [.at .boundary] 0 = [] := rfl
    rw [this] at he
    simp at he
  · rw [go_mono _ hn (by rw [h2]; simp), h2]
  · rw [← agree_seq _ _ (by simp [WfSeq, Wf])]
    have : 0 ∈ (runsSeq (onText [32]) [.at .nonBoundary] 0).map (·.stop) := by decide +kernel
    exact List.mem_map.1 this

/-- Disagreement: with MULTILINE, `^a` on the empty string raises an `IndexError`. -/
theorem caret_empty : ∀ n ≥ 5, go { onText [] with multiline := true } n [.at .beginning, one 97] 0 true = .indexError := by
  intro n hn
  have h1 : go { onText [] with multiline := true } 5 [.at .beginning, one 97] 0 true = .indexError := rfl
  rw [go_mono _ hn (by rw [h1]; simp), h1]

/-- Disagreement: `(?<!a)b` does not match "b", since there is no room for the `a`. -/
theorem behind_at_start : (∀ n ≥ 5, go (onText [98]) n [.behind false 1 [one 97], one 98] 0 true = .no) ∧ langSeq (onText [98]) [.behind false 1 [one 97], one 98] 0 1 := by
  have h1 : go (onText [98]) 5 [.behind false 1 [one 97], one 98] 0 true = .no := no_of_isNo (by decide +kernel)
  refine ⟨fun n hn => ?_, ?_⟩
  · rw [go_mono _ hn (by rw [h1]; simp), h1]
  · rw [← agree_seq _ _ (by simp [WfSeq, Wf, one])]
    have : 1 ∈ (runsSeq (onText [98]) [.behind false 1 [one 97], one 98] 0).map (·.stop) := by decide +kernel
    exact List.mem_map.1 this

/-- Disagreement: groups inside of a look-ahead are lost (`(?=(a))` on "a"). -/
theorem ahead_groups_lost : (∃ h, h.groups 1 = none ∧ ∀ n ≥ 5, go (onText [97]) n [.ahead true [.group 1 [one 97]]] 0 true = .hit h) ∧
    (firstMatch (onText [97]) [.ahead true [.group 1 [one 97]]] 0 true).map (fun h => h.groups 1) = some (some (0, 1)) := by
  have h1 : go (onText [97]) 5 [.ahead true [.group 1 [one 97]]] 0 true = .hit (.at 0) := rfl
  refine ⟨⟨.at 0, rfl, fun n hn => ?_⟩, by decide +kernel⟩
  rw [go_mono _ hn (by rw [h1]; simp), h1]

/-! ## C86 -/

/-- C86 (partial): search returns the leftmost match, unless there is a match at the very end of the string. -/
theorem search_partial (s : Subject) (pats : List Re) (hg : GoodSeq s pats) (hn : (groupsSeq pats).Nodup) (hend : firstMatch s pats s.text.length true = none) :
    ∃ N, ∀ n ≥ N, ∀ pos, Leftmost (fun i => firstMatch s pats i true) pos s.text.length (search (fun i => (go s n pats i true).result) pos s.text.length) := by
  obtain ⟨N, hN⟩ := go_all hg hn
  refine ⟨N, fun n hn pos => ?_⟩
  rw [searchAll_congr fun i hi => hN n hn i hi true]
  exact searchLoop_spec _ _ hend _ pos (by omega)

example : firstMatch (onText [120, 97, 98, 97, 98, 99, 100]) abcd 7 true = none := rfl
example : (search (fun i => firstMatch (onText [120, 97, 98, 97, 98, 99, 100]) abcd i true) 0 7).map (fun r => (r.1, r.2.stop)) = some (3, 7) := by decide +kernel
example := search_partial (onText [120, 97, 98, 97, 98, 99, 100]) abcd (plain_fits _ _ abcd_plain) abcd_groups rfl

/-- C86: which position is found first does not leave a choice. -/
theorem leftmost_one (m : Nat → Option Hit) (pos endpos : Nat) (a b : Option (Nat × Hit)) (ha : Leftmost m pos endpos a) (hb : Leftmost m pos endpos b) : a = b :=
  leftmost_unique ha hb

example : Leftmost (fun i => if i = 3 then some (.at 4) else none) 1 5 (some (3, .at 4)) :=
  ⟨by decide, by decide, rfl, fun j _ hj => by simp only; rw [if_neg (by omega)]⟩

/-- C86 (partial): positions that are not negative are limited to the length of the string. -/
theorem positions_partial (len i : Nat) : sliceIndex len i = min i len := by
  unfold sliceIndex
  rw [if_neg (by omega)]
  rfl

/-- Disagreement: a negative position counts from the end of the string, where Python's `re` takes it to be zero. -/
theorem negative_position : sliceIndex 3 (-1) = 2 := by decide

/-- Disagreement: a match at the very end is not found (`$` in "a", `a*` in ""). -/
theorem search_end : (∀ n ≥ 5, search (fun i => (go (onText [97]) n [.at .endingString] i true).result) 0 1 = none) ∧
    (∃ r, Leftmost (fun i => firstMatch (onText [97]) [.at .endingString] i true) 0 1 (some r)) ∧
    (∀ n, search (fun i => (go (onText []) n [.rep true 0 none [one 97]] i true).result) 0 0 = none) ∧
    ∃ r, Leftmost (fun i => firstMatch (onText []) [.rep true 0 none [one 97]] i true) 0 0 (some r) := by
  refine ⟨fun n hn => ?_, ⟨(1, .at 1), by decide, by decide, rfl, fun j _ hj => ?_⟩, fun n => rfl, ⟨(0, .at 0), by decide, by decide, rfl, fun j _ hj => by omega⟩⟩
  · have h1 : go (onText [97]) 5 [.at .endingString] 0 true = .no := no_of_isNo (by decide +kernel)
    have : (go (onText [97]) n [.at .endingString] 0 true).result = none := by rw [go_mono _ hn (by rw [h1]; simp), h1]; rfl
    simp [search, searchLoop, this]
  · obtain rfl : j = 0 := by omega
    rfl

/-! ## C87 -/

/-- C87 (partial, see `Good`): finditer ends, and yields the matches that Python's scanner finds. -/
theorem finditer_partial (s : Subject) (pats : List Re) (hg : GoodSeq s pats) (hn : (groupsSeq pats).Nodup) (pos : Nat) :
    ∃ N, ∀ n ≥ N, ∀ rounds ≥ 2 * s.text.length + 4, ∃ l,
      finditerLoop (fun i a => (go s n pats i a).result) s.text.length rounds pos false = some l ∧ Scan (firstMatch s pats) s.text.length pos true l := by
  obtain ⟨N, hN⟩ := go_all hg hn
  refine ⟨N, fun n hn rounds hr => ?_⟩
  rw [finditer_congr fun i hi a => hN n hn i hi a]
  exact finditer_scan (first_obeys s pats) rounds pos false (by simp only [Bool.false_eq_true, if_false]; omega)

/-- `a*`. -/
def manyA : List Re := [.rep true 0 none [one 97]]
theorem manyA_plain : PlainSeq false manyA := by simp [PlainSeq, Plain, manyA, one, DetSeq, Det, widthSeq, width]

example : (finditerLoop (firstMatch (onText [97, 98, 97]) manyA) 3 20 0 false).map (·.map fun r => (r.1, r.2.stop)) = some [(0, 1), (1, 1), (2, 3), (3, 3)] := by
  decide +kernel
example := finditer_partial (onText [97, 98, 97]) manyA (plain_fits _ _ manyA_plain) (by simp [groupsSeq, groupsOf, manyA, one]) 0

/-- C87: what Python's scanner finds does not leave a choice. -/
theorem scan_one (m : Nat → Bool → Option Hit) (endpos pos : Nat) (allow : Bool) (l l' : List (Nat × Hit)) (h : Scan m endpos pos allow l)
    (h' : Scan m endpos pos allow l') : l = l' := scan_unique h h'

example : Scan (fun i _ => if i = 1 then some (.at 2) else none) 2 0 true [(1, .at 2)] :=
  .next ⟨by decide, by decide, rfl, fun j _ hj => by simp only; rw [if_neg (by omega)]⟩ (.done fun j hj _ => by
    have : (Hit.at 2).stop = 2 := rfl
    simp only
    rw [if_neg (by omega)])

/-- C87: the matches that are found are in order and do not overlap, and no two of them are empty and at the same place. -/
theorem matches_ordered (s : Subject) (pats : List Re) (pos : Nat) (l : List (Nat × Hit)) (h : Scan (firstMatch s pats) s.text.length pos true l) :
    (∀ x ∈ l, pos ≤ x.1 ∧ x.1 ≤ x.2.stop ∧ x.2.stop ≤ s.text.length) ∧
      l.Pairwise fun x y => x.2.stop ≤ y.1 ∧ (x.1 = x.2.stop → x.2.stop < y.2.stop) := by
  have := scan_ordered (first_obeys s pats) h
  refine ⟨fun x hx => ⟨(this.1 x hx).1, (this.1 x hx).2.1, (this.1 x hx).2.2.1⟩, this.2.imp fun h => ?_⟩
  omega

example : ∃ l, Scan (firstMatch (onText [97, 98, 97]) manyA) 3 0 true l :=
  have ⟨l, _, h⟩ := finditer_scan (first_obeys (onText [97, 98, 97]) manyA) 20 0 false (by decide)
  ⟨l, h⟩

/-! ## C88 -/

/-- C88 (partial): split returns the parts between the matches that Python's scanner finds, the first `maxsplit` of them if that is not zero,
or leaves the work to Python's own split since a match is empty. Missing: expressions that match at the very end of the string. -/
theorem split_partial (s : Subject) (pats : List Re) (hg : GoodSeq s pats) (hn : (groupsSeq pats).Nodup) (hend : firstMatch s pats s.text.length true = none) :
    ∃ N, ∀ n ≥ N, ∀ maxsplit l, Scan (firstMatch s pats) s.text.length 0 true l →
      split (spans (fun i => (go s n pats i true).result) s.text.length) s.text maxsplit = some (.parts (between s.text 0 (limited maxsplit l))) ∨
      split (spans (fun i => (go s n pats i true).result) s.text.length) s.text maxsplit = some .concrete ∧ ∃ i h, firstMatch s pats i true = some h ∧ h.stop = i := by
  obtain ⟨N, hN⟩ := go_all hg hn
  refine ⟨N, fun n hn maxsplit l hl => ?_⟩
  rw [split, splitLoop_congr (fun p => spans_congr (fun i hi => hN n hn i hi true) p)]
  obtain ⟨r, h1, h2⟩ := split_spec (first_obeys s pats) hend maxsplit (s.text.length + 1) 0 0 [] l hl (by omega) (by omega) (by omega)
  rw [h1]
  rcases h2 with h2 | h2
  · left
    rw [h2]
    rfl
  · right
    exact ⟨by rw [h2.1], h2.2⟩

/-- `,+`. -/
def commas : List Re := [.rep true 1 none [one 44]]
theorem commas_plain : PlainSeq false commas := by simp [PlainSeq, Plain, commas, one, DetSeq, Det, widthSeq, width]

example : split (spans (fun i => firstMatch (onText [97, 44, 44, 98, 44, 99]) commas i true) 6) [97, 44, 44, 98, 44, 99] 1 = some (.parts [[97], [98, 44, 99]]) := by decide +kernel
example : split (spans (fun i => firstMatch (onText [97, 44, 44, 98, 44]) commas i true) 5) [97, 44, 44, 98, 44] 0 = some (.parts [[97], [98], []]) := by decide +kernel
example := split_partial (onText [97, 44, 44, 98, 44, 99]) commas (plain_fits _ _ commas_plain) (by simp [groupsSeq, groupsOf, commas, one]) rfl

/-- Disagreement: `b|\Z` splits "ab" into two parts; Python finds the end as well, and makes three parts. -/
theorem split_end : (∀ n ≥ 10, split (spans (fun i => (go (onText [97, 98]) n [.branch [[one 98], [.at .endingString]]] i true).result) 2) [97, 98] 0 = some (.parts [[97], []])) ∧
    ∃ l, Scan (firstMatch (onText [97, 98]) [.branch [[one 98], [.at .endingString]]]) 2 0 true l ∧ between [97, 98] 0 l = [[97], [], []] := by
  refine ⟨fun n hn => ?_, [(1, .at 2), (2, .at 2)], ?_, by decide⟩
  · have h0 : go (onText [97, 98]) 10 [.branch [[one 98], [.at .endingString]]] 0 true = .no := no_of_isNo (by decide +kernel)
    have h1 : go (onText [97, 98]) 10 [.branch [[one 98], [.at .endingString]]] 1 true = .hit (.at 2) := rfl
    have e0 : (go (onText [97, 98]) n [.branch [[one 98], [.at .endingString]]] 0 true).result = none := by rw [go_mono _ hn (by rw [h0]; simp), h0]; rfl
    have e1 : (go (onText [97, 98]) n [.branch [[one 98], [.at .endingString]]] 1 true).result = some (.at 2) := by rw [go_mono _ hn (by rw [h1]; simp), h1]; rfl
    have es : spans (fun i => (go (onText [97, 98]) n [.branch [[one 98], [.at .endingString]]] i true).result) 2 0 = some (1, 2) := by
      simp [spans, search, searchLoop, e0, e1, Hit.at]
    simp [split, splitLoop, es]
  · refine .next ⟨by decide, by decide, rfl, fun j _ hj => ?_⟩ (.next ⟨by decide, by decide, rfl, fun j h1 hj => ?_⟩ (.done fun j h1 h2 => ?_))
    · obtain rfl : j = 0 := by omega
      rfl
    · simp only [Hit.at] at h1
      omega
    · obtain rfl : j = 2 := by simp only [Hit.at] at h1; omega
      rfl

/-! ## C89 -/

/-- C89 (partial): subn replaces the matches that Python's scanner finds, the first `count` of them if that is not zero, and counts them. Missing:
expressions that may match the empty string or look back, and negative counts. -/
theorem subn_partial (s : Subject) (pats : List Re) (hp : PlainSeq s.multiline pats) (hf : ForwardSeq pats) (hw : 0 < widthSeq pats) (hn : (groupsSeq pats).Nodup) :
    ∃ N, ∀ n ≥ N, ∀ repl count l, 0 ≤ count → Scan (firstMatch s pats) s.text.length 0 true l →
      subn (fun t => spans (fun i => (go { s with text := t } n pats i true).result) t.length 0) repl s.text count =
        some (replaced s.text repl 0 (limited count l), (limited count l).length) := by
  obtain ⟨N, hN⟩ := go_drops hp hn
  refine ⟨N, fun n hn repl count l hc hl => ?_⟩
  have hm := first_local hp hf hw
  rw [subn, subnLoop_congr (g := fun t => spans (fun i => firstMatch { s with text := t } pats i true) t.length 0) repl _ _ _
    (fun k => spans_congr (fun i hi => hN n hn k i hi true) 0)]
  have hl' : Scan (fun i _ => firstMatch { s with text := s.text } pats i true) s.text.length 0 true l := by
    have : ∀ {pos allow l}, Scan (firstMatch s pats) s.text.length pos allow l → Scan (fun i _ => firstMatch s pats i true) s.text.length pos allow l := by
      have same : ∀ i a, firstMatch s pats i a = firstMatch s pats i true := fun i a => by
        cases a
        · unfold firstMatch
          exact find_congr fun h hh => by
            have := wide_seq s pats i h hh
            have : i < h.stop := by omega
            simp [this]
        · rfl
      intro pos allow l h
      have : firstMatch s pats = fun i _ => firstMatch s pats i true := by funext i a; exact same i a
      rwa [this] at h
    exact this hl
  have := subn_spec hm s.text repl (s.text.length + 1) 0 count true l hl' (by omega) (by omega)
  rw [List.drop_zero] at this
  rw [this]
  unfold limited
  by_cases hz : count = 0
  · simp [hz]
  · have : ¬count ≤ 0 := by omega
    simp [hz, this]

example : subn (fun t => spans (fun i => firstMatch (onText t) commas i true) t.length 0) (fun m => m.length :: [59]) [97, 44, 44, 98, 44, 99] 0 =
    some ([97, 2, 59, 98, 1, 59, 99], 2) := by decide +kernel
example := subn_partial (onText [97, 44, 44, 98, 44, 99]) commas commas_plain (by simp [ForwardSeq, Forward, commas, one])
  (by simp [widthSeq, width, commas, one]) (by simp [groupsSeq, groupsOf, commas, one])

/-- Searches of the matcher in a string, for the disagreements. -/
def searchIn (n : Nat) (pats : List Re) (t : List Nat) : Option (Nat × Nat) := spans (fun i => (go (onText t) n pats i true).result) t.length 0

/-- Disagreement: where the match is empty, the next character is dropped: `re.sub('x*', '-', 'abc')` is "---", not "-a-b-c-". -/
theorem sub_empty : subn (searchIn 20 [.rep true 0 none [one 120]]) (fun _ => [45]) [97, 98, 99] 0 = some ([45, 45, 45], 3) ∧
    ∃ l, Scan (firstMatch (onText [97, 98, 99]) [.rep true 0 none [one 120]]) 3 0 true l ∧
      replaced [97, 98, 99] (fun _ => [45]) 0 l = [45, 97, 45, 98, 45, 99, 45] := by
  refine ⟨by decide +kernel, [(0, .at 0), (1, .at 1), (2, .at 2), (3, .at 3)], ?_, by decide⟩
  have step : ∀ i, i ≤ 3 → firstMatch (onText [97, 98, 99]) [.rep true 0 none [one 120]] i true = some (.at i) := by
    intro i hi
    match i, hi with
    | 0, _ => rfl
    | 1, _ => rfl
    | 2, _ => rfl
    | 3, _ => rfl
  have skip : ∀ i, i ≤ 3 → firstMatch (onText [97, 98, 99]) [.rep true 0 none [one 120]] i false = none := by
    intro i hi
    match i, hi with
    | 0, _ => rfl
    | 1, _ => rfl
    | 2, _ => rfl
    | 3, _ => rfl
  refine .next ⟨by decide, by decide, step 0 (by decide), fun j _ hj => by omega⟩ ?_
  refine .next ⟨by decide, by decide, step 1 (by decide), fun j h1 hj => ?_⟩ ?_
  · obtain rfl : j = 0 := by omega
    exact skip 0 (by decide)
  refine .next ⟨by decide, by decide, step 2 (by decide), fun j h1 hj => ?_⟩ ?_
  · obtain rfl : j = 1 := by simp only [Hit.at] at h1; omega
    exact skip 1 (by decide)
  refine .next ⟨by decide, by decide, step 3 (by decide), fun j h1 hj => ?_⟩ (.done fun j h1 h2 => ?_)
  · obtain rfl : j = 2 := by simp only [Hit.at] at h1; omega
    exact skip 2 (by decide)
  · obtain rfl : j = 3 := by simp only [Hit.at] at h1; omega
    exact skip 3 (by decide)

/-- Disagreement: what follows a match is taken for the beginning of a string: `re.sub('^a', '', 'aaa')` is "", not "aa". -/
theorem sub_anchor : subn (searchIn 20 [.at .beginning, one 97]) (fun _ => []) [97, 97, 97] 0 = some ([], 3) ∧
    ∃ l, Scan (firstMatch (onText [97, 97, 97]) [.at .beginning, one 97]) 3 0 true l ∧ replaced [97, 97, 97] (fun _ => []) 0 l = [97, 97] := by
  refine ⟨by decide +kernel, [(0, .at 1)], ?_, by decide⟩
  refine .next ⟨by decide, by decide, rfl, fun j _ hj => by omega⟩ (.done fun j h1 h2 => ?_)
  have : j = 1 ∨ j = 2 ∨ j = 3 := by simp only [Hit.at] at h1; omega
  rcases this with rfl | rfl | rfl <;> rfl

/-- Disagreement: with a negative count everything is replaced, where Python replaces nothing. -/
theorem sub_negative : subn (searchIn 20 [one 97]) (fun _ => [45]) [97, 97] (-1) = some ([45, 45], 2) := by decide +kernel

end Verif.Regex
