import Verif.Match.Lemmas
/-
Properties of match objects: C111 (groups) and C112 (templates).
-/
namespace Verif.Match
open Spec

/-! ### C111: groups -/

/-- C111: `m.group(k)`, which is also `m[k]`, is what Python gives, for each number and each name of a group. -/
theorem group_exact_partial (p : PyMatch) (hw : p.Wf) (k : Key) (i : Nat) (h : Meant p k i) :
    p.symbolic.group [k] = .ok (.one (p.group i)) := by
  cases h with
  | num i hi => simp only [M.group]; rw [one_num p i hi]; rfl
  | name s i hm => simp only [M.group]; rw [one_name p hw s i hm]; rfl

/-- C111: `m.group()` is the whole match. -/
theorem group_whole (p : PyMatch) :
    p.symbolic.group [] = .ok (.one (some (between p.text p.whole.1 p.whole.2))) := by
  simp only [M.group]
  have := one_num p 0 (Nat.zero_le _)
  rw [show ((0 : Nat) : Int) = 0 from rfl] at this
  rw [this]
  rfl

/-- C111: `m.group(k1, k2, ...)` is the tuple of the groups. -/
theorem group_many_partial (p : PyMatch) (hw : p.Wf) (k1 k2 : Key) (ks : List Key) (num : Key → Nat)
    (h : ∀ k ∈ k1 :: k2 :: ks, Meant p k (num k)) :
    p.symbolic.group (k1 :: k2 :: ks) = .ok (.tuple ((k1 :: k2 :: ks).map fun k => p.group (num k))) := by
  simp only [M.group]
  rw [loop_ok _ _ (fun k => p.group (num k)) fun k hk => by
    have hk' := h k hk
    generalize num k = n at hk' ⊢
    cases hk' with
    | num i hi => exact one_num p _ hi
    | name s i hm => exact one_name p hw s _ hm]
  rfl

/-- C111: `m.groups()` is the tuple of all groups from the first. -/
theorem groups_exact (p : PyMatch) :
    p.symbolic.groupsTuple = .ok ((List.range p.spans.length).map fun i => p.group (i + 1)) := by
  unfold M.groupsTuple
  rw [symbolic_groups, List.length_cons, Nat.add_sub_cancel]
  rw [loop_ok _ _ (fun k => match k with
    | .num i => p.group i.toNat
    | .name _ => none) fun k hk => by
      obtain ⟨i, hi, rfl⟩ := List.mem_map.1 hk
      rw [List.mem_range'_1] at hi
      simp only [Int.toNat_natCast]
      exact one_num p i (by omega)]
  congr 1
  rw [List.range_eq_range', List.map_map]
  apply List.ext_getElem
  · simp
  · intro i h1 h2
    simp [Nat.add_comm]

/-- C111: `m.start(i)`, `m.end(i)` and `m.span(i)` are right for numbers of groups that took part. -/
theorem span_exact_partial (p : PyMatch) (i : Nat) (hi : i ≤ p.spans.length) (s : Nat × Nat) (h : p.spanOf i = some s) :
    p.symbolic.start (.num i) = .ok s.1 ∧ (s.1 : Int) = p.start i ∧
      p.symbolic.stop (.num i) = .ok s.2 ∧ (s.2 : Int) = p.stop i ∧ p.symbolic.span (.num i) = .ok (some s) := by
  have := item_group p i hi
  rw [h] at this
  simp only [M.start, M.stop, M.span, M.at, this, PyMatch.start, PyMatch.stop, h, Res.bind]
  refine ⟨?_, ?_, ?_, ?_, ?_⟩ <;> first | rfl | trivial

/-- C111: numbers past the last group raise `IndexError`, as in Python. -/
theorem group_past_end (p : PyMatch) (i : Nat) (hi : p.spans.length < i) : p.symbolic.group [.num i] = .indexError := by
  have : item p.symbolic.groups (i : Int) = .indexError := by
    unfold item
    simp only
    rw [if_neg (show ¬ (i : Int) < 0 by omega), if_pos (by omega), Int.toNat_natCast, symbolic_groups,
      List.getElem?_eq_none (by simp only [List.length_cons]; omega)]
  simp only [M.group, M.one, Res.bind, this]

/-- C111: `m.lastindex` is the number that Python gives if the groups that took part were closed in the order of their
numbers (no group inside of another) and there is one.  `closed` has the numbers of these groups in the order in which they
were closed. -/
theorem lastindex_partial (p : PyMatch) (closed : List Nat) (hne : closed ≠ [])
    (hall : ∀ i, i ∈ closed ↔ 1 ≤ i ∧ i ≤ p.spans.length ∧ p.spanOf i ≠ none) (hord : closed.Pairwise (· < ·)) :
    p.symbolic.lastindex = closed.getLast? := by
  obtain ⟨init, last, rfl⟩ : ∃ init last, closed = init ++ [last] := by
    cases e : closed.getLast? with
    | none => exact absurd (List.getLast?_eq_none_iff.1 e) hne
    | some x =>
      obtain ⟨init, rfl⟩ := List.getLast?_eq_some_iff.1 e
      exact ⟨init, x, rfl⟩
  have hl := (hall last).1 (by simp)
  have hmax : ∀ i ∈ init ++ [last], i ≤ last := by
    intro i hi
    rcases List.mem_append.1 hi with h | h
    · exact Nat.le_of_lt ((List.pairwise_append.1 hord).2.2 i h last (by simp))
    · simp at h; omega
  have hat := groups_at p last hl.2.1
  unfold M.lastindex
  rcases lastindex_spec 0 p.symbolic.groups none with ⟨j, s, h1, h2, h3⟩ | ⟨h1, _⟩
  · rw [h2]
    simp only [Nat.zero_add, List.getLast?_append, List.getLast?_singleton, Option.some_or, Option.some.injEq]
    have hge : last ≤ j := by
      cases e : p.spanOf last with
      | none => exact absurd e hl.2.2
      | some s' => rw [e] at hat; exact h3 last s' hat
    have hj1 : 1 ≤ j := by omega
    have hjl : j ≤ p.spans.length := by
      have := (List.getElem?_eq_some_iff.1 h1).1
      rw [symbolic_groups, List.length_cons] at this
      omega
    have : j ∈ init ++ [last] := (hall j).2 ⟨hj1, hjl, by
      have := groups_at p j hjl
      rw [h1] at this
      simp only [Option.some.injEq] at this
      rw [← this]; simp⟩
    have := hmax j this
    omega
  · cases e : p.spanOf last with
    | none => exact absurd e hl.2.2
    | some s' => rw [e] at hat; exact absurd hat (h1 last s')

/-! Where match objects differ from Python's. -/

/-- `(a)|(b)` on "b". -/
def orMatch : PyMatch := ⟨(0, 1), [none, some (0, 1)], [([120], 1), ([121], 2)], [98]⟩

/-- Disagreement: a negative number gives a group counted from the end; Python raises `IndexError`. -/
theorem group_negative : orMatch.symbolic.group [.num (-1)] = .ok (.one (some [98])) := by decide

/-- Disagreement: an unknown name raises `KeyError`; Python raises `IndexError`. -/
theorem group_unknown_name : orMatch.symbolic.group [.name [122]] = .keyError := by decide

/-- Disagreement: `start` and `end` raise `TypeError` for every group that did not take part (Python: -1), and `span` gives
`None` (Python: `(-1, -1)`). -/
theorem start_unmatched (p : PyMatch) (i : Nat) (hi : i ≤ p.spans.length) (h : p.spanOf i = none) :
    p.symbolic.start (.num i) = .typeError ∧ p.start i = -1 ∧ p.symbolic.stop (.num i) = .typeError ∧ p.stop i = -1 ∧
      p.symbolic.span (.num i) = .ok none := by
  have := item_group p i hi
  rw [h] at this
  simp only [M.start, M.stop, M.span, M.at, this, PyMatch.start, PyMatch.stop, h, Res.bind]
  refine ⟨?_, ?_, ?_, ?_, ?_⟩ <;> first | rfl | trivial

example : orMatch.spanOf 1 = none := rfl

/-- Disagreement: `start`, `end` and `span` take no names: they raise `TypeError` for all of them. -/
theorem start_name (m : M) (s : List Nat) :
    m.start (.name s) = .typeError ∧ m.stop (.name s) = .typeError ∧ m.span (.name s) = .typeError := ⟨rfl, rfl, rfl⟩

/-- Disagreement: `groupdict` gives positions instead of text, and leaves out the groups that did not take part. -/
theorem groupdict_spans : orMatch.symbolic.groupdict = .ok [([121], (0, 1))] ∧
    orMatch.groupdict = [([120], none), ([121], some [98])] := by decide

/-- Disagreement: `lastindex` is 0 where no group took part; Python has `None`. -/
theorem lastindex_none : (PyMatch.mk (0, 1) [] [] [97]).symbolic.lastindex = some 0 := by decide

/-- Disagreement: for nested groups, `((a))` on "a", `lastindex` is 2; Python has 1, the group closed last. -/
theorem lastindex_nested : (PyMatch.mk (0, 1) [some (0, 1), some (0, 1)] [] [97]).symbolic.lastindex = some 2 := by decide

/-- Disagreement: `lastgroup` is the name of the last group with a name, though `lastindex` is of a group without one (Python: `None`), as for
`(?P<x>a)(b)` on "ab". -/
theorem lastgroup_other : (PyMatch.mk (0, 2) [some (0, 1), some (1, 2)] [([120], 1)] [97, 98]).symbolic.lastgroup = some [120] ∧
    (PyMatch.mk (0, 2) [some (0, 1), some (1, 2)] [([120], 1)] [97, 98]).symbolic.lastindex = some 2 := by decide

/-! ### C112: templates -/

/-- C112: `m.expand(template)` puts the groups in the places of the references `\1`, `\12`, `\g<12>` and `\g<name>`, for
templates without line feeds and other escapes, if the groups referred to took part. -/
theorem expand_exact_partial (p : PyMatch) (hw : p.Wf) (ps : List Piece) (hps : Written ps) (r : List Nat) (hr : Expands p ps r)
    (hm : ∀ q ∈ ps, ∀ i, Piece.Refers p q i → p.spanOf i ≠ none) : p.symbolic.expand (render ps) = .ok r := by
  have := expand_written p hw hps [] r ((render ps).length + 1) (by simp) hr hm (by simp)
  simpa [M.expand] using this

/-- C112: a template without backslash is left alone. -/
theorem expand_plain (m : M) (t : List Nat) (h : 92 ∉ t) : m.expand t = .ok t := by
  unfold M.expand
  have hb : backref t = none := by
    unfold backref
    split
    · rfl
    · have := scan_text [] t [] fun c hc hc2 => h (hc2 ▸ hc)
      rw [List.append_nil] at this
      rw [this]; rfl
  rw [M.expandLoop, hb]

/-- Disagreement: a reference to a group that did not take part raises `TypeError`; Python puts nothing. -/
theorem expand_unmatched : orMatch.symbolic.expand [92, 49] = .typeError ∧ Expands orMatch [.digit 1] [] := by
  refine ⟨by decide, ?_⟩
  exact .ref (.digit 1) 1 [] [] (.digit 1 (by decide)) .nil

/-- Disagreement: with a line feed anywhere in the template, no references are replaced: `"\\2\n"`. -/
theorem expand_newline (m : M) (t : List Nat) (h : 10 ∈ t) : m.expand t = .ok t := by
  unfold M.expand
  have hb : backref t = none := by
    unfold backref
    rw [if_pos (by simpa [List.contains_iff_mem] using h)]
  rw [M.expandLoop, hb]

example : orMatch.symbolic.expand [92, 50, 10] = .ok [92, 50, 10] := by decide

/-- Disagreement: escapes are left alone (`\n` should become a line feed), and an escaped backslash in front of a digit is taken for
a reference: `\\2` (three characters) becomes a backslash and group 2 instead of `\2`. -/
theorem expand_escapes : orMatch.symbolic.expand [92, 110] = .ok [92, 110] ∧
    orMatch.symbolic.expand [92, 92, 50] = .ok [92, 98] := by decide

/-- Disagreement: `\201` is group 20 and "1"; in Python three octal digits are a character.  Here there is no group 20. -/
theorem expand_octal : orMatch.symbolic.expand [92, 50, 48, 49] = .indexError := by decide

/-! ### Examples -/

example : orMatch.Wf := ⟨by decide, by decide⟩

example : Meant orMatch (.name [121]) 2 := .name _ _ (by decide)

/-- `<\2-\g<y>\g<0>>` on the match. -/
example : let ps : List Piece := [.text [60], .digit 2, .text [45], .name [121], .number [0], .text [62]]
    Written ps ∧ orMatch.symbolic.expand (render ps) = .ok [60, 98, 45, 98, 98, 62] := by
  refine ⟨?_, by decide⟩
  refine .text _ _ (by decide) (.digit _ _ (by decide) (by decide) ?_ (.text _ _ (by decide) (.name _ _ (by decide) ?_ ?_
    (.number _ _ (by decide) (by decide) (.text _ _ (by decide) .nil)))))
  · intro c hc
    have : (45 : Nat) = c := by
      have h : (render [.text [45], .name [121], .number [0], .text [62]]).head? = some 45 := rfl
      rw [h] at hc; simpa using hc
    omega
  · intro c hc
    simp at hc; subst hc; unfold WordChar; omega
  · intro c hc
    simp at hc; omega

/-- `closed` for `(a)|(b)` on "b". -/
example : ∀ i, i ∈ [2] ↔ 1 ≤ i ∧ i ≤ orMatch.spans.length ∧ orMatch.spanOf i ≠ none := by
  intro i
  constructor
  · intro h; simp at h; subst h; decide
  · rintro ⟨h1, h2, h3⟩
    have h2 : i ≤ 2 := h2
    have : i = 1 ∨ i = 2 := by omega
    rcases this with rfl | rfl
    · exact absurd rfl h3
    · simp

end Verif.Match
