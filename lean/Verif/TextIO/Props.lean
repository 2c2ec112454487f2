import Verif.TextIO.Lemmas

/-! Theorems about the in-memory text stream (C43). -/
namespace Verif.TextIO

/-- C43.  Over every history of operations that keeps to the fair uses, in every newline mode and from every
initial text, all results and exceptions, and the text, the position and the kinds of newline seen, are those of
a text with a position.  Missing from the full property: the uses excluded by `Fair`, where the stream does
differ (see below). -/
theorem stream_history_partial (initial : List Char) (mode : Mode) (ops : List Op)
    (h : FairRun mode (fresh initial mode) ops) :
    (run (init initial mode) ops).1 = (bufRun mode (fresh initial mode) ops).1 ∧
      Shows mode (run (init initial mode) ops).2 (bufRun mode (fresh initial mode) ops).2 :=
  run_shows ops (init_shows initial mode) h

/-- Reading, writing over the middle, seeking beyond the end, and closing. -/
def sample : List Op :=
  [.readline none, .write "XY".toList, .tell, .read (some 1), .seek 0 2, .write "é\n".toList, .seek 9 0,
   .write "z".toList, .seek 0 0, .readline (some 1), .readline none, .newlines, .truncate (some 3), .getvalue,
   .seek 1 1, .close, .read none]

example : FairRun .crlf (fresh "ab\ncd".toList .crlf) sample ∧
    (run (init "ab\ncd".toList .crlf) sample).1 =
      [.text "ab\r\n".toList, .num 2, .num 6, .text [], .num 6, .num 2, .num 9, .num 1, .num 0, .text "a".toList,
       .text "b\r\n".toList, .newlines {}, .num 3, .text "ab\r".toList, .raised .os, .unit, .raised .value] := by
  refine ⟨?_, by decide +kernel⟩
  simp only [sample, FairRun, Fair]
  decide +kernel

/-- Without restriction for the operations that never go wrong: histories of `read()`, `write`, `seek`, `tell`,
`truncate()` and `close`. -/
theorem plain_use (initial : List Char) (mode : Mode) (ops : List Op)
    (h : ∀ op ∈ ops, op = .read none ∨ (∃ s, op = .write s) ∨ (∃ a w, op = .seek a w) ∨ op = .tell ∨
      op = .truncate none ∨ op = .close) :
    (run (init initial mode) ops).1 = (bufRun mode (fresh initial mode) ops).1 := by
  have key : ∀ (ops : List Op) (b : Buf), (∀ op ∈ ops, op = .read none ∨ (∃ s, op = .write s) ∨
      (∃ a w, op = .seek a w) ∨ op = .tell ∨ op = .truncate none ∨ op = .close) → FairRun mode b ops := by
    intro ops
    induction ops with
    | nil => intro b _; trivial
    | cons op ops ih =>
      intro b h
      refine ⟨?_, ih _ (fun o ho => h o (by simp [ho]))⟩
      rcases h op (by simp) with rfl | ⟨s, rfl⟩ | ⟨a, w, rfl⟩ | rfl | rfl | rfl <;> trivial
  exact (run_shows ops (init_shows initial mode) (key ops _ h)).1

example : (run (init "ab".toList .any) [.seek 3 0, .write "\r\nc".toList, .seek 0 0, .read none]).1 =
    [.num 3, .num 3, .num 0, .text ['a', 'b', Char.ofNat 0, '\n', 'c']] := by decide +kernel

/-- Reading line by line gives back the whole text, and every line but the last one is complete. -/
theorem lines_cover (mode : Mode) (s : List Char) : firstLine mode s <+: s ∧
    (firstLine mode s ≠ s → complete mode (firstLine mode s) (s.drop (firstLine mode s).length) = true) ∧
    (s ≠ [] → firstLine mode s ≠ []) := by
  rw [← codeLine_eq]
  have h := lineEnd_first mode s
  unfold codeLine
  cases hl : lineEnd mode s with
  | none => exact ⟨List.prefix_rfl, fun hh => absurd rfl hh, fun hh => hh⟩
  | some k =>
    rw [hl] at h
    obtain ⟨h1, h2, _⟩ := h
    have hlen : (s.take k).length = k := by simp; omega
    refine ⟨List.take_prefix _ _, fun _ => by simp only; rw [hlen]; exact h2, fun hh => ?_⟩
    simp only
    intro he
    have hk : k = 0 := by
      rw [he] at hlen
      simpa using hlen.symm
    subst hk
    cases mode <;> simp [complete, List.isSuffixOf_iff_suffix, Mode.nl] at h2

example : firstLine .raw "ab\r\ncd".toList = "ab\r\n".toList ∧ firstLine .raw "a\rb".toList = "a\r".toList ∧
    firstLine .crlf "a\rb".toList = "a\rb".toList := by decide +kernel

/-! ## Disagreements -/

/-- Disagreement: `read(-1)` does not read everything; it leaves out the last character. -/
theorem read_negative :
    (run (init "abc".toList .lf) [.read (some (-1))]).1 = [.text "ab".toList] ∧
    (bufRun .lf (fresh "abc".toList .lf) [.read (some (-1))]).1 = [.text "abc".toList] := by decide +kernel

/-- Disagreement: the limit of `readline` is taken as a position instead of a number of characters, so that a
second `readline(2)` gives nothing, and a third one goes on to do so. -/
theorem readline_limit_absolute :
    (run (init "abcdef".toList .lf) [.readline (some 2), .readline (some 2)]).1 = [.text "ab".toList, .text []] ∧
    (bufRun .lf (fresh "abcdef".toList .lf) [.readline (some 2), .readline (some 2)]).1 =
      [.text "ab".toList, .text "cd".toList] := by decide +kernel

/-- Disagreement: `readline(-1)` does not mean "no limit", and moves the position before the start. -/
theorem readline_negative :
    (run (init "abc".toList .lf) [.readline (some (-1)), .tell]).1 = [.text "ab".toList, .num (-1)] ∧
    (bufRun .lf (fresh "abc".toList .lf) [.readline (some (-1)), .tell]).1 = [.text "abc".toList, .num 3] := by
  decide +kernel

/-- Disagreement: `readline()` beyond the end of the text moves the position back to the end. -/
theorem readline_beyond_end :
    (run (init "abc".toList .lf) [.seek 7 0, .readline none, .tell]).1 = [.num 7, .text [], .num 3] ∧
    (bufRun .lf (fresh "abc".toList .lf) [.seek 7 0, .readline none, .tell]).1 = [.num 7, .text [], .num 7] := by
  decide +kernel

/-- Disagreement: `truncate(-1)` does not raise `ValueError`; it drops the last character. -/
theorem truncate_negative :
    (run (init "abc".toList .lf) [.truncate (some (-1)), .getvalue]).1 = [.num (-1), .text "ab".toList] ∧
    (bufRun .lf (fresh "abc".toList .lf) [.truncate (some (-1)), .getvalue]).1 =
      [.raised .value, .text "abc".toList] := by decide +kernel

/-- Disagreement: `getvalue` still works after `close`, where Python raises `ValueError`. -/
theorem getvalue_after_close :
    (run (init "abc".toList .lf) [.close, .getvalue]).1 = [.unit, .text "abc".toList] ∧
    (bufRun .lf (fresh "abc".toList .lf) [.close, .getvalue]).1 = [.unit, .raised .value] := by decide +kernel

end Verif.TextIO
