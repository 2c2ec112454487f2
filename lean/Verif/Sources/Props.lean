import Verif.Sources.Model
import Mathlib.Tactic.Push
/-
Symbolic lists that take in the items of other objects.
-/
namespace Verif.Sources

variable {α : Type} [DecidableEq α]

/-- All that is inside. -/
def Inner.items : Inner α → List α
  | .arr xs => xs
  | .obj _ xs => xs
  | .cat a b => a.items ++ b.items

/-- All objects inside are of certain kinds. -/
def Inner.All (p : Kind → Prop) : Inner α → Prop
  | .arr _ => True
  | .obj k _ => p k
  | .cat a b => a.All p ∧ b.All p

/-- The kinds that have a length and can be indexed. -/
def Indexed (k : Kind) : Prop := k ≠ .bag ∧ k ≠ .iterator

omit [DecidableEq α] in
theorem len_items (q : Inner α) (h : q.All Indexed) : q.len = some q.items.length := by
  induction q with
  | arr xs => rfl
  | obj k xs => cases k <;> first | rfl | exact absurd rfl h.1 | exact absurd rfl h.2
  | cat a b iha ihb => simp only [Inner.len, iha h.1, ihb h.2, Inner.items, List.length_append]

omit [DecidableEq α] in
theorem checkIdx_item (xs : List α) (i : Int) :
    (match checkIdx i xs.length with
      | some k => match xs[k]? with | some v => Seen.item v | none => .indexError
      | none => .indexError) = match item xs i with | some v => Seen.item v | none => .indexError := by
  unfold checkIdx item
  simp only
  by_cases h : i < 0
  · simp only [if_pos h, if_neg (show ¬0 ≤ i by omega)]
    by_cases h2 : 0 ≤ i + xs.length
    · simp only [if_pos h2, if_pos (show 0 ≤ i + (xs.length : Int) ∧ i + (xs.length : Int) < xs.length from ⟨h2, by omega⟩)]
    · simp only [if_neg h2, if_neg (show ¬(0 ≤ i + (xs.length : Int) ∧ i + (xs.length : Int) < xs.length) from fun h3 => h2 h3.1)]
  · simp only [if_neg h, if_pos (show 0 ≤ i by omega)]
    by_cases h2 : i < xs.length
    · simp only [if_pos (show 0 ≤ i ∧ i < xs.length from ⟨by omega, h2⟩)]
    · simp only [if_neg (show ¬(0 ≤ i ∧ i < xs.length) from fun h3 => h2 h3.2), List.getElem?_eq_none (show xs.length ≤ i.toNat by omega)]

omit [DecidableEq α] in
theorem get_items (q : Inner α) (h : q.All Indexed) (i : Int) :
    q.get i = match item q.items i with | some v => .item v | none => .indexError := by
  induction q generalizing i with
  | arr xs => exact checkIdx_item xs i
  | obj k xs => cases k <;> first | exact checkIdx_item xs i | exact absurd rfl h.1 | exact absurd rfl h.2
  | cat a b iha ihb =>
    rw [← checkIdx_item]
    simp only [Inner.get, len_items a h.1, len_items b h.2, Inner.items, List.length_append]
    unfold checkIdx
    simp only
    generalize hj : (if i < 0 then i + ((a.items.length + b.items.length : Nat) : Int) else i) = j
    by_cases h2 : 0 ≤ j ∧ j < ((a.items.length + b.items.length : Nat) : Int)
    · rw [if_pos h2]
      simp only
      have hn : ∀ (l : List α) (k : Nat), item l (k : Int) = l[k]? := by
        intro l k
        unfold item
        rw [if_pos (by omega), Int.toNat_natCast]
      by_cases h3 : j.toNat < a.items.length
      · rw [if_pos h3, iha h.1, hn, List.getElem?_append_left h3]
      · rw [if_neg h3, ihb h.2, hn, List.getElem?_append_right (by omega)]
    · rw [if_neg h2]

omit [DecidableEq α] in
theorem iter_items (q : Inner α) (h : q.All Indexed) : q.iter = (q.items, q) := by
  induction q with
  | arr xs => rfl
  | obj k xs => cases k <;> first | rfl | exact absurd rfl h.1 | exact absurd rfl h.2
  | cat a b iha ihb => simp only [Inner.iter, iha h.1, ihb h.2, Inner.items]

theorem eq_items (q : Inner α) (h : q.All (· = .list)) (ys : List α) : q.eq ys = some (decide (q.items = ys)) := by
  have hsub : ∀ r : Inner α, r.All (· = .list) → r.All Indexed := by
    intro r
    induction r with
    | arr xs => exact fun _ => trivial
    | obj k xs => intro (hk : k = .list); subst hk; exact ⟨by decide, by decide⟩
    | cat a b iha ihb => exact fun hr => ⟨iha hr.1, ihb hr.2⟩
  induction q generalizing ys with
  | arr xs => rfl
  | obj k xs => have hk : k = .list := h; subst hk; rfl
  | cat a b iha ihb =>
    simp only [Inner.eq, len_items a (hsub a h.1), len_items b (hsub b h.2), iha h.1, ihb h.2, Inner.items]
    by_cases hl : a.items.length + b.items.length = ys.length
    · rw [if_neg (by omega)]
      by_cases h1 : a.items = ys.take a.items.length
      · rw [decide_eq_true h1]
        simp only [Option.some.injEq]
        congr 1
        apply propext
        constructor
        · intro h2
          conv_rhs => rw [← List.take_append_drop a.items.length ys, ← h1, ← h2]
        · intro h2
          rw [← h2, List.drop_left]
      · rw [decide_eq_false h1]
        simp only [Option.some.injEq]
        symm
        apply decide_eq_false
        rintro rfl
        apply h1
        rw [List.take_left]
    · rw [if_pos hl]
      congr 1
      symm
      apply decide_eq_false
      rintro rfl
      exact hl (by rw [List.length_append])

omit [DecidableEq α] in
theorem concatenate_items (a b : Inner α) : (concatenate a b).items = a.items ++ b.items := by
  unfold concatenate
  split <;> simp [Inner.items]

omit [DecidableEq α] in
theorem concatenate_all (p : Kind → Prop) (a b : Inner α) (ha : a.All p) (hb : b.All p) : (concatenate a b).All p := by
  unfold concatenate
  split
  · exact ha
  · exact ⟨ha, hb.2⟩
  · exact ⟨ha.1, ha.2⟩
  · exact ⟨ha, hb⟩

omit [DecidableEq α] in
theorem evaluation_items (s : Source α) : (evaluation s).items = s.items := by
  unfold evaluation; split <;> rfl

omit [DecidableEq α] in
theorem evaluation_all (s : Source α) : ∃ xs, evaluation s = .obj s.kind xs := by
  unfold evaluation
  cases hk : s.kind <;> exact ⟨s.items, rfl⟩

/-- What holds for kinds of sources `p` among which the list is. -/
theorem run_agrees (p : Kind → Prop) (hp : ∀ k, p k → Indexed k) (hlist : p .list) (q : Inner α) (hq : q.All p) (ops : List (Op α))
    (hs : ∀ op ∈ ops, ∀ s, op.source? = some s → p s.kind)
    (he : (∀ k, p k → k = .list) ∨ ∀ op ∈ ops, ∀ ys, op ≠ .eq ys) : run q ops = pythonRun q.items ops := by
  have hsub : ∀ r : Inner α, r.All p → r.All Indexed := by
    intro r
    induction r with
    | arr xs => exact fun _ => trivial
    | obj k xs => exact hp k
    | cat a b iha ihb => exact fun hr => ⟨iha hr.1, ihb hr.2⟩
  have hsub' : (∀ k, p k → k = .list) → ∀ r : Inner α, r.All p → r.All (· = .list) := by
    intro hk r
    induction r with
    | arr xs => exact fun _ => trivial
    | obj k xs => exact hk k
    | cat a b iha ihb => exact fun hr => ⟨iha hr.1, ihb hr.2⟩
  induction ops generalizing q with
  | nil => rfl
  | cons op ops ih =>
    have hs' : ∀ op ∈ ops, ∀ s, op.source? = some s → p s.kind := fun o ho => hs o (List.mem_cons_of_mem _ ho)
    have he' : (∀ k, p k → k = .list) ∨ ∀ op ∈ ops, ∀ ys, op ≠ .eq ys := he.imp id fun h o ho => h o (List.mem_cons_of_mem _ ho)
    suffices H : (step q op).1.All p ∧ (step q op).1.items = (python q.items op).1 ∧ (step q op).2 = (python q.items op).2 by
      simp only [run, pythonRun]
      rw [ih _ H.1 hs' he', H.2.1, H.2.2]
    have hev : ∀ s, op.source? = some s → (evaluation s).All p := by
      intro s h
      obtain ⟨xs, hx⟩ := evaluation_all s
      rw [hx]
      exact hs op List.mem_cons_self s h
    cases op with
    | append v => exact ⟨concatenate_all p _ _ hq hlist, concatenate_items _ _, rfl⟩
    | extend s => exact ⟨concatenate_all p _ _ hq (hev s rfl), by simp only [step, concatenate_items, evaluation_items, python], rfl⟩
    | assign s =>
      simp only [step, len_items q (hsub q hq)]
      exact ⟨hev s rfl, evaluation_items s, rfl⟩
    | len =>
      simp only [step, len_items q (hsub q hq)]
      exact ⟨hq, rfl, rfl⟩
    | get i => exact ⟨hq, rfl, get_items q (hsub q hq) i⟩
    | eq ys =>
      rcases he with h | h
      · simp only [step, eq_items q (hsub' h q hq)]
        exact ⟨hq, rfl, rfl⟩
      · exact absurd rfl (h _ List.mem_cons_self ys)
    | iter =>
      simp only [step, iter_items q (hsub q hq)]
      exact ⟨hq, rfl, rfl⟩

/-- In each history of a symbolic list that takes in only lists, all that is seen is as in Python. -/
theorem lists_taken_partial (xs : List α) (ops : List (Op α)) (h : ∀ op ∈ ops, ∀ s, op.source? = some s → s.kind = .list) :
    run (.arr xs) ops = pythonRun xs ops :=
  run_agrees (· = .list) (fun k hk => by subst hk; exact ⟨by decide, by decide⟩) rfl (.arr xs) trivial ops h (Or.inl fun _ hk => hk)

example : run (.arr [1, 2] : Inner Nat) [.extend ⟨.list, [3]⟩, .append 4, .len, .get (-1), .eq [1, 2, 3, 4], .iter] =
    [.done, .done, .number 4, .item 4, .truth true, .items [1, 2, 3, 4]] := by decide +kernel

/-- If it takes in tuples, texts and ranges too, then lengths, items and iteration are as in Python. -/
theorem indexed_taken_partial (xs : List α) (ops : List (Op α))
    (h : ∀ op ∈ ops, ∀ s, op.source? = some s → s.kind ≠ .bag ∧ s.kind ≠ .iterator) (he : ∀ op ∈ ops, ∀ ys, op ≠ .eq ys) :
    run (.arr xs) ops = pythonRun xs ops :=
  run_agrees Indexed (fun _ hk => hk) ⟨by decide, by decide⟩ (.arr xs) trivial ops h (Or.inr he)

example : run (.arr [1, 2] : Inner Nat) [.extend ⟨.tuple, [3]⟩, .extend ⟨.range, [0, 1]⟩, .len, .get 2, .iter] =
    [.done, .done, .number 5, .item 3, .items [1, 2, 3, 0, 1]] := by decide +kernel

/-- Whatever is taken in, a list that is found equal has these items. -/
theorem equal_sound (q : Inner α) (ys : List α) (h : q.eq ys = some true) : q.items = ys := by
  induction q generalizing ys with
  | arr xs => simpa [Inner.eq, Inner.items] using h
  | obj k xs => cases k <;> simp [Inner.eq] at h; exact h
  | cat a b iha ihb =>
    simp only [Inner.eq] at h
    split at h
    · split at h
      · cases h
      · split at h
        · rename_i h1
          have e1 := iha _ h1
          have e2 := ihb _ h
          rw [Inner.items, e1, e2, List.take_append_drop]
        · rename_i h2; exact absurd h h2
    · cases h

/-- Disagreement: a list that was extended by a tuple or a text, or whose items were replaced by those of one, is not equal to the list of its
items. -/
theorem tuple_taken_unequal :
    run (.arr [1] : Inner Nat) [.extend ⟨.tuple, [2]⟩, .eq [1, 2], .iter] = [.done, .truth false, .items [1, 2]] ∧
    run (.arr [1] : Inner Nat) [.extend ⟨.text, [97]⟩, .eq [1, 97], .iter] = [.done, .truth false, .items [1, 97]] ∧
    run (.arr [1] : Inner Nat) [.assign ⟨.tuple, [2]⟩, .eq [2], .iter] = [.done, .truth false, .items [2]] ∧
    pythonRun [1] [.extend ⟨.tuple, [2]⟩, .eq [1, 2], .iter] = [.done, .truth true, .items [1, 2]] := by decide +kernel

/-- Disagreement: a list that was extended by a generator or another iterator has no length, and its items are there only once. -/
theorem iterator_taken :
    run (.arr [1] : Inner Nat) [.extend ⟨.iterator, [2]⟩, .len, .get 0, .iter, .iter] =
      [.done, .typeError, .typeError, .items [1, 2], .items [1]] ∧
    pythonRun [1] [.extend ⟨.iterator, [2]⟩, .len, .get 0, .iter, .iter] = [.done, .number 2, .item 1, .items [1, 2], .items [1, 2]] := by
  decide +kernel

/-- Disagreement: the items of a list that was extended by a frozen set, or the values of a dictionary, cannot be read by their numbers. -/
theorem bag_taken :
    run (.arr [1] : Inner Nat) [.extend ⟨.bag, [2]⟩, .len, .get 1, .get 0] = [.done, .number 2, .typeError, .item 1] ∧
    pythonRun [1] [.extend ⟨.bag, [2]⟩, .len, .get 1, .get 0] = [.done, .number 2, .item 2, .item 1] := by decide +kernel

end Verif.Sources
