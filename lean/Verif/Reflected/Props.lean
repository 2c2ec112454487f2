import Verif.Reflected.Model
/-
Operations of symbolic values and objects of a program's own classes, against Python's rule.
-/
namespace Verif.Reflected

/-- What a method of a kind gives by itself is what is left if no method knows what to do, or it leaves the decision to the other operand. -/
theorem own_cases (k : Kind) (op : Op) : own k op = .notImplemented ∨ decided op (own k op) = nobody op := by
  rcases op with c | _
  · cases c <;> rcases k with _ | _ | _ | _ | _ | _ | _ | i | _ | ⟨i, m⟩ | _ | _ <;> (try cases i) <;> (try cases m) <;>
      first | exact Or.inl rfl | exact Or.inr rfl
  · rcases k with _ | _ | _ | _ | _ | _ | _ | i | _ | ⟨i, m⟩ | _ | _ <;> first | exact Or.inl rfl | exact Or.inr rfl

theorem mirrored_cases (k : Kind) (op : Op) : decided op (mirrored k op) = nobody op := by
  rcases op with c | _
  · cases c <;> rcases k with _ | _ | _ | _ | _ | _ | _ | i | _ | ⟨i, m⟩ | _ | _ <;> (try cases i) <;> (try cases m) <;> rfl
  · rcases k with _ | _ | _ | _ | _ | _ | _ | i | _ | ⟨i, m⟩ | _ | _ <;> rfl

theorem interpret_spec (op : Op) (l r : Reply) : interpret op l r = if l = .notImplemented then decided op r else decided op l := by
  cases l with
  | value v => rfl
  | raises e => rfl
  | notImplemented =>
    cases r with
    | value v => rfl
    | raises e => rfl
    | notImplemented =>
      rcases op with c | _
      · cases c <;> rfl
      · rfl

/-- With the foreign object on the left, the result is always Python's, for every kind of symbolic value and every operation. -/
theorem foreign_left (k : Kind) (op : Op) (f : Foreign) : symRight k op f = pyRight op f := by
  simp only [symRight, pyRight, interpret_spec]
  by_cases h : f.own op = .notImplemented
  · rw [if_pos h, h, mirrored_cases]; rfl
  · rw [if_neg h]

example : symRight .list (.cmp .eq) ⟨fun _ => .value 1, .notImplemented, .notImplemented⟩ = .value 1 := rfl

/-- With the symbolic value on the left, the result is Python's exactly if the symbolic value's method leaves the decision to the foreign object, or
the foreign object's method does what would happen without it. -/
theorem symbolic_left_partial (k : Kind) (op : Op) (f : Foreign) :
    symLeft k op f = pyLeft op f ↔ own k op = .notImplemented ∨ pyLeft op f = nobody op := by
  simp only [symLeft, pyLeft, interpret_spec]
  by_cases h : own k op = .notImplemented
  · simp [h]
  · rw [if_neg h]
    have h2 := (own_cases k op).resolve_left h
    rw [h2]
    constructor
    · intro h3; exact Or.inr h3.symm
    · rintro (h3 | h3)
      · exact absurd h3 h
      · exact h3.symm

/-- Numbers leave all decisions to foreign objects; texts those about equality; tuples additions; sets that were changed, and dictionaries with keys
that are not numbers as long as they are not changed inside of a shell, everything. -/
theorem deferring (op : Op) (f : Foreign) :
    symLeft .number op f = pyLeft op f ∧
    symLeft (.set .other) op f = pyLeft op f ∧
    symLeft .simpleDict op f = pyLeft op f ∧
    symLeft (.dict .simple false) op f = pyLeft op f ∧
    (op = .cmp .eq ∨ op = .cmp .ne → symLeft .text op f = pyLeft op f) ∧
    (op = .add → symLeft .tuple op f = pyLeft op f) := by
  refine ⟨?_, ?_, ?_, ?_, ?_, ?_⟩
  · rw [symbolic_left_partial]; left; rcases op with c | _
    · cases c <;> rfl
    · rfl
  · rw [symbolic_left_partial]; left; rcases op with c | _
    · cases c <;> rfl
    · rfl
  · rw [symbolic_left_partial]; left; rcases op with c | _
    · cases c <;> rfl
    · rfl
  · rw [symbolic_left_partial]; left; rcases op with c | _
    · cases c <;> rfl
    · rfl
  · rintro (rfl | rfl) <;> (rw [symbolic_left_partial]; left; rfl)
  · rintro rfl; rw [symbolic_left_partial]; left; rfl

example : symLeft .number (.cmp .lt) ⟨fun c => if c = .gt then .value 1 else .value 0, .notImplemented, .notImplemented⟩ = .value 1 := rfl

/-- Objects that define nothing for an operation are treated as in Python by all kinds. -/
theorem plain_objects (k : Kind) (op : Op) (f : Foreign) (h : f.mirrored op = .notImplemented) : symLeft k op f = pyLeft op f := by
  rw [symbolic_left_partial]
  right
  simp only [pyLeft, h, decided]

example : symLeft .bytes (.cmp .ge) ⟨fun _ => .notImplemented, .notImplemented, .notImplemented⟩ = .raises 0 := rfl

/-- Disagreement: an object that says it is equal to everything (as `unittest.mock.ANY`) is not equal to a list, tuple, bytes object, range, set or
dictionary from the left, though it is from the right. -/
theorem equal_to_all_is_not (k : Kind)
    (hk : k = .list ∨ k = .tuple ∨ k = .bytes ∨ k = .range ∨ k = .frozenset ∨ k = .set .symbolic ∨ k = .dict .symbolic false) :
    ∃ f : Foreign, symLeft k (.cmp .eq) f = .value 0 ∧ pyLeft (.cmp .eq) f = .value 1 ∧ symRight k (.cmp .eq) f = .value 1 ∧
      symLeft k (.cmp .ne) f = .value 1 ∧ pyLeft (.cmp .ne) f = .value 0 :=
  ⟨⟨fun c => if c = .eq then .value 1 else .value 0, .notImplemented, .notImplemented⟩, by
    rcases hk with rfl | rfl | rfl | rfl | rfl | rfl | rfl <;> exact ⟨rfl, rfl, rfl, rfl, rfl⟩⟩

/-- Disagreement: after a dictionary was changed, it is not equal to such objects any more. -/
theorem change_hides_method : ∃ f : Foreign, symLeft (.dict .simple false) (.cmp .eq) f = .value 1 ∧ symLeft (.dict .simple true) (.cmp .eq) f = .value 0 ∧
    pyLeft (.cmp .eq) f = .value 1 :=
  ⟨⟨fun _ => .value 1, .notImplemented, .notImplemented⟩, rfl, rfl, rfl⟩

/-- Disagreement: texts, lists, tuples and bytes objects cannot be ordered with objects that know how to; there is a `TypeError`. -/
theorem order_not_asked (k : Kind) (hk : k = .text ∨ k = .list ∨ k = .tuple ∨ k = .bytes) (c : Cmp) (hc : c ≠ .eq ∧ c ≠ .ne) :
    ∃ f : Foreign, symLeft k (.cmp c) f = .raises 0 ∧ pyLeft (.cmp c) f = .value 1 :=
  ⟨⟨fun _ => .value 1, .notImplemented, .notImplemented⟩, by
    obtain ⟨h1, h2⟩ := hc
    rcases hk with rfl | rfl | rfl | rfl <;> cases c <;> first | exact absurd rfl h1 | exact absurd rfl h2 | exact ⟨rfl, rfl⟩⟩

/-- Disagreement: `__radd__` of an object is not asked by texts, lists and bytes objects. -/
theorem radd_not_asked (k : Kind) (hk : k = .text ∨ k = .list ∨ k = .bytes) :
    ∃ f : Foreign, symLeft k .add f = .raises 0 ∧ pyLeft .add f = .value 7 :=
  ⟨⟨fun _ => .notImplemented, .notImplemented, .value 7⟩, by rcases hk with rfl | rfl | rfl <;> exact ⟨rfl, rfl⟩⟩

end Verif.Reflected
