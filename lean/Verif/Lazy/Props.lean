import Verif.Lazy.Model
import Batteries.Lean.Except
import Mathlib.Data.List.Basic
/-
Theorems: functions given as arguments go through their results, and the code that is shown for them does the same; copies and comparisons
of such functions; copies of objects of unknown type.
-/
namespace Verif.Lazy

variable {V : Type}

theorem call_ok (f : Fn V) (h : f.values ≠ []) :
    ∃ v f', f.call = .ok (v, f') ∧ result f.values f.idx = some v ∧ f'.values = f.values ∧ f'.idx = (if f.idx < f.values.length then f.idx + 1 else f.idx) := by
  have hl : 0 < f.values.length := List.length_pos_iff.2 h
  unfold Fn.call
  by_cases hi : f.idx ≥ f.values.length
  · rw [if_pos hi, List.getLast?_eq_getElem?]
    have : f.values.length - 1 < f.values.length := by omega
    rw [List.getElem?_eq_getElem this]
    refine ⟨_, _, rfl, ?_, rfl, by rw [if_neg (by omega)]⟩
    unfold result
    rw [Nat.min_eq_right (by omega), List.getElem?_eq_getElem this]
  · rw [if_neg hi]
    have hi : f.idx < f.values.length := by omega
    rw [List.getElem?_eq_getElem hi]
    refine ⟨_, _, rfl, ?_, rfl, by rw [if_pos hi]⟩
    unfold result
    rw [Nat.min_eq_left (by omega), List.getElem?_eq_getElem hi]

theorem results_ok (f : Fn V) (h : f.values ≠ []) (n : Nat) :
    ∃ l, f.results n = .ok l ∧ l.map some = (List.range n).map fun i => result f.values (f.idx + i) := by
  induction n generalizing f with
  | zero => exact ⟨[], rfl, rfl⟩
  | succ n ih =>
    obtain ⟨v, f', h1, h2, h3, h4⟩ := call_ok f h
    obtain ⟨l, h5, h6⟩ := ih f' (by rw [h3]; exact h)
    refine ⟨v :: l, ?_, ?_⟩
    · simp only [Fn.results, h1, h5]
    · rw [List.range_succ_eq_map, List.map_cons, List.map_cons, h6, h3, List.map_map]
      congr 1
      · exact h2.symm
      · apply List.map_congr_left
        intro i _
        show result f.values (f'.idx + i) = result f.values (f.idx + (i + 1))
        rw [h4]
        unfold result
        split
        · congr 1; omega
        · congr 1; omega

theorem popResults_ok (x : List V) (h : x ≠ []) (n : Nat) : popResults x n = (List.range n).map fun i => result x i := by
  induction n generalizing x with
  | zero => rfl
  | succ n ih =>
    rw [List.range_succ_eq_map, List.map_cons, List.map_map]
    match x, h with
    | [v], _ =>
      simp only [popResults, popCall]
      rw [ih [v] (by simp)]
      congr 1
      apply List.map_congr_left
      intro i _
      simp [result]
    | v :: w :: r, _ =>
      simp only [popResults, popCall]
      rw [ih (w :: r) (by simp)]
      congr 1
      apply List.map_congr_left
      intro i _
      show result (w :: r) i = result (v :: w :: r) (i + 1)
      unfold result
      have : min (i + 1) ((v :: w :: r).length - 1) = min i ((w :: r).length - 1) + 1 := by simp only [List.length_cons]; omega
      rw [this]
      rfl

/-! ### C241 -/

/-- A function that is made up for an argument gives its values one after the other, and then always the last one, whatever it is called
with. -/
theorem call_results (values : List V) (f : Fn V) (h : Fn.make values = .ok f) (n : Nat) :
    ∃ l, f.results n = .ok l ∧ l.map some = (List.range n).map (result values) := by
  unfold Fn.make at h
  split at h
  · injection h with h
    subst h
    have := results_ok ⟨values, 0⟩ (by intro e; simp only at e; subst e; simp at *) n
    simpa using this
  · cases h

example : (Fn.results ⟨[1, 2, 3], 0⟩ 5) = .ok [1, 2, 3, 3, 3] ∧ (Fn.make ([] : List Nat)) = .error .assertionError := by decide +kernel

theorem mapM_repr (eval : String → Option V) (repr : V → String) (he : ∀ v, eval (repr v) = some v) (l : List V) :
    (l.map repr).mapM eval = some l := by
  induction l with
  | nil => rfl
  | cons a r ih => simp [List.mapM_cons, he, ih]

/-- The code that is shown for a function, when evaluated, gives the same results in all calls, if the code of its values is shown by `repr`
and evaluates to them, and unless the function has just one value that is atomic and shown otherwise by `str`. -/
theorem shown_behaves_partial (atomic : V → Bool) (str repr : V → String) (eval : String → Option V) (he : ∀ v, eval (repr v) = some v)
    (values : List V) (f : Fn V) (h : Fn.make values = .ok f) (hs : ∀ v, values = [v] → atomic v = true → str v = repr v) (n : Nat) :
    ∃ l, f.results n = .ok l ∧ (f.repr atomic str repr).results eval n = some (l.map some) := by
  obtain ⟨l, h1, h2⟩ := call_results values f h n
  refine ⟨l, h1, ?_⟩
  rw [h2]
  have hne : values ≠ [] := by rintro rfl; simp [Fn.make] at h
  have hf : f.values = values := by
    unfold Fn.make at h
    split at h
    · injection h with h; rw [← h]
    · cases h
  have hpop : ∀ l : List V, l ≠ [] → Shown.results eval n (.popping (l.map repr)) = some ((List.range n).map (result l)) := by
    intro l hl
    simp only [Shown.results, mapM_repr eval repr he l, Option.map_some]
    rw [popResults_ok l hl]
  unfold Fn.repr
  rw [hf]
  match values, hne, hs with
  | [v], _, hs =>
    dsimp only
    split
    · rename_i ha
      rw [hs v rfl ha]
      simp only [Shown.results, he, Option.map_some]
      congr 1
      symm
      rw [List.eq_replicate_iff]
      refine ⟨by simp, ?_⟩
      intro b hb
      obtain ⟨i, _, rfl⟩ := List.mem_map.1 hb
      simp [result]
    · exact hpop [v] (by simp)
  | v :: w :: r, _, _ => exact hpop (v :: w :: r) (by simp)

/-- Values for an example: texts. -/
def showStr (s : String) : String := s
def showRepr (s : String) : String := "'" ++ s ++ "'"
/-- Evaluates a text in quotes (as far as the example needs it). -/
def evalQuoted (s : String) : Option String :=
  match s.toList with
  | '\'' :: r => if r.getLast? = some '\'' then some (String.ofList r.dropLast) else none
  | _ => none

theorem evalQuoted_repr (v : String) : evalQuoted (showRepr v) = some v := by
  unfold evalQuoted showRepr
  have : ("'" ++ v ++ "'").toList = '\'' :: (v.toList ++ ['\'']) := by simp
  rw [this]
  simp

example : (Fn.repr (fun _ => true) showStr showRepr ⟨["a", "b"], 0⟩) = .popping ["'a'", "'b'"] ∧
    (Shown.popping ["'a'", "'b'"]).results evalQuoted 3 = some [some "a", some "b", some "b"] := by decide +kernel

example : ∃ l, (⟨["a", "b"], 0⟩ : Fn String).results 3 = .ok l ∧
    ((⟨["a", "b"], 0⟩ : Fn String).repr (fun _ => true) showStr showRepr).results evalQuoted 3 = some (l.map some) :=
  shown_behaves_partial _ _ _ _ evalQuoted_repr ["a", "b"] _ rfl (by simp) 3

/-- Disagreement: a function whose only value is the text `abc` is shown as `lambda *a: abc`; that is no text. -/
theorem shown_text : (Fn.repr (fun _ => true) showStr showRepr ⟨["abc"], 0⟩) = .constant "abc" ∧
    (Shown.constant "abc").results evalQuoted 1 = none := by decide +kernel

/-! ### C242 -/

/-- A copy gives what the function would have given, if not all of its values have been used. -/
theorem copy_behaves_partial (f : Fn V) (h : f.idx < f.values.length) (n : Nat) :
    ∃ g, f.copy = .ok g ∧ g.results n = f.results n := by
  have hd : f.values.drop f.idx ≠ [] := by
    intro e
    have := congrArg List.length e
    simp at this
    omega
  refine ⟨⟨f.values.drop f.idx, 0⟩, ?_, ?_⟩
  · unfold Fn.copy Fn.make
    rw [if_pos (List.length_pos_iff.2 hd)]
  · obtain ⟨l, h1, h2⟩ := results_ok ⟨f.values.drop f.idx, 0⟩ hd n
    obtain ⟨l', h3, h4⟩ := results_ok f (by rintro e; rw [e] at h; simp at h) n
    rw [h1, h3]
    congr 1
    have : l.map some = l'.map some := by
      rw [h2, h4]
      apply List.map_congr_left
      intro i _
      unfold result
      dsimp only
      rw [List.getElem?_drop, List.length_drop]
      congr 1
      omega
    exact List.map_injective_iff.2 (fun a b h => Option.some.inj h) this

example : (Fn.copy ⟨[1, 2, 3], 1⟩) = .ok ⟨[2, 3], 0⟩ := by decide +kernel

/-- Disagreement: copying a function that has given all its values fails. -/
theorem copy_used_up (f : Fn V) (h : f.values.length ≤ f.idx) : f.copy = .error .assertionError := by
  unfold Fn.copy Fn.make
  rw [List.drop_eq_nil_of_le h]
  rfl

example : (Fn.copy ⟨[1, 2], 2⟩) = .error .assertionError := by decide +kernel

/-- Functions that have been called equally often and compare equal give the same results from then on. -/
theorem eq_behaves_partial [DecidableEq V] (f g : Fn V) (hi : f.idx = g.idx) (hf : f.idx < f.values.length) (h : f.eq g = true) (n : Nat) :
    f.results n = g.results n := by
  have hd : f.values.drop f.idx = g.values.drop g.idx := by rw [← hi]; simpa [Fn.eq] using h
  have hg : g.idx < g.values.length := by
    have := congrArg List.length hd
    simp at this
    omega
  obtain ⟨a, h1, h2⟩ := copy_behaves_partial f hf n
  obtain ⟨b, h3, h4⟩ := copy_behaves_partial g hg n
  rw [← h2, ← h4]
  unfold Fn.copy at h1 h3
  rw [hd, h3] at h1
  injection h1 with h1
  rw [h1]

example : (⟨[1, 2, 3], 1⟩ : Fn Nat).eq ⟨[7, 2, 3], 1⟩ = true := by decide +kernel

/-- Disagreement: a function that has been called compares equal to one with the same values that has not (the position of the other is not
looked at), though they go on differently. -/
theorem eq_moved : (⟨[1, 2, 3], 1⟩ : Fn Nat).eq ⟨[1, 2, 3], 0⟩ = true ∧
    (⟨[1, 2, 3], 1⟩ : Fn Nat).results 1 = .ok [2] ∧ (⟨[1, 2, 3], 0⟩ : Fn Nat).results 1 = .ok [1] := by decide +kernel

/-- Disagreement: a function that has been called and its copy, which goes on in the same way, do not compare equal. -/
theorem eq_copy : (⟨[1, 2, 3], 1⟩ : Fn Nat).copy = .ok ⟨[2, 3], 0⟩ ∧ (⟨[1, 2, 3], 1⟩ : Fn Nat).eq ⟨[2, 3], 0⟩ = false := by decide +kernel

/-! ### C243 -/

/-- The program appends some values. -/
def World.appends (w : World) (init : List Int) (vs : List Int) : World := vs.foldl (fun w v => w.append init v) w

/-- If the type of an object has been decided, a copy keeps the contents of the time of copying, whatever the program does with the object,
and the object has them, too, with the changes. -/
theorem deepcopy_keeps_partial (w : World) (r : Nat) (h : w.proxy.inner = some r) (hr : r < w.memory.length) (init : List Int) (vs : List Int) :
    (w.deepcopy.1.appends init vs).contents init w.deepcopy.2 = w.contents init .proxy ∧
    (w.deepcopy.1.appends init vs).contents init .proxy = w.contents init .proxy ++ vs := by
  have key : ∀ (vs : List Int) (w' : World), w'.proxy.inner = some r → w.memory.length < w'.memory.length → r < w.memory.length →
      (w'.appends init vs).contents init (.plain w.memory.length) = w'.contents init (.plain w.memory.length) ∧
      (w'.appends init vs).contents init .proxy = w'.contents init .proxy ++ vs := by
    intro vs
    induction vs with
    | nil => intro w' _ _ _; exact ⟨rfl, by simp [World.appends]⟩
    | cons v l ih =>
      intro w' h1 h2 h3
      have e : w'.append init v = { w' with memory := w'.memory.modify r (· ++ [v]) } := by simp only [World.append, World.materialize, h1]
      have step := ih (w'.append init v) (by rw [e]; exact h1) (by rw [e]; simpa using h2) h3
      have hlen : r < w'.memory.length := by omega
      refine ⟨?_, ?_⟩
      · show ((w'.append init v).appends init l).contents init _ = _
        rw [step.1, e]
        simp only [World.contents]
        rw [List.getElem?_modify]
        have : r ≠ w.memory.length := by omega
        simp [this]
      · show ((w'.append init v).appends init l).contents init _ = _
        rw [step.2, e]
        simp only [World.contents, World.materialize, h1]
        rw [List.getElem?_modify]
        simp [List.getElem?_eq_getElem hlen]
  have e : w.deepcopy = ({ w with memory := w.memory ++ [(w.memory[r]?).getD []] }, .plain w.memory.length) := by
    simp only [World.deepcopy, h]
  rw [e]
  obtain ⟨h1, h2⟩ := key vs { w with memory := w.memory ++ [(w.memory[r]?).getD []] } h (by simp) hr
  rw [h1, h2]
  simp only [World.contents, World.materialize, h]
  constructor
  · simp
  · rw [List.getElem?_append_left hr]

example : let w : World := ⟨⟨some 0⟩, [[1, 2]]⟩
    (w.deepcopy.1.appends [] [3]).contents [] w.deepcopy.2 = [1, 2] ∧ (w.deepcopy.1.appends [] [3]).contents [] .proxy = [1, 2, 3] := by decide +kernel

/-- Disagreement: a copy of an object whose type has not been decided yet is the object itself: whatever the program does then with the
object, the "copy" has the same contents, so that no change is ever noticed. -/
theorem deepcopy_undecided (w : World) (h : w.proxy.inner = none) (init vs : List Int) :
    (w.deepcopy.1.appends init vs).contents init w.deepcopy.2 = (w.deepcopy.1.appends init vs).contents init .proxy := by
  have e : w.deepcopy = (w, .proxy) := by simp only [World.deepcopy, h]
  rw [e]

example : let w : World := ⟨⟨none⟩, []⟩
    (w.deepcopy.1.appends [7] [3]).contents [7] w.deepcopy.2 = [7, 3] := by decide +kernel

end Verif.Lazy
