import Verif.TypedArrays.Model
import Batteries.Lean.Except
import Mathlib.Tactic.NormNum
/-
Where arrays with symbolic items do what Python's do, and where not.
-/
namespace Verif.TypedArrays

/-- The bounds are within the range of the C type. -/
theorem bounds_in_range (c : Code) (z : ℤ) (h : (bounds c).1 ≤ z ∧ z < (bounds c).2) : InRange c z := by
  cases c <;> simp [bounds, InRange, signed, bits] at h ⊢ <;> omega

/-- For `b B h H q Q`, the bounds are the range. -/
theorem bounds_exact (c : Code) (hc : c ≠ .i ∧ c ≠ .uI ∧ c ≠ .l ∧ c ≠ .uL) (z : ℤ) : (bounds c).1 ≤ z ∧ z < (bounds c).2 ↔ InRange c z := by
  refine ⟨bounds_in_range c z, fun h => ?_⟩
  cases c <;> simp [bounds, InRange, signed, bits] at h hc ⊢ <;> omega

/-- No floats among the items. -/
def NoFloats (xs : List Item) : Prop := ∀ z, Item.float z ∉ xs

theorem check_exact (c : Code) (hc : c ≠ .i ∧ c ≠ .uI ∧ c ≠ .l ∧ c ≠ .uL) (x : Item) (hx : ∀ z, x ≠ .float z) :
    check c x = (pyItem c x).map Item.int := by
  cases x with
  | int z =>
    simp only [check, pyItem]
    by_cases h : InRange c z
    · rw [if_pos h, if_pos ((bounds_exact c hc z).mpr h)]; rfl
    · rw [if_neg h, if_neg fun g => h ((bounds_exact c hc z).mp g)]; rfl
  | float z => exact absurd rfl (hx z)
  | other => rfl

theorem checkAll_exact (c : Code) (hc : c ≠ .i ∧ c ≠ .uI ∧ c ≠ .l ∧ c ≠ .uL) : ∀ xs : List Item, NoFloats xs →
    checkAll c xs = (pyAll c xs).map (List.map Item.int)
  | [], _ => rfl
  | x :: xs, h => by
    have h1 := check_exact c hc x fun z e => h z (by rw [e]; exact List.mem_cons_self)
    have h2 := checkAll_exact c hc xs fun z hz => h z (List.mem_cons_of_mem _ hz)
    simp only [checkAll, pyAll, h1, h2]
    cases pyItem c x with
    | error e => rfl
    | ok z => cases pyAll c xs <;> rfl

/-- `array(code, items)` does what Python's does for `b B h H q Q` and items that are no floats. -/
theorem make_partial (c : Code) (hc : c ≠ .i ∧ c ≠ .uI ∧ c ≠ .l ∧ c ≠ .uL) (xs : List Item) (h : NoFloats xs) :
    make c xs = (pyAll c xs).map (List.map Item.int) := checkAll_exact c hc xs h

example : make .uB [.int 255, .int 0] = .ok [.int 255, .int 0] ∧ make .uB [.int 255, .int 256] = .error .overflow ∧ make .b [.int 3, .other] = .error .type := by
  decide +kernel

theorem pyExtend_ok (c : Code) : ∀ (xs : List Item) (a zs : List ℤ), pyAll c xs = .ok zs → pyExtend c a xs = (a ++ zs, none)
  | [], a, zs, h => by
    simp only [pyAll] at h
    injection h with h
    subst h
    simp [pyExtend]
  | x :: xs, a, zs, h => by
    simp only [pyAll] at h
    simp only [pyExtend]
    cases hx : pyItem c x with
    | error e => simp only [hx] at h; cases h
    | ok z =>
      simp only [hx] at h
      cases hr : pyAll c xs with
      | error e => simp only [hr] at h; cases h
      | ok ws =>
        simp only [hr] at h
        injection h with h
        subst h
        simp only
        rw [pyExtend_ok c xs (a ++ [z]) ws hr]
        simp

/-- An operation that the theorem below is for: no floats, items to insert or assign are in range, and all items to extend by are. -/
def Good (c : Code) : Op → Prop
  | .append x => ∀ z, x ≠ .float z
  | .extend xs => ∃ zs, pyAll c xs = .ok zs
  | .fromlist xs => NoFloats xs
  | .insert _ x => ∃ z, pyItem c x = .ok z
  | .set _ x => ∃ z, pyItem c x = .ok z
  | .pop => True
  | .reverse => True

theorem item_of_ok (c : Code) (x : Item) (z : ℤ) (h : pyItem c x = .ok z) : x = .int z ∧ InRange c z := by
  cases x with
  | int w =>
    simp only [pyItem] at h
    by_cases hw : InRange c w
    · rw [if_pos hw] at h; injection h with h; exact ⟨by rw [h], h ▸ hw⟩
    · rw [if_neg hw] at h; cases h
  | float w => cases h
  | other => cases h

theorem noFloats_of_ok (c : Code) : ∀ (xs : List Item) (zs : List ℤ), pyAll c xs = .ok zs → NoFloats xs
  | [], _, _ => by intro z hz; cases hz
  | x :: xs, zs, h => by
    simp only [pyAll] at h
    cases hx : pyItem c x with
    | error e => simp only [hx] at h; cases h
    | ok z =>
      simp only [hx] at h
      cases hr : pyAll c xs with
      | error e => simp only [hr] at h; cases h
      | ok ws =>
        intro w hw
        rcases List.mem_cons.mp hw with e | e
        · rw [← e] at hx; cases hx
        · exact noFloats_of_ok c xs ws hr w e

/-- One operation, for `b B h H q Q`: the items and the exception are Python's. -/
theorem run_partial (c : Code) (hc : c ≠ .i ∧ c ≠ .uI ∧ c ≠ .l ∧ c ≠ .uL) (a : List ℤ) (op : Op) (hg : Good c op) :
    run c (a.map Item.int) op = ((pyRun c a op).1.map Item.int, (pyRun c a op).2) := by
  cases op with
  | append x =>
    simp only [run, pyRun, check_exact c hc x hg]
    cases pyItem c x with
    | ok z => simp [Except.map]
    | error e => rfl
  | extend xs =>
    obtain ⟨zs, hz⟩ := hg
    simp only [run, pyRun, checkAll_exact c hc xs (noFloats_of_ok c xs zs hz), hz, pyExtend_ok c xs a zs hz]
    simp [Except.map]
  | fromlist xs =>
    simp only [run, pyRun, checkAll_exact c hc xs hg]
    cases pyAll c xs with
    | ok z => simp [Except.map]
    | error e => rfl
  | insert k x =>
    obtain ⟨z, hz⟩ := hg
    obtain ⟨rfl, _⟩ := item_of_ok c x z hz
    simp only [run, pyRun, hz]
    simp [List.map_take, List.map_drop]
  | set k x =>
    obtain ⟨z, hz⟩ := hg
    obtain ⟨rfl, _⟩ := item_of_ok c x z hz
    simp only [run, pyRun, hz, List.length_map]
    by_cases hk : k < a.length
    · simp only [if_pos hk]; simp [List.map_set]
    · simp only [if_neg hk]
  | pop =>
    simp only [run, pyRun, List.map_eq_nil_iff]
    by_cases ha : a = []
    · simp only [if_pos ha]
    · simp only [if_neg ha]; simp [List.map_dropLast]
  | reverse => simp [run, pyRun]

/-- A program of operations; exceptions are caught. -/
def pyProgram (c : Code) (a : List ℤ) (ops : List Op) : List ℤ := ops.foldl (fun a op => (pyRun c a op).1) a
@[inherit_doc pyProgram] def program (c : Code) (a : List Item) (ops : List Op) : List Item := ops.foldl (fun a op => (run c a op).1) a

/-- All programs of such operations end with Python's items, and realizing the array gives these. -/
theorem program_partial (c : Code) (hc : c ≠ .i ∧ c ≠ .uI ∧ c ≠ .l ∧ c ≠ .uL) : ∀ (ops : List Op) (a : List ℤ), (∀ op ∈ ops, Good c op) →
    program c (a.map Item.int) ops = (pyProgram c a ops).map Item.int
  | [], _, _ => rfl
  | op :: ops, a, h => by
    have h1 := run_partial c hc a op (h op List.mem_cons_self)
    have h2 := program_partial c hc ops (pyRun c a op).1 fun o ho => h o (List.mem_cons_of_mem _ ho)
    simp only [program, pyProgram, List.foldl_cons, h1] at h2 ⊢
    exact h2

example : program .uB ([1, 2].map Item.int) [.append (.int 255), .append (.int 256), .insert 0 (.int 7), .set 1 (.int 9), .reverse] =
    [255, 2, 9, 7].map Item.int := by decide +kernel

/-- Whatever integers are appended, or taken from lists or iterables, or are in an input: what is accepted is in range, for all type codes. -/
theorem accepted_in_range (c : Code) (z : ℤ) (y : Item) (h : check c (.int z) = .ok y) : y = .int z ∧ InRange c z := by
  simp only [check] at h
  by_cases hb : (bounds c).1 ≤ z ∧ z < (bounds c).2
  · rw [if_pos hb] at h; injection h with h; exact ⟨h.symm, bounds_in_range c z hb⟩
  · rw [if_neg hb] at h; cases h

/-- Inputs are arrays that Python can make. -/
theorem input_valid (c : Code) : ∀ zs : List ℤ, input c zs = true → pyAll c (zs.map Item.int) = .ok zs
  | [], _ => rfl
  | z :: zs, h => by
    simp only [input, List.all_cons, Bool.and_eq_true, decide_eq_true_eq] at h
    have ih := input_valid c zs h.2
    simp only [List.map_cons, pyAll, pyItem, if_pos (bounds_in_range c z h.1), ih]

example : input .uI [65535, 0] = true ∧ pyAll .uI ([65535, 0].map Item.int) = .ok [65535, 0] := by decide +kernel

/-- Disagreement: the bounds for `i I l L` are narrower than the C types: valid items are refused, and are not among the inputs. -/
theorem narrow_codes (c : Code) (hc : c = .i ∨ c = .uI ∨ c = .l ∨ c = .uL) :
    ∃ z, pyItem c (.int z) = .ok z ∧ check c (.int z) = .error .overflow ∧ input c [z] = false := by
  rcases hc with rfl | rfl | rfl | rfl
  · exact ⟨40000, by decide +kernel⟩
  · exact ⟨70000, by decide +kernel⟩
  · exact ⟨3000000000, by decide +kernel⟩
  · exact ⟨5000000000, by decide +kernel⟩

/-- Disagreement: item assignment and `insert` take anything; realizing the array, for example to return it, fails then. -/
theorem assignment_unchecked (c : Code) (x : Item) (e : Err) (hx : pyItem c x = .error e) (z : ℤ) :
    run c [.int z] (.set 0 x) = ([x], none) ∧ pyRun c [z] (.set 0 x) = ([z], some e) ∧
    run c [] (.insert 0 x) = ([x], none) ∧ pyRun c [] (.insert 0 x) = ([], some e) ∧ realize c [x] = .error e := by
  refine ⟨rfl, ?_, rfl, ?_, ?_⟩
  · simp [pyRun, hx]
  · simp [pyRun, hx]
  · simp [realize, pyAll, hx]

example : run .uB [.int 1] (.set 0 (.int 300)) = ([.int 300], none) ∧ pyRun .uB [1] (.set 0 (.int 300)) = ([1], some .overflow) :=
  let h := assignment_unchecked .uB (.int 300) .overflow (by decide +kernel) 1
  ⟨h.1, h.2.1⟩

/-- Disagreement: floats that are within the bounds are taken. -/
theorem floats_taken (c : Code) : make c [.float 1] = .ok [.float 1] ∧ pyAll c [.float 1] = .error .type ∧ realize c [.float 1] = .error .type := by
  refine ⟨?_, rfl, rfl⟩
  cases c <;> decide +kernel

/-- Disagreement: if `extend` fails, Python has added the items before. -/
theorem extend_prefix (c : Code) (a : List ℤ) (z : ℤ) (hz : (bounds c).1 ≤ z ∧ z < (bounds c).2) :
    run c (a.map Item.int) (.extend [.int z, .other]) = (a.map Item.int, some .type) ∧
    pyRun c a (.extend [.int z, .other]) = (a ++ [z], some .type) := by
  constructor
  · simp [run, checkAll, check, hz]
  · simp [pyRun, pyExtend, pyItem, if_pos (bounds_in_range c z hz)]

/-- Arrays are equal if their items are, as long as neither or both had methods like `tobytes` called. -/
theorem eq_partial (zs ws : List ℤ) : eq (.list zs) (.list ws) = decide (zs = ws) ∧ eq (.array zs) (.array ws) = decide (zs = ws) := ⟨rfl, rfl⟩

/-- Disagreement: after `tobytes` an array is not equal to any array that it was not called on, in either order. -/
theorem tobytes_changes_eq (zs ws : List ℤ) : eq (tobytes (.list zs)) (.list ws) = false ∧ eq (.list ws) (tobytes (.list zs)) = false := ⟨rfl, rfl⟩

example : eq (.list [1]) (.list [1]) = true ∧ eq (tobytes (.list [1])) (.list [1]) = false := ⟨rfl, rfl⟩

end Verif.TypedArrays
