import Verif.Protocols.Model
import Mathlib.Tactic.NormNum
import Mathlib.Tactic.SplitIfs
import Batteries.Lean.Except
/-
What programs see of `len`, `hash`, `repr`, `str`, `isinstance`, `sorted`, `setattr` and `getattr` in CrossHair, for objects of their own classes.
-/
namespace Verif.Protocols

theorem searchMro_found (w : World) (name : Name) (cs : List Nat) : searchMro w name cs = cs.findSome? fun c => w.attrs c name := by
  induction cs with
  | nil => rfl
  | cons c cs ih =>
    simp only [searchMro, List.findSome?_cons]
    cases w.attrs c name with
    | none => exact ih
    | some a => rfl

/-- What has the class of an object in it, and nothing on the object itself, is called as Python calls it. -/
theorem callAttr_special (w : World) (o : Nat) (name : Name) (hown : w.own o name = none) (hhook : w.found o name = none → w.hook o name = none) :
    callAttr w o name = if (w.found o name).isSome then some (special w o name) else none := by
  have hs : searchMro w name (w.mro (w.cls o)) = w.found o name := searchMro_found w name _
  simp only [callAttr, special, hown, hs]
  cases h : w.found o name with
  | none => simp [hhook h]
  | some a => cases a <;> simp

/-- A program with one class (1, below 0) for these examples: the methods of the class, what object 7 has itself, and what `__getattr__` gives. -/
def sample (attrs own hook : Name → Option Attr) : World where
  mro c := if c = 1 then [1, 0] else [c]
  attrs c n := if c = 1 then attrs n else if c = 0 then match n with
    | .hash => some (.fn fun o => .ok (.int o))
    | .repr | .str => some (.fn fun _ => .ok (.text "<object>"))
    | _ => none else none
  cls _ := 1
  own _ := own
  hook _ := hook
  claims _ := 1
  instCheck _ := none
  subCheck _ := none
  yields _ := [3, 1, 2]
  byIndex _ := [5, 4]

/-- `none` everywhere except for one name. -/
def one (n : Name) (a : Attr) : Name → Option Attr := fun m => if m = n then some a else none

/-! ## `len` -/

/-- `len(o)` is what Python computes exactly if `__len__`, where it returns, returns an integer from 0 to `sys.maxsize`; for objects that do not
carry an attribute `__len__` of their own and whose class does not make one up. -/
theorem len_partial (w : World) (o : Nat) (hown : w.own o .len = none) (hhook : w.found o .len = none → w.hook o .len = none) :
    symLen w o = pyLen w o ↔ ∀ v, special w o .len = .ok v → ∃ n : ℤ, v = .int n ∧ 0 ≤ n ∧ n < 2 ^ 63 := by
  have hc := callAttr_special w o .len hown hhook
  have hraw : symLen w o = special w o .len := by
    simp only [symLen, hc]
    cases h : w.found o .len with
    | none => simp [special, h]
    | some a => simp
  rw [hraw]
  simp only [pyLen]
  cases hs : special w o .len with
  | error e => simp
  | ok v =>
    cases v with
    | int n =>
      by_cases h1 : n < 0
      · simp only [if_pos h1]
        constructor
        · intro h; cases h
        · intro h
          obtain ⟨m, hm, h0, _⟩ := h _ rfl
          cases hm
          omega
      · by_cases h2 : (2 : ℤ) ^ 63 ≤ n
        · simp only [if_neg h1, if_pos h2]
          constructor
          · intro h; cases h
          · intro h
            obtain ⟨m, hm, _, h0⟩ := h _ rfl
            cases hm
            omega
        · simp only [if_neg h1, if_neg h2]
          constructor
          · intro _ v hv
            cases hv
            exact ⟨n, rfl, by omega, by omega⟩
          · intro _; trivial
    | text s =>
      constructor
      · intro h; cases h
      · intro h
        obtain ⟨m, hm, _⟩ := h _ rfl
        cases hm
    | obj k =>
      constructor
      · intro h; cases h
      · intro h
        obtain ⟨m, hm, _⟩ := h _ rfl
        cases hm

example : symLen (sample (one .len (.fn fun o => .ok (.int o))) (fun _ => none) (fun _ => none)) 7 = .ok (.int 7) := by decide +kernel

/-- Disagreement: a negative length is given as it is, where Python raises `ValueError`; what is no integer is given as well. -/
theorem len_negative : ∃ w : World, ∃ o : Nat, symLen w o = .ok (.int (-1)) ∧ pyLen w o = .error .value ∧
    ∃ w' : World, symLen w' o = .ok (.text "many") ∧ pyLen w' o = .error .type :=
  ⟨sample (one .len (.fn fun _ => .ok (.int (-1)))) (fun _ => none) (fun _ => none), 7, by decide +kernel, by decide +kernel,
    sample (one .len (.fn fun _ => .ok (.text "many"))) (fun _ => none) (fun _ => none), by decide +kernel, by decide +kernel⟩

/-- Disagreement: a `__len__` that was set on the object, or that `__getattr__` makes up, counts; for Python the object has no `len()`. -/
theorem len_of_instance : ∃ w w' : World, ∃ o : Nat, symLen w o = .ok (.int 3) ∧ pyLen w o = .error .type ∧
    symLen w' o = .ok (.int 3) ∧ pyLen w' o = .error .type :=
  ⟨sample (fun _ => none) (one .len (.static (.ok (.int 3)))) (fun _ => none),
    sample (fun _ => none) (fun _ => none) (one .len (.static (.ok (.int 3)))), 7, by decide +kernel, by decide +kernel, by decide +kernel,
    by decide +kernel⟩

/-! ## `hash` -/

theorem bigHash_small (n : ℤ) (h : ¬(-2 ^ 63 ≤ n ∧ n < 2 ^ 63)) : bigHash n ≠ n ∧ bigHash n ≠ -1 ∨ bigHash n = -1 ∧ n ≠ -2 := by
  have hlt := Nat.mod_lt n.natAbs (show 2 ^ 61 - 1 > 0 by norm_num)
  have hne : bigHash n ≠ n := by
    unfold bigHash
    generalize n.natAbs % (2 ^ 61 - 1) = m at hlt
    split <;> omega
  by_cases h1 : bigHash n = -1
  · exact Or.inr ⟨h1, by omega⟩
  · exact Or.inl ⟨hne, h1⟩

/-- `hash(o)` is what Python computes exactly if `__hash__`, where it returns, returns an integer of 64 bits other than -1. -/
theorem hash_partial (w : World) (hw : w.Rooted) (o : Nat) (hst : ∀ a, w.found o .hash ≠ some (.static a)) :
    symHash w o = pyHash w o ↔ ∀ v, special w o .hash = .ok v → ∃ n : ℤ, v = .int n ∧ -2 ^ 63 ≤ n ∧ n < 2 ^ 63 ∧ n ≠ -1 := by
  have hs : searchMro w .hash (w.mro (w.cls o)) = w.found o .hash := searchMro_found w .hash _
  have hraw : symHash w o = special w o .hash := by
    simp only [symHash, isHashable, invokeDunder, hs, special]
    cases h : w.found o .hash with
    | none => exact absurd h (hw o).1
    | some a =>
      cases a with
      | fn f => simp
      | static a => exact absurd h (hst a)
      | nothing => simp
  rw [hraw]
  simp only [pyHash]
  cases special w o .hash with
  | error e => simp
  | ok v =>
    cases v with
    | int n =>
      by_cases h1 : -2 ^ 63 ≤ n ∧ n < 2 ^ 63
      · simp only [if_pos h1]
        by_cases h2 : n = -1
        · simp only [if_pos h2]
          constructor
          · intro h
            injection h with h
            injection h with h
            omega
          · intro h
            obtain ⟨m, hm, _, _, h0⟩ := h _ rfl
            cases hm
            omega
        · simp only [if_neg h2]
          constructor
          · intro _ v hv
            cases hv
            exact ⟨n, rfl, h1.1, h1.2, h2⟩
          · intro _; trivial
      · simp only [if_neg h1]
        constructor
        · intro h
          injection h with h
          injection h with h
          rcases bigHash_small n h1 with ⟨ha, hb⟩ | ⟨ha, hb⟩
          · rw [if_neg hb] at h; exact absurd h.symm ha
          · rw [if_pos ha] at h; exact absurd h hb
        · intro h
          obtain ⟨m, hm, h2, h3, _⟩ := h _ rfl
          cases hm
          exact absurd ⟨h2, h3⟩ h1
    | text s =>
      constructor
      · intro h; cases h
      · intro h
        obtain ⟨m, hm, _⟩ := h _ rfl
        cases hm
    | obj k =>
      constructor
      · intro h; cases h
      · intro h
        obtain ⟨m, hm, _⟩ := h _ rfl
        cases hm

theorem sample_rooted (attrs own hook : Name → Option Attr) : (sample attrs own hook).Rooted := by
  intro o
  refine ⟨?_, ?_, ?_⟩ <;> simp only [World.found, sample, if_true, List.findSome?_cons, List.findSome?_nil, ne_eq]
  · cases attrs .hash <;> simp
  · cases attrs .repr <;> simp
  · cases attrs .str <;> simp

example : symHash (sample (one .hash (.fn fun _ => .ok (.int 12))) (fun _ => none) (fun _ => none)) 7 = .ok (.int 12) := by decide +kernel
example : symHash (sample (one .hash .nothing) (fun _ => none) (fun _ => none)) 7 = .error .type := by decide +kernel

/-- Disagreement: `hash` gives -1, and numbers of more than 64 bits, where Python gives -2, and a number made smaller. -/
theorem hash_raw : ∃ w w' : World, ∃ o : Nat, symHash w o = .ok (.int (-1)) ∧ pyHash w o = .ok (.int (-2)) ∧
    symHash w' o = .ok (.int (2 ^ 64)) ∧ pyHash w' o = .ok (.int 8) :=
  ⟨sample (one .hash (.fn fun _ => .ok (.int (-1)))) (fun _ => none) (fun _ => none),
    sample (one .hash (.fn fun _ => .ok (.int (2 ^ 64)))) (fun _ => none) (fun _ => none), 7, by decide +kernel, by decide +kernel, by decide +kernel,
    by decide +kernel⟩

/-! ## `repr` and `str` -/

/-- `repr(o)` and `str(o)` are what Python computes exactly if `__repr__` or `__str__`, where it returns, returns a text. -/
theorem text_partial (w : World) (hw : w.Rooted) (o : Nat) (name : Name) (hn : name = .repr ∨ name = .str)
    (hst : ∀ a, w.found o name ≠ some (.static a)) :
    symText w o name = pyText w o name ↔ ∀ v, special w o name = .ok v → ∃ s : String, v = .text s := by
  have hs : searchMro w name (w.mro (w.cls o)) = w.found o name := searchMro_found w name _
  have hr : w.found o name ≠ none := by
    rcases hn with rfl | rfl
    · exact (hw o).2.1
    · exact (hw o).2.2
  have hraw : symText w o name = special w o name := by
    simp only [symText, invokeDunder, hs, special]
    cases h : w.found o name with
    | none => exact absurd h hr
    | some a =>
      cases a with
      | fn f => simp
      | static a => exact absurd h (hst a)
      | nothing => simp
  rw [hraw]
  simp only [pyText]
  cases special w o name with
  | error e => simp
  | ok v => cases v <;> simp

example : symText (sample (one .repr (.fn fun _ => .ok (.text "P()"))) (fun _ => none) (fun _ => none)) 7 .repr = .ok (.text "P()") := by
  decide +kernel

/-- Disagreement: what `__repr__` returns is given though it is no text, where Python raises `TypeError`. -/
theorem repr_no_text : ∃ w : World, w.Rooted ∧ ∃ o : Nat, symText w o .repr = .ok (.int 5) ∧ pyText w o .repr = .error .type :=
  ⟨sample (one .repr (.fn fun _ => .ok (.int 5))) (fun _ => none) (fun _ => none), sample_rooted _ _ _, 7, by decide +kernel, by decide +kernel⟩

/-- Disagreement: a `staticmethod` as `__str__` or `__hash__` is called with the object, and raises `TypeError`. -/
theorem static_fails : ∃ w : World, w.Rooted ∧ ∃ o : Nat, symText w o .str = .error .type ∧ pyText w o .str = .ok (.text "here") :=
  ⟨sample (one .str (.static (.ok (.text "here")))) (fun _ => none) (fun _ => none), sample_rooted _ _ _, 7, by decide +kernel, by decide +kernel⟩

/-! ## `isinstance` -/

/-- The checks of a class agree about an object: it has none, or both, which answer the same, and yes for objects of that very class. -/
def Agree (w : World) (o c : Nat) : Prop :=
  match w.instCheck c, w.subCheck c with
  | none, none => True
  | some i, some s => i o = s (w.cls o) ∧ (w.cls o = c → i o = .ok true)
  | _, _ => False

theorem agree_cls (w : World) (o c : Nat) (hc : w.claims o = w.cls o) (hself : w.cls o ∈ w.mro (w.cls o)) (ha : Agree w o c) :
    symIsSubclass w (w.cls o) (.cls c) = pyIsInstance w o (.cls c) := by
  simp only [symIsSubclass, pyIsInstance]
  unfold Agree at ha
  cases hi : w.instCheck c with
  | none =>
    cases hsc : w.subCheck c with
    | none =>
      by_cases h : w.cls o = c
      · simp only [if_pos h]
        rw [h] at hself ⊢
        simp [hself]
      · simp only [if_neg h, hc, Bool.or_self]
    | some s => simp only [hi, hsc] at ha
  | some i =>
    cases hsc : w.subCheck c with
    | none => simp only [hi, hsc] at ha
    | some s =>
      simp only [hi, hsc] at ha
      by_cases h : w.cls o = c
      · simp only [if_pos h]
        rw [← ha.1, ha.2 h]
      · simp only [if_neg h]
        exact ha.1.symm

mutual
theorem isinstance_rec (w : World) (o : Nat) (hc : w.claims o = w.cls o) (hself : w.cls o ∈ w.mro (w.cls o)) :
    ∀ t : Target, (∀ c, t.Has c → Agree w o c) → symIsSubclass w (w.cls o) t = pyIsInstance w o t
  | .cls c, h => agree_cls w o c hc hself (h c .here)
  | .tup ts, h => by
    rw [symIsSubclass, pyIsInstance]
    exact isinstance_any w o hc hself ts fun t ht c hh => h c (.inside t ts ht hh)
  | .junk, _ => by rw [symIsSubclass, pyIsInstance]
theorem isinstance_any (w : World) (o : Nat) (hc : w.claims o = w.cls o) (hself : w.cls o ∈ w.mro (w.cls o)) :
    ∀ ts : List Target, (∀ t ∈ ts, ∀ c, t.Has c → Agree w o c) → symAnySubclass w (w.cls o) ts = pyAnyInstance w o ts
  | [], _ => by rw [symAnySubclass, pyAnyInstance]
  | t :: ts, h => by
    rw [symAnySubclass, pyAnyInstance, isinstance_rec w o hc hself t (h t List.mem_cons_self)]
    have := isinstance_any w o hc hself ts fun t ht => h t (List.mem_cons_of_mem _ ht)
    cases pyIsInstance w o t with
    | error e => rfl
    | ok b =>
      cases b with
      | true => rfl
      | false => exact this
end

/-- `isinstance(o, t)` is what Python computes, for classes, tuples, and tuples in tuples, where the object does not claim to be of another class
and the classes' own checks of objects and of subclasses agree. -/
theorem isinstance_partial (w : World) (o : Nat) (t : Target) (hc : w.claims o = w.cls o) (hself : w.cls o ∈ w.mro (w.cls o))
    (h : ∀ c, t.Has c → Agree w o c) : symIsInstance w o t = pyIsInstance w o t := isinstance_rec w o hc hself t h

/-- A program with classes 0 (`object`), 1 and 2 below it, and object 7 of class 1. -/
def checks (claims : Nat) (inst sub : Option (Nat → Except Err Bool)) : World :=
  { sample (fun _ => none) (fun _ => none) (fun _ => none) with
    claims := fun _ => claims
    mro := fun c => if c = 0 then [0] else [c, 0]
    instCheck := fun c => if c = 2 then inst else none
    subCheck := fun c => if c = 2 then sub else none }

example : symIsInstance (checks 1 none none) 7 (.tup [.cls 2, .tup [.cls 3, .cls 0], .junk]) = .ok true := by rfl
example : symIsInstance (checks 1 (some fun _ => .ok true) (some fun _ => .ok true)) 7 (.cls 2) = .ok true := by rfl
example : Agree (checks 1 (some fun _ => .ok true) (some fun _ => .ok true)) 7 2 := ⟨rfl, fun _ => rfl⟩

/-- Disagreement: an object that claims to be of another class with `__class__` (as mocks with a `spec` do) is not an instance of it. -/
theorem claims_ignored : ∃ w : World, ∃ o c : Nat, symIsInstance w o (.cls c) = .ok false ∧ pyIsInstance w o (.cls c) = .ok true :=
  ⟨checks 2 none none, 7, 2, rfl, rfl⟩

/-- Disagreement: a class that checks objects but not classes: protocols with data members raise `TypeError`, and an `__instancecheck__` without
`__subclasscheck__` is not asked. -/
theorem instance_check_ignored : ∃ w w' : World, ∃ o c : Nat,
    symIsInstance w o (.cls c) = .error .type ∧ pyIsInstance w o (.cls c) = .ok true ∧
    symIsInstance w' o (.cls c) = .ok false ∧ pyIsInstance w' o (.cls c) = .ok true :=
  ⟨checks 1 (some fun _ => .ok true) (some fun _ => .error .type), checks 1 (some fun _ => .ok true) none, 7, 2, rfl, rfl, rfl, rfl⟩

/-! ## `sorted` -/

/-- `sorted(o)` gives what Python gives, for objects whose class has `__iter__`; `__iter__` is called a second time unless it fails. -/
theorem sorted_partial (w : World) (sort : List ℤ → List ℤ) (o : Nat) (hown : w.own o .iter = none) (hit : w.found o .iter ≠ none) :
    (symSorted w sort o).1 = (pySorted w sort o).1 ∧
    (symSorted w sort o).2 = (match (pySorted w sort o).1 with | .ok _ => 2 | .error _ => 1) := by
  have hs : searchMro w .iter (w.mro (w.cls o)) = w.found o .iter := searchMro_found w .iter _
  have hc := callAttr_special w o .iter hown fun h => absurd h hit
  cases hf : w.found o .iter with
  | none => exact absurd hf hit
  | some a =>
    have hp : iterProbe w o = (match special w o .iter with
        | .ok (.obj _) => (.ok true, 1) | .ok _ => (.ok false, 1) | .error .type => (.ok false, 1) | .error e => (.error e, 1)) := by
      simp only [iterProbe, hs, hf, special]
      cases a <;> rfl
    rw [hf] at hc
    simp only [Option.isSome_some, if_true] at hc
    simp only [symSorted, pySorted, hp, hf, hc]
    cases special w o .iter with
    | error e => cases e <;> exact ⟨rfl, rfl⟩
    | ok v => cases v <;> exact ⟨rfl, rfl⟩

example : symSorted (sample (one .iter (.fn fun _ => .ok (.obj 0))) (fun _ => none) (fun _ => none)) List.reverse 7 = (.ok [2, 1, 3], 2) := by rfl

/-- Disagreement: objects that are read by index, without `__iter__`, cannot be sorted: there is an `AttributeError`. -/
theorem sorted_by_index : ∃ w : World, ∃ o : Nat, symSorted w id o = (.error .attribute, 0) ∧ pySorted w id o = (.ok [5, 4], 0) :=
  ⟨sample (one .getitem (.fn fun _ => .ok (.int 0))) (fun _ => none) (fun _ => none), 7, rfl, rfl⟩

/-! ## `setattr` and `getattr` -/

/-- `setattr` with a name that is not symbolic, and `getattr` with any name, do what Python does. -/
theorem attributes_partial (st : Store) (o : Nat) (name : Label) (v : ℤ) (default : Option ℤ) :
    (name.symbolic = false → symSetattr st o name v = pySetattr st o name v) ∧ symGetattr st o name default = pyGetattr st o name default := by
  constructor
  · intro h
    simp only [symSetattr, pySetattr, h, Bool.false_eq_true, if_false]
    congr 1
    funext p m
    by_cases h1 : p = o <;> by_cases h2 : m = name.text <;> simp [h1, h2]
  · simp only [symGetattr, pyGetattr]
    cases default <;> cases st o name.text <;> rfl

/-- What was set is read back, by a symbolic name too, and nothing else changes. -/
theorem set_then_get (st st' : Store) (o : Nat) (name : Label) (v : ℤ) (h : symSetattr st o name v = .ok st') (p : Nat) (m : Label)
    (default : Option ℤ) :
    symGetattr st' p m default = if p = o ∧ m.text = name.text then .ok v else symGetattr st p m default := by
  unfold symSetattr at h
  cases hn : name.symbolic with
  | true => simp [hn] at h
  | false =>
    simp only [hn, Bool.false_eq_true, if_false] at h
    injection h with h
    subst h
    by_cases h1 : p = o <;> by_cases h2 : m.text = name.text <;> cases default <;> simp [symGetattr, h1, h2]

example : (symSetattr (fun _ _ => none) 3 ⟨"size", false⟩ 8).toOption.map (fun st => symGetattr st 3 ⟨"size", true⟩ none) = some (.ok 8) := by
  rfl

/-- Disagreement: `setattr` with a symbolic name always raises `TypeError`. -/
theorem setattr_symbolic (st : Store) (o : Nat) (text : String) (v : ℤ) :
    symSetattr st o ⟨text, true⟩ v = .error .type ∧ ∃ st', pySetattr st o ⟨text, true⟩ v = .ok st' := ⟨rfl, _, rfl⟩

end Verif.Protocols
