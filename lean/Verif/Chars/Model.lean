import Verif.Seq.Spec
/-
Model of `SymbolicBoundedIntTuple` (/repo/crosshair/libimpl/builtinslib.py:3048-3234), the lazily
created characters of a symbolic string.

A character variable is named after its number (`varname@k`), so it is represented by `k`.  `len`
is the value that the symbolic length has in the end: every question about the length
(`smt_fork` on `_len`, `realize(_len)`) is answered accordingly, because all answers of a path are
consistent with one value.
-/
namespace Verif.Chars

open Seq (Slice PyErr pyGet pySlice)

/-- `_created_vars` and `_new_var_queue` (builtinslib.py:3055-3056). -/
structure Chars where
  created : List Nat
  queue : List Nat
  deriving DecidableEq, Repr

/-- `xs[k:]` of a Python list. -/
def pyFrom (xs : List Nat) (k : Int) : List Nat :=
  xs.drop (if k < 0 then k + xs.length else k).toNat

/-- `xs[:k]` of a Python list. -/
def pyUpTo (xs : List Nat) (k : Int) : List Nat :=
  xs.take (if k < 0 then k + xs.length else k).toNat

/-- `_queue_up_to` (builtinslib.py:3098-3121): the bounds put on each variable are left out. -/
def queueUpTo (c : Chars) (size : Nat) : Chars :=
  let startingIdx := c.created.length + c.queue.length
  let numToAdd := size - startingIdx
  { c with queue := c.queue ++ (List.range numToAdd).map (startingIdx + ·) }

/-- `_create_up_to` (builtinslib.py:3085-3092). -/
def createUpTo (c : Chars) (size : Nat) : Chars :=
  let numToAdd : Int := size - c.created.length
  let c := if (c.queue.length : Int) < numToAdd then queueUpTo c size else c
  { created := c.created ++ pyUpTo c.queue numToAdd, queue := pyFrom c.queue numToAdd }

/-- `_get_smt_component_prefix` (builtinslib.py:3094-3100). -/
def componentPrefix (c : Chars) (n : Nat) : List Nat × Chars :=
  if n < c.created.length then (c.created.take n, c)
  else
    let c := queueUpTo c n
    (c.created ++ c.queue.take (n - c.created.length), c)

/-- What slicing gives: variables, or a lazy suffix (`SliceView(self, start, mylen)`). -/
inductive Sliced where
  | vars (xs : List Nat)
  | suffix (start : Nat)
  | whole
  deriving DecidableEq, Repr

/-- `__getitem__` with an integer (builtinslib.py:3222-3234). -/
def index (len : Nat) (c : Chars) (i : Int) : Except PyErr Nat × Chars :=
  let c := if i ≥ 0 ∧ (len : Int) > i then createUpTo c (i.toNat + 1) else createUpTo c len
  (pyGet c.created i, c)

/-- Failures of slicing: Python's, or CrossHair's internal error. -/
inductive Failure where
  | python (e : PyErr)
  | internal
  deriving DecidableEq, Repr

/-- `self._created_vars[start:stop:step]` (builtinslib.py:3221). -/
def createdSlice (c : Chars) (s : Slice) : Except Failure Sliced × Chars :=
  (match pySlice c.created s with
    | .error e => .error (.python e)
    | .ok xs => .ok (.vars xs), c)

/-- `__getitem__` with a slice (builtinslib.py:3178-3221). -/
def slice (len : Nat) (c : Chars) (s : Slice) : Except Failure Sliced × Chars :=
  if s = ⟨none, none, none⟩ then (.ok .whole, c)
  else if s.stop.any (fun t => decide (t > 0)) ∧ s.start.all (fun t => decide (0 ≤ t)) ∧
      (len : Int) ≥ s.stop.getD 0 then
    createdSlice (createUpTo c (s.stop.getD 0).toNat) s
  else if s.stop = none ∧ s.step = none ∧ s.start.all (fun t => decide (0 ≤ t ∧ (len : Int) ≥ t)) then
    (.ok (.suffix (s.start.getD 0).toNat), c)
  else
    let c := createUpTo c len
    if c.created.length > len then (.error .internal, c)
    else createdSlice c s

/-- `__iter__`, exhausted (builtinslib.py:3147-3161); `fuel` counts the remaining positions. -/
def iterFrom (c : Chars) (idx : Nat) : Nat → Except PyErr (List Nat) × Chars
  | 0 => (.ok [], c)
  | fuel + 1 =>
    let c := createUpTo c (idx + 1)
    match pyGet c.created (idx : Int) with
    | .error e => (.error e, c)
    | .ok v => match iterFrom c (idx + 1) fuel with
      | (.error e, c') => (.error e, c')
      | (.ok vs, c') => (.ok (v :: vs), c')

/-- `__ch_deep_realize__` (builtinslib.py:3058-3063). -/
def realize (len : Nat) (c : Chars) : List Nat × Chars :=
  let c := createUpTo c len
  (c.created.take len, c)

/-- Accesses to a string. -/
inductive Op where
  | index (i : Int)
  | slice (s : Slice)
  | iterate
  /-- `==` with a sequence of `n` elements (builtinslib.py:3130-3142) -/
  | eq (n : Nat)
  | realize
  deriving DecidableEq

/-- What an access yields. -/
inductive Obs where
  | char (r : Except PyErr Nat)
  | sliced (r : Except Failure Sliced)
  | chars (r : Except PyErr (List Nat))

/-- One access. -/
def step (len : Nat) (c : Chars) : Op → Obs × Chars
  | .index i => let r := index len c i; (.char r.1, r.2)
  | .slice s => let r := slice len c s; (.sliced r.1, r.2)
  | .iterate => let r := iterFrom c 0 len; (.chars r.1, r.2)
  | .eq n => let r := componentPrefix c n; (.chars (.ok r.1), r.2)
  | .realize => let r := realize len c; (.chars (.ok r.1), r.2)

/-- The characters after a history of accesses to a new string. -/
def after (len : Nat) (os : List Op) : Chars := (Seq.history (step len) ⟨[], []⟩ os).2

end Verif.Chars
