import Verif.Formatting.Spec
/-
`_format`, `_str_format` and `_str_percent_format` (crosshair/libimpl/builtinslib.py 4892-4902, 5294-5302, 5313-5316) for objects of a program's own
classes.
-/
namespace Verif.Formatting

/-- `deep_realize` of an object (copyext.py 58-98): a copy, unless copying raises a `TypeError` (`copyable` is false), then the object itself: what
becomes of the states of the objects if a method is called on that. Objects do not share parts here. -/
def onCopy (copyable : Nat → Bool) (h : Heap) (o s : Nat) : Heap := if copyable o then h else put h o s

/-- `_format` (4892-4902): `invoke_dunder` (243-262) calls the method and does not look at what it returns. -/
def format (copyable : Nat → Bool) (m : Method) (h : Heap) (o spec : Nat) : Heap × Res :=
  (onCopy copyable h o (m o (h o) spec).1,
   match (m o (h o) spec).2 with
   | .text t => .text t
   | .other v => .object v
   | .raises e => .raises e)

/-- `_str_format` (5313-5316): `string.Formatter` calls `format` for each field and joins the texts, which is a `TypeError` for other objects; all
fields are formatted before that. -/
def strFormat (copyable : Nat → Bool) (m : Method) : Heap → List (Nat × Nat) → Heap × Except Res (List Nat)
  | h, [] => (h, .ok [])
  | h, (o, spec) :: l =>
    match format copyable m h o spec with
    | (h', .text t) =>
      match strFormat copyable m h' l with
      | (h'', .ok ts) => (h'', .ok (t :: ts))
      | (h'', .error e) => (h'', .error e)
    | (h', .object _) =>
      match strFormat copyable m h' l with
      | (h'', .ok _) => (h'', .error .typeError)
      | (h'', .error e) => (h'', .error e)
    | (h', e) => (h', .error e)

/-- The states of the objects and of their copies (`true`). -/
abbrev Heaps := Bool → Heap

/-- What `deep_realize` (5302) made of the tuple of objects has one copy for each object, or the object itself if it cannot be copied. Then Python's `%`
calls the methods on these, in turn. -/
def percentRun (copyable : Nat → Bool) (m : Method) : Heaps → List (Nat × Nat) → Heaps × Except Res (List Nat)
  | hs, [] => (hs, .ok [])
  | hs, (o, spec) :: l =>
    let r := m o (hs (copyable o) o) spec
    let hs' : Heaps := fun b p => if b = copyable o ∧ p = o then r.1 else hs b p
    match r.2 with
    | .text t =>
      match percentRun copyable m hs' l with
      | (hs'', .ok ts) => (hs'', .ok (t :: ts))
      | (hs'', .error e) => (hs'', .error e)
    | .other _ => (hs', .error .typeError)
    | .raises e => (hs', .error (.raises e))

/-- `_str_percent_format` (5294-5302). -/
def percent (copyable : Nat → Bool) (m : Method) (h : Heap) (l : List (Nat × Nat)) : Heap × Except Res (List Nat) :=
  let r := percentRun copyable m (fun _ => h) l
  (r.1 false, r.2)

end Verif.Formatting
