import Verif.Ops.Model
/-
What Python does.
-/
namespace Verif.Ops

/-- The result is the object, or has its type and value. -/
def Is (r : Res) (o : Obj) : Prop := r = .obj o ∨ r = .fresh o.ty o.val

/-- Python's `seq[k]`. -/
def pyIndex (l : List Obj) (k : Int) : Option Obj :=
  if 0 ≤ k then l[k.toNat]? else if -(l.length : Int) ≤ k then l[(k + l.length).toNat]? else none

/-- The truth of a comparison. -/
def Cmp.holds : Cmp → Bool
  | .sym b => b
  | .no => false
  | .yes => true

/-- Symbolics stand for exactly the values they were made for. -/
def Faithful (promote : Nat → Nat → Option Nat) : Prop := ∀ ty v w, promote ty v = some w → w = v

/-- Python's `BUILD_STRING`: the strings in the order in which they were pushed. -/
def joined (arg : Nat) (s : List Str) : Text := ((s.take arg).reverse.map (·.text)).flatten

/-- Conversions of f-strings: nothing, `!s`, `!r`, `!a`. -/
inductive Conv where
  | none
  | s
  | r
  | a
deriving DecidableEq, Repr

/-- The flags of FORMAT_VALUE. -/
def flagsOf (c : Conv) (spec : Bool) : Nat :=
  (match c with
    | .none => 0
    | .s => 1
    | .r => 2
    | .a => 3) + (if spec then 4 else 0)

/-- Python's f-string field: convert, then format; `fmtStr` is the `format` of strings. -/
def pyFormat (fmtStr : Text → Text → Option Text) (c : Conv) (value : Fmt) (spec : Text) : Option Text :=
  match c with
  | .none => value.format spec
  | .s => fmtStr value.str spec
  | .r => fmtStr value.repr spec
  | .a => fmtStr value.ascii spec

/-- Objects as Python has them: strings format to themselves. -/
structure Proper (fmtStr : Text → Text → Option Text) (value : Fmt) : Prop where
  plain : ∀ t, fmtStr t [] = some t
  text : value.symbolicStr = true → value.format = fmtStr value.str

/-- What a stack holds, symbolic or not. -/
def Item.plain : Item → Item
  | .map _ es => .map true es
  | .set _ xs => .set true xs
  | .key k => .key { k with concrete := true }
  | i => i

/-- Python's comprehension: the entries that a sequence of keys and values gives. -/
def pyDict (adds : List (Key × Nat)) (es : List (Nat × Nat)) : List (Nat × Nat) :=
  adds.foldl (fun es a => if es.any (fun e => e.1 == a.1.val) then es.map (fun e => if e.1 = a.1.val then (e.1, a.2) else e) else es ++ [(a.1.val, a.2)]) es

/-- The loop of a comprehension: each turn pushes a key and a value and adds them. -/
def mapRun (i : Nat) : List (Key × Nat) → List Item → Option (List Item)
  | [], s => some s
  | (k, v) :: adds, s => (mapAdd i (.val v :: .key k :: s)).bind (mapRun i adds)

/-- The same for sets. -/
def setRun (i : Nat) : List Key → List Item → Option (List Item)
  | [], s => some s
  | k :: adds, s => (setAdd i (.key k :: s)).bind (setRun i adds)

/-- Python's `is`. -/
def pyIs (a b : Operand) : Bool :=
  match a, b with
  | .other x _, .other y _ => x == y
  | .other _ _, _ => false
  | _, .other _ _ => false
  | .sym x, .sym y => x == y
  | .sym x, .bool y => x == y
  | .bool x, .sym y => x == y
  | .bool x, .bool y => x == y

/-- Python's truth of an object. -/
def Operand.truth : Operand → Bool
  | .sym b => b
  | .bool b => b
  | .other _ t => t

end Verif.Ops
