import Verif.Stubs.Model
/-
What annotations are, how they read with `|` and with `Union`, and what a stub declares.
-/
namespace Verif.Stubs

mutual
/-- The text of an annotation: characters, bars, and groups in brackets or parentheses. -/
inductive Pieces where
  | nil
  | ch (c : Char) (rest : Pieces)
  | bar (rest : Pieces)
  | group (opening closing : Char) (segs : Segs) (rest : Pieces)
/-- The parts of a group, separated by commas. -/
inductive Segs where
  | one (p : Pieces)
  | cons (p : Pieces) (rest : Segs)
end

/-- Characters without a meaning of their own. -/
def Plain (c : Char) : Prop := c ≠ '|' ∧ c ≠ '(' ∧ c ≠ ')' ∧ c ≠ '[' ∧ c ≠ ']' ∧ c ≠ ','

mutual
/-- Characters are plain, and groups in brackets or parentheses. -/
def Pieces.Ok : Pieces → Prop
  | .nil => True
  | .ch c rest => Plain c ∧ rest.Ok
  | .bar rest => rest.Ok
  | .group o c segs rest => (o = '(' ∨ o = '[') ∧ (c = ')' ∨ c = ']') ∧ segs.Ok ∧ rest.Ok
def Segs.Ok : Segs → Prop
  | .one p => p.Ok
  | .cons p rest => p.Ok ∧ rest.Ok
end

mutual
/-- The annotation as it is written. -/
def Pieces.text : Pieces → List Char
  | .nil => []
  | .ch c rest => c :: rest.text
  | .bar rest => '|' :: rest.text
  | .group o c segs rest => o :: (segs.text ++ c :: rest.text)
def Segs.text : Segs → List Char
  | .one p => p.text
  | .cons p rest => p.text ++ ',' :: rest.text
end

/-- Whether alternatives are given (outside groups). -/
def Pieces.isUnion : Pieces → Bool
  | .nil => false
  | .ch _ rest => rest.isUnion
  | .bar _ => true
  | .group _ _ _ rest => rest.isUnion

/-- `Union[...]` around alternatives. -/
def around (isUnion : Bool) (alternatives : List Char) : List Char :=
  if isUnion then "Union[".toList ++ alternatives ++ "]".toList else alternatives

mutual
/-- The alternatives, with commas between them, and groups rewritten. -/
def Pieces.alternatives : Pieces → List Char
  | .nil => []
  | .ch c rest => c :: rest.alternatives
  | .bar rest => ',' :: rest.alternatives
  | .group o c segs rest => o :: (segs.union ++ c :: rest.alternatives)
/-- A group with its parts rewritten. -/
def Segs.union : Segs → List Char
  | .one p => around p.isUnion p.alternatives
  | .cons p rest => around p.isUnion p.alternatives ++ ',' :: rest.union
end

/-- The annotation with `Union`. -/
def Pieces.union (p : Pieces) : List Char := around p.isUnion p.alternatives

/-- Membership. -/
def Nodes.Mem (n : Node) : Nodes → Prop
  | .nil => False
  | .cons n' ns => n = n' ∨ ns.Mem n

/-- The statements declare the signature for the function with that qualified name. -/
inductive Declares : Nodes → List Nat → Nat → Prop where
  | func {ns name sig made valid body} : ns.Mem (.func name sig made valid body) → Declares ns [name] sig
  | asyncFunc {ns name sig} : ns.Mem (.asyncFunc name sig) → Declares ns [name] sig
  | inFunc {ns name sig s made valid body steps} : ns.Mem (.func name s made valid body) → steps ≠ [] → Declares body steps sig →
      Declares ns (name :: steps) sig
  | inCls {ns name sig body steps} : ns.Mem (.cls name body) → steps ≠ [] → Declares body steps sig → Declares ns (name :: steps) sig
  | ifTrue {ns sys evals body orelse steps sig} : ns.Mem (.ifs sys evals true body orelse) → Declares body steps sig → Declares ns steps sig
  | ifFalse {ns sys evals body orelse steps sig} : ns.Mem (.ifs sys evals false body orelse) → Declares orelse steps sig → Declares ns steps sig

mutual
/-- All conditions mention `sys.` and can be evaluated, and no function is `async`. -/
def Node.Simple : Node → Prop
  | .func _ _ _ _ body => body.Simple
  | .cls _ body => body.Simple
  | .ifs sys evals _ body orelse => sys = true ∧ evals = true ∧ body.Simple ∧ orelse.Simple
  | .asyncFunc _ _ => False
  | .other => True
def Nodes.Simple : Nodes → Prop
  | .nil => True
  | .cons n ns => n.Simple ∧ ns.Simple
end

end Verif.Stubs
