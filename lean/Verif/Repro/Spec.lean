import Mathlib.Data.List.Nodup

/-!
# What the text of a counterexample means: a small piece of Python

A counterexample is printed as a call, such as `f(v1:=[1], (v1, 2), key={})`, to be pasted into an
interpreter.  This file says what Python makes of such a text: the values, the tokens, and a reader
which follows Python's grammar (where an assignment expression may stand, how parentheses and
commas make tuples, that no positional argument follows a keyword argument) and evaluates from left
to right, creating a new object for every display and every call.  It also says how Python binds
the arguments of a call to the parameters of a function.
-/

namespace Verif.Repro

/-- What sort of object a node is.  `blob t` is an object whose text has no parts (`b'a'`,
    `object()`); `call f ks` is an object made by calling `f` with arguments, the `k`-th being passed
    by the keyword `ks[k]`, or by position. -/
inductive Kind
  | list | tuple | set | frozenset | dict
  | blob (text : String)
  | call (fn : String) (kws : List (Option String))
deriving DecidableEq, Repr

/-- A value: an atom (a number, a string, a class, …: two equal ones cannot be told apart) or an
    object with an identity and parts.  A dictionary has its keys and values in turn.  An object met
    twice is the same object met twice: the same identity with the same contents. -/
inductive Val
  | atom (text : String)
  | node (id : Nat) (kind : Kind) (parts : List Val)

/-- The tokens of a text.  `bind n` is `v1:=`, `use n` is `v1`, `kw x` is `x=`, `fn f` is a name in
    front of a parenthesis. -/
inductive Tok
  | atom (text : String) | blob (text : String)
  | use (n : Nat) | bind (n : Nat)
  | lpar | rpar | lbrack | rbrack | lbrace | rbrace | comma | colon
  | kw (name : String) | fn (name : String)
deriving DecidableEq, Repr

/-- The interpreter: the variables assigned so far, the newest first, and the identity the next
    object will get. -/
structure Store where
  vars : List (Nat × Val)
  next : Nat

/-- The value of a variable. -/
def lookup (n : Nat) : List (Nat × Val) → Option Val
  | [] => none
  | (m, v) :: vs => if m = n then some v else lookup n vs

/-- A new object. -/
def Store.new (s : Store) (k : Kind) (parts : List Val) : Val × Store :=
  (.node s.next k parts, { s with next := s.next + 1 })

/-- The result of a call: `set()`, `frozenset()` and `frozenset({…})` are the objects they say;
    any other call makes an object of its arguments. -/
def Store.call (s : Store) (f : String) (kws : List (Option String)) (parts : List Val) :
    Val × Store :=
  if f = "set" ∧ parts.length = 0 then s.new .set []
  else if f = "frozenset" ∧ parts.length = 0 then s.new .frozenset []
  else match f, parts with
    | "frozenset", [.node _ .set ps] => s.new .frozenset ps
    | _, _ => s.new (.call f kws) parts

mutual

/-- Reads one expression that may not be an assignment, and evaluates it.  The first argument bounds
    the depth of the recursion. -/
def expr : Nat → List Tok → Store → Option (Val × List Tok × Store)
  | 0, _, _ => none
  | _ + 1, .atom a :: ts, s => some (.atom a, ts, s)
  | _ + 1, .blob t :: ts, s => some ((s.new (.blob t) []).1, ts, (s.new (.blob t) []).2)
  | _ + 1, .use n :: ts, s => (lookup n s.vars).map fun v => (v, ts, s)
  | _ + 1, .lbrack :: .rbrack :: ts, s => some ((s.new .list []).1, ts, (s.new .list []).2)
  | d + 1, .lbrack :: ts, s =>
    match items d .rbrack ts s with
    | some (vs, ts, s) => some ((s.new .list vs).1, ts, (s.new .list vs).2)
    | none => none
  | _ + 1, .lpar :: .rpar :: ts, s => some ((s.new .tuple []).1, ts, (s.new .tuple []).2)
  | d + 1, .lpar :: ts, s =>
    match named d ts s with
    | some (v, .rpar :: ts, s) => some (v, ts, s)
    | some (v, .comma :: .rpar :: ts, s) =>
      some ((s.new .tuple [v]).1, ts, (s.new .tuple [v]).2)
    | some (v, .comma :: ts, s) =>
      match items d .rpar ts s with
      | some (vs, ts, s) => some ((s.new .tuple (v :: vs)).1, ts, (s.new .tuple (v :: vs)).2)
      | none => none
    | _ => none
  | _ + 1, .lbrace :: .rbrace :: ts, s => some ((s.new .dict []).1, ts, (s.new .dict []).2)
  | d + 1, .lbrace :: ts, s =>
    match named d ts s with
    | some (v, .rbrace :: ts, s) => some ((s.new .set [v]).1, ts, (s.new .set [v]).2)
    | some (v, .comma :: ts, s) =>
      match items d .rbrace ts s with
      | some (vs, ts, s) => some ((s.new .set (v :: vs)).1, ts, (s.new .set (v :: vs)).2)
      | none => none
    | some (_, .colon :: _, _) =>
      match pairs d ts s with
      | some (vs, ts, s) => some ((s.new .dict vs).1, ts, (s.new .dict vs).2)
      | none => none
    | _ => none
  | _ + 1, .fn f :: .lpar :: .rpar :: ts, s => some ((s.call f [] []).1, ts, (s.call f [] []).2)
  | d + 1, .fn f :: .lpar :: ts, s =>
    match args d false ts s with
    | some (ks, vs, ts, s) => some ((s.call f ks vs).1, ts, (s.call f ks vs).2)
    | none => none
  | _ + 1, _, _ => none

/-- Reads one expression or one assignment expression `v1:=…`. -/
def named : Nat → List Tok → Store → Option (Val × List Tok × Store)
  | 0, _, _ => none
  | d + 1, .bind n :: ts, s =>
    match expr d ts s with
    | some (v, ts, s) => some (v, ts, { s with vars := (n, v) :: s.vars })
    | none => none
  | d + 1, ts, s => expr d ts s

/-- Reads one or more items separated by commas, up to the closing token. -/
def items : Nat → Tok → List Tok → Store → Option (List Val × List Tok × Store)
  | 0, _, _, _ => none
  | d + 1, close, ts, s =>
    match named d ts s with
    | some (v, t :: ts, s) =>
      if t = close then some ([v], ts, s)
      else if t = .comma then
        match items d close ts s with
        | some (vs, ts, s) => some (v :: vs, ts, s)
        | none => none
      else none
    | _ => none

/-- Reads one or more pairs `key: value`, up to the closing brace.  Neither part may be an
    assignment. -/
def pairs : Nat → List Tok → Store → Option (List Val × List Tok × Store)
  | 0, _, _ => none
  | d + 1, ts, s =>
    match expr d ts s with
    | some (k, .colon :: ts, s) =>
      match expr d ts s with
      | some (v, .rbrace :: ts, s) => some ([k, v], ts, s)
      | some (v, .comma :: ts, s) =>
        match pairs d ts s with
        | some (vs, ts, s) => some (k :: v :: vs, ts, s)
        | none => none
      | _ => none
    | _ => none

/-- Reads one or more arguments, up to the closing parenthesis.  The value of a keyword argument may
    not be an assignment, and after a keyword argument (`kwOnly`) no positional one may follow. -/
def args : Nat → Bool → List Tok → Store →
    Option (List (Option String) × List Val × List Tok × Store)
  | 0, _, _, _ => none
  | d + 1, _, .kw x :: ts, s =>
    match expr d ts s with
    | some (v, .rpar :: ts, s) => some ([some x], [v], ts, s)
    | some (v, .comma :: ts, s) =>
      match args d true ts s with
      | some (ks, vs, ts, s) => some (some x :: ks, v :: vs, ts, s)
      | none => none
    | _ => none
  | _ + 1, true, _, _ => none
  | d + 1, false, ts, s =>
    match named d ts s with
    | some (v, .rpar :: ts, s) => some ([none], [v], ts, s)
    | some (v, .comma :: ts, s) =>
      match args d false ts s with
      | some (ks, vs, ts, s) => some (none :: ks, v :: vs, ts, s)
      | none => none
    | _ => none

end

/-- What Python makes of a whole text, in a new interpreter: nothing when it is a syntax error or
    names an unknown variable. -/
def evaluates (ts : List Tok) (v : Val) : Prop :=
  ∃ d s, expr d ts ⟨[], 0⟩ = some (v, [], s)

mutual
/-- The identities in a value, in the order they are met. -/
def Val.ids : Val → List Nat
  | .atom _ => []
  | .node i _ ps => i :: idsAll ps
/-- … in several values. -/
def idsAll : List Val → List Nat
  | [] => []
  | p :: ps => p.ids ++ idsAll ps
end

mutual
/-- The same value with other identities. -/
def Val.rename (ρ : Nat → Nat) : Val → Val
  | .atom a => .atom a
  | .node i k ps => .node (ρ i) k (renameAll ρ ps)
/-- … of several values. -/
def renameAll (ρ : Nat → Nat) : List Val → List Val
  | [] => []
  | p :: ps => p.rename ρ :: renameAll ρ ps
end

/-- The values are the same up to the choice of identities: the same kinds and parts, and two places
    hold one object in the first exactly when they hold one object in the second. -/
def Same (vs ws : List Val) : Prop :=
  ∃ ρ : Nat → Nat, (∀ i ∈ idsAll vs, ∀ j ∈ idsAll vs, ρ i = ρ j → i = j) ∧ ws = renameAll ρ vs

mutual
/-- A value in a heap: an identity stands for one object. -/
def Val.InHeap (h : Nat → Option (Kind × List Val)) : Val → Prop
  | .atom _ => True
  | .node i k ps => h i = some (k, ps) ∧ allInHeap h ps
/-- … several values. -/
def allInHeap (h : Nat → Option (Kind × List Val)) : List Val → Prop
  | [] => True
  | p :: ps => p.InHeap h ∧ allInHeap h ps
end

/-- The parts an object of this kind has: a `blob` none; a dictionary an even number; a call one for
    each argument, the keyword arguments last, and no call is one that makes a set. -/
def Kind.Fits : Kind → List Val → Prop
  | .blob _, ps => ps.length = 0
  | .dict, ps => ps.length % 2 = 0
  | .call f ks, ps =>
    f ≠ "set" ∧ f ≠ "frozenset" ∧ ks.length = ps.length ∧ ks.Pairwise fun a b => a.isSome → b.isSome
  | _, _ => True

mutual
/-- A value whose objects have parts that fit their kinds. -/
def Val.WellMade : Val → Prop
  | .atom _ => True
  | .node _ k ps => k.Fits ps ∧ allWellMade ps
/-- … several values. -/
def allWellMade : List Val → Prop
  | [] => True
  | p :: ps => p.WellMade ∧ allWellMade ps
end

mutual
/-- The objects met when a value is walked from left to right, going into an object only the first
    time; `seen` holds those met before. -/
def Val.meets (seen : List Nat) : Val → List Nat
  | .atom _ => []
  | .node i _ ps => if i ∈ seen then [i] else i :: meetsAll seen ps
/-- … when several values are walked. -/
def meetsAll (seen : List Nat) : List Val → List Nat
  | [] => []
  | p :: ps => p.meets seen ++ meetsAll (p.meets seen ++ seen) ps
end

/-- The objects of the values that need a name: those met more than once. -/
def Shared (vs : List Val) (i : Nat) : Prop := 2 ≤ (meetsAll [] vs).count i

/-- A part that, were it to be written here for the first time, needs no name. -/
def Val.Plain (sh : Nat → Prop) (seen : List Nat) : Val → Prop
  | .atom _ => True
  | .node i _ _ => i ∈ seen ∨ ¬ sh i

/-- Where among the `n` parts of an object no assignment may stand. -/
def Kind.bare (n : Nat) : Kind → List Bool
  | .dict => List.replicate n true
  | .call _ ks => ks.map Option.isSome
  | _ => List.replicate n false

mutual
/-- A value Python's grammar lets one write with assignment expressions (`sh` says which objects
    need a name, `seen` which have one): no tuple has exactly one part, and no part of a dictionary
    and no keyword argument is the first appearance of an object that needs a name. -/
def Val.Writable (sh : Nat → Prop) (seen : List Nat) : Val → Prop
  | .atom _ => True
  | .node i k ps =>
    i ∈ seen ∨ ((k = .tuple → ps.length ≠ 1) ∧ allWritable sh seen (k.bare ps.length) ps)
/-- … several parts; `bare` says where no assignment may stand. -/
def allWritable (sh : Nat → Prop) (seen : List Nat) (bare : List Bool) : List Val → Prop
  | [] => True
  | p :: ps =>
    (bare.headD false = true → p.Plain sh seen) ∧ p.Writable sh seen ∧
      allWritable sh (p.meets seen ++ seen) bare.tail ps
end

/-- The parts of the dictionary from the names of parameters to their values. -/
def dictParts (as : List (String × Val)) : List Val := as.flatMap fun a => [.atom a.1, a.2]

/-! ## Calls -/

/-- The kinds of parameters. -/
inductive ParamKind
  | posOnly | posOrKw | varPos | kwOnly | varKw
deriving DecidableEq, Repr

/-- A parameter. -/
structure Param where
  name : String
  kind : ParamKind
  default : Option Val

/-- What a parameter receives. -/
inductive Slot
  | one (v : Val)
  | many (vs : List Val)
  | named (kvs : List (String × Val))

/-- The value given by keyword, and the other keyword arguments. -/
def takeKw (x : String) : List (String × Val) → Option (Val × List (String × Val))
  | [] => none
  | (y, v) :: r =>
    if y = x then some (v, r) else (takeKw x r).map fun (w, r') => (w, (y, v) :: r')

/-- How Python binds positional and keyword arguments to parameters: nothing when it raises
    `TypeError`. -/
def bindCall : List Param → List Val → List (String × Val) → Option (List Slot)
  | [], [], [] => some []
  | [], _, _ => none
  | p :: ps, pos, kws =>
    match p.kind with
    | .posOnly =>
      match pos with
      | v :: pos => (bindCall ps pos kws).map (.one v :: ·)
      | [] => p.default.bind fun v => (bindCall ps [] kws).map (.one v :: ·)
    | .posOrKw =>
      match pos with
      | v :: pos =>
        if (kws.map (·.1)).contains p.name then none else (bindCall ps pos kws).map (.one v :: ·)
      | [] =>
        match takeKw p.name kws with
        | some (v, kws) => (bindCall ps [] kws).map (.one v :: ·)
        | none => p.default.bind fun v => (bindCall ps [] kws).map (.one v :: ·)
    | .varPos => (bindCall ps [] kws).map (.many pos :: ·)
    | .kwOnly =>
      match takeKw p.name kws with
      | some (v, kws) => (bindCall ps pos kws).map (.one v :: ·)
      | none => p.default.bind fun v => (bindCall ps pos kws).map (.one v :: ·)
    | .varKw => (bindCall ps pos []).map (.named kws :: ·)

/-- The positional and the keyword arguments of a call as written: nothing when a positional
    argument follows a keyword argument, which is a syntax error. -/
def splitArgs : List (Option String × Val) → Option (List Val × List (String × Val))
  | [] => some ([], [])
  | (none, v) :: r => (splitArgs r).map fun (pos, kws) => (v :: pos, kws)
  | (some x, v) :: r =>
    match splitArgs r with
    | some ([], kws) => some ([], (x, v) :: kws)
    | _ => none

/-- The order in which kinds of parameters come. -/
def ParamKind.rank : ParamKind → Nat
  | .posOnly => 0 | .posOrKw => 1 | .varPos => 2 | .kwOnly => 3 | .varKw => 4

/-- A signature Python accepts: different names; the kinds in order, `*args` and `**kwargs` at most
    once; no parameter without a default after one with a default, except keyword-only ones. -/
structure IsSignature (ps : List Param) : Prop where
  names : (ps.map (·.name)).Nodup
  order : ps.Pairwise fun p q => p.kind.rank ≤ q.kind.rank ∧
    (p.kind = q.kind → p.kind ≠ .varPos ∧ p.kind ≠ .varKw)
  defaults : ps.Pairwise fun p q => p.kind.rank ≤ 1 → q.kind.rank ≤ 1 →
    p.default.isSome → q.default.isSome

/-- What a parameter of a kind receives. -/
def Param.Takes (p : Param) (s : Slot) : Prop :=
  match p.kind with
  | .varPos => ∃ vs, s = .many vs
  | .varKw => ∃ kvs, s = .named kvs
  | _ => ∃ v, s = .one v

/-- The values of the parameters of one call: each of its kind, and `**kwargs` holds no name that a
    parameter takes. -/
structure IsBound (ps : List Param) (ss : List Slot) : Prop where
  takes : List.Forall₂ Param.Takes ps ss
  extra : ∀ kvs, Slot.named kvs ∈ ss → ∀ x ∈ kvs.map (·.1), ∀ p ∈ ps,
    p.kind = .posOrKw ∨ p.kind = .kwOnly → p.name ≠ x

/-! ## Variables -/

/-- Reads the variables in a text from left to right, given those assigned before: nothing when one is
    used before it is assigned, or is assigned twice. -/
def scan (known : List Nat) : List Tok → Option (List Nat)
  | [] => some known
  | .use n :: ts => if n ∈ known then scan known ts else none
  | .bind n :: ts => if n ∈ known then none else scan (n :: known) ts
  | _ :: ts => scan known ts

/-- The variables a text assigns, in order. -/
def assigned : List Tok → List Nat
  | [] => []
  | .bind n :: ts => n :: assigned ts
  | _ :: ts => assigned ts

mutual
/-- No tuple in the value has exactly one part. -/
def Val.NoSingle : Val → Prop
  | .atom _ => True
  | .node _ k ps => (k = .tuple → ps.length ≠ 1) ∧ noSingles ps
/-- … in several values. -/
def noSingles : List Val → Prop
  | [] => True
  | p :: ps => p.NoSingle ∧ noSingles ps
end

end Verif.Repro
