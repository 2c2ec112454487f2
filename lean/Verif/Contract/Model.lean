/-
Model of how CrossHair gathers the conditions of methods over class hierarchies:
crosshair/condition_parser.py 290-600.

A condition (`ConditionExpr`) is an opaque value of type `γ`; a function is identified by a number.
Signatures, `src_fn` and the counterexample formatter are left out.  Classes are finite trees of
bases, so a class inherited twice appears twice; the class cache of the composite parser (583-600)
is therefore left out as well, since it only avoids repeated work.
-/
namespace Verif.Contract

/-- Attribute names, as characters. -/
abbrev Name := List Char

/-- condition_parser.py 208-270: `Conditions`, without signature and formatter.  `raises` is a
frozenset in the code; here a list of exception numbers, used through membership. -/
structure Conds (γ : Type) where
  fn : Nat
  pre : List γ
  post : List γ
  raises : List Nat
  mutableArgs : Option (List Name)
  messages : List Nat
  deriving DecidableEq, Repr

/-- condition_parser.py 267-268: `Conditions.has_any`. -/
def Conds.hasAny {γ : Type} (c : Conds γ) : Bool :=
  !c.pre.isEmpty || !c.post.isEmpty || !c.messages.isEmpty

/-- condition_parser.py 287-307: `ClassConditions`.  `methods` is a dict; here an association list in
which the first entry for a name counts. -/
structure ClassConds (γ : Type) where
  inv : List γ
  methods : List (Name × Conds γ)
  deriving DecidableEq, Repr

/-- condition_parser.py 306-307: `ClassConditions.has_any`.  The code's `any` runs over the dict's
values; entries shadowed in the association list do not arise. -/
def ClassConds.hasAny {γ : Type} (c : ClassConds γ) : Bool :=
  !c.inv.isEmpty || c.methods.any (fun e => e.2.hasAny)

/-- condition_parser.py 310-340: `merge_fn_conditions`. -/
def mergeFn {γ : Type} (sub sup : Conds γ) : Conds γ :=
  { fn := sub.fn
    pre := if sub.pre.isEmpty then sup.pre else sub.pre
    post := sup.post ++ sub.post
    raises := sub.raises ++ sup.raises
    mutableArgs := match sub.mutableArgs with
      | some m => some m
      | none => sup.mutableArgs
    messages := sub.messages }

/-- `dict.update`: the new entries count before the old ones. -/
def update {γ : Type} (old new : List (Name × Conds γ)) : List (Name × Conds γ) := new ++ old

/-- condition_parser.py 343-350: `merge_method_conditions`. -/
def mergeMethods {γ : Type} (cs : List (ClassConds γ)) : List (Name × Conds γ) :=
  cs.reverse.foldl (fun methods c => update methods c.methods) []

/-- What a class's `__dict__` holds under a name: `None`, or a value together with what each parser's
`get_fn_conditions` returns for it (`none` for "cannot have conditions"). -/
inductive Entry (γ : Type) where
  | noneValue
  | value (parsed : List (Option (Conds γ)))
  deriving DecidableEq, Repr

/-- condition_parser.py 576-584: `CompositeConditionParser.get_fn_conditions`: the first result with
any condition, else the last result that is not `None`. -/
def compositeFn {γ : Type} : List (Option (Conds γ)) → Option (Conds γ) → Option (Conds γ)
  | [], ret => ret
  | none :: rest, ret => compositeFn rest ret
  | some c :: rest, _ => if c.hasAny then some c else compositeFn rest (some c)

/-- The parts of a class that are used: whether its module is `typing`; for each parser, whether
`class_can_have_conditions` and the result of `get_class_invariants`; its `__dict__`; and the function
that `getattr(cls, "__init__")` gives. -/
structure Decl (γ : Type) where
  typing : Bool := false
  parsers : List (Bool × List γ)
  dict : List (Name × Entry γ)
  initFn : Nat := 0
  deriving DecidableEq, Repr

/-- A class with its bases (`__bases__`, leftmost first). -/
inductive Cls (γ : Type) where
  | mk (decl : Decl γ) (bases : List (Cls γ))

/-- condition_parser.py 525-535: the names that get no invariants at all. -/
def exempt : List Name :=
  ["__new__".toList, "__repr__".toList, "__setattr__".toList, "__delattr__".toList,
   "__replace__".toList, "__annotate__".toList, "__annotate_func__".toList]

/-- condition_parser.py 525-548: whether the invariants are added to the preconditions, and to the
postconditions, of the method called `n`. -/
def invPlaces (n : Name) : Bool × Bool :=
  if exempt.contains n then (false, false)
  else if n = "__del__".toList then (true, false)
  else if n = "__init__".toList then (false, true)
  else if "__".toList.isPrefixOf n && "__".toList.isSuffixOf n then (true, true)
  else if "_".toList.isPrefixOf n then (false, false)
  else (true, true)

/-- condition_parser.py 521-549: the conditions with the invariants added. -/
def addInv {γ : Type} (inv : List γ) (n : Name) (c : Conds γ) : Conds γ :=
  { c with
    pre := if (invPlaces n).1 then c.pre ++ inv else c.pre
    post := if (invPlaces n).2 then c.post ++ inv else c.post }

/-- condition_parser.py 486-520: the conditions of one name before invariants, or `none` where the
code `continue`s.  The re-typing of the receiver (489-503) is left out. -/
def baseConds {γ : Type} (d : Decl γ) (sup : List (Name × Conds γ)) (n : Name) : Option (Conds γ) :=
  match d.dict.lookup n with
  | none | some .noneValue => sup.lookup n
  | some (.value parsed) =>
      match compositeFn parsed none with
      | none => none
      | some own =>
          match sup.lookup n with
          | none => some own
          | some s => some (mergeFn own s)

/-- condition_parser.py 486-551: one pass of the loop over the names: the entry for `n`, if any. -/
def finalConds {γ : Type} (d : Decl γ) (sup : List (Name × Conds γ)) (inv : List γ) (n : Name) :
    Option (Conds γ) :=
  match baseConds d sup n with
  | none => none
  | some c => if (addInv inv n c).hasAny then some (addInv inv n c) else none

/-- condition_parser.py 485-551: the loop over the names, in some order. -/
def loop {γ : Type} (d : Decl γ) (sup : List (Name × Conds γ)) (inv : List γ) : List (Name × Conds γ) :=
  (d.dict.map Prod.fst ++ sup.map Prod.fst).eraseDups.filterMap
    (fun n => (finalConds d sup inv n).map (fun c => (n, c)))

/-- condition_parser.py 472-565: `ConcreteConditionParser.get_class_conditions` for the parser with
the given `class_can_have_conditions` and invariants; `bases` are the toplevel parser's conditions of
the bases. -/
def concrete {γ : Type} (d : Decl γ) (bases : List (ClassConds γ)) (p : Bool × List γ) : ClassConds γ :=
  if !p.1 then ⟨[], []⟩
  else
    let methods := loop d (mergeMethods bases) p.2
    if !p.2.isEmpty && (methods.lookup "__init__".toList).isNone then
      ⟨p.2, ("__init__".toList, ⟨d.initFn, [], p.2, [], none, []⟩) :: methods⟩
    else ⟨p.2, methods⟩

/-- condition_parser.py 593-598: the first parser that finds any condition decides. -/
def firstAny {γ : Type} : List (ClassConds γ) → ClassConds γ
  | [] => ⟨[], []⟩
  | c :: rest => if c.hasAny then c else firstAny rest

/-- condition_parser.py 586-600: `CompositeConditionParser.get_class_conditions`, given the conditions
of the bases. -/
def compositeStep {γ : Type} (d : Decl γ) (bases : List (ClassConds γ)) : ClassConds γ :=
  if d.typing then ⟨[], []⟩ else firstAny (d.parsers.map (concrete d bases))

mutual
/-- condition_parser.py 586-600: `CompositeConditionParser.get_class_conditions`. -/
def classConds {γ : Type} : Cls γ → ClassConds γ
  | .mk d bases => compositeStep d (classCondsList bases)

/-- condition_parser.py 478-480: the same for each base. -/
def classCondsList {γ : Type} : List (Cls γ) → List (ClassConds γ)
  | [] => []
  | b :: bs => classConds b :: classCondsList bs
end

/-- The conditions of the method `n` of a class, as the analysis looks them up. -/
def methodConds {γ : Type} (c : Cls γ) (n : Name) : Option (Conds γ) :=
  (classConds c).methods.lookup n

end Verif.Contract
