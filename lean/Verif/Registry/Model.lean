import Verif.Registry.Spec
/-
Model of the registration of contracts (/repo/crosshair/register_contract.py 40-273), with the lists of signatures as objects: a list
that the caller passes is stored as it is, and grows when more signatures are registered. Left out: the warnings; functions are
compared by identity; `signature_from_stubs` and `resolve_signature` are given (`Fn.stubs`, `Fn.ref`).
-/
namespace Verif.Registry

/-- `required_param_names` (40-41). -/
def required (ps : List (Nat × Bool)) : List Nat := (ps.filter (·.2)).map (·.1)

/-- A list object: one that the program made, or one that the registration made. -/
inductive Ref where
  | user (k : Nat)
  | own (k : Nat)
deriving DecidableEq, Repr

/-- `ContractOverride` (19-25): the signatures are a list object. -/
structure Contract where
  pre : Option Nat
  post : Option Nat
  sigs : Ref
  skipBody : Bool
deriving DecidableEq, Repr

/-- The contents of the lists, how many lists the registration has made, `REGISTERED_CONTRACTS` and `REGISTERED_MODULES` (28-29). -/
structure State where
  list : Ref → List Sig
  next : Nat
  contracts : List (Nat × Contract)
  modules : List Nat

/-- A new list. -/
def State.alloc (st : State) (sigs : List Sig) : State × Ref :=
  ({ st with list := fun r => if r = .own st.next then sigs else st.list r, next := st.next + 1 }, .own st.next)

/-- `list.extend`. -/
def State.extend (st : State) (l : Ref) (more : List Sig) : State :=
  { st with list := fun r => if r = l then st.list r ++ more else st.list r }

/-- One turn of the loop of `_verify_signatures` (57-89). -/
def verifyOne (w : World) (c : Contract) (ref : Option Sig) (sig : Sig) : Bool :=
  (match ref with
    | some r => (required sig.params).all fun n => (r.params.map (·.1)).contains n
    | none => true) &&
  (match c.pre with
    | some p => (required (w.cond p)).all fun n => (sig.params.map (·.1)).contains n
    | none => true) &&
  (match c.post with
    | some p => (required (w.cond p)).all fun n => (sig.params.map (·.1) ++ [resultName, oldName]).contains n
    | none => true)

/-- `_verify_signatures` (44-89). -/
def verify (w : World) (st : State) (c : Contract) (ref : Option Sig) : Bool :=
  (st.list c.sigs ++ ref.toList).all (verifyOne w c ref)

/-- `_add_contract` (92-119). -/
def addContract (w : World) (st : State) (f : Nat) (c : Contract) (ref : Option Sig) : State × Bool :=
  if verify w st c ref then
    match st.contracts.lookup f with
    | some old =>
      if old.pre = c.pre ∧ old.post = c.post ∧ old.skipBody = c.skipBody then (st.extend old.sigs (st.list c.sigs), true)
      else (st, false)
    | none => ({ st with contracts := (f, c) :: st.contracts }, true)
  else (st, false)

/-- The argument `sig`: not given, a signature, or a list. -/
inductive Given where
  | nothing
  | one (s : Sig)
  | list (k : Nat)
deriving DecidableEq, Repr

/-- `not sig` (133). -/
def Given.isEmpty (st : State) : Given → Bool
  | .nothing => true
  | .one _ => false
  | .list k => (st.list (.user k)).isEmpty

/-- `not reference_sig or reference_sig.return_annotation == Parameter.empty` (134). -/
def incomplete : Option Sig → Bool
  | none => true
  | some r => !r.annotated

/-- `_internal_register_contract` (122-172). -/
def internalRegister (w : World) (st : State) (f : Nat) (pre post : Option Nat) (sig : Given) (skipBody : Bool) : State × Bool :=
  let ref := (w.fn f).ref
  if sig.isEmpty st && incomplete ref then
    let (st, l) := st.alloc (w.fn f).stubs
    if (w.fn f).stubs ≠ [] then addContract w st f ⟨pre, post, l, skipBody⟩ ref
    else if ref.isSome then
      let (st, l) := st.alloc []
      addContract w st f ⟨pre, post, l, skipBody⟩ ref
    else (st, false)
  else
    match sig with
    | .nothing =>
      let (st, l) := st.alloc []
      addContract w st f ⟨pre, post, l, skipBody⟩ ref
    | .one s =>
      let (st, l) := st.alloc [s]
      addContract w st f ⟨pre, post, l, skipBody⟩ ref
    | .list k => addContract w st f ⟨pre, post, .user k, skipBody⟩ ref

/-- `register_contract` (175-205). -/
def registerContract (w : World) (st : State) (f : Nat) (pre post : Option Nat) (sig : Given) (skipBody : Bool) : State × Bool :=
  if (w.fn f).bound then (st, false) else internalRegister w st f pre post sig skipBody

/-- `clear_contract_registrations` (208-212). -/
def clearRegistrations (st : State) : State := { st with contracts := [], modules := [] }

/-- Whether a module of this name is registered (244, 255). -/
def namedModule (w : World) (st : State) (name : Nat) : Bool := (st.modules.map w.modName).contains name

/-- Register the function and look it up (245-246, 249-250, 256-257). -/
def autoRegister (w : World) (st : State) (f : Nat) : State × Option Contract :=
  let st := (internalRegister w st f none none .nothing true).1
  (st, st.contracts.lookup f)

/-- `module and module in REGISTERED_MODULES` (248). -/
def inModules (st : State) : Option Nat → Bool
  | some m => st.modules.contains m
  | none => false

/-- `get_contract` (215-258), after the search along the classes. -/
def getPlain (w : World) (st : State) (f : Nat) : State × Option Contract :=
  if inModules st (w.fn f).module_ then autoRegister w st f
  else match (w.fn f).descriptor with
    | some name => if namedModule w st name then autoRegister w st f else (st, none)
    | none => (st, none)

/-- `get_contract` (215-258). -/
def getContract (w : World) (st : State) (f : Nat) : State × Option Contract :=
  if (w.fn f).weak then (st, none)
  else match st.contracts.lookup f with
    | some c => (st, some c)
    | none =>
      if (w.fn f).special then (st, none)
      else match (w.fn f).classes.bind fun cs => cs.find? (·.1) with
        | some c => if namedModule w st c.2 then autoRegister w st f else (st, none)
        | none => getPlain w st f

/-- `register_modules` (261-273). -/
def registerModules (st : State) (ms : List Nat) : State := { st with modules := ms ++ st.modules }

/-- What a program does. Its own lists are there from the beginning, and it leaves them alone. -/
inductive Op where
  | register (f : Nat) (pre post : Option Nat) (sig : Given) (skipBody : Bool)
  | modules (ms : List Nat)
  | lookup (f : Nat)
  | clear
deriving DecidableEq, Repr

/-- One step. -/
def step (w : World) (st : State) : Op → State
  | .register f pre post sig skip => (registerContract w st f pre post sig skip).1
  | .modules ms => registerModules st ms
  | .lookup f => (getContract w st f).1
  | .clear => clearRegistrations st

/-- Nothing is registered; the program has these lists. -/
def init (lists : Nat → List Sig) : State where
  list
    | .user k => lists k
    | .own _ => []
  next := 0
  contracts := []
  modules := []

/-- Many steps. -/
def run (w : World) (st : State) (ops : List Op) : State := ops.foldl (step w) st

/-- The contract a function has: what the conditions' checker reads. -/
def State.view (st : State) (f : Nat) : Option View :=
  (st.contracts.lookup f).map fun c => ⟨c.pre, c.post, c.skipBody, st.list c.sigs⟩

end Verif.Registry
