import Verif.Unify.Realize
import Verif.Unify.Ends
import Verif.Unify.Itself

/-! C53: what the type unifier accepts. -/
namespace Verif.Unify

variable {H : Hier}

/-! ## Some classes -/

namespace World
def object : Nat := 0
def tupleC : Nat := 1
def sequence : Nat := 2
def callable : Nat := 3
def function : Nat := 4
def int : Nat := 5
def str : Nat := 6
def list : Nat := 7
def dict : Nat := 8
def bool : Nat := 9
end World

/-- Some classes of Python. -/
def World : Hier where
  sub c d := c == d || d == 0 || (c == 1 && d == 2) || (c == 7 && d == 2) || (c == 6 && d == 2) || (c == 4 && d == 3) || (c == 9 && d == 5)
  params c := if c = 2 then 1 else if c = 7 then 1 else if c = 8 then 2 else 0
  objectC := 0
  tupleC := 1
  sequenceC := 2
  callableC := 3
  functionC := 4

theorem world_ok : World.Ok where
  refl := by intro c; simp [World]
  trans := by
    intro c d e
    simp only [World, Bool.or_eq_true, Bool.and_eq_true, beq_iff_eq]
    omega
  top := by intro c; simp [World]
  tupleSequence := by decide
  sequenceTuple := by decide
  sequenceCallable := by decide
  sequenceParams := by decide
  objectTuple := by decide
  objectCallable := by decide
  callableTuple := by decide
  tupleParams := by
    intro c
    simp only [World, Bool.or_eq_true, Bool.and_eq_true, beq_iff_eq]
    intro h
    repeat' split
    all_goals omega
  tupleCallable := by decide
  functionCallable := by decide

def tInt : Ty := .cls World.int []
def tStr : Ty := .cls World.str []
def tBool : Ty := .cls World.bool []
def tObject : Ty := .cls World.object []
def tList (t : Ty) : Ty := .cls World.list [t]
def tDict (k t : Ty) : Ty := .cls World.dict [k, t]

def vInt : Val := .obj World.int []
def vStr : Val := .obj World.str []
def vBool : Val := .obj World.bool []

/-! ## What is accepted -/

/-- C53.  If the unifier accepts a value type without variables for a receiver type, then every value of the value
type is a value of the receiver type with its variables replaced by what they are bound to, whatever the variables
that remain stand for.  The receiver type has no variables, or there are no unions in the types given; there are no
tuple types without fixed length, or there are no variables and no tuples in the types expected.  Without these
conditions it does not hold, see below. -/
theorem sound_partial (hH : H.Ok) {value recv : Ty} (hv : value.all (Ty.proper H) = true) (hr : recv.all (Ty.proper H) = true)
    (hvar : value.all Ty.notVar = true)
    (hunion : recv.all Ty.notVar = true ∨ (value.all Ty.notUnion = true ∧ recv.side Ty.notUnion false = true))
    (htuple : (value.all Ty.notLong = true ∧ recv.all Ty.notLong = true) ∨
      (recv.all Ty.notVar = true ∧ value.side Ty.notTuple false = true ∧ recv.side Ty.notTuple true = true))
    {n : Nat} {b : Bindings} (h : unify H n value recv [] = .ok true b) (ρ : Env) : Accepts H ρ value (realize b recv) := by
  have hpre : Pre H value recv := ⟨hv, hr, hunion.elim (fun h => .inl ⟨hvar, h⟩) (fun h => .inr (.inl ⟨hvar, h⟩)),
    htuple.elim .inl (fun h => .inr ⟨hvar, h⟩)⟩
  have hpost := (spec hH n).1 value recv [] hpre (fun x t hx => by simp at hx)
  rw [h] at hpost
  obtain ⟨hb, _, _, hacc⟩ := hpost
  intro v hm
  rw [← mem_realize]
  exact hacc _ (agrees_over hb) v ((mem_over_closed hvar false v).2 hm)

/-- `Dict[str, List[int]]` for `Dict[T, Sequence[U]]`. -/
example : unify World 40 (tDict tStr (tList tInt)) (tDict (.var 0) (.cls World.sequence [.var 1])) [] =
    .ok true [(1, tInt), (0, tStr)] := by rfl

example (ρ : Env) : Accepts World ρ (tDict tStr (tList tInt)) (tDict tStr (.cls World.sequence [tInt])) :=
  sound_partial world_ok (value := tDict tStr (tList tInt)) (recv := tDict (.var 0) (.cls World.sequence [.var 1])) (by decide) (by decide)
    (by decide) (.inr (by decide)) (.inl (by decide)) (n := 40) (b := [(1, tInt), (0, tStr)]) rfl ρ

example : unify World 40 (.callable (some [.union [tInt, tStr]]) tBool) (.callable (some [tInt]) tInt) [] = .ok true [] := by rfl

example (ρ : Env) : Accepts World ρ (.callable (some [.union [tInt, tStr]]) tBool) (.callable (some [tInt]) tInt) :=
  sound_partial world_ok (recv := .callable (some [tInt]) tInt) (by decide) (by decide)
    (by decide) (.inl (by decide)) (.inl (by decide)) (n := 40) (b := []) rfl ρ

/-- `Tuple[int, ...]` for `Sequence[int]`. -/
example (ρ : Env) : Accepts World ρ (.tupleVar tInt) (.cls World.sequence [tInt]) :=
  sound_partial world_ok (value := .tupleVar tInt) (recv := .cls World.sequence [tInt]) (by decide) (by decide)
    (by decide) (.inl (by decide)) (.inr (by decide)) (n := 40) (b := []) rfl ρ

/-- The types that variables are bound to are types without variables. -/
theorem bindings_closed (hH : H.Ok) {value recv : Ty} (hv : value.all (Ty.proper H) = true) (hr : recv.all (Ty.proper H) = true)
    (hvar : value.all Ty.notVar = true)
    (hunion : recv.all Ty.notVar = true ∨ (value.all Ty.notUnion = true ∧ recv.side Ty.notUnion false = true))
    (htuple : (value.all Ty.notLong = true ∧ recv.all Ty.notLong = true) ∨
      (recv.all Ty.notVar = true ∧ value.side Ty.notTuple false = true ∧ recv.side Ty.notTuple true = true))
    {n : Nat} {b : Bindings} (h : unify H n value recv [] = .ok true b) {x : Nat} {t : Ty} (hx : b.lookup x = some t) :
    t.all Ty.notVar = true := by
  have hpre : Pre H value recv := ⟨hv, hr, hunion.elim (fun h => .inl ⟨hvar, h⟩) (fun h => .inr (.inl ⟨hvar, h⟩)),
    htuple.elim .inl (fun h => .inr ⟨hvar, h⟩)⟩
  have hpost := (spec hH n).1 value recv [] hpre (fun x t hx => by simp at hx)
  rw [h] at hpost
  exact (hpost.1 x t hx).1

/-- C53.  The unifier always comes to an end if the value type has no variables. -/
theorem ends (H : Hier) {value recv : Ty} (h : value.all Ty.notVar = true) :
    ∃ N, ∀ n, N ≤ n → unify H n value recv [] ≠ .outOfFuel := by
  obtain ⟨N, hN⟩ := fine_all H (value.weight 0 + 4) (by omega) (value.weight (value.weight 0 + 4) + recv.weight (value.weight 0 + 4))
  refine ⟨N, fun n hn he => ?_⟩
  have hw : ∀ M, value.weight M = value.weight 0 := fun M => weight_closed M value h
  have := hN n hn value recv [] (Nat.le_refl _) (.inl ⟨h, by rw [hw]; omega⟩) (fun x t hx => by simp at hx)
  rw [he] at this
  exact this

example : (tDict (.union [tInt, tStr]) (.tupleVar tInt)).all Ty.notVar = true := by decide

/-- Two callables are unified only if their return types are: a callable is not accepted because of its arguments alone. -/
theorem callable_return (hH : H.Ok) {n : Nat} {va ra : Option (List Ty)} {vr rr : Ty} {b b' : Bindings}
    (h : unify H (n + 5) (.callable va vr) (.callable ra rr) b = .ok true b') : ∃ b'', unify H n vr rr b = .ok true b'' := by
  rw [unify] at h
  simp only [get, Ty.isAny, Bool.or_false, Bool.false_eq_true, if_false] at h
  rw [receive] at h
  · rw [tuples] at h
    · rw [Ty.orObject, tupleRecv, classes] at h
      · simp only [origin, hH.refl, if_true, callArgs] at h
        cases hu : unify H n vr rr b with
        | ok ans b'' =>
          cases ans with
          | true => exact ⟨b'', rfl⟩
          | false => rw [hu] at h; simp at h
        | crash => rw [hu] at h; simp at h
        | outOfFuel => rw [hu] at h; simp at h
      all_goals simp [Ty.orObject]
    all_goals simp [Ty.orObject]
  all_goals simp

example : ∃ b', unify World 40 (.callable (some [tInt]) tBool) (.callable (some [tBool]) tInt) [] = .ok true b' := ⟨[], rfl⟩

/-- C53.  The unifier accepts a type for itself, if there are no unions, tuples and variables in it. -/
theorem accepts_itself_partial (hH : H.Ok) {t : Ty} (hp : t.all (Ty.proper H) = true) (hv : t.all Ty.notVar = true)
    (hu : t.all Ty.notUnion = true) (ht : t.all Ty.notTuple = true) :
    ∃ N, ∀ n, N ≤ n → unify H n t t [] = .ok true [] := by
  obtain ⟨N, h⟩ := itself hH t hp hv hu ht
  exact ⟨N, fun n hn => h n hn []⟩

example : (tDict (tList tInt) (.callable (some [tStr]) .any)).all (Ty.proper World) = true ∧
    (tDict (tList tInt) (.callable (some [tStr]) .any)).all Ty.notVar = true ∧
    (tDict (tList tInt) (.callable (some [tStr]) .any)).all Ty.notUnion = true ∧
    (tDict (tList tInt) (.callable (some [tStr]) .any)).all Ty.notTuple = true := by decide

/-! ## Disagreements -/

/-- Disagreement: a list is accepted for a tuple of any length: a tuple is a sequence, and so lists and tuples are
exchanged (dynamic_typing.py:164-171, the value type is compared with `Sequence`, as the receiver's stand-in). -/
theorem list_for_tuple : unify World 40 (tList tInt) (.tupleVar tInt) [] = .ok true [] ∧
    ∀ ρ, ¬Accepts World ρ (tList tInt) (.tupleVar tInt) := by
  refine ⟨rfl, fun ρ h => ?_⟩
  have := h (.obj World.list []) (by
    rw [tList, mem, Val.parts]
    exact ⟨by decide, by rw [memParts]; exact trivial; simp⟩)
  simp [mem] at this

/-- Disagreement: strings are accepted for `tuple`. -/
theorem string_for_tuple : unify World 40 tStr .tupleRaw [] = .ok true [] ∧ ∀ ρ, ¬Accepts World ρ tStr .tupleRaw := by
  refine ⟨rfl, fun ρ h => ?_⟩
  have := h vStr (by
    rw [tStr, mem]
    exact ⟨by decide, by simp [memParts]⟩)
  simp [mem, vStr] at this

/-- Disagreement: what variables are bound to within a union of value types is forgotten (dynamic_typing.py:103-111,
"Right now, we just discard the bindings here"): keys that are integers or strings and values that are booleans are
accepted for a dictionary with keys and values of one type, which is said to be `bool`. -/
theorem union_forgotten : unify World 40 (tDict (.union [tInt, tStr]) tBool) (tDict (.var 0) (.var 0)) [] = .ok true [(0, tBool)] ∧
    ∀ ρ, ¬Accepts World ρ (tDict (.union [tInt, tStr]) tBool) (realize [(0, tBool)] (tDict (.var 0) (.var 0))) := by
  refine ⟨rfl, fun ρ h => ?_⟩
  have := h (.obj World.dict [[vStr], [vBool]]) (by
    rw [tDict, mem, Val.parts]
    refine ⟨by decide, ?_⟩
    simp only [memParts, mem, memUnion, List.mem_singleton, forall_eq, tBool, vBool, vStr, tInt, tStr, Val.cls, Val.parts, and_true]
    exact ⟨.inr (.inl (by decide)), by decide⟩)
  have h2 : realize [(0, tBool)] (tDict (.var 0) (.var 0)) = tDict tBool tBool := rfl
  rw [h2, tDict, mem, Val.parts, memParts] at this
  have h3 := this.2.1 vStr (by simp)
  rw [tBool, mem] at h3
  exact absurd h3.1 (by decide)

/-- Disagreement: a tuple of any length is accepted for a pair. -/
theorem long_for_pair : unify World 40 (.tupleVar tInt) (.tuple [tObject, tObject]) [] = .ok true [] ∧
    ∀ ρ, ¬Accepts World ρ (.tupleVar tInt) (.tuple [tObject, tObject]) := by
  refine ⟨rfl, fun ρ h => ?_⟩
  have := h (.tup []) (by rw [mem]; simp)
  simp [mem, memItems] at this

/-- Disagreement: the unifier raises an exception (`issubclass(object, ...)`) for a pair of values of different types
as value of a tuple of objects, of any length. -/
theorem pair_for_long_crash : unify World 40 (.tuple [tInt, tStr]) (.tupleVar tObject) [] = .crash ∧
    ∀ ρ, Accepts World ρ (.tuple [tInt, tStr]) (.tupleVar tObject) := by
  refine ⟨rfl, fun ρ v hv => ?_⟩
  cases v with
  | tup items =>
    rw [mem]
    intro x _
    exact mem_object world_ok ρ true x
  | _ => simp [mem] at hv

/-- Disagreement: the unifier raises an exception (`args[-1]`) if the type of the empty tuple does not unify as a
sequence of objects. -/
theorem empty_crash : unify World 40 (.tuple []) tInt [] = .crash := rfl

/-- Disagreement: the unifier does not accept every type for `object`: a class with arguments is refused, because the
numbers of arguments differ (dynamic_typing.py:202-206). -/
theorem object_refused : unify World 40 (tList tInt) tObject [] = .ok false [] ∧ ∀ ρ, Accepts World ρ (tList tInt) tObject :=
  ⟨rfl, fun ρ v _ => mem_object world_ok ρ true v⟩

theorem loop_aux (n : Nat) : unify World n (.var 0) (.var 0) [(0, tList (.var 0))] = .outOfFuel := by
  induction n using Nat.strongRecOn with
  | ind n ih =>
    match n with
    | 0 => rfl
    | 1 => rfl
    | 2 => rfl
    | 3 => rfl
    | 4 => rfl
    | 5 => rfl
    | 6 => rfl
    | n + 7 =>
      have h := ih n (by omega)
      show (match unify World n (.var 0) (.var 0) [(0, tList (.var 0))] with
        | .ok true b' => unifyAll World n [] [] b'
        | e => e) = _
      rw [h]

/-- Disagreement: with variables on both sides the unifier may never end: a dictionary with lists as keys, for a
dictionary with keys and values of one type. -/
theorem endless (n : Nat) : unify World n (tDict (tList (.var 0)) (.var 0)) (tDict (.var 0) (.var 0)) [] = .outOfFuel := by
  match n with
  | 0 => rfl
  | 1 => rfl
  | 2 => rfl
  | 3 => rfl
  | 4 => rfl
  | 5 => rfl
  | 6 => rfl
  | 7 => rfl
  | 8 => rfl
  | n + 9 =>
    show (match unify World (n + 1) (.var 0) (.var 0) [(0, tList (.var 0))] with
        | .ok true b' => unifyAll World (n + 1) [] [] b'
        | e => e) = _
    rw [loop_aux]

end Verif.Unify
