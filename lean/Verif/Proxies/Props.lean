import Verif.Proxies.Lemmas
import Verif.Proxies.Names
/-
The theorems about the making of values.
-/
namespace Verif.Proxies

/-! ### Values belong to their annotations -/

/-- Whatever the solver answers, a value that is made for an annotation belongs to it. Missing: `Tuple[()]` on Python 3.11 or newer and
`IO[bytes]`, for which it is false (`empty_tuple_filled`, `binary_stream_is_text`). -/
theorem made_belongs_partial (W : World) (hW : W.Lawful) (hk : soundAll W.py311 W.known = true)
    (hp : ∀ c, soundAll W.py311 (W.params c) = true) (ieee : Bool) (fuel : Nat) (t : Ann) (ht : t.sound W.py311 = true) (subtypes : Bool)
    (tape : Tape) (v : Val) (rest : Tape) (h : make W ieee fuel t subtypes tape = .ok v rest) : Has W v t :=
  make_has W hW hk hp ieee fuel t ht subtypes tape v rest h

/-- A program with an enumeration of three members, an abstract class 0, and classes 1 and 2 derived from it; class 1 takes a
number and refuses 0, class 2 takes an optional instance of class 0. -/
def sample (py311 : Bool) : World where
  members _ := 3
  params c := if c = 1 then [.int] else if c = 2 then [.union [.cls 0, .none]] else []
  build c args := match c, args with
    | 0, _ => .raised
    | 1, [.int i] => if i = 0 then .refused else .instance
    | 2, [_] => .instance
    | _, _ => .raised
  below c := if c = 0 then [1, 2] else if c = 1 then [1] else [2]
  known := [.int, .str, .cls 0]
  same a b := match a, b with
    | .int i, .int j => i = j
    | _, _ => false
  py311

example (b : Bool) : (sample b).Lawful ∧ soundAll b (sample b).known = true ∧ ∀ c, soundAll b ((sample b).params c) = true := by
  refine ⟨?_, by cases b <;> decide, ?_⟩
  · intro c args h
    match c, args with
    | 0, _ => simp [sample] at h
    | 1, _ => simp [sample]
    | 2, _ => simp [sample]
    | n + 3, _ => simp [sample] at h
  · intro c
    simp only [sample]
    split
    · rfl
    · split <;> rfl

example : make (sample false) false 9 (.tuple [.cls 0, .list .float, .enum 5, .dict .int .any]) true
    [.fork false, .fork true, .fork true, .int 7, .size 1, .float (.fin 2), .fork false, .fork true, .size 2, .int 3, .int 4, .fork true,
      .int 0, .fork false, .fork true, .str ['a']] =
    .ok (.tuple [.obj 2 [.obj 1 [.int 7]], .list [.float (.fin 2)], .member 5 1, .dict [.int 3, .int 4] [.int 0, .str ['a']]]) [] := rfl

/-- Disagreement: on Python 3.11 and newer the arguments of `Tuple[()]` are an empty tuple, which `make_tuple` (builtinslib.py 4703-4706)
takes for `Tuple` without arguments: tuples that are not empty are made. -/
theorem empty_tuple_filled : ∃ v, make (sample true) true 3 (.tuple []) true [.size 1, .fork true, .int 5] = .ok v [] ∧
    ¬ Has (sample true) v (.tuple []) := by
  refine ⟨.tuple [.int 5], rfl, fun h => ?_⟩
  cases h with
  | tuple _ _ h => cases h

example : make (sample false) true 3 (.tuple []) true [] = .ok (.tuple []) [] := rfl

/-- Disagreement: the maker of `IO` (builtinslib.py 5442-5444) compares the argument with the text "bytes" instead of the class, so that for
`IO[bytes]` text streams are made. -/
theorem binary_stream_is_text (W : World) (ieee : Bool) (fuel : Nat) (subtypes : Bool) (tape : Tape) :
    make W ieee (fuel + 1) (.io .bytes) subtypes tape = .ok (.stream false) tape ∧ ¬ Has W (.stream false) (.io .bytes) :=
  ⟨rfl, fun h => by cases h⟩

/-! ### Every value is made -/

/-- Every value that belongs to an annotation is made in some path, for arguments (where subtypes are allowed). Missing: `Sequence`, for
which lists are never made (`sequence_never_list`), entries of typed dictionaries annotated with classes, for which instances of derived
classes are never made (`entry_never_derived`), and `IO[bytes]`. Values whose objects are not results of constructors are not considered. -/
theorem every_value_made_partial (W : World) (hk : wholeAll W.known = true) (hp : ∀ c, wholeAll (W.params c) = true) (v : Val) (t : Ann)
    (ht : t.whole = true) (h : Has W v t) : ∃ ieee fuel tape, make W ieee fuel t true tape = .ok v [] := by
  obtain ⟨N, tape, hr⟩ := has_reached W hk hp h ht
  exact ⟨true, N, tape, by simpa using hr N (Nat.le_refl N) true (fun _ => rfl) []⟩

example (b : Bool) : wholeAll (sample b).known = true ∧ ∀ c, wholeAll ((sample b).params c) = true := by
  refine ⟨by cases b <;> decide, fun c => ?_⟩
  simp only [sample]
  split
  · rfl
  · split <;> rfl

example : Has (sample true) (.record [['x']] [.list [.float .nan]]) (.record [(['x'], true), (['y'], false)] [.list .float, .int]) :=
  .record _ _ _ _ (.present _ _ _ _ _ _ _ _ (.list _ _ 1 (.cons _ _ _ _ (.float _) .nil)) (.absent _ _ _ _ _ _ .empty))

/-- Disagreement: for `Sequence[t]` only tuples are made (collectionslib.py 255), never lists. -/
theorem sequence_never_list (W : World) (t : Ann) : Has W (.list []) (.sequence t) ∧
    ∀ ieee fuel subtypes tape vs rest, make W ieee fuel (.sequence t) subtypes tape ≠ .ok (.list vs) rest := by
  refine ⟨.sequenceList _ _ 0 .nil, fun ieee fuel subtypes tape vs rest h => ?_⟩
  cases fuel with
  | zero => simp only [make] at h; cases h
  | succ fuel =>
    simp only [make] at h
    obtain ⟨n, us, t1, t2, _, h2⟩ := makeMany_ok h
    cases h2

/-- Disagreement: the entries of a typed dictionary are made without subtypes (core.py 518), so that instances of derived classes are
never made; here the class of the entry is abstract and nothing at all is made. -/
theorem entry_never_derived : Has (sample true) (.record [['x']] [.obj 1 [.int 7]]) (.record [(['x'], true)] [.cls 0]) ∧
    ∀ ieee fuel subtypes tape v rest, make (sample true) ieee fuel (.record [(['x'], true)] [.cls 0]) subtypes tape ≠ .ok v rest := by
  refine ⟨.record _ _ _ _ (.present _ _ _ _ _ _ _ _ (.cls 1 0 _ (by decide) (.cons _ _ _ _ (.int 7) .nil) rfl) .empty), ?_⟩
  intro ieee fuel subtypes tape v rest h
  cases fuel with
  | zero => simp only [make] at h; cases h
  | succ fuel =>
    simp only [make] at h
    obtain ⟨⟨ks, us⟩, t1, h1, h2⟩ := bind_ok h
    simp only [fields, if_true, Res.bind] at h1
    cases h1
    obtain ⟨vs, t2, h3, h4⟩ := bind_ok h2
    simp only [makeAll] at h3
    obtain ⟨w, t3, h5, h6⟩ := bind_ok h3
    cases fuel with
    | zero => simp only [make] at h5; cases h5
    | succ fuel =>
      simp only [make, Bool.false_eq_true, if_false, makeClass] at h5
      obtain ⟨args, t4, h7, h8⟩ := bind_ok h5
      simp [sample] at h8

/-! ### Parts of inputs are independent -/

/-- The variables behind the arguments of a function can take any values independently of each other. Missing: typed dictionaries with
a key that begins with another key, and parameters whose name is another one followed by an underscore and more; for both it is false
(`keys_share_variables`, `parameters_share_variable`). -/
theorem inputs_free_partial (ps : List (Name × Thing)) (hk : ∀ p ∈ ps, p.2.KeysApart)
    (hp : ps.Pairwise fun p q => p.1 = q.1 ∨ (¬ p.1 ++ ['_'] <+: q.1 ∧ ¬ q.1 ++ ['_'] <+: p.1)) (counter : Nat) :
    Free (inputVars ps counter).1 :=
  free_of_nodup _ (List.Nodup.of_map _ (inputVars_nodup ps hk hp counter))

/-- Parameters without underscores in their names meet the condition. -/
theorem inputs_free_plain (ps : List (Name × Thing)) (hk : ∀ p ∈ ps, p.2.KeysApart) (hp : ∀ p ∈ ps, '_' ∉ p.1) (counter : Nat) :
    Free (inputVars ps counter).1 := by
  refine inputs_free_partial ps hk ?_ counter
  induction ps with
  | nil => exact List.Pairwise.nil
  | cons p ps ih =>
    refine List.pairwise_cons.mpr ⟨fun q hq => Or.inr ⟨?_, ?_⟩, ih (fun q hq => hk q (List.mem_cons_of_mem _ hq))
      (fun q hq => hp q (List.mem_cons_of_mem _ hq))⟩
    · rintro ⟨r, hr⟩
      exact hp q (List.mem_cons_of_mem _ hq) (by rw [← hr]; simp)
    · rintro ⟨r, hr⟩
      exact hp p (List.mem_cons_self ..) (by rw [← hr]; simp)

example : ∃ ps : List (Name × Thing), (∀ p ∈ ps, p.2.KeysApart) ∧ (∀ p ∈ ps, '_' ∉ p.1) ∧ (inputVars ps 1).1.length = 12 :=
  ⟨[(['a'], .tuple [.str 2, .union 2 .datetime]), (['b'], .record [['x'], ['y']] [.decimal 0, .none])],
    by simp [Thing.KeysApart, Things.KeysApart], by simp,
    by simp [inputVars, shape, tupleParts, recordParts, tails, partTails, parts, intTuple, unionShape, optionalShape, List.range_succ]⟩

/-- Disagreement: entries of a typed dictionary are named after their keys without a fresh number (core.py 518), so that parts of one entry
can share a variable with another entry: the length of `name` with `namelen`, the seconds of the time span `timeout` with `timeout_sec`, the
first item of the tuple `p` with `p_at_0`. -/
theorem keys_share_variables (param : Name) (counter : Nat) :
    ¬ Free (inputVars [(param, .record ["name".toList, "namelen".toList] [.str 0, .int])] counter).1 ∧
    ¬ Free (inputVars [(param, .record ["timeout".toList, "timeout_sec".toList] [.timedelta, .int])] counter).1 ∧
    ¬ Free (inputVars [(param, .record ["p".toList, "p_at_0".toList] [.tuple [.int, .int], .int])] counter).1 := by
  have h0 : dec 0 = ['0'] := by rw [dec]; rfl
  refine ⟨?_, ?_, ?_⟩
  · exact not_free _ 0 1 (by decide) (param ++ (Inputs.uniq counter).2 ++ ".namelen".toList, .int) rfl rfl
  · exact not_free _ 1 3 (by decide) (param ++ (Inputs.uniq counter).2 ++ ".timeout_sec".toList, .int) rfl rfl
  · refine not_free _ 0 2 (by decide) (param ++ (Inputs.uniq counter).2 ++ ".p_at_0".toList, .int) ?_ ?_
    · simp [inputVars, shape, recordParts, tupleParts, tails, partTails, h0]
    · simp [inputVars, shape, recordParts, tupleParts, tails, partTails]

/-- Disagreement: the items of a tuple are named without a fresh number (builtinslib.py 4713-4716), so that in
`def f(a: Tuple[int, int, int, int], a_2_at: int)` the last item of `a` and `a_2_at` are the same variable (numbers begin with 2,
statespace.py 790). -/
theorem parameters_share_variable :
    ¬ Free (inputVars [(['a'], .tuple [.int, .int, .int, .int]), ("a_2_at".toList, .int)] 1).1 := by
  have h2 : Inputs.hex 2 = ['2'] := by rw [Inputs.hex]; rfl
  have h3 : Inputs.hex 3 = ['3'] := by rw [Inputs.hex]; rfl
  have d3 : dec 3 = ['3'] := by rw [dec]; rfl
  refine not_free _ 3 4 (by decide) ("a_2_at_3".toList, .int) ?_ ?_
  · simp [inputVars, shape, tupleParts, tails, partTails, Inputs.uniq, h2, d3]
  · simp [inputVars, shape, tupleParts, tails, partTails, Inputs.uniq, h3]

end Verif.Proxies
