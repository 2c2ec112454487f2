import Verif.Inputs.Model
import Mathlib.Tactic.Linarith
/-
The theorems about arguments.
-/
namespace Verif.Inputs

/-! ### Helper lemmas -/

theorem hexDigit_inj (a b : Nat) (ha : a < 16) (hb : b < 16) (h : hexDigit a = hexDigit b) : a = b := by
  have hall : ∀ i : Fin 16, ∀ j : Fin 16, hexDigit i.1 = hexDigit j.1 → i = j := by decide +kernel
  have := hall ⟨a, ha⟩ ⟨b, hb⟩ h
  simpa using this

theorem hexDigit_ne (d : Nat) (hd : d < 16) : hexDigit d ≠ '_' := by
  have hall : ∀ i : Fin 16, hexDigit i.1 ≠ '_' := by decide +kernel
  exact hall ⟨d, hd⟩

theorem hex_ne (n : Nat) : hex n ≠ [] := by
  rw [hex]
  split <;> simp

theorem hex_no_underscore (n : Nat) : '_' ∉ hex n := by
  induction n using Nat.strongRecOn with
  | ind n ih =>
    rw [hex]
    split
    · rename_i h
      simpa using (hexDigit_ne n h).symm
    · rename_i h
      simp only [List.mem_append, List.mem_singleton, not_or]
      exact ⟨ih (n / 16) (by omega), (hexDigit_ne _ (Nat.mod_lt _ (by omega))).symm⟩

theorem hex_inj (a b : Nat) (h : hex a = hex b) : a = b := by
  induction a using Nat.strongRecOn generalizing b with
  | ind a ih =>
    rw [hex, hex.eq_def b] at h
    by_cases ha : a < 16
    · by_cases hb : b < 16
      · simp only [ha, hb, if_true, List.cons.injEq, and_true] at h
        exact hexDigit_inj a b ha hb h
      · simp only [ha, hb, if_true, if_false] at h
        have hl := congrArg List.length h
        have := List.length_pos_iff.mpr (hex_ne (b / 16))
        rw [List.length_append] at hl
        simp only [List.length_singleton] at hl
        omega
    · by_cases hb : b < 16
      · simp only [ha, hb, if_true, if_false] at h
        have hl := congrArg List.length h
        have := List.length_pos_iff.mpr (hex_ne (a / 16))
        rw [List.length_append] at hl
        simp only [List.length_singleton] at hl
        omega
      · simp only [ha, hb, if_false] at h
        have h2 := List.append_inj' h rfl
        have e1 := ih (a / 16) (by omega) (b / 16) h2.1
        have e2 := hexDigit_inj _ _ (Nat.mod_lt _ (by omega)) (Nat.mod_lt _ (by omega)) (List.cons.inj h2.2).1
        omega

theorem suffix_inj (a b : Name) (x y : List Char) (hx : '_' ∉ x) (hy : '_' ∉ y) (h : a ++ '_' :: x = b ++ '_' :: y) : x = y := by
  induction a generalizing b with
  | nil =>
    cases b with
    | nil => simpa using h
    | cons c b =>
      simp only [List.nil_append, List.cons_append, List.cons.injEq] at h
      exact absurd (by rw [h.2]; simp) hx
  | cons d a ih =>
    cases b with
    | nil =>
      simp only [List.nil_append, List.cons_append, List.cons.injEq] at h
      exact absurd (by rw [← h.2]; simp) hy
    | cons c b =>
      simp only [List.cons_append, List.cons.injEq] at h
      exact ih b h.2

theorem genArgs_names {T V : Type} (make : Request T → Nat → V × Nat) (keys : V → V) (hmake : ∀ r n, n ≤ (make r n).2)
    (ps : List (Param T)) (counter : Nat) :
    ∀ a ∈ (genArgs make keys ps counter).1, ∃ pre k, counter < k ∧ a.request.name = pre ++ '_' :: hex k := by
  induction ps generalizing counter with
  | nil => simp [genArgs]
  | cons p ps ih =>
    intro a ha
    simp only [genArgs, uniq, List.mem_cons] at ha
    rcases ha with rfl | ha
    · refine ⟨p.name, counter + 1, by omega, ?_⟩
      simp only [request]
      split <;> rfl
    · obtain ⟨pre, k, hk, he⟩ := ih _ a ha
      have := hmake (request p (p.name ++ '_' :: hex (counter + 1))) (counter + 1)
      exact ⟨pre, k, by omega, he⟩

/-! ### Arguments -/

/-- Every parameter gets one argument, in order; its value is made for the shape that the kind of the parameter and its annotation
ask for; subtypes are allowed except for `self`. -/
theorem arguments {T V : Type} (make : Request T → Nat → V × Nat) (keys : V → V) (ps : List (Param T)) (counter : Nat) :
    ((genArgs make keys ps counter).1.map Arg.param = ps.map Param.name) ∧
    ∀ (i : Nat) (p : Param T), ps[i]? = some p → ∃ (a : Arg T V) (n : Nat), (genArgs make keys ps counter).1[i]? = some a ∧
      ShapeOf p a.request.shape ∧
      (a.request.subtypes = false ↔ p.name = "self".toList ∧ p.kind ≠ .varPositional ∧ p.kind ≠ .varKeyword) ∧
      (a.value = (make a.request n).1 ∨ (p.kind = .varKeyword ∧ p.ann ≠ none ∧ a.value = keys (make a.request n).1)) := by
  induction ps generalizing counter with
  | nil => simp [genArgs]
  | cons p ps ih =>
    have hi := ih ((make (request p (p.name ++ '_' :: hex (counter + 1))) (counter + 1)).2)
    refine ⟨?_, fun i q hq => ?_⟩
    · simp only [genArgs, uniq, List.map_cons, List.cons.injEq, true_and]
      exact hi.1
    · cases i with
      | succ i =>
        simp only [genArgs, uniq, List.getElem?_cons_succ] at hq ⊢
        exact hi.2 i q hq
      | zero =>
        simp only [List.getElem?_cons_zero, Option.some.injEq] at hq
        subst hq
        refine ⟨_, counter + 1, by simp only [genArgs, uniq, List.getElem?_cons_zero]; rfl, ?_, ?_, ?_⟩
        · simp only [request]
          cases hk : p.kind with
          | varPositional => exact .args hk
          | varKeyword => exact .kwargs hk
          | positionalOnly => exact .other (by simp [hk]) (by simp [hk])
          | positionalOrKeyword => exact .other (by simp [hk]) (by simp [hk])
          | keywordOnly => exact .other (by simp [hk]) (by simp [hk])
        · simp only [request]
          cases hk : p.kind <;> simp
        · by_cases hc : p.kind = .varKeyword ∧ p.ann.isSome
          · refine Or.inr ⟨hc.1, fun h => ?_, ?_⟩
            · rw [h] at hc; exact absurd hc.2 (by simp)
            · simp [hc]
          · exact Or.inl (by simp [hc])

/-- The variables of different arguments have different names, whatever the parameters are called. -/
theorem variables_distinct {T V : Type} (make : Request T → Nat → V × Nat) (keys : V → V) (hmake : ∀ r n, n ≤ (make r n).2)
    (ps : List (Param T)) (counter : Nat) :
    ((genArgs make keys ps counter).1.map fun a => a.request.name).Nodup := by
  induction ps generalizing counter with
  | nil => simp [genArgs]
  | cons p ps ih =>
    simp only [genArgs, uniq, List.map_cons, List.nodup_cons]
    refine ⟨?_, ih _⟩
    intro hm
    obtain ⟨a, ha, he⟩ := List.mem_map.mp hm
    obtain ⟨pre, k, hk, hname⟩ := genArgs_names make keys hmake ps _ a ha
    have hle := hmake (request p (p.name ++ '_' :: hex (counter + 1))) (counter + 1)
    have hr : (request p (p.name ++ '_' :: hex (counter + 1))).name = p.name ++ '_' :: hex (counter + 1) := by
      simp only [request]; split <;> rfl
    rw [hname, hr] at he
    have := hex_inj _ _ (suffix_inj _ _ _ _ (hex_no_underscore k) (hex_no_underscore (counter + 1)) he)
    omega

example : (genArgs (T := Nat) (fun r n => (r.name, n + 1)) id
    [⟨"self".toList, .positionalOrKeyword, some 3⟩, ⟨"a".toList, .varPositional, none⟩, ⟨"k".toList, .varKeyword, some 4⟩] 0).1.map
      (fun a => (a.param, a.request.shape, a.request.subtypes)) =
    [("self".toList, .one (some 3), false), ("a".toList, .list none, true), ("k".toList, .dict (some 4), true)] := by
  simp [genArgs, request, uniq]

example : ((genArgs (T := Nat) (fun r n => (r.name, n)) id
    [⟨"a".toList, .positionalOrKeyword, none⟩, ⟨"a_1".toList, .positionalOrKeyword, none⟩] 0).1.map fun a => a.request.name) =
    ["a_1".toList, "a_1_2".toList] := by
  simp [genArgs, request, uniq, hex, hexDigit]

/-! ### Enumerations and typed dictionaries -/

/-- The value for an enumeration is one of its members, each of them is possible, and without members the attempt is ignored. -/
theorem enum_choice {α : Type} (members : List α) :
    (∀ fork i, chooseEnum fork i members = none ↔ members = []) ∧
    (∀ fork i x, chooseEnum fork i members = some x → x ∈ members) ∧
    (∀ x ∈ members, ∃ fork, chooseEnum fork 0 members = some x) := by
  refine ⟨fun fork i => ?_, fun fork i x => ?_, ?_⟩
  · induction members generalizing i with
    | nil => simp [chooseEnum]
    | cons y l ih =>
      cases l with
      | nil => simp [chooseEnum]
      | cons z l =>
        simp only [chooseEnum, reduceCtorEq, iff_false]
        split
        · simp
        · intro h
          exact absurd ((ih (i + 1)).mp h) (by simp)
  · induction members generalizing i with
    | nil => simp [chooseEnum]
    | cons y l ih =>
      cases l with
      | nil => simp [chooseEnum, eq_comm]
      | cons z l =>
        simp only [chooseEnum]
        split
        · intro h; simp at h; simp [h]
        · intro h
          exact List.mem_cons_of_mem _ (ih (i + 1) h)
  · have gen : ∀ (members : List α) (i : Nat), ∀ x ∈ members, ∃ fork, chooseEnum fork i members = some x := by
      intro members
      induction members with
      | nil => intro i x hx; simp at hx
      | cons y l ih =>
        intro i x hx
        cases l with
        | nil => simp at hx; exact ⟨fun _ => true, by simp [chooseEnum, hx]⟩
        | cons z l =>
          rcases List.mem_cons.mp hx with rfl | hx
          · exact ⟨fun _ => true, by simp [chooseEnum]⟩
          · obtain ⟨fork, hf⟩ := ih (i + 1) x hx
            have hshift : ∀ (l : List α) (f g : Nat → Bool) (j : Nat), (∀ k, j ≤ k → f k = g k) →
                chooseEnum f j l = chooseEnum g j l := by
              intro l
              induction l with
              | nil => intros; simp [chooseEnum]
              | cons a l ih2 =>
                intro f g j h
                cases l with
                | nil => simp [chooseEnum]
                | cons b l =>
                  simp only [chooseEnum, h j (Nat.le_refl j), ih2 f g (j + 1) fun k hk => h k (by omega)]
            refine ⟨fun k => if k = i then false else fork k, ?_⟩
            simp only [chooseEnum, if_true, Bool.false_eq_true, if_false]
            rw [hshift (z :: l) _ fork (i + 1) fun k hk => by rw [if_neg (by omega)]]
            exact hf
    exact fun x hx => gen members 0 x hx

example : chooseEnum (fun i => i == 1) 0 ["red", "green", "blue"] = some "green" := rfl

/-- A typed dictionary has all the required keys and no unknown ones, in order; and any choice of the optional keys is possible. -/
theorem typed_dict_keys {α : Type} (isOptional : Name → Bool) (members : List (Name × α)) :
    (∀ fork i, (typedDict fork isOptional i members).Sublist members) ∧
    (∀ fork i e, e ∈ members → isOptional e.1 = false → e ∈ typedDict fork isOptional i members) ∧
    ((members.map Prod.fst).Nodup → ∀ wanted : Name → Bool, ∃ fork, typedDict fork isOptional 0 members =
      members.filter fun e => !isOptional e.1 || wanted e.1) := by
  refine ⟨fun fork i => ?_, fun fork i e => ?_, fun _ wanted => ?_⟩
  · induction members generalizing i with
    | nil => exact List.Sublist.refl _
    | cons e l ih =>
      simp only [typedDict]
      split
      · exact (ih i).cons_cons e
      · split
        · exact (ih (i + 1)).cons_cons e
        · exact (ih (i + 1)).cons e
  · induction members generalizing i with
    | nil => simp
    | cons d l ih =>
      intro he ho
      simp only [typedDict]
      rcases List.mem_cons.mp he with rfl | he
      · simp [ho]
      · split
        · exact List.mem_cons_of_mem _ (ih i he ho)
        · split
          · exact List.mem_cons_of_mem _ (ih (i + 1) he ho)
          · exact ih (i + 1) he ho
  · have hshift : ∀ (l : List (Name × α)) (f g : Nat → Bool) (j : Nat), (∀ k, j ≤ k → f k = g k) →
        typedDict f isOptional j l = typedDict g isOptional j l := by
      intro l
      induction l with
      | nil => intros; rfl
      | cons a l ih =>
        intro f g j h
        simp only [typedDict, h j (Nat.le_refl j), ih f g j h, ih f g (j + 1) fun k hk => h k (by omega)]
    have gen : ∀ (l : List (Name × α)) (i : Nat), ∃ fork, typedDict fork isOptional i l =
        l.filter fun e => !isOptional e.1 || wanted e.1 := by
      intro l
      induction l with
      | nil => intro i; exact ⟨fun _ => true, rfl⟩
      | cons e l ih =>
        intro i
        cases ho : isOptional e.1 with
        | false =>
          obtain ⟨fork, hf⟩ := ih i
          exact ⟨fork, by simp [typedDict, ho, hf]⟩
        | true =>
          obtain ⟨fork, hf⟩ := ih (i + 1)
          refine ⟨fun k => if k = i then wanted e.1 else fork k, ?_⟩
          have hs := hshift l (fun k => if k = i then wanted e.1 else fork k) fork (i + 1)
            fun k hk => if_neg (by omega)
          have hi : (fun k => if k = i then wanted e.1 else fork k) i = wanted e.1 := if_pos rfl
          generalize (fun k => if k = i then wanted e.1 else fork k) = g at hs hi
          rw [List.filter_cons, ← hf, ← hs, typedDict]
          simp only [ho, hi, Bool.not_true, Bool.false_eq_true, if_false, Bool.false_or]
    exact gen members 0

example : typedDict (fun i => i == 1) (fun k => k != "id".toList) 0 [("id".toList, 1), ("a".toList, 2), ("b".toList, 3)] =
    [("id".toList, 1), ("b".toList, 3)] := by decide +kernel

/-! ### Immutable values -/

/-- Whether an instance of an ordinary class, or a symbolic value that can change, occurs within a tuple or among the parts of a hash. -/
def HidesMutable : Obj → Prop
  | .tuple parts | .hashed parts => ∃ p ∈ parts, Sneaky p
  | _ => False
where
  /-- Whether such a thing occurs in the value. -/
  Sneaky : Obj → Prop
    | .instance => True
    | .symbolic immutable => immutable = false
    | .tuple parts | .hashed parts => SneakyIn parts
    | _ => False
  SneakyIn : List Obj → Prop
    | [] => False
    | p :: ps => Sneaky p ∨ SneakyIn ps

theorem sneakyIn_iff (parts : List Obj) : HidesMutable.SneakyIn parts ↔ ∃ p ∈ parts, HidesMutable.Sneaky p := by
  induction parts with
  | nil => simp [HidesMutable.SneakyIn]
  | cons p ps ih => simp [HidesMutable.SneakyIn, ih]

theorem nativeHashAll_iff (parts : List Obj) : nativeHashAll parts = true ↔ ∀ p ∈ parts, nativeHash p = true := by
  induction parts with
  | nil => simp [nativeHashAll]
  | cons p ps ih => simp [nativeHashAll, ih]

theorem native_of_immutable {o : Obj} (h : Immutable o) : nativeHash o = true := by
  induction h with
  | atom => rfl
  | symbolic => rfl
  | tuple _ ih => rw [nativeHash, nativeHashAll_iff]; exact ih
  | hashed _ ih => rw [nativeHash, nativeHashAll_iff]; exact ih

mutual
theorem immutable_of_native : ∀ (o : Obj), nativeHash o = true → ¬ HidesMutable.Sneaky o → Immutable o
  | .atom, _, _ => .atom
  | .symbolic true, _, _ => .symbolic
  | .symbolic false, _, h => absurd rfl h
  | .container, h, _ => by simp [nativeHash] at h
  | .instance, _, h => absurd trivial h
  | .tuple parts, h, hs => .tuple (immutable_of_natives parts h hs)
  | .hashed parts, h, hs => .hashed (immutable_of_natives parts h hs)

theorem immutable_of_natives : ∀ (parts : List Obj), nativeHashAll parts = true → ¬ HidesMutable.SneakyIn parts →
    ∀ p ∈ parts, Immutable p
  | [], _, _ => by simp
  | q :: qs, h, hs => by
    simp only [nativeHashAll, Bool.and_eq_true] at h
    simp only [HidesMutable.SneakyIn, not_or] at hs
    have h1 := immutable_of_native q h.1 hs.1
    have h2 := immutable_of_natives qs h.2 hs.2
    intro p hp
    rcases List.mem_cons.mp hp with rfl | hp
    · exact h1
    · exact h2 p hp
end

/-- Immutable values are recognised; and what is taken for immutable is, unless an instance of an ordinary class is hidden in a
tuple or among the parts of a hash. -/
theorem immutable_partial (o : Obj) :
    (Immutable o → testingHash o = true) ∧ (testingHash o = true → ¬ HidesMutable o → Immutable o) := by
  refine ⟨fun h => ?_, fun h hs => ?_⟩
  · cases h with
    | atom => rfl
    | symbolic => rfl
    | tuple h => rw [testingHash, nativeHashAll_iff]; exact fun p hp => native_of_immutable (h p hp)
    | hashed h => rw [testingHash, nativeHashAll_iff]; exact fun p hp => native_of_immutable (h p hp)
  · cases o with
    | atom => exact .atom
    | symbolic b => simp only [testingHash] at h; subst h; exact .symbolic
    | container => simp [testingHash] at h
    | «instance» => simp [testingHash] at h
    | tuple parts =>
      simp only [testingHash] at h
      exact .tuple (immutable_of_natives parts h fun hh => hs ((sneakyIn_iff parts).mp hh))
    | hashed parts =>
      simp only [testingHash] at h
      exact .hashed (immutable_of_natives parts h fun hh => hs ((sneakyIn_iff parts).mp hh))

example : Immutable (.tuple [.atom, .hashed [.symbolic true]]) ∧ testingHash (.tuple [.atom, .tuple [.container]]) = false := by
  refine ⟨.tuple fun p hp => ?_, rfl⟩
  rcases List.mem_cons.mp hp with rfl | hp
  · exact .atom
  · rcases List.mem_singleton.mp hp with rfl
    exact .hashed fun q hq => by rcases List.mem_singleton.mp hq with rfl; exact .symbolic

/-- Disagreement: an instance of an ordinary class counts as mutable, but a tuple with it counts as deeply immutable. -/
theorem tuple_hides_mutable : testingHash .instance = false ∧ testingHash (.tuple [.instance]) = true ∧
    ¬ Immutable (.tuple [.instance]) := by
  refine ⟨rfl, rfl, fun h => ?_⟩
  cases h with
  | tuple h => cases h _ List.mem_cons_self

theorem popAll_reverse (stack : List Nat) : popAll stack stack.reverse = some [] := by
  generalize hr : stack.reverse = r
  induction r generalizing stack with
  | nil => rw [List.reverse_eq_nil_iff.mp hr]; rfl
  | cons m ms ih =>
    have hs : stack = ms.reverse ++ [m] := by
      have := congrArg List.reverse hr
      simpa using this
    simp only [popAll, popModule, hs, List.getLast?_concat, if_true, List.dropLast_concat]
    exact ih ms.reverse (by simp)

/-- While the value is hashed only the intercepting module is active, and afterwards the modules are as before, whatever happens; the
answer is whether hashing succeeded, and exceptions other than `TypeError` are passed on. -/
theorem modules_restored (stack : List Nat) (intercept : Nat) (hash : Outcome) :
    ∃ answer, isDeeplyImmutable stack intercept hash = some (answer, [intercept], stack) ∧
      (answer = some true ↔ hash = .ok) ∧ (answer = some false ↔ hash = .typeError) := by
  have h : popModule [intercept] intercept = some [] := by simp [popModule]
  cases hash
  · exact ⟨some true, by simp [isDeeplyImmutable, popAll_reverse, h], by simp, by simp⟩
  · exact ⟨some false, by simp [isDeeplyImmutable, popAll_reverse, h], by simp, by simp⟩
  · exact ⟨none, by simp [isDeeplyImmutable, popAll_reverse, h], by simp, by simp⟩

example : isDeeplyImmutable [1, 2, 2] 9 .typeError = some (some false, [9], [1, 2, 2]) := rfl

end Verif.Inputs
