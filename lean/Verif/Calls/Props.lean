import Verif.Calls.Lemmas
import Batteries.Lean.Except
/-
Properties of the replacement of calls.
-/
namespace Verif.Calls

/-! ### Theorems -/

/-- What is called after the interception: the replacement, with the same arguments, and with renamed keywords. -/
def expected {α : Type} (H : α → Except Unit (Option α)) (K : α → Except Unit α) (c : Call α) : Except Unit (Call α) := do
  let kw ← match c.kwargs with
    | none => pure none
    | some kw => do pure (some (← K kw))
  let f ← H c.fn
  pure { c with fn := f.getD c.fn, kwargs := kw }

/-- The stack after the interception performs the call `c'`, or the interception raises what `expected` raises. -/
def Agrees {α : Type} (v : Version) (op : Opcode) (n : Nat) (r : Except Unit (Stack α)) (c' : Except Unit (Call α)) : Prop :=
  match c', r with
  | .ok c', .ok st' => interp v op n st' = some c'
  | .error _, .error _ => True
  | _, _ => False

theorem agrees_fn {α : Type} (H : α → Except Unit (Option α)) (K : α → Except Unit α) (v : Version) (op : Opcode) (n byte k : Nat) (st : Stack α)
    (c : Call α) (hc : interp v op n st = some c) (hkw : c.kwargs = none)
    (hinfo : callInfo v op byte st = .ok (some ⟨k, some c.fn, none⟩))
    (hw : ∀ g, interp v op n (writeAt st k g) = some { c with fn := g }) :
    Agrees v op n (traceOp H K v op byte st) (expected H K c) := by
  obtain ⟨fn, args, extra, kwargs⟩ := c
  cases hkw
  unfold traceOp expected Agrees
  simp only [hinfo, bind, Except.bind, pure, Except.pure]
  cases hH : H fn with
  | error e => trivial
  | ok r =>
    cases r with
    | none => exact hc
    | some g => exact hw g

/-- C235: whatever instruction, version of Python, number of arguments and stack: the replacement of what is called is called, with the
same arguments; only the keywords of a dictionary are renamed. Partial: for less than 256 arguments (see `many_arguments`). -/
theorem callee_replaced_partial {α : Type} (H : α → Except Unit (Option α)) (K : α → Except Unit α) (v : Version) (op : Opcode) (n : Nat)
    (hn : n < 256) (st : Stack α) (c : Call α) (hc : interp v op n st = some c) :
    Agrees v op n (traceOp H K v op (n % 256) st) (expected H K c) := by
  rw [Nat.mod_eq_of_lt hn]
  have plain_case : ∀ (extra : List α) (p : List α × Stack α), plain extra p = some c →
      readAt p.2 1 = some c.fn ∧ c.kwargs = none ∧ ∀ g, plain extra (p.1, writeAt p.2 1 g) = some { c with fn := g } := by
    rintro extra ⟨as, r⟩ h
    match r with
    | some f :: r =>
      cases h
      exact ⟨rfl, rfl, fun g => rfl⟩
  have method_case : ∀ (p : List α × Stack α), methodFirst p = some c →
      c.kwargs = none ∧ ((readAt p.2 2 = some c.fn ∧ ∀ g, methodFirst (p.1, writeAt p.2 2 g) = some { c with fn := g }) ∨
      (readAt p.2 2 = none ∧ readAt p.2 1 = some c.fn ∧ ∀ g, methodFirst (p.1, writeAt p.2 1 g) = some { c with fn := g })) := by
    rintro ⟨as, r⟩ h
    match r with
    | some f :: none :: r =>
      cases h
      exact ⟨rfl, .inr ⟨rfl, rfl, fun g => rfl⟩⟩
    | some self :: some m :: r =>
      cases h
      exact ⟨rfl, .inl ⟨rfl, fun g => rfl⟩⟩
  have self_case : ∀ (extra : List α) (p : List α × Stack α), selfFirst extra p = some c →
      readAt p.2 2 = some c.fn ∧ c.kwargs = none ∧ ∀ g, selfFirst extra (p.1, writeAt p.2 2 g) = some { c with fn := g } := by
    rintro extra ⟨as, r⟩ h
    match r with
    | none :: some f :: r =>
      cases h
      exact ⟨rfl, rfl, fun g => rfl⟩
    | some self :: some f :: r =>
      cases h
      exact ⟨rfl, rfl, fun g => rfl⟩
  have callCase : ∀ (v : Version) (st : Stack α), v = .py313 ∨ v = .py314 → interp v .call n st = some c →
      Agrees v .call n (traceOp H K v .call n st) (expected H K c) := by
    rintro v st hv hc
    have hi : ∀ st : Stack α, interp v .call n st = (popArgs n st).bind (selfFirst []) := by
      rcases hv with rfl | rfl <;> exact fun _ => rfl
    have hc' := hc
    rw [hi] at hc'
    obtain ⟨p, h1, h2⟩ := Option.bind_eq_some_iff.1 hc'
    obtain ⟨h3, h4, h5⟩ := self_case [] p h2
    have hr := popArgs_read n st _ _ h1 2 (by omega)
    rw [h3] at hr
    refine agrees_fn H K v .call n n (n + 2) st c hc h4 ?_ fun g => ?_
    · rcases hv with rfl | rfl <;> simp only [callInfo, hr]
    · rw [hi, popArgs_write n st _ _ h1 2 (by omega)]
      exact h5 g
  have kwCase : ∀ (v : Version) (st : Stack α), v = .py313 ∨ v = .py314 → interp v .callKw n st = some c →
      Agrees v .callKw n (traceOp H K v .callKw n st) (expected H K c) := by
    rintro v st hv hc
    match st with
    | [] => rcases hv with rfl | rfl <;> cases hc
    | none :: st => rcases hv with rfl | rfl <;> cases hc
    | some names :: st =>
      have hi : ∀ st : Stack α, interp v .callKw n (some names :: st) = (popArgs n st).bind (selfFirst [names]) := by
        rcases hv with rfl | rfl <;> exact fun _ => rfl
      have hc' := hc
      rw [hi] at hc'
      obtain ⟨p, h1, h2⟩ := Option.bind_eq_some_iff.1 hc'
      obtain ⟨h3, h4, h5⟩ := self_case _ p h2
      have hr := popArgs_read n st _ _ h1 2 (by omega)
      rw [h3] at hr
      refine agrees_fn H K v .callKw n n (n + 3) _ c hc h4 ?_ fun g => ?_
      · have hr' : readAt (some names :: st) (n + 3) = some c.fn := by rw [← hr]; exact readAt_cons _ _ (n + 2) (by omega)
        rw [callInfo]
        simp only [if_pos hv, hr']
      · rw [show n + 3 = (n + 2) + 1 from rfl, writeAt_cons _ _ _ (by omega), hi, popArgs_write n st _ _ h1 2 (by omega)]
        exact h5 g
  have starCase : ∀ (v : Version) (st : Stack α), v = .py310 ∨ v = .py311 → interp v .callFunctionEx n st = some c →
      Agrees v .callFunctionEx n (traceOp H K v .callFunctionEx n st) (expected H K c) := by
    rintro v st hv hc
    match st with
    | [] => rcases hv with rfl | rfl <;> cases hc
    | [_] => rcases hv with rfl | rfl <;> cases hc
    | x :: y :: st =>
      have hi : ∀ x y, ∀ st : Stack α, interp v .callFunctionEx n (x :: y :: st) = interp.starred (n % 2 = 1) x y st := by
        rcases hv with rfl | rfl <;> exact fun _ _ _ => rfl
      have hc' := hc
      rw [hi] at hc'
      by_cases h : n % 2 = 1
      · have hinfo : ∀ st : Stack α, callInfo v .callFunctionEx n st = .ok (some ⟨3, readAt st 3, some 1⟩) := by
          rcases hv with rfl | rfl <;> simp [callInfo, h]
        simp only [interp.starred, h, decide_true, if_true] at hc' hi
        split at hc'
        · rename_i kw tup f rest
          cases hc'
          unfold traceOp expected Agrees
          simp only [hinfo, bind, Except.bind, pure, Except.pure, readAt, writeAt, Nat.sub_self, List.getElem?_cons_zero, Option.join_some,
            List.getElem?_cons_succ, Nat.reduceSub, List.set_cons_zero, List.set_cons_succ]
          cases hK : K kw with
          | error e => trivial
          | ok kw' =>
            simp only
            cases hH : H f with
            | error e => trivial
            | ok r =>
              cases r with
              | none => simp only [hi, Option.getD_none]
              | some g => simp only [hi, Option.getD_some]
        · cases hc'
      · simp only [interp.starred, h, decide_false, Bool.false_eq_true, if_false] at hc' hi
        have hinfo : ∀ st : Stack α, callInfo v .callFunctionEx n st = .ok (some ⟨2, readAt st 2, none⟩) := by
          have : n % 2 = 0 := by omega
          rcases hv with rfl | rfl <;> simp [callInfo, this]
        match x, y with
        | none, _ => cases hc'
        | some tup, none => cases hc'
        | some tup, some f =>
          cases hc'
          refine agrees_fn H K v .callFunctionEx n n 2 _ _ hc rfl ?_ fun g => ?_
          · rw [hinfo]; rfl
          · exact hi _ _ _
  cases v <;> cases op
  case py310.callFunction =>
    have hc' := hc
    obtain ⟨p, h1, h2⟩ := Option.bind_eq_some_iff.1 hc'
    obtain ⟨h3, h4, h5⟩ := plain_case _ p h2
    have hr := popArgs_read n st _ _ h1 1 (by omega)
    rw [h3] at hr
    refine agrees_fn H K _ _ n n (n + 1) _ c hc h4 (by simp [callInfo, hr]) fun g => ?_
    show (popArgs n _).bind (plain []) = _
    rw [popArgs_write n st _ _ h1 1 (by omega)]
    exact h5 g
  case py310.callFunctionKw =>
    match st with
    | [] => cases hc
    | none :: st => cases hc
    | some names :: st =>
      obtain ⟨p, h1, h2⟩ := Option.bind_eq_some_iff.1 (show (popArgs n st).bind (plain [names]) = some c from hc)
      obtain ⟨h3, h4, h5⟩ := plain_case _ p h2
      have hr := popArgs_read n st _ _ h1 1 (by omega)
      rw [h3] at hr
      have hr' : readAt (some names :: st) (n + 2) = some c.fn := by rw [← hr]; exact readAt_cons _ _ (n + 1) (by omega)
      refine agrees_fn H K _ _ n n (n + 2) _ c hc h4 (by simp [callInfo, hr']) fun g => ?_
      rw [show n + 2 = (n + 1) + 1 from rfl, writeAt_cons _ _ _ (by omega)]
      show (popArgs n _).bind (plain [names]) = _
      rw [popArgs_write n st _ _ h1 1 (by omega)]
      exact h5 g
  case py310.callMethod =>
    obtain ⟨p, h1, h2⟩ := Option.bind_eq_some_iff.1 (show (popArgs n st).bind methodFirst = some c from hc)
    have hr2 := popArgs_read n st _ _ h1 2 (by omega)
    have hr1 := popArgs_read n st _ _ h1 1 (by omega)
    obtain ⟨h4, ⟨h5, h6⟩ | ⟨h5, h6, h7⟩⟩ := method_case p h2
    · rw [h5] at hr2
      refine agrees_fn H K _ _ n n (n + 2) _ c hc h4 (by simp [callInfo, hr2]) fun g => ?_
      show (popArgs n _).bind methodFirst = _
      rw [popArgs_write n st _ _ h1 2 (by omega)]
      exact h6 g
    · rw [h5] at hr2
      rw [h6] at hr1
      refine agrees_fn H K _ _ n n (n + 1) _ c hc h4 (by simp [callInfo, hr2, hr1]) fun g => ?_
      show (popArgs n _).bind methodFirst = _
      rw [popArgs_write n st _ _ h1 1 (by omega)]
      exact h7 g
  case py311.call =>
    obtain ⟨p, h1, h2⟩ := Option.bind_eq_some_iff.1 (show (popArgs n st).bind methodFirst = some c from hc)
    have hr2 := popArgs_read n st _ _ h1 2 (by omega)
    have hr1 := popArgs_read n st _ _ h1 1 (by omega)
    obtain ⟨h4, ⟨h5, h6⟩ | ⟨h5, h6, h7⟩⟩ := method_case p h2
    · rw [h5] at hr2
      refine agrees_fn H K _ _ n n (n + 2) _ c hc h4 (by simp [callInfo, hr2]) fun g => ?_
      show (popArgs n _).bind methodFirst = _
      rw [popArgs_write n st _ _ h1 2 (by omega)]
      exact h6 g
    · rw [h5] at hr2
      rw [h6] at hr1
      refine agrees_fn H K _ _ n n (n + 1) _ c hc h4 (by simp [callInfo, hr2, hr1]) fun g => ?_
      show (popArgs n _).bind methodFirst = _
      rw [popArgs_write n st _ _ h1 1 (by omega)]
      exact h7 g
  case py313.call => exact callCase _ _ (.inl rfl) hc
  case py314.call => exact callCase _ _ (.inr rfl) hc
  case py313.callKw => exact kwCase _ _ (.inl rfl) hc
  case py314.callKw => exact kwCase _ _ (.inr rfl) hc
  case py310.callFunctionEx => exact starCase _ _ (.inl rfl) hc
  case py311.callFunctionEx => exact starCase _ _ (.inr rfl) hc
  case py313.callFunctionEx =>
    match st with
    | [] => cases hc
    | [_] => cases hc
    | [_, _] => cases hc
    | x :: y :: z :: st =>
      have hi : ∀ x y z, ∀ st : Stack α, interp .py313 .callFunctionEx n (x :: y :: z :: st) = if n % 2 = 1 then
          (match x, y, z, st with
          | some kw, some tup, none, some f :: _ => some ⟨f, [], [tup], some kw⟩
          | _, _, _, _ => none)
        else
          match x, y, z with
          | some tup, none, some f => some ⟨f, [], [tup], none⟩
          | _, _, _ => none := fun _ _ _ _ => rfl
      have hc' := hc
      rw [hi] at hc'
      by_cases h : n % 2 = 1
      · have hinfo : ∀ st : Stack α, callInfo .py313 .callFunctionEx n st = .ok (some ⟨4, readAt st 4, some 1⟩) := by
          simp [callInfo, h]
        simp only [h, if_true] at hc' hi
        split at hc'
        · rename_i kw tup f rest
          cases hc'
          unfold traceOp expected Agrees
          simp only [hinfo, bind, Except.bind, pure, Except.pure, readAt, writeAt, Nat.sub_self, List.getElem?_cons_zero, Option.join_some,
            List.getElem?_cons_succ, Nat.reduceSub, List.set_cons_zero, List.set_cons_succ]
          cases hK : K kw with
          | error e => trivial
          | ok kw' =>
            simp only
            cases hH : H f with
            | error e => trivial
            | ok r =>
              cases r with
              | none => simp only [hi, Option.getD_none]
              | some g => simp only [hi, Option.getD_some]
        · cases hc'
      · simp only [h, if_false] at hc' hi
        have hinfo : ∀ st : Stack α, callInfo .py313 .callFunctionEx n st = .ok (some ⟨3, readAt st 3, none⟩) := by
          have : n % 2 = 0 := by omega
          simp [callInfo, this]
        split at hc'
        · rename_i tup f
          cases hc'
          refine agrees_fn H K _ .callFunctionEx n n 3 _ _ hc rfl ?_ fun g => ?_
          · rw [hinfo]; rfl
          · exact hi _ _ _ _
        · cases hc'
  case py314.callFunctionEx =>
    match st, hc with
    | kw :: some tup :: none :: some f :: st, hc =>
      cases hc
      have hi : ∀ (kw : Option α) (f : α), interp .py314 .callFunctionEx n (kw :: some tup :: none :: some f :: st) = some ⟨f, [], [tup], kw⟩ :=
        fun _ _ => rfl
      have hinfo : ∀ st : Stack α, callInfo .py314 .callFunctionEx n st = .ok (some ⟨4, readAt st 4, some 1⟩) := fun _ => rfl
      unfold traceOp expected Agrees
      simp only [hinfo, bind, Except.bind, pure, Except.pure, readAt, writeAt, Nat.sub_self, List.getElem?_cons_zero, Option.join_some,
        List.getElem?_cons_succ, Nat.reduceSub, List.set_cons_zero, List.set_cons_succ]
      cases kw with
      | none =>
        simp only
        cases hH : H f with
        | error e => trivial
        | ok r =>
          cases r with
          | none => rfl
          | some g => rfl
      | some kw =>
        simp only
        cases hK : K kw with
        | error e => trivial
        | ok kw' =>
          simp only
          cases hH : H f with
          | error e => trivial
          | ok r =>
            cases r with
            | none => rfl
            | some g => rfl
  all_goals cases hc

example : interp .py313 .callKw 2 [some 9, some 2, some 1, none, some 7, some 8] = some ⟨7, [1, 2], [9], none⟩ ∧
    traceOp (fun f => .ok (if f = 7 then some 70 else none)) .ok .py313 .callKw 2 [some 9, some 2, some 1, none, some 7, some 8] =
      .ok [some 9, some 2, some 1, none, some 70, some 8] := by decide +kernel
example : interp .py311 .call 1 [some 2, some 1, some 7] = some ⟨7, [1, 2], [], none⟩ ∧
    interp .py314 .callFunctionEx 1 [some 5, some 3, none, some 7] = some ⟨7, [], [3], some 5⟩ := by decide +kernel

/-- Disagreement: with 256 arguments, an argument is taken for what is called; if it is a function that has a replacement, the call gets
another argument, and the function that is called is not replaced. (Not in 3.12 and 3.13, where such a call is not intercepted at all: see
`Depths.prefixed_not_traced`.) -/
theorem many_arguments : ∃ (st st' : Stack Nat) (c c' : Call Nat), interp .py314 .call 256 st = some c ∧
    traceOp (fun f => .ok (if f < 2 then some (f + 100) else none)) .ok .py314 .call (256 % 256) st = .ok st' ∧
    interp .py314 .call 256 st' = some c' ∧ c.fn = 0 ∧ c'.fn = 0 ∧ c.args ≠ c'.args := by
  refine ⟨some 5 :: some 1 :: List.replicate 254 (some 6) ++ [none, some 0], some 5 :: some 101 :: List.replicate 254 (some 6) ++ [none, some 0],
    ⟨0, List.replicate 254 6 ++ [1, 5], [], none⟩, ⟨0, List.replicate 254 6 ++ [101, 5], [], none⟩, ?_, ?_, ?_, rfl, rfl, ?_⟩ <;> decide +kernel

/-- The name that a key stands for. -/
def Key.name : Key → Option String
  | .str s | .sym s => some s
  | .other => none

/-- C235: the keywords of a call are the same, in the same order, symbolic ones by the names they stand for; anything else is an error. -/
theorem keywords_kept {β : Type} (kw : List (Key × β)) (names : List String) (h : kw.map (·.1.name) = names.map some) (hn : names.Nodup) :
    fixKwargs kw [] = .ok (names.zip (kw.map (·.2))) := by
  have main : ∀ (kw : List (Key × β)) (names : List String) (acc : List (String × β)), kw.map (·.1.name) = names.map some →
      (acc.map (·.1) ++ names).Nodup → fixKwargs kw acc = .ok (acc ++ names.zip (kw.map (·.2))) := by
    intro kw
    induction kw with
    | nil =>
      intro names acc h _
      cases names with
      | nil => simp [fixKwargs]
      | cons _ _ => cases h
    | cons p kw ih =>
      intro names acc h hn
      cases names with
      | nil => cases h
      | cons nm names =>
        simp only [List.map_cons, List.cons.injEq] at h
        have hnew : nm ∉ acc.map (·.1) := fun hm => (List.nodup_append.1 hn).2.2 nm hm nm (List.mem_cons_self ..) rfl
        have hn' : ((acc ++ [(nm, p.2)]).map (·.1) ++ names).Nodup := by
          rw [List.map_append, List.append_assoc]
          exact hn
        have step : fixKwargs (p :: kw) acc = fixKwargs kw (put acc nm p.2) := by
          obtain ⟨k, v⟩ := p
          cases k with
          | str s =>
            have : s = nm := by simpa [Key.name] using h.1
            rw [fixKwargs, this]
          | sym s =>
            have : s = nm := by simpa [Key.name] using h.1
            rw [fixKwargs, this]
          | other => exact absurd h.1 (by simp [Key.name])
        rw [step, put_new _ _ _ hnew, ih names _ h.2 hn']
        simp
  simpa using main kw names [] h (by simpa using hn)

/-- C235: a keyword that is no string is a `TypeError`. -/
theorem keyword_other {β : Type} (kw : List (Key × β)) (acc : List (String × β)) (h : ∃ p ∈ kw, p.1 = .other) : fixKwargs kw acc = .error () := by
  induction kw generalizing acc with
  | nil => obtain ⟨_, hp, _⟩ := h; cases hp
  | cons p kw ih =>
    obtain ⟨k, v⟩ := p
    cases k with
    | other => rfl
    | str s =>
      rw [fixKwargs]
      refine ih _ ?_
      obtain ⟨q, hq, e⟩ := h
      rcases List.mem_cons.1 hq with rfl | hq
      · cases e
      · exact ⟨q, hq, e⟩
    | sym s =>
      rw [fixKwargs]
      refine ih _ ?_
      obtain ⟨q, hq, e⟩ := h
      rcases List.mem_cons.1 hq with rfl | hq
      · cases e
      · exact ⟨q, hq, e⟩

example : fixKwargs [(.str "a", 1), (.sym "b", 2)] [] = .ok [("a", 1), ("b", 2)] := by decide

/-! ### Which function is replaced -/

/-- A function itself, not something that leads to one. -/
def Direct : Obj → Prop
  | .func _ | .cls _ | .descr _ | .native .. => True
  | _ => False

/-- The objects for which the function behind them is found: a built-in method is found in the class of its object under its name, a
function of a module is not found in the class of modules, and an object that is called has no attributes that hide those of its class. -/
def Regular (W : World) : Obj → Prop
  | .func _ | .cls _ | .descr _ => True
  | .native owner name _ => owner = .none ∨ W.attr (W.cls owner) name = none
  | .method self fn => self ≠ .none ∧ Direct fn
  | .bound self name d => self ≠ .none ∧ W.attr (W.cls self) name = some (.descr d)
  | .inst i => W.dict i "__self__" = none ∧ W.attr (W.cls (.inst i)) "__self__" = none ∧ W.dict i "__call__" = none ∧
      ∃ o, W.attr (W.cls (.inst i)) "__call__" = some o ∧ ((∃ f, o = .func f) ∨ ∃ d, o = .descr d)
  | _ => False

/-- A function after patching. -/
def patched (ov : Obj → Option Nat) (untracable : Obj → Bool) (f : Obj) : Obj :=
  if untracable f then f else match ov f with | some g => .func g | none => f

/-- What the object leads to. -/
theorem normalize_regular (W : World) (o : Obj) (h : Regular W o) : ∃ f b, normalize W o = .ok (f, b) ∧ Direct f ∧
    (∀ as, perform W o as = some (f, b.toList ++ as)) := by
  cases o with
  | func f => exact ⟨.func f, none, rfl, trivial, fun _ => rfl⟩
  | cls f => exact ⟨.cls f, none, rfl, trivial, fun _ => rfl⟩
  | descr f => exact ⟨.descr f, none, rfl, trivial, fun _ => rfl⟩
  | native owner name n =>
    refine ⟨.native owner name n, none, ?_, trivial, fun _ => rfl⟩
    rcases h with rfl | h
    · rfl
    · cases hp : present (some owner) with
      | none => simp [normalize, Obj.selfless, selfOf, hp, Obj.normal]
      | some s =>
        have : s = owner := by
          cases owner <;> simp [present] at hp <;> exact hp.symm
        subst this
        simp [normalize, Obj.selfless, selfOf, hp, funcOf, nameOf, h]
  | method self fn =>
    obtain ⟨h1, h2⟩ := h
    refine ⟨fn, some self, ?_, h2, fun as => ?_⟩
    · simp [normalize, Obj.selfless, selfOf, present_of h1, funcOf]
    · cases fn <;> first | rfl | exact absurd h2 id
  | bound self name d =>
    obtain ⟨h1, h2⟩ := h
    refine ⟨.descr d, some self, ?_, trivial, fun _ => rfl⟩
    simp [normalize, Obj.selfless, selfOf, present_of h1, funcOf, nameOf, h2]
  | inst i =>
    obtain ⟨h1, h2, h3, o, h4, ⟨f, rfl⟩ | ⟨d, rfl⟩⟩ := h
    · refine ⟨.func f, some (.inst i), ?_, trivial, fun as => ?_⟩
      · simp [normalize, Obj.selfless, selfOf, generic, h1, h2, h3, h4, Obj.normal, callOf, present, funcOf]
      · simp [perform, h4]
    · refine ⟨.descr d, some (.inst i), ?_, trivial, fun as => ?_⟩
      · simp [normalize, Obj.selfless, selfOf, generic, h1, h2, h3, h4, Obj.normal, callOf, present, funcOf, nameOf]
      · simp [perform, h4]
  | module _ => exact absurd h id
  | none => exact absurd h id

/-- C236: whatever is called, directly, as a method or as an object: instead of a function that has a replacement, the replacement is
executed, with the same arguments; without replacement, nothing changes. Partial: for regular objects (see `super_method`,
`instance_call` and `none_method`). -/
theorem call_replaced_partial (W : World) (ov : Obj → Option Nat) (untracable : Obj → Bool) (o : Obj) (h : Regular W o) :
    ∃ r, replace W ov untracable o = .ok r ∧ ∀ as, perform W (r.getD o) as = (perform W o as).map fun p => (patched ov untracable p.1, p.2) := by
  obtain ⟨f, b, h1, h2, h3⟩ := normalize_regular W o h
  unfold replace
  simp only [h1]
  by_cases hu : untracable f = true
  · refine ⟨none, by rw [if_pos hu], fun as => ?_⟩
    simp only [Option.getD_none, h3, Option.map_some, patched, if_pos hu]
  · rw [if_neg hu]
    cases hov : ov f with
    | none =>
      refine ⟨none, rfl, fun as => ?_⟩
      simp only [Option.getD_none, h3, Option.map_some, patched, if_neg hu, hov]
    | some g =>
      cases b with
      | none =>
        refine ⟨_, rfl, fun as => ?_⟩
        simp only [Option.getD_some, h3, Option.map_some, patched, if_neg hu, hov, perform, Option.toList_none, List.nil_append]
      | some s =>
        refine ⟨_, rfl, fun as => ?_⟩
        simp only [Option.getD_some, h3, Option.map_some, patched, if_neg hu, hov, perform, Option.toList_some, List.cons_append,
          List.nil_append]

/-- A class `1` with a method `append` (function 10), derived from `list`, whose `append` is the descriptor 20. -/
def sample : World where
  cls o := match o with | .inst 0 => 0 | .inst _ => 1 | _ => 9
  attr c nm := if nm = "append" then (if c = 0 then some (.descr 20) else if c = 1 then some (.func 10) else none)
    else if nm = "__call__" ∧ c = 1 then some (.func 11) else none
  dict i nm := if i = 2 ∧ nm = "__call__" then some (.native (.module 0) "len" 5) else none

example : Regular sample (.bound (.inst 0) "append" 20) ∧ Regular sample (.native (.module 0) "len" 5) ∧ Regular sample (.inst 1) ∧
    Regular sample (.method (.inst 1) (.func 10)) :=
  ⟨⟨by decide, by decide⟩, .inr (by decide), ⟨by decide, by decide, by decide, .func 11, by decide, .inl ⟨11, rfl⟩⟩, by decide, trivial⟩
example : replace sample (fun o => if o = .descr 20 then some 30 else none) (fun _ => false) (.bound (.inst 0) "append" 20) =
    .ok (some (.method (.inst 0) (.func 30))) := by decide

/-- Disagreement: the built-in method that `super()` gives is taken for the method of the class that overrides it. If that has a
replacement (as it has when it has contracts), this replacement is executed: the method calls itself. -/
theorem super_method (W : World) (ov : Obj → Option Nat) (self : Obj) (name : String) (d f g : Nat) (hs : self ≠ .none)
    (hover : W.attr (W.cls self) name = some (.func f)) (hg : ov (.func f) = some g) :
    ∃ o', replace W ov (fun _ => false) (.bound self name d) = .ok (some o') ∧
      ∀ as, perform W (.bound self name d) as = some (.descr d, self :: as) ∧ perform W o' as = some (.func g, self :: as) := by
  refine ⟨.method self (.func g), ?_, fun as => ⟨rfl, rfl⟩⟩
  have : normalize W (.bound self name d) = .ok (.func f, some self) := by
    simp [normalize, Obj.selfless, selfOf, present_of hs, funcOf, nameOf, hover]
  unfold replace
  simp [this, hg]

example : ∃ o', replace sample (fun o => if o = .func 10 then some 30 else none) (fun _ => false) (.bound (.inst 1) "append" 20) = .ok (some o') ∧
    perform sample o' [.inst 5] = some (.func 30, [.inst 1, .inst 5]) := ⟨.method (.inst 1) (.func 30), by decide, by decide⟩

/-- Disagreement: an object that has an attribute `__call__` of its own, which Python ignores, is not called when that attribute is a
function with a replacement; the replacement is, without the object. -/
theorem instance_call : ∃ o', replace sample (fun o => if o = .native (.module 0) "len" 5 then some 30 else none) (fun _ => false) (.inst 2) = .ok (some o') ∧
    ∀ as, perform sample (.inst 2) as = some (.func 11, .inst 2 :: as) ∧ perform sample o' as = some (.func 30, as) :=
  ⟨.func 30, by decide, fun _ => ⟨rfl, rfl⟩⟩

/-- Disagreement: a method of `None` is never replaced. -/
theorem none_method (W : World) (ov : Obj → Option Nat) (name : String) (d : Nat) (h : ov (.bound .none name d) = none) :
    replace W ov (fun _ => false) (.bound .none name d) = .ok none := by
  have : normalize W (.bound .none name d) = .ok (.bound .none name d, none) := rfl
  unfold replace
  simp [this, h]

/-- C236: at an instruction, too: the replacement of the function behind what is called is executed, with all the arguments. Partial: as
above, and for less than 256 arguments. -/
theorem instruction_replaced_partial (W : World) (ov : Obj → Option Nat) (untracable : Obj → Bool) (v : Version) (op : Opcode) (n : Nat)
    (hn : n < 256) (st : Stack Obj) (c : Call Obj) (hc : interp v op n st = some c) (hr : Regular W c.fn) (hk : c.kwargs = none) :
    ∃ st' c', traceOp (replace W ov untracable) .ok v op (n % 256) st = .ok st' ∧ interp v op n st' = some c' ∧
      c'.args = c.args ∧ c'.extra = c.extra ∧
      ∀ as, perform W c'.fn as = (perform W c.fn as).map fun p => (patched ov untracable p.1, p.2) := by
  obtain ⟨r, h1, h2⟩ := call_replaced_partial W ov untracable c.fn hr
  have h := callee_replaced_partial (replace W ov untracable) .ok v op n hn st c hc
  unfold expected Agrees at h
  simp only [hk, h1, bind, Except.bind, pure, Except.pure] at h
  cases ht : traceOp (replace W ov untracable) .ok v op (n % 256) st with
  | error e => rw [ht] at h; exact absurd h id
  | ok st' =>
    rw [ht] at h
    exact ⟨st', _, rfl, h, rfl, rfl, h2⟩

end Verif.Calls
