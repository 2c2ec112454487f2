import Verif.Cells.Model
import Mathlib.Tactic.Push
import Mathlib.Tactic.Linarith
import Mathlib.Tactic.NormNum
import Mathlib.Algebra.Order.Field.Basic
import Mathlib.Algebra.Order.Field.Rat
import Mathlib.Data.Rat.Cast.Order
/-
Small stores: dictionaries by identity with a garbage collector, variables of dynamic scope with threads, saved results, and coverage.
-/
namespace Verif.Cells

variable {V : Type}

/-! ### Dictionaries by identity -/

/-- What holds in all processes, beside the abstract dictionary. -/
structure Fits (m : Mem V) (d : Nat → Option V) : Prop where
  fresh : ∀ o, m.next ≤ o → m.addr o = none
  apart : ∀ o p a, m.addr o = some a → m.addr p = some a → o = p
  kept : ∀ a o v, (a, o, v) ∈ m.inner → m.addr o = some a
  nodup : (m.inner.map Prod.fst).Nodup
  same : ∀ o v, d o = some v ↔ ∃ a, (a, o, v) ∈ m.inner

theorem start_fits : Fits (start : Mem V) fun _ => none :=
  ⟨fun _ _ => rfl, fun _ _ _ h => by simp [start] at h, fun _ _ _ h => by simp [start] at h, by simp [start], fun o v => by simp [start]⟩

theorem mem_lookup {β : Type} (l : List (Nat × β)) (hn : (l.map Prod.fst).Nodup) (a : Nat) (e : β) : l.lookup a = some e ↔ (a, e) ∈ l := by
  induction l with
  | nil => simp
  | cons p l ih =>
    obtain ⟨b, f⟩ := p
    simp only [List.map_cons, List.nodup_cons] at hn
    rw [List.lookup_cons]
    by_cases h : a = b
    · subst h
      simp only [beq_self_eq_true, Option.some.injEq, List.mem_cons, Prod.mk.injEq, true_and]
      constructor
      · intro h; exact Or.inl h.symm
      · rintro (h | h)
        · exact h.symm
        · exact absurd (List.mem_map_of_mem (f := Prod.fst) h) hn.1
    · rw [show (a == b) = false by simpa using h]
      simp only [ih hn.2, List.mem_cons, Prod.mk.injEq, h, false_and, false_or]

theorem mem_innerSet (l : List (Nat × Nat × V)) (hn : (l.map Prod.fst).Nodup) (a : Nat) (e : Nat × V) (b : Nat) (f : Nat × V) :
    (b, f) ∈ innerSet l a e ↔ (b = a ∧ f = e) ∨ (b ≠ a ∧ (b, f) ∈ l) := by
  induction l with
  | nil => simp [innerSet]
  | cons p l ih =>
    obtain ⟨c, g⟩ := p
    simp only [List.map_cons, List.nodup_cons] at hn
    rw [innerSet]
    by_cases h : c = a
    · subst h
      rw [if_pos rfl]
      simp only [List.mem_cons, Prod.mk.injEq]
      have hne : (b, f) ∈ l → b ≠ c := fun hm hb => hn.1 (hb ▸ List.mem_map_of_mem (f := Prod.fst) hm)
      tauto
    · rw [if_neg h]
      simp only [List.mem_cons, Prod.mk.injEq, ih hn.2]
      constructor
      · rintro (⟨rfl, rfl⟩ | h1 | h1)
        · exact Or.inr ⟨h, Or.inl ⟨rfl, rfl⟩⟩
        · exact Or.inl h1
        · exact Or.inr ⟨h1.1, Or.inr h1.2⟩
      · rintro (h1 | ⟨h1, h2 | h2⟩)
        · exact Or.inr (Or.inl h1)
        · exact Or.inl h2
        · exact Or.inr (Or.inr ⟨h1, h2⟩)

theorem nodup_innerSet (l : List (Nat × Nat × V)) (hn : (l.map Prod.fst).Nodup) (a : Nat) (e : Nat × V) :
    ((innerSet l a e).map Prod.fst).Nodup := by
  induction l with
  | nil => simp [innerSet]
  | cons p l ih =>
    obtain ⟨c, g⟩ := p
    have hn' := hn
    simp only [List.map_cons, List.nodup_cons] at hn'
    rw [innerSet]
    by_cases h : c = a
    · subst h
      rw [if_pos rfl]
      exact hn
    · rw [if_neg h, List.map_cons, List.nodup_cons]
      refine ⟨?_, ih hn'.2⟩
      intro hm
      obtain ⟨⟨b, f⟩, h1, h2⟩ := List.mem_map.mp hm
      simp only at h2
      subst h2
      rcases (mem_innerSet l hn'.2 a e b f).mp h1 with h3 | h3
      · exact h h3.1
      · exact hn'.1 (List.mem_map_of_mem (f := Prod.fst) h3.2)

theorem lookup_fits (m : Mem V) (d : Nat → Option V) (h : Fits m d) (o a : Nat) (ha : m.addr o = some a) :
    (∀ v, d o = some v → m.inner.lookup a = some (o, v)) ∧ (d o = none → m.inner.lookup a = none) := by
  constructor
  · intro v hv
    obtain ⟨b, hb⟩ := (h.same o v).mp hv
    have := h.kept b o v hb
    rw [ha] at this
    cases this
    exact (mem_lookup _ h.nodup a (o, v)).mpr hb
  · intro hv
    cases hl : m.inner.lookup a with
    | none => rfl
    | some e =>
      obtain ⟨p, v⟩ := e
      have hm := (mem_lookup _ h.nodup a (p, v)).mp hl
      have := h.apart o p a ha (h.kept a p v hm)
      subst this
      rw [(h.same o v).mpr ⟨a, hm⟩] at hv
      cases hv

theorem step_fits (m n : Mem V) (d : Nat → Option V) (h : Fits m d) (op : Op V) (s : Seen V) (hs : step m op = some (n, s)) :
    Fits n (identity d op).1 ∧ s = (identity d op).2 := by
  cases op with
  | alloc a =>
    simp only [step] at hs
    split at hs
    · rename_i hfree
      simp only [Option.some.injEq, Prod.mk.injEq] at hs
      obtain ⟨rfl, rfl⟩ := hs
      have hfree' : ∀ o, m.addr o ≠ some a := by
        intro o ho
        by_cases hlt : o < m.next
        · have := List.all_eq_true.mp hfree o (List.mem_range.mpr hlt)
          simp [ho] at this
        · rw [h.fresh o (by omega)] at ho; cases ho
      have hnew : m.addr m.next = none := h.fresh _ le_rfl
      refine ⟨⟨?_, ?_, ?_, h.nodup, h.same⟩, rfl⟩
      · intro o ho
        show Function.update m.addr m.next (some a) o = none
        have ho' : m.next + 1 ≤ o := ho
        rw [Function.update_of_ne (by omega), h.fresh o (by omega)]
      · intro o p b ho hp
        by_cases h1 : o = m.next <;> by_cases h2 : p = m.next
        · rw [h1, h2]
        · subst h1
          simp only [Function.update_self, Function.update_of_ne h2] at ho hp
          cases ho
          exact absurd hp (hfree' p)
        · subst h2
          simp only [Function.update_self, Function.update_of_ne h1] at ho hp
          cases hp
          exact absurd ho (hfree' o)
        · simp only [Function.update_of_ne h2, Function.update_of_ne h1] at ho hp
          exact h.apart o p b ho hp
      · intro b o v hm
        have h1 := h.kept b o v hm
        show Function.update m.addr m.next (some a) o = some b
        rw [Function.update_of_ne ?_, h1]
        rintro rfl
        rw [hnew] at h1; cases h1
    · cases hs
  | drop o =>
    simp only [step, Option.some.injEq, Prod.mk.injEq] at hs
    obtain ⟨rfl, rfl⟩ := hs
    exact ⟨⟨h.fresh, h.apart, h.kept, h.nodup, h.same⟩, rfl⟩
  | collect o =>
    simp only [step] at hs
    split at hs
    · cases hs
    · rename_i hr
      simp only [Option.some.injEq, Prod.mk.injEq] at hs
      obtain ⟨rfl, rfl⟩ := hs
      have hsub : ∀ p b, Function.update m.addr o none p = some b → m.addr p = some b := by
        intro p b hp
        by_cases h1 : p = o
        · subst h1; simp at hp
        · rwa [Function.update_of_ne h1] at hp
      refine ⟨⟨?_, ?_, ?_, h.nodup, h.same⟩, rfl⟩
      · intro p hp
        show Function.update m.addr o none p = none
        by_cases h1 : p = o
        · subst h1; simp
        · rw [Function.update_of_ne h1]; exact h.fresh p hp
      · intro p q b hp hq
        exact h.apart p q b (hsub p b hp) (hsub q b hq)
      · intro b p v hm
        show Function.update m.addr o none p = some b
        rw [Function.update_of_ne ?_]
        · exact h.kept b p v hm
        · rintro rfl
          apply hr
          unfold referred
          rw [Bool.or_eq_true]
          exact Or.inr (List.any_eq_true.mpr ⟨_, hm, by simp⟩)
  | set o v =>
    simp only [step] at hs
    split at hs
    · rename_i a _ ha
      simp only [Option.some.injEq, Prod.mk.injEq] at hs
      obtain ⟨rfl, rfl⟩ := hs
      refine ⟨⟨h.fresh, h.apart, ?_, nodup_innerSet _ h.nodup _ _, ?_⟩, rfl⟩
      · intro b p w hm
        rcases (mem_innerSet m.inner h.nodup a (o, v) b (p, w)).mp hm with ⟨rfl, h2⟩ | h1
        · cases h2; exact ha
        · exact h.kept b p w h1.2
      · intro p w
        show Function.update d o (some v) p = some w ↔ ∃ b, (b, p, w) ∈ innerSet m.inner a (o, v)
        simp only [mem_innerSet m.inner h.nodup]
        by_cases hp : p = o
        · subst hp
          rw [Function.update_self]
          constructor
          · intro hw; cases hw; exact ⟨a, Or.inl ⟨rfl, rfl⟩⟩
          · rintro ⟨b, ⟨_, h2⟩ | ⟨h1, h2⟩⟩
            · cases h2; rfl
            · have := h.kept b p w h2
              rw [ha] at this
              cases this
              exact absurd rfl h1
        · rw [Function.update_of_ne hp, h.same]
          constructor
          · rintro ⟨b, hb⟩
            refine ⟨b, Or.inr ⟨?_, hb⟩⟩
            rintro rfl
            exact hp (h.apart p o b (h.kept b p w hb) ha)
          · rintro ⟨b, ⟨_, h2⟩ | h1⟩
            · cases h2; exact absurd rfl hp
            · exact ⟨b, h1.2⟩
    · cases hs
  | get o =>
    simp only [step] at hs
    split at hs
    · rename_i a _ ha
      simp only [Option.some.injEq, Prod.mk.injEq] at hs
      obtain ⟨rfl, rfl⟩ := hs
      refine ⟨h, ?_⟩
      obtain ⟨h1, h2⟩ := lookup_fits m d h o a ha
      unfold dictGet innerGet
      simp only [identity]
      cases hd : d o with
      | none => rw [h2 hd]
      | some v => rw [h1 v hd]
    · cases hs
  | del o =>
    simp only [step] at hs
    split at hs
    · rename_i a _ ha
      simp only [Option.some.injEq, Prod.mk.injEq] at hs
      obtain ⟨rfl, rfl⟩ := hs
      obtain ⟨h1, h2⟩ := lookup_fits m d h o a ha
      unfold dictDel innerGet
      simp only [identity]
      cases hd : d o with
      | none =>
        rw [h2 hd]
        exact ⟨h, rfl⟩
      | some v =>
        rw [h1 v hd]
        refine ⟨⟨h.fresh, h.apart, ?_, ?_, ?_⟩, rfl⟩
        · intro b p w hm
          exact h.kept b p w (List.mem_filter.mp hm).1
        · exact h.nodup.sublist (List.Sublist.map _ List.filter_sublist)
        · intro p w
          show Function.update d o none p = some w ↔ ∃ b, (b, p, w) ∈ innerDel m.inner a
          simp only [innerDel, List.mem_filter, decide_eq_true_eq]
          by_cases hp : p = o
          · subst hp
            rw [Function.update_self]
            constructor
            · intro hw; cases hw
            · rintro ⟨b, hb, hne⟩
              have := h.kept b p w hb
              rw [ha] at this
              cases this
              exact absurd rfl hne
          · rw [Function.update_of_ne hp, h.same]
            constructor
            · rintro ⟨b, hb⟩
              refine ⟨b, hb, ?_⟩
              rintro rfl
              exact hp (h.apart p o b (h.kept b p w hb) ha)
            · rintro ⟨b, hb, _⟩
              exact ⟨b, hb⟩
    · cases hs

theorem run_fits (m n : Mem V) (d : Nat → Option V) (h : Fits m d) (ops : List (Op V)) (ss : List (Seen V)) (hr : run m ops = some (n, ss)) :
    Fits n (identityRun d ops).1 ∧ ss = (identityRun d ops).2 := by
  induction ops generalizing m d ss with
  | nil =>
    simp only [run, Option.some.injEq, Prod.mk.injEq] at hr
    obtain ⟨rfl, rfl⟩ := hr
    exact ⟨h, rfl⟩
  | cons op ops ih =>
    simp only [run] at hr
    cases hs : step m op with
    | none => rw [hs] at hr; cases hr
    | some r =>
      rw [hs] at hr
      simp only [Option.map_eq_some_iff] at hr
      obtain ⟨⟨n', ss'⟩, h1, h2⟩ := hr
      cases h2
      obtain ⟨h3, h4⟩ := step_fits m r.1 d h op r.2 hs
      obtain ⟨h5, h6⟩ := ih r.1 _ h3 ss' h1
      exact ⟨h5, by simp only [identityRun]; rw [h4, h6]⟩

/-- In each process, whatever objects are freed and whichever addresses are used again, the dictionary gives for each object what was last
stored for that object, and never what was stored for another one. -/
theorem dictionary_by_identity (m : Mem V) (ops : List (Op V)) (ss : List (Seen V)) (h : run start ops = some (m, ss)) :
    ss = (identityRun (fun _ => none) ops).2 := (run_fits start m _ start_fits ops ss h).2

/-- The second object is at the address of the first, and has no value; a third, for which a key is kept, is not freed. -/
example : (run (start : Mem Nat) [.alloc 5, .set 0 7, .get 0, .del 0, .drop 0, .collect 0, .alloc 5, .get 1, .set 1 8, .get 1]).map Prod.snd =
      some [.done, .done, .value 7, .done, .done, .done, .done, .keyError, .done, .value 8] ∧
    (run (start : Mem Nat) [.alloc 5, .set 0 7, .drop 0, .collect 0]).isNone = true := by decide +kernel

/-- The length of the dictionary is the number of objects that have a value in it. -/
theorem dictionary_length (m : Mem V) (ops : List (Op V)) (ss : List (Seen V)) (h : run start ops = some (m, ss)) :
    ∃ l : List Nat, l.Nodup ∧ (∀ o, o ∈ l ↔ ((identityRun (fun _ => none) ops).1 o).isSome) ∧ dictLen m.inner = l.length := by
  have hf := (run_fits start m _ start_fits ops ss h).1
  refine ⟨m.inner.map fun p => p.2.1, ?_, ?_, by simp [dictLen]⟩
  · have hn := hf.nodup
    have hk := hf.kept
    generalize m.inner = l at hn hk
    induction l with
    | nil => simp
    | cons p l ih =>
      obtain ⟨a, o, v⟩ := p
      simp only [List.map_cons, List.nodup_cons] at hn ⊢
      refine ⟨?_, ih hn.2 fun b p w hm => hk b p w (List.mem_cons_of_mem _ hm)⟩
      intro hm
      obtain ⟨⟨b, p, w⟩, h1, h2⟩ := List.mem_map.mp hm
      simp only at h2
      subst h2
      have e1 := hk a p v List.mem_cons_self
      have e2 := hk b p w (List.mem_cons_of_mem _ h1)
      rw [e1] at e2
      cases e2
      exact hn.1 (List.mem_map_of_mem (f := Prod.fst) h1)
  · intro o
    rw [Option.isSome_iff_exists]
    constructor
    · intro hm
      obtain ⟨⟨b, p, w⟩, h1, h2⟩ := List.mem_map.mp hm
      simp only at h2
      subst h2
      exact ⟨w, (hf.same p w).mpr ⟨b, h1⟩⟩
    · rintro ⟨w, hw⟩
      obtain ⟨b, hb⟩ := (hf.same o w).mp hw
      exact List.mem_map.mpr ⟨_, hb, rfl⟩

example : (run (start : Mem Nat) [.alloc 5, .set 0 7, .alloc 6, .set 1 7, .set 0 8]).map (fun r => dictLen r.1.inner) = some 2 := by decide +kernel

/-! ### Scopes -/

/-- The values of the scopes of a thread, as in its frames. -/
inductive Framed : Option V → List (V × Option V) → List V → Prop
  | nil : Framed none [] []
  | cons (v : V) (old : Option V) (fs : List (V × Option V)) (vs : List V) (h : Framed old fs vs) : Framed (some v) ((v, old) :: fs) (v :: vs)

/-- Each thread sees the value of its own innermost open scope, whatever other threads do in between; leaving a scope gives back the value
before, and no assertion fails there. -/
theorem scopes_of_threads [DecidableEq V] (l : List (Nat × Act V)) :
    acts ⟨fun _ => none, fun _ => []⟩ l = nestedRun (fun _ => []) l := by
  suffices H : ∀ (s : Local V) (vs : Nat → List V), (∀ t, Framed (s.value t) (s.frames t) (vs t)) → acts s l = nestedRun vs l from
    H _ _ fun _ => .nil
  induction l with
  | nil => intro s vs _; rfl
  | cons p l ih =>
    intro s vs h
    obtain ⟨t, a⟩ := p
    suffices H : (act s t a).2 = (nested (vs t) a).2 ∧
        ∀ u, Framed ((act s t a).1.value u) ((act s t a).1.frames u) (Function.update vs t (nested (vs t) a).1 u) by
      simp only [acts, nestedRun]
      rw [H.1, ih _ _ H.2]
    have ht := h t
    cases a with
    | enter v r =>
      simp only [act, enter, nested]
      have hiff : (s.value t).isSome = true ↔ vs t ≠ [] := by
        generalize s.value t = x, s.frames t = y, vs t = z at ht
        cases ht <;> simp
      by_cases hc : r = false ∧ vs t ≠ []
      · rw [if_pos hc, if_pos ⟨hc.1, hiff.mpr hc.2⟩]
        refine ⟨rfl, fun u => ?_⟩
        simp only [Function.update_eq_self]
        exact h u
      · rw [if_neg hc, if_neg (fun h' => hc ⟨h'.1, hiff.mp h'.2⟩)]
        refine ⟨rfl, fun u => ?_⟩
        by_cases hu : u = t
        · subst hu
          simp only [Function.update_self]
          exact .cons _ _ _ _ ht
        · simp only [Function.update_of_ne hu]
          exact h u
    | leave =>
      simp only [act, leave, nested]
      generalize hx : s.value t = x, hy : s.frames t = y, hz : vs t = z at ht
      cases ht with
      | nil =>
        refine ⟨rfl, fun u => ?_⟩
        by_cases hu : u = t
        · subst hu
          simp only [Function.update_self, List.tail_nil, hx, hy]
          exact .nil
        · simp only [Function.update_of_ne hu]
          exact h u
      | cons v old fs ws h' =>
        simp only [if_true]
        refine ⟨trivial, fun u => ?_⟩
        by_cases hu : u = t
        · subst hu
          simp only [Function.update_self, List.tail_cons]
          exact h'
        · simp only [Function.update_of_ne hu]
          exact h u
    | get d =>
      simp only [act, getVar, nested, Function.update_eq_self]
      refine ⟨?_, h⟩
      generalize s.value t = x, s.frames t = y, vs t = z at ht
      cases ht with
      | nil => cases d <;> rfl
      | cons v old fs ws h' => rfl

/-- Two threads; the scope of the second is not seen by the first. -/
example : acts (⟨fun _ => none, fun _ => []⟩ : Local Nat)
      [(1, .enter 5 true), (2, .enter 6 false), (1, .enter 7 true), (1, .get none), (1, .leave), (1, .get none), (2, .get none), (2, .enter 8 false),
        (2, .leave), (2, .get none)] =
    [.fine, .fine, .fine, .value 7, .fine, .value 5, .value 6, .assertion, .fine, .assertion] := by decide +kernel

/-! ### Saved results -/

section Memo

variable {A B E : Type} [DecidableEq A]

theorem memo_saved (f : Nat → A → Except E B) (as : List A) (saved : List (A × B)) (time : Nat) (a : A) (b : B) (h : saved.lookup a = some b)
    (r : Except E B) (called : Bool) (hr : (a, r, called) ∈ memoCalls f saved time as) : r = .ok b ∧ called = false := by
  induction as generalizing saved time with
  | nil => simp [memoCalls] at hr
  | cons x as ih =>
    rw [memoCalls, List.mem_cons] at hr
    rcases hr with hr | hr
    · simp only [Prod.mk.injEq] at hr
      obtain ⟨rfl, h2⟩ := hr
      unfold memoCall at h2
      rw [h] at h2
      simp only [Prod.mk.injEq] at h2
      exact h2
    · refine ih _ _ ?_ hr
      unfold memoCall
      cases hx : saved.lookup x with
      | some c => exact h
      | none =>
        cases f time x with
        | error e => exact h
        | ok c =>
          simp only
          rw [List.lookup_append, h]
          rfl

/-- Once a call has succeeded, later calls with the same argument give the same result, and do not call the function. -/
theorem memo_once (f : Nat → A → Except E B) (as bs : List A) (a : A) (b : B) (called : Bool) (r : Except E B) (called' : Bool)
    (l : List (A × Except E B × Bool)) (h : memoCalls f [] 0 (as ++ a :: bs) = l) (h1 : l[as.length]? = some (a, .ok b, called))
    (h2 : (a, r, called') ∈ l.drop (as.length + 1)) : r = .ok b ∧ called' = false := by
  subst h
  suffices H : ∀ (saved : List (A × B)) (time : Nat), (memoCalls f saved time (as ++ a :: bs))[as.length]? = some (a, .ok b, called) →
      (a, r, called') ∈ (memoCalls f saved time (as ++ a :: bs)).drop (as.length + 1) → r = .ok b ∧ called' = false from H [] 0 h1 h2
  clear h1 h2
  induction as with
  | nil =>
    intro saved time h1 h2
    simp only [List.nil_append, memoCalls, List.length_nil, List.getElem?_cons_zero, Option.some.injEq, Prod.mk.injEq, true_and,
      List.drop_succ_cons, List.drop_zero] at h1 h2
    refine memo_saved f bs _ _ a b ?_ r called' h2
    unfold memoCall at h1 ⊢
    cases hx : saved.lookup a with
    | some c => rw [hx] at h1; simp only [Prod.mk.injEq, Except.ok.injEq] at h1; simp only [hx, h1.1]
    | none =>
      rw [hx] at h1
      cases hf : f time a with
      | error e => rw [hf] at h1; simp at h1
      | ok c =>
        rw [hf] at h1
        simp only [Prod.mk.injEq, Except.ok.injEq] at h1
        simp only [List.lookup_append, hx, List.lookup_cons, beq_self_eq_true, h1.1]
        rfl
  | cons x as ih =>
    intro saved time h1 h2
    simp only [List.cons_append, memoCalls, List.length_cons, List.getElem?_cons_succ, List.drop_succ_cons] at h1 h2
    exact ih _ _ h1 h2

/-- For a function whose results depend only on its argument, the results are those of the function; errors are not saved. -/
theorem memo_same (g : A → Except E B) (as : List A) : (memoCalls (fun _ => g) [] 0 as).map (fun p => (p.1, p.2.1)) = as.map fun a => (a, g a) := by
  suffices H : ∀ (saved : List (A × B)) (time : Nat), (∀ a b, saved.lookup a = some b → g a = .ok b) →
      (memoCalls (fun _ => g) saved time as).map (fun p => (p.1, p.2.1)) = as.map fun a => (a, g a) from H [] 0 (by simp)
  induction as with
  | nil => intro _ _ _; rfl
  | cons x as ih =>
    intro saved time h
    simp only [memoCalls, List.map_cons]
    congr 1
    · unfold memoCall
      cases hx : saved.lookup x with
      | some c => rw [h x c hx]
      | none => cases hg : g x <;> simp only [hg]
    · refine ih _ _ fun a b => ?_
      unfold memoCall
      cases hx : saved.lookup x with
      | some c => exact h a b
      | none =>
        cases hg : g x with
        | error e => simp only [hg]; exact h a b
        | ok c =>
          simp only [hg]
          rw [List.lookup_append]
          intro hl
          cases ha : saved.lookup a with
          | some d => rw [ha] at hl; cases hl; exact h a b ha
          | none =>
            rw [ha] at hl
            simp only [Option.none_or, List.lookup_cons] at hl
            by_cases hax : a = x
            · subst hax
              simp only [beq_self_eq_true, Option.some.injEq] at hl
              rw [hg, hl]
            · rw [show (a == x) = false by simpa using hax] at hl
              simp at hl

/-- The first call fails, the second succeeds, and the third gives its result again, although the function would give another one. -/
example : memoCalls (fun t (a : Nat) => if t = 0 then (.error () : Except Unit Nat) else .ok (a + t)) [] 0 [4, 4, 4] =
    [(4, .error (), true), (4, .ok 5, true), (4, .ok 5, false)] := rfl

end Memo

/-! ### Coverage -/

/-- The offsets that are reported as covered are exactly those of instructions that ran with the code of the function, all of them are among
all offsets, and the coverage is 1 exactly if none is missing. -/
theorem coverage_exact (fns : List Nat) (code : Nat → Nat) (ins : Nat → Finset Nat) (fn : Nat) (hfn : fn ∈ fns) (hne : (ins (code fn)).Nonempty)
    (l : List (Nat × Nat)) (hl : ∀ p ∈ l, p.2 ∈ ins p.1) :
    ∃ c, (Coverage.new fns code ins).trace l = some c ∧ (∀ o, o ∈ (c.results (code fn)).1 ↔ (code fn, o) ∈ l) ∧
      (c.results (code fn)).1 ⊆ (c.results (code fn)).2.1 ∧ (c.results (code fn)).2.1 = ins (code fn) ∧
      0 ≤ (c.results (code fn)).2.2 ∧ (c.results (code fn)).2.2 ≤ 1 ∧
      ((c.results (code fn)).2.2 = 1 ↔ ∀ o ∈ ins (code fn), (code fn, o) ∈ l) := by
  have hmem : code fn ∈ fns.map code := List.mem_map_of_mem hfn
  have H : ∀ (l : List (Nat × Nat)) (_ : ∀ p ∈ l, p.2 ∈ ins p.1) (c : Coverage) (_ : c.codes = fns.map code)
      (_ : c.offsets = fun k => if k ∈ fns.map code then ins k else ∅),
      ∃ d, c.trace l = some d ∧ d.offsets = c.offsets ∧ ∀ o, o ∈ d.seen (code fn) ↔ o ∈ c.seen (code fn) ∨ (code fn, o) ∈ l := by
    intro l
    induction l with
    | nil => intro _ c _ _; exact ⟨c, rfl, rfl, by simp⟩
    | cons p l ih =>
      intro hl c hc ho
      obtain ⟨k, i⟩ := p
      have hl' : ∀ p ∈ l, p.2 ∈ ins p.1 := fun p hp => hl p (List.mem_cons_of_mem _ hp)
      simp only [Coverage.trace, Coverage.traceOp]
      by_cases hk : k ∈ c.codes
      · rw [if_neg (by simpa using hk)]
        have hi : i ∈ c.offsets k := by
          rw [ho]
          simp only
          rw [if_pos (hc ▸ hk)]
          exact hl (k, i) List.mem_cons_self
        rw [if_pos hi]
        obtain ⟨d, h1, h2, h3⟩ := ih hl' { c with seen := Function.update c.seen k (insert i (c.seen k)) } hc ho
        refine ⟨d, h1, h2, fun o => ?_⟩
        rw [h3]
        by_cases hkc : code fn = k
        · subst hkc
          simp only [Function.update_self, Finset.mem_insert, List.mem_cons, Prod.mk.injEq, true_and]
          tauto
        · simp only [Function.update_of_ne hkc, List.mem_cons, Prod.mk.injEq, hkc, false_and, false_or]
      · rw [if_pos hk]
        obtain ⟨d, h1, h2, h3⟩ := ih hl' c hc ho
        refine ⟨d, h1, h2, fun o => ?_⟩
        rw [h3]
        have hkc : code fn ≠ k := by rintro rfl; exact hk (hc ▸ hmem)
        simp only [List.mem_cons, Prod.mk.injEq, hkc, false_and, false_or]
  obtain ⟨c, h1, h2, h3⟩ := H l hl (Coverage.new fns code ins) rfl rfl
  have hoff : c.offsets (code fn) = ins (code fn) := by
    rw [h2]
    exact if_pos hmem
  have hseen : ∀ o, o ∈ c.seen (code fn) ↔ (code fn, o) ∈ l := by
    intro o
    rw [h3]
    simp [Coverage.new]
  have hsub : c.seen (code fn) ⊆ ins (code fn) := fun o ho => hl _ ((hseen o).mp ho)
  have hpos : (0 : ℚ) < (ins (code fn)).card := by exact_mod_cast hne.card_pos
  have hle : ((c.seen (code fn)).card : ℚ) ≤ (ins (code fn)).card := by exact_mod_cast Finset.card_le_card hsub
  refine ⟨c, h1, hseen, ?_, hoff, ?_, ?_, ?_⟩
  · simp only [Coverage.results, hoff]; exact hsub
  · exact div_nonneg (Nat.cast_nonneg _) (Nat.cast_nonneg _)
  · simp only [Coverage.results, hoff]
    exact (div_le_one hpos).mpr hle
  · simp only [Coverage.results, hoff]
    rw [div_eq_one_iff_eq hpos.ne']
    constructor
    · intro h o ho
      have : c.seen (code fn) = ins (code fn) := Finset.eq_of_subset_of_card_le hsub (by exact_mod_cast h.ge)
      exact (hseen o).mp (this ▸ ho)
    · intro h
      have : c.seen (code fn) = ins (code fn) := Finset.Subset.antisymm hsub fun o ho => (hseen o).mpr (h o ho)
      rw [this]

/-- Two of three instructions of the first function, and one of another. -/
example : ∃ c, (Coverage.new [0, 1] (· + 10) fun _ => {0, 2, 4}).trace [(10, 0), (11, 4), (10, 2), (12, 0), (10, 0)] = some c ∧
    (c.results 10).1 = {0, 2} ∧ (c.results 10).2.2 = 2 / 3 := ⟨_, rfl, by decide, by decide +kernel⟩

end Verif.Cells
