import Verif.Proxies.Model
/-
Helper lemmas: what is made belongs to the annotation, and everything in it is made.
-/
namespace Verif.Proxies

theorem bind_ok {α β : Type} {r : Res α} {f : α → Tape → Res β} {b : β} {rest : Tape} (h : r.bind f = .ok b rest) :
    ∃ a tape, r = .ok a tape ∧ f a tape = .ok b rest := by
  cases r with
  | ok a t => exact ⟨a, t, rfl, h⟩
  | ignore => cases h
  | unsupported => cases h
  | more => cases h
  | stuck => cases h

theorem pick_mem {α : Type} {xs : List α} {tape rest : Tape} {x : α} (h : pick xs tape = .ok x rest) : x ∈ xs := by
  fun_induction pick xs tape with
  | case1 => cases h
  | case2 => cases h; simp
  | case3 => cases h; simp
  | case4 _ _ _ _ ih => exact List.mem_cons_of_mem _ (ih h)
  | case5 => cases h

theorem soundAll_iff (py : Bool) (ts : List Ann) : soundAll py ts = true ↔ ∀ t ∈ ts, t.sound py = true := by
  induction ts with
  | nil => simp [soundAll]
  | cons t ts ih => simp [soundAll, ih]

theorem wholeAll_iff (ts : List Ann) : wholeAll ts = true ↔ ∀ t ∈ ts, t.whole = true := by
  induction ts with
  | nil => simp [wholeAll]
  | cons t ts ih => simp [wholeAll, ih]

theorem allDifferent_iff (W : World) (ks : List Val) : W.allDifferent ks = true ↔ W.Different ks := by
  induction ks with
  | nil => simp [World.allDifferent, World.Different]
  | cons k ks ih =>
    simp only [World.allDifferent, Bool.and_eq_true, ih, World.Different, List.pairwise_cons, List.all_eq_true, Bool.not_eq_true']

theorem makeAll_has {W : World} {mk : Ann → Tape → Res Val} {ts : List Ann}
    (hmk : ∀ t ∈ ts, ∀ tape v rest, mk t tape = .ok v rest → Has W v t) {tape : Tape} {vs : List Val} {rest : Tape}
    (h : makeAll mk ts tape = .ok vs rest) : HasAll W vs ts := by
  induction ts generalizing tape vs with
  | nil => simp only [makeAll] at h; cases h; exact .nil
  | cons t ts ih =>
    simp only [makeAll] at h
    obtain ⟨v, t1, h1, h2⟩ := bind_ok h
    obtain ⟨us, t2, h3, h4⟩ := bind_ok h2
    cases h4
    exact .cons _ _ _ _ (hmk t (by simp) _ _ _ h1) (ih (fun t ht => hmk t (List.mem_cons_of_mem _ ht)) h3)

theorem makeItem_has {W : World} {ieee : Bool} {mk : Ann → Tape → Res Val} {t : Ann}
    (hmk : ∀ tape v rest, mk t tape = .ok v rest → Has W v t) (tape : Tape) (v : Val) (rest : Tape)
    (h : makeItem ieee mk t tape = .ok v rest) : Has W v t := by
  unfold makeItem at h
  split at h
  · obtain ⟨f, t1, _, h2⟩ := bind_ok h
    cases h2
    exact .float f
  · exact hmk _ _ _ h

theorem items_has {W : World} {ieee : Bool} {mk : Ann → Tape → Res Val} {t : Ann} {n : Nat}
    (hmk : ∀ tape v rest, mk t tape = .ok v rest → Has W v t) {tape : Tape} {vs : List Val} {rest : Tape}
    (h : makeAll (makeItem ieee mk) (List.replicate n t) tape = .ok vs rest) : HasAll W vs (List.replicate n t) := by
  refine makeAll_has (fun u hu tape v rest h' => ?_) h
  obtain rfl := List.eq_of_mem_replicate hu
  exact makeItem_has hmk _ _ _ h'

theorem makeMany_ok {ieee : Bool} {mk : Ann → Tape → Res Val} {t : Ann} {wrap : List Val → Tape → Res Val} {tape : Tape} {v : Val}
    {rest : Tape} (h : makeMany ieee mk t wrap tape = .ok v rest) :
    ∃ n vs t1 t2, makeAll (makeItem ieee mk) (List.replicate n t) t1 = .ok vs t2 ∧ wrap vs t2 = .ok v rest := by
  unfold makeMany readSize at h
  split at h
  · obtain ⟨vs, t2, h1, h2⟩ := bind_ok h
    exact ⟨_, vs, _, t2, h1, h2⟩
  · cases h

theorem fields_spec {keys : List (Name × Bool)} {ts : List Ann} {tape rest : Tape} {ks : List Name} {us : List Ann}
    (h : fields keys ts tape = .ok (ks, us) rest) (W : World) (vs : List Val) (hv : HasAll W vs us) : HasFields W keys ts ks vs := by
  induction keys generalizing ts tape ks us vs with
  | nil =>
    cases ts with
    | nil => simp only [fields] at h; cases h; cases hv; exact .empty
    | cons t ts => simp only [fields] at h; cases h
  | cons k keys ih =>
    cases ts with
    | nil => simp only [fields] at h; cases h
    | cons t ts =>
      obtain ⟨k, r⟩ := k
      simp only [fields] at h
      cases r with
      | true =>
        simp only [if_true] at h
        obtain ⟨⟨ks1, us1⟩, t1, h1, h2⟩ := bind_ok h
        cases h2
        cases hv with
        | cons v _ vs _ hv hvs => exact .present _ _ _ _ _ _ _ _ hv (ih h1 _ hvs)
      | false =>
        simp only [Bool.false_eq_true, if_false] at h
        split at h
        · obtain ⟨⟨ks1, us1⟩, t1, h1, h2⟩ := bind_ok h
          cases h2
          cases hv with
          | cons v _ vs _ hv hvs => exact .present _ _ _ _ _ _ _ _ hv (ih h1 _ hvs)
        · exact .absent _ _ _ _ _ _ (ih h _ hv)
        · cases h

theorem fields_sub {keys : List (Name × Bool)} {ts : List Ann} {tape rest : Tape} {ks : List Name} {us : List Ann}
    (h : fields keys ts tape = .ok (ks, us) rest) : ∀ u ∈ us, u ∈ ts := by
  induction keys generalizing ts tape ks us with
  | nil =>
    cases ts with
    | nil => simp only [fields] at h; cases h; simp
    | cons t ts => simp only [fields] at h; cases h
  | cons k keys ih =>
    cases ts with
    | nil => simp only [fields] at h; cases h
    | cons t ts =>
      obtain ⟨k, r⟩ := k
      simp only [fields] at h
      have key : ∀ {tape : Tape}, ((fields keys ts tape).bind fun (ks, us) tape => Res.ok (k :: ks, t :: us) tape) = .ok (ks, us) rest →
          ∀ u ∈ us, u ∈ t :: ts := by
        intro tape h
        obtain ⟨⟨ks1, us1⟩, t1, h1, h2⟩ := bind_ok h
        cases h2
        intro u hu
        rcases List.mem_cons.mp hu with rfl | hu
        · simp
        · exact List.mem_cons_of_mem _ (ih h1 u hu)
      cases r with
      | true => simp only [if_true] at h; exact key h
      | false =>
        simp only [Bool.false_eq_true, if_false] at h
        split at h
        · exact key h
        · exact fun u hu => List.mem_cons_of_mem _ (ih h u hu)
        · cases h

/-- What is made belongs to the annotation. -/
theorem make_has (W : World) (hW : W.Lawful) (hk : soundAll W.py311 W.known = true) (hp : ∀ c, soundAll W.py311 (W.params c) = true)
    (ieee : Bool) (fuel : Nat) (t : Ann) (ht : t.sound W.py311 = true) (sub : Bool) (tape : Tape) (v : Val) (rest : Tape)
    (h : make W ieee fuel t sub tape = .ok v rest) : Has W v t := by
  induction fuel generalizing t sub tape v rest with
  | zero => simp only [make] at h; cases h
  | succ fuel ih =>
    have any_ok : ∀ {v sub tape rest}, make W ieee fuel .any sub tape = .ok v rest → Has W v .any :=
      fun h => ih .any rfl _ _ _ _ h
    have class_ok : ∀ {c d : Nat} {tape : Tape} {v : Val} {rest : Tape}, makeClass W (make W ieee fuel · true) c tape = .ok v rest →
        (∀ args, W.build c args = .instance → c ∈ W.below d) → Has W v (.cls d) := by
      intro c d tape v rest h hb
      unfold makeClass at h
      obtain ⟨args, t1, h1, h2⟩ := bind_ok h
      split at h2
      · rename_i hi
        cases h2
        exact .cls _ _ _ (hb _ hi) (makeAll_has (fun t ht _ _ _ h => ih t ((soundAll_iff _ _).mp (hp c) t ht) _ _ _ _ h) h1) hi
      · cases h2
      · cases h2
    cases t with
    | none => simp only [make] at h; cases h; exact .none
    | bool => simp only [make] at h; split at h <;> cases h; exact .bool _
    | int => simp only [make] at h; split at h <;> cases h; exact .int _
    | float => simp only [make] at h; obtain ⟨f, t1, _, h2⟩ := bind_ok h; cases h2; exact .float _
    | complex =>
      simp only [make] at h
      obtain ⟨f, t1, _, h2⟩ := bind_ok h
      obtain ⟨g, t1, _, h3⟩ := bind_ok h2
      cases h3
      exact .complex _ _
    | str => simp only [make] at h; split at h <;> cases h; exact .str _
    | bytes =>
      simp only [make] at h
      split at h
      · split at h
        · rename_i hb
          cases h
          refine .bytes _ fun b hbm => ?_
          have := List.all_eq_true.mp hb b hbm
          simp only [decide_eq_true_eq] at this
          omega
        · cases h
      · cases h
    | slice =>
      simp only [make] at h
      obtain ⟨a, t1, _, h2⟩ := bind_ok h
      obtain ⟨b, t2, _, h3⟩ := bind_ok h2
      obtain ⟨c, t3, _, h4⟩ := bind_ok h3
      cases h4
      exact .slice _ _ _
    | range =>
      simp only [make] at h
      split at h
      · split at h
        · rename_i hc; cases h; exact .range _ _ _ hc
        · cases h
      · cases h
    | enum e =>
      simp only [make] at h
      obtain ⟨i, t1, h1, h2⟩ := bind_ok h
      cases h2
      exact .enum _ _ (List.mem_range.mp (pick_mem h1))
    | union ts =>
      simp only [make] at h
      obtain ⟨t, t1, h1, h2⟩ := bind_ok h
      have hm := pick_mem h1
      exact .union _ t ts hm (ih t ((soundAll_iff _ _).mp (by simpa [Ann.sound] using ht) t hm) _ _ _ _ h2)
    | final t => simp only [make] at h; exact .final _ _ (ih t (by simpa [Ann.sound] using ht) _ _ _ _ h)
    | newType t => simp only [make] at h; exact .newType _ _ (ih t (by simpa [Ann.sound] using ht) _ _ _ _ h)
    | typeAlias t => simp only [make] at h; exact .typeAlias _ _ (ih t (by simpa [Ann.sound] using ht) _ _ _ _ h)
    | varBound t => simp only [make] at h; exact .varBound _ _ (ih t (by simpa [Ann.sound] using ht) _ _ _ _ h)
    | varFree => simp only [make] at h; exact .varFree _ (any_ok h)
    | varConstrained => simp only [make] at h; cases h
    | any =>
      simp only [make] at h
      obtain ⟨t, t1, h1, h2⟩ := bind_ok h
      have hm := pick_mem h1
      exact .any _ t hm (ih t ((soundAll_iff _ _).mp hk t hm) _ _ _ _ h2)
    | noReturn => simp only [make] at h; cases h
    | tuple ts =>
      simp only [Ann.sound, Bool.and_eq_true] at ht
      simp only [make] at h
      split at h
      · rename_i hc
        obtain ⟨h1, h2⟩ := ht
        simp only [Bool.and_eq_true] at hc
        simp [hc.1, hc.2] at h1
      · obtain ⟨vs, t1, h1, h2⟩ := bind_ok h
        cases h2
        exact .tuple _ _ (makeAll_has (fun t hm _ _ _ h => ih t ((soundAll_iff _ _).mp ht.2 t hm) _ _ _ _ h) h1)
    | tupleOf t =>
      simp only [make] at h
      obtain ⟨n, vs, t1, t2, h1, h2⟩ := makeMany_ok h
      cases h2
      exact .tupleOf _ _ n (items_has (fun _ _ _ h => ih t (by simpa [Ann.sound] using ht) _ _ _ _ h) h1)
    | bareTuple =>
      simp only [make] at h
      obtain ⟨n, vs, t1, t2, h1, h2⟩ := makeMany_ok h
      cases h2
      exact .bareTuple _ n (items_has (fun _ _ _ h => any_ok h) h1)
    | list t =>
      simp only [make] at h
      obtain ⟨n, vs, t1, t2, h1, h2⟩ := makeMany_ok h
      cases h2
      exact .list _ _ n (items_has (fun _ _ _ h => ih t (by simpa [Ann.sound] using ht) _ _ _ _ h) h1)
    | sequence t =>
      simp only [make] at h
      obtain ⟨n, vs, t1, t2, h1, h2⟩ := makeMany_ok h
      cases h2
      exact .sequenceTuple _ _ n (items_has (fun _ _ _ h => ih t (by simpa [Ann.sound] using ht) _ _ _ _ h) h1)
    | dict k v =>
      simp only [Ann.sound, Bool.and_eq_true] at ht
      simp only [make, readSize] at h
      split at h
      · obtain ⟨ks, t1, h1, h2⟩ := bind_ok h
        obtain ⟨vs, t2, h3, h4⟩ := bind_ok h2
        split at h4
        · rename_i hd
          cases h4
          exact .dict _ _ _ _ _ (items_has (fun _ _ _ h => ih k ht.1 _ _ _ _ h) h1) (items_has (fun _ _ _ h => ih v ht.2 _ _ _ _ h) h3)
            ((allDifferent_iff _ _).mp hd)
        · cases h4
      · cases h
    | record keys ts =>
      simp only [make] at h
      obtain ⟨⟨ks, us⟩, t1, h1, h2⟩ := bind_ok h
      obtain ⟨vs, t2, h3, h4⟩ := bind_ok h2
      cases h4
      exact .record _ _ _ _ (fields_spec h1 W vs (makeAll_has (fun t hm _ _ _ h =>
        ih t ((soundAll_iff _ _).mp (by simpa [Ann.sound] using ht) t (fields_sub h1 t hm)) _ _ _ _ h) h3))
    | callable t =>
      simp only [make] at h
      obtain ⟨n, vs, t1, t2, h1, h2⟩ := makeMany_ok h
      split at h2
      · cases h2
      · rename_i hne
        cases h2
        have hh := items_has (W := W) (fun _ _ _ h => ih t (by simpa [Ann.sound] using ht) _ _ _ _ h) h1
        cases n with
        | zero => cases hh; simp at hne
        | succ n => exact .callable _ _ n hh
    | cls c =>
      simp only [make] at h
      split at h
      · obtain ⟨d, t1, h1, h2⟩ := bind_ok h
        exact class_ok h2 fun _ _ => pick_mem h1
      · exact class_ok h fun args hb => hW _ args hb
    | io a =>
      simp only [make] at h
      cases h
      cases a with
      | str => exact .ioStr
      | bytes => simp [Ann.sound] at ht
      | text => simp [Ann.sound] at ht

/-! ### Everything is made -/

theorem pick_reach {α : Type} (xs : List α) (x : α) (h : x ∈ xs) : ∃ tape, ∀ rest, pick xs (tape ++ rest) = .ok x rest := by
  induction xs with
  | nil => cases h
  | cons y ys ih =>
    cases ys with
    | nil => simp only [List.mem_singleton] at h; subst h; exact ⟨[], fun rest => rfl⟩
    | cons z zs =>
      rcases List.mem_cons.mp h with rfl | h
      · exact ⟨[.fork true], fun rest => rfl⟩
      · obtain ⟨tape, ht⟩ := ih h
        exact ⟨.fork false :: tape, fun rest => ht rest⟩

theorem makeFloat_reach (f : Fl) (rest : Tape) : makeFloat true (.float f :: rest) = .ok f rest := by
  cases f <;> rfl

theorem solverFloat_reach (f : Fl) (rest : Tape) : solverFloat true (.float f :: rest) = .ok f rest := by
  cases f <;> rfl

theorem optionalInt_reach (o : Option Int) : ∃ tape, ∀ rest, optionalInt (tape ++ rest) = .ok o rest := by
  cases o with
  | none => exact ⟨[.fork false], fun _ => rfl⟩
  | some i => exact ⟨[.fork true, .int i], fun _ => rfl⟩

/-- With enough depth and after some answers, the value is made; subtypes must be allowed if the annotation is a class. -/
def Reached (W : World) (v : Val) (t : Ann) : Prop :=
  ∃ N tape, ∀ fuel, N ≤ fuel → ∀ sub : Bool, (t.classLike = true → sub = true) → ∀ rest,
    make W true fuel t sub (tape ++ rest) = .ok v rest

theorem reached_succ {W : World} {v : Val} {t : Ann} (N : Nat) (tape : Tape)
    (h : ∀ fuel, N ≤ fuel → ∀ sub : Bool, (t.classLike = true → sub = true) → ∀ rest,
      make W true (fuel + 1) t sub (tape ++ rest) = .ok v rest) : Reached W v t := by
  refine ⟨N + 1, tape, fun fuel hf sub hs rest => ?_⟩
  cases fuel with
  | zero => omega
  | succ fuel => exact h fuel (by omega) sub hs rest

/-- The values are made, one after the other. -/
def ReachedAll (W : World) (vs : List Val) (ts : List Ann) : Prop :=
  ∃ N tape, ∀ fuel, N ≤ fuel → ∀ sub : Bool, ((∃ t ∈ ts, t.classLike = true) → sub = true) → ∀ rest,
    makeAll (make W true fuel · sub) ts (tape ++ rest) = .ok vs rest

/-- The values are made as items. -/
def ReachedItems (W : World) (vs : List Val) (ts : List Ann) : Prop :=
  ∃ N tape, ∀ fuel, N ≤ fuel → ∀ rest, makeAll (makeItem true (make W true fuel · true)) ts (tape ++ rest) = .ok vs rest

theorem reachedAll_cons {W : World} {v : Val} {t : Ann} {vs : List Val} {ts : List Ann} (h : Reached W v t) (hs : ReachedAll W vs ts) :
    ReachedAll W (v :: vs) (t :: ts) := by
  obtain ⟨N, tape, h⟩ := h
  obtain ⟨M, tape', hs⟩ := hs
  refine ⟨max N M, tape ++ tape', fun fuel hf sub hsub rest => ?_⟩
  simp only [makeAll, List.append_assoc]
  rw [h fuel (by omega) sub (fun hc => hsub ⟨t, by simp, hc⟩)]
  simp only [Res.bind]
  rw [hs fuel (by omega) sub (fun ⟨u, hu, hc⟩ => hsub ⟨u, List.mem_cons_of_mem _ hu, hc⟩)]

theorem reachedItems_cons {W : World} {v : Val} {t : Ann} {vs : List Val} {ts : List Ann} (hv : Has W v t) (h : Reached W v t)
    (hs : ReachedItems W vs ts) : ReachedItems W (v :: vs) (t :: ts) := by
  obtain ⟨N, tape, h⟩ := h
  obtain ⟨M, tape', hs⟩ := hs
  have item : ∃ N tape, ∀ fuel, N ≤ fuel → ∀ rest, makeItem true (make W true fuel · true) t (tape ++ rest) = .ok v rest := by
    by_cases ht : t = .float
    · subst ht
      cases hv with
      | float f =>
        refine ⟨0, [.float f], fun fuel _ rest => ?_⟩
        simp only [makeItem, List.cons_append, List.nil_append, solverFloat_reach, Res.bind]
    · refine ⟨N, tape, fun fuel hf rest => ?_⟩
      have := h fuel hf true (fun _ => rfl) rest
      unfold makeItem
      split
      · exact absurd rfl ht
      · exact this
  obtain ⟨N, tape, item⟩ := item
  refine ⟨max N M, tape ++ tape', fun fuel hf rest => ?_⟩
  simp only [makeAll, List.append_assoc]
  rw [item fuel (by omega)]
  simp only [Res.bind]
  rw [hs fuel (by omega)]

/-- The entries of a typed dictionary are made. -/
def ReachedFields (W : World) (keys : List (Name × Bool)) (ts : List Ann) (ks : List Name) (vs : List Val) : Prop :=
  ∃ (tape : Tape) (us : List Ann), (∀ u ∈ us, u ∈ ts) ∧ (∀ rest, fields keys ts (tape ++ rest) = .ok (ks, us) rest) ∧ ReachedAll W vs us

theorem many_reach {W : World} {vs : List Val} {t : Ann} {n : Nat} (h : ReachedItems W vs (List.replicate n t))
    (wrap : List Val → Tape → Res Val) : ∃ N tape, ∀ fuel, N ≤ fuel → ∀ rest,
      makeMany true (make W true fuel · true) t wrap (tape ++ rest) = wrap vs rest := by
  obtain ⟨N, tape, h⟩ := h
  refine ⟨N, .size n :: tape, fun fuel hf rest => ?_⟩
  simp only [makeMany, readSize, List.cons_append]
  rw [h fuel hf]
  rfl

set_option linter.unusedVariables false in
theorem has_reached (W : World) (hk : wholeAll W.known = true) (hp : ∀ c, wholeAll (W.params c) = true) {v : Val} {t : Ann}
    (h : Has W v t) : t.whole = true → Reached W v t := by
  induction h using Has.rec (motive_2 := fun vs ts _ => (∀ t ∈ ts, t.whole = true) → ReachedAll W vs ts ∧ ReachedItems W vs ts)
    (motive_3 := fun keys ts ks vs _ => (∀ t ∈ ts, t.whole = true) → ReachedFields W keys ts ks vs) with
  | none => intro ht; exact reached_succ 0 [] fun fuel _ sub _ rest => rfl
  | bool b => intro ht; exact reached_succ 0 [.bool b] fun fuel _ sub _ rest => rfl
  | int i => intro ht; exact reached_succ 0 [.int i] fun fuel _ sub _ rest => rfl
  | float f =>
    intro ht
    refine reached_succ 0 [.float f] fun fuel _ sub _ rest => ?_
    simp only [make, List.cons_append, List.nil_append, makeFloat_reach, Res.bind]
  | complex a b =>
    intro ht
    refine reached_succ 0 [.float a, .float b] fun fuel _ sub _ rest => ?_
    simp only [make, List.cons_append, List.nil_append, makeFloat_reach, Res.bind]
  | str s => intro ht; exact reached_succ 0 [.str s] fun fuel _ sub _ rest => rfl
  | bytes bs hb =>
    intro ht
    refine reached_succ 0 [.bytes bs] fun fuel _ sub _ rest => ?_
    simp only [make, List.cons_append, List.nil_append]
    rw [if_pos]
    rw [List.all_eq_true]
    intro b hm
    have := hb b hm
    simp only [decide_eq_true_eq]; omega
  | slice a b c =>
    intro ht
    obtain ⟨ta, ha⟩ := optionalInt_reach a
    obtain ⟨tb, hb⟩ := optionalInt_reach b
    obtain ⟨tc, hc⟩ := optionalInt_reach c
    refine reached_succ 0 (ta ++ (tb ++ tc)) fun fuel _ sub _ rest => ?_
    simp only [make, List.append_assoc, ha, hb, hc, Res.bind]
  | range a b c hc =>
    intro ht
    refine reached_succ 0 [.int c, .int a, .int b] fun fuel _ sub _ rest => ?_
    simp only [make, List.cons_append, List.nil_append]
    rw [if_pos hc]
  | enum e i hi =>
    intro ht
    obtain ⟨tape, hp⟩ := pick_reach _ i (List.mem_range.mpr hi)
    refine reached_succ 0 tape fun fuel _ sub _ rest => ?_
    simp only [make, hp, Res.bind]
  | union _ u ts hm hu ih =>
    intro ht
    obtain ⟨N, tape, hr⟩ := ih ((wholeAll_iff _).mp (by simpa [Ann.whole] using ht) u hm)
    obtain ⟨tape', hpk⟩ := pick_reach _ u hm
    refine reached_succ N (tape' ++ tape) fun fuel hf sub _ rest => ?_
    simp only [make, List.append_assoc, hpk, Res.bind]
    exact hr fuel hf true (fun _ => rfl) rest
  | final _ u hu ih =>
    intro ht
    obtain ⟨N, tape, hr⟩ := ih (by simpa [Ann.whole] using ht)
    exact reached_succ N tape fun fuel hf sub _ rest => by simp only [make]; exact hr fuel hf true (fun _ => rfl) rest
  | newType _ u hu ih =>
    intro ht
    obtain ⟨N, tape, hr⟩ := ih (by simpa [Ann.whole] using ht)
    exact reached_succ N tape fun fuel hf sub hs rest => by simp only [make]; exact hr fuel hf sub (by simpa [Ann.classLike] using hs) rest
  | typeAlias _ u hu ih =>
    intro ht
    obtain ⟨N, tape, hr⟩ := ih (by simpa [Ann.whole] using ht)
    exact reached_succ N tape fun fuel hf sub hs rest => by simp only [make]; exact hr fuel hf sub (by simpa [Ann.classLike] using hs) rest
  | varBound _ u hu ih =>
    intro ht
    obtain ⟨N, tape, hr⟩ := ih (by simpa [Ann.whole] using ht)
    exact reached_succ N tape fun fuel hf sub hs rest => by simp only [make]; exact hr fuel hf sub (by simpa [Ann.classLike] using hs) rest
  | varFree _ hu ih =>
    intro ht
    obtain ⟨N, tape, hr⟩ := ih rfl
    exact reached_succ N tape fun fuel hf sub hs rest => by
      simp only [make]; exact hr fuel hf sub (fun h => by simp [Ann.classLike] at h) rest
  | any _ u hm hu ih =>
    intro ht
    obtain ⟨N, tape, hr⟩ := ih ((wholeAll_iff _).mp hk u hm)
    obtain ⟨tape', hpk⟩ := pick_reach _ u hm
    refine reached_succ N (tape' ++ tape) fun fuel hf sub _ rest => ?_
    simp only [make, List.append_assoc, hpk, Res.bind]
    exact hr fuel hf true (fun _ => rfl) rest
  | tuple vs ts hvs ih =>
    intro ht
    by_cases hc : W.py311 && ts.isEmpty
    · have : ts = [] := by simpa using (Bool.and_eq_true_iff.mp hc).2
      subst this
      cases hvs
      refine reached_succ 0 [.size 0] fun fuel hf sub _ rest => ?_
      simp only [make, hc, if_true]
      rfl
    · obtain ⟨N, tape, hr⟩ := (ih ((wholeAll_iff _).mp (by simpa [Ann.whole] using ht))).1
      refine reached_succ N tape fun fuel hf sub _ rest => ?_
      simp only [make, hc, if_false, Bool.false_eq_true]
      rw [hr fuel hf true (fun _ => rfl)]
      rfl
  | tupleOf vs u n hvs ih =>
    intro ht
    obtain ⟨N, tape, hr⟩ := many_reach (ih (fun t hm => by
      rw [List.eq_of_mem_replicate hm]; simpa [Ann.whole] using ht)).2 (fun vs tape => .ok (.tuple vs) tape)
    exact reached_succ N tape fun fuel hf sub _ rest => by simp only [make]; exact hr fuel hf rest
  | bareTuple vs n hvs ih =>
    intro ht
    obtain ⟨N, tape, hr⟩ := many_reach (ih (fun t hm => by
      rw [List.eq_of_mem_replicate hm]; rfl)).2 (fun vs tape => .ok (.tuple vs) tape)
    exact reached_succ N tape fun fuel hf sub _ rest => by simp only [make]; exact hr fuel hf rest
  | list vs u n hvs ih =>
    intro ht
    obtain ⟨N, tape, hr⟩ := many_reach (ih (fun t hm => by
      rw [List.eq_of_mem_replicate hm]; simpa [Ann.whole] using ht)).2 (fun vs tape => .ok (.list vs) tape)
    exact reached_succ N tape fun fuel hf sub _ rest => by simp only [make]; exact hr fuel hf rest
  | sequenceTuple vs u n hvs ih => intro ht; simp [Ann.whole] at ht
  | sequenceList vs u n hvs ih => intro ht; simp [Ann.whole] at ht
  | dict ks vs k u n hks hvs hd ih ih2 =>
    intro ht
    simp only [Ann.whole, Bool.and_eq_true] at ht
    obtain ⟨N, tape, hr⟩ := (ih (fun t hm => by rw [List.eq_of_mem_replicate hm]; exact ht.1)).2
    obtain ⟨M, tape', hr'⟩ := (ih2 (fun t hm => by rw [List.eq_of_mem_replicate hm]; exact ht.2)).2
    refine reached_succ (max N M) (.size n :: (tape ++ tape')) fun fuel hf sub _ rest => ?_
    simp only [make, readSize, List.cons_append, List.append_assoc]
    rw [hr fuel (by omega)]
    simp only [Res.bind]
    rw [hr' fuel (by omega)]
    simp only [(allDifferent_iff W ks).mpr hd, if_true]
  | record keys ts ks vs hf ih =>
    intro ht
    simp only [Ann.whole, Bool.and_eq_true, List.all_eq_true, Bool.not_eq_true'] at ht
    obtain ⟨tape, us, hsub, hfl, N, tape', hr⟩ := ih ((wholeAll_iff _).mp ht.2)
    refine reached_succ N (tape ++ tape') fun fuel hfu sub _ rest => ?_
    simp only [make, List.append_assoc, hfl, Res.bind]
    rw [hr fuel hfu false (fun ⟨u, hu, hc⟩ => by rw [ht.1.2 u (hsub u hu)] at hc; exact hc)]
  | callable vs u n hvs ih =>
    intro ht
    obtain ⟨N, tape, hr⟩ := many_reach (ih (fun t hm => by
      rw [List.eq_of_mem_replicate hm]; simpa [Ann.whole] using ht)).2 (fun vs tape => if vs.isEmpty then .ignore else .ok (.fn vs) tape)
    refine reached_succ N tape fun fuel hf sub _ rest => ?_
    simp only [make]
    rw [hr fuel hf rest]
    cases hvs
    rfl
  | cls c d args hc hargs hb ih =>
    intro ht
    obtain ⟨N, tape, hr⟩ := (ih ((wholeAll_iff _).mp (hp c))).1
    obtain ⟨tape', hpk⟩ := pick_reach _ c hc
    refine reached_succ N (tape' ++ tape) fun fuel hf sub hs rest => ?_
    rw [hs rfl]
    simp only [make, if_true, List.append_assoc, hpk, Res.bind, makeClass]
    rw [hr fuel hf true (fun _ => rfl)]
    simp only [hb]
  | ioBytes => intro ht; simp [Ann.whole] at ht
  | ioStr => intro ht; exact reached_succ 0 [] fun fuel _ sub _ rest => rfl
  | ioText => intro ht; simp [Ann.whole] at ht
  | nil ht => exact ⟨⟨0, [], fun fuel _ sub _ rest => rfl⟩, ⟨0, [], fun fuel _ rest => rfl⟩⟩
  | cons v t vs ts h hs ih ih2 ht =>
    have h1 := ih (ht t (by simp))
    have h2 := ih2 (fun t hm => ht t (List.mem_cons_of_mem _ hm))
    exact ⟨reachedAll_cons h1 h2.1, reachedItems_cons h h1 h2.2⟩
  | empty ht => exact ⟨[], [], by simp, fun rest => rfl, 0, [], fun fuel _ sub _ rest => rfl⟩
  | present k required t v keys ts ks vs h hs ih ih2 ht =>
    have h1 := ih (ht t (by simp))
    obtain ⟨tape, us, hsub, hf, hr⟩ := ih2 (fun t hm => ht t (List.mem_cons_of_mem _ hm))
    cases required with
    | true =>
      refine ⟨tape, t :: us, ?_, fun rest => ?_, reachedAll_cons h1 hr⟩
      · intro u hu
        rcases List.mem_cons.mp hu with rfl | hu
        · simp
        · exact List.mem_cons_of_mem _ (hsub u hu)
      · simp only [fields, if_true, hf, Res.bind]
    | false =>
      refine ⟨.fork true :: tape, t :: us, ?_, fun rest => ?_, reachedAll_cons h1 hr⟩
      · intro u hu
        rcases List.mem_cons.mp hu with rfl | hu
        · simp
        · exact List.mem_cons_of_mem _ (hsub u hu)
      · simp only [fields, Bool.false_eq_true, if_false, List.cons_append, hf, Res.bind]
  | absent k t keys ts ks vs hs ih2 ht =>
    obtain ⟨tape, us, hsub, hf, hr⟩ := ih2 (fun t hm => ht t (List.mem_cons_of_mem _ hm))
    refine ⟨.fork false :: tape, us, fun u hu => List.mem_cons_of_mem _ (hsub u hu), fun rest => ?_, hr⟩
    simp only [fields, Bool.false_eq_true, if_false, List.cons_append, hf]

end Verif.Proxies
