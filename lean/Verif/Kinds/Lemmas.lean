import Verif.Kinds.Spec
/-
Lemmas about the kinds of contracts.
-/
namespace Verif.Kinds

/-! ### `implies` -/

mutual
theorem transform_some (e : Expr) (h : TwoArgs e) : ∃ e', transform e = some e' := by
  cases e with
  | atom n => exact ⟨_, rfl⟩
  | tru => exact ⟨_, rfl⟩
  | strict op parts =>
    obtain ⟨es, he⟩ := transformAll_some parts h
    exact ⟨.strict op es, by simp [transform, he]⟩
  | ifExp a b c =>
    obtain ⟨a', ha⟩ := transform_some a h.1
    obtain ⟨b', hb⟩ := transform_some b h.2.1
    obtain ⟨c', hc⟩ := transform_some c h.2.2
    exact ⟨.ifExp a' b' c', by simp [transform, ha, hb, hc]⟩
  | call fn args kwargs =>
    obtain ⟨as, ha⟩ := transformAll_some args h.2.1
    obtain ⟨ks, hk⟩ := transformAll_some kwargs h.2.2
    simp only [transform, ha, hk, Option.bind_some, rewriteCall]
    split
    · rename_i hf
      have hl := transformAll_length args as ha
      rw [h.1 hf] at hl
      match as, hl with
      | [x, y], _ => exact ⟨_, rfl⟩
    · exact ⟨_, rfl⟩
theorem transformAll_some (es : List Expr) (h : TwoArgsAll es) : ∃ es', transformAll es = some es' := by
  cases es with
  | nil => exact ⟨[], rfl⟩
  | cons e es =>
    obtain ⟨e', he⟩ := transform_some e h.1
    obtain ⟨es', hes⟩ := transformAll_some es h.2
    exact ⟨e' :: es', by simp [transformAll, he, hes]⟩
theorem transformAll_length (es es' : List Expr) (h : transformAll es = some es') : es'.length = es.length := by
  cases es with
  | nil => simp [transformAll] at h; subst h; rfl
  | cons e es =>
    simp only [transformAll] at h
    cases he : transform e with
    | none => simp [he] at h
    | some e' =>
      cases hes : transformAll es with
      | none => simp [he, hes] at h
      | some es'' =>
        simp only [he, hes, Option.bind_some, Option.map_some, Option.some.injEq] at h
        subst h
        simp [transformAll_length es es'' hes]
end

mutual
theorem twoArgs_of_transform (e e' : Expr) (h : transform e = some e') : TwoArgs e := by
  cases e with
  | atom n => trivial
  | tru => trivial
  | strict op parts =>
    simp only [transform] at h
    cases hp : transformAll parts with
    | none => simp [hp] at h
    | some ps => exact twoArgsAll_of_transform parts ps hp
  | ifExp a b c =>
    simp only [transform] at h
    cases ha : transform a with
    | none => simp [ha] at h
    | some a' =>
      cases hb : transform b with
      | none => simp [ha, hb] at h
      | some b' =>
        cases hc : transform c with
        | none => simp [ha, hb, hc] at h
        | some c' => exact ⟨twoArgs_of_transform a a' ha, twoArgs_of_transform b b' hb, twoArgs_of_transform c c' hc⟩
  | call fn args kwargs =>
    simp only [transform] at h
    cases ha : transformAll args with
    | none => simp [ha] at h
    | some as =>
      cases hk : transformAll kwargs with
      | none => simp [ha, hk] at h
      | some ks =>
        refine ⟨fun hf => ?_, twoArgsAll_of_transform args as ha, twoArgsAll_of_transform kwargs ks hk⟩
        simp only [ha, hk, Option.bind_some, rewriteCall] at h
        rw [if_pos (show fn = impliesName from hf)] at h
        rw [← transformAll_length args as ha]
        match as, h with
        | [x, y], _ => rfl
theorem twoArgsAll_of_transform (es es' : List Expr) (h : transformAll es = some es') : TwoArgsAll es := by
  cases es with
  | nil => trivial
  | cons e es =>
    simp only [transformAll] at h
    cases he : transform e with
    | none => simp [he] at h
    | some e' =>
      cases hes : transformAll es with
      | none => simp [he, hes] at h
      | some es'' => exact ⟨twoArgs_of_transform e e' he, twoArgsAll_of_transform es es'' hes⟩
end

mutual
theorem eval_transform (I : Interp) (e e' : Expr) (h : transform e = some e') : eval I e' = meaning I e := by
  cases e with
  | atom n => simp only [transform, Option.some.injEq] at h; subst h; simp only [eval, meaning]
  | tru => simp only [transform, Option.some.injEq] at h; subst h; simp only [eval, meaning]
  | strict op parts =>
    simp only [transform] at h
    cases hp : transformAll parts with
    | none => simp [hp] at h
    | some ps =>
      simp only [hp, Option.map_some, Option.some.injEq] at h
      subst h
      simp only [eval, meaning]
      rw [evalAll_transform I parts ps hp]
  | ifExp a b c =>
    simp only [transform] at h
    cases ha : transform a with
    | none => simp [ha] at h
    | some a' =>
      cases hb : transform b with
      | none => simp [ha, hb] at h
      | some b' =>
        cases hc : transform c with
        | none => simp [ha, hb, hc] at h
        | some c' =>
          simp only [ha, hb, hc, Option.bind_some, Option.map_some, Option.some.injEq] at h
          subst h
          simp only [eval, meaning]
          rw [eval_transform I a a' ha, eval_transform I b b' hb, eval_transform I c c' hc]
  | call fn args kwargs =>
    simp only [transform] at h
    cases ha : transformAll args with
    | none => simp [ha] at h
    | some as =>
      cases hk : transformAll kwargs with
      | none => simp [ha, hk] at h
      | some ks =>
        simp only [ha, hk, Option.bind_some, rewriteCall] at h
        by_cases hf : fn = impliesName
        · rw [if_pos hf] at h
          have hf0 : fn = 0 := hf
          simp only [meaning]
          rw [if_pos hf0]
          match args, as, ha, h with
          | [x, y], as, ha, h =>
            simp only [transformAll] at ha
            cases hx : transform x with
            | none => simp [hx] at ha
            | some x' =>
              cases hy : transform y with
              | none => simp [hx, hy] at ha
              | some y' =>
                simp only [hx, hy, Option.bind_some, Option.map_some, Option.some.injEq] at ha
                subst ha
                simp only [Option.some.injEq] at h
                subst h
                simp only [eval, meaningImplies]
                rw [eval_transform I x x' hx, eval_transform I y y' hy]
          | [], as, ha, h =>
            have := transformAll_length _ _ ha
            match as, h with
            | [_, _], _ => simp at this
          | [x], as, ha, h =>
            have := transformAll_length _ _ ha
            match as, h with
            | [_, _], _ => simp at this
          | x :: y :: z :: rest, as, ha, h =>
            have := transformAll_length _ _ ha
            match as, h with
            | [_, _], _ => simp at this
        · rw [if_neg hf] at h
          have hf0 : ¬ fn = 0 := hf
          simp only [Option.some.injEq] at h
          subst h
          simp only [eval, meaning]
          rw [if_neg hf0, evalAll_transform I args as ha, evalAll_transform I kwargs ks hk]
theorem evalAll_transform (I : Interp) (es es' : List Expr) (h : transformAll es = some es') :
    evalAll I es' = meaningAll I es := by
  cases es with
  | nil => simp only [transformAll, Option.some.injEq] at h; subst h; simp only [evalAll, meaningAll]
  | cons e es =>
    simp only [transformAll] at h
    cases he : transform e with
    | none => simp [he] at h
    | some e' =>
      cases hes : transformAll es with
      | none => simp [he, hes] at h
      | some es'' =>
        simp only [he, hes, Option.bind_some, Option.map_some, Option.some.injEq] at h
        subst h
        simp only [evalAll, meaningAll]
        rw [eval_transform I e e' he, evalAll_transform I es es'' hes]
end

/-! ### asserts -/

theorem bodyLoop_split (lead : List Stmt) (s : Stmt) (rest : List Stmt) (found : Bool) (cur : Option Stmt)
    (hl : ∀ x ∈ lead, x.assert = true ∨ x.literal = true) (hs : s.assert = false ∧ s.literal = false) :
    bodyLoop (lead ++ s :: rest) found cur = (found || lead.any (·.assert), some s) := by
  induction lead generalizing found cur with
  | nil => simp [bodyLoop, hs.1, hs.2]
  | cons x lead ih =>
    simp only [List.cons_append, bodyLoop]
    by_cases ha : x.assert = true
    · rw [if_pos ha, ih _ _ fun y hy => hl y (List.mem_cons_of_mem _ hy)]
      simp [ha]
    · rw [if_neg ha]
      have hlit := (hl x (List.mem_cons_self ..)).resolve_left ha
      rw [if_pos hlit, ih _ _ fun y hy => hl y (List.mem_cons_of_mem _ hy)]
      simp [ha]

theorem firstBodyLine_split {body lead rest : List Stmt} {s : Stmt} (h : Split body lead s rest) :
    firstBodyLine body = some s.first := by
  unfold firstBodyLine
  rw [h.split, bodyLoop_split _ _ _ _ _ h.leading h.other]
  obtain ⟨x, hx, ha⟩ := h.any
  have : lead.any (·.assert) = true := List.any_eq_true.2 ⟨x, hx, ha⟩
  rw [this]
  rfl

/-! ### icontract -/

theorem evalConj_value (eval : Nat → Eval) (cs : List Nat) (h : ∀ c ∈ cs, ∃ b, eval c = .value b) :
    evalConj eval cs = .value (decide (∀ c ∈ cs, eval c = .value true)) := by
  induction cs with
  | nil => simp [evalConj]
  | cons c cs ih =>
    have ih := ih fun c hc => h c (List.mem_cons_of_mem _ hc)
    obtain ⟨b, hb⟩ := h c (List.mem_cons_self ..)
    simp only [evalConj, hb]
    cases b with
    | false => simp [hb]
    | true => simp [hb, ih]

theorem evalDisj_value (eval : Nat → Eval) (d : List (List Nat)) (h : ∀ cs ∈ d, ∀ c ∈ cs, ∃ b, eval c = .value b) :
    evalDisj eval d = .value (decide (∃ cs ∈ d, ∀ c ∈ cs, eval c = .value true)) := by
  induction d with
  | nil => simp [evalDisj]
  | cons cs d ih =>
    have ih := ih fun cs hc => h cs (List.mem_cons_of_mem _ hc)
    simp only [evalDisj, evalConj_value eval cs (h cs (List.mem_cons_self ..))]
    by_cases hc : ∀ c ∈ cs, eval c = .value true
    · have h1 : decide (∀ c ∈ cs, eval c = .value true) = true := decide_eq_true hc
      rw [h1]
      simp only
      congr 1
      exact (decide_eq_true ⟨cs, List.mem_cons_self .., hc⟩).symm
    · have h1 : decide (∀ c ∈ cs, eval c = .value true) = false := decide_eq_false hc
      rw [h1]
      simp only
      rw [ih]
      congr 1
      refine decide_eq_decide.2 ⟨?_, ?_⟩
      · rintro ⟨x, hx, hx2⟩; exact ⟨x, List.mem_cons_of_mem _ hx, hx2⟩
      · rintro ⟨x, hx, hx2⟩
        rcases List.mem_cons.1 hx with rfl | hx
        · exact absurd hx2 hc
        · exact ⟨x, hx, hx2⟩

/-! ### deal -/

theorem extract_args (bs : List (Param × Val)) : (extract bs).1 = bs.map (·.2) := by
  induction bs with
  | nil => rfl
  | cons b bs ih => simp only [extract, List.map_cons]; rw [ih]

theorem extract_kwargs (bs : List (Param × Val)) (h : ∀ b ∈ bs, b.1.kind ≠ .kwOnly) : (extract bs).2 = [] := by
  induction bs with
  | nil => rfl
  | cons b bs ih =>
    simp only [extract]
    rw [if_neg (h b (List.mem_cons_self ..)), ih fun b hb => h b (List.mem_cons_of_mem _ hb)]

theorem bind_count (ps : List Param) (args : List Val) (kwargs : List (Nat × Val)) (r : List (Param × Val))
    (hv : ∀ p ∈ ps, p.kind ≠ .varPos) (h : bind ps args kwargs = some r) :
    args.length ≤ (ps.filter fun p => p.kind = .posOnly ∨ p.kind = .posKw).length := by
  induction ps generalizing args kwargs r with
  | nil =>
    cases args with
    | nil => simp
    | cons a as => simp [bind] at h
  | cons p ps ih =>
    have ih := fun args kwargs r => ih args kwargs r fun p hp => hv p (List.mem_cons_of_mem _ hp)
    have hp := hv p (List.mem_cons_self ..)
    rw [bind.eq_def] at h
    simp only at h
    cases hk : p.kind with
    | posOnly =>
      rw [hk] at h
      simp only at h
      cases args with
      | nil => simp
      | cons a as =>
        simp only [Option.map_eq_some_iff] at h
        obtain ⟨r', hr, _⟩ := h
        have := ih as kwargs r' hr
        simp [hk]
        simpa using this
    | posKw =>
      rw [hk] at h
      simp only at h
      cases args with
      | nil => simp
      | cons a as =>
        simp only at h
        split at h
        · cases h
        · simp only [Option.map_eq_some_iff] at h
          obtain ⟨r', hr, _⟩ := h
          have := ih as kwargs r' hr
          simp [hk]
          simpa using this
    | varPos => exact absurd hk hp
    | kwOnly =>
      rw [hk] at h
      simp only at h
      split at h
      · simp only [Option.map_eq_some_iff] at h
        obtain ⟨r', hr, _⟩ := h
        have := ih args _ r' hr
        simp [hk]
        simpa using this
      · cases h
    | varKw =>
      rw [hk] at h
      simp only [Option.map_eq_some_iff] at h
      obtain ⟨r', hr, _⟩ := h
      have := ih args _ r' hr
      simp [hk]
      simpa using this

/-! ### Registered contracts -/

/-- All that is registered is verified, with every signature. -/
def RegOk (ref : Nat → Option Sig) (reg : Registry) : Prop := ∀ e ∈ reg, verify e.2 (ref e.1) = true

theorem lookup_mem' {reg : Registry} {fn : Nat} {c : Contract} (h : reg.lookup fn = some c) : (fn, c) ∈ reg := by
  induction reg with
  | nil => cases h
  | cons e reg ih =>
    rw [List.lookup_cons] at h
    by_cases he : fn = e.1
    · rw [show (fn == e.1) = true by simpa using he] at h
      simp only [Option.some.injEq] at h
      subst h; subst he
      exact List.mem_cons_self ..
    · rw [show (fn == e.1) = false by simpa using he] at h
      exact List.mem_cons_of_mem _ (ih h)

theorem verifyOne_sigs (c : Contract) (sigs : List Sig) (ref : Option Sig) (s : Sig) :
    verifyOne { c with sigs := sigs } ref s = verifyOne c ref s := rfl

theorem addContract_ok (ref : Nat → Option Sig) (reg : Registry) (fn : Nat) (c : Contract) (h : RegOk ref reg) (hk : (reg.map (·.1)).Nodup) :
    RegOk ref (addContract reg fn c (ref fn)).1 ∧ ((addContract reg fn c (ref fn)).1.map (·.1)).Nodup := by
  unfold addContract
  split
  · rename_i hv
    cases hl : reg.lookup fn with
    | none =>
      refine ⟨fun e he => ?_, ?_⟩
      · rcases List.mem_cons.1 he with rfl | he
        · exact hv
        · exact h e he
      · simp only [List.map_cons, List.nodup_cons]
        refine ⟨fun hm => ?_, hk⟩
        obtain ⟨e, he, hee⟩ := List.mem_map.1 hm
        have : reg.lookup fn ≠ none := by
          intro hn
          clear hl hv hk h hm c
          induction reg with
          | nil => cases he
          | cons x reg ih =>
            rw [List.lookup_cons] at hn
            by_cases hx : fn = x.1
            · rw [show (fn == x.1) = true by simpa using hx] at hn; cases hn
            · rw [show (fn == x.1) = false by simpa using hx] at hn
              rcases List.mem_cons.1 he with rfl | he
              · exact hx hee.symm
              · exact ih he hn
        exact this hl
    | some old =>
      simp only
      split
      · rename_i hsame
        refine ⟨fun e he => ?_, ?_⟩
        · obtain ⟨x, hx, rfl⟩ := List.mem_map.1 he
          split
          · rename_i hf
            have hxo : x.2 = old := by
              have hm := lookup_mem' hl
              have hin := hx
              clear h hv he
              have : ∀ (l : Registry), (l.map (·.1)).Nodup → x ∈ l → (fn, old) ∈ l → x.2 = old := by
                intro l hn h1 h2
                induction l with
                | nil => cases h1
                | cons y l ih =>
                  simp only [List.map_cons, List.nodup_cons] at hn
                  rcases List.mem_cons.1 h1 with rfl | h1'
                  · rcases List.mem_cons.1 h2 with h2 | h2
                    · rw [← h2]
                    · exact absurd (hf ▸ List.mem_map_of_mem (f := (·.1)) h2) hn.1
                  · rcases List.mem_cons.1 h2 with h2 | h2
                    · subst h2
                      exact absurd (List.mem_map.2 ⟨x, h1', hf⟩) hn.1
                    · exact ih hn.2 h1' h2
              exact this reg hk hin hm
            have hvx := h x hx
            unfold verify at hvx hv ⊢
            simp only [List.all_append, Bool.and_eq_true] at hvx hv ⊢
            refine ⟨⟨?_, ?_⟩, ?_⟩
            · exact hvx.1
            · rw [hf]
              rw [List.all_eq_true] at hv ⊢
              intro s hs
              have := hv.1 s hs
              rw [← this]
              unfold verifyOne
              rw [hxo, hsame.1, hsame.2.1]
            · exact hvx.2
          · exact h x hx
        · have : ∀ l : Registry, (l.map fun e => if e.1 = fn then (e.1, { e.2 with sigs := e.2.sigs ++ c.sigs }) else e).map (·.1) = l.map (·.1) := by
            intro l
            rw [List.map_map]
            apply List.map_congr_left
            intro e _
            simp only [Function.comp]
            split <;> rfl
          rw [this]
          exact hk
      · exact ⟨h, hk⟩
  · exact ⟨h, hk⟩

/-- What is registered stays: only signatures are added. -/
theorem addContract_stays (reg : Registry) (fn : Nat) (c : Contract) (r : Option Sig) (fn' : Nat) (old : Contract) (h : reg.lookup fn' = some old) :
    ∃ more, (addContract reg fn c r).1.lookup fn' = some { old with sigs := old.sigs ++ more } := by
  have same : ∃ more, reg.lookup fn' = some { old with sigs := old.sigs ++ more } := ⟨[], by simp [h]⟩
  unfold addContract
  split
  · cases hl : reg.lookup fn with
    | none =>
      simp only
      refine ⟨[], ?_⟩
      rw [List.lookup_cons]
      by_cases hf : fn' = fn
      · subst hf; rw [hl] at h; cases h
      · rw [show (fn' == fn) = false by simpa using hf]
        simp [h]
    | some o =>
      simp only
      split
      · have : ∀ l : Registry, l.lookup fn' = some old →
            ∃ more, (l.map fun e => if e.1 = fn then (e.1, { e.2 with sigs := e.2.sigs ++ c.sigs }) else e).lookup fn' =
              some { old with sigs := old.sigs ++ more } := by
          intro l hl
          induction l with
          | nil => cases hl
          | cons e l ih =>
            rw [List.lookup_cons] at hl
            simp only [List.map_cons]
            by_cases he : fn' = e.1
            · rw [show (fn' == e.1) = true by simpa using he] at hl
              simp only [Option.some.injEq] at hl
              by_cases hf : e.1 = fn
              · rw [if_pos hf]
                refine ⟨c.sigs, ?_⟩
                rw [List.lookup_cons]
                simp [he, hl]
              · rw [if_neg hf]
                refine ⟨[], ?_⟩
                rw [List.lookup_cons]
                simp [he, hl]
            · rw [show (fn' == e.1) = false by simpa using he] at hl
              obtain ⟨more, hm⟩ := ih hl
              refine ⟨more, ?_⟩
              by_cases hf : e.1 = fn
              · rw [if_pos hf, List.lookup_cons, show (fn' == e.1) = false by simpa using he]
                exact hm
              · rw [if_neg hf, List.lookup_cons, show (fn' == e.1) = false by simpa using he]
                exact hm
        exact this reg h
      · exact same
  · exact same

theorem lookupArgs_some (cond : Sig) (bound : List (Nat × Val)) (h : ∀ n ∈ names cond, (bound.lookup n).isSome) :
    ∃ l, lookupArgs cond bound = some l ∧ l.map (·.1) = names cond ∧ ∀ e ∈ l, bound.lookup e.1 = some e.2 := by
  unfold lookupArgs
  generalize names cond = ns at h
  induction ns with
  | nil => exact ⟨[], rfl, rfl, by simp⟩
  | cons n ns ih =>
    obtain ⟨l, h1, h2, h3⟩ := ih fun n hn => h n (List.mem_cons_of_mem _ hn)
    obtain ⟨v, hv⟩ := Option.isSome_iff_exists.1 (h n (List.mem_cons_self ..))
    refine ⟨(n, v) :: l, ?_, by simp [h2], ?_⟩
    · rw [List.mapM_cons, hv, h1]
      rfl
    · intro e he
      rcases List.mem_cons.1 he with rfl | he
      · exact hv
      · exact h3 e he

end Verif.Kinds
