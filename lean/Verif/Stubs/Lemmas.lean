import Verif.Stubs.Spec
namespace Verif.Stubs

theorem unionOpen_length : unionOpen.length = 6 := rfl

mutual
/-- The text while its scope is open: groups are done, bars are still there. -/
def Pieces.half : Pieces → List Char
  | .nil => []
  | .ch c rest => c :: rest.half
  | .bar rest => '|' :: rest.half
  | .group o c segs rest => o :: (segs.union ++ c :: rest.half)
end

mutual
theorem noBar_pieces : ∀ (p : Pieces), p.Ok → '|' ∉ p.alternatives
  | .nil, _ => by simp [Pieces.alternatives]
  | .ch c rest, h => by
    simp only [Pieces.alternatives, List.mem_cons, not_or]
    exact ⟨fun hh => h.1.1 hh.symm, noBar_pieces rest h.2⟩
  | .bar rest, h => by
    simp only [Pieces.alternatives, List.mem_cons, not_or]
    exact ⟨by decide, noBar_pieces rest h⟩
  | .group o c segs rest, h => by
    obtain ⟨ho, hc, hs, hr⟩ := h
    simp only [Pieces.alternatives, List.mem_cons, List.mem_append, not_or]
    refine ⟨?_, noBar_segs segs hs, ?_, noBar_pieces rest hr⟩
    · rcases ho with rfl | rfl <;> decide
    · rcases hc with rfl | rfl <;> decide
theorem noBar_segs : ∀ (s : Segs), s.Ok → '|' ∉ s.union
  | .one p, h => by
    have := noBar_pieces p h
    rw [Segs.union]
    unfold around
    split
    · simp only [List.mem_append, not_or]
      exact ⟨⟨by decide, this⟩, by decide⟩
    · exact this
  | .cons p rest, h => by
    have h1 := noBar_pieces p h.1
    have h2 := noBar_segs rest h.2
    rw [Segs.union]
    simp only [List.mem_append, List.mem_cons, not_or]
    refine ⟨?_, by decide, h2⟩
    unfold around
    split
    · simp only [List.mem_append, not_or]
      exact ⟨⟨by decide, h1⟩, by decide⟩
    · exact h1
end

theorem barsToCommas_of_noBar : ∀ (s : List Char), '|' ∉ s → barsToCommas s = s
  | [], _ => rfl
  | c :: s, h => by
    simp only [List.mem_cons, not_or] at h
    show (if c = '|' then ',' else c) :: barsToCommas s = c :: s
    rw [if_neg (fun hh => h.1 hh.symm), barsToCommas_of_noBar s h.2]

theorem barsToCommas_append (a b : List Char) : barsToCommas (a ++ b) = barsToCommas a ++ barsToCommas b := by
  simp [barsToCommas]

theorem barsToCommas_half : ∀ (p : Pieces), p.Ok → barsToCommas p.half = p.alternatives
  | .nil, _ => rfl
  | .ch c rest, h => by
    show (if c = '|' then ',' else c) :: barsToCommas rest.half = _
    rw [if_neg h.1.1, barsToCommas_half rest h.2]; rfl
  | .bar rest, h => by
    show (if '|' = '|' then ',' else '|') :: barsToCommas rest.half = _
    rw [if_pos rfl, barsToCommas_half rest h]; rfl
  | .group o c segs rest, h => by
    obtain ⟨ho, hc, hs, hr⟩ := h
    rw [Pieces.half, Pieces.alternatives]
    show (if o = '|' then ',' else o) :: barsToCommas (segs.union ++ c :: rest.half) = _
    rw [barsToCommas_append, barsToCommas_of_noBar _ (noBar_segs segs hs)]
    show _ :: (_ ++ (if c = '|' then ',' else c) :: barsToCommas rest.half) = _
    rw [barsToCommas_half rest hr]
    rw [if_neg (by rcases ho with rfl | rfl <;> decide), if_neg (by rcases hc with rfl | rfl <;> decide)]

theorem half_of_not_union : ∀ (p : Pieces), p.isUnion = false → p.half = p.alternatives
  | .nil, _ => rfl
  | .ch c rest, h => by rw [Pieces.half, Pieces.alternatives, half_of_not_union rest h]
  | .bar rest, h => by cases h
  | .group o c segs rest, h => by rw [Pieces.half, Pieces.alternatives, half_of_not_union rest h]

/-- Closing a scope whose text is `half`, after `pre`, with a bar or not. -/
theorem wrap_half (pre post : List Char) (p : Pieces) (h : p.Ok) (start : Nat) (hs : pre.length = start + 1) :
    wrap (pre ++ p.half ++ post) start (pre.length + p.half.length) = pre ++ (unionOpen ++ p.alternatives ++ [']']) ++ post := by
  unfold wrap
  have h1 : (pre ++ p.half ++ post).take (start + 1) = pre := by
    rw [← hs, List.append_assoc, List.take_left]
  have h2 : ((pre ++ p.half ++ post).take (pre.length + p.half.length)).drop (start + 1) = p.half := by
    rw [← List.length_append, List.take_left, ← hs, List.drop_left]
  have h3 : (pre ++ p.half ++ post).drop (pre.length + p.half.length) = post := by
    rw [← List.length_append, List.drop_left]
  rw [h1, h2, h3, barsToCommas_half p h]
  simp

theorem step_plain (st : St) (c : Char) (h : Plain c) : (close st c).map (opens · c) = some { st with idx := st.idx + 1 } := by
  obtain ⟨h1, h2, h3, h4, h5, h6⟩ := h
  simp [close, note, opens, h1, h2, h3, h4, h5, h6]

theorem step_bar (st : St) : (close st '|').map (opens · '|') = some { st with found := true, idx := st.idx + 1 } := by
  simp [close, note, opens]

theorem step_open (st : St) (c : Char) (h : c = '(' ∨ c = '[') : (close st c).map (opens · c) =
    some { st with saved := (st.start, st.found) :: st.saved, start := st.idx, found := false, idx := st.idx + 1 } := by
  rcases h with rfl | rfl <;> simp [close, note, opens]

theorem loop_cons (st : St) (c : Char) (cs : List Char) (st' : St) (h : (close st c).map (opens · c) = some st') :
    loop st (c :: cs) = loop st' cs := by
  rw [loop]
  cases hc : close st c with
  | none => rw [hc] at h; cases h
  | some s => rw [hc] at h; cases h; rfl

/-- The end of a part: after it, `new` has the part rewritten, and the index is behind it. -/
theorem close_part (pre post : List Char) (p : Pieces) (hp : p.Ok) (start : Nat) (hs : pre.length = start + 1) (found : Bool)
    (hf : found = p.isUnion) :
    (if found then (wrap (pre ++ p.half ++ post) start (pre.length + p.half.length), pre.length + p.half.length + 7)
      else (pre ++ p.half ++ post, pre.length + p.half.length)) = (pre ++ p.union ++ post, (pre ++ p.union).length) := by
  subst hf
  unfold Pieces.union around
  cases h : p.isUnion with
  | true =>
    simp only [if_true]
    rw [wrap_half pre post p hp start hs]
    have hl : p.half.length = p.alternatives.length := by
      rw [← barsToCommas_half p hp]; simp [barsToCommas]
    refine Prod.ext rfl ?_
    simp only [List.length_append, hl]
    show _ = _ + ((6 + _) + 1)
    omega
  | false =>
    simp only [Bool.false_eq_true, if_false]
    rw [half_of_not_union p h]
    refine Prod.ext rfl ?_
    simp

theorem close_part_st (st : St) (pre post : List Char) (p : Pieces) (hp : p.Ok) (hs : pre.length = st.start + 1)
    (hn : st.new = pre ++ p.half ++ post) (hi : st.idx = pre.length + p.half.length) (hf : st.found = p.isUnion) :
    finish st =
      { st with new := pre ++ p.union ++ post, idx := (pre ++ p.union).length } := by
  have h := close_part pre post p hp st.start hs st.found hf
  rw [← hn, ← hi] at h
  unfold finish
  obtain ⟨new, saved, start, found, idx⟩ := st
  cases found with
  | true =>
    simp only [if_true, Prod.mk.injEq] at h ⊢
    rw [h.1, h.2]
  | false =>
    simp only [Bool.false_eq_true, if_false, Prod.mk.injEq] at h ⊢
    rw [h.1, h.2]

theorem step_comma (st : St) (pre post : List Char) (p : Pieces) (hp : p.Ok) (hs : pre.length = st.start + 1)
    (hn : st.new = pre ++ p.half ++ post) (hi : st.idx = pre.length + p.half.length) (hf : st.found = p.isUnion) :
    (close st ',').map (opens · ',') =
      some { st with new := pre ++ p.union ++ post, start := (pre ++ p.union).length, found := false, idx := (pre ++ p.union).length + 1 } := by
  have h := close_part_st st pre post p hp hs hn hi hf
  unfold close
  rw [if_pos (by decide), if_neg (by decide), show note st ',' = st from rfl, h]
  simp [opens]

theorem step_close (st : St) (pre post : List Char) (p : Pieces) (hp : p.Ok) (hs : pre.length = st.start + 1)
    (hn : st.new = pre ++ p.half ++ post) (hi : st.idx = pre.length + p.half.length) (hf : st.found = p.isUnion) (c : Char)
    (hc : c = ')' ∨ c = ']') (s0 : Nat) (f0 : Bool) (sv : List (Nat × Bool)) (hsv : st.saved = (s0, f0) :: sv) :
    (close st c).map (opens · c) =
      some { new := pre ++ p.union ++ post, saved := sv, start := s0, found := f0, idx := (pre ++ p.union).length + 1 } := by
  have h := close_part_st st pre post p hp hs hn hi hf
  have key : close st c = some { new := pre ++ p.union ++ post, saved := sv, start := s0, found := f0, idx := (pre ++ p.union).length } := by
    unfold close
    rw [if_pos (by rcases hc with rfl | rfl <;> decide), if_pos (by rcases hc with rfl | rfl <;> decide),
      show note st c = st by rcases hc with rfl | rfl <;> rfl, h]
    simp only [pop, hsv]
  rw [key]
  rcases hc with rfl | rfl <;> simp [opens]

mutual
theorem loop_pieces : ∀ (p : Pieces), p.Ok → ∀ (pre rest : List Char) (saved : List (Nat × Bool)) (start : Nat) (found : Bool) (cs : List Char),
    loop ⟨pre ++ (p.text ++ rest), saved, start, found, pre.length⟩ (p.text ++ cs) =
      loop ⟨pre ++ p.half ++ rest, saved, start, found || p.isUnion, pre.length + p.half.length⟩ cs
  | .nil, _, pre, rest, saved, start, found, cs => by simp [Pieces.text, Pieces.half, Pieces.isUnion]
  | .ch c q, h, pre, rest, saved, start, found, cs => by
    rw [Pieces.text]
    simp only [List.cons_append]
    rw [loop_cons _ _ _ _ (step_plain _ c h.1)]
    have := loop_pieces q h.2 (pre ++ [c]) rest saved start found cs
    simp only [List.append_assoc, List.singleton_append, List.length_append, List.length_singleton] at this
    rw [this]
    simp [Pieces.half, Pieces.isUnion, Nat.add_assoc, Nat.add_comm]
  | .bar q, h, pre, rest, saved, start, found, cs => by
    rw [Pieces.text]
    simp only [List.cons_append]
    rw [loop_cons _ _ _ _ (step_bar _)]
    have := loop_pieces q h (pre ++ ['|']) rest saved start true cs
    simp only [List.append_assoc, List.singleton_append, List.length_append, List.length_singleton] at this
    rw [this]
    simp [Pieces.half, Pieces.isUnion, Nat.add_assoc, Nat.add_comm]
  | .group o c segs q, h, pre, rest, saved, start, found, cs => by
    obtain ⟨ho, hc, hs, hq⟩ := h
    rw [Pieces.text]
    simp only [List.cons_append]
    rw [loop_cons _ _ _ _ (step_open _ o ho)]
    have h1 := loop_segs segs hs (pre ++ [o]) (q.text ++ rest) c hc start found saved pre.length (by simp) (q.text ++ cs)
    simp only [List.append_assoc, List.length_append, List.length_singleton, List.cons_append, List.nil_append] at h1
    simp only [List.append_assoc, List.cons_append]
    rw [h1]
    rw [show pre.length + (o :: segs.union).length + 1 = pre.length + (o :: (segs.union ++ [c])).length by simp; omega]
    have h2 := loop_pieces q hq (pre ++ [o] ++ segs.union ++ [c]) rest saved start found cs
    simp only [List.append_assoc, List.length_append, List.cons_append, List.nil_append] at h2
    rw [h2]
    rw [Pieces.half, Pieces.isUnion]
    simp only [List.append_assoc, List.cons_append]
    rw [show pre.length + (o :: (segs.union ++ [c])).length + q.half.length = pre.length + (o :: (segs.union ++ c :: q.half)).length by
      simp; omega]
theorem loop_segs : ∀ (s : Segs), s.Ok → ∀ (pre rest : List Char) (c : Char), (c = ')' ∨ c = ']') → ∀ (s0 : Nat) (f0 : Bool) (sv : List (Nat × Bool))
    (start : Nat), pre.length = start + 1 → ∀ (cs : List Char),
    loop ⟨pre ++ (s.text ++ c :: rest), (s0, f0) :: sv, start, false, pre.length⟩ (s.text ++ c :: cs) =
      loop ⟨pre ++ s.union ++ c :: rest, sv, s0, f0, (pre ++ s.union).length + 1⟩ cs
  | .one p, h, pre, rest, c, hc, s0, f0, sv, start, hst, cs => by
    rw [Segs.text, loop_pieces p h pre (c :: rest) _ start false (c :: cs)]
    rw [loop_cons _ _ _ _ (step_close _ pre (c :: rest) p h hst rfl rfl (by simp) c hc s0 f0 sv rfl)]
    rfl
  | .cons p s, h, pre, rest, c, hc, s0, f0, sv, start, hst, cs => by
    rw [Segs.text]
    have h1 := loop_pieces p h.1 pre (',' :: (s.text ++ c :: rest)) ((s0, f0) :: sv) start false (',' :: (s.text ++ c :: cs))
    simp only [List.append_assoc, List.cons_append] at h1 ⊢
    rw [h1]
    rw [loop_cons _ _ _ _ (step_comma _ pre (',' :: (s.text ++ c :: rest)) p h.1 hst (by simp) rfl (by simp))]
    have h2 := loop_segs s h.2 (pre ++ p.union ++ [',']) rest c hc s0 f0 sv (pre ++ p.union).length (by simp; omega) cs
    simp only [List.append_assoc, List.cons_append, List.nil_append, List.length_append, List.length_singleton] at h2
    simp only [List.append_assoc, List.length_append]
    rw [show pre.length + p.union.length + 1 = pre.length + (p.union.length + 1) by omega, h2]
    rw [Segs.union]
    have : around p.isUnion p.alternatives = p.union := rfl
    rw [this]
    simp only [List.append_assoc, List.cons_append, List.length_append, List.length_cons]
end

/-! ### Signatures -/

theorem join_mem (a b : List Nat × Bool) (x : Nat) : x ∈ (join a b).1 ↔ x ∈ a.1 ∨ x ∈ b.1 := by simp [join]
theorem join_valid (a b : List Nat × Bool) : (join a b).2 = true ↔ a.2 = true ∧ b.2 = true := by simp [join]


theorem first_cons (n : Node) (ns : Nodes) (steps : List Nat) : first (.cons n ns) steps = join (named n steps) (first ns steps) := by rw [first]
theorem second_cons (n : Node) (ns : Nodes) (steps : List Nat) :
    second (.cons n ns) steps = join (conditional n steps) (second ns steps) := by rw [second]

theorem ne_nil_of_isEmpty {l : List Nat} (h : ¬ l.isEmpty = true) : l ≠ [] := by intro hh; rw [hh] at h; exact h rfl

mutual
theorem named_sound : ∀ (n : Node) (ns : Nodes) (steps : List Nat) (x : Nat), ns.Mem n → x ∈ (named n steps).1 → Declares ns steps x
  | .func name sig made valid body, ns, steps, x, hm, hx => by
    rw [named] at hx
    by_cases h1 : steps.head? = some name
    · rw [if_pos h1] at hx
      cases steps with
      | nil => cases h1
      | cons s rest =>
        cases h1
        by_cases h2 : (name :: rest).length = 1
        · rw [if_pos h2] at hx
          have : rest = [] := by cases rest with
            | nil => rfl
            | cons _ _ => simp at h2
          subst this
          cases made with
          | true => simp at hx; subst hx; exact .func hm
          | false => simp at hx
        · rw [if_neg h2] at hx
          change x ∈ (if rest.isEmpty = true then (([], true) : List Nat × Bool) else join (first body rest) (second body rest)).1 at hx
          by_cases h3 : rest.isEmpty = true
          · rw [if_pos h3] at hx; cases hx
          · rw [if_neg h3, join_mem] at hx
            refine .inFunc hm (ne_nil_of_isEmpty h3) ?_
            rcases hx with hx | hx
            · exact first_sound body body rest x (fun _ h => h) hx
            · exact second_sound body body rest x (fun _ h => h) hx
    · rw [if_neg h1] at hx; cases hx
  | .cls name body, ns, steps, x, hm, hx => by
    rw [named] at hx
    by_cases h1 : steps.head? = some name
    · rw [if_pos h1] at hx
      cases steps with
      | nil => cases h1
      | cons s rest =>
        cases h1
        change x ∈ (if rest.isEmpty = true then (([], true) : List Nat × Bool) else join (first body rest) (second body rest)).1 at hx
        by_cases h3 : rest.isEmpty = true
        · rw [if_pos h3] at hx; cases hx
        · rw [if_neg h3, join_mem] at hx
          refine .inCls hm (ne_nil_of_isEmpty h3) ?_
          rcases hx with hx | hx
          · exact first_sound body body rest x (fun _ h => h) hx
          · exact second_sound body body rest x (fun _ h => h) hx
    · rw [if_neg h1] at hx; cases hx
  | .ifs .., _, _, _, _, hx => by rw [named] at hx; cases hx
  | .asyncFunc .., _, _, _, _, hx => by rw [named] at hx; cases hx
  | .other, _, _, _, _, hx => by rw [named] at hx; cases hx
theorem conditional_sound : ∀ (n : Node) (ns : Nodes) (steps : List Nat) (x : Nat), ns.Mem n → x ∈ (conditional n steps).1 → Declares ns steps x
  | .func .., _, _, _, _, hx => by rw [conditional] at hx; cases hx
  | .cls .., _, _, _, _, hx => by rw [conditional] at hx; cases hx
  | .ifs sys evals truth body orelse, ns, steps, x, hm, hx => by
    rw [conditional] at hx
    cases sys with
    | false => simp at hx
    | true =>
      cases evals with
      | false => simp at hx
      | true =>
        cases truth with
        | true =>
          simp only [if_true] at hx
          rw [join_mem] at hx
          refine .ifTrue hm ?_
          rcases hx with hx | hx
          · exact first_sound body body steps x (fun _ h => h) hx
          · exact second_sound body body steps x (fun _ h => h) hx
        | false =>
          simp only [if_true, Bool.false_eq_true, if_false] at hx
          rw [join_mem] at hx
          refine .ifFalse hm ?_
          rcases hx with hx | hx
          · exact first_sound orelse orelse steps x (fun _ h => h) hx
          · exact second_sound orelse orelse steps x (fun _ h => h) hx
  | .asyncFunc .., _, _, _, _, hx => by rw [conditional] at hx; cases hx
  | .other, _, _, _, _, hx => by rw [conditional] at hx; cases hx
theorem first_sound : ∀ (m ns : Nodes) (steps : List Nat) (x : Nat), (∀ n, m.Mem n → ns.Mem n) → x ∈ (first m steps).1 → Declares ns steps x
  | .nil, _, _, _, _, hx => by rw [first] at hx; cases hx
  | .cons n m, ns, steps, x, hsub, hx => by
    rw [first_cons, join_mem] at hx
    rcases hx with hx | hx
    · exact named_sound n ns steps x (hsub n (Or.inl rfl)) hx
    · exact first_sound m ns steps x (fun k hk => hsub k (Or.inr hk)) hx
theorem second_sound : ∀ (m ns : Nodes) (steps : List Nat) (x : Nat), (∀ n, m.Mem n → ns.Mem n) → x ∈ (second m steps).1 → Declares ns steps x
  | .nil, _, _, _, _, hx => by rw [second] at hx; cases hx
  | .cons n m, ns, steps, x, hsub, hx => by
    rw [second_cons, join_mem] at hx
    rcases hx with hx | hx
    · exact conditional_sound n ns steps x (hsub n (Or.inl rfl)) hx
    · exact second_sound m ns steps x (fun k hk => hsub k (Or.inr hk)) hx
end

theorem first_mem : ∀ (ns : Nodes) (n : Node) (steps : List Nat), ns.Mem n → (first ns steps).2 = true →
    (named n steps).2 = true ∧ ∀ x, x ∈ (named n steps).1 → x ∈ (first ns steps).1
  | .nil, _, _, h, _ => h.elim
  | .cons m ns, n, steps, h, hv => by
    rw [first_cons, join_valid] at hv
    rcases h with rfl | h
    · exact ⟨hv.1, fun x hx => by rw [first_cons, join_mem]; exact Or.inl hx⟩
    · have := first_mem ns n steps h hv.2
      exact ⟨this.1, fun x hx => by rw [first_cons, join_mem]; exact Or.inr (this.2 x hx)⟩

theorem second_mem : ∀ (ns : Nodes) (n : Node) (steps : List Nat), ns.Mem n → (second ns steps).2 = true →
    (conditional n steps).2 = true ∧ ∀ x, x ∈ (conditional n steps).1 → x ∈ (second ns steps).1
  | .nil, _, _, h, _ => h.elim
  | .cons m ns, n, steps, h, hv => by
    rw [second_cons, join_valid] at hv
    rcases h with rfl | h
    · exact ⟨hv.1, fun x hx => by rw [second_cons, join_mem]; exact Or.inl hx⟩
    · have := second_mem ns n steps h hv.2
      exact ⟨this.1, fun x hx => by rw [second_cons, join_mem]; exact Or.inr (this.2 x hx)⟩

theorem simple_mem : ∀ (ns : Nodes) (n : Node), ns.Mem n → ns.Simple → n.Simple
  | .nil, _, h, _ => h.elim
  | .cons m ns, n, h, hs => by
    rw [Nodes.Simple] at hs
    rcases h with rfl | h
    · exact hs.1
    · exact simple_mem ns n h hs.2

theorem complete (ns : Nodes) (steps : List Nat) (x : Nat) (h : Declares ns steps x) : ns.Simple →
    (first ns steps).2 = true → (second ns steps).2 = true → x ∈ (join (first ns steps) (second ns steps)).1 := by
  induction h with
  | @func ns name sig made valid body hm =>
    intro hs hf _
    obtain ⟨h1, h2⟩ := first_mem ns _ _ hm hf
    rw [join_mem]
    refine Or.inl (h2 sig ?_)
    rw [named] at h1 ⊢
    simp only [List.head?_cons, List.length_singleton, if_true, Bool.and_eq_true] at h1 ⊢
    rw [h1.1]; simp
  | @asyncFunc ns name sig hm =>
    intro hs
    have := simple_mem ns _ hm hs
    rw [Node.Simple] at this
    exact this.elim
  | @inFunc ns name sig s made valid body steps hm hne hd ih =>
    intro hs hf _
    have hb := simple_mem ns _ hm hs
    rw [Node.Simple] at hb
    obtain ⟨h1, h2⟩ := first_mem ns _ _ hm hf
    rw [join_mem]
    refine Or.inl (h2 sig ?_)
    have hl : ¬ (name :: steps).length = 1 := by cases steps with
      | nil => exact (hne rfl).elim
      | cons _ _ => simp
    have he : ¬ steps.isEmpty = true := by simpa using hne
    rw [named, if_pos (by rfl), if_neg hl, if_neg (show ¬ (name :: steps).tail.isEmpty = true from he)] at h1 ⊢
    rw [join_valid] at h1
    exact ih hb h1.1 h1.2
  | @inCls ns name sig body steps hm hne hd ih =>
    intro hs hf _
    have hb := simple_mem ns _ hm hs
    rw [Node.Simple] at hb
    obtain ⟨h1, h2⟩ := first_mem ns _ _ hm hf
    rw [join_mem]
    refine Or.inl (h2 sig ?_)
    have he : ¬ steps.isEmpty = true := by simpa using hne
    rw [named, if_pos (by rfl), if_neg (show ¬ (name :: steps).tail.isEmpty = true from he)] at h1 ⊢
    rw [join_valid] at h1
    exact ih hb h1.1 h1.2
  | @ifTrue ns sys evals body orelse steps sig hm hd ih =>
    intro hs _ hv
    have hb := simple_mem ns _ hm hs
    rw [Node.Simple] at hb
    obtain ⟨h1, h2⟩ := second_mem ns _ steps hm hv
    rw [join_mem]
    refine Or.inr (h2 sig ?_)
    rw [conditional, hb.1, hb.2.1] at h1 ⊢
    simp only [if_true] at h1 ⊢
    rw [join_valid] at h1
    exact ih hb.2.2.1 h1.1 h1.2
  | @ifFalse ns sys evals body orelse steps sig hm hd ih =>
    intro hs _ hv
    have hb := simple_mem ns _ hm hs
    rw [Node.Simple] at hb
    obtain ⟨h1, h2⟩ := second_mem ns _ steps hm hv
    rw [join_mem]
    refine Or.inr (h2 sig ?_)
    rw [conditional, hb.1, hb.2.1] at h1 ⊢
    simp only [if_true, Bool.false_eq_true, if_false] at h1 ⊢
    rw [join_valid] at h1
    exact ih hb.2.2.2 h1.1 h1.2

theorem declares_steps {ns : Nodes} {steps : List Nat} {x : Nat} (h : Declares ns steps x) : steps ≠ [] := by
  induction h with
  | func _ => simp
  | asyncFunc _ => simp
  | inFunc _ _ _ _ => simp
  | inCls _ _ _ _ => simp
  | ifTrue _ _ ih => exact ih
  | ifFalse _ _ ih => exact ih

end Verif.Stubs
