import Verif.Match.Spec
/-
Lemmas about match objects.
-/
namespace Verif.Match
open Spec

/-! ### Groups -/

theorem symbolic_groups (p : PyMatch) : p.symbolic.groups = some p.whole :: p.spans := by
  unfold PyMatch.symbolic M.new fill
  simp

theorem item_nat {α : Type} (l : List α) (i : Nat) (a : α) (h : l[i]? = some a) : item l (i : Int) = .ok a := by
  unfold item
  simp only
  rw [if_neg (show ¬ (i : Int) < 0 by omega), if_pos (by omega), Int.toNat_natCast, h]

theorem groups_at (p : PyMatch) (i : Nat) (hi : i ≤ p.spans.length) :
    p.symbolic.groups[i]? = some (p.spanOf i) := by
  rw [symbolic_groups]
  unfold PyMatch.spanOf
  cases i with
  | zero => simp
  | succ i =>
    rw [if_neg (by omega)]
    simp only [List.getElem?_cons_succ, Nat.add_sub_cancel]
    rw [List.getElem?_eq_getElem (by omega)]
    rfl

theorem item_group (p : PyMatch) (i : Nat) (hi : i ≤ p.spans.length) :
    item p.symbolic.groups (i : Int) = .ok (p.spanOf i) := item_nat _ i _ (groups_at p i hi)

theorem cut_between (text : List Nat) (s : Nat × Nat) : cut text s = between text s.1 s.2 := by
  unfold cut between
  rw [List.drop_take]

theorem lookup_mem (l : List (List Nat × Nat)) (h : (l.map (·.1)).Nodup) (s : List Nat) (i : Nat) (hm : (s, i) ∈ l) :
    l.lookup s = some i := by
  induction l with
  | nil => cases hm
  | cons e l ih =>
    simp only [List.map_cons, List.nodup_cons] at h
    rw [List.lookup_cons]
    rcases List.mem_cons.1 hm with rfl | hm
    · simp
    · have : s ≠ e.1 := fun hs => h.1 (hs ▸ List.mem_map_of_mem (f := (·.1)) hm)
      rw [show (s == e.1) = false by simpa using this]
      exact ih h.2 hm

theorem one_num (p : PyMatch) (i : Nat) (hi : i ≤ p.spans.length) :
    p.symbolic.one (.num i) = .ok (p.group i) := by
  unfold M.one
  simp only [Res.bind]
  rw [item_group p i hi]
  simp only [PyMatch.group]
  congr 2
  funext s
  exact cut_between _ _

theorem one_name (p : PyMatch) (hw : p.Wf) (s : List Nat) (i : Nat) (h : (s, i) ∈ p.names) :
    p.symbolic.one (.name s) = .ok (p.group i) := by
  have hl : p.symbolic.re.groupindex.lookup s = some i := lookup_mem p.names hw.distinct s i h
  have := one_num p i (hw.names _ h).2
  unfold M.one at this ⊢
  simp only [hl]
  exact this

theorem loop_ok (m : M) (ks : List Key) (f : Key → Option (List Nat)) (h : ∀ k ∈ ks, m.one k = .ok (f k)) :
    m.loop ks = .ok (ks.map f) := by
  induction ks with
  | nil => rfl
  | cons k ks ih =>
    simp only [M.loop]
    rw [h k (List.mem_cons_self ..), ih fun k hk => h k (List.mem_cons_of_mem _ hk)]
    rfl

/-! ### `lastindex` -/

theorem lastindex_spec (i : Nat) (gs : List (Option (Nat × Nat))) (last : Option Nat) :
    (∃ (j : Nat) (s : Nat × Nat), gs[j]? = some (some s) ∧ lastindex i gs last = some (i + j) ∧
      ∀ (k : Nat) (s' : Nat × Nat), gs[k]? = some (some s') → k ≤ j) ∨
    ((∀ (k : Nat) (s' : Nat × Nat), gs[k]? ≠ some (some s')) ∧ lastindex i gs last = last) := by
  induction gs generalizing i last with
  | nil => exact Or.inr ⟨by simp, rfl⟩
  | cons g gs ih =>
    cases g with
    | none =>
      rcases ih (i + 1) last with ⟨j, s, h1, h2, h3⟩ | ⟨h1, h2⟩
      · refine Or.inl ⟨j + 1, s, by simpa using h1, by simp only [lastindex]; rw [h2]; congr 1; omega, ?_⟩
        intro k s' hk
        cases k with
        | zero => omega
        | succ k => have := h3 k s' (by simpa using hk); omega
      · refine Or.inr ⟨?_, by simp only [lastindex]; exact h2⟩
        intro k s' hk
        cases k with
        | zero => simp at hk
        | succ k => exact h1 k s' (by simpa using hk)
    | some s0 =>
      rcases ih (i + 1) (some i) with ⟨j, s, h1, h2, h3⟩ | ⟨h1, h2⟩
      · refine Or.inl ⟨j + 1, s, by simpa using h1, by simp only [lastindex]; rw [h2]; congr 1; omega, ?_⟩
        intro k s' hk
        cases k with
        | zero => omega
        | succ k => have := h3 k s' (by simpa using hk); omega
      · refine Or.inl ⟨0, s0, by simp, by simp only [lastindex]; exact h2, ?_⟩
        intro k s' hk
        cases k with
        | zero => omega
        | succ k => exact absurd (by simpa using hk) (h1 k s')

/-! ### Templates -/

theorem scan_text (pre s rest : List Nat) (h : ∀ c ∈ s, c ≠ 92) : scan pre (s ++ rest) = scan (pre ++ s) rest := by
  induction s generalizing pre with
  | nil => simp
  | cons c s ih =>
    simp only [List.cons_append, scan]
    rw [if_neg (h c (List.mem_cons_self ..)), ih _ fun c hc => h c (List.mem_cons_of_mem _ hc)]
    simp

theorem number_foldl (ds : List Nat) (a : Nat) :
    (ds.map (48 + ·)).foldl (fun n d => n * 10 + (d - 48)) a = a * 10 ^ ds.length + decimal ds := by
  induction ds generalizing a with
  | nil => simp [decimal]
  | cons d ds ih =>
    simp only [List.map_cons, List.foldl_cons, List.length_cons, decimal]
    rw [ih, show 48 + d - 48 = d by omega, Nat.pow_succ, Nat.add_mul, Nat.mul_assoc, Nat.mul_comm 10, Nat.add_assoc]

theorem number_decimal (ds : List Nat) : number (ds.map (48 + ·)) = decimal ds := by
  unfold number
  rw [number_foldl]
  simp

theorem takeWhile_stop {α : Type} (p : α → Bool) (l : List α) (x : α) (rest : List α) (h : ∀ a ∈ l, p a = true)
    (hx : p x = false) : (l ++ x :: rest).takeWhile p = l ∧ (l ++ x :: rest).dropWhile p = x :: rest := by
  induction l with
  | nil => simp [hx]
  | cons a l ih =>
    have ha := h a (List.mem_cons_self ..)
    obtain ⟨h1, h2⟩ := ih fun a ha => h a (List.mem_cons_of_mem _ ha)
    simp [ha, h1, h2]

theorem refAt_digit (d : Nat) (rest : List Nat) (h1 : 1 ≤ d) (h9 : d ≤ 9)
    (hr : ∀ c, rest.head? = some c → c < 48 ∨ 57 < c) : refAt ((48 + d) :: rest) = some (.num d, rest) := by
  unfold refAt
  have e1 : ((48 + d) :: rest).head?.any (fun c => decide (49 ≤ c) && decide (c ≤ 57)) = true := by
    simp only [List.head?_cons, Option.any_some, Bool.and_eq_true, decide_eq_true_eq]
    omega
  have e2 : ((48 + d) :: rest).tail.head?.any isDigit = false := by
    simp only [List.tail_cons]
    cases hh : rest.head? with
    | none => rfl
    | some c =>
      have := hr c hh
      simp only [Option.any_some, isDigit, Bool.and_eq_false_iff, decide_eq_false_iff_not]
      omega
  rw [if_pos e1, if_neg (by rw [e2]; simp)]
  simp only [List.take_succ_cons, List.take_zero, List.drop_succ_cons, List.drop_zero]
  have : number [48 + d] = d := by
    unfold number
    simp only [List.foldl_cons, List.foldl_nil]
    omega
  rw [this]

theorem refAt_digits (d e : Nat) (rest : List Nat) (h1 : 1 ≤ d) (h9 : d ≤ 9) (he : e ≤ 9) :
    refAt ((48 + d) :: (48 + e) :: rest) = some (.num (10 * d + e), rest) := by
  unfold refAt
  have e1 : ((48 + d) :: (48 + e) :: rest).head?.any (fun c => decide (49 ≤ c) && decide (c ≤ 57)) = true := by
    simp only [List.head?_cons, Option.any_some, Bool.and_eq_true, decide_eq_true_eq]
    omega
  have e2 : ((48 + d) :: (48 + e) :: rest).tail.head?.any isDigit = true := by
    simp only [List.tail_cons, List.head?_cons, Option.any_some, isDigit, Bool.and_eq_true, decide_eq_true_eq]
    omega
  rw [if_pos e1, if_pos e2]
  simp only [List.take_succ_cons, List.take_zero, List.drop_succ_cons, List.drop_zero]
  have : number [48 + d, 48 + e] = 10 * d + e := by
    unfold number
    simp only [List.foldl_cons, List.foldl_nil]
    omega
  rw [this]

theorem refAt_g (s : List Nat) : refAt (103 :: 60 :: s) =
    match namedNum s with
    | some (n, rest) => some (.num n, rest)
    | none => match namedWord s with
      | some (w, rest) => some (.named w, rest)
      | none => if s.contains 62 then some (.other, []) else none := by
  unfold refAt
  rw [if_neg (by simp), if_pos (by simp)]
  rfl

theorem dropWhile_first {α : Type} (p : α → Bool) (l : List α) (h : ∀ a, l.head? = some a → p a = false) :
    l.dropWhile p = l := by
  cases l with
  | nil => rfl
  | cons a l => simp [h a rfl]

theorem refAt_number (ds rest : List Nat) (hne : ds ≠ []) (h9 : ∀ d ∈ ds, d ≤ 9) :
    refAt (103 :: 60 :: (ds.map (48 + ·) ++ 62 :: rest)) = some (.num (decimal ds), rest) := by
  rw [refAt_g]
  have hn : namedNum (ds.map (48 + ·) ++ 62 :: rest) = some (decimal ds, rest) := by
    cases ds with
    | nil => exact absurd rfl hne
    | cons d ds' =>
      have hd := h9 d (List.mem_cons_self ..)
      unfold namedNum
      have e1 : ((d :: ds').map (48 + ·) ++ 62 :: rest).dropWhile isBlank = (d :: ds').map (48 + ·) ++ 62 :: rest := by
        apply dropWhile_first
        intro a ha
        simp only [List.map_cons, List.cons_append, List.head?_cons, Option.some.injEq] at ha
        subst ha
        simp only [isBlank, Bool.or_eq_false_iff, Bool.and_eq_false_iff, decide_eq_false_iff_not]
        omega
      have e2 : ((d :: ds').map (48 + ·) ++ 62 :: rest).head? ≠ some 43 := by
        simp only [List.map_cons, List.cons_append, List.head?_cons, ne_eq, Option.some.injEq]
        omega
      obtain ⟨e3, e4⟩ := takeWhile_stop isDigit ((d :: ds').map (48 + ·)) 62 rest (by
        intro a ha
        obtain ⟨x, hx, rfl⟩ := List.mem_map.1 ha
        have := h9 x hx
        simp only [isDigit, Bool.and_eq_true, decide_eq_true_eq]
        omega) (by decide)
      have e5 : (62 :: rest).dropWhile isBlank = 62 :: rest := by
        apply dropWhile_first
        intro a ha
        simp only [List.head?_cons, Option.some.injEq] at ha
        subst ha; decide
      simp only
      rw [e1, if_neg e2, e3, e4, e5, number_decimal]
      simp
  rw [hn]

theorem isWord_iff (c : Nat) : isWord c = true ↔ WordChar c := by
  unfold isWord isDigit WordChar
  simp only [Bool.or_eq_true, Bool.and_eq_true, decide_eq_true_eq, beq_iff_eq]
  omega

theorem refAt_name (s rest : List Nat) (hne : s ≠ []) (hw : ∀ c ∈ s, WordChar c)
    (hd : ∀ c, s.head? = some c → c < 48 ∨ 57 < c) :
    refAt (103 :: 60 :: (s ++ 62 :: rest)) = some (.named s, rest) := by
  rw [refAt_g]
  cases s with
  | nil => exact absurd rfl hne
  | cons c s' =>
    have hc := hw c (List.mem_cons_self ..)
    have hc2 := hd c rfl
    have hn : namedNum (c :: s' ++ 62 :: rest) = none := by
      unfold namedNum
      have e1 : (c :: s' ++ 62 :: rest).dropWhile isBlank = c :: s' ++ 62 :: rest := by
        apply dropWhile_first
        intro a ha
        simp only [List.cons_append, List.head?_cons, Option.some.injEq] at ha
        subst ha
        unfold WordChar at hc
        simp only [isBlank, Bool.or_eq_false_iff, Bool.and_eq_false_iff, decide_eq_false_iff_not]
        omega
      have e2 : (c :: s' ++ 62 :: rest).head? ≠ some 43 := by
        unfold WordChar at hc
        simp only [List.cons_append, List.head?_cons, ne_eq, Option.some.injEq]
        omega
      have e3 : (c :: s' ++ 62 :: rest).takeWhile isDigit = [] := by
        have : isDigit c = false := by
          simp only [isDigit, Bool.and_eq_false_iff, decide_eq_false_iff_not]
          omega
        simp [this]
      simp only
      rw [e1, if_neg e2, e3]
      simp
    have hword : namedWord (c :: s' ++ 62 :: rest) = some (c :: s', rest) := by
      unfold namedWord
      obtain ⟨e3, e4⟩ := takeWhile_stop isWord (c :: s') 62 rest (fun a ha => (isWord_iff a).2 (hw a ha)) (by decide)
      simp only
      rw [e3, e4]
      simp
    rw [hn]
    simp only
    rw [hword]

theorem render_cons (q : Piece) (ps : List Piece) : render (q :: ps) = q.render ++ render ps := by
  simp [render]

theorem written_no_newline {ps : List Piece} (h : Written ps) : 10 ∉ render ps := by
  induction h with
  | nil => simp [render]
  | text s ps hs _ ih =>
    rw [render_cons, List.mem_append]
    rintro (hm | hm)
    · exact (hs 10 hm).2 rfl
    · exact ih hm
  | digit d ps h1 h9 _ _ ih =>
    rw [render_cons, List.mem_append]
    rintro (hm | hm)
    · simp only [Piece.render, List.mem_cons, List.not_mem_nil, or_false] at hm
      omega
    · exact ih hm
  | digits d e ps h1 h9 h2 _ _ ih =>
    rw [render_cons, List.mem_append]
    rintro (hm | hm)
    · simp only [Piece.render, List.mem_cons, List.not_mem_nil, or_false] at hm
      omega
    · exact ih hm
  | number ds ps _ h9 _ ih =>
    rw [render_cons, List.mem_append]
    rintro (hm | hm)
    · simp only [Piece.render, List.mem_append, List.mem_cons, List.not_mem_nil, or_false, List.mem_map] at hm
      rcases hm with (hm | ⟨x, _, hx⟩) | hm <;> omega
    · exact ih hm
  | name s ps _ hw _ _ ih =>
    rw [render_cons, List.mem_append]
    rintro (hm | hm)
    · simp only [Piece.render, List.mem_append, List.mem_cons, List.not_mem_nil, or_false] at hm
      rcases hm with (hm | hm) | hm
      · omega
      · have := hw 10 hm
        unfold WordChar at this
        omega
      · omega
    · exact ih hm

/-- One step of `expand`. -/
theorem expand_ref (m : M) (fuel : Nat) (pre tail rest : List Nat) (ref : Ref) (g : List Nat)
    (hp : ∀ c ∈ pre, c ≠ 92) (hn : 10 ∉ pre ++ 92 :: tail) (hr : refAt tail = some (ref, rest))
    (hg : m.replacement ref = .ok (some g)) :
    m.expandLoop (fuel + 1) (pre ++ 92 :: tail) = (m.expandLoop fuel rest).bind fun back => .ok (pre ++ g ++ back) := by
  have hb : backref (pre ++ 92 :: tail) = some (pre, ref, rest) := by
    unfold backref
    rw [if_neg (by simpa [List.contains_iff_mem] using hn), scan_text _ _ _ hp]
    simp only [List.nil_append, scan]
    rw [if_pos trivial, hr]
  rw [M.expandLoop, hb]
  simp only
  rw [hg]
  rfl

/-- All parts that are references are handled alike. -/
theorem expand_written (p : PyMatch) (hw : p.Wf) {ps : List Piece} (hps : Written ps) :
    ∀ (pre r : List Nat) (fuel : Nat), (∀ c ∈ pre, c ≠ 92 ∧ c ≠ 10) → Expands p ps r →
      (∀ q ∈ ps, ∀ i, Piece.Refers p q i → p.spanOf i ≠ none) → (pre ++ render ps).length < fuel →
      p.symbolic.expandLoop fuel (pre ++ render ps) = .ok (pre ++ r) := by
  -- a reference, given what its characters mean
  have key : ∀ (q : Piece) (ps : List Piece) (pre r tail : List Nat) (fuel i : Nat) (ref : Ref),
      (∀ (pre r : List Nat) (fuel : Nat), (∀ c ∈ pre, c ≠ 92 ∧ c ≠ 10) → Expands p ps r →
        (∀ q ∈ ps, ∀ i, Piece.Refers p q i → p.spanOf i ≠ none) → (pre ++ render ps).length < fuel →
        p.symbolic.expandLoop fuel (pre ++ render ps) = .ok (pre ++ r)) →
      (∀ c ∈ pre, c ≠ 92 ∧ c ≠ 10) → Expands p ps r →
      (∀ q' ∈ q :: ps, ∀ i, Piece.Refers p q' i → p.spanOf i ≠ none) →
      Piece.Refers p q i → q.render ++ render ps = 92 :: tail → 10 ∉ q.render ++ render ps →
      refAt tail = some (ref, render ps) →
      p.symbolic.replacement ref = .ok (p.group i) →
      (pre ++ render (q :: ps)).length < fuel →
      p.symbolic.expandLoop fuel (pre ++ render (q :: ps)) = .ok (pre ++ ((p.group i).getD [] ++ r)) := by
    intro q ps pre r tail fuel i ref ih hpre hex hm href htail hnl hat hone hfuel
    rw [render_cons] at hfuel ⊢
    have hsome : ∃ g, p.group i = some g := by
      have := hm q (List.mem_cons_self ..) i href
      unfold PyMatch.group
      cases h : p.spanOf i with
      | none => exact absurd h this
      | some s => exact ⟨_, rfl⟩
    obtain ⟨g, hg⟩ := hsome
    have hlen : (render ps).length ≤ tail.length := by
      have hl := congrArg List.length htail
      have hq : 1 ≤ q.render.length := by
        cases href <;> simp [Piece.render]
      simp only [List.length_append, List.length_cons] at hl
      omega
    rw [htail] at hfuel hnl ⊢
    cases fuel with
    | zero => exact absurd hfuel (Nat.not_lt_zero _)
    | succ fuel =>
      rw [expand_ref p.symbolic fuel pre tail (render ps) ref g (fun c hc => (hpre c hc).1) (by
          rw [List.mem_append]
          rintro (h | h)
          · exact (hpre 10 h).2 rfl
          · exact hnl h) hat (by rw [hone, hg])]
      have := ih [] r fuel (by simp) hex (fun q' hq' => hm q' (List.mem_cons_of_mem _ hq')) (by
        simp only [List.length_append, List.length_cons, List.nil_append] at hfuel ⊢
        omega)
      simp only [List.nil_append] at this
      rw [this, hg]
      simp [Res.bind]
  induction hps with
  | nil =>
    intro pre r fuel hpre hex _ hf
    cases hex
    cases fuel with
    | zero => exact absurd hf (Nat.not_lt_zero _)
    | succ fuel =>
      have hb : backref (pre ++ render []) = none := by
        unfold backref
        rw [if_neg (by
          simp only [render, List.flatMap_nil, List.append_nil, List.contains_iff_mem]
          intro h; exact (hpre 10 h).2 rfl)]
        rw [scan_text _ _ _ fun c hc => (hpre c hc).1]
        rfl
      rw [M.expandLoop, hb]
      simp [render]
  | text s ps hs _ ih =>
    intro pre r fuel hpre hex hm hf
    cases hex with
    | text _ _ r' hex' =>
      rw [render_cons] at hf ⊢
      have := ih (pre ++ s) r' fuel (by
        intro c hc
        rcases List.mem_append.1 hc with h | h
        · exact hpre c h
        · exact hs c h) hex' (fun q hq => hm q (List.mem_cons_of_mem _ hq)) (by
          simpa [Piece.render] using hf)
      simp only [Piece.render] at hf ⊢
      rw [← List.append_assoc, this, List.append_assoc]
    | ref _ i _ r' href _ => cases href
  | digit d ps h1 h9 hnd hps ih =>
    intro pre r fuel hpre hex hm hf
    cases hex with
    | ref _ i _ r' href hex' =>
      have hnl := written_no_newline (Written.digit d ps h1 h9 hnd hps)
      rw [render_cons] at hnl
      cases href with
      | digit _ hle =>
        exact key (.digit d) ps pre r' ((48 + d) :: render ps) fuel d (.num d) ih hpre hex' hm (.digit d hle) rfl hnl
          (refAt_digit d _ h1 h9 hnd) (one_num p d hle) hf
  | digits d e ps h1 h9 h2 hnd hps ih =>
    intro pre r fuel hpre hex hm hf
    cases hex with
    | ref _ i _ r' href hex' =>
      have hnl := written_no_newline (Written.digits d e ps h1 h9 h2 hnd hps)
      rw [render_cons] at hnl
      cases href with
      | digits _ _ hle =>
        exact key (.digits d e) ps pre r' ((48 + d) :: (48 + e) :: render ps) fuel _ (.num (10 * d + e)) ih hpre hex' hm
          (.digits d e hle) rfl hnl (refAt_digits d e _ h1 h9 h2) (one_num p _ hle) hf
  | number ds ps hne h9 hps ih =>
    intro pre r fuel hpre hex hm hf
    cases hex with
    | ref _ i _ r' href hex' =>
      have hnl := written_no_newline (Written.number ds ps hne h9 hps)
      rw [render_cons] at hnl
      cases href with
      | number _ hle =>
        exact key (.number ds) ps pre r' (103 :: 60 :: (ds.map (48 + ·) ++ 62 :: render ps)) fuel _ (.num (decimal ds)) ih
          hpre hex' hm (.number ds hle) (by simp [Piece.render]) hnl (refAt_number ds _ hne h9) (one_num p _ hle) hf
  | name s ps hne hwc hd hps ih =>
    intro pre r fuel hpre hex hm hf
    cases hex with
    | ref _ i _ r' href hex' =>
      have hnl := written_no_newline (Written.name s ps hne hwc hd hps)
      rw [render_cons] at hnl
      cases href with
      | name _ _ hmem =>
        exact key (.name s) ps pre r' (103 :: 60 :: (s ++ 62 :: render ps)) fuel i (.named s) ih
          hpre hex' hm (.name s i hmem) (by simp [Piece.render]) hnl (refAt_name s _ hne hwc hd) (one_name p hw s i hmem) hf

end Verif.Match
