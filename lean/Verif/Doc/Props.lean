import Verif.Doc.Lemmas
/-
Properties of the recognition of condition sections in docstrings.
-/
namespace Verif.Doc

variable {sp word : Char → Bool}

/-- The reading held by a parse. -/
def Parse.reading (p : Parse) : Reading := ⟨p.found, p.complaints, p.mutableExpr⟩

/-- Reading the lines of a section. -/
theorem block_parse (wanted : List Sect) (s : Sect) (ind : Nat) (inside : List (Nat × Text))
    (cs : List (Sect × Nat × Text)) (hc : Conditions sp s inside cs) :
    ∀ p : Parse, p.cur = some (s, ind) → (∀ l ∈ inside, Inside sp ind l.2) →
      inside.foldl (step sp word wanted) p = { p with found := p.found ++ cs } := by
  induction hc with
  | nil => intro p _ _; simp
  | @skip n t core ls cs ht he _ ih =>
    intro p hp hin
    have hstep : step sp word wanted p (n, t) = p := by
      rw [trimmed_iff] at ht
      unfold step
      split
      · rfl
      · rename_i hne
        have hne' : strip sp t ≠ [] := by simpa using hne
        rw [hp]
        rcases inside_iff.mp (hin (n, t) (by simp)) with h | ⟨h1, h2⟩
        · exact absurd h hne'
        · have hs : sectionLine sp t = some (indentOf sp t, strip sp t) := by
            unfold sectionLine; rw [if_neg (by simpa using h2)]
          simp only [hs]
          rw [if_pos h1, if_neg]
          rw [hasExpr_iff, strip_strip, ht]; exact he
    rw [List.foldl_cons, hstep]
    exact ih p hp (fun l hl => hin l (by simp [hl]))
  | @take n t core ls cs ht he _ ih =>
    intro p hp hin
    rw [trimmed_iff] at ht
    have hne' : strip sp t ≠ [] := by rw [ht]; exact he.1
    have hstep : step sp word wanted p (n, t) = { p with found := p.found ++ [(s, n, core)] } := by
      unfold step
      rw [if_neg (by simpa using hne'), hp]
      rcases inside_iff.mp (hin (n, t) (by simp)) with h | ⟨h1, h2⟩
      · exact absurd h hne'
      · have hs : sectionLine sp t = some (indentOf sp t, strip sp t) := by
          unfold sectionLine; rw [if_neg (by simpa using h2)]
        simp only [hs]
        rw [if_pos h1, if_pos, ht]
        rw [hasExpr_iff, strip_strip, ht]; exact he
    rw [List.foldl_cons, hstep,
      ih { p with found := p.found ++ [(s, n, core)] } hp (fun l hl => hin l (by simp [hl]))]
    simp

/-- The current section does not take the next line. -/
def Free (p : Parse) (ls : List (Nat × Text)) : Prop :=
  p.cur = none ∨ ∃ s ind, p.cur = some (s, ind) ∧ ∀ l, ls.head? = some l → ¬ Inside sp ind l.2

theorem step_free (wanted : List Sect) (p : Parse) (n : Nat) (t : Text) (ls : List (Nat × Text))
    (hf : Free (sp := sp) p ((n, t) :: ls)) (hb : ¬ Blank sp t) :
    step sp word wanted p (n, t) = outside sp word wanted { p with cur := none } n t := by
  rw [blank_iff] at hb
  unfold step
  rw [if_neg (by simpa using hb)]
  rcases hf with h | ⟨s, ind, h, hin⟩
  · rw [h]
    have hp : { p with cur := none } = p := by cases p; simp_all
    rw [hp]
  · rw [h]
    have hni := hin (n, t) rfl
    rw [inside_iff] at hni
    simp only [not_or] at hni
    simp only
    cases hs : sectionLine sp t with
    | none => rfl
    | some ic =>
      obtain ⟨i, c⟩ := ic
      unfold sectionLine at hs
      split at hs
      · cases hs
      · rename_i hn
        cases hs
        simp only
        rw [if_neg]
        intro hgt
        exact hni.2 ⟨hgt, by simpa using hn⟩

theorem doc_parse (hw : Classes sp word) (wanted : List Sect) (m : Option Text) (ls : List (Nat × Text))
    (r : Reading) (h : Doc sp word wanted m ls r) :
    ∀ p : Parse, p.mutableExpr = m → Free (sp := sp) p ls →
      (ls.foldl (step sp word wanted) p).found = p.found ++ r.found ∧
      (ls.foldl (step sp word wanted) p).complaints = p.complaints ++ r.complaints ∧
      (ls.foldl (step sp word wanted) p).mutableExpr = r.mutableExpr := by
  induction h with
  | nil => intro p hm _; simp [hm]
  | @blank m n t ls r hb _ ih =>
    intro p hm hf
    have hcur : p.cur = none := by
      rcases hf with h | ⟨s, ind, _, hin⟩
      · exact h
      · exact absurd (Or.inl hb) (hin (n, t) rfl)
    have hstep : step sp word wanted p (n, t) = p := by
      unfold step
      rw [if_pos]
      rw [blank_iff.mp hb]; rfl
    rw [List.foldl_cons, hstep]
    exact ih p hm (Or.inl hcur)
  | @text m n t ls r hb hh _ ih =>
    intro p hm hf
    rw [List.foldl_cons, step_free wanted p n t ls hf hb]
    have ho : outside sp word wanted { p with cur := none } n t = { p with cur := none } := by
      unfold outside
      cases hd : header sp word t with
      | none => rfl
      | some h =>
        have := hh h ((header_iff hw).mp hd)
        simp only
        rw [if_pos (by simpa using this)]
    rw [ho]
    exact ih { p with cur := none } hm (Or.inl rfl)
  | @misplaced m n t b h ls r hb hh hs hbr hne _ ih =>
    intro p hm hf
    rw [List.foldl_cons, step_free wanted p n t ls hf hb]
    have ho : outside sp word wanted { p with cur := none } n t
        = { p with cur := none, complaints := p.complaints ++ [(n, .brackets h.sect)] } := by
      unfold outside
      rw [(header_iff hw).mpr hh]
      simp only
      rw [if_neg (by simpa using hs), hbr]
      simp only
      rw [if_pos hne]
    rw [ho]
    obtain ⟨h1, h2, h3⟩ := ih { p with cur := none, complaints := p.complaints ++ [(n, .brackets h.sect)] }
      hm (Or.inl rfl)
    exact ⟨h1, by rw [h2]; simp, h3⟩
  | @repeated m n t b h ls r hb hh hs hbr hpost _ ih =>
    intro p hm hf
    rw [List.foldl_cons, step_free wanted p n t ls hf hb]
    have ho : outside sp word wanted { p with cur := none } n t
        = { p with cur := none, complaints := p.complaints ++ [(n, .duplicate)] } := by
      unfold outside
      rw [(header_iff hw).mpr hh]
      simp only
      rw [if_neg (by simpa using hs), hbr]
      simp only
      rw [if_neg (by simp [hpost]), if_pos (by simp [hm])]
    rw [ho]
    obtain ⟨h1, h2, h3⟩ := ih { p with cur := none, complaints := p.complaints ++ [(n, .duplicate)] }
      hm (Or.inl rfl)
    exact ⟨h1, by rw [h2]; simp, h3⟩
  | @inline m m' n t h ls r hb hh hs hop he _ ih =>
    intro p hm hf
    rw [List.foldl_cons, step_free wanted p n t ls hf hb]
    have hexpr : hasExpr sp h.inline = true := by rw [hasExpr_iff, header_inline hh]; exact he
    have ho : outside sp word wanted { p with cur := none } n t
        = { p with cur := none, found := p.found ++ [(h.sect, n, h.inline)], mutableExpr := m' } := by
      unfold outside
      rw [(header_iff hw).mpr hh]
      simp only
      rw [if_neg (by simpa using hs)]
      cases hop with
      | without hbr =>
        rw [hbr]; simp only
        rw [if_pos hexpr]; subst hm; rfl
      | brackets hbr hpost =>
        rw [hbr]; simp only
        rw [if_neg (by simp [hpost]), if_neg (by simp [hm]), if_pos hexpr]
    rw [ho]
    obtain ⟨h1, h2, h3⟩ := ih
      { p with cur := none, found := p.found ++ [(h.sect, n, h.inline)], mutableExpr := m' } rfl (Or.inl rfl)
    exact ⟨by rw [h1]; simp, h2, h3⟩
  | @block m m' n t h inside rest cs r hb hh hs hop he hin hrest hc _ ih =>
    intro p hm hf
    rw [List.foldl_cons, step_free wanted p n t (inside ++ rest) hf hb]
    have hexpr : ¬ hasExpr sp h.inline = true := by rw [hasExpr_iff, header_inline hh]; exact he
    have ho : outside sp word wanted { p with cur := none } n t
        = { p with cur := some (h.sect, h.indent), mutableExpr := m' } := by
      unfold outside
      rw [(header_iff hw).mpr hh]
      simp only
      rw [if_neg (by simpa using hs)]
      cases hop with
      | without hbr =>
        rw [hbr]; simp only
        rw [if_neg hexpr]; subst hm; rfl
      | brackets hbr hpost =>
        rw [hbr]; simp only
        rw [if_neg (by simp [hpost]), if_neg (by simp [hm]), if_neg hexpr]
    rw [ho, List.foldl_append, block_parse wanted h.sect h.indent inside cs hc _ rfl hin]
    obtain ⟨h1, h2, h3⟩ := ih
      { p with cur := some (h.sect, h.indent), mutableExpr := m', found := p.found ++ cs } rfl
      (Or.inr ⟨_, _, rfl, hrest⟩)
    exact ⟨by rw [h1]; simp, h2, h3⟩

theorem conditions_exist (s : Sect) (ls : List (Nat × Text)) : ∃ cs, Conditions sp s ls cs := by
  induction ls with
  | nil => exact ⟨[], .nil⟩
  | cons l ls ih =>
    obtain ⟨n, t⟩ := l
    obtain ⟨cs, hcs⟩ := ih
    by_cases he : Expr (strip sp t)
    · exact ⟨_, .take (trimmed_strip sp t) he hcs⟩
    · exact ⟨_, .skip (trimmed_strip sp t) he hcs⟩

/-- Every list of lines can be read. -/
theorem doc_exists (hw : Classes sp word) (wanted : List Sect) :
    ∀ (k : Nat) (ls : List (Nat × Text)), ls.length ≤ k → ∀ m, ∃ r, Doc sp word wanted m ls r := by
  intro k
  induction k with
  | zero =>
    intro ls hl m
    cases ls with
    | nil => exact ⟨_, .nil⟩
    | cons => simp at hl
  | succ k ih =>
    intro ls hl m
    match ls, hl with
    | [], _ => exact ⟨_, .nil⟩
    | (n, t) :: ls, hl =>
      have hlen : ls.length ≤ k := by simpa using hl
      by_cases hb : Blank sp t
      · obtain ⟨r, hr⟩ := ih ls hlen m
        exact ⟨_, .blank hb hr⟩
      · cases hd : header sp word t with
        | none =>
          obtain ⟨r, hr⟩ := ih ls hlen m
          refine ⟨_, .text hb ?_ hr⟩
          intro h hh
          rw [← header_iff hw, hd] at hh
          cases hh
        | some h =>
          have hh := (header_iff hw).mp hd
          by_cases hs : h.sect ∈ wanted
          · -- what follows an accepted header
            have accept : ∀ m', Opens m h m' → ∃ r, Doc sp word wanted m ((n, t) :: ls) r := by
              intro m' hop
              by_cases he : Expr h.inline
              · obtain ⟨r, hr⟩ := ih ls hlen m'
                exact ⟨_, .inline hb hh hs hop he hr⟩
              · have hdec : ∀ l : Nat × Text, Decidable (Inside sp h.indent l.2) :=
                  fun l => decidable_of_iff _ inside_iff.symm
                have hlr : (ls.dropWhile (fun l => decide (Inside sp h.indent l.2))).length ≤ k :=
                  Nat.le_trans (List.dropWhile_sublist _).length_le hlen
                obtain ⟨r, hr⟩ := ih _ hlr m'
                obtain ⟨cs, hcs⟩ := conditions_exist (sp := sp) h.sect
                  (ls.takeWhile (fun l => decide (Inside sp h.indent l.2)))
                have hd' := Doc.block (n := n) hb hh hs hop he
                  (inside := ls.takeWhile (fun l => decide (Inside sp h.indent l.2)))
                  (rest := ls.dropWhile (fun l => decide (Inside sp h.indent l.2)))
                  (fun l hl => of_decide_eq_true (mem_takeWhile_true _ _ l hl))
                  (fun l hl => by
                    have := List.head?_dropWhile_not (fun l => decide (Inside sp h.indent l.2)) ls
                    rw [hl] at this
                    simpa using this) hcs hr
                rw [List.takeWhile_append_dropWhile] at hd'
                exact ⟨_, hd'⟩
            cases hbr : h.bracketed with
            | none => exact accept m (.without hbr)
            | some b =>
              by_cases hpost : h.sect = .post
              · cases m with
                | none => exact accept (some b) (.brackets hbr hpost)
                | some m0 =>
                  obtain ⟨r, hr⟩ := ih ls hlen (some m0)
                  exact ⟨_, .repeated hb hh hs hbr hpost hr⟩
              · obtain ⟨r, hr⟩ := ih ls hlen m
                exact ⟨_, .misplaced hb hh hs hbr hpost hr⟩
          · obtain ⟨r, hr⟩ := ih ls hlen m
            refine ⟨_, .text hb ?_ hr⟩
            intro h' hh'
            rw [← header_iff hw, hd] at hh'
            cases hh'
            exact hs

/-- **C39.** The conditions, complaints and mutable arguments found in a docstring are exactly those of
the grammar `Doc`. -/
theorem parse_exact (hw : Classes sp word) (wanted : List Sect) (ls : List (Nat × Text)) (r : Reading) :
    Doc sp word wanted none ls r ↔ (parseSections sp word wanted ls).reading = r := by
  have sound : ∀ r, Doc sp word wanted none ls r → (parseSections sp word wanted ls).reading = r := by
    intro r h
    obtain ⟨h1, h2, h3⟩ := doc_parse hw wanted none ls r h {} rfl (Or.inl rfl)
    unfold parseSections Parse.reading
    rw [h1, h2, h3]
    rfl
  constructor
  · exact sound r
  · intro h
    obtain ⟨r', hr'⟩ := doc_exists hw wanted ls.length ls (Nat.le_refl _) none
    rw [← h, sound r' hr']
    exact hr'

/-- Whitespace and word characters for the examples. -/
def exSp (c : Char) : Bool := c == ' ' || c == '\n' || c == '\t'
def exWord (c : Char) : Bool := c.isAlphanum || c == '_'

theorem exClasses : Classes exSp exWord := by
  constructor <;> decide +kernel

/-- A docstring with text, an inline condition, a section with a comment and a header for another use. -/
def exLines : List (Nat × Text) :=
  [(1, "Adds.\n".toList), (2, "    pre: x > 0\n".toList), (3, "    post[xs]:\n".toList),
   (4, "        # a comment\n".toList), (5, "\n".toList), (6, "        len(xs) > 0\n".toList),
   (7, "    raises: ValueError\n".toList), (8, "        not a condition\n".toList),
   (9, "    post[ys]: bad\n".toList)]

example : (parseSections exSp exWord [.pre, .post] exLines).found
      = [(.pre, 2, "x > 0".toList), (.post, 6, "len(xs) > 0".toList)] ∧
    (parseSections exSp exWord [.pre, .post] exLines).complaints = [(9, .duplicate)] ∧
    (parseSections exSp exWord [.pre, .post] exLines).mutableExpr = some "xs".toList := by decide +kernel

/-- **C39.** Every condition found stands, whole and trimmed, on the line whose number it carries; it is
neither empty nor a comment, and its section is one of those asked for. -/
theorem found_in_line (hw : Classes sp word) (wanted : List Sect) (ls : List (Nat × Text))
    (s : Sect) (n : Nat) (e : Text) (h : (s, n, e) ∈ (parseSections sp word wanted ls).found) :
    s ∈ wanted ∧ Expr e ∧ strip sp e = e ∧ ∃ t, (n, t) ∈ ls ∧ e <:+: t := by
  obtain ⟨r, hr⟩ := doc_exists hw wanted ls.length ls (Nat.le_refl _) none
  have hread := (parse_exact hw wanted ls r).mp hr
  have hf : (parseSections sp word wanted ls).found = r.found := by rw [← hread]; rfl
  rw [hf] at h
  clear hf hread
  have hinfix : ∀ t core : Text, Trimmed sp t core → core <:+: t := by
    rintro t core ⟨a, b, rfl, _⟩; exact ⟨a, b, rfl⟩
  have hcond : ∀ (s' : Sect) (ls' : List (Nat × Text)) cs, Conditions sp s' ls' cs → (s, n, e) ∈ cs →
      s = s' ∧ Expr e ∧ strip sp e = e ∧ ∃ t, (n, t) ∈ ls' ∧ e <:+: t := by
    intro s' ls' cs hc
    induction hc with
    | nil => intro hm; cases hm
    | skip _ _ _ ih =>
      intro hm
      obtain ⟨h1, h2, h3, t, ht, hi⟩ := ih hm
      exact ⟨h1, h2, h3, t, List.mem_cons_of_mem _ ht, hi⟩
    | @take n' t core ls' cs ht he _ ih =>
      intro hm
      rcases List.mem_cons.mp hm with hm | hm
      · cases hm
        exact ⟨rfl, he, by rw [← strip_of_trimmed ht, strip_strip], t, List.mem_cons_self, hinfix t _ ht⟩
      · obtain ⟨h1, h2, h3, t', ht', hi⟩ := ih hm
        exact ⟨h1, h2, h3, t', List.mem_cons_of_mem _ ht', hi⟩
  generalize (none : Option Text) = m0 at hr
  induction hr with
  | nil => cases h
  | blank _ _ ih | text _ _ _ ih =>
    obtain ⟨h1, h2, h3, t, ht, hi⟩ := ih h
    exact ⟨h1, h2, h3, t, List.mem_cons_of_mem _ ht, hi⟩
  | misplaced _ _ _ _ _ _ ih | repeated _ _ _ _ _ _ ih =>
    obtain ⟨h1, h2, h3, t, ht, hi⟩ := ih h
    exact ⟨h1, h2, h3, t, List.mem_cons_of_mem _ ht, hi⟩
  | @inline m m' n' t hd ls r hb hh hs hop he _ ih =>
    rcases List.mem_cons.mp h with h | h
    · cases h
      refine ⟨hs, he, header_inline hh, t, List.mem_cons_self, ?_⟩
      obtain ⟨ind, lead, br, colons, rest, rfl, _, _, _, _, _, ht, _⟩ := hh
      obtain ⟨a, b, hab⟩ := hinfix _ _ ht
      exact ⟨ind ++ lead ++ hd.sect.text ++ br ++ colons ++ a, b, by rw [← hab]; simp⟩
    · obtain ⟨h1, h2, h3, t, ht, hi⟩ := ih h
      exact ⟨h1, h2, h3, t, List.mem_cons_of_mem _ ht, hi⟩
  | @block m m' n' t hd inside rest cs r hb hh hs hop he hin hrest hc _ ih =>
    rcases List.mem_append.mp h with h | h
    · obtain ⟨h1, h2, h3, t, ht, hi⟩ := hcond _ _ _ hc h
      exact ⟨h1 ▸ hs, h2, h3, t, by simp [ht], hi⟩
    · obtain ⟨h1, h2, h3, t, ht, hi⟩ := ih h
      exact ⟨h1, h2, h3, t, by simp [ht], hi⟩

example : (Sect.post, 6, "len(xs) > 0".toList) ∈ (parseSections exSp exWord [.pre, .post] exLines).found := by
  decide +kernel

theorem mem_number {n k : Nat} {e : Text} {es : List Text} (h : (k, e) ∈ number n es) : e ∈ es := by
  induction es generalizing n with
  | nil => cases h
  | cons a es ih =>
    rcases List.mem_cons.mp h with h | h
    · cases h; exact List.mem_cons_self
    · exact List.mem_cons_of_mem _ (ih h)

/-- **C39.** Sections written out in the documented form are read back exactly, with their line
numbers. -/
theorem written_sections_are_read (hw : Classes sp word) (hnl : sp '\n' = true) (wanted : List Sect)
    (shallow deep : Text) (hsh : ∀ c ∈ shallow, sp c = true) (hdp : ∀ c ∈ deep, sp c = true)
    (hlt : shallow.length < deep.length) (n : Nat) (secs : List (Sect × List Text))
    (hs : ∀ x ∈ secs, x.1 ∈ wanted)
    (he : ∀ x ∈ secs, ∀ e ∈ x.2, Expr e ∧ strip sp e = e ∧ '\n' ∉ e) :
    parseSections sp word wanted (write shallow deep n secs) =
      { parseSections sp word wanted (write shallow deep n secs) with
        found := written n secs, complaints := [], mutableExpr := none } := by
  have hdoc : Doc sp word wanted none (write shallow deep n secs) ⟨written n secs, [], none⟩ := by
    induction secs generalizing n with
    | nil => exact .nil
    | cons x rest ih =>
      obtain ⟨s, es⟩ := x
      have ih' := ih (n + 1 + es.length) (fun y hy => hs y (List.mem_cons_of_mem _ hy))
        (fun y hy => he y (List.mem_cons_of_mem _ hy))
      have hes := he (s, es) List.mem_cons_self
      -- header lines of written sections
      have hhead : ∀ s' : Sect, IsHeader sp word (shallow ++ s'.text ++ [':', '\n']) ⟨shallow.length, s', none, []⟩ := by
        intro s'
        exact ⟨shallow, [], [], [':'], ['\n'], by simp, rfl, hsh, Or.inl rfl, Or.inl ⟨rfl, rfl⟩,
          Or.inl ⟨rfl, by decide⟩, ⟨['\n'], [], rfl, by simp [hnl], by simp, by simp, by simp⟩, by simp⟩
      have hnb : ∀ s' : Sect, ¬ Blank sp (shallow ++ s'.text ++ [':', '\n']) := by
        intro s' hb
        have := hb ':' (by simp)
        rw [hw.colon] at this
        cases this
      have hind : ∀ s' : Sect, indentOf sp (shallow ++ s'.text ++ [':', '\n']) = shallow.length := by
        intro s'
        obtain ⟨c, hc, hc'⟩ := text_head s' [':', '\n']
        unfold indentOf
        rw [List.append_assoc, takeWhile_all_head hsh]
        intro c' h'
        rw [hc] at h'; cases h'
        rcases hc' with rfl | rfl | rfl
        · exact hw.p
        · exact hw.r
        · exact hw.i
      have htrim : ∀ e, Expr e ∧ strip sp e = e ∧ '\n' ∉ e → Trimmed sp (deep ++ e ++ ['\n']) e := by
        rintro e ⟨_, h2, _⟩
        obtain ⟨a, b, hab, ha, hb, h3, h4⟩ := trimmed_strip sp e
        rw [h2] at h3 h4
        exact ⟨deep, ['\n'], rfl, hdp, by simp [hnl], h3, h4⟩
      have hinside : ∀ l ∈ (number (n + 1) es).map (fun l => (l.1, deep ++ l.2 ++ ['\n'])),
          Inside sp shallow.length l.2 := by
        intro l hl
        obtain ⟨⟨k, e⟩, hke, rfl⟩ := List.mem_map.mp hl
        have hx := hes e (mem_number hke)
        have ht := htrim e hx
        rw [inside_iff, strip_of_trimmed ht]
        right
        refine ⟨?_, hx.2.2⟩
        unfold indentOf
        obtain ⟨_, _, _, _, _, h3, _⟩ := ht
        have hne : e ≠ [] := hx.1.1
        rw [List.append_assoc, takeWhile_all_head hdp]
        · exact hlt
        · intro c hc
          cases e with
          | nil => exact absurd rfl hne
          | cons x l => exact h3 c hc
      have hconds : Conditions sp s ((number (n + 1) es).map (fun l => (l.1, deep ++ l.2 ++ ['\n'])))
          ((number (n + 1) es).map (fun l => (s, l.1, l.2))) := by
        generalize n + 1 = k
        clear ih ih' hinside he hs
        induction es generalizing k with
        | nil => exact .nil
        | cons e es ih =>
          have hx := hes e List.mem_cons_self
          exact .take (htrim e hx) hx.1 (ih (fun e' he' => hes e' (List.mem_cons_of_mem _ he')) (k + 1))
      have hrest : ∀ l, (write shallow deep (n + 1 + es.length) rest).head? = some l →
          ¬ Inside sp shallow.length l.2 := by
        intro l hl
        cases rest with
        | nil => cases hl
        | cons y rest =>
          obtain ⟨s', es'⟩ := y
          cases hl
          rw [inside_iff]
          rintro (h | ⟨h, _⟩)
          · exact hnb s' (blank_iff.mpr h)
          · simp only [hind s'] at h
            exact Nat.lt_irrefl _ h
      exact Doc.block (hnb s) (hhead s) (hs (s, es) List.mem_cons_self) (.without rfl)
        (by simp [Expr]) hinside hrest hconds ih'
  have := (parse_exact hw wanted _ _).mp hdoc
  simp only [Parse.reading, Reading.mk.injEq] at this
  obtain ⟨h1, h2, h3⟩ := this
  generalize parseSections sp word wanted (write shallow deep n secs) = p at h1 h2 h3
  cases p
  simp_all

example : write "  ".toList "    ".toList 7 [(.pre, ["a > 0".toList]), (.post, ["b".toList, "c".toList])] =
    [(7, "  pre:\n".toList), (8, "    a > 0\n".toList), (9, "  post:\n".toList), (10, "    b\n".toList),
     (11, "    c\n".toList)] ∧
    written 7 [(.pre, ["a > 0".toList]), (.post, ["b".toList, "c".toList])] =
      [(.pre, 8, "a > 0".toList), (.post, 10, "b".toList), (.post, 11, "c".toList)] := by decide +kernel

/-! ## Finding the docstring's lines -/

theorem quotes_iff {t r : Text} : quotes t = some r ↔ ∃ q, Quotes q ∧ t = q ++ r := by
  constructor
  · intro h
    unfold quotes at h
    split at h
    · cases h; exact ⟨_, Or.inl rfl, rfl⟩
    · cases h; exact ⟨_, Or.inr rfl, rfl⟩
    · cases h
  · rintro ⟨q, rfl | rfl, rfl⟩ <;> rfl

theorem closeTail_iff (hw : Classes sp word) {t : Text} :
    closeTail sp t = true ↔ OnlyComment sp t := by
  have hsplit : t = t.takeWhile sp ++ lstrip sp t := List.takeWhile_append_dropWhile.symm
  constructor
  · intro h
    unfold closeTail at h
    split at h
    · rename_i heq
      left
      rw [heq, List.append_nil] at hsplit
      intro c hc
      rw [hsplit] at hc
      exact mem_takeWhile_true _ _ c hc
    · rename_i r heq
      right
      refine ⟨t.takeWhile sp, r.takeWhile (· ≠ '\n'), r.dropWhile (· ≠ '\n'), ?_, mem_takeWhile_true _ _, ?_, ?_⟩
      · conv => lhs; rw [hsplit, heq]
        have := List.takeWhile_append_dropWhile (p := fun c => decide (c ≠ '\n')) (l := r)
        conv => lhs; rw [← this]
        simp
      · intro hm
        have := mem_takeWhile_true _ _ _ hm
        simp at this
      · have hle : (r.dropWhile (· ≠ '\n')).length ≤ 1 := by simpa using h
        have hh := head_dropWhile (fun c => decide (c ≠ '\n')) r
        cases hr : r.dropWhile (· ≠ '\n') with
        | nil => exact Or.inl rfl
        | cons a l =>
          right
          rw [hr] at hle
          have : l = [] := by
            cases l with
            | nil => rfl
            | cons => simp at hle
          subst this
          have ha := hh a (by rw [hr]; rfl)
          have ha' : a = '\n' := by simpa using ha
          rw [ha']
    · cases h
  · rintro (hb | ⟨a, c, e, rfl, ha, hc, he⟩)
    · have : lstrip sp t = [] := by
        have := dropWhile_all (p := sp) (a := t) [] hb
        simpa [lstrip] using this
      unfold closeTail
      rw [this]
    · have hl : lstrip sp (a ++ ['#'] ++ c ++ e) = '#' :: (c ++ e) := by
        unfold lstrip
        rw [show a ++ ['#'] ++ c ++ e = a ++ ('#' :: (c ++ e)) by simp, dropWhile_all _ ha,
          dropWhile_head (by intro x hx; cases hx; exact hw.hash)]
      unfold closeTail
      rw [hl]
      simp only [decide_eq_true_eq]
      have hc' : ∀ x ∈ c, (fun x => decide (x ≠ '\n')) x = true := by
        intro x hx
        simp only [ne_eq, decide_not, Bool.not_eq_true', decide_eq_false_iff_not]
        rintro rfl; exact hc hx
      rw [List.dropWhile_append_of_pos hc']
      rcases he with rfl | rfl <;> simp

/-- The closing quotation marks are found where they first end a line. -/
theorem closeRe_iff (hw : Classes sp word) (t body : Text) :
    closeRe sp t = some body ↔
      EndsAfter sp t body ∧ ∀ body', EndsAfter sp t body' → body.length ≤ body'.length := by
  induction t generalizing body with
  | nil =>
    constructor
    · intro h; cases h
    · rintro ⟨⟨q, tail, h, hq, _⟩, _⟩
      rcases hq with rfl | rfl <;> simp at h
  | cons c t ih =>
    -- closing marks at the very start
    have hzero : EndsAfter sp (c :: t) [] ↔ ∃ r, quotes (c :: t) = some r ∧ closeTail sp r = true := by
      constructor
      · rintro ⟨q, tail, h, hq, ht⟩
        exact ⟨tail, quotes_iff.mpr ⟨q, hq, h⟩, (closeTail_iff hw).mpr ht⟩
      · rintro ⟨r, h1, h2⟩
        obtain ⟨q, hq, h⟩ := quotes_iff.mp h1
        exact ⟨q, r, h, hq, (closeTail_iff hw).mp h2⟩
    have hsucc : ∀ b, EndsAfter sp (c :: t) (c :: b) ↔ EndsAfter sp t b := by
      intro b
      constructor
      · rintro ⟨q, tail, h, hq, ht⟩
        exact ⟨q, tail, by simpa using h, hq, ht⟩
      · rintro ⟨q, tail, rfl, hq, ht⟩
        exact ⟨q, tail, by simp, hq, ht⟩
    have hhead : ∀ x b, EndsAfter sp (c :: t) (x :: b) → x = c := by
      rintro x b ⟨q, tail, h, _⟩
      simp only [List.cons_append, List.cons.injEq] at h
      exact h.1.symm
    by_cases hz : EndsAfter sp (c :: t) []
    · obtain ⟨r, h1, h2⟩ := hzero.mp hz
      have hc : closeRe sp (c :: t) = some [] := by
        simp only [closeRe, h1, h2, if_true]
      rw [hc]
      constructor
      · intro h; cases h; exact ⟨hz, fun _ _ => Nat.zero_le _⟩
      · rintro ⟨_, hmin⟩
        have := hmin [] hz
        cases body with
        | nil => rfl
        | cons => simp at this
    · have hc : closeRe sp (c :: t) = (closeRe sp t).map (c :: ·) := by
        rw [closeRe]
        cases hq : quotes (c :: t) with
        | none => rfl
        | some r =>
          simp only
          rw [if_neg]
          intro h2
          exact hz (hzero.mpr ⟨r, hq, h2⟩)
      rw [hc, Option.map_eq_some_iff]
      constructor
      · rintro ⟨b, hb, rfl⟩
        obtain ⟨h1, h2⟩ := (ih b).mp hb
        refine ⟨(hsucc b).mpr h1, ?_⟩
        intro body' hb'
        cases body' with
        | nil => exact absurd hb' hz
        | cons x b' =>
          have := hhead x b' hb'
          subst this
          have := h2 b' ((hsucc b').mp hb')
          simpa using this
      · rintro ⟨h1, h2⟩
        cases body with
        | nil => exact absurd h1 hz
        | cons x b =>
          have := hhead x b h1
          subst this
          refine ⟨b, (ih b).mpr ⟨(hsucc b).mp h1, ?_⟩, rfl⟩
          intro b' hb'
          have := h2 (x :: b') ((hsucc b').mpr hb')
          simpa using this

theorem closeRe_none (hw : Classes sp word) (t : Text)
    (h : ∀ b, ¬ EndsAfter sp t b) : closeRe sp t = none := by
  cases hc : closeRe sp t with
  | none => rfl
  | some b => exact absurd ((closeRe_iff hw t b).mp hc).1 (h b)

theorem docLines_started (hw : Classes sp word) (n : Nat) (mids : List Text)
    (last body : Text) (after : List (Nat × Text))
    (hm : ∀ t ∈ mids, ∀ b, ¬ EndsAfter sp t b)
    (hl : EndsAfter sp last body ∧ ∀ b, EndsAfter sp last b → body.length ≤ b.length) :
    docLines sp true (number n (mids ++ [last]) ++ after) = number n (mids ++ [body]) := by
  induction mids generalizing n with
  | nil =>
    simp only [List.nil_append, number, List.cons_append, docLines, if_true]
    rw [(closeRe_iff hw last body).mpr hl]
  | cons t mids ih =>
    simp only [List.cons_append, number, docLines, if_true]
    rw [closeRe_none hw t (hm t List.mem_cons_self)]
    simp only [List.cons.injEq, true_and]
    exact ih (n + 1) (fun t' ht' => hm t' (List.mem_cons_of_mem _ ht'))

/-- **C39.** A docstring in triple quotes, raw or not, gives its lines with their numbers, up to the
first line that ends with triple quotes. -/
theorem docstring_lines (hw : Classes sp word) (hq' : sp '"' = false ∧ sp '\'' = false)
    (n : Nat) (ind raw q first : Text) (mids : List Text) (last body : Text) (after : List (Nat × Text))
    (hi : ∀ c ∈ ind, sp c = true) (hr : raw = [] ∨ raw = ['r']) (hq : Quotes q)
    (hf : ∀ b, ¬ EndsAfter sp first b) (hm : ∀ t ∈ mids, ∀ b, ¬ EndsAfter sp t b)
    (hl : EndsAfter sp last body ∧ ∀ b, EndsAfter sp last b → body.length ≤ b.length) :
    docLines sp false ((n, ind ++ raw ++ q ++ first) :: (number (n + 1) (mids ++ [last]) ++ after))
      = number n (first :: (mids ++ [body])) ∧
    docLines sp false ((n, ind ++ raw ++ q ++ last) :: after) = [(n, body)] := by
  have hopen : ∀ x, openRe sp (ind ++ raw ++ q ++ x) = some x := by
    intro x
    have hls : lstrip sp (ind ++ raw ++ q ++ x) = raw ++ q ++ x := by
      unfold lstrip
      rw [List.append_assoc, List.append_assoc, dropWhile_all _ hi, ← List.append_assoc, dropWhile_head]
      intro c hc
      rcases hr with rfl | rfl
      · rcases hq with rfl | rfl
        · cases hc; exact hq'.2
        · cases hc; exact hq'.1
      · cases hc; exact hw.r
    unfold openRe
    rw [hls]
    rcases hr with rfl | rfl <;> rcases hq with rfl | rfl <;> simp [quotes]
  constructor
  · simp only [docLines, Bool.false_eq_true, if_false, hopen]
    rw [closeRe_none hw first hf]
    simp only [number, List.cons.injEq, true_and]
    exact docLines_started hw (n + 1) mids last body after hm hl
  · simp only [docLines, Bool.false_eq_true, if_false, hopen]
    rw [(closeRe_iff hw last body).mpr hl]

example : docLines exSp false
    [(3, "    r\"\"\"Adds.\n".toList), (4, "    pre: x > 0\n".toList), (5, "    \"\"\"  # done\n".toList)]
    = [(3, "Adds.\n".toList), (4, "    pre: x > 0\n".toList), (5, "    ".toList)] := by decide +kernel

/-- **C39.** Lines before the one that opens the docstring do not matter. -/
theorem lines_before_skipped (before after : List (Nat × Text)) (h : ∀ l ∈ before, ¬ OpensDoc sp l.2) :
    docLines sp false (before ++ after) = docLines sp false after := by
  have key : ∀ t r, openRe sp t = some r → OpensDoc sp t := by
    intro t r ho
    unfold openRe at ho
    have hsplit : t = t.takeWhile sp ++ lstrip sp t := (List.takeWhile_append_dropWhile).symm
    have hsp : ∀ c ∈ t.takeWhile sp, sp c = true := mem_takeWhile_true _ _
    split at ho
    · rename_i x he
      obtain ⟨q, hq, rfl⟩ := quotes_iff.mp ho
      refine ⟨t.takeWhile sp, ['r'], q, r, ?_, hsp, Or.inr rfl, hq⟩
      rw [List.append_assoc, List.append_assoc]
      conv => lhs; rw [hsplit, he]
      rfl
    · obtain ⟨q, hq, he⟩ := quotes_iff.mp ho
      refine ⟨t.takeWhile sp, [], q, r, ?_, hsp, Or.inl rfl, hq⟩
      rw [List.append_nil, List.append_assoc, ← he]
      exact hsplit
  induction before with
  | nil => rfl
  | cons l before ih =>
    obtain ⟨n, t⟩ := l
    have hn : openRe sp t = none := by
      cases ho : openRe sp t with
      | none => rfl
      | some r => exact absurd (key t r ho) (h _ List.mem_cons_self)
    simp only [List.cons_append, docLines, Bool.false_eq_true, if_false, hn]
    exact ih (fun l hl => h l (List.mem_cons_of_mem _ hl))

example : docLines exSp false [(1, "def f():\n".toList), (2, "  '''pre: x'''\n".toList)] = [(2, "pre: x".toList)] := by
  decide +kernel

/-- **C39.** Conditions in a docstring with single quotation marks, or with a prefix other than `r`, are
not seen. -/
theorem other_docstrings_ignored :
    docLines exSp false [(3, "    'post: True'\n".toList)] = [] ∧
    docLines exSp false [(3, "    R\"\"\"post: True\"\"\"\n".toList)] = [] ∧
    docLines exSp false [(3, "    u\"\"\"post: True\"\"\"\n".toList)] = [] := by decide +kernel

/-- **C39.** Triple quotes of the other kind at the end of a line cut the docstring short: the condition on
line 5 of this docstring is lost. -/
theorem other_quotes_cut_docstring :
    docLines exSp false
      [(3, "    \"\"\"\n".toList), (4, "    Example: '''\n".toList), (5, "    pre: x > 0\n".toList),
       (6, "    \"\"\"\n".toList)]
      = [(3, "\n".toList), (4, "    Example: ".toList)] := by decide +kernel

end Verif.Doc
