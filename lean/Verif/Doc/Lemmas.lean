import Verif.Doc.Spec
/-
Helper lemmas: stripping, headers and the reading of sections.
-/
namespace Verif.Doc

/-- What is used about the character classes. -/
structure Classes (sp word : Char → Bool) : Prop where
  colon : sp ':' = false
  p : sp 'p' = false
  r : sp 'r' = false
  i : sp 'i' = false
  bracket : sp ']' = false ∧ word ']' = false
  hash : sp '#' = false

variable {sp word : Char → Bool}

theorem dropWhile_all {p : Char → Bool} {a : Text} (l : Text) (h : ∀ c ∈ a, p c = true) :
    (a ++ l).dropWhile p = l.dropWhile p := List.dropWhile_append_of_pos h

theorem dropWhile_head {p : Char → Bool} {l : Text} (h : ∀ c, l.head? = some c → p c = false) :
    l.dropWhile p = l := by
  cases l with
  | nil => rfl
  | cons c l => simp [List.dropWhile, h c rfl]

theorem takeWhile_all_head {p : Char → Bool} {a l : Text} (h : ∀ c ∈ a, p c = true)
    (hl : ∀ c, l.head? = some c → p c = false) : (a ++ l).takeWhile p = a := by
  rw [List.takeWhile_append_of_pos h]
  cases l with
  | nil => simp
  | cons c l => simp [hl c rfl]

theorem head_dropWhile (p : Char → Bool) (l : Text) :
    ∀ c, (l.dropWhile p).head? = some c → p c = false := by
  induction l with
  | nil => simp
  | cons a l ih =>
    intro c
    by_cases h : p a = true
    · rw [List.dropWhile_cons_of_pos h]; exact ih c
    · rw [List.dropWhile_cons_of_neg h]
      intro hc
      cases hc
      simpa using h

theorem mem_takeWhile_true {α : Type} (p : α → Bool) (l : List α) : ∀ c ∈ l.takeWhile p, p c = true := by
  induction l with
  | nil => simp
  | cons a l ih =>
    intro c hc
    rw [List.takeWhile_cons] at hc
    split at hc
    · rcases List.mem_cons.mp hc with rfl | hc
      · assumption
      · exact ih c hc
    · cases hc

theorem strip_of_trimmed {t core : Text} (h : Trimmed sp t core) : strip sp t = core := by
  obtain ⟨a, b, rfl, ha, hb, h1, h2⟩ := h
  unfold strip lstrip rstrip
  rw [List.append_assoc, dropWhile_all _ ha]
  have hb' : ∀ c ∈ b.reverse, sp c = true := fun c hc => hb c (List.mem_reverse.mp hc)
  cases core with
  | nil =>
    have : ([] ++ b : Text).dropWhile sp = [] := by
      have := dropWhile_all (p := sp) (a := b) [] hb
      simpa using this
    rw [this]; rfl
  | cons c l =>
    have hd : (c :: l ++ b).dropWhile sp = c :: l ++ b :=
      dropWhile_head (by intro x hx; cases hx; exact h1 c rfl)
    rw [hd, List.reverse_append, dropWhile_all _ hb', dropWhile_head]
    · simp
    · intro x hx
      rw [List.head?_reverse] at hx
      exact h2 x hx

theorem trimmed_strip (sp : Char → Bool) (t : Text) : Trimmed sp t (strip sp t) := by
  unfold strip lstrip rstrip
  refine ⟨t.takeWhile sp, ((t.dropWhile sp).reverse.takeWhile sp).reverse, ?_, mem_takeWhile_true _ _, ?_, ?_, ?_⟩
  · rw [List.append_assoc, ← List.reverse_append, List.takeWhile_append_dropWhile, List.reverse_reverse,
      List.takeWhile_append_dropWhile]
  · intro c hc
    exact mem_takeWhile_true _ _ c (List.mem_reverse.mp hc)
  · intro c hc
    -- the head of a nonempty core is the head of the left-stripped text
    have hsplit : t.dropWhile sp = ((t.dropWhile sp).reverse.dropWhile sp).reverse ++
        ((t.dropWhile sp).reverse.takeWhile sp).reverse := by
      rw [← List.reverse_append, List.takeWhile_append_dropWhile, List.reverse_reverse]
    apply head_dropWhile sp t c
    rw [hsplit]
    cases hr : ((t.dropWhile sp).reverse.dropWhile sp).reverse with
    | nil => rw [hr] at hc; cases hc
    | cons x l => rw [hr] at hc; exact hc
  · intro c hc
    rw [List.getLast?_reverse] at hc
    exact head_dropWhile sp _ c hc

theorem trimmed_iff {t core : Text} : Trimmed sp t core ↔ strip sp t = core :=
  ⟨strip_of_trimmed, fun h => h ▸ trimmed_strip sp t⟩

theorem strip_strip (t : Text) : strip sp (strip sp t) = strip sp t := by
  obtain ⟨_, _, _, _, _, h1, h2⟩ := trimmed_strip sp t
  exact strip_of_trimmed ⟨[], [], by simp, by simp, by simp, h1, h2⟩

theorem blank_iff {t : Text} : Blank sp t ↔ strip sp t = [] := by
  constructor
  · intro h
    exact strip_of_trimmed ⟨t, [], by simp, h, by simp, by simp, by simp⟩
  · intro h
    obtain ⟨a, b, he, ha, hb, _, _⟩ := trimmed_strip sp t
    rw [h] at he
    intro c hc
    rw [he] at hc
    simp only [List.append_nil, List.mem_append] at hc
    rcases hc with hc | hc
    · exact ha c hc
    · exact hb c hc

theorem indented_iff {t : Text} {i : Nat} : Indented sp t i ↔ indentOf sp t = i := by
  constructor
  · rintro ⟨a, r, rfl, rfl, ha, hr⟩
    unfold indentOf
    rw [takeWhile_all_head ha hr]
  · rintro rfl
    exact ⟨t.takeWhile sp, t.dropWhile sp, List.takeWhile_append_dropWhile.symm, rfl,
      mem_takeWhile_true _ _, head_dropWhile _ _⟩

theorem hasExpr_iff {t : Text} : hasExpr sp t = true ↔ Expr (strip sp t) := by
  unfold hasExpr Expr
  cases strip sp t with
  | nil => simp
  | cons c l => simp

theorem inside_iff {i : Nat} {t : Text} : Inside sp i t ↔
    strip sp t = [] ∨ (i < indentOf sp t ∧ '\n' ∉ strip sp t) := by
  unfold Inside
  rw [blank_iff]
  constructor
  · rintro (h | ⟨j, core, hj, hij, hc, hn⟩)
    · exact Or.inl h
    · rw [indented_iff] at hj; rw [trimmed_iff] at hc
      subst hj; subst hc
      exact Or.inr ⟨hij, hn⟩
  · rintro (h | ⟨h1, h2⟩)
    · exact Or.inl h
    · exact Or.inr ⟨_, _, indented_iff.mpr rfl, h1, trimmed_iff.mpr rfl, h2⟩

theorem keyword_iff {t r : Text} {s : Sect} : keyword t = some (s, r) ↔ t = s.text ++ r := by
  have e1 : "post".toList = ['p', 'o', 's', 't'] := by decide +kernel
  have e2 : "pre".toList = ['p', 'r', 'e'] := by decide +kernel
  have e3 : "raises".toList = ['r', 'a', 'i', 's', 'e', 's'] := by decide +kernel
  have e4 : "inv".toList = ['i', 'n', 'v'] := by decide +kernel
  constructor
  · intro h
    unfold keyword at h
    split at h <;> simp only [Option.some.injEq, Prod.mk.injEq, reduceCtorEq] at h
    · obtain ⟨rfl, rfl⟩ := h; simp only [Sect.text, e1, List.cons_append, List.nil_append]
    · obtain ⟨rfl, rfl⟩ := h; simp only [Sect.text, e2, List.cons_append, List.nil_append]
    · obtain ⟨rfl, rfl⟩ := h; simp only [Sect.text, e3, List.cons_append, List.nil_append]
    · obtain ⟨rfl, rfl⟩ := h; simp only [Sect.text, e4, List.cons_append, List.nil_append]
  · rintro rfl
    cases s
    · simp only [Sect.text, e1, List.cons_append, List.nil_append, keyword]
    · simp only [Sect.text, e2, List.cons_append, List.nil_append, keyword]
    · simp only [Sect.text, e3, List.cons_append, List.nil_append, keyword]
    · simp only [Sect.text, e4, List.cons_append, List.nil_append, keyword]

theorem text_head (s : Sect) (r : Text) : ∃ c, (s.text ++ r).head? = some c ∧ (c = 'p' ∨ c = 'r' ∨ c = 'i') := by
  have e1 : "post".toList = ['p', 'o', 's', 't'] := by decide +kernel
  have e2 : "pre".toList = ['p', 'r', 'e'] := by decide +kernel
  have e3 : "raises".toList = ['r', 'a', 'i', 's', 'e', 's'] := by decide +kernel
  have e4 : "inv".toList = ['i', 'n', 'v'] := by decide +kernel
  cases s
  · exact ⟨'p', by simp only [Sect.text, e1]; rfl, Or.inl rfl⟩
  · exact ⟨'p', by simp only [Sect.text, e2]; rfl, Or.inl rfl⟩
  · exact ⟨'r', by simp only [Sect.text, e3]; rfl, Or.inr (Or.inl rfl)⟩
  · exact ⟨'i', by simp only [Sect.text, e4]; rfl, Or.inr (Or.inr rfl)⟩

theorem optColon_cases (t : Text) : (∃ r, t = ':' :: r ∧ optColon t = r) ∨ (t.head? ≠ some ':' ∧ optColon t = t) := by
  unfold optColon
  split
  · exact Or.inl ⟨_, rfl, rfl⟩
  · rename_i h
    refine Or.inr ⟨?_, rfl⟩
    cases t with
    | nil => simp
    | cons c r =>
      intro hc
      cases hc
      exact h r rfl

theorem optColon_of_not {t : Text} (h : t.head? ≠ some ':') : optColon t = t := by
  rcases optColon_cases t with ⟨r, rfl, _⟩ | ⟨_, h'⟩
  · exact absurd rfl h
  · exact h'

theorem brackets_iff (hw : Classes sp word) {t r : Text} {b : Option Text} :
    brackets sp word t = some (b, r) ↔
      (b = none ∧ t = r ∧ t.head? ≠ some '[') ∨
      ∃ x, b = some x ∧ t = ['['] ++ x ++ [']'] ++ r ∧
        ∀ c ∈ x, word c = true ∨ sp c = true ∨ c = ',' ∨ c = '.' := by
  have hin : ∀ c, inBrackets sp word c = true ↔ (word c = true ∨ sp c = true ∨ c = ',' ∨ c = '.') := by
    intro c; simp [inBrackets, or_assoc]
  constructor
  · intro h
    unfold brackets at h
    split at h
    · rename_i r0
      split at h
      · rename_i r' heq
        simp only [Option.some.injEq, Prod.mk.injEq] at h
        obtain ⟨rfl, rfl⟩ := h
        right
        refine ⟨_, rfl, ?_, fun c hc => (hin c).mp (mem_takeWhile_true _ _ c hc)⟩
        have hsplit := (List.takeWhile_append_dropWhile (p := inBrackets sp word) (l := r0))
        rw [heq] at hsplit
        rw [show (['['] ++ List.takeWhile (inBrackets sp word) r0 ++ [']'] ++ r' : Text)
            = '[' :: (List.takeWhile (inBrackets sp word) r0 ++ ']' :: r') by simp, hsplit]
      · cases h
    · rename_i hne
      simp only [Option.some.injEq, Prod.mk.injEq] at h
      obtain ⟨rfl, rfl⟩ := h
      left
      refine ⟨rfl, rfl, ?_⟩
      cases t with
      | nil => simp
      | cons c l => intro hc; cases hc; exact hne l rfl
  · rintro (⟨rfl, rfl, hh⟩ | ⟨x, rfl, rfl, hx⟩)
    · unfold brackets
      split
      · exact absurd rfl hh
      · rfl
    · have h1 : (x ++ (']' :: r)).dropWhile (inBrackets sp word) = ']' :: r := by
        rw [dropWhile_all _ (fun c hc => (hin c).mpr (hx c hc)), dropWhile_head]
        intro c hc
        cases hc
        have h1 := hw.bracket
        have e1 : (']' == ',') = false := by decide
        have e2 : (']' == '.') = false := by decide
        simp [inBrackets, h1.1, h1.2]
      have h2 : (x ++ (']' :: r)).takeWhile (inBrackets sp word) = x := by
        apply takeWhile_all_head (fun c hc => (hin c).mpr (hx c hc))
        intro c hc
        cases hc
        have h1 := hw.bracket
        simp [inBrackets, h1.1, h1.2]
      rw [show (['['] ++ x ++ [']'] ++ r : Text) = '[' :: (x ++ ']' :: r) by simp]
      simp only [brackets, h1, h2]

theorem header_iff (hw : Classes sp word) {t : Text} {h : Header} :
    header sp word t = some h ↔ IsHeader sp word t h := by
  constructor
  · intro hh
    unfold header at hh
    split at hh
    · cases hh
    · rename_i s r hk
      rw [keyword_iff] at hk
      split at hh
      · cases hh
      · rename_i b r' hb
        rw [brackets_iff hw] at hb
        split at hh
        · cases hh
        · rename_i hn
          cases hh
          have hn' : '\n' ∉ strip sp (optColon r') := by
            simpa using hn
          -- the colons
          have hcol : ∃ colons rest, ':' :: r' = colons ++ rest ∧ rest = optColon r' ∧
              ((colons = [':'] ∧ rest.head? ≠ some ':') ∨ colons = [':', ':']) := by
            rcases optColon_cases r' with ⟨q, rfl, hq⟩ | ⟨hq, hq'⟩
            · exact ⟨[':', ':'], q, rfl, hq.symm, Or.inr rfl⟩
            · exact ⟨[':'], r', rfl, hq'.symm, Or.inl ⟨rfl, hq⟩⟩
          obtain ⟨colons, rest, hcr, hrest, hcc⟩ := hcol
          -- the optional leading colon
          have hlead : ∃ lead, lstrip sp t = lead ++ (s.text ++ r) ∧ (lead = [] ∨ lead = [':']) := by
            rcases optColon_cases (lstrip sp t) with ⟨q, h1, h2⟩ | ⟨_, h2⟩
            · refine ⟨[':'], ?_, Or.inr rfl⟩
              rw [h1, ← hk, h2]; rfl
            · refine ⟨[], ?_, Or.inl rfl⟩
              rw [List.nil_append, ← hk, h2]
          obtain ⟨lead, hl, hl'⟩ := hlead
          have ht : t = t.takeWhile sp ++ (lead ++ (s.text ++ r)) := by
            rw [← hl]; exact List.takeWhile_append_dropWhile.symm
          rcases hb with ⟨rfl, rfl, _⟩ | ⟨x, rfl, rfl, hx⟩
          · refine ⟨t.takeWhile sp, lead, [], colons, rest, ?_, rfl, mem_takeWhile_true _ _, hl',
              Or.inl ⟨rfl, rfl⟩, hcc, ?_, hn'⟩
            · rw [hcr] at ht
              simpa using ht
            · rw [hrest]; exact trimmed_strip sp _
          · refine ⟨t.takeWhile sp, lead, ['['] ++ x ++ [']'], colons, rest, ?_, rfl,
              mem_takeWhile_true _ _, hl', Or.inr ⟨x, rfl, rfl, hx⟩, hcc, ?_, hn'⟩
            · rw [hcr] at ht
              simpa using ht
            · rw [hrest]; exact trimmed_strip sp _
      · cases hh
  · rintro ⟨ind, lead, br, colons, rest, rfl, hind, hsp, hlead, hbr, hcol, htrim, hn⟩
    obtain ⟨c0, hc0, hc0'⟩ := text_head h.sect (br ++ colons ++ rest)
    have hc0sp : sp c0 = false := by
      rcases hc0' with rfl | rfl | rfl
      · exact hw.p
      · exact hw.r
      · exact hw.i
    have hc0col : c0 ≠ ':' := by rcases hc0' with rfl | rfl | rfl <;> decide
    have hassoc : ind ++ lead ++ h.sect.text ++ br ++ colons ++ rest
        = ind ++ (lead ++ (h.sect.text ++ (br ++ colons ++ rest))) := by simp
    have hhead : ∀ c, (lead ++ (h.sect.text ++ (br ++ colons ++ rest))).head? = some c → sp c = false := by
      intro c hc
      rcases hlead with rfl | rfl
      · rw [List.nil_append, hc0] at hc; cases hc; exact hc0sp
      · cases hc; exact hw.colon
    have hl : lstrip sp (ind ++ lead ++ h.sect.text ++ br ++ colons ++ rest)
        = lead ++ (h.sect.text ++ (br ++ colons ++ rest)) := by
      unfold lstrip
      rw [hassoc, dropWhile_all _ hsp, dropWhile_head hhead]
    have hi : indentOf sp (ind ++ lead ++ h.sect.text ++ br ++ colons ++ rest) = h.indent := by
      unfold indentOf
      rw [hassoc, takeWhile_all_head hsp hhead, hind]
    have ho : optColon (lead ++ (h.sect.text ++ (br ++ colons ++ rest)))
        = h.sect.text ++ (br ++ colons ++ rest) := by
      rcases hlead with rfl | rfl
      · rw [List.nil_append]
        apply optColon_of_not
        rw [hc0]; intro hh; cases hh; exact hc0col rfl
      · rfl
    have hk : keyword (h.sect.text ++ (br ++ colons ++ rest)) = some (h.sect, br ++ colons ++ rest) :=
      keyword_iff.mpr rfl
    have hcr : ∃ r', colons ++ rest = ':' :: r' ∧ optColon r' = rest := by
      rcases hcol with ⟨rfl, hne⟩ | rfl
      · exact ⟨rest, rfl, optColon_of_not hne⟩
      · exact ⟨':' :: rest, rfl, rfl⟩
    obtain ⟨r', hr', hopt⟩ := hcr
    have hbk : brackets sp word (br ++ colons ++ rest) = some (h.bracketed, ':' :: r') := by
      rw [brackets_iff hw]
      rcases hbr with ⟨hb, rfl⟩ | ⟨x, hb, rfl, hx⟩
      · left
        refine ⟨hb, by rw [List.nil_append, hr'], ?_⟩
        rw [List.nil_append, hr']
        intro hh; cases hh
      · right
        exact ⟨x, hb, by rw [← hr']; simp, hx⟩
    have hstrip : strip sp (optColon r') = h.inline := by rw [hopt]; exact strip_of_trimmed htrim
    unfold header
    rw [hl, ho, hk]
    simp only [hbk, hstrip]
    rw [if_neg (by simpa using hn), hi]

theorem header_inline {t : Text} {h : Header} (hh : IsHeader sp word t h) : strip sp h.inline = h.inline := by
  obtain ⟨_, _, _, _, rest, _, _, _, _, _, _, ht, _⟩ := hh
  rw [← strip_of_trimmed ht, strip_strip]

end Verif.Doc
