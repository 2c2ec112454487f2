import Verif.Wall.Model
import Mathlib.Tactic.IntervalCases
import Mathlib.Tactic.Linarith
/-
Helper lemmas about the audit wall.
-/
namespace Verif.Wall

/-! ### Tries -/

/-- The prefixes marked in a trie. -/
def Trie.Has : Trie → List Str → Prop
  | t, [] => t.isEnd = true
  | t, p :: ps => ∃ c, kid t.kids p = some c ∧ Trie.Has c ps

theorem kid_cons (k : Str) (t : Trie) (kids : List (Str × Trie)) (x : Str) :
    kid ((k, t) :: kids) x = if k = x then some t else kid kids x := by
  unfold kid
  by_cases h : k = x
  · simp [h]
  · simp [h]

theorem has_empty (p : List Str) : ¬ Trie.empty.Has p := by
  cases p with
  | nil => simp [Trie.Has, Trie.empty, Trie.isEnd]
  | cons a l => simp [Trie.Has, Trie.empty, Trie.kids, kid]

theorem has_insert (q : List Str) (t : Trie) (p : List Str) : (t.insert q).Has p ↔ p = q ∨ t.Has p := by
  induction q generalizing t p with
  | nil =>
    cases p with
    | nil => simp [Trie.insert, Trie.Has, Trie.isEnd]
    | cons a l => simp [Trie.insert, Trie.Has, Trie.kids]
  | cons b q ih =>
    cases p with
    | nil => simp [Trie.insert, Trie.Has, Trie.isEnd]
    | cons a l =>
      obtain ⟨te, tk⟩ := t
      simp only [Trie.insert, Trie.Has, Trie.kids, List.cons.injEq]
      simp only [kid_cons]
      by_cases h : b = a
      · subst h
        simp only [if_true, Option.some.injEq, true_and]
        constructor
        · rintro ⟨c, hc, hh⟩
          rw [← hc, ih] at hh
          rcases hh with hh | hh
          · exact .inl hh
          · right
            cases hk : kid tk b with
            | none =>
              rw [hk] at hh
              exact absurd hh (has_empty _)
            | some c' =>
              rw [hk] at hh
              exact ⟨c', rfl, hh⟩
        · rintro (hl | ⟨c, hc, hh⟩)
          · exact ⟨_, rfl, (ih _ _).mpr (.inl hl)⟩
          · refine ⟨_, rfl, (ih _ _).mpr (.inr ?_)⟩
            rw [hc]
            exact hh
      · simp only [if_neg h]
        constructor
        · intro hh; exact .inr hh
        · rintro (hl | hh)
          · exact absurd hl.1.symm h
          · exact hh

theorem has_build (prefixes : List (List Str)) (p : List Str) : (buildTrie prefixes).Has p ↔ p ∈ prefixes := by
  unfold buildTrie
  have : ∀ (l : List (List Str)) (t : Trie), (l.foldl (fun t p => t.insert p) t).Has p ↔ p ∈ l ∨ t.Has p := by
    intro l
    induction l with
    | nil => intro t; simp
    | cons a l ih =>
      intro t
      rw [List.foldl_cons, ih, has_insert, List.mem_cons]
      tauto
  rw [this]
  simp [has_empty]

theorem walk_iff (t : Trie) (toks : List Str) : t.walk toks = true ↔ ∃ p, p ≠ [] ∧ p <+: toks ∧ t.Has p := by
  induction toks generalizing t with
  | nil =>
    simp only [Trie.walk, Bool.false_eq_true, false_iff, List.prefix_nil]
    rintro ⟨p, h1, h2, _⟩
    exact h1 h2
  | cons a l ih =>
    unfold Trie.walk
    constructor
    · intro h
      split at h
      · simp at h
      · rename_i c hc
        split at h
        · rename_i he
          refine ⟨[a], by simp, by simp, c, hc, he⟩
        · obtain ⟨p, h1, h2, h3⟩ := (ih c).mp h
          exact ⟨a :: p, by simp, by simpa using h2, c, hc, h3⟩
    · rintro ⟨p, h1, h2, h3⟩
      cases p with
      | nil => exact absurd rfl h1
      | cons b p =>
        rw [List.cons_prefix_cons] at h2
        obtain ⟨rfl, h2⟩ := h2
        obtain ⟨c, hc, hh⟩ := h3
        simp only [hc]
        split
        · rfl
        · rename_i he
          rw [ih]
          refine ⟨p, ?_, h2, hh⟩
          rintro rfl
          exact he hh

/-! ### Entries -/

theorem split_ne_nil (c : Char) (p : Str) : split c p ≠ [] := by
  cases p with
  | nil => simp [split]
  | cons x xs =>
    unfold split
    split
    · simp
    · split <;> simp

theorem split_eq (c : Char) (p : Str) : split c p = p.takeWhile (· ≠ c) :: (split c p).tail := by
  induction p with
  | nil => simp [split]
  | cons x xs ih =>
    unfold split
    by_cases h : x = c
    · simp [h]
    · rw [if_neg h, ih]
      simp [h]

theorem split_cons_ne {c x : Char} (h : x ≠ c) (xs : Str) : (split c (x :: xs)).tail = (split c xs).tail := by
  conv_lhs => unfold split
  rw [if_neg h, split_eq c xs]
  simp

theorem split_cons_eq (c : Char) (xs : Str) : (split c (c :: xs)).tail = split c xs := by
  conv_lhs => unfold split
  simp

theorem split_text (c : Char) (p : Str) : p.takeWhile (· ≠ c) ++ (split c p).tail.flatMap (c :: ·) = p := by
  induction p with
  | nil => simp [split]
  | cons x xs ih =>
    by_cases h : x = c
    · subst h
      rw [split_cons_eq, split_eq]
      simp only [ne_eq, not_true_eq_false, decide_false, Bool.false_eq_true, not_false_eq_true,
        List.takeWhile_cons_of_neg, List.flatMap_cons, List.nil_append, List.cons_append, List.cons.injEq, true_and]
      exact ih
    · rw [split_cons_ne h]
      simp only [ne_eq, h, not_false_eq_true, decide_true, List.takeWhile_cons_of_pos, List.cons_append,
        List.cons.injEq, true_and]
      exact ih

theorem split_parts (c : Char) (p : Str) : ∀ t ∈ split c p, c ∉ t := by
  induction p with
  | nil => simp [split]
  | cons x xs ih =>
    by_cases h : x = c
    · intro t ht
      unfold split at ht
      rw [if_pos h] at ht
      rcases List.mem_cons.mp ht with rfl | ht
      · simp
      · exact ih t ht
    · intro t ht
      unfold split at ht
      rw [if_neg h, split_eq c xs] at ht
      simp only [List.mem_cons] at ht
      rcases ht with rfl | ht
      · rw [List.mem_cons]
        rintro (hh | hh)
        · exact h hh.symm
        · exact ih (xs.takeWhile (· ≠ c)) (by rw [split_eq c xs]; exact List.mem_cons_self ..) hh
      · exact ih t (by rw [split_eq c xs]; exact List.mem_cons_of_mem _ ht)

theorem split_append (c : Char) (a : Str) (ha : c ∉ a) (ts : List Str) (hts : ∀ t ∈ ts, c ∉ t) :
    split c (a ++ ts.flatMap (c :: ·)) = a :: ts := by
  induction ts generalizing a with
  | nil =>
    rw [List.flatMap_nil, List.append_nil]
    induction a with
    | nil => rfl
    | cons x a ih =>
      rw [List.mem_cons, not_or] at ha
      unfold split
      rw [if_neg (fun h => ha.1 h.symm), ih ha.2]
  | cons t ts ih =>
    rw [List.flatMap_cons]
    induction a with
    | nil =>
      rw [List.nil_append, List.cons_append]
      unfold split
      rw [if_pos rfl, ih t (hts t (by simp)) (fun u hu => hts u (by simp [hu]))]
    | cons x a ih' =>
      rw [List.mem_cons, not_or] at ha
      rw [List.cons_append]
      unfold split
      rw [if_neg (fun h => ha.1 h.symm), ih' ha.2]

/-- The rule an entry stands for. -/
def ruleOf (p : Str) : Rule := ⟨eventOf p, (split ':' p).tail⟩

theorem ruleOf_wf (p : Str) : (ruleOf p).Wellformed := by
  have h := split_parts ':' p
  rw [split_eq] at h
  exact ⟨h _ (List.mem_cons_self ..), fun t ht => h t (List.mem_cons_of_mem _ ht)⟩

theorem ruleOf_text (p : Str) : (ruleOf p).text = p := split_text ':' p

theorem ruleOf_unique {r : Rule} (h : r.Wellformed) : ruleOf r.text = r := by
  obtain ⟨e, ts⟩ := r
  have hs := split_append ':' e h.1 ts h.2
  have h2 := split_eq ':' (e ++ ts.flatMap (':' :: ·))
  rw [hs] at h2
  unfold ruleOf eventOf Rule.text
  simp only
  rw [hs]
  injection h2 with h3 _
  rw [← h3]
  rfl

theorem bare_iff (p : Str) : (split ':' p).tail = [] ↔ eventOf p = p := by
  have ht := split_text ':' p
  constructor
  · intro h
    rw [h] at ht
    simpa [eventOf] using ht
  · intro h
    have h1 : ':' ∉ p := by
      have := (ruleOf_wf p).1
      unfold ruleOf at this
      simp only at this
      rwa [h] at this
    have := split_append ':' p h1 [] (by simp)
    rw [List.flatMap_nil, List.append_nil] at this
    rw [this]
    rfl

/-! ### Groups -/

theorem mem_insertSorted (p x : Str) (l : List Str) : x ∈ insertSorted p l ↔ x = p ∨ x ∈ l := by
  induction l with
  | nil => simp [insertSorted]
  | cons q l ih =>
    unfold insertSorted
    split
    · simp
    · simp only [List.mem_cons, ih]; tauto

theorem mem_sorted (x : Str) (l : List Str) : x ∈ sorted l ↔ x ∈ l := by
  unfold sorted
  induction l with
  | nil => simp
  | cons q l ih => rw [List.foldr_cons, mem_insertSorted, ih, List.mem_cons]

theorem groups_spec (l : List Str) :
    (∀ eg ∈ groups l, eg.2 ≠ [] ∧ ∀ x ∈ eg.2, eventOf x = eg.1) ∧
    (∀ x, x ∈ l ↔ ∃ eg ∈ groups l, x ∈ eg.2) := by
  induction l with
  | nil => simp [groups]
  | cons p l ih =>
    obtain ⟨ih1, ih2⟩ := ih
    unfold groups
    cases hg : groups l with
    | nil =>
      rw [hg] at ih2
      refine ⟨by simp, ?_⟩
      intro x
      have := ih2 x
      simp only [List.not_mem_nil, false_and, exists_false, iff_false] at this
      simp [this]
    | cons eg rest =>
      obtain ⟨e, g⟩ := eg
      rw [hg] at ih1 ih2
      simp only
      split
      · rename_i he
        refine ⟨?_, ?_⟩
        · intro eg' h'
          rcases List.mem_cons.mp h' with rfl | h'
          · refine ⟨by simp, ?_⟩
            intro x hx
            rcases List.mem_cons.mp hx with rfl | hx
            · exact he.symm
            · exact (ih1 (e, g) (by simp)).2 x hx
          · exact ih1 eg' (by simp [h'])
        · intro x
          rw [List.mem_cons, ih2]
          simp only [List.mem_cons, exists_eq_or_imp]
          tauto
      · refine ⟨?_, ?_⟩
        · intro eg' h'
          rcases List.mem_cons.mp h' with rfl | h'
          · simp
          · exact ih1 eg' h'
        · intro x
          rw [List.mem_cons, ih2]
          simp only [List.mem_cons, exists_eq_or_imp]
          simp only [List.not_mem_nil, or_false]

/-- Some entry of the groups covers the event. -/
def Cov (gs : List (Str × List Str)) (e : Str) (T : List Str) : Prop :=
  ∃ eg ∈ gs, eg.1 = e ∧ ∃ p ∈ eg.2, (split ':' p).tail <+: T

def verdictOf (terminal : Bool) : Verdict := if terminal then .allow else .reject

theorem run_terminal (env : Env) (e : Str) (args : List Arg) (terminal : Bool) :
    (terminalHandler terminal).run env e args = verdictOf terminal := by
  cases terminal <;> rfl

theorem installGroup_other {terminal : Bool} {special : Table} {eg : Str × List Str} {e : Str} (h : eg.1 ≠ e) :
    installGroup terminal special eg e = special e := by
  unfold installGroup
  split <;> simp [Table.set, Ne.symm h]

open Classical in
theorem installGroup_same {terminal : Bool} {special : Table} {eg : Str × List Str}
    (heg : ∀ x ∈ eg.2, eventOf x = eg.1) :
    ∃ h, installGroup terminal special eg eg.1 = some h ∧ ∀ env args,
      h.run env eg.1 args = if Cov [eg] eg.1 (matchTokens env eg.1 args) then verdictOf terminal
        else ((special eg.1).getD (opposite terminal)).run env eg.1 args := by
  unfold installGroup
  split
  · rename_i hb
    refine ⟨terminalHandler terminal, by simp [Table.set], fun env args => ?_⟩
    rw [run_terminal, if_pos]
    rw [List.any_eq_true] at hb
    obtain ⟨g, hg, he⟩ := hb
    rw [beq_iff_eq] at he
    refine ⟨eg, by simp, rfl, g, hg, ?_⟩
    rw [(bare_iff g).mpr ((heg g hg).trans he)]
    exact List.nil_prefix
  · rename_i hb
    refine ⟨_, if_pos rfl, fun env args => ?_⟩
    have hiff : (buildTrie (eg.2.map fun a => (split ':' a).tail)).walk (matchTokens env eg.1 args) = true ↔
        Cov [eg] eg.1 (matchTokens env eg.1 args) := by
      rw [walk_iff]
      constructor
      · rintro ⟨p, _, h2, h3⟩
        rw [has_build, List.mem_map] at h3
        obtain ⟨a, ha, rfl⟩ := h3
        exact ⟨eg, by simp, rfl, a, ha, h2⟩
      · rintro ⟨eg', h1, _, a, ha, hp⟩
        rw [List.mem_singleton] at h1
        subst h1
        refine ⟨_, ?_, hp, ?_⟩
        · intro hn
          apply hb
          rw [List.any_eq_true]
          exact ⟨a, ha, by rw [beq_iff_eq, ← heg a ha]; exact (bare_iff a).mp hn⟩
        · rw [has_build, List.mem_map]
          exact ⟨a, ha, rfl⟩
    rw [Handler.run]
    by_cases hw : Cov [eg] eg.1 (matchTokens env eg.1 args)
    · rw [if_pos (hiff.mpr hw), if_pos hw, run_terminal]
    · rw [if_neg (fun h => hw (hiff.mp h)), if_neg hw]

open Classical in
theorem fold_spec (terminal : Bool) (gs : List (Str × List Str))
    (hgs : ∀ eg ∈ gs, ∀ x ∈ eg.2, eventOf x = eg.1) (special : Table) (e : Str) :
    ((¬ ∃ eg ∈ gs, eg.1 = e) → gs.foldl (installGroup terminal) special e = special e) ∧
    ((∃ eg ∈ gs, eg.1 = e) → ∃ h, gs.foldl (installGroup terminal) special e = some h ∧ ∀ env args,
      h.run env e args = if Cov gs e (matchTokens env e args) then verdictOf terminal
        else ((special e).getD (opposite terminal)).run env e args) := by
  induction gs generalizing special with
  | nil => simp
  | cons eg gs ih =>
    have ih := ih (fun eg' h => hgs eg' (by simp [h])) (installGroup terminal special eg)
    rw [List.foldl_cons]
    by_cases he : eg.1 = e
    · refine ⟨fun h => absurd ⟨eg, by simp, he⟩ h, fun _ => ?_⟩
      obtain ⟨h1, hh1, hr1⟩ := installGroup_same (terminal := terminal) (special := special) (hgs eg (by simp))
      subst he
      by_cases hm : ∃ eg' ∈ gs, eg'.1 = eg.1
      · obtain ⟨h, hh, hr⟩ := ih.2 hm
        refine ⟨h, hh, fun env args => ?_⟩
        rw [hr, hh1, Option.getD_some, hr1]
        by_cases c1 : Cov gs eg.1 (matchTokens env eg.1 args)
        · rw [if_pos c1, if_pos]
          obtain ⟨x, hx, hy⟩ := c1
          exact ⟨x, by simp [hx], hy⟩
        · rw [if_neg c1]
          by_cases c2 : Cov [eg] eg.1 (matchTokens env eg.1 args)
          · rw [if_pos c2, if_pos]
            obtain ⟨x, hx, hy⟩ := c2
            rw [List.mem_singleton] at hx
            exact ⟨x, by simp [hx], hy⟩
          · rw [if_neg c2, if_neg]
            rintro ⟨x, hx, hy⟩
            rcases List.mem_cons.mp hx with rfl | hx
            · exact c2 ⟨x, by simp, hy⟩
            · exact c1 ⟨x, hx, hy⟩
      · refine ⟨h1, by rw [ih.1 hm, hh1], fun env args => ?_⟩
        rw [hr1]
        have : Cov [eg] eg.1 (matchTokens env eg.1 args) ↔ Cov (eg :: gs) eg.1 (matchTokens env eg.1 args) := by
          constructor
          · rintro ⟨x, hx, hy⟩
            rw [List.mem_singleton] at hx
            exact ⟨x, by simp [hx], hy⟩
          · rintro ⟨x, hx, hy⟩
            rcases List.mem_cons.mp hx with rfl | hx
            · exact ⟨x, by simp, hy⟩
            · exact absurd ⟨x, hx, hy.1⟩ hm
        simp only [this]
    · have hsame := installGroup_other (terminal := terminal) (special := special) he
      rw [hsame] at ih
      refine ⟨fun h => ih.1 (fun ⟨x, hx, hy⟩ => h ⟨x, by simp [hx], hy⟩), ?_⟩
      rintro ⟨x, hx, hy⟩
      rcases List.mem_cons.mp hx with rfl | hx
      · exact absurd hy he
      · obtain ⟨h, hh, hr⟩ := ih.2 ⟨x, hx, hy⟩
        refine ⟨h, hh, fun env args => ?_⟩
        rw [hr]
        have : Cov gs e (matchTokens env e args) ↔ Cov (eg :: gs) e (matchTokens env e args) := by
          constructor
          · rintro ⟨x, hx, hy⟩
            exact ⟨x, by simp [hx], hy⟩
          · rintro ⟨x, hx, hy⟩
            rcases List.mem_cons.mp hx with rfl | hx
            · exact absurd hy.1 he
            · exact ⟨x, hx, hy⟩
        simp only [this]

theorem cov_iff (rules : List Str) (e : Str) (T : List Str) : Cov (groups (sorted rules)) e T ↔ Covered rules e T := by
  obtain ⟨g1, g2⟩ := groups_spec (sorted rules)
  constructor
  · rintro ⟨eg, h1, h2, p, h3, h4⟩
    refine ⟨ruleOf p, ruleOf_wf p, ?_, ?_, h4⟩
    · rw [ruleOf_text, ← mem_sorted, g2]
      exact ⟨eg, h1, h3⟩
    · exact ((g1 eg h1).2 p h3).trans h2
  · rintro ⟨r, h1, h2, h3, h4⟩
    have h5 := ruleOf_unique h1
    obtain ⟨eg, he1, he2⟩ := (g2 r.text).mp ((mem_sorted _ _).mpr h2)
    refine ⟨eg, he1, ?_, r.text, he2, ?_⟩
    · rw [← (g1 eg he1).2 _ he2, ← h3]
      exact congrArg Rule.event h5
    · rw [show (split ':' r.text).tail = r.tokens from congrArg Rule.tokens h5]
      exact h4

theorem ment_iff (rules : List Str) (e : Str) : (∃ eg ∈ groups (sorted rules), eg.1 = e) ↔ Mentioned rules e := by
  obtain ⟨g1, g2⟩ := groups_spec (sorted rules)
  constructor
  · rintro ⟨eg, h1, h2⟩
    obtain ⟨hne, hev⟩ := g1 eg h1
    obtain ⟨p, hp⟩ := List.exists_mem_of_ne_nil _ hne
    refine ⟨ruleOf p, ruleOf_wf p, ?_, (hev p hp).trans h2⟩
    rw [ruleOf_text, ← mem_sorted, g2]
    exact ⟨eg, h1, hp⟩
  · rintro ⟨r, h1, h2, h3⟩
    have h5 := ruleOf_unique h1
    obtain ⟨eg, he1, he2⟩ := (g2 r.text).mp ((mem_sorted _ _).mpr h2)
    refine ⟨eg, he1, ?_⟩
    rw [← (g1 eg he1).2 _ he2, ← h3]
    exact congrArg Rule.event h5

theorem covered_mentioned {rules : List Str} {e : Str} {T : List Str} (h : Covered rules e T) : Mentioned rules e := by
  obtain ⟨r, h1, h2, h3, _⟩ := h
  exact ⟨r, h1, h2, h3⟩

theorem update_spec (special : Table) (rules : List Str) (terminal : Bool) (e : Str) :
    (¬ Mentioned rules e → updateSpecial special rules terminal e = special e) ∧
    (∀ env args, Covered rules e (matchTokens env e args) →
      (makeHandler (updateSpecial special rules terminal) e).run env e args = verdictOf terminal) ∧
    (∀ env args, Mentioned rules e → ¬ Covered rules e (matchTokens env e args) →
      (makeHandler (updateSpecial special rules terminal) e).run env e args =
        ((special e).getD (opposite terminal)).run env e args) := by
  obtain ⟨f1, f2⟩ := fold_spec terminal (groups (sorted rules))
    (fun eg h => ((groups_spec (sorted rules)).1 eg h).2) special e
  refine ⟨fun h => f1 (fun hm => h ((ment_iff _ _).mp hm)), fun env args hc => ?_, fun env args hm hc => ?_⟩
  · obtain ⟨h, hh, hr⟩ := f2 ((ment_iff _ _).mpr (covered_mentioned hc))
    unfold makeHandler updateSpecial
    rw [hh]
    simp only
    rw [hr, if_pos ((cov_iff _ _ _).mpr hc)]
  · obtain ⟨h, hh, hr⟩ := f2 ((ment_iff _ _).mpr hm)
    unfold makeHandler updateSpecial
    rw [hh]
    simp only
    rw [hr, if_neg (fun h' => hc ((cov_iff _ _ _).mp h'))]

/-! ### Flags -/

theorem flags_iff (flags : Nat) : flags &&& blockedOpenFlags ≠ 0 ↔ WriteFlags flags := by
  unfold WriteFlags
  have hm : blockedOpenFlags = 1731 := by decide
  rw [hm]
  constructor
  · intro h
    obtain ⟨i, hi⟩ := Nat.exists_testBit_of_ne_zero h
    rw [Nat.testBit_and, Bool.and_eq_true] at hi
    obtain ⟨h1, h2⟩ := hi
    have hlt : i < 11 := by
      by_contra hc
      have : 1731 < 2 ^ i := lt_of_lt_of_le (show 1731 < 2 ^ 11 by decide) (Nat.pow_le_pow_right (by decide) (by omega))
      rw [Nat.testBit_lt_two_pow this] at h2
      simp at h2
    interval_cases i <;> simp_all (config := { decide := true })
  · intro h hz
    have key : ∀ i, (flags &&& 1731).testBit i = false := by rw [hz]; simp
    have k0 := key 0
    have k1 := key 1
    have k6 := key 6
    have k7 := key 7
    have k9 := key 9
    have k10 := key 10
    rw [Nat.testBit_and] at k0 k1 k6 k7 k9 k10
    have b0 : Nat.testBit 1731 0 = true := by decide
    have b1 : Nat.testBit 1731 1 = true := by decide
    have b6 : Nat.testBit 1731 6 = true := by decide
    have b7 : Nat.testBit 1731 7 = true := by decide
    have b9 : Nat.testBit 1731 9 = true := by decide
    have b10 : Nat.testBit 1731 10 = true := by decide
    rw [b0, Bool.and_true] at k0
    rw [b1, Bool.and_true] at k1
    rw [b6, Bool.and_true] at k6
    rw [b7, Bool.and_true] at k7
    rw [b9, Bool.and_true] at k9
    rw [b10, Bool.and_true] at k10
    rcases h with h | h | h | h | h | h <;> simp_all

end Verif.Wall
