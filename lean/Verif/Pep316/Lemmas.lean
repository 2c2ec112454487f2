import Mathlib.Tactic.Linarith
import Verif.Doc.Lemmas
import Verif.Pep316.Spec
/-
Helper lemmas: splitting, and the search for declarations of exceptions.
-/
namespace Verif.Pep316

open Verif.Doc (Text Sect Complaint Trimmed)

theorem splitAt_ne_nil (c : Char) (t : Text) : splitAt c t ≠ [] := by
  cases t with
  | nil => simp [splitAt]
  | cons x xs =>
    unfold splitAt
    split
    · simp
    · split <;> simp

theorem splitAt_items (c : Char) (t : Text) : Items c t (splitAt c t) := by
  refine ⟨splitAt_ne_nil c t, ?_, ?_⟩
  · induction t with
    | nil => simp [splitAt]
    | cons x xs ih =>
      unfold splitAt
      split
      · intro i hi
        rcases List.mem_cons.mp hi with rfl | hi
        · simp
        · exact ih i hi
      · rename_i hx
        split
        · intro i hi
          rw [List.mem_singleton] at hi
          subst hi
          simpa using fun h => hx h.symm
        · rename_i h t heq
          rw [heq] at ih
          intro i hi
          rcases List.mem_cons.mp hi with rfl | hi
          · intro hc
            rcases List.mem_cons.mp hc with hc | hc
            · exact hx hc.symm
            · exact ih h List.mem_cons_self hc
          · exact ih i (List.mem_cons_of_mem _ hi)
  · induction t with
    | nil => simp [splitAt]
    | cons x xs ih =>
      unfold splitAt
      split
      · rename_i hx
        subst hx
        cases hs : splitAt x xs with
        | nil => exact absurd hs (splitAt_ne_nil x xs)
        | cons h t =>
          rw [hs] at ih
          rw [ih]
          cases t <;> simp [List.intercalate]
      · split
        · rename_i heq
          exact absurd heq (splitAt_ne_nil c xs)
        · rename_i h t heq
          rw [heq] at ih
          rw [ih]
          cases t <;> simp [List.intercalate]

theorem intercalate_cons_cons (c : Char) (a b : Text) (l : List Text) :
    [c].intercalate (a :: b :: l) = a ++ c :: [c].intercalate (b :: l) := by
  simp [List.intercalate]

theorem splitAt_append (c : Char) (a t : Text) (h : c ∉ a) :
    splitAt c (a ++ c :: t) = a :: splitAt c t := by
  induction a with
  | nil => simp [splitAt]
  | cons x a ih =>
    have hx : x ≠ c := fun e => h (e ▸ List.mem_cons_self)
    simp only [List.cons_append, splitAt, if_neg hx, ih (fun e => h (List.mem_cons_of_mem _ e))]

theorem splitAt_single (c : Char) (a : Text) (h : c ∉ a) : splitAt c a = [a] := by
  induction a with
  | nil => rfl
  | cons x a ih =>
    have hx : x ≠ c := fun e => h (e ▸ List.mem_cons_self)
    simp only [splitAt, if_neg hx, ih (fun e => h (List.mem_cons_of_mem _ e))]

theorem items_iff {c : Char} {t : Text} {items : List Text} : Items c t items ↔ splitAt c t = items := by
  constructor
  · rintro ⟨hne, hc, rfl⟩
    induction items with
    | nil => exact absurd rfl hne
    | cons a l ih =>
      cases l with
      | nil =>
        have : [c].intercalate [a] = a := by simp [List.intercalate]
        rw [this]
        exact splitAt_single c a (hc a List.mem_cons_self)
      | cons b l =>
        rw [intercalate_cons_cons, splitAt_append c a _ (hc a List.mem_cons_self),
          ih (by simp) (fun i hi => hc i (List.mem_cons_of_mem _ hi))]
  · rintro rfl
    exact splitAt_items c t

theorem splitAt_head (c : Char) (t : Text) : (splitAt c t).headD [] = t.takeWhile (fun x => x ≠ c) := by
  induction t with
  | nil => rfl
  | cons x xs ih =>
    unfold splitAt
    split
    · rename_i h
      subst h
      simp
    · rename_i h
      rw [List.takeWhile_cons]
      rw [if_pos (by simpa using h), ← ih]
      split
      · rename_i heq
        exact absurd heq (splitAt_ne_nil c xs)
      · rename_i heq
        rw [heq]; rfl

theorem item_infix {c : Char} {items : List Text} {e : Text} (h : e ∈ items) :
    ∃ x y, [c].intercalate items = x ++ e ++ y := by
  induction items with
  | nil => cases h
  | cons a l ih =>
    cases l with
    | nil =>
      rw [List.mem_singleton] at h
      subst h
      exact ⟨[], [], by simp [List.intercalate]⟩
    | cons b l =>
      rw [intercalate_cons_cons]
      rcases List.mem_cons.mp h with rfl | h
      · exact ⟨[], c :: [c].intercalate (b :: l), by simp⟩
      · obtain ⟨x, y, hxy⟩ := ih h
        exact ⟨a ++ c :: x, y, by rw [hxy]; simp⟩

/-- What is used about the character classes. -/
structure Classes (sp word : Char → Bool) : Prop where
  colon : sp ':' = false ∧ word ':' = false
  r : sp 'r' = false
  dot : sp '.' = false
  newline : sp '\n' = true ∧ word '\n' = false
  apart : ∀ c, word c = true → sp c = false

variable {sp word : Char → Bool}

theorem lstrip_append {a t : Text} (h : ∀ c ∈ a, sp c = true) : (a ++ t).dropWhile sp = t.dropWhile sp :=
  Doc.dropWhile_all t h

theorem raisesAt_space {a t : Text} (h : ∀ c ∈ a, sp c = true) :
    raisesAt sp word (a ++ t) = raisesAt sp word t := by
  unfold raisesAt
  rw [lstrip_append h]

theorem raisesKw_iff {t r : Text} : raisesKw t = some r ↔ t = "raises".toList ++ r := by
  constructor
  · intro h
    unfold raisesKw at h
    split at h
    · cases h; rfl
    · cases h
  · rintro rfl; rfl

theorem dropWhile_le (p : Char → Bool) (t : Text) : (t.dropWhile p).length ≤ t.length :=
  (List.dropWhile_sublist p).length_le

theorem altSphinx_length {t rest : Text} {names : List Text} (h : altSphinx sp word t = some (names, rest)) :
    rest.length < t.length := by
  unfold altSphinx at h
  split at h
  · rename_i t'
    split at h
    · rename_i r hr
      rw [raisesKw_iff] at hr
      split at h
      · cases h
      · split at h
        · cases h
        · split at h
          · rename_i rest' heq
            cases h
            have h1 := dropWhile_le (nameChar word) (r.dropWhile sp)
            have h2 := dropWhile_le sp r
            rw [heq] at h1
            subst hr
            simp at h1 ⊢
            omega
          · cases h
    · cases h
  · cases h

theorem optColon_le (t : Text) : (Doc.optColon t).length ≤ t.length := by
  rcases Doc.optColon_cases t with ⟨r, rfl, h⟩ | ⟨_, h⟩ <;> simp [h]

theorem altPep_length {t rest : Text} {names : List Text} (h : altPep sp t = some (names, rest)) :
    rest.length < t.length := by
  unfold altPep at h
  split at h
  · rename_i r hr
    rw [raisesKw_iff] at hr
    split at h
    · rename_i b heq
      split at h
      · cases h
      · cases h
        have h0 := optColon_le t
        have h1 := dropWhile_le bodyChar b
        have h2 := dropWhile_le sp r
        rw [heq] at h2
        rw [hr] at h0
        simp at h0 h2
        omega
    · cases h
  · cases h

theorem raisesAt_length {t rest : Text} {names : List Text} (h : raisesAt sp word t = some (names, rest)) :
    rest.length < t.length := by
  have h0 := dropWhile_le sp t
  unfold raisesAt at h
  split at h
  · rename_i m hm
    cases h
    have := altSphinx_length hm
    omega
  · have := altPep_length h
    omega

/-- What follows a line: nothing, or a line break. -/
def Tail (tl : Text) : Prop := tl = [] ∨ ∃ r, tl = '\n' :: r

theorem takeWhile_tail {p : Char → Bool} (hp : p '\n' = false) {v tl : Text} (ht : Tail tl) :
    (v ++ tl).takeWhile p = v.takeWhile p ∧ (v ++ tl).dropWhile p = v.dropWhile p ++ tl := by
  induction v with
  | nil =>
    rcases ht with rfl | ⟨r, rfl⟩
    · simp
    · simp [hp]
  | cons c v ih =>
    by_cases hc : p c = true
    · simp only [List.cons_append, List.takeWhile_cons, List.dropWhile_cons, hc, if_true]
      exact ⟨by rw [ih.1], ih.2⟩
    · simp [hc]

theorem dropWhile_not_all {p : Char → Bool} {v tl : Text} (h : ¬ ∀ c ∈ v, p c = true) :
    (v ++ tl).takeWhile p = v.takeWhile p ∧ (v ++ tl).dropWhile p = v.dropWhile p ++ tl ∧
      v.dropWhile p ≠ [] := by
  induction v with
  | nil => simp at h
  | cons c v ih =>
    by_cases hc : p c = true
    · have := ih (fun ha => h (fun x hx => by
        rcases List.mem_cons.mp hx with rfl | hx
        · exact hc
        · exact ha x hx))
      simp only [List.cons_append, List.takeWhile_cons, List.dropWhile_cons, hc, if_true]
      exact ⟨by rw [this.1], this.2⟩
    · simp [hc]

theorem dropWhile_cons_head (hw : Classes sp word) (t : Text) :
    (':' :: t).dropWhile sp = ':' :: t ∧ ('r' :: t).dropWhile sp = 'r' :: t := by
  constructor <;> simp [hw.colon.1, hw.r]

theorem nameChar_iff {c : Char} : nameChar word c = true ↔ word c = true ∨ c = '.' := by
  simp [nameChar]

theorem bodyChar_iff {c : Char} : bodyChar c = true ↔ c ≠ '\r' ∧ c ≠ '\n' ∧ c ≠ '#' := by
  simp [bodyChar, and_assoc]

/-- A declaration on a line is found there. -/
theorem declared_found (hw : Classes sp word) {l tl : Text} {items : List Text} (hl : '\n' ∉ l)
    (ht : Tail tl) (h : Declares sp word l items) :
    ∃ r, raisesAt sp word (l ++ tl) = some (items, r ++ tl) := by
  cases h with
  | @sphinx ws ws1 name rest hws hne1 hws1 hne hname =>
    refine ⟨rest, ?_⟩
    have hhead : ∀ c, (name ++ ':' :: (rest ++ tl)).head? = some c → sp c = false := by
      intro c hc
      cases name with
      | nil => exact absurd rfl hne
      | cons a name =>
        simp at hc
        subst hc
        rcases hname a List.mem_cons_self with h | h
        · exact hw.apart _ h
        · subst h; exact hw.dot
    have e1 : (ws1 ++ (name ++ ':' :: (rest ++ tl))).takeWhile sp = ws1 := Doc.takeWhile_all_head hws1 hhead
    have e2 : (ws1 ++ (name ++ ':' :: (rest ++ tl))).dropWhile sp = name ++ ':' :: (rest ++ tl) := by
      rw [lstrip_append hws1, Doc.dropWhile_head hhead]
    have hcol : ∀ c, (':' :: (rest ++ tl)).head? = some c → nameChar word c = false := by
      intro c hc
      simp at hc
      subst hc
      simp [nameChar, hw.colon.2]
    have hnm : ∀ c ∈ name, nameChar word c = true := fun c hc => nameChar_iff.mpr (hname c hc)
    have e3 : (name ++ ':' :: (rest ++ tl)).takeWhile (nameChar word) = name :=
      Doc.takeWhile_all_head hnm hcol
    have e4 : (name ++ ':' :: (rest ++ tl)).dropWhile (nameChar word) = ':' :: (rest ++ tl) := by
      rw [Doc.dropWhile_all _ hnm, Doc.dropWhile_head hcol]
    have e0 : ws ++ (":raises".toList ++ (ws1 ++ (name ++ ':' :: rest))) ++ tl =
        ws ++ (':' :: ("raises".toList ++ (ws1 ++ (name ++ ':' :: (rest ++ tl))))) := by simp
    rw [e0]
    unfold raisesAt
    rw [lstrip_append hws, (dropWhile_cons_head hw _).1]
    have : altSphinx sp word (':' :: ("raises".toList ++ (ws1 ++ (name ++ ':' :: (rest ++ tl))))) =
        some ([name], rest ++ tl) := by
      unfold altSphinx
      simp only [raisesKw_iff.mpr rfl, e1, e2, e3, e4]
      cases ws1 with
      | nil => exact absurd rfl hne1
      | cons _ _ =>
        cases name with
        | nil => exact absurd rfl hne
        | cons _ _ => rfl
    rw [this]
  | @pep ws lead ws1 body tail items hws hlead hws1 hne hbody htail hitems =>
    refine ⟨tail, ?_⟩
    have hhead : ∀ c, (':' :: (body ++ (tail ++ tl))).head? = some c → sp c = false := by
      intro c hc
      simp at hc
      subst hc
      exact hw.colon.1
    have e1 : (ws1 ++ ':' :: (body ++ (tail ++ tl))).takeWhile sp = ws1 := Doc.takeWhile_all_head hws1 hhead
    have e2 : (ws1 ++ ':' :: (body ++ (tail ++ tl))).dropWhile sp = ':' :: (body ++ (tail ++ tl)) := by
      rw [lstrip_append hws1, Doc.dropWhile_head hhead]
    have hb : ∀ c ∈ body, bodyChar c = true := by
      intro c hc
      refine bodyChar_iff.mpr ⟨(hbody c hc).1, ?_, (hbody c hc).2⟩
      rintro rfl
      apply hl
      simp [hc]
    have hend : ∀ c, (tail ++ tl).head? = some c → bodyChar c = false := by
      intro c hc
      rcases htail with rfl | h | h
      · rcases ht with rfl | ⟨r, rfl⟩
        · simp at hc
        · simp at hc; subst hc; rfl
      · cases tail with
        | nil => simp at h
        | cons a t => simp at h hc; subst hc; subst h; rfl
      · cases tail with
        | nil => simp at h
        | cons a t => simp at h hc; subst hc; subst h; rfl
    have e3 : (body ++ (tail ++ tl)).takeWhile bodyChar = body := Doc.takeWhile_all_head hb hend
    have e4 : (body ++ (tail ++ tl)).dropWhile bodyChar = tail ++ tl := by
      rw [Doc.dropWhile_all _ hb, Doc.dropWhile_head hend]
    have e0 : ws ++ (lead ++ ("raises".toList ++ (ws1 ++ ':' :: (body ++ tail)))) ++ tl =
        ws ++ (lead ++ ("raises".toList ++ (ws1 ++ ':' :: (body ++ (tail ++ tl))))) := by simp
    rw [e0]
    have hdrop : (ws ++ (lead ++ ("raises".toList ++ (ws1 ++ ':' :: (body ++ (tail ++ tl)))))).dropWhile sp =
        lead ++ ("raises".toList ++ (ws1 ++ ':' :: (body ++ (tail ++ tl)))) := by
      rw [lstrip_append hws]
      rcases hlead with rfl | rfl
      · exact (dropWhile_cons_head hw _).2
      · exact (dropWhile_cons_head hw _).1
    have hopt : Doc.optColon (lead ++ ("raises".toList ++ (ws1 ++ ':' :: (body ++ (tail ++ tl))))) =
        "raises".toList ++ (ws1 ++ ':' :: (body ++ (tail ++ tl))) := by
      rcases hlead with rfl | rfl <;> rfl
    have hA : altSphinx sp word (lead ++ ("raises".toList ++ (ws1 ++ ':' :: (body ++ (tail ++ tl))))) = none := by
      rcases hlead with rfl | rfl
      · rfl
      · unfold altSphinx
        have hk : raisesKw ("raises".toList ++ (ws1 ++ ':' :: (body ++ (tail ++ tl)))) =
          some (ws1 ++ ':' :: (body ++ (tail ++ tl))) := raisesKw_iff.mpr rfl
        simp only [List.cons_append, List.nil_append, hk, e1, e2]
        have : (':' :: (body ++ (tail ++ tl))).takeWhile (nameChar word) = [] := by
          simp [nameChar, hw.colon.2]
        rw [this]
        split <;> rfl
    unfold raisesAt
    rw [hdrop, hA]
    unfold altPep
    rw [hopt, raisesKw_iff.mpr rfl]
    simp only [e2, e3, e4, items_iff.mp hitems]
    cases body with
    | nil => exact absurd rfl hne
    | cons _ _ => rfl

theorem prefix_line {k u tl r : Text} (hk : '\n' ∉ k) (ht : Tail tl) (h : u ++ tl = k ++ r) :
    ∃ r', u = k ++ r' ∧ r = r' ++ tl := by
  induction k generalizing u with
  | nil => exact ⟨u, rfl, h.symm⟩
  | cons c k ih =>
    cases u with
    | nil =>
      rcases ht with rfl | ⟨x, rfl⟩
      · simp at h
      · simp at h
        exact absurd (h.1 ▸ List.mem_cons_self) hk
    | cons d u =>
      simp at h
      obtain ⟨r', hu, hr⟩ := ih (fun hc => hk (List.mem_cons_of_mem _ hc)) h.2
      exact ⟨r', by rw [hu, h.1]; rfl, hr⟩

theorem trimmed_word {ws k b : Text} (hws : ∀ c ∈ ws, sp c = true) (hb : ∀ c ∈ b, sp c = true)
    (h1 : ∀ c, k.head? = some c → sp c = false) (h2 : ∀ c, k.getLast? = some c → sp c = false) :
    Trimmed sp (ws ++ (k ++ b)) k := ⟨ws, b, by simp, hws, hb, h1, h2⟩

/-- What is found on a line is declared there. -/
theorem found_declared (hw : Classes sp word) (hs : sp 's' = false) {l tl rest : Text} {items : List Text}
    (hl : '\n' ∉ l) (ht : Tail tl) (hblank : ¬ Doc.Blank sp l) (hbare : ¬ Bare sp l)
    (h : raisesAt sp word (l ++ tl) = some (items, rest)) :
    Declares sp word l items ∧ ∃ r, rest = r ++ tl := by
  obtain ⟨-, hdrop, hne⟩ := dropWhile_not_all (p := sp) (v := l) (tl := tl) hblank
  have hsplit : l = l.takeWhile sp ++ l.dropWhile sp := List.takeWhile_append_dropWhile.symm
  have hws := Doc.mem_takeWhile_true sp l
  have hlu : '\n' ∉ l.dropWhile sp := fun hc => hl (by rw [hsplit]; exact List.mem_append_right _ hc)
  unfold raisesAt at h
  rw [hdrop] at h
  generalize hu : l.dropWhile sp = u at *
  generalize l.takeWhile sp = ws at *
  have hbare' : ∀ k v, (k = "raises".toList ∨ k = ":raises".toList) → u = k ++ v → ¬ ∀ c ∈ v, sp c = true := by
    intro k v hk huv hv
    apply hbare
    rw [hsplit, huv]
    rcases hk with rfl | rfl
    · refine Or.inl (trimmed_word hws hv ?_ ?_) <;> intro c hc <;> cases hc
      · exact hw.r
      · exact hs
    · refine Or.inr (trimmed_word hws hv ?_ ?_) <;> intro c hc <;> cases hc
      · exact hw.colon.1
      · exact hs
  split at h
  · rename_i m hm
    cases h
    unfold altSphinx at hm
    split at hm
    · rename_i t' ht'
      split at hm
      · rename_i r hr
        rw [raisesKw_iff] at hr
        have e : u ++ tl = ":raises".toList ++ r := by rw [ht', hr]; rfl
        obtain ⟨r', hur, rfl⟩ := prefix_line (by decide) ht e
        obtain ⟨e1, e2, hne'⟩ := dropWhile_not_all (p := sp) (v := r') (tl := tl)
          (hbare' _ r' (Or.inr rfl) hur)
        have hsplit' : r' = r'.takeWhile sp ++ r'.dropWhile sp := List.takeWhile_append_dropWhile.symm
        have hws1 := Doc.mem_takeWhile_true sp r'
        rw [e1, e2] at hm
        generalize r'.dropWhile sp = v at *
        generalize r'.takeWhile sp = ws1 at *
        obtain ⟨e3, e4⟩ := takeWhile_tail (p := nameChar word) (v := v)
          (by simp [nameChar, hw.newline.2]) ht
        have hsplit2 : v = v.takeWhile (nameChar word) ++ v.dropWhile (nameChar word) :=
          List.takeWhile_append_dropWhile.symm
        have hname := Doc.mem_takeWhile_true (nameChar word) v
        rw [e3, e4] at hm
        generalize v.dropWhile (nameChar word) = y at *
        generalize v.takeWhile (nameChar word) = name at *
        split at hm
        · cases hm
        · rename_i hws1ne
          split at hm
          · cases hm
          · rename_i hnamene
            split at hm
            · rename_i rest' hrest
              cases hm
              obtain ⟨y', hy, rfl⟩ := prefix_line (k := [':']) (by decide) ht hrest
              refine ⟨?_, y', rfl⟩
              rw [hsplit, hur, hsplit', hsplit2, hy]
              exact .sphinx hws (fun e => hws1ne (by rw [e]; rfl)) hws1
                (fun e => hnamene (by rw [e]; rfl)) (fun c hc => nameChar_iff.mp (hname c hc))
            · cases hm
      · cases hm
    · cases hm
  · unfold altPep at h
    split at h
    · rename_i r hr
      rw [raisesKw_iff] at hr
      have hlead : ∃ lead, (lead = [] ∨ lead = [':']) ∧ u ++ tl = lead ++ "raises".toList ++ r := by
        rcases Doc.optColon_cases (u ++ tl) with ⟨x, hx, ho⟩ | ⟨_, ho⟩
        · exact ⟨[':'], Or.inr rfl, by rw [hx, ← ho, hr]; rfl⟩
        · exact ⟨[], Or.inl rfl, by rw [← ho, hr]; rfl⟩
      obtain ⟨lead, hlead, e⟩ := hlead
      obtain ⟨r', hur, rfl⟩ := prefix_line (by rcases hlead with rfl | rfl <;> decide) ht e
      obtain ⟨e1, e2, hne'⟩ := dropWhile_not_all (p := sp) (v := r') (tl := tl)
        (hbare' _ r' (by rcases hlead with rfl | rfl; exact Or.inl rfl; exact Or.inr rfl) hur)
      have hsplit' : r' = r'.takeWhile sp ++ r'.dropWhile sp := List.takeWhile_append_dropWhile.symm
      have hws1 := Doc.mem_takeWhile_true sp r'
      rw [e2] at h
      generalize r'.dropWhile sp = v at *
      generalize r'.takeWhile sp = ws1 at *
      split at h
      · rename_i b hb
        obtain ⟨b', hv, rfl⟩ := prefix_line (k := [':']) (by decide) ht hb
        obtain ⟨e3, e4⟩ := takeWhile_tail (p := bodyChar) (v := b') (by rfl) ht
        have hsplit2 : b' = b'.takeWhile bodyChar ++ b'.dropWhile bodyChar :=
          List.takeWhile_append_dropWhile.symm
        have hbody := Doc.mem_takeWhile_true bodyChar b'
        have htl := Doc.head_dropWhile bodyChar b'
        rw [e3, e4] at h
        have hnl : '\n' ∉ b'.dropWhile bodyChar := by
          intro hc
          have hc' : '\n' ∈ b' := (List.dropWhile_sublist _).subset hc
          apply hlu
          rw [hur, hsplit', hv]
          simp [hc']
        generalize b'.dropWhile bodyChar = tail at *
        generalize b'.takeWhile bodyChar = body at *
        split at h
        · cases h
        · rename_i hbne
          cases h
          refine ⟨?_, tail, rfl⟩
          rw [hsplit, hur, hsplit', hv, hsplit2]
          have := Declares.pep (sp := sp) (word := word) (tail := tail) hws hlead hws1
            (fun e => hbne (by rw [e]; rfl))
            (fun c hc => ⟨(bodyChar_iff.mp (hbody c hc)).1, (bodyChar_iff.mp (hbody c hc)).2.2⟩) ?_
            (splitAt_items ',' body)
          · simpa using this
          · cases tail with
            | nil => exact Or.inl rfl
            | cons c tail =>
              have := htl c rfl
              simp [bodyChar] at this
              have hc : c ≠ '\n' := fun e => hnl (e ▸ List.mem_cons_self)
              by_cases h1 : c = '\r'
              · exact Or.inr (Or.inl (by rw [h1]; rfl))
              · exact Or.inr (Or.inr (by simp [this h1 hc]))
      · cases h
    · cases h

theorem first_ne {c : Char} {l : Text} (h : '\n' ∉ c :: l) : (c == '\n') = false := by
  simp only [beq_eq_false_iff_ne, ne_eq]
  rintro rfl
  exact h List.mem_cons_self

theorem scan_skip (b : Bool) (k : Nat) (x t : Text) (d : Char) :
    scan sp word b (x.length + 1 + k) (x ++ d :: t) = scan sp word (d == '\n') k t := by
  induction x generalizing b with
  | nil =>
    rw [show ([] : Text).length + 1 + k = k + 1 by simp; omega]
    rfl
  | cons c x ih =>
    rw [show (c :: x).length + 1 + k = (x.length + 1 + k) + 1 by simp; omega]
    exact ih _

/-- What `scan` does from the next line on. -/
def next (sp word : Char → Bool) : Text → List Text
  | [] => []
  | _ :: r => scan sp word true 0 r

theorem scan_line (k : Nat) (l tl : Text) (hl : '\n' ∉ l) (hk : k ≤ l.length) (ht : Tail tl) :
    scan sp word false k (l ++ tl) = next sp word tl := by
  induction l generalizing k with
  | nil =>
    have : k = 0 := by simpa using hk
    subst this
    rcases ht with rfl | ⟨r, rfl⟩ <;> simp [scan, next]
  | cons c l ih =>
    have hc : (c == '\n') = false := first_ne hl
    have hl' : '\n' ∉ l := fun e => hl (List.mem_cons_of_mem _ e)
    cases k with
    | zero => simpa [scan, hc] using ih 0 hl' (by omega)
    | succ k => simpa [scan, hc] using ih k hl' (by simpa using hk)

theorem scan_blank (l r : Text) (hl : '\n' ∉ l) (hn : sp '\n' = true) (hb : Doc.Blank sp l) :
    scan sp word true 0 (l ++ '\n' :: r) = scan sp word true 0 r := by
  have hsp : ∀ c ∈ l ++ ['\n'], sp c = true := by
    intro c hc
    rcases List.mem_append.mp hc with h | h
    · exact hb c h
    · rw [List.mem_singleton] at h; subst h; exact hn
  have he : raisesAt sp word (l ++ '\n' :: r) = raisesAt sp word r := by
    have := raisesAt_space (word := word) (t := r) hsp
    simpa using this
  have hend : ∀ c cs, l ++ '\n' :: r = c :: cs →
      scan sp word (c == '\n') 0 cs = scan sp word true 0 r := by
    intro c cs hcs
    cases l with
    | nil => cases hcs; rfl
    | cons d l =>
      obtain ⟨rfl, rfl⟩ := List.cons.inj hcs
      have hc : (d == '\n') = false := first_ne hl
      rw [hc]
      exact scan_line 0 l _ (fun e => hl (List.mem_cons_of_mem _ e)) (by omega) (Or.inr ⟨r, rfl⟩)
  cases hcs : l ++ '\n' :: r with
  | nil => simp at hcs
  | cons c cs =>
    rw [hcs] at he
    rw [scan, he]
    cases hr : raisesAt sp word r with
    | none => exact hend c cs hcs
    | some m =>
      obtain ⟨names, rest⟩ := m
      have hlen := raisesAt_length hr
      cases r with
      | nil => simp at hlen
      | cons d ds =>
        rw [scan, hr]
        simp only
        congr 1
        have hds : rest.length ≤ ds.length := by simp at hlen; omega
        cases l with
        | nil =>
          obtain ⟨rfl, rfl⟩ := List.cons.inj hcs
          have := scan_skip (sp := sp) (word := word) (('\n' : Char) == '\n') (ds.length - rest.length) [] ds d
          rw [← this]
          congr 1
          simp
          omega
        | cons c' l =>
          obtain ⟨rfl, rfl⟩ := List.cons.inj hcs
          have := scan_skip (sp := sp) (word := word) (c' == '\n') (ds.length - rest.length)
            (l ++ ['\n']) ds d
          rw [← this]
          have e : l ++ ['\n'] ++ d :: ds = l ++ '\n' :: d :: ds := by simp
          rw [e]
          congr 1
          simp
          omega

/-- A line that is neither blank nor the bare word contributes what it declares. -/
theorem scan_decl (hw : Classes sp word) (hs : sp 's' = false) (l tl : Text) (hl : '\n' ∉ l) (ht : Tail tl)
    (hblank : ¬ Doc.Blank sp l) (hbare : ¬ Bare sp l) :
    ∃ names, scan sp word true 0 (l ++ tl) = names ++ next sp word tl ∧
      (Declares sp word l names ∨ (names = [] ∧ ∀ items, ¬ Declares sp word l items)) := by
  cases l with
  | nil => exact absurd (fun c hc => by cases hc) hblank
  | cons c l =>
    have hc : (c == '\n') = false := first_ne hl
    have hl' : '\n' ∉ l := fun e => hl (List.mem_cons_of_mem _ e)
    cases hr : raisesAt sp word (c :: l ++ tl) with
    | none =>
      refine ⟨[], ?_, Or.inr ⟨rfl, ?_⟩⟩
      · rw [List.cons_append] at hr ⊢
        rw [scan, hr]
        simp only [hc, List.nil_append]
        exact scan_line 0 l tl hl' (by omega) ht
      · intro items hd
        obtain ⟨r, h⟩ := declared_found hw hl ht hd
        rw [hr] at h
        cases h
    | some m =>
      obtain ⟨names, rest⟩ := m
      obtain ⟨hd, r, rfl⟩ := found_declared hw hs hl ht hblank hbare hr
      refine ⟨names, ?_, Or.inl hd⟩
      have hlen := raisesAt_length hr
      rw [List.cons_append] at hr ⊢
      rw [scan, hr]
      simp only [hc]
      congr 1
      refine scan_line _ l tl hl' ?_ ht
      simp

theorem declares_not_blank (hw : Classes sp word) {l : Text} {items : List Text}
    (h : Declares sp word l items) : ¬ Doc.Blank sp l := by
  intro hb
  have : sp ':' = true := by
    apply hb
    cases h <;> simp
  rw [hw.colon.1] at this
  cases this

/-- The names found in the lines of a docstring. -/
theorem scan_lines (hw : Classes sp word) (hs : sp 's' = false) (ls : List Text)
    (hl : ∀ l ∈ ls, '\n' ∉ l) (hb : ∀ l ∈ ls, ¬ Bare sp l) (n : Text) :
    n ∈ scan sp word true 0 (['\n'].intercalate ls) ↔
      ∃ l ∈ ls, ∃ items, Declares sp word l items ∧ n ∈ items := by
  induction ls with
  | nil => simp [List.intercalate, scan]
  | cons l ls ih =>
    have hl1 := hl l List.mem_cons_self
    have hb1 := hb l List.mem_cons_self
    have ih := ih (fun x hx => hl x (List.mem_cons_of_mem _ hx)) (fun x hx => hb x (List.mem_cons_of_mem _ hx))
    have huniq : ∀ items items', Declares sp word l items → Declares sp word l items' → items = items' := by
      intro i i' h h'
      obtain ⟨_, h1⟩ := declared_found (tl := []) hw hl1 (Or.inl rfl) h
      obtain ⟨_, h2⟩ := declared_found (tl := []) hw hl1 (Or.inl rfl) h'
      rw [h1] at h2
      simp at h2
      exact h2.1
    have key : ∀ tl, Tail tl → ¬ Doc.Blank sp l →
        (n ∈ scan sp word true 0 (l ++ tl) ↔
          (∃ items, Declares sp word l items ∧ n ∈ items) ∨ n ∈ next sp word tl) := by
      intro tl ht hbl
      obtain ⟨names, he, hd⟩ := scan_decl hw hs l tl hl1 ht hbl hb1
      rw [he, List.mem_append]
      rcases hd with hd | ⟨rfl, hd⟩
      · refine or_congr ⟨fun h => ⟨names, hd, h⟩, ?_⟩ Iff.rfl
        rintro ⟨items, hi, h⟩
        rw [huniq names items hd hi]; exact h
      · refine or_congr ⟨fun h => absurd h List.not_mem_nil, ?_⟩ Iff.rfl
        rintro ⟨items, hi, h⟩
        exact absurd hi (hd items)
    cases ls with
    | nil =>
      have e : ['\n'].intercalate [l] = l := by simp [List.intercalate]
      rw [e]
      by_cases hbl : Doc.Blank sp l
      · have h0 : scan sp word true 0 l = [] := by
          cases l with
          | nil => rfl
          | cons c l =>
            have hr : raisesAt sp word (c :: l) = none := by
              have := raisesAt_space (word := word) (t := []) hbl
              rw [List.append_nil] at this
              rw [this]; rfl
            have hc : (c == '\n') = false := first_ne hl1
            rw [scan, hr]
            simp only [hc]
            have := scan_line (sp := sp) (word := word) 0 l [] (fun e => hl1 (List.mem_cons_of_mem _ e))
              (by omega) (Or.inl rfl)
            rw [List.append_nil] at this
            rw [this]; rfl
        rw [h0]
        constructor
        · intro h; cases h
        · rintro ⟨x, hx, items, hd, _⟩
          rw [List.mem_singleton] at hx
          subst hx
          exact absurd hbl (declares_not_blank hw hd)
      · have := key [] (Or.inl rfl) hbl
        rw [List.append_nil] at this
        rw [this]
        simp [next]
    | cons m ls =>
      rw [intercalate_cons_cons]
      by_cases hbl : Doc.Blank sp l
      · rw [scan_blank l _ hl1 hw.newline.1 hbl, ih]
        constructor
        · rintro ⟨x, hx, h⟩
          exact ⟨x, List.mem_cons_of_mem _ hx, h⟩
        · rintro ⟨x, hx, items, hd, hn⟩
          rcases List.mem_cons.mp hx with rfl | hx
          · exact absurd hbl (declares_not_blank hw hd)
          · exact ⟨x, hx, items, hd, hn⟩
      · rw [key _ (Or.inr ⟨_, rfl⟩) hbl, next, ih]
        constructor
        · rintro (h | ⟨x, hx, h⟩)
          · exact ⟨l, List.mem_cons_self, h⟩
          · exact ⟨x, List.mem_cons_of_mem _ hx, h⟩
        · rintro ⟨x, hx, h⟩
          rcases List.mem_cons.mp hx with rfl | hx
          · exact Or.inl h
          · exact Or.inr ⟨x, hx, h⟩

end Verif.Pep316
