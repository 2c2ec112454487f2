import Verif.Names.Spec

namespace Verif.Names

theorem walk_ok {w : World} : ∀ {parts : List String} {obj : Nat} {x : Found}, walk w obj parts = .ok x →
    ∃ ps p o d t, parts = ps ++ [p] ∧ Attrs w obj ps o ∧ w.dict o = some d ∧ d p = some t ∧ (w.isClass o ∨ w.isModule o) ∧
      x = if w.isClass t then .cls t else .function o p t
  | [], _, _, h => by cases h
  | [p], obj, x, h => by
    simp only [walk, walkLast] at h
    cases hd : w.dict obj with
    | none => rw [hd] at h; cases h
    | some d =>
      rw [hd] at h
      simp only at h
      cases ht : d p with
      | none => rw [ht] at h; cases h
      | some t =>
        rw [ht] at h
        simp only at h
        refine ⟨[], p, obj, d, t, rfl, .nil, hd, ht, ?_⟩
        split at h
        · rename_i hc
          refine ⟨by simpa using hc, ?_⟩
          split at h <;> cases h <;> simp_all
        · cases h
  | p :: q :: rest, obj, x, h => by
    rw [walk] at h
    split at h
    · cases h
    rename_i hp
    cases ha : w.attr obj p with
    | none => rw [ha] at h; cases h
    | some o' =>
      rw [ha] at h
      obtain ⟨ps, p', o, d, t, he, h1, h2⟩ := walk_ok h
      exact ⟨p :: ps, p', o, d, t, by rw [he]; rfl, .cons hp ha h1, h2⟩

theorem walk_of {w : World} {p : String} {o : Nat} {d : String → Option Nat} {t : Nat} : ∀ {ps : List String} {obj : Nat}, Attrs w obj ps o →
    w.dict o = some d → d p = some t → (w.isClass o ∨ w.isModule o) →
    walk w obj (ps ++ [p]) = .ok (if w.isClass t then .cls t else .function o p t)
  | [], obj, h, hd, ht, hc => by
    cases h
    simp only [List.nil_append, walk, walkLast, hd, ht]
    rw [if_pos (by simpa using hc)]
    split <;> rfl
  | p' :: ps, obj, h, hd, ht, hc => by
    cases h with
    | cons hp ha h =>
      have ih := walk_of h hd ht hc
      cases ps with
      | nil =>
        simp only [List.nil_append] at ih
        simp only [List.cons_append, List.nil_append, walk, if_neg hp, ha]
        exact ih
      | cons q ps =>
        simp only [List.cons_append] at ih
        simp only [List.cons_append, walk, if_neg hp, ha]
        exact ih

theorem try_ok {w : World} {parts : List String} : ∀ {i : Nat} {x : Found}, i ≤ parts.length → tryPrefixes w parts i = .ok x →
    ∃ k m, 0 < k ∧ k ≤ i ∧ w.find (parts.take k) = .found ∧ w.load (parts.take k) = some m ∧ (∀ j, k < j → j ≤ i → w.find (parts.take j) = .absent) ∧
      (if parts.drop k = [] then Res.ok (.module m) else walk w m (parts.drop k)) = .ok x
  | 0, _, _, h => by cases h
  | i + 1, x, hi, h => by
    rw [tryPrefixes] at h
    cases hf : w.find (parts.take (i + 1)) with
    | raises => rw [hf] at h; cases h
    | absent =>
      rw [hf] at h
      simp only at h
      split at h
      · cases h
      · obtain ⟨k, m, h1, h2, h3, h4, h5, h6⟩ := try_ok (by omega) h
        refine ⟨k, m, h1, by omega, h3, h4, ?_, h6⟩
        intro j hj hj'
        by_cases e : j = i + 1
        · rw [e]; exact hf
        · exact h5 j hj (by omega)
    | found =>
      rw [hf] at h
      simp only at h
      cases hl : w.load (parts.take (i + 1)) with
      | none => rw [hl] at h; cases h
      | some m =>
        rw [hl] at h
        exact ⟨i + 1, m, by omega, Nat.le_refl _, hf, hl, fun j h1 h2 => by omega, h⟩

theorem try_of {w : World} {parts : List String} {k m : Nat} (hk : 0 < k) (hf : w.find (parts.take k) = .found) (hl : w.load (parts.take k) = some m) :
    ∀ {i : Nat}, k ≤ i → (∀ j, k < j → j ≤ i → w.find (parts.take j) = .absent) →
      tryPrefixes w parts i = if parts.drop k = [] then Res.ok (.module m) else walk w m (parts.drop k)
  | 0, h, _ => by omega
  | i + 1, h, ha => by
    rw [tryPrefixes]
    by_cases e : k = i + 1
    · subst e
      simp only [hf, hl]
    · rw [ha (i + 1) (by omega) (by omega)]
      simp only
      rw [if_neg (by omega)]
      exact try_of hk hf hl (by omega) (fun j h1 h2 => ha j h1 (by omega))

theorem prefix_take {α : Type} {q parts : List α} (h : q <+: parts) : q = parts.take q.length := List.prefix_iff_eq_take.1 h

theorem names_iff {w : World} {parts : List String} {x : Found} : loadByQualname w parts = .ok x ↔ Names w parts x := by
  constructor
  · intro h
    obtain ⟨k, m, hk, hk', hf, hl, ha, hx⟩ := try_ok (Nat.le_refl _) h
    have hlen : (parts.take k).length = k := by rw [List.length_take]; omega
    have hlong : LongestModule w parts (parts.take k) m := by
      refine ⟨List.take_prefix _ _, ?_, hf, hl, ?_⟩
      · intro e; rw [e] at hlen; simp at hlen; omega
      · intro q hq hq'
        rw [prefix_take hq]
        exact ha _ (by omega) hq.length_le
    split at hx
    · rename_i hd
      cases hx
      have : parts.take k = parts := by
        have := List.take_append_drop k parts
        rw [hd, List.append_nil] at this
        exact this
      rw [this] at hlong
      exact .module hlong
    · obtain ⟨ps, p, o, d, t, he, h1, h2, h3, h4, rfl⟩ := walk_ok hx
      have hp : parts = parts.take k ++ ps ++ [p] := by rw [List.append_assoc, ← he, List.take_append_drop]
      cases hc : w.isClass t with
      | true => simp only [if_true]; exact .cls hlong hp h1 h2 h3 h4 hc
      | false => simp only [Bool.false_eq_true, if_false]; exact .function hlong hp h1 h2 h3 h4 hc
  · intro h
    have key : ∀ {pre m}, LongestModule w parts pre m →
        loadByQualname w parts = if parts.drop pre.length = [] then Res.ok (.module m) else walk w m (parts.drop pre.length) := by
      intro pre m hl
      have e := prefix_take hl.isPrefix
      refine try_of (k := pre.length) ?_ (by rw [← e]; exact hl.found) (by rw [← e]; exact hl.load) hl.isPrefix.length_le ?_
      · exact List.length_pos_iff.2 hl.nonempty
      · intro j h1 h2
        refine hl.longer _ (List.take_prefix _ _) ?_
        rw [List.length_take]; omega
    have hwalk : ∀ {pre m ps o p d t}, LongestModule w parts pre m → parts = pre ++ ps ++ [p] → Attrs w m ps o →
        w.dict o = some d → d p = some t → (w.isClass o ∨ w.isModule o) →
        loadByQualname w parts = .ok (if w.isClass t then .cls t else .function o p t) := by
      intro pre m ps o p d t h1 h2 h3 h4 h5 h6
      rw [key h1]
      have : parts.drop pre.length = ps ++ [p] := by rw [h2, List.append_assoc, List.drop_left]
      rw [this, if_neg (by simp)]
      exact walk_of h3 h4 h5 h6
    cases h with
    | module hl => rw [key hl]; simp
    | cls h1 h2 h3 h4 h5 h6 h7 => rw [hwalk h1 h2 h3 h4 h5 h6, h7]; rfl
    | function h1 h2 h3 h4 h5 h6 h7 => rw [hwalk h1 h2 h3 h4 h5 h6, h7]; rfl

/-! ## Lines -/

theorem atLine_none {line : Nat} : ∀ {ms : List Member}, atLine line ms = .none → ∀ id own start len, Seen ms id own start len →
    ¬(start ≤ line ∧ line ≤ start + len)
  | [], _ => fun _ _ _ _ h => nomatch h
  | .fn id here own start len :: ms, h => by
    rw [atLine] at h
    split at h
    · split at h <;> cases h
    · rename_i hc
      intro id' own' start' len' hs
      cases hs with
      | fn => simpa [containsLine] using hc
      | tail hs => exact atLine_none h _ _ _ _ hs
  | .cls here members :: ms, h => by
    rw [atLine] at h
    intro id' own' start' len' hs
    cases hs with
    | cls hs =>
      rw [if_pos rfl] at h
      cases hm : atLine line members with
      | none => exact atLine_none hm _ _ _ _ hs
      | ok i => rw [hm] at h; cases h
      | keyError => rw [hm] at h; cases h
    | tail hs =>
      split at h
      · cases hm : atLine line members with
        | none => rw [hm] at h; exact atLine_none h _ _ _ _ hs
        | ok i => rw [hm] at h; cases h
        | keyError => rw [hm] at h; cases h
      · exact atLine_none h _ _ _ _ hs
  | .other :: ms, h => by
    rw [atLine] at h
    intro id' own' start' len' hs
    cases hs with
    | tail hs => exact atLine_none h _ _ _ _ hs

theorem atLine_seen {line : Nat} : ∀ {ms : List Member}, atLine line ms ≠ .none → ∃ id own start len, Seen ms id own start len ∧
    start ≤ line ∧ line ≤ start + len ∧ atLine line ms = if own then .ok id else .keyError
  | [], h => absurd (by rw [atLine]) h
  | .fn id here own start len :: ms, h => by
    rw [atLine] at h
    rw [atLine]
    split at h
    · rename_i hc
      rw [if_pos hc]
      simp only [containsLine, Bool.and_eq_true, decide_eq_true_eq] at hc
      obtain ⟨rfl, h1, h2⟩ := hc
      exact ⟨id, own, start, len, .fn, h1, h2, rfl⟩
    · rename_i hc
      rw [if_neg hc]
      obtain ⟨id', own', start', len', hs, hr⟩ := atLine_seen h
      exact ⟨id', own', start', len', .tail hs, hr⟩
  | .cls here members :: ms, h => by
    rw [atLine] at h
    rw [atLine]
    split at h
    · rename_i hc
      rw [if_pos hc]
      subst hc
      cases hm : atLine line members with
      | none =>
        rw [hm] at h
        obtain ⟨id', own', start', len', hs, hr⟩ := atLine_seen h
        exact ⟨id', own', start', len', .tail hs, hr⟩
      | ok i =>
        obtain ⟨id', own', start', len', hs, h1, h2, h3⟩ := atLine_seen (line := line) (ms := members) (by rw [hm]; simp)
        rw [hm] at h3
        exact ⟨id', own', start', len', .cls hs, h1, h2, h3⟩
      | keyError =>
        obtain ⟨id', own', start', len', hs, h1, h2, h3⟩ := atLine_seen (line := line) (ms := members) (by rw [hm]; simp)
        rw [hm] at h3
        exact ⟨id', own', start', len', .cls hs, h1, h2, h3⟩
    · rename_i hc
      rw [if_neg hc]
      obtain ⟨id', own', start', len', hs, hr⟩ := atLine_seen h
      exact ⟨id', own', start', len', .tail hs, hr⟩
  | .other :: ms, h => by
    rw [atLine] at h
    rw [atLine]
    obtain ⟨id', own', start', len', hs, hr⟩ := atLine_seen h
    exact ⟨id', own', start', len', .tail hs, hr⟩

/-! ## Paths -/

theorem analyzable_iff (lead : Char → Bool) (name : String) : analyzable lead name.toList = true ↔ Analyzable lead name := by
  have hs : (name = "setup.py") ↔ name.toList = ['s', 'e', 't', 'u', 'p', '.', 'p', 'y'] := by
    constructor
    · rintro rfl; decide
    · intro h
      have : name = String.ofList name.toList := by simp
      rw [this, h]
  unfold analyzable Analyzable
  rw [Bool.and_eq_true, List.isSuffixOf_iff_suffix, Ne, hs]
  generalize name.toList = cs
  have hsuf : (['.', 'p', 'y'] <:+ cs) ↔ ∃ stem, cs = stem ++ ['.', 'p', 'y'] :=
    ⟨fun ⟨t, h⟩ => ⟨t, h.symm⟩, fun ⟨t, h⟩ => ⟨t, h.symm⟩⟩
  rw [hsuf]
  cases cs with
  | nil => simp
  | cons c cs => simp

theorem mem_files (lead : Char → Bool) (path : List String) : ∀ (es : List (String × Tree)) (x : List String),
    x ∈ files lead path es ↔ ∃ n, (n, Tree.file) ∈ es ∧ Analyzable lead n ∧ x = path ++ [n]
  | [], x => by simp [files]
  | (n, .file) :: es, x => by
    rw [files, List.mem_append, mem_files lead path es x]
    constructor
    · rintro (h | ⟨m, h1, h2⟩)
      · split at h
        · rename_i ha
          simp only [List.mem_singleton] at h
          exact ⟨n, by simp, (analyzable_iff lead n).1 ha, h⟩
        · cases h
      · exact ⟨m, by simp [h1], h2⟩
    · rintro ⟨m, h1, h2, h3⟩
      rcases List.mem_cons.1 h1 with h1 | h1
      · simp only [Prod.mk.injEq, and_true] at h1
        subst h1
        left
        rw [if_pos ((analyzable_iff lead m).2 h2)]
        simp [h3]
      · exact .inr ⟨m, h1, h2, h3⟩
  | (n, .dir ds) :: es, x => by
    rw [files, mem_files lead path es x]
    constructor
    · rintro ⟨m, h1, h2⟩; exact ⟨m, by simp [h1], h2⟩
    · rintro ⟨m, h1, h2⟩
      rcases List.mem_cons.1 h1 with h1 | h1
      · cases h1
      · exact ⟨m, h1, h2⟩

mutual
theorem mem_walkDir (lead : Char → Bool) : ∀ (path : List String) (t : Tree) (x : List String),
    x ∈ walkDir lead path t ↔ ∃ es rel n, t = .dir es ∧ FileAt es rel n ∧ Analyzable lead n ∧ x = path ++ rel ++ [n]
  | path, .file, x => by simp [walkDir]
  | path, .dir es, x => by
    rw [walkDir, List.mem_append, mem_files, mem_subdirs lead path es x]
    constructor
    · rintro (⟨n, h1, h2, h3⟩ | ⟨d, ds, rel, n, h1, h2, h3, h4⟩)
      · exact ⟨es, [], n, rfl, .here h1, h2, by simp [h3]⟩
      · exact ⟨es, d :: rel, n, rfl, .under h1 h2, h3, by simp [h4]⟩
    · rintro ⟨es', rel, n, he, h1, h2, h3⟩
      cases he
      cases h1 with
      | here h1 => exact .inl ⟨n, h1, h2, by simpa using h3⟩
      | under h1 h4 => exact .inr ⟨_, _, _, n, h1, h4, h2, by simpa using h3⟩
theorem mem_subdirs (lead : Char → Bool) : ∀ (path : List String) (es : List (String × Tree)) (x : List String),
    x ∈ subdirs lead path es ↔ ∃ d ds rel n, (d, Tree.dir ds) ∈ es ∧ FileAt ds rel n ∧ Analyzable lead n ∧ x = path ++ d :: rel ++ [n]
  | path, [], x => by simp [subdirs]
  | path, (d, t) :: es, x => by
    rw [subdirs, List.mem_append, mem_walkDir lead (path ++ [d]) t x, mem_subdirs lead path es x]
    constructor
    · rintro (⟨ds, rel, n, rfl, h1, h2, h3⟩ | ⟨d', ds, rel, n, h1, h2⟩)
      · exact ⟨d, ds, rel, n, by simp, h1, h2, by simp [h3]⟩
      · exact ⟨d', ds, rel, n, by simp [h1], h2⟩
    · rintro ⟨d', ds, rel, n, h1, h2, h3, h4⟩
      rcases List.mem_cons.1 h1 with h1 | h1
      · cases h1
        exact .inl ⟨ds, rel, n, rfl, h2, h3, by simp [h4]⟩
      · exact .inr ⟨d', ds, rel, n, h1, h2, h3, h4⟩
end

end Verif.Names
