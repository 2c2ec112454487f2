import Verif.Json.Numbers

/-! The decoder reads the language. -/
namespace Verif.Json

/-! ## Dictionaries -/

def look {α : Type} (ks : List Str) (f : Str → Option α) : List (Str × α) := ks.filterMap fun k => (f k).map fun v => (k, v)

theorem setItem_absent {α : Type} {k : Str} {v : α} {f : Str → Option α} : ∀ {ks : List Str}, k ∉ ks →
    setItem k v (look ks f) = look ks f ++ [(k, v)] := by
  intro ks
  induction ks with
  | nil => intro _; rfl
  | cons x ks ih =>
    intro h
    simp only [List.mem_cons, not_or] at h
    have ih := ih h.2
    unfold look at ih ⊢
    cases hx : f x with
    | none => simp only [List.filterMap_cons, hx, Option.map_none]; exact ih
    | some y =>
      simp only [List.filterMap_cons, hx, Option.map_some, setItem, List.cons_append]
      rw [if_neg (fun e => h.1 e.symm), ih]

theorem look_congr {α : Type} {f g : Str → Option α} {ks : List Str} (h : ∀ k ∈ ks, f k = g k) : look ks f = look ks g := by
  induction ks with
  | nil => rfl
  | cons x ks ih =>
    have ih := ih (fun k hk => h k (by simp [hk]))
    unfold look at ih ⊢
    rw [List.filterMap_cons, List.filterMap_cons, h x (by simp), ih]

theorem setItem_present {α : Type} {k : Str} {v : α} {f g : Str → Option α} (hk : g k = some v) (ho : ∀ x, x ≠ k → g x = f x) :
    ∀ {ks : List Str}, ks.Nodup → (∀ x ∈ ks, f x ≠ none) → k ∈ ks → setItem k v (look ks f) = look ks g := by
  intro ks
  induction ks with
  | nil => intro _ _ h; cases h
  | cons x ks ih =>
    intro hn hs h
    rw [List.nodup_cons] at hn
    obtain ⟨y, hy⟩ := Option.ne_none_iff_exists'.1 (hs x (by simp))
    by_cases hx : x = k
    · subst hx
      have hrest : look ks f = look ks g := look_congr fun z hz => (ho z (fun e => hn.1 (e ▸ hz))).symm
      unfold look at hrest ⊢
      simp only [List.filterMap_cons, hy, hk, Option.map_some, setItem, if_true, hrest]
    · have ih := ih hn.2 (fun z hz => hs z (by simp [hz])) (by simpa [Ne.symm hx] using h)
      unfold look at ih ⊢
      simp only [List.filterMap_cons, hy, ho x hx, Option.map_some, setItem, if_neg hx, ih]

theorem nodup_eraseDups : ∀ (n : Nat) (xs : List Str), xs.length ≤ n → xs.eraseDups.Nodup := by
  intro n
  induction n with
  | zero =>
    intro xs h
    have : xs = [] := List.length_eq_zero_iff.1 (by omega)
    subst this; simp
  | succ n ih =>
    intro xs h
    cases xs with
    | nil => simp
    | cons x xs =>
      rw [List.eraseDups_cons, List.nodup_cons]
      refine ⟨?_, ih _ ?_⟩
      · rw [List.mem_eraseDups]; simp
      · have := List.length_filter_le (fun b => !b == x) xs
        simp only [List.length_cons] at h
        omega

theorem dictOf_eq {α : Type} (kvs : List (Str × α)) : dictOf kvs = lastWins kvs := by
  suffices h : ∀ rev : List (Str × α), dictOf rev.reverse = lastWins rev.reverse by
    have := h kvs.reverse
    rwa [List.reverse_reverse] at this
  intro rev
  induction rev with
  | nil => rfl
  | cons kv rev ih =>
    obtain ⟨k, v⟩ := kv
    have h1 : dictOf ((k, v) :: rev).reverse = setItem k v (dictOf rev.reverse) := by simp [dictOf, List.foldl_append]
    have h2 : ∀ kvs : List (Str × α), lastWins kvs = look (kvs.map Prod.fst).eraseDups (fun k => kvs.reverse.lookup k) := fun _ => rfl
    rw [h1, ih, h2, h2]
    simp only [List.reverse_reverse, List.reverse_cons, List.map_append, List.map_cons, List.map_nil, List.reverse_append,
      List.reverse_nil, List.nil_append, List.cons_append]
    generalize hks : rev.reverse.map Prod.fst = ks
    have hhas : ∀ x ∈ ks.eraseDups, rev.lookup x ≠ none := by
      intro x hx
      rw [List.mem_eraseDups, ← hks] at hx
      obtain ⟨⟨x', y⟩, hm, rfl⟩ := List.mem_map.1 hx
      rw [List.mem_reverse] at hm
      rw [Ne, List.lookup_eq_none_iff]
      intro h
      have := h _ hm
      simp at this
    rw [List.eraseDups_append]
    by_cases hk : k ∈ ks
    · have : [k].removeAll ks = [] := by simp [List.removeAll, hk]
      rw [this, List.eraseDups_nil, List.append_nil]
      refine setItem_present (by simp [List.lookup_cons]) ?_ (nodup_eraseDups _ _ (Nat.le_refl _)) hhas (List.mem_eraseDups.2 hk)
      intro x hx
      rw [List.lookup_cons]
      have : (x == k) = false := by simpa using hx
      rw [this]
    · have : [k].removeAll ks = [k] := by simp [List.removeAll, hk]
      rw [this, List.eraseDups_cons]
      simp only [List.filter_nil, List.eraseDups_nil]
      rw [setItem_absent (fun h => hk (List.mem_eraseDups.1 h))]
      have hl : ∀ (a b : List Str) (f : Str → Option α), look (a ++ b) f = look a f ++ look b f := fun a b f => by
        unfold look; rw [List.filterMap_append]
      rw [hl]
      have e1 : look [k] (fun x => List.lookup x ((k, v) :: rev)) = [(k, v)] := by simp [look, List.lookup_cons]
      rw [e1]
      congr 1
      apply look_congr
      intro x hx
      rw [List.mem_eraseDups] at hx
      have : (x == k) = false := by
        have : x ≠ k := fun e => hk (e ▸ hx)
        simpa using this
      rw [List.lookup_cons, this]

/-! ## Everything in the language is read -/

variable {P : Floats} {strict : Bool}

theorem stop_cons {c : Nat} (h : isDigit c = false ∧ c ≠ 46 ∧ c ≠ 101 ∧ c ≠ 69) (rest : Str) : Stop (c :: rest) := by
  intro d hd
  simp at hd
  subst hd
  exact h

theorem stop_ws {w : Str} (hw : Ws w) {rest : Str} (h : Stop rest) : Stop (w ++ rest) := by
  cases w with
  | nil => exact h
  | cons c w =>
    refine stop_cons ?_ _
    rcases hw c (by simp) with rfl | rfl | rfl | rfl <;> decide

/-- The first character of a value. -/
theorem text_head {hex : Str → Option Int} {s : Str} {v : Json P.F} (h : Text hex P strict s v) :
    ∃ c s', s = c :: s' ∧ isWs c = false ∧ c ≠ 93 := by
  cases h with
  | null => exact ⟨_, _, rfl, by decide, by decide⟩
  | true => exact ⟨_, _, rfl, by decide, by decide⟩
  | false => exact ⟨_, _, rfl, by decide, by decide⟩
  | nan => exact ⟨_, _, rfl, by decide, by decide⟩
  | inf => exact ⟨_, _, rfl, by decide, by decide⟩
  | negInf => exact ⟨_, _, rfl, by decide, by decide⟩
  | str => exact ⟨_, _, rfl, by decide, by decide⟩
  | arrEmpty => exact ⟨_, _, rfl, by decide, by decide⟩
  | arr => exact ⟨_, _, rfl, by decide, by decide⟩
  | objEmpty => exact ⟨_, _, rfl, by decide, by decide⟩
  | obj => exact ⟨_, _, rfl, by decide, by decide⟩
  | int h =>
    obtain ⟨c, s', rfl, hc⟩ := int_head h
    refine ⟨c, s', rfl, ?_⟩
    rcases hc with rfl | hc
    · decide
    · have := (isDigit_iff c).1 hc
      refine ⟨?_, by omega⟩
      cases h : isWs c with
      | false => rfl
      | true => have := (isWs_iff c).1 h; omega
  | float h =>
    obtain ⟨hi, _, _, _⟩ := h
    obtain ⟨c, s', rfl, hc⟩ := int_head hi
    refine ⟨c, _, by rw [List.cons_append, List.cons_append], ?_⟩
    rcases hc with rfl | hc
    · decide
    · have := (isDigit_iff c).1 hc
      refine ⟨?_, by omega⟩
      cases h : isWs c with
      | false => rfl
      | true => have := (isWs_iff c).1 h; omega

theorem float_head {s : Str} (h : FloatText s) : ∃ c s', s = c :: s' ∧ (c = 45 ∨ isDigit c = true) := by
  obtain ⟨hi, _, _, _⟩ := h
  obtain ⟨c, s', rfl, hc⟩ := int_head hi
  exact ⟨c, _, rfl, hc⟩

theorem scan_other {c : Nat} (n : Nat) (s : Str) (h : c ≠ 34 ∧ c ≠ 123 ∧ c ≠ 91) : scan P strict (n + 1) (c :: s) = scanOther P (c :: s) := by
  rw [scan, if_neg h.1, if_neg h.2.1, if_neg h.2.2]

theorem scan_number {n : Nat} {s rest : Str} {c : Nat} {s' : Str} (hs : s = c :: s') (hc : c = 45 ∨ isDigit c = true) (hn : 1 ≤ n) :
    scan P strict n (s ++ rest) = scanOther P (s ++ rest) := by
  obtain ⟨n, rfl⟩ : ∃ m, n = m + 1 := ⟨n - 1, by omega⟩
  subst hs
  have : c ≠ 34 ∧ c ≠ 123 ∧ c ≠ 91 := by
    rcases hc with rfl | hc
    · decide
    · have := (isDigit_iff c).1 hc; omega
  rw [List.cons_append, scan_other n _ this]

theorem array_elements {n : Nat} {s : Str} (h : ∀ r, skipWs s ≠ 93 :: r) : array P strict (n + 1) s =
    match elements P strict n (skipWs s) with
      | .ok xs rest => .ok (.arr xs) rest
      | .bad => .bad
      | .outOfFuel => .outOfFuel := by
  rw [array]
  split
  · rename_i h'; exact absurd h' (h _)
  · rfl

mutual
theorem text_read : ∀ {s : Str} {v : Json P.F}, Text laxHex P strict s v → ∀ rest n, Stop rest → 3 * (s ++ rest).length + 1 ≤ n →
    scan P strict n (s ++ rest) = .ok v rest
  | _, _, .null, rest, n, _, hn => by
    obtain ⟨n, rfl⟩ : ∃ m, n = m + 1 := ⟨n - 1, by omega⟩
    rfl
  | _, _, .true, rest, n, _, hn => by
    obtain ⟨n, rfl⟩ : ∃ m, n = m + 1 := ⟨n - 1, by omega⟩
    rfl
  | _, _, .false, rest, n, _, hn => by
    obtain ⟨n, rfl⟩ : ∃ m, n = m + 1 := ⟨n - 1, by omega⟩
    rfl
  | _, _, .nan, rest, n, _, hn => by
    obtain ⟨n, rfl⟩ : ∃ m, n = m + 1 := ⟨n - 1, by omega⟩
    rfl
  | _, _, .inf, rest, n, _, hn => by
    obtain ⟨n, rfl⟩ : ∃ m, n = m + 1 := ⟨n - 1, by omega⟩
    rfl
  | _, _, .negInf, rest, n, _, hn => by
    obtain ⟨n, rfl⟩ : ∃ m, n = m + 1 := ⟨n - 1, by omega⟩
    rfl
  | _, _, .int h, rest, n, hr, hn => by
    obtain ⟨c, s', hs, hc⟩ := int_head h
    rw [scan_number hs hc (by omega)]
    exact scanOther_int P h hr
  | _, _, .float h, rest, n, hr, hn => by
    obtain ⟨c, s', hs, hc⟩ := float_head h
    rw [scan_number hs hc (by omega)]
    exact scanOther_float P h hr
  | _, _, @Text.str _ _ _ s t h, rest, n, _, hn => by
    obtain ⟨n, rfl⟩ : ∃ m, n = m + 1 := ⟨n - 1, by omega⟩
    have e : (34 :: s ++ [34]) ++ rest = 34 :: (s ++ 34 :: rest) := by simp
    rw [e, scan, if_pos rfl, scanString_complete h _ rest (by simp; omega)]
  | _, _, @Text.arrEmpty _ _ _ w hw, rest, n, _, hn => by
    obtain ⟨n, rfl⟩ : ∃ m, n = m + 2 := ⟨n - 2, by simp at hn; omega⟩
    have e : (91 :: w ++ [93]) ++ rest = 91 :: (w ++ 93 :: rest) := by simp
    rw [e, scan, if_neg (by decide), if_neg (by decide), if_pos rfl, array, skip_ws hw, skip_cons (by decide)]
    simp only
  | _, _, @Text.arr _ _ _ s xs h, rest, n, _, hn => by
    obtain ⟨n, rfl⟩ : ∃ m, n = m + 2 := ⟨n - 2, by simp at hn; omega⟩
    have e : (91 :: s ++ [93]) ++ rest = 91 :: (s ++ 93 :: rest) := by simp
    have hlen : 3 * (s ++ 93 :: rest).length + 2 ≤ n := by simp at hn ⊢; omega
    obtain ⟨h1, h2⟩ := elements_read h rest n hlen
    rw [e, scan, if_neg (by decide), if_neg (by decide), if_pos rfl, array_elements h1, h2]
  | _, _, @Text.objEmpty _ _ _ w hw, rest, n, _, hn => by
    obtain ⟨n, rfl⟩ : ∃ m, n = m + 2 := ⟨n - 2, by simp at hn; omega⟩
    have e : (123 :: w ++ [125]) ++ rest = 123 :: (w ++ 125 :: rest) := by simp
    rw [e, scan, if_neg (by decide), if_pos rfl, object, skip_ws hw, skip_cons (by decide)]
    simp only
  | _, _, @Text.obj _ _ _ s kvs h, rest, n, _, hn => by
    obtain ⟨n, rfl⟩ : ∃ m, n = m + 2 := ⟨n - 2, by simp at hn; omega⟩
    have e : (123 :: s ++ [125]) ++ rest = 123 :: (s ++ 125 :: rest) := by simp
    have hlen : 3 * (s ++ 125 :: rest).length + 2 ≤ n := by simp at hn ⊢; omega
    obtain ⟨r, h1, h2⟩ := entries_read h rest n hlen
    rw [e, scan, if_neg (by decide), if_pos rfl, object, h1]
    simp only
    rw [h2]
    simp only
    rw [dictOf_eq]
theorem elements_read : ∀ {s : Str} {xs : List (Json P.F)}, Elements laxHex P strict s xs → ∀ rest n, 3 * (s ++ 93 :: rest).length + 2 ≤ n →
    (∀ r, skipWs (s ++ 93 :: rest) ≠ 93 :: r) ∧ elements P strict n (skipWs (s ++ 93 :: rest)) = .ok xs rest
  | _, _, @Elements.one _ _ _ w s w' x hw h hw', rest, n, hn => by
    obtain ⟨n, rfl⟩ : ∃ m, n = m + 1 := ⟨n - 1, by omega⟩
    obtain ⟨c, s', hs, hc, h93⟩ := text_head h
    have e : w ++ s ++ w' ++ 93 :: rest = w ++ (s ++ (w' ++ 93 :: rest)) := by simp
    have e' : skipWs (w ++ s ++ w' ++ 93 :: rest) = s ++ (w' ++ 93 :: rest) := by
      rw [e, skip_ws hw, hs, List.cons_append, skip_cons hc]
    rw [e']
    refine ⟨fun r hr => ?_, ?_⟩
    · rw [hs] at hr; simp at hr; exact h93 hr.1
    · have := text_read h (w' ++ 93 :: rest) n (stop_ws hw' (stop_cons (by decide) rest)) (by simp at hn ⊢; omega)
      rw [elements, this]
      simp only
      rw [skip_ws hw', skip_cons (by decide)]
      simp only
  | _, _, @Elements.cons _ _ _ w s w' x s2 xs hw h hw' h2, rest, n, hn => by
    obtain ⟨n, rfl⟩ : ∃ m, n = m + 1 := ⟨n - 1, by omega⟩
    obtain ⟨c, s', hs, hc, h93⟩ := text_head h
    have e : w ++ s ++ w' ++ 44 :: s2 ++ 93 :: rest = w ++ (s ++ (w' ++ 44 :: (s2 ++ 93 :: rest))) := by simp
    have e' : skipWs (w ++ s ++ w' ++ 44 :: s2 ++ 93 :: rest) = s ++ (w' ++ 44 :: (s2 ++ 93 :: rest)) := by
      rw [e, skip_ws hw, hs, List.cons_append, skip_cons hc]
    rw [e']
    refine ⟨fun r hr => ?_, ?_⟩
    · rw [hs] at hr; simp at hr; exact h93 hr.1
    · have := text_read h (w' ++ 44 :: (s2 ++ 93 :: rest)) n (stop_ws hw' (stop_cons (by decide) _)) (by simp at hn ⊢; omega)
      have ih := (elements_read h2 rest n (by simp at hn ⊢; omega)).2
      rw [elements, this]
      simp only
      rw [skip_ws hw', skip_cons (by decide)]
      simp only
      rw [skipFast_eq, ih]
theorem entries_read : ∀ {s : Str} {kvs : List (Str × Json P.F)}, Entries laxHex P strict s kvs → ∀ rest n, 3 * (s ++ 125 :: rest).length + 2 ≤ n →
    ∃ r, skipWs (s ++ 125 :: rest) = 34 :: r ∧ entries P strict n r = .ok kvs rest
  | _, _, @Entries.one _ _ _ w key k w' w'' s v w3 hw hk hw' hw'' h hw3, rest, n, hn => by
    obtain ⟨n, rfl⟩ : ∃ m, n = m + 1 := ⟨n - 1, by omega⟩
    obtain ⟨c, s', hs, hc, _⟩ := text_head h
    refine ⟨key ++ 34 :: (w' ++ 58 :: (w'' ++ (s ++ (w3 ++ 125 :: rest)))), ?_, ?_⟩
    · simp only [List.append_assoc, List.cons_append]
      rw [skip_ws hw, skip_cons (by decide)]
    · have := text_read h (w3 ++ 125 :: rest) n (stop_ws hw3 (stop_cons (by decide) rest)) (by simp at hn ⊢; omega)
      rw [entries, scanString_complete hk _ _ (by simp; omega)]
      simp only
      rw [skip_ws hw', skip_cons (by decide)]
      simp only
      have e : skipFast (w'' ++ (s ++ (w3 ++ 125 :: rest))) = s ++ (w3 ++ 125 :: rest) := by
        rw [skipFast_eq, skip_ws hw'', hs, List.cons_append, skip_cons hc]
      rw [e, this]
      simp only
      rw [skip_ws hw3, skip_cons (by decide)]
      simp only
  | _, _, @Entries.cons _ _ _ w key k w' w'' s v w3 s2 kvs hw hk hw' hw'' h hw3 h2, rest, n, hn => by
    obtain ⟨n, rfl⟩ : ∃ m, n = m + 1 := ⟨n - 1, by omega⟩
    obtain ⟨c, s', hs, hc, _⟩ := text_head h
    refine ⟨key ++ 34 :: (w' ++ 58 :: (w'' ++ (s ++ (w3 ++ 44 :: (s2 ++ 125 :: rest))))), ?_, ?_⟩
    · simp only [List.append_assoc, List.cons_append]
      rw [skip_ws hw, skip_cons (by decide)]
    · have := text_read h (w3 ++ 44 :: (s2 ++ 125 :: rest)) n (stop_ws hw3 (stop_cons (by decide) _)) (by simp at hn ⊢; omega)
      obtain ⟨r, ih1, ih2⟩ := entries_read h2 rest n (by simp at hn ⊢; omega)
      rw [entries, scanString_complete hk _ _ (by simp; omega)]
      simp only
      rw [skip_ws hw', skip_cons (by decide)]
      simp only
      have e : skipFast (w'' ++ (s ++ (w3 ++ 44 :: (s2 ++ 125 :: rest)))) = s ++ (w3 ++ 44 :: (s2 ++ 125 :: rest)) := by
        rw [skipFast_eq, skip_ws hw'', hs, List.cons_append, skip_cons hc]
      rw [e, this]
      simp only
      rw [skip_ws hw3, skip_cons (by decide)]
      simp only
      rw [ih1]
      simp only
      rw [ih2]
end

mutual
/-- The decoder reads what is in the language. -/
theorem text_lax : ∀ {s : Str} {v : Json P.F}, Text hex4 P strict s v → Text laxHex P strict s v
  | _, _, .null => .null
  | _, _, .true => .true
  | _, _, .false => .false
  | _, _, .nan => .nan
  | _, _, .inf => .inf
  | _, _, .negInf => .negInf
  | _, _, .int h => .int h
  | _, _, .float h => .float h
  | _, _, .str h => .str (body_lax h)
  | _, _, .arrEmpty h => .arrEmpty h
  | _, _, .arr h => .arr (elements_lax h)
  | _, _, .objEmpty h => .objEmpty h
  | _, _, .obj h => .obj (entries_lax h)
theorem elements_lax : ∀ {s : Str} {xs : List (Json P.F)}, Elements hex4 P strict s xs → Elements laxHex P strict s xs
  | _, _, .one hw h hw' => .one hw (text_lax h) hw'
  | _, _, .cons hw h hw' h2 => .cons hw (text_lax h) hw' (elements_lax h2)
theorem entries_lax : ∀ {s : Str} {kvs : List (Str × Json P.F)}, Entries hex4 P strict s kvs → Entries laxHex P strict s kvs
  | _, _, .one hw hk h1 h2 h hw' => .one hw (body_lax hk) h1 h2 (text_lax h) hw'
  | _, _, .cons hw hk h1 h2 h hw' h3 => .cons hw (body_lax hk) h1 h2 (text_lax h) hw' (entries_lax h3)
end

end Verif.Json
