import Verif.Opts.Model
import Mathlib.Tactic.Linarith
/-
Helper lemmas for directives.
-/
namespace Verif.Opts

theorem drop_takeWhile {α : Type} (p : α → Bool) (l : List α) : l.drop (l.takeWhile p).length = l.dropWhile p := by
  induction l with
  | nil => rfl
  | cons x xs ih =>
    by_cases h : p x = true
    · simp [List.takeWhile_cons, List.dropWhile_cons, h, ih]
    · simp [List.takeWhile_cons, List.dropWhile_cons, h]

theorem takeWhile_all {α : Type} (p : α → Bool) (a b : List α) (ha : ∀ x ∈ a, p x = true)
    (hb : ∀ x ∈ b.head?, p x = false) : (a ++ b).takeWhile p = a := by
  induction a with
  | nil =>
    cases b with
    | nil => rfl
    | cons x xs => simp [List.takeWhile_cons, hb x (by simp)]
  | cons x xs ih =>
    rw [List.cons_append, List.takeWhile_cons, if_pos (ha x (by simp)), ih fun y hy => ha y (by simp [hy])]

theorem dropWhile_all {α : Type} (p : α → Bool) (a b : List α) (ha : ∀ x ∈ a, p x = true) :
    (a ++ b).dropWhile p = b.dropWhile p := by
  induction a with
  | nil => rfl
  | cons x xs ih =>
    rw [List.cons_append, List.dropWhile_cons, if_pos (ha x (by simp)), ih fun y hy => ha y (by simp [hy])]

theorem dropWhile_head {α : Type} (p : α → Bool) (b : List α) (hb : ∀ x ∈ b.head?, p x = false) : b.dropWhile p = b := by
  cases b with
  | nil => rfl
  | cons x xs => simp [List.dropWhile_cons, hb x (by simp)]

theorem dropWhile_nil_iff {α : Type} {p : α → Bool} {l : List α} : l.dropWhile p = [] ↔ ∀ x ∈ l, p x = true := by
  induction l with
  | nil => simp
  | cons y ys ih =>
    rw [List.dropWhile_cons]
    split
    · rename_i hy
      simp [hy, ih]
    · rename_i hy
      simp [hy]

theorem mem_takeWhile {α : Type} (p : α → Bool) (l : List α) (x : α) (h : x ∈ l.takeWhile p) : p x = true := by
  induction l with
  | nil => simp at h
  | cons y ys ih =>
    rw [List.takeWhile_cons] at h
    split at h
    · rename_i hy
      rcases List.mem_cons.mp h with rfl | h
      · exact hy
      · exact ih h
    · simp at h

theorem head_dropWhile {α : Type} (p : α → Bool) (l : List α) : ∀ x ∈ (l.dropWhile p).head?, p x = false := by
  induction l with
  | nil => simp
  | cons y ys ih =>
    rw [List.dropWhile_cons]
    split
    · exact ih
    · rename_i hy
      intro x hx
      simp only [List.head?_cons, Option.mem_def, Option.some.injEq] at hx
      subst hx
      simpa using hy

/-! ### One attempt -/

theorem tryAt_none (sp : Char → Bool) (s : List Char) (n : Nat) (h : ((s.drop n).dropWhile sp).head? ≠ some '=') :
    tryAt sp s n = none := by
  unfold tryAt
  dsimp only
  rw [drop_takeWhile]
  cases hd : (s.drop n).dropWhile sp with
  | nil => rfl
  | cons c r =>
    rw [hd] at h
    have : c ≠ '=' := by simpa using h
    split
    · rename_i heq
      injection heq with h1 h2
      exact absurd h1 this
    · rfl

theorem tryAt_some (sp : Char → Bool) (s : List Char) (n m : Nat) (h : tryAt sp s n = some m) :
    ∃ g1 g2 v rest, s.drop n = g1 ++ '=' :: (g2 ++ v ++ rest) ∧ (∀ c ∈ g1, sp c = true) ∧ (∀ c ∈ g2, sp c = true) ∧
      v ≠ [] ∧ (∀ c ∈ v, sp c = false) ∧ (∀ c ∈ rest.head?, sp c = true) ∧
      m = n + g1.length + 1 + g2.length + v.length := by
  unfold tryAt at h
  dsimp only at h
  rw [drop_takeWhile] at h
  split at h
  · rename_i afterEq heq
    split at h
    · cases h
    · rename_i hv
      rw [drop_takeWhile] at h hv
      refine ⟨(s.drop n).takeWhile sp, afterEq.takeWhile sp, (afterEq.dropWhile sp).takeWhile (fun c => !sp c),
        (afterEq.dropWhile sp).dropWhile (fun c => !sp c), ?_, ?_, ?_, hv, ?_, ?_, ?_⟩
      · rw [List.append_assoc, List.takeWhile_append_dropWhile, List.takeWhile_append_dropWhile, ← heq,
          List.takeWhile_append_dropWhile]
      · exact fun c hc => mem_takeWhile sp _ c hc
      · exact fun c hc => mem_takeWhile sp _ c hc
      · intro c hc
        simpa using mem_takeWhile _ _ c hc
      · intro c hc
        simpa using head_dropWhile _ _ c hc
      · injection h with h
        exact h.symm
  · cases h

theorem tryAt_hit (sp : Char → Bool) (heq : sp '=' = false) (k g1 g2 v rest : List Char)
    (h1 : ∀ c ∈ g1, sp c = true) (h2 : ∀ c ∈ g2, sp c = true) (hv : v ≠ []) (hvs : ∀ c ∈ v, sp c = false)
    (hr : ∀ c ∈ rest.head?, sp c = true) :
    tryAt sp (k ++ g1 ++ '=' :: (g2 ++ v) ++ rest) k.length =
      some (k.length + g1.length + 1 + g2.length + v.length) := by
  have e1 : (k ++ g1 ++ '=' :: (g2 ++ v) ++ rest).drop k.length = g1 ++ ('=' :: (g2 ++ (v ++ rest))) := by
    simp [List.append_assoc]
  have e2 : (g1 ++ ('=' :: (g2 ++ (v ++ rest)))).takeWhile sp = g1 := takeWhile_all sp _ _ h1 (by
    intro c hc
    simp only [List.head?_cons, Option.mem_def, Option.some.injEq] at hc
    rw [← hc]; exact heq)
  have hvh : ∀ c ∈ (v ++ rest).head?, sp c = false := by
    cases v with
    | nil => exact absurd rfl hv
    | cons x xs =>
      intro c hc
      simp only [List.cons_append, List.head?_cons, Option.mem_def, Option.some.injEq] at hc
      rw [← hc]; exact hvs x (by simp)
  have e3 : (g2 ++ (v ++ rest)).takeWhile sp = g2 := takeWhile_all sp _ _ h2 hvh
  have e4 : (v ++ rest).takeWhile (fun c => !sp c) = v := takeWhile_all _ _ _ (by simpa using hvs) (by simpa using hr)
  unfold tryAt
  dsimp only
  rw [e1, e2, List.drop_left]
  simp only [e3, List.drop_left, e4, if_neg hv]

/-! ### The match at a position -/

theorem findSome_first {α β : Type} (f : α → Option β) (a : List α) (x : α) (b : List α) (y : β)
    (ha : ∀ z ∈ a, f z = none) (hx : f x = some y) : (a ++ x :: b).findSome? f = some y := by
  induction a with
  | nil => simp [hx]
  | cons z zs ih =>
    rw [List.cons_append, List.findSome?_cons, ha z (by simp)]
    exact ih fun w hw => ha w (by simp [hw])

theorem range_split (m n : Nat) (h : m < n) :
    ∃ a b, (List.range n).reverse.map (· + 1) = a ++ (m + 1) :: b ∧ ∀ z ∈ a, m + 1 < z ∧ z ≤ n := by
  induction n with
  | zero => omega
  | succ n ih =>
    rw [List.range_succ, List.reverse_append, List.reverse_singleton, List.singleton_append, List.map_cons]
    by_cases hm : m = n
    · exact ⟨[], (List.range n).reverse.map (· + 1), by rw [hm]; rfl, by simp⟩
    · obtain ⟨a, b, e, hz⟩ := ih (by omega)
      refine ⟨(n + 1) :: a, b, by rw [e]; rfl, ?_⟩
      intro z hz'
      rcases List.mem_cons.mp hz' with rfl | hz'
      · omega
      · have := hz z hz'
        omega

/-- The match at a setting with a value. -/
theorem matchLen_pair (sp : Char → Bool) (heq : sp '=' = false) (k g1 g2 v rest : List Char) (hk : IsWord sp k)
    (h1 : ∀ c ∈ g1, sp c = true) (h2 : ∀ c ∈ g2, sp c = true) (hv : IsWord sp v)
    (hr : ∀ c ∈ rest.head?, sp c = true) (hr' : (rest.dropWhile sp).head? ≠ some '=') :
    matchLen sp (k ++ g1 ++ '=' :: (g2 ++ v) ++ rest) = (k ++ g1 ++ '=' :: (g2 ++ v)).length := by
  have hlen : k.length + g1.length + 1 + g2.length + v.length = (k ++ g1 ++ '=' :: (g2 ++ v)).length := by
    simp only [List.length_append, List.length_cons]; omega
  have hkpos : 0 < k.length := List.length_pos_iff.mpr hk.1
  have hit := tryAt_hit sp heq k g1 g2 v rest h1 h2 hv.1 (fun c hc => (hv.2 c hc).1) hr
  unfold matchLen
  dsimp only
  -- the word contains the key
  have hw : ∃ t, (k ++ g1 ++ '=' :: (g2 ++ v) ++ rest).takeWhile (fun c => !sp c) = k ++ t ∧
      (g1 ≠ [] → t = []) ∧ (g1 = [] → g2 ≠ [] → t = ['=']) ∧ (g1 = [] → g2 = [] → t = '=' :: v) := by
    have hks : ∀ c ∈ k, (fun c => !sp c) c = true := by intro c hc; simp [(hk.2 c hc).1]
    cases g1 with
    | cons x xs =>
      refine ⟨[], ?_, by simp, by simp, by simp⟩
      rw [List.append_assoc, List.append_assoc, takeWhile_all _ _ _ hks]
      · simp
      · intro c hc
        simp only [List.cons_append, List.head?_cons, Option.mem_def, Option.some.injEq] at hc
        rw [← hc]; simp [h1 x (by simp)]
    | nil =>
      cases g2 with
      | cons x xs =>
        refine ⟨['='], ?_, by simp, by simp, by simp⟩
        have : k ++ [] ++ '=' :: (x :: xs ++ v) ++ rest = (k ++ ['=']) ++ (x :: (xs ++ v ++ rest)) := by simp
        rw [this, takeWhile_all]
        · intro c hc
          rcases List.mem_append.mp hc with hc | hc
          · exact hks c hc
          · rw [List.mem_singleton.mp hc]; simp [heq]
        · intro c hc
          simp only [List.head?_cons, Option.mem_def, Option.some.injEq] at hc
          rw [← hc]; simp [h2 x (by simp)]
      | nil =>
        refine ⟨'=' :: v, ?_, by simp, by simp, by simp⟩
        have : k ++ [] ++ '=' :: ([] ++ v) ++ rest = (k ++ '=' :: v) ++ rest := by simp
        rw [this, takeWhile_all]
        · intro c hc
          rcases List.mem_append.mp hc with hc | hc
          · exact hks c hc
          · rcases List.mem_cons.mp hc with rfl | hc
            · simp [heq]
            · simp [(hv.2 c hc).1]
        · simpa using hr
  obtain ⟨t, ht, ht1, ht2, ht3⟩ := hw
  rw [ht]
  obtain ⟨a, b, e, hz⟩ := range_split (k.length - 1) (k ++ t).length (by simp only [List.length_append]; omega)
  rw [show k.length - 1 + 1 = k.length by omega] at e hz
  rw [e, findSome_first _ a k.length b _ ?_ hit]
  · exact hlen
  · intro n hn
    have hb := hz n hn
    rw [List.length_append] at hb
    apply tryAt_none
    have hvne : ∀ (q : List Char), (v ++ q).dropWhile sp = v ++ q ∧ (v ++ q).head? ≠ some '=' := by
      intro q
      cases hvv : v with
      | nil => exact absurd hvv hv.1
      | cons x xs =>
        have hx := hv.2 x (by rw [hvv]; simp)
        refine ⟨dropWhile_head sp _ ?_, ?_⟩
        · intro c hc
          simp only [List.cons_append, List.head?_cons, Option.mem_def, Option.some.injEq] at hc
          rw [← hc]; exact hx.1
        · simpa using hx.2
    cases hg1 : g1 with
    | cons x xs =>
      have := ht1 (by rw [hg1]; simp)
      rw [this] at hb
      simp at hb
      omega
    | nil =>
      have e0 : (k ++ [] ++ '=' :: (g2 ++ v) ++ rest).drop n = (g2 ++ v ++ rest).drop (n - k.length - 1) := by
        have : k ++ [] ++ '=' :: (g2 ++ v) ++ rest = (k ++ ['=']) ++ (g2 ++ v ++ rest) := by simp
        rw [this, List.drop_append, List.drop_eq_nil_of_le (by simp; omega)]
        simp only [List.length_append, List.length_singleton, List.nil_append]
        congr 1
      rw [e0]
      cases hg2 : g2 with
      | cons x xs =>
        have := ht2 hg1 (by rw [hg2]; simp)
        rw [this] at hb
        simp at hb
        rw [show n - k.length - 1 = 0 by omega, List.drop_zero, List.append_assoc,
          dropWhile_all sp _ _ (by rw [← hg2]; exact h2), (hvne rest).1]
        exact (hvne rest).2
      | nil =>
        have := ht3 hg1 hg2
        rw [this] at hb
        simp only [List.length_cons] at hb
        rw [List.nil_append, List.drop_append]
        rcases Nat.lt_or_ge (n - k.length - 1) v.length with hlt | hge
        · rw [show n - k.length - 1 - v.length = 0 by omega, List.drop_zero]
          have hd : v.drop (n - k.length - 1) ≠ [] := by
            intro hh
            have := congrArg List.length hh
            simp at this
            omega
          cases hvd : v.drop (n - k.length - 1) with
          | nil => exact absurd hvd hd
          | cons x xs =>
            have hx := hv.2 x (List.mem_of_mem_drop (by rw [hvd]; simp))
            rw [dropWhile_head sp]
            · simpa using hx.2
            · intro c hc
              simp only [List.cons_append, List.head?_cons, Option.mem_def, Option.some.injEq] at hc
              rw [← hc]; exact hx.1
        · rw [List.drop_eq_nil_of_le hge, show n - k.length - 1 - v.length = 0 by omega]
          simpa using hr'

/-- The match at a lone word. -/
theorem matchLen_word (sp : Char → Bool) (w rest : List Char) (hw : IsWord sp w)
    (hr : ∀ c ∈ rest.head?, sp c = true) (hr' : (rest.dropWhile sp).head? ≠ some '=') :
    matchLen sp (w ++ rest) = w.length := by
  unfold matchLen
  dsimp only
  rw [takeWhile_all _ w rest (by intro c hc; simp [(hw.2 c hc).1]) (by simpa using hr)]
  have : ((List.range w.length).reverse.map (· + 1)).findSome? (tryAt sp (w ++ rest)) = none := by
    rw [List.findSome?_eq_none_iff]
    intro n hn
    simp only [List.mem_map, List.mem_reverse, List.mem_range] at hn
    obtain ⟨m, hm, rfl⟩ := hn
    apply tryAt_none
    rw [List.drop_append, show m + 1 - w.length = 0 by omega, List.drop_zero]
    cases hvd : w.drop (m + 1) with
    | nil => simpa using hr'
    | cons x xs =>
      have hx := hw.2 x (List.mem_of_mem_drop (by rw [hvd]; simp))
      rw [dropWhile_head sp]
      · simpa using hx.2
      · intro c hc
        simp only [List.cons_append, List.head?_cons, Option.mem_def, Option.some.injEq] at hc
        rw [← hc]; exact hx.1
  rw [this]
  rfl

/-- A part as found: either a word with a value, or a run without whitespace. -/
def IsPart (sp : Char → Bool) (p : List Char) : Prop :=
  (∃ k g1 g2 v, p = k ++ g1 ++ '=' :: (g2 ++ v) ∧ k ≠ [] ∧ (∀ c ∈ k, sp c = false) ∧ (∀ c ∈ g1, sp c = true) ∧
    (∀ c ∈ g2, sp c = true) ∧ v ≠ [] ∧ (∀ c ∈ v, sp c = false)) ∨
  (p ≠ [] ∧ ∀ c ∈ p, sp c = false)

/-- What is found at a position. -/
theorem matchLen_found (sp : Char → Bool) (c : Char) (r : List Char) (hc : sp c = false) :
    IsPart sp ((c :: r).take (matchLen sp (c :: r))) ∧ 0 < matchLen sp (c :: r) ∧
      ∀ x ∈ ((c :: r).drop (matchLen sp (c :: r))).head?, sp x = true := by
  generalize hs : c :: r = s
  have hword : s.takeWhile (fun c => !sp c) ≠ [] := by
    rw [← hs, List.takeWhile_cons]; simp [hc]
  have hwpos := List.length_pos_iff.mpr hword
  unfold matchLen
  dsimp only
  cases hf : ((List.range (s.takeWhile (fun c => !sp c)).length).reverse.map (· + 1)).findSome? (tryAt sp s) with
  | none =>
    rw [Option.getD_none]
    refine ⟨Or.inr ?_, hwpos, ?_⟩
    · have e : s.take (s.takeWhile (fun c => !sp c)).length = s.takeWhile (fun c => !sp c) := by
        conv_lhs => rw [← List.takeWhile_append_dropWhile (p := fun c => !sp c) (l := s)]
        rw [takeWhile_all _ (s.takeWhile fun c => !sp c) _ (fun x hx => mem_takeWhile _ _ x hx)
          (head_dropWhile _ _), List.take_left]
      rw [e]
      exact ⟨hword, fun x hx => by simpa using mem_takeWhile _ _ x hx⟩
    · rw [drop_takeWhile]
      intro x hx
      simpa using head_dropWhile _ _ x hx
  | some m =>
    rw [Option.getD_some]
    obtain ⟨n, hn, ht⟩ := List.exists_of_findSome?_eq_some hf
    simp only [List.mem_map, List.mem_reverse, List.mem_range] at hn
    obtain ⟨n', hn', rfl⟩ := hn
    obtain ⟨g1, g2, v, rest, hd, h1, h2, hv, hvs, hrest, hm⟩ := tryAt_some sp s _ m ht
    have hk : ∀ x ∈ s.take (n' + 1), sp x = false := by
      intro x hx
      have e : s.take (n' + 1) = (s.takeWhile (fun c => !sp c)).take (n' + 1) := by
        conv_lhs => rw [← List.takeWhile_append_dropWhile (p := fun c => !sp c) (l := s)]
        rw [List.take_append_of_le_length (by omega)]
      rw [e] at hx
      simpa using mem_takeWhile _ _ x (List.mem_of_mem_take hx)
    have hlen : (s.take (n' + 1)).length = n' + 1 := by
      rw [List.length_take]
      have := (List.takeWhile_prefix (p := fun c => !sp c) (l := s)).length_le
      omega
    have hsplit : s = (s.take (n' + 1) ++ g1 ++ '=' :: (g2 ++ v)) ++ rest := by
      conv_lhs => rw [← List.take_append_drop (n' + 1) s, hd]
      simp
    have hmlen : m = (s.take (n' + 1) ++ g1 ++ '=' :: (g2 ++ v)).length := by
      simp only [List.length_append, List.length_cons, hlen]; omega
    refine ⟨Or.inl ⟨s.take (n' + 1), g1, g2, v, ?_, ?_, hk, h1, h2, hv, hvs⟩, by omega, ?_⟩
    · conv_lhs => rw [hsplit]
      rw [hmlen, List.take_left]
    · intro hh
      rw [hh] at hlen
      simp at hlen
    · have : s.drop m = rest := by
        conv_lhs => rw [hsplit]
        rw [hmlen, List.drop_left]
      rw [this]
      exact hrest

/-! ### Splitting and stripping -/

theorem splitEq_none (n : Nat) (s : List Char) (h : ∀ c ∈ s, c ≠ '=') : splitEq n s = [s] := by
  cases n with
  | zero => rfl
  | succ n =>
    unfold splitEq
    have : s.dropWhile (· ≠ '=') = [] := by
      rw [dropWhile_nil_iff]
      simpa using h
    rw [this]

theorem splitEq_cons (n : Nat) (k v : List Char) (h : ∀ c ∈ k, c ≠ '=') :
    splitEq (n + 1) (k ++ '=' :: v) = k :: splitEq n v := by
  have e1 : (k ++ '=' :: v).dropWhile (· ≠ '=') = '=' :: v := by
    rw [dropWhile_all _ _ _ (by simpa using h), dropWhile_head]
    simp
  have e2 : (k ++ '=' :: v).takeWhile (· ≠ '=') = k := takeWhile_all _ _ _ (by simpa using h) (by simp)
  rw [splitEq, e1, e2]

theorem splitEq_inv (s k v : List Char) (h : splitEq 2 s = [k, v]) :
    s = k ++ '=' :: v ∧ (∀ c ∈ k, c ≠ '=') ∧ (∀ c ∈ v, c ≠ '=') := by
  rw [splitEq] at h
  split at h
  · cases h
  · rename_i e after hd
    have he : e = '=' := by
      have := head_dropWhile (· ≠ '=') s e (by rw [hd]; simp)
      simpa using this
    subst he
    injection h with hk hrest
    rw [splitEq] at hrest
    split at hrest
    · rename_i hnil
      injection hrest with hv
      subst hv hk
      refine ⟨?_, ?_, ?_⟩
      · rw [← hd, List.takeWhile_append_dropWhile]
      · intro c hc
        simpa using mem_takeWhile _ _ c hc
      · rw [dropWhile_nil_iff] at hnil
        simpa using hnil
    · injection hrest with _ h2
      simp [splitEq] at h2

theorem strip_pad (sp : Char → Bool) (a w b : List Char) (ha : ∀ c ∈ a, sp c = true) (hb : ∀ c ∈ b, sp c = true)
    (hw : ∀ c ∈ w, sp c = false) : strip sp (a ++ w ++ b) = w := by
  unfold strip
  cases hwe : w with
  | nil =>
    have : (a ++ [] ++ b).dropWhile sp = [] := by
      rw [dropWhile_nil_iff]
      intro c hc
      simp only [List.append_nil, List.mem_append] at hc
      rcases hc with hc | hc
      · exact ha c hc
      · exact hb c hc
    rw [this]
    rfl
  | cons x xs =>
    rw [← hwe]
    have h1 : (a ++ w ++ b).dropWhile sp = w ++ b := by
      rw [List.append_assoc, dropWhile_all sp _ _ ha, dropWhile_head]
      rw [hwe]
      intro c hc
      simp only [List.cons_append, List.head?_cons, Option.mem_def, Option.some.injEq] at hc
      rw [← hc]; exact hw x (by rw [hwe]; simp)
    rw [h1, List.reverse_append, dropWhile_all sp _ _ (by simpa using hb), dropWhile_head, List.reverse_reverse]
    intro c hc
    exact hw c (by simpa using List.mem_of_mem_head? hc)

/-- The key and value of a part, if it is well formed. -/
def item (sp : Char → Bool) (part : List Char) : Option (List Char × List Char) :=
  let part := if part = "on".toList then "enabled=yes".toList else part
  let part := if part = "off".toList then "enabled=no".toList else part
  match splitEq 2 part with
  | [k, v] => some (strip sp k, strip sp v)
  | _ => none

theorem item_eq (sp : Char → Bool) (p k v : List Char) (h : item sp p = some (k, v)) :
    (p = "on".toList ∧ k = strip sp "enabled".toList ∧ v = strip sp "yes".toList) ∨
    (p = "off".toList ∧ k = strip sp "enabled".toList ∧ v = strip sp "no".toList) ∨
    ∃ k' v', p = k' ++ '=' :: v' ∧ (∀ c ∈ k', c ≠ '=') ∧ (∀ c ∈ v', c ≠ '=') ∧ k = strip sp k' ∧ v = strip sp v' := by
  unfold item at h
  by_cases h1 : p = "on".toList
  · left
    subst h1
    have e : splitEq 2 "enabled=yes".toList = ["enabled".toList, "yes".toList] := by decide +kernel
    rw [if_pos rfl] at h
    dsimp only at h
    rw [if_neg (by decide +kernel), e] at h
    simp only [Option.some.injEq, Prod.mk.injEq] at h
    exact ⟨rfl, h.1.symm, h.2.symm⟩
  · right
    rw [if_neg h1] at h
    dsimp only at h
    by_cases h2 : p = "off".toList
    · left
      subst h2
      have e : splitEq 2 "enabled=no".toList = ["enabled".toList, "no".toList] := by decide +kernel
      rw [if_pos rfl, e] at h
      simp only [Option.some.injEq, Prod.mk.injEq] at h
      exact ⟨rfl, h.1.symm, h.2.symm⟩
    · right
      rw [if_neg h2] at h
      split at h
      · rename_i k' v' hs
        obtain ⟨e1, e2, e3⟩ := splitEq_inv p k' v' hs
        simp only [Option.some.injEq, Prod.mk.injEq] at h
        exact ⟨k', v', e1, e2, e3, h.1.symm, h.2.symm⟩
      · cases h

theorem item_pair (sp : Char → Bool) (k' v' : List Char) (hk : ∀ c ∈ k', c ≠ '=') (hv : ∀ c ∈ v', c ≠ '=') :
    item sp (k' ++ '=' :: v') = some (strip sp k', strip sp v') := by
  have hne : ∀ (w : List Char), '=' ∉ w → k' ++ '=' :: v' ≠ w := by
    intro w hw hh
    apply hw
    rw [← hh]
    simp
  unfold item
  rw [if_neg (hne _ (by decide +kernel))]
  dsimp only
  rw [if_neg (hne _ (by decide +kernel)), splitEq_cons 1 k' v' hk, splitEq_none 1 v' hv]

/-- Whitespace as directives see it: the letters of the names and of `on`, `off`, `yes` and `no` are not whitespace, and
neither is "=". -/
structure Space (sp : Char → Bool) : Prop where
  eq : sp '=' = false
  letters : ∀ c ∈ "onfeabldys".toList, sp c = false

theorem strip_word (sp : Char → Bool) (w : List Char) (hw : ∀ c ∈ w, sp c = false) : strip sp w = w := by
  have := strip_pad sp [] w [] (by simp) (by simp) hw
  simpa using this

theorem strip_letters (sp : Char → Bool) (hs : Space sp) (w : List Char) (hw : ∀ c ∈ w, c ∈ "onfeabldys".toList) :
    strip sp w = w := strip_word sp w fun c hc => hs.letters c (hw c hc)

/-- A written setting is understood. -/
theorem item_written (sp : Char → Bool) (hs : Space sp) (x : Setting) (t : List Char) (h : Written sp x t) :
    item sp t = some x.keyValue := by
  cases h with
  | pair hk hv h1 h2 =>
    rename_i k v s1 s2
    have := item_pair sp (k ++ s1) (s2 ++ v) ?_ ?_
    · rw [this]
      have e1 := strip_pad sp [] k s1 (by simp) h1 (fun c hc => (hk.2 c hc).1)
      have e2 := strip_pad sp s2 v [] h2 (by simp) (fun c hc => (hv.2 c hc).1)
      rw [List.nil_append] at e1
      rw [List.append_nil] at e2
      rw [e1, e2]
      rfl
    · intro c hc
      rcases List.mem_append.mp hc with hc | hc
      · exact (hk.2 c hc).2
      · intro hh
        rw [hh] at hc
        have := h1 _ hc
        rw [hs.eq] at this
        cases this
    · intro c hc
      rcases List.mem_append.mp hc with hc | hc
      · intro hh
        rw [hh] at hc
        have := h2 _ hc
        rw [hs.eq] at this
        cases this
      · exact (hv.2 c hc).2
  | on =>
    have e : splitEq 2 "enabled=yes".toList = ["enabled".toList, "yes".toList] := by decide +kernel
    unfold item
    rw [if_pos rfl]
    dsimp only
    rw [if_neg (by decide +kernel), e]
    dsimp only
    rw [strip_letters sp hs _ (by decide +kernel), strip_letters sp hs _ (by decide +kernel)]
    rfl
  | off =>
    have e : splitEq 2 "enabled=no".toList = ["enabled".toList, "no".toList] := by decide +kernel
    unfold item
    rw [if_neg (by decide +kernel)]
    dsimp only
    rw [if_pos rfl, e]
    dsimp only
    rw [strip_letters sp hs _ (by decide +kernel), strip_letters sp hs _ (by decide +kernel)]
    rfl

/-- An understood part is a written setting. -/
theorem written_item (sp : Char → Bool) (hs : Space sp) (p k v : List Char) (hp : IsPart sp p)
    (h : item sp p = some (k, v)) (hk : k ≠ []) (hv : v ≠ []) : ∃ x, Written sp x p ∧ x.keyValue = (k, v) := by
  rcases item_eq sp p k v h with ⟨rfl, h1, h2⟩ | ⟨rfl, h1, h2⟩ | ⟨k', v', rfl, hk', hv', rfl, rfl⟩
  · refine ⟨.on, .on, ?_⟩
    rw [h1, h2, strip_letters sp hs _ (by decide +kernel), strip_letters sp hs _ (by decide +kernel)]
    rfl
  · refine ⟨.off, .off, ?_⟩
    rw [h1, h2, strip_letters sp hs _ (by decide +kernel), strip_letters sp hs _ (by decide +kernel)]
    rfl
  · rcases hp with ⟨a, g1, g2, b, e, ha, has, h1, h2, hb, hbs⟩ | ⟨_, hall⟩
    · -- exactly one "="
      have hane : ∀ c ∈ a ++ g1, c ≠ '=' := by
        -- `k'` is what precedes the first "=", and so a prefix of `a ++ g1`
        intro c hc hce
        subst hce
        rcases List.append_eq_append_iff.mp e with ⟨t, e1, e2⟩ | ⟨t, e1, e2⟩
        · cases t with
          | nil =>
            rw [List.append_nil] at e1
            rw [e1] at hc
            exact hk' _ hc rfl
          | cons y ys =>
            injection e2 with ey e2
            have : '=' ∈ v' := by rw [e2]; simp
            exact hv' _ this rfl
        · have : '=' ∈ k' := by rw [e1]; exact List.mem_append_left _ hc
          exact hk' _ this rfl
      have e1 : k' = a ++ g1 ∧ v' = g2 ++ b := by
        rcases List.append_eq_append_iff.mp e with ⟨t, e1, e2⟩ | ⟨t, e1, e2⟩
        · cases t with
          | nil =>
            rw [List.append_nil] at e1
            rw [List.nil_append] at e2
            injection e2 with _ e2
            exact ⟨e1.symm, e2⟩
          | cons y ys =>
            exfalso
            injection e2 with ey e2
            exact hane y (by rw [e1]; simp) ey.symm
        · cases t with
          | nil =>
            rw [List.append_nil] at e1
            rw [List.nil_append] at e2
            injection e2 with _ e2
            exact ⟨e1, e2.symm⟩
          | cons y ys =>
            exfalso
            injection e2 with ey e2
            exact hk' y (by rw [e1]; simp) ey.symm
      obtain ⟨rfl, rfl⟩ := e1
      have s1 := strip_pad sp [] a g1 (by simp) h1 has
      have s2 := strip_pad sp g2 b [] h2 (by simp) hbs
      rw [List.nil_append] at s1
      rw [List.append_nil] at s2
      refine ⟨.pair a b, .pair ⟨ha, fun c hc => ⟨has c hc, hk' c (by simp [hc])⟩⟩
        ⟨hb, fun c hc => ⟨hbs c hc, hv' c (by simp [hc])⟩⟩ h1 h2, ?_⟩
      rw [s1, s2]
      rfl
    · have hks : ∀ c ∈ k', sp c = false := fun c hc => hall c (by simp [hc])
      have hvs : ∀ c ∈ v', sp c = false := fun c hc => hall c (by simp [hc])
      rw [strip_word sp k' hks] at hk ⊢
      rw [strip_word sp v' hvs] at hv ⊢
      have := Written.pair (s1 := []) (s2 := []) (sp := sp) ⟨hk, fun c hc => ⟨hks c hc, hk' c hc⟩⟩
        ⟨hv, fun c hc => ⟨hvs c hc, hv' c hc⟩⟩ (by simp) (by simp)
      simp only [List.append_nil, List.nil_append] at this
      exact ⟨_, this, rfl⟩

/-! ### Finding the parts -/

theorem written_head (sp : Char → Bool) (hs : Space sp) (x : Setting) (t : List Char) (h : Written sp x t) :
    ∃ c r, t = c :: r ∧ sp c = false ∧ c ≠ '=' := by
  cases h with
  | pair hk hv h1 h2 =>
    rename_i k v s1 s2
    cases k with
    | nil => exact absurd rfl hk.1
    | cons c r => exact ⟨c, _, rfl, hk.2 c (by simp)⟩
  | on => exact ⟨'o', ['n'], by decide +kernel, hs.letters _ (by decide +kernel), by decide⟩
  | off => exact ⟨'o', ['f', 'f'], by decide +kernel, hs.letters _ (by decide +kernel), by decide⟩

theorem directive_head (sp : Char → Bool) (hs : Space sp) (xs : List Setting) (s : List Char) (h : Directive sp xs s) :
    (s.dropWhile sp).head? ≠ some '=' := by
  have step : ∀ (x : Setting) (a t q : List Char), (∀ c ∈ a, sp c = true) → Written sp x t →
      ((a ++ (t ++ q)).dropWhile sp).head? ≠ some '=' := by
    intro x a t q ha ht
    obtain ⟨c, r, rfl, hc1, hc2⟩ := written_head sp hs x t ht
    rw [dropWhile_all sp _ _ ha, dropWhile_head]
    · simpa using hc2
    · simpa using hc1
  cases h with
  | nil h =>
    have : s.dropWhile sp = [] := by rw [dropWhile_nil_iff]; exact h
    rw [this]
    simp
  | last h1 h2 =>
    rename_i x a t
    have := step x a t [] h1 h2
    rwa [List.append_nil] at this
  | cons h1 h2 h3 h4 h5 =>
    rename_i x xs a t gap rest
    have := step x a t (gap ++ rest) h1 h2
    rwa [show a ++ t ++ gap ++ rest = a ++ (t ++ (gap ++ rest)) by simp]

theorem findall_spaces (sp : Char → Bool) (a s : List Char) (ha : ∀ c ∈ a, sp c = true) (fuel : Nat) :
    findall sp (a.length + fuel) (a ++ s) = findall sp fuel s := by
  induction a with
  | nil => simp
  | cons x xs ih =>
    rw [show (x :: xs).length + fuel = (xs.length + fuel) + 1 by simp; omega, List.cons_append, findall,
      if_pos (ha x (by simp))]
    exact ih fun y hy => ha y (by simp [hy])

theorem findall_nil (sp : Char → Bool) (fuel : Nat) : findall sp fuel [] = [] := by cases fuel <;> rfl

theorem findall_fuel (sp : Char → Bool) : ∀ (m n : Nat) (s : List Char), s.length ≤ m → s.length ≤ n →
    findall sp m s = findall sp n s := by
  intro m
  induction m with
  | zero =>
    intro n s hm _
    have : s = [] := List.length_eq_zero_iff.mp (by omega)
    rw [this, findall_nil, findall_nil]
  | succ m ih =>
    intro n s hm hn
    cases s with
    | nil => rw [findall_nil, findall_nil]
    | cons c r =>
      cases n with
      | zero => simp at hn
      | succ n =>
        simp only [List.length_cons] at hm hn
        rw [findall, findall]
        by_cases hc : sp c = true
        · rw [if_pos hc, if_pos hc]
          exact ih n r (by omega) (by omega)
        · rw [if_neg hc, if_neg hc]
          have hpos := (matchLen_found sp c r (by simpa using hc)).2.1
          rw [ih n _ (by rw [List.length_drop, List.length_cons]; omega) (by rw [List.length_drop, List.length_cons]; omega)]

theorem findall_written (sp : Char → Bool) (hs : Space sp) (x : Setting) (a t rest : List Char)
    (ha : ∀ c ∈ a, sp c = true) (ht : Written sp x t) (hr : ∀ c ∈ rest.head?, sp c = true)
    (hr' : (rest.dropWhile sp).head? ≠ some '=') :
    findall sp (a ++ (t ++ rest)).length (a ++ (t ++ rest)) = t :: findall sp rest.length rest := by
  obtain ⟨c, r, htc, hc1, hc2⟩ := written_head sp hs x t ht
  have hlen : matchLen sp (t ++ rest) = t.length := by
    cases ht with
    | pair hk hv h1 h2 => exact matchLen_pair sp hs.eq _ _ _ _ rest hk h1 h2 hv hr hr'
    | on =>
      apply matchLen_word sp _ rest ⟨by decide +kernel, ?_⟩ hr hr'
      intro c hc
      refine ⟨hs.letters c ((by decide +kernel : ∀ c ∈ "on".toList, c ∈ "onfeabldys".toList) c hc), ?_⟩
      exact (by decide +kernel : ∀ c ∈ "on".toList, c ≠ '=') c hc
    | off =>
      apply matchLen_word sp _ rest ⟨by decide +kernel, ?_⟩ hr hr'
      intro c hc
      refine ⟨hs.letters c ((by decide +kernel : ∀ c ∈ "off".toList, c ∈ "onfeabldys".toList) c hc), ?_⟩
      exact (by decide +kernel : ∀ c ∈ "off".toList, c ≠ '=') c hc
  rw [List.length_append, findall_spaces sp a _ ha]
  have e : t ++ rest = c :: (r ++ rest) := by rw [htc]; rfl
  have hl : (t ++ rest).length = (r.length + rest.length) + 1 := by rw [e]; simp
  rw [hl]
  conv_lhs => rw [e, findall]
  rw [if_neg (by rw [hc1]; simp), ← e, hlen, List.take_left, List.drop_left]
  congr 1
  exact findall_fuel sp _ _ rest (by omega) (by omega)

/-- A well-formed directive is split into its settings. -/
theorem findall_directive (sp : Char → Bool) (hs : Space sp) (xs : List Setting) (s : List Char) (h : Directive sp xs s) :
    List.Forall₂ (Written sp) xs (findall sp s.length s) := by
  induction h with
  | nil h =>
    rename_i s
    have := findall_spaces sp s [] h 0
    rw [List.append_nil] at this
    rw [Nat.add_zero] at this
    rw [this]
    exact .nil
  | last h1 h2 =>
    rename_i x a t
    have := findall_written sp hs x a t [] h1 h2 (by simp) (by simp)
    rw [List.append_nil] at this
    rw [this]
    exact .cons h2 .nil
  | cons h1 h2 h3 h4 h5 ih =>
    rename_i x xs a t gap rest
    have hd := directive_head sp hs xs rest h5
    have := findall_written sp hs x a t (gap ++ rest) h1 h2 ?_ (by rw [dropWhile_all sp _ _ h4]; exact hd)
    · rw [show a ++ t ++ gap ++ rest = a ++ (t ++ (gap ++ rest)) by simp, this, List.length_append,
        findall_spaces sp gap rest h4]
      exact .cons h2 ih
    · cases gap with
      | nil => exact absurd rfl h3
      | cons y ys => simpa using h4 y (by simp)

/-- The parts found in any text, and the whitespace between them. -/
theorem findall_shape (sp : Char → Bool) : ∀ (n : Nat) (s : List Char), s.length ≤ n →
    ((∀ c ∈ s, sp c = true) ∧ findall sp n s = []) ∨
    ∃ a p rest, s = a ++ p ++ rest ∧ (∀ c ∈ a, sp c = true) ∧ IsPart sp p ∧ p ≠ [] ∧ (∀ c ∈ rest.head?, sp c = true) ∧
      findall sp n s = p :: findall sp rest.length rest := by
  intro n
  induction n with
  | zero =>
    intro s h
    have : s = [] := List.length_eq_zero_iff.mp (by omega)
    subst this
    exact Or.inl ⟨by simp, rfl⟩
  | succ n ih =>
    intro s h
    cases s with
    | nil => exact Or.inl ⟨by simp, rfl⟩
    | cons c r =>
      simp only [List.length_cons] at h
      rw [findall]
      by_cases hc : sp c = true
      · rw [if_pos hc]
        rcases ih r (by omega) with ⟨h1, h2⟩ | ⟨a, p, rest, h1, h2, h3, h4, h5, h6⟩
        · left
          refine ⟨?_, h2⟩
          intro x hx
          rcases List.mem_cons.mp hx with rfl | hx
          · exact hc
          · exact h1 x hx
        · right
          refine ⟨c :: a, p, rest, by rw [h1]; simp, ?_, h3, h4, h5, h6⟩
          intro x hx
          rcases List.mem_cons.mp hx with rfl | hx
          · exact hc
          · exact h2 x hx
      · right
        rw [if_neg hc]
        have hf := matchLen_found sp c r (by simpa using hc)
        refine ⟨[], (c :: r).take (matchLen sp (c :: r)), (c :: r).drop (matchLen sp (c :: r)), ?_, by simp, hf.1, ?_,
          hf.2.2, ?_⟩
        · rw [List.nil_append, List.take_append_drop]
        · intro hh
          have := congrArg List.length hh
          rw [List.length_take, List.length_cons, List.length_nil] at this
          omega
        · congr 1
          apply findall_fuel
          · rw [List.length_drop, List.length_cons]; omega
          · omega

/-- If every part found in a text is a written setting, the text is a directive. -/
theorem directive_findall (sp : Char → Bool) : ∀ (n : Nat) (s : List Char) (xs : List Setting), s.length ≤ n →
    List.Forall₂ (Written sp) xs (findall sp s.length s) → Directive sp xs s := by
  intro n
  induction n with
  | zero =>
    intro s xs h hw
    have : s = [] := List.length_eq_zero_iff.mp (by omega)
    subst this
    cases hw
    exact .nil (by simp)
  | succ n ih =>
    intro s xs h hw
    rcases findall_shape sp s.length s (Nat.le_refl _) with ⟨h1, h2⟩ | ⟨a, p, rest, h1, h2, h3, h4, h5, h6⟩
    · rw [h2] at hw
      cases hw
      exact .nil h1
    · rw [h6] at hw
      cases hw with
      | cons hx hxs =>
        rename_i x xs
        subst h1
        cases hr : rest with
        | nil =>
          rw [hr] at hxs
          cases hxs
          rw [List.append_nil]
          exact .last h2 hx
        | cons y ys =>
          rw [← hr]
          have hplen := List.length_pos_iff.mpr h4
          have hd := ih rest xs (by simp only [List.length_append] at h; omega) hxs
          have hy : sp y = true := h5 y (by rw [hr]; simp)
          -- take the first blank as the gap
          have hys : Directive sp xs ys := by
            apply ih ys xs
            · rw [hr] at h; simp only [List.length_append, List.length_cons] at h; omega
            · rw [hr] at hxs
              rw [List.length_cons, findall, if_pos hy] at hxs
              exact hxs
          have := Directive.cons (gap := [y]) h2 hx (by simp) (by simpa using hy) hys
          rw [hr]
          simpa using this

/-! ### The settings -/

theorem parseParts_cons {V : Type} (sp : Char → Bool) (pf : Field → List Char → Option V) (acc : OptSet V)
    (p : List Char) (rest : List (List Char)) : parseParts sp pf acc (p :: rest) =
      ((item sp p).bind fun kv => (directiveFields.lookup kv.1).bind fun field => (pf field kv.2).bind fun value =>
        if (acc field).isSome then none
        else parseParts sp pf (acc.overlay fun f => if f = field then some value else none) rest) := by
  rw [parseParts, item]
  generalize splitEq 2 _ = l
  match l with
  | [] => rfl
  | [_] => rfl
  | [k, v] =>
    dsimp only [Option.bind_some]
    cases directiveFields.lookup (strip sp k) with
    | none => rfl
    | some f =>
      dsimp only [Option.bind_some]
      cases pf f (strip sp v) <;> rfl
  | _ :: _ :: _ :: _ => rfl

theorem parseParts_iff {V : Type} (sp : Char → Bool) (pf : Field → List Char → Option V) :
    ∀ (parts : List (List Char)) (acc r : OptSet V), parseParts sp pf acc parts = some r ↔
      ∃ kvs : List (Field × V),
        List.Forall₂ (fun p kv => ∃ k v, item sp p = some (k, v) ∧ directiveFields.lookup k = some kv.1 ∧
          pf kv.1 v = some kv.2) parts kvs ∧
        (∀ kv ∈ kvs, acc kv.1 = none) ∧ (kvs.map Prod.fst).Nodup ∧
        r = fun f => match kvs.lookup f with | some v => some v | none => acc f := by
  intro parts
  induction parts with
  | nil =>
    intro acc r
    rw [parseParts]
    constructor
    · rintro h
      injection h with h
      exact ⟨[], .nil, by simp, by simp, by rw [← h]; rfl⟩
    · rintro ⟨kvs, h, _, _, hr⟩
      cases h
      rw [hr]
      rfl
  | cons p rest ih =>
    intro acc r
    rw [parseParts_cons]
    constructor
    · intro h
      rw [Option.bind_eq_some_iff] at h
      obtain ⟨⟨k, v⟩, hi, h⟩ := h
      rw [Option.bind_eq_some_iff] at h
      obtain ⟨field, hf, h⟩ := h
      rw [Option.bind_eq_some_iff] at h
      obtain ⟨value, hv, h⟩ := h
      split at h
      · cases h
      · rename_i hacc
        rw [ih] at h
        obtain ⟨kvs, h1, h2, h3, h4⟩ := h
        have hne : ∀ kv ∈ kvs, kv.1 ≠ field := by
          intro kv hkv he
          have := h2 kv hkv
          simp [OptSet.overlay, he] at this
        refine ⟨(field, value) :: kvs, .cons ⟨k, v, hi, hf, hv⟩ h1, ?_, ?_, ?_⟩
        · intro kv hkv
          rcases List.mem_cons.mp hkv with rfl | hkv
          · simpa using hacc
          · have := h2 kv hkv
            simp only [OptSet.overlay, if_neg (hne kv hkv)] at this
            simpa using this
        · rw [List.map_cons, List.nodup_cons]
          refine ⟨?_, h3⟩
          intro hm
          rw [List.mem_map] at hm
          obtain ⟨kv, hkv, he⟩ := hm
          exact hne kv hkv he
        · rw [h4]
          funext f
          rw [List.lookup_cons]
          by_cases hff : f = field
          · subst hff
            have hl : kvs.lookup f = none := by
              rw [List.lookup_eq_none_iff]
              intro kv hkv
              have := hne kv hkv
              simpa using Ne.symm this
            simp [hl, OptSet.overlay]
          · have : (f == field) = false := by simpa using hff
            rw [this]
            dsimp only
            cases kvs.lookup f with
            | some v => rfl
            | none => simp only [OptSet.overlay, if_neg hff, Option.isSome_none, Bool.false_eq_true, if_false]
    · rintro ⟨kvs, h1, h2, h3, h4⟩
      cases h1 with
      | cons hp hrest =>
        rename_i kv kvs
        obtain ⟨k, v, hi, hf, hv⟩ := hp
        obtain ⟨field, value⟩ := kv
        dsimp only at hf hv
        rw [hi, Option.bind_some, hf, Option.bind_some, hv, Option.bind_some,
          if_neg (by rw [h2 (field, value) (by simp)]; simp), ih]
        rw [List.map_cons, List.nodup_cons] at h3
        have hne : ∀ kv ∈ kvs, kv.1 ≠ field := by
          intro kv hkv he
          exact h3.1 (List.mem_map.mpr ⟨kv, hkv, he⟩)
        refine ⟨kvs, hrest, ?_, h3.2, ?_⟩
        · intro kv hkv
          simp only [OptSet.overlay, if_neg (hne kv hkv)]
          simpa using h2 kv (by simp [hkv])
        · rw [h4]
          funext f
          rw [List.lookup_cons]
          by_cases hff : f = field
          · subst hff
            have hl : kvs.lookup f = none := by
              rw [List.lookup_eq_none_iff]
              intro kv hkv
              have := hne kv hkv
              simpa using Ne.symm this
            simp [hl, OptSet.overlay]
          · have : (f == field) = false := by simpa using hff
            rw [this]
            dsimp only
            cases kvs.lookup f with
            | some v => rfl
            | none => simp only [OptSet.overlay, if_neg hff, Option.isSome_none, Bool.false_eq_true, if_false]

theorem lookup_nonempty (k : List Char) (f : Field) (h : directiveFields.lookup k = some f) : k ≠ [] := by
  intro hh
  rw [hh] at h
  exact absurd h (by decide +revert +kernel)

end Verif.Opts
