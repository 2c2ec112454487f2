import Verif.Json.Sound

/-! Texts with plain hexadecimal numbers are read as the language says. -/
namespace Verif.Json

variable {P : Floats} {strict : Bool}

def Plain (x : Nat) : Prop := x ≠ 43 ∧ x ≠ 45 ∧ x ≠ 95 ∧ ¬(9 ≤ x ∧ x ≤ 13) ∧ ¬(28 ≤ x ∧ x ≤ 32)

theorem plain_space {x : Nat} (h : Plain x) : isSpace x = false := by
  obtain ⟨_, _, _, _, _⟩ := h
  simp only [isSpace, Bool.or_eq_false_iff, Bool.and_eq_false_iff, decide_eq_false_iff_not]
  omega

theorem hexDigits_step {c acc : Nat} {cs : Str} (h : Plain c) :
    hexDigits acc (c :: cs) = (hexValue c).bind fun d => hexDigits (acc * 16 + d) cs := by
  rw [hexDigits]
  · cases hexValue c <;> rfl
  · intro c' cs' h1; exact absurd h1 h.2.2.1

theorem laxHex_plain {a b c d : Nat} {u : Int} (h : laxHex [a, b, c, d] = some u) (hp : ∀ x ∈ [a, b, c, d], Plain x) :
    hex4 [a, b, c, d] = some u := by
  have ha := hp a (by simp)
  have hb := hp b (by simp)
  have hc := hp c (by simp)
  have hd := hp d (by simp)
  rw [laxHex] at h
  split at h
  · cases h
  rename_i hx
  have hstrip : (([a, b, c, d].dropWhile isSpace).reverse.dropWhile isSpace).reverse = [a, b, c, d] := by
    rw [List.dropWhile_cons, plain_space ha]
    simp only [Bool.false_eq_true, if_false, List.reverse_cons, List.reverse_nil, List.nil_append, List.cons_append]
    rw [List.dropWhile_cons, plain_space hd]
    simp
  unfold hexInt at h
  rw [hstrip] at h
  split at h
  · rename_i heq; simp at heq; exact absurd heq.1 ha.2.1
  · rename_i heq; simp at heq; exact absurd heq.1 ha.1
  · rw [hexBody] at h
    · simp only [hex4, hexTable_eq]
      cases h1 : hexValue a with
      | none => rw [h1] at h; cases h
      | some x =>
        rw [h1] at h
        simp only [hexDigits_step hb, hexDigits_step hc, hexDigits_step hd] at h
        cases h2 : hexValue b with
        | none => rw [h2] at h; cases h
        | some y =>
          cases h3 : hexValue c with
          | none => rw [h2, h3] at h; cases h
          | some z =>
            cases h4 : hexValue d with
            | none => rw [h2, h3, h4] at h; cases h
            | some w =>
              rw [h2, h3, h4] at h
              rw [← h]
              rfl
    all_goals
      intro _ _ _ h2
      simp at h2
      omega

theorem plain_infix {s t : Str} (h : PlainHex s) (ht : ∃ x y, s = x ++ t ++ y) : PlainHex t := by
  obtain ⟨x, y, rfl⟩ := ht
  intro pre a b c d rest hs
  exact h (x ++ pre) a b c d (rest ++ y) (by rw [hs]; simp)

theorem plain_cons {c : Nat} {s : Str} (h : PlainHex (c :: s)) : PlainHex s := plain_infix h ⟨[c], [], by simp⟩

theorem body_strict {b t : Str} (h : Body laxHex strict b t) : PlainHex b → Body hex4 strict b t := by
  induction h with
  | nil => intro _; exact .nil
  | plain h1 h2 h3 _ ih => intro hp; exact .plain h1 h2 h3 (ih (plain_cons hp))
  | short h1 _ ih => intro hp; exact .short h1 (ih (plain_cons (plain_cons hp)))
  | unicode h1 h2 h3 h4 hb ih =>
    intro hp
    refine .unicode (laxHex_plain h1 (hp [] _ _ _ _ _ rfl)) h2 h3 ?_ (ih (plain_cons (plain_cons (plain_cons (plain_cons (plain_cons (plain_cons hp)))))))
    intro hh a' b' c' d' s' u' hs hu
    exact h4 hh a' b' c' d' s' u' hs (laxHex_hex4 hu)
  | @pair a b c d a' b' c' d' u u' s t h1 h2 h3 h4 _ ih =>
    intro hp
    exact .pair (laxHex_plain h1 (hp [] _ _ _ _ _ rfl)) h2 (laxHex_plain h3 (hp [92, 117, a, b, c, d] _ _ _ _ _ rfl)) h4
      (ih (plain_infix hp ⟨[92, 117, a, b, c, d, 92, 117, a', b', c', d'], [], by simp⟩))

mutual
theorem text_strict : ∀ {s : Str} {v : Json P.F}, Text laxHex P strict s v → PlainHex s → Text hex4 P strict s v
  | _, _, .null, _ => .null
  | _, _, .true, _ => .true
  | _, _, .false, _ => .false
  | _, _, .nan, _ => .nan
  | _, _, .inf, _ => .inf
  | _, _, .negInf, _ => .negInf
  | _, _, .int h, _ => .int h
  | _, _, .float h, _ => .float h
  | _, _, .str h, hp => .str (body_strict h (plain_infix hp ⟨[34], [34], rfl⟩))
  | _, _, .arrEmpty h, _ => .arrEmpty h
  | _, _, .arr h, hp => .arr (elements_strict h (plain_infix hp ⟨[91], [93], rfl⟩))
  | _, _, .objEmpty h, _ => .objEmpty h
  | _, _, .obj h, hp => .obj (entries_strict h (plain_infix hp ⟨[123], [125], rfl⟩))
theorem elements_strict : ∀ {s : Str} {xs : List (Json P.F)}, Elements laxHex P strict s xs → PlainHex s → Elements hex4 P strict s xs
  | _, _, .one (w := w) (w' := w') hw h hw', hp => .one hw (text_strict h (plain_infix hp ⟨w, w', rfl⟩)) hw'
  | _, _, .cons (w := w) (s := s) (w' := w') (s' := s') hw h hw' h2, hp =>
    .cons hw (text_strict h (plain_infix hp ⟨w, w' ++ 44 :: s', by simp⟩)) hw'
      (elements_strict h2 (plain_infix hp ⟨w ++ s ++ w' ++ [44], [], by simp⟩))
theorem entries_strict : ∀ {s : Str} {kvs : List (Str × Json P.F)}, Entries laxHex P strict s kvs → PlainHex s → Entries hex4 P strict s kvs
  | _, _, .one (w := w) (key := key) (w' := w') (w'' := w'') (s := s) (w''' := w''') hw hk h1 h2 h hw', hp =>
    .one hw (body_strict hk (plain_infix hp ⟨w ++ [34], 34 :: w' ++ 58 :: w'' ++ s ++ w''', by simp⟩)) h1 h2
      (text_strict h (plain_infix hp ⟨w ++ 34 :: key ++ 34 :: w' ++ 58 :: w'', w''', by simp⟩)) hw'
  | _, _, .cons (w := w) (key := key) (w' := w') (w'' := w'') (s := s) (w''' := w''') (s' := s') hw hk h1 h2 h hw' h3, hp =>
    .cons hw (body_strict hk (plain_infix hp ⟨w ++ [34], 34 :: w' ++ 58 :: w'' ++ s ++ w''' ++ 44 :: s', by simp⟩)) h1 h2
      (text_strict h (plain_infix hp ⟨w ++ 34 :: key ++ 34 :: w' ++ 58 :: w'', w''' ++ 44 :: s', by simp⟩)) hw'
      (entries_strict h3 (plain_infix hp ⟨w ++ 34 :: key ++ 34 :: w' ++ 58 :: w'' ++ s ++ w''' ++ [44], [], by simp⟩))
end

end Verif.Json
