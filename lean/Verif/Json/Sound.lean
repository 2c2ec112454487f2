import Verif.Json.Decode

/-! What the decoder reads is in the language, and it comes to an end. -/
namespace Verif.Json

variable {P : Floats} {strict : Bool}

theorem read_sound (n : Nat) :
    (∀ s v rest, scan P strict n s = .ok v rest → ∃ p, s = p ++ rest ∧ Text laxHex P strict p v) ∧
    (∀ s v rest, array P strict n s = .ok v rest → ∃ p, s = p ++ 93 :: rest ∧ Text laxHex P strict (91 :: p ++ [93]) v) ∧
    (∀ s xs rest, elements P strict n s = .ok xs rest → ∃ p, s = p ++ 93 :: rest ∧ Elements laxHex P strict p xs) ∧
    (∀ s v rest, object P strict n s = .ok v rest → ∃ p, s = p ++ 125 :: rest ∧ Text laxHex P strict (123 :: p ++ [125]) v) ∧
    (∀ s kvs rest, entries P strict n s = .ok kvs rest → ∃ p, s = p ++ 125 :: rest ∧ Entries laxHex P strict (34 :: p) kvs) := by
  induction n with
  | zero => simp [scan, array, elements, object, entries]
  | succ n ih =>
    obtain ⟨ih1, ih2, ih3, ih4, ih5⟩ := ih
    refine ⟨?_, ?_, ?_, ?_, ?_⟩
    · intro s v rest h
      cases s with
      | nil => simp [scan] at h
      | cons c s =>
        rw [scan] at h
        split at h
        · rename_i hc
          subst hc
          cases hs : scanString strict (s.length + 1) s with
          | ok t r =>
            rw [hs] at h
            simp only [R.ok.injEq] at h
            obtain ⟨rfl, rfl⟩ := h
            obtain ⟨b, rfl, hb⟩ := scanString_sound _ hs
            exact ⟨34 :: b ++ [34], by simp, .str hb⟩
          | bad => rw [hs] at h; simp at h
          | outOfFuel => rw [hs] at h; simp at h
        · split at h
          · rename_i hc
            subst hc
            obtain ⟨p, rfl, ht⟩ := ih4 s v rest h
            exact ⟨123 :: p ++ [125], by simp, ht⟩
          · split at h
            · rename_i hc
              subst hc
              obtain ⟨p, rfl, ht⟩ := ih2 s v rest h
              exact ⟨91 :: p ++ [93], by simp, ht⟩
            · obtain ⟨p, h1, _, h2⟩ := scanOther_sound (hex := laxHex) (strict := strict) P h
              exact ⟨p, h1, h2⟩
    · intro s v rest h
      obtain ⟨w, hw, hs⟩ := skip_split s
      rw [array] at h
      split at h
      · rename_i r hr
        simp only [R.ok.injEq] at h
        obtain ⟨rfl, rfl⟩ := h
        rw [hr] at hs
        exact ⟨w, hs, .arrEmpty hw⟩
      · cases he : elements P strict n (skipWs s) with
        | ok xs r =>
          rw [he] at h
          simp only [R.ok.injEq] at h
          obtain ⟨rfl, rfl⟩ := h
          obtain ⟨p, hp, hel⟩ := ih3 _ _ _ he
          rw [hp] at hs
          refine ⟨w ++ p, by rw [hs]; simp, .arr ?_⟩
          cases hel with
          | @one w1 s1 w2 x h1 h2 h3 =>
            have : w ++ (w1 ++ s1 ++ w2) = (w ++ w1) ++ s1 ++ w2 := by simp
            rw [this]
            exact .one (fun c hc => (List.mem_append.1 hc).elim (hw c) (h1 c)) h2 h3
          | @cons w1 s1 w2 x s2 xs h1 h2 h3 h4 =>
            have : w ++ (w1 ++ s1 ++ w2 ++ 44 :: s2) = (w ++ w1) ++ s1 ++ w2 ++ 44 :: s2 := by simp
            rw [this]
            exact .cons (fun c hc => (List.mem_append.1 hc).elim (hw c) (h1 c)) h2 h3 h4
        | bad => rw [he] at h; simp at h
        | outOfFuel => rw [he] at h; simp at h
    · intro s xs rest h
      rw [elements] at h
      cases hs : scan P strict n s with
      | ok x r =>
        rw [hs] at h
        simp only at h
        obtain ⟨p, rfl, ht⟩ := ih1 _ _ _ hs
        obtain ⟨w, hw, hr⟩ := skip_split r
        split at h
        · rename_i r' hr'
          simp only [R.ok.injEq] at h
          obtain ⟨rfl, rfl⟩ := h
          rw [hr'] at hr
          refine ⟨p ++ w, by rw [hr]; simp, ?_⟩
          exact .one (w := []) (by simp [Ws]) ht hw
        · rename_i r' hr'
          rw [hr'] at hr
          rw [skipFast_eq] at h
          cases he : elements P strict n (skipWs r') with
          | ok ys r2 =>
            rw [he] at h
            simp only [R.ok.injEq] at h
            obtain ⟨rfl, rfl⟩ := h
            obtain ⟨w2, hw2, hr2⟩ := skip_split r'
            obtain ⟨p2, hp2, hel⟩ := ih3 _ _ _ he
            rw [hp2] at hr2
            refine ⟨p ++ w ++ 44 :: (w2 ++ p2), by rw [hr, hr2]; simp, ?_⟩
            refine .cons (w := []) (by simp [Ws]) ht hw ?_
            cases hel with
            | @one w1 s1 w3 x h1 h2 h3 =>
              have : w2 ++ (w1 ++ s1 ++ w3) = (w2 ++ w1) ++ s1 ++ w3 := by simp
              rw [this]
              exact .one (fun c hc => (List.mem_append.1 hc).elim (hw2 c) (h1 c)) h2 h3
            | @cons w1 s1 w3 x s2 xs h1 h2 h3 h4 =>
              have : w2 ++ (w1 ++ s1 ++ w3 ++ 44 :: s2) = (w2 ++ w1) ++ s1 ++ w3 ++ 44 :: s2 := by simp
              rw [this]
              exact .cons (fun c hc => (List.mem_append.1 hc).elim (hw2 c) (h1 c)) h2 h3 h4
          | bad => rw [he] at h; simp at h
          | outOfFuel => rw [he] at h; simp at h
        · simp at h
      | bad => rw [hs] at h; simp at h
      | outOfFuel => rw [hs] at h; simp at h
    · intro s v rest h
      obtain ⟨w, hw, hs⟩ := skip_split s
      rw [object] at h
      split at h
      · rename_i r hr
        simp only [R.ok.injEq] at h
        obtain ⟨rfl, rfl⟩ := h
        rw [hr] at hs
        exact ⟨w, hs, .objEmpty hw⟩
      · rename_i r hr
        cases he : entries P strict n r with
        | ok kvs r' =>
          rw [he] at h
          simp only [R.ok.injEq] at h
          obtain ⟨rfl, rfl⟩ := h
          obtain ⟨p, rfl, hen⟩ := ih5 _ _ _ he
          rw [hr] at hs
          refine ⟨w ++ 34 :: p, by rw [hs]; simp, ?_⟩
          rw [dictOf_eq]
          refine .obj ?_
          generalize hq : (34 :: p : Str) = q at hen
          cases hen with
          | @one w1 key k w2 w3 s1 v w4 h1 hk h2 h3 h h4 =>
            have : w ++ (w1 ++ 34 :: key ++ 34 :: w2 ++ 58 :: w3 ++ s1 ++ w4) = (w ++ w1) ++ 34 :: key ++ 34 :: w2 ++ 58 :: w3 ++ s1 ++ w4 := by simp
            rw [this]
            exact .one (fun c hc => (List.mem_append.1 hc).elim (hw c) (h1 c)) hk h2 h3 h h4
          | @cons w1 key k w2 w3 s1 v w4 s2 kvs h1 hk h2 h3 h h4 h5 =>
            have : w ++ (w1 ++ 34 :: key ++ 34 :: w2 ++ 58 :: w3 ++ s1 ++ w4 ++ 44 :: s2) =
                (w ++ w1) ++ 34 :: key ++ 34 :: w2 ++ 58 :: w3 ++ s1 ++ w4 ++ 44 :: s2 := by simp
            rw [this]
            exact .cons (fun c hc => (List.mem_append.1 hc).elim (hw c) (h1 c)) hk h2 h3 h h4 h5
        | bad => rw [he] at h; simp at h
        | outOfFuel => rw [he] at h; simp at h
      · simp at h
    · intro s kvs rest h
      rw [entries] at h
      cases hstr : scanString strict (s.length + 1) s with
      | ok k r =>
        rw [hstr] at h
        simp only at h
        obtain ⟨b, rfl, hb⟩ := scanString_sound _ hstr
        obtain ⟨w1, hw1, hr1⟩ := skip_split r
        split at h
        · rename_i r1 hr1'
          rw [hr1'] at hr1
          rw [skipFast_eq] at h
          obtain ⟨w2, hw2, hr2⟩ := skip_split r1
          cases hs : scan P strict n (skipWs r1) with
          | ok v r2 =>
            rw [hs] at h
            simp only at h
            obtain ⟨p, hp, ht⟩ := ih1 _ _ _ hs
            rw [hp] at hr2
            obtain ⟨w3, hw3, hr3⟩ := skip_split r2
            split at h
            · rename_i r3 hr3'
              simp only [R.ok.injEq] at h
              obtain ⟨rfl, rfl⟩ := h
              rw [hr3'] at hr3
              refine ⟨b ++ 34 :: w1 ++ 58 :: w2 ++ p ++ w3, by rw [hr1, hr2, hr3]; simp, ?_⟩
              exact Entries.one (w := []) (by simp [Ws]) hb hw1 hw2 ht hw3
            · rename_i r3 hr3'
              rw [hr3'] at hr3
              obtain ⟨w4, hw4, hr4⟩ := skip_split r3
              split at h
              · rename_i r4 hr4'
                rw [hr4'] at hr4
                cases he : entries P strict n r4 with
                | ok kvs' r5 =>
                  rw [he] at h
                  simp only [R.ok.injEq] at h
                  obtain ⟨rfl, rfl⟩ := h
                  obtain ⟨p2, rfl, hen⟩ := ih5 _ _ _ he
                  refine ⟨b ++ 34 :: w1 ++ 58 :: w2 ++ p ++ w3 ++ 44 :: (w4 ++ 34 :: p2), by rw [hr1, hr2, hr3, hr4]; simp, ?_⟩
                  refine Entries.cons (w := []) (by simp [Ws]) hb hw1 hw2 ht hw3 ?_
                  generalize hq : (34 :: p2 : Str) = q at hen
                  cases hen with
                  | @one u1 key k u2 u3 s1 v u4 h1 hk h2 h3 h h4 =>
                    have : w4 ++ (u1 ++ 34 :: key ++ 34 :: u2 ++ 58 :: u3 ++ s1 ++ u4) = (w4 ++ u1) ++ 34 :: key ++ 34 :: u2 ++ 58 :: u3 ++ s1 ++ u4 := by simp
                    rw [this]
                    exact .one (fun c hc => (List.mem_append.1 hc).elim (hw4 c) (h1 c)) hk h2 h3 h h4
                  | @cons u1 key k u2 u3 s1 v u4 s2 kvs h1 hk h2 h3 h h4 h5 =>
                    have : w4 ++ (u1 ++ 34 :: key ++ 34 :: u2 ++ 58 :: u3 ++ s1 ++ u4 ++ 44 :: s2) =
                        (w4 ++ u1) ++ 34 :: key ++ 34 :: u2 ++ 58 :: u3 ++ s1 ++ u4 ++ 44 :: s2 := by simp
                    rw [this]
                    exact .cons (fun c hc => (List.mem_append.1 hc).elim (hw4 c) (h1 c)) hk h2 h3 h h4 h5
                | bad => rw [he] at h; simp at h
                | outOfFuel => rw [he] at h; simp at h
              · simp at h
            · simp at h
          | bad => rw [hs] at h; simp at h
          | outOfFuel => rw [hs] at h; simp at h
        · simp at h
      | bad => rw [hstr] at h; simp at h
      | outOfFuel => rw [hstr] at h; simp at h

theorem scan_shorter {n : Nat} {s rest : Str} {v : Json P.F} (h : scan P strict n s = .ok v rest) : rest.length < s.length := by
  obtain ⟨p, rfl, ht⟩ := (read_sound n).1 _ _ _ h
  obtain ⟨c, s', rfl, _⟩ := text_head ht
  simp; omega

theorem scanString_shorter {n : Nat} {s t rest : Str} (h : scanString strict n s = .ok t rest) : rest.length < s.length := by
  obtain ⟨b, rfl, _⟩ := scanString_sound n h
  simp; omega

theorem read_ends (n : Nat) :
    (∀ s, 3 * s.length + 1 ≤ n → scan P strict n s ≠ .outOfFuel) ∧
    (∀ s, 3 * s.length + 3 ≤ n → array P strict n s ≠ .outOfFuel) ∧
    (∀ s, 3 * s.length + 2 ≤ n → elements P strict n s ≠ .outOfFuel) ∧
    (∀ s, 3 * s.length + 3 ≤ n → object P strict n s ≠ .outOfFuel) ∧
    (∀ s, 3 * s.length + 2 ≤ n → entries P strict n s ≠ .outOfFuel) := by
  induction n with
  | zero =>
    refine ⟨?_, ?_, ?_, ?_, ?_⟩ <;> intro s h <;> omega
  | succ n ih =>
    obtain ⟨ih1, ih2, ih3, ih4, ih5⟩ := ih
    refine ⟨?_, ?_, ?_, ?_, ?_⟩
    · intro s h
      cases s with
      | nil => simp [scan]
      | cons c s =>
        simp only [List.length_cons] at h
        rw [scan]
        split
        · have := scanString_fuel strict (s.length + 1) s (by omega)
          cases hs : scanString strict (s.length + 1) s with
          | outOfFuel => exact absurd hs this
          | ok => simp
          | bad => simp
        · split
          · exact ih4 s (by omega)
          · split
            · exact ih2 s (by omega)
            · exact scanOther_fuel P _
    · intro s h
      have hl := skip_length s
      rw [array]
      split
      · simp
      · have := ih3 (skipWs s) (by omega)
        cases hs : elements P strict n (skipWs s) with
        | outOfFuel => exact absurd hs this
        | ok => simp
        | bad => simp
    · intro s h
      rw [elements]
      have := ih1 s (by omega)
      cases hs : scan P strict n s with
      | outOfFuel => exact absurd hs this
      | bad => simp
      | ok v r =>
        have h1 := scan_shorter hs
        have h2 := skip_length r
        simp only
        split
        · simp
        · rename_i r' hr'
          rw [hr'] at h2
          simp only [List.length_cons] at h2
          have h3 := skip_length r'
          rw [skipFast_eq]
          have := ih3 (skipWs r') (by omega)
          cases he : elements P strict n (skipWs r') with
          | outOfFuel => exact absurd he this
          | ok => simp
          | bad => simp
        · simp
    · intro s h
      have hl := skip_length s
      rw [object]
      split
      · simp
      · rename_i r hr
        rw [hr] at hl
        simp only [List.length_cons] at hl
        have := ih5 r (by omega)
        cases hs : entries P strict n r with
        | outOfFuel => exact absurd hs this
        | ok => simp
        | bad => simp
      · simp
    · intro s h
      rw [entries]
      have := scanString_fuel strict (s.length + 1) s (by omega)
      cases hstr : scanString strict (s.length + 1) s with
      | outOfFuel => exact absurd hstr this
      | bad => simp
      | ok k r =>
        have h1 := scanString_shorter hstr
        have h2 := skip_length r
        simp only
        split
        · rename_i r1 hr1
          rw [hr1] at h2
          simp only [List.length_cons] at h2
          rw [skipFast_eq]
          have h3 := skip_length r1
          have := ih1 (skipWs r1) (by omega)
          cases hs : scan P strict n (skipWs r1) with
          | outOfFuel => exact absurd hs this
          | bad => simp
          | ok v r2 =>
            have h4 := scan_shorter hs
            have h5 := skip_length r2
            simp only
            split
            · simp
            · rename_i r3 hr3
              rw [hr3] at h5
              simp only [List.length_cons] at h5
              have h6 := skip_length r3
              split
              · rename_i r4 hr4
                rw [hr4] at h6
                simp only [List.length_cons] at h6
                have := ih5 r4 (by omega)
                cases he : entries P strict n r4 with
                | outOfFuel => exact absurd he this
                | ok => simp
                | bad => simp
              · simp
            · simp
        · simp

/-- The decoder reads exactly the language, with its own notion of hexadecimal numbers. -/
theorem decode_iff (s : Str) (v : Json P.F) : decode P strict s = .value v ↔ Document laxHex P strict s v := by
  constructor
  · intro h
    unfold decode at h
    cases hs : scan P strict (3 * s.length + 3) (skipWs s) with
    | ok v' rest =>
      rw [hs] at h
      simp only at h
      split at h
      · rename_i hr
        cases h
        obtain ⟨p, hp, ht⟩ := (read_sound _).1 _ _ _ hs
        obtain ⟨w, hw, hw'⟩ := skip_split s
        obtain ⟨w2, hw2, hw2'⟩ := skip_split rest
        rw [hr, List.append_nil] at hw2'
        subst hw2'
        exact ⟨w, p, rest, hw, ht, hw2, by rw [hw', hp, List.append_assoc]⟩
      · cases h
    | bad => rw [hs] at h; cases h
    | outOfFuel => rw [hs] at h; cases h
  · rintro ⟨w, t, w', hw, ht, hw', rfl⟩
    obtain ⟨c, s', hs, hc, _⟩ := text_head ht
    have hstop : Stop w' := by
      have := stop_ws hw' (rest := []) (by intro c hc; simp at hc)
      rwa [List.append_nil] at this
    have e : skipWs (w ++ t ++ w') = t ++ w' := by
      rw [List.append_assoc, skip_ws hw, hs, List.cons_append, skip_cons hc]
    have := text_read ht w' (3 * (w ++ t ++ w').length + 3) hstop (by simp; omega)
    unfold decode
    rw [e, this]
    simp only
    rw [skip_all hw', if_pos rfl]

theorem decode_ends (s : Str) : decode P strict s ≠ .outOfFuel := by
  unfold decode
  have hl := skip_length s
  have := (read_ends (P := P) (strict := strict) (3 * s.length + 3)).1 (skipWs s) (by omega)
  cases hs : scan P strict (3 * s.length + 3) (skipWs s) with
  | outOfFuel => exact absurd hs this
  | ok v rest =>
    simp only
    split <;> simp
  | bad => simp

end Verif.Json
