import Verif.Json.Spec

/-! White space, escape sequences and strings. -/
namespace Verif.Json

/-! ## White space -/

theorem isWs_iff (c : Nat) : isWs c = true ↔ c = 32 ∨ c = 9 ∨ c = 10 ∨ c = 13 := by
  simp [isWs, or_assoc]

theorem skipFast_eq (s : Str) : skipFast s = skipWs s := by
  cases s with
  | nil => rfl
  | cons c s =>
    cases s with
    | nil =>
      simp only [skipFast, skipWs, List.dropWhile_cons]
      split <;> rfl
    | cons d s =>
      simp only [skipFast, skipWs, List.dropWhile_cons]

theorem skip_ws {w : Str} (h : Ws w) (s : Str) : skipWs (w ++ s) = skipWs s := by
  induction w with
  | nil => rfl
  | cons c w ih =>
    have hc : isWs c = true := (isWs_iff c).2 (h c (by simp))
    rw [List.cons_append, skipWs, List.dropWhile_cons, if_pos hc]
    exact ih (fun x hx => h x (by simp [hx]))

theorem skip_cons {c : Nat} (h : isWs c = false) (s : Str) : skipWs (c :: s) = c :: s := by
  rw [skipWs, List.dropWhile_cons, h]; rfl

theorem skip_all {w : Str} (h : Ws w) : skipWs w = [] := by
  have := skip_ws h []
  rw [List.append_nil] at this
  rw [this]; rfl

/-- What is skipped is white space. -/
theorem skip_split (s : Str) : ∃ w, Ws w ∧ s = w ++ skipWs s :=
  ⟨s.takeWhile isWs, fun c hc => (isWs_iff c).1 (by have := List.all_eq_true.1 (List.all_takeWhile (p := isWs) (l := s)) c hc; exact this), (List.takeWhile_append_dropWhile).symm⟩

theorem skip_length (s : Str) : (skipWs s).length ≤ s.length := by
  obtain ⟨w, _, h⟩ := skip_split s
  conv => rhs; rw [h]
  simp

/-- Nothing is left to skip. -/
theorem skip_head (s : Str) : ∀ c ∈ (skipWs s).head?, isWs c = false := by
  intro c hc
  induction s with
  | nil => simp [skipWs] at hc
  | cons d s ih =>
    rw [skipWs, List.dropWhile_cons] at hc
    split at hc
    · exact ih hc
    · rename_i h
      simp only [List.head?_cons, Option.mem_some_iff] at hc
      subst hc
      simpa using h

/-! ## Escape sequences -/

/-- The numbers that the decoder takes for hexadecimal numbers. -/
def laxHex : Str → Option Int
  | [a, b, c, d] => if b = 120 ∨ b = 88 then none else hexInt [a, b, c, d]
  | _ => none

theorem hexTable_eq (c : Nat) : hexTable.lookup c = hexValue c := by
  by_cases h : c < 128
  · have : ∀ c : Fin 128, hexTable.lookup c.1 = hexValue c.1 := by decide +kernel
    exact this ⟨c, h⟩
  · have h1 : hexTable.lookup c = none := by
      rw [List.lookup_eq_none_iff]
      intro p hp
      have : ∀ p ∈ hexTable, p.1 < 128 := by decide
      have := this p hp
      simp only [beq_eq_false_iff_ne, bne_iff_ne]
      omega
    rw [h1]
    unfold hexValue
    rw [if_neg (by omega), if_neg (by omega), if_neg (by omega)]

theorem hexValue_some {c n : Nat} (h : hexValue c = some n) :
    ((48 ≤ c ∧ c ≤ 57) ∨ (97 ≤ c ∧ c ≤ 102) ∨ (65 ≤ c ∧ c ≤ 70)) ∧ n < 16 := by
  unfold hexValue at h
  split at h
  · cases h; omega
  · split at h
    · cases h; omega
    · split at h
      · cases h; omega
      · cases h

theorem hexDigits_cons {c n acc : Nat} {cs : Str} (h : hexValue c = some n) : hexDigits acc (c :: cs) = hexDigits (acc * 16 + n) cs := by
  have hc := (hexValue_some h).1
  rw [hexDigits]
  · rw [h]
  · intro c' cs' h1; omega

theorem hexBody_cons {a b n : Nat} {cs : Str} (h : hexValue a = some n) (hb : hexValue b ≠ none) :
    hexBody (a :: b :: cs) = hexDigits n (b :: cs) := by
  have hb' : ¬(b = 120 ∨ b = 88) := by
    intro h; rcases h with rfl | rfl <;> exact hb (by decide)
  rw [hexBody]
  · rw [h]
  · intro c cs h1 h2; simp at h2; omega
  · intro c cs h1 h2; simp at h2; omega
  · intro c cs h1 h2; simp at h2; omega
  · intro c cs h1 h2; simp at h2; omega

theorem hex4_some {a b c d : Nat} {u : Int} (h : hex4 [a, b, c, d] = some u) :
    ∃ x y z w, hexValue a = some x ∧ hexValue b = some y ∧ hexValue c = some z ∧ hexValue d = some w ∧
      u = ((((x * 16 + y) * 16 + z) * 16 + w : Nat) : Int) := by
  simp only [hex4, hexTable_eq] at h
  cases ha : hexValue a <;> cases hb : hexValue b <;> cases hc : hexValue c <;> cases hd : hexValue d <;>
    simp only [ha, hb, hc, hd, Option.some.injEq, reduceCtorEq] at h
  exact ⟨_, _, _, _, rfl, rfl, rfl, rfl, h.symm⟩

theorem isSpace_hex {c n : Nat} (h : hexValue c = some n) : isSpace c = false := by
  have := (hexValue_some h).1
  simp only [isSpace, Bool.or_eq_false_iff, Bool.and_eq_false_iff, decide_eq_false_iff_not]
  omega

theorem hexInt_hex4 {a b c d : Nat} {u : Int} (h : hex4 [a, b, c, d] = some u) : hexInt [a, b, c, d] = some u := by
  obtain ⟨x, y, z, w, ha, hb, hc, hd, rfl⟩ := hex4_some h
  have hstrip : (([a, b, c, d].dropWhile isSpace).reverse.dropWhile isSpace).reverse = [a, b, c, d] := by
    rw [List.dropWhile_cons, isSpace_hex ha]
    simp only [Bool.false_eq_true, if_false, List.reverse_cons, List.reverse_nil, List.nil_append, List.cons_append]
    rw [List.dropWhile_cons, isSpace_hex hd]
    simp
  have hbody : hexBody [a, b, c, d] = some (((x * 16 + y) * 16 + z) * 16 + w) := by
    rw [hexBody_cons ha (by rw [hb]; simp), hexDigits_cons hb, hexDigits_cons hc, hexDigits_cons hd, hexDigits]
  have ha' := (hexValue_some ha).1
  unfold hexInt
  rw [hstrip]
  split
  · rename_i heq; simp at heq; omega
  · rename_i heq; simp at heq; omega
  · rw [hbody]; rfl

theorem laxHex_hex4 {x : Str} {u : Int} (h : hex4 x = some u) : laxHex x = some u := by
  match x, h with
  | [a, b, c, d], h =>
    obtain ⟨_, _, _, _, _, hb, _⟩ := hex4_some h
    have hb' := (hexValue_some hb).1
    rw [laxHex, if_neg (by omega)]
    exact hexInt_hex4 h

theorem hex4_bounds {x : Str} {u : Int} (h : hex4 x = some u) : 0 ≤ u ∧ u < 0x10000 := by
  match x, h with
  | [a, b, c, d], h =>
    obtain ⟨x, y, z, w, ha, hb, hc, hd, rfl⟩ := hex4_some h
    have := (hexValue_some ha).2
    have := (hexValue_some hb).2
    have := (hexValue_some hc).2
    have := (hexValue_some hd).2
    omega

theorem decodeU_eq (a b c d : Nat) (rest : Str) : decodeU (a :: b :: c :: d :: rest) = (laxHex [a, b, c, d]).map (fun n => (n, rest)) := by
  rw [decodeU, laxHex]
  split <;> rfl

theorem decodeU_some {s rest : Str} {u : Int} (h : decodeU s = some (u, rest)) :
    ∃ a b c d, s = a :: b :: c :: d :: rest ∧ laxHex [a, b, c, d] = some u := by
  match s, h with
  | a :: b :: c :: d :: r, h =>
    rw [decodeU_eq] at h
    cases hl : laxHex [a, b, c, d] with
    | none => rw [hl] at h; cases h
    | some n =>
      rw [hl] at h
      simp only [Option.map_some, Option.some.injEq, Prod.mk.injEq] at h
      obtain ⟨rfl, rfl⟩ := h
      exact ⟨a, b, c, d, rfl, hl⟩
  | [], h => cases h
  | [_], h => cases h
  | [_, _], h => cases h
  | [_, _, _], h => cases h

theorem backslash_iff (e c : Nat) : backslash e = some c ↔ (e, c) ∈ shortEscapes := by
  unfold backslash shortEscapes
  repeat' split
  all_goals simp_all [eq_comm]

/-! ## Strings -/

theorem escape_length {s rest : Str} {c : Nat} (h : escape s = some (c, rest)) : rest.length < s.length := by
  cases s with
  | nil => cases h
  | cons e s =>
    rw [escape] at h
    split at h
    · cases hb : backslash e with
      | none => rw [hb] at h; cases h
      | some c' =>
        rw [hb] at h
        simp only [Option.map_some, Option.some.injEq, Prod.mk.injEq] at h
        rw [← h.2]; simp
    · cases hd : decodeU s with
      | none => rw [hd] at h; cases h
      | some ur =>
        obtain ⟨u, r⟩ := ur
        rw [hd] at h
        simp only at h
        obtain ⟨a, b, c', d, rfl, _⟩ := decodeU_some hd
        cases hj : joinPair u r with
        | none => rw [hj] at h; cases h
        | some vr =>
          obtain ⟨v, r'⟩ := vr
          rw [hj] at h
          simp only at h
          have hr : r'.length ≤ r.length := by
            unfold joinPair at hj
            split at hj
            · split at hj
              · split at hj
                · cases hj
                · rename_i hd2
                  split at hj
                  · cases hj
                    obtain ⟨_, _, _, _, rfl, _⟩ := decodeU_some hd2
                    simp only [List.length_cons]; omega
                  · cases hj; exact Nat.le_refl _
              · cases hj; exact Nat.le_refl _
            · cases hj; exact Nat.le_refl _
          cases hc : chr v with
          | none => rw [hc] at h; cases h
          | some ch =>
            rw [hc] at h
            simp only [Option.map_some, Option.some.injEq, Prod.mk.injEq] at h
            rw [← h.2]
            simp only [List.length_cons]
            omega

theorem scanString_fuel (strict : Bool) (n : Nat) : ∀ s, s.length < n → scanString strict n s ≠ .outOfFuel := by
  induction n with
  | zero => intro s h; omega
  | succ n ih =>
    intro s h
    have hcons : ∀ c (s' : Str), s'.length < n → (scanString strict n s').cons c ≠ .outOfFuel := by
      intro c s' h'
      have := ih s' h'
      cases hs : scanString strict n s' with
      | ok t r => simp [R.cons]
      | bad => simp [R.cons]
      | outOfFuel => exact absurd hs this
    cases s with
    | nil => simp [scanString]
    | cons c s =>
      simp only [List.length_cons] at h
      rw [scanString]
      split
      · simp
      · split
        · cases he : escape s with
          | none => simp
          | some cr =>
            have := escape_length (c := cr.1) (rest := cr.2) he
            exact hcons _ _ (by omega)
        · split
          · split
            · simp
            · exact hcons _ _ (by omega)
          · exact hcons _ _ (by omega)

/-- A text that begins with `\u` begins with an escape sequence. -/
theorem body_u {hex : Str → Option Int} {strict : Bool} {s t : Str} (h : Body hex strict (92 :: 117 :: s) t) :
    ∃ a b c d s' u, s = a :: b :: c :: d :: s' ∧ hex [a, b, c, d] = some u := by
  cases h with
  | plain h1 h2 => exact absurd rfl h2
  | short h1 => simp [shortEscapes] at h1
  | unicode h1 => exact ⟨_, _, _, _, _, _, rfl, h1⟩
  | pair h1 => exact ⟨_, _, _, _, _, _, rfl, h1⟩

theorem chr_toNat {u : Int} (h0 : 0 ≤ u) (h1 : u ≤ 0x10FFFF) : chr u = some u.toNat := by
  rw [chr, if_pos ⟨h0, h1⟩]

theorem scanString_complete {strict : Bool} {b t : Str} (h : Body laxHex strict b t) :
    ∀ n rest, b.length < n → scanString strict n (b ++ 34 :: rest) = .ok t rest := by
  induction h with
  | nil =>
    intro n rest hn
    obtain ⟨n, rfl⟩ : ∃ m, n = m + 1 := ⟨n - 1, by omega⟩
    simp [scanString]
  | plain h1 h2 h3 _ ih =>
    intro n rest hn
    obtain ⟨n, rfl⟩ : ∃ m, n = m + 1 := ⟨n - 1, by omega⟩
    simp only [List.length_cons] at hn
    rw [List.cons_append, scanString, if_neg h1, if_neg h2, ih n rest (by omega)]
    split
    · split
      · rename_i h4 h5; have := h3 h5; omega
      · rfl
    · rfl
  | @short e c s t h1 _ ih =>
    intro n rest hn
    obtain ⟨n, rfl⟩ : ∃ m, n = m + 1 := ⟨n - 1, by omega⟩
    simp only [List.length_cons] at hn
    have he : e ≠ 117 := by rintro rfl; simp [shortEscapes] at h1
    rw [List.cons_append, List.cons_append, scanString, if_neg (by decide), if_pos rfl, escape, if_pos he, (backslash_iff e c).2 h1]
    simp only [Option.map_some]
    rw [ih n rest (by omega)]; rfl
  | @unicode a b c d u s t h1 h2 h3 h4 hb ih =>
    intro n rest hn
    obtain ⟨n, rfl⟩ : ∃ m, n = m + 1 := ⟨n - 1, by omega⟩
    simp only [List.length_cons] at hn
    have hj : joinPair u (s ++ 34 :: rest) = some (u, s ++ 34 :: rest) := by
      unfold joinPair
      split
      · rename_i hhigh
        split
        · rename_i r' heq
          cases s with
          | nil => simp at heq
          | cons x s =>
            cases s with
            | nil => simp at heq
            | cons y s =>
              simp only [List.cons_append, List.cons.injEq] at heq
              obtain ⟨rfl, rfl, rfl⟩ := heq
              obtain ⟨a', b', c', d', s', u', rfl, hu⟩ := body_u hb
              simp only [List.cons_append]
              rw [decodeU_eq, hu]
              simp only [Option.map_some]
              exact if_neg (h4 hhigh a' b' c' d' s' u' rfl hu)
        · rfl
      · rfl
    simp only [List.cons_append]
    rw [scanString, if_neg (by decide), if_pos rfl, escape, if_neg (by decide), decodeU_eq, h1]
    simp only [Option.map_some, hj]
    rw [chr_toNat h2 h3]
    simp only [Option.map_some]
    rw [ih n rest (by omega)]; rfl
  | @pair a b c d a' b' c' d' u u' s t h1 h2 h3 h4 hb ih =>
    intro n rest hn
    obtain ⟨n, rfl⟩ : ∃ m, n = m + 1 := ⟨n - 1, by omega⟩
    simp only [List.length_cons] at hn
    simp only [List.cons_append]
    unfold isHigh at h2
    unfold isLow at h4
    rw [scanString, if_neg (by decide), if_pos rfl, escape, if_neg (by decide), decodeU_eq, h1]
    simp only [Option.map_some]
    rw [joinPair, if_pos h2]
    rw [decodeU_eq, h3]
    simp only [Option.map_some]
    rw [if_pos h4]
    simp only
    rw [chr_toNat (by omega) (by omega)]
    simp only [Option.map_some]
    rw [ih n rest (by omega)]; rfl

theorem scanString_sound {strict : Bool} (n : Nat) : ∀ {s t rest : Str}, scanString strict n s = .ok t rest →
    ∃ b, s = b ++ 34 :: rest ∧ Body laxHex strict b t := by
  induction n with
  | zero => intro s t rest h; simp [scanString] at h
  | succ n ih =>
    intro s t rest h
    have hcons : ∀ {c : Nat} {s'}, (scanString strict n s').cons c = .ok t rest →
        ∃ b t', t = c :: t' ∧ s' = b ++ 34 :: rest ∧ Body laxHex strict b t' := by
      intro c s' h'
      cases hs : scanString strict n s' with
      | ok t' r =>
        rw [hs] at h'
        simp only [R.cons, R.ok.injEq] at h'
        obtain ⟨rfl, rfl⟩ := h'
        obtain ⟨b, hb1, hb2⟩ := ih hs
        exact ⟨b, t', rfl, hb1, hb2⟩
      | bad => rw [hs] at h'; simp [R.cons] at h'
      | outOfFuel => rw [hs] at h'; simp [R.cons] at h'
    cases s with
    | nil => simp [scanString] at h
    | cons c s =>
      rw [scanString] at h
      split at h
      · rename_i hc
        simp only [R.ok.injEq] at h
        obtain ⟨rfl, rfl⟩ := h
        exact ⟨[], by rw [hc]; rfl, .nil⟩
      · rename_i hc34
        split at h
        · rename_i hc
          subst hc
          cases he : escape s with
          | none => rw [he] at h; simp at h
          | some cr =>
            obtain ⟨ch, r⟩ := cr
            rw [he] at h
            obtain ⟨b, t', rfl, rfl, hb⟩ := hcons h
            cases s with
            | nil => simp [escape] at he
            | cons e s =>
              rw [escape] at he
              split at he
              · cases hbs : backslash e with
                | none => rw [hbs] at he; simp at he
                | some c' =>
                  rw [hbs] at he
                  simp only [Option.map_some, Option.some.injEq, Prod.mk.injEq] at he
                  obtain ⟨rfl, rfl⟩ := he
                  exact ⟨92 :: e :: b, rfl, .short ((backslash_iff e c').1 hbs) hb⟩
              · rename_i he117
                have he117 : e = 117 := by simpa using he117
                subst he117
                cases hd : decodeU s with
                | none => rw [hd] at he; simp at he
                | some ur =>
                  obtain ⟨u, r'⟩ := ur
                  rw [hd] at he
                  simp only at he
                  obtain ⟨a1, b1, c1, d1, rfl, hl⟩ := decodeU_some hd
                  cases hj : joinPair u r' with
                  | none => rw [hj] at he; simp at he
                  | some vr =>
                    obtain ⟨v, r2⟩ := vr
                    rw [hj] at he
                    simp only at he
                    cases hch : chr v with
                    | none => rw [hch] at he; simp at he
                    | some ch' =>
                      rw [hch] at he
                      simp only [Option.map_some, Option.some.injEq, Prod.mk.injEq] at he
                      obtain ⟨rfl, rfl⟩ := he
                      have hchr : 0 ≤ v ∧ v ≤ 0x10FFFF ∧ ch' = v.toNat := by
                        unfold chr at hch
                        split at hch
                        · rename_i hv; simp at hch; exact ⟨hv.1, hv.2, hch.symm⟩
                        · cases hch
                      obtain ⟨hv1, hv2, rfl⟩ := hchr
                      unfold joinPair at hj
                      split at hj
                      · rename_i hhigh
                        split at hj
                        · rename_i r3
                          cases hd2 : decodeU r3 with
                          | none => rw [hd2] at hj; simp at hj
                          | some ur2 =>
                            obtain ⟨u2, r4⟩ := ur2
                            rw [hd2] at hj
                            simp only at hj
                            obtain ⟨a2, b2, c2, d2, rfl, hl2⟩ := decodeU_some hd2
                            split at hj
                            · rename_i hlow
                              simp only [Option.some.injEq, Prod.mk.injEq] at hj
                              obtain ⟨rfl, rfl⟩ := hj
                              exact ⟨92 :: 117 :: a1 :: b1 :: c1 :: d1 :: 92 :: 117 :: a2 :: b2 :: c2 :: d2 :: b, rfl, .pair hl hhigh hl2 hlow hb⟩
                            · rename_i hlow
                              simp only [Option.some.injEq, Prod.mk.injEq] at hj
                              obtain ⟨rfl, hj2⟩ := hj
                              refine ⟨92 :: 117 :: a1 :: b1 :: c1 :: d1 :: b, by rw [hj2]; rfl, .unicode hl hv1 hv2 ?_ hb⟩
                              intro _ a' b' c' d' s' u' hs hu'
                              subst hs
                              simp only [List.cons_append, List.cons.injEq, true_and] at hj2
                              obtain ⟨rfl, rfl, rfl, rfl, _⟩ := hj2
                              rw [hl2] at hu'
                              cases hu'
                              exact hlow
                        · rename_i hne
                          simp only [Option.some.injEq, Prod.mk.injEq] at hj
                          obtain ⟨rfl, rfl⟩ := hj
                          refine ⟨92 :: 117 :: a1 :: b1 :: c1 :: d1 :: b, rfl, .unicode hl hv1 hv2 ?_ hb⟩
                          intro _ a' b' c' d' s' u' hs _
                          subst hs
                          exact absurd rfl (hne _)
                      · rename_i hhigh
                        simp only [Option.some.injEq, Prod.mk.injEq] at hj
                        obtain ⟨rfl, rfl⟩ := hj
                        exact ⟨92 :: 117 :: a1 :: b1 :: c1 :: d1 :: b, rfl, .unicode hl hv1 hv2 (fun h => absurd h hhigh) hb⟩
        · rename_i hc92
          split at h
          · split at h
            · simp at h
            · rename_i hst
              obtain ⟨b, t', rfl, rfl, hb⟩ := hcons h
              exact ⟨c :: b, rfl, .plain hc34 hc92 (fun h => absurd h hst) hb⟩
          · rename_i hc32
            obtain ⟨b, t', rfl, rfl, hb⟩ := hcons h
            exact ⟨c :: b, rfl, .plain hc34 hc92 (fun _ => by omega) hb⟩

/-- The decoder takes what the language has for strings. -/
theorem body_lax {strict : Bool} {b t : Str} (h : Body hex4 strict b t) : Body laxHex strict b t := by
  induction h with
  | nil => exact .nil
  | plain h1 h2 h3 _ ih => exact .plain h1 h2 h3 ih
  | short h1 _ ih => exact .short h1 ih
  | unicode h1 h2 h3 h4 hb ih =>
    refine .unicode (laxHex_hex4 h1) h2 h3 ?_ ih
    intro hh a' b' c' d' s' u' hs hu
    subst hs
    obtain ⟨_, _, _, _, _, u2, he, hu2⟩ := body_u hb
    simp only [List.cons.injEq] at he
    obtain ⟨rfl, rfl, rfl, rfl, rfl⟩ := he
    have := laxHex_hex4 hu2
    rw [hu] at this
    cases this
    exact h4 hh _ _ _ _ _ _ rfl hu2
  | pair h1 h2 h3 h4 _ ih => exact .pair (laxHex_hex4 h1) h2 (laxHex_hex4 h3) h4 ih

end Verif.Json
