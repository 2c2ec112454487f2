import Verif.Json.Lemmas

/-! Numbers and literals. -/
namespace Verif.Json

/-- What may follow a number. -/
def Stop (rest : Str) : Prop := ∀ c ∈ rest.head?, isDigit c = false ∧ c ≠ 46 ∧ c ≠ 101 ∧ c ≠ 69

theorem isDigit_iff (c : Nat) : isDigit c = true ↔ 48 ≤ c ∧ c ≤ 57 := by simp [isDigit]

theorem takeDigits {s rest : Str} (h : Digits s) (hr : ∀ c ∈ rest.head?, isDigit c = false) :
    (s ++ rest).takeWhile isDigit = s ∧ (s ++ rest).dropWhile isDigit = rest := by
  induction s with
  | nil =>
    cases rest with
    | nil => simp
    | cons c rest =>
      have := hr c (by simp)
      simp [List.takeWhile_cons, List.dropWhile_cons, this]
  | cons d s ih =>
    have hd : isDigit d = true := (isDigit_iff d).2 (h d (by simp))
    have := ih (fun x hx => h x (by simp [hx]))
    simp [List.takeWhile_cons, List.dropWhile_cons, hd, this]

theorem digits_takeWhile (s : Str) : Digits (s.takeWhile isDigit) := fun c hc =>
  (isDigit_iff c).1 (List.all_eq_true.1 (List.all_takeWhile (p := isDigit) (l := s)) c hc)

/-- The sign of an integer. -/
theorem matchInteger_neg (s : Str) : matchInteger (45 :: s) =
    match s with
    | [] => none
    | c :: cs => if c = 48 then some ([45, 48], cs) else if isDigit c then some (45 :: c :: cs.takeWhile isDigit, cs.dropWhile isDigit) else none := by
  cases s <;> rfl

theorem minus_ne {c : Nat} (cs : Str) (h : c ≠ 45) : minus (c :: cs) = [] := by
  rw [minus]
  intro cs' h'; simp at h'; omega

theorem matchInteger_pos {c : Nat} (cs : Str) (h : c ≠ 45) : matchInteger (c :: cs) =
    if c = 48 then some ([48], cs) else if isDigit c then some (c :: cs.takeWhile isDigit, cs.dropWhile isDigit) else none := by
  rw [matchInteger, minus_ne cs h]
  rfl

theorem matchInteger_complete {i rest : Str} {k : Int} (h : IntText i k) (hr : ∀ c ∈ rest.head?, isDigit c = false) :
    matchInteger (i ++ rest) = some (i, rest) ∧ intParse i = k := by
  cases h with
  | pos h =>
    cases h with
    | zero => exact ⟨by rw [List.cons_append, matchInteger_pos _ (by decide)]; rfl, rfl⟩
    | @digits c s h1 h2 h3 =>
      have ht := takeDigits h3 hr
      refine ⟨?_, ?_⟩
      · rw [List.cons_append, matchInteger_pos _ (by omega), if_neg (by omega), if_pos ((isDigit_iff c).2 (by omega)), ht.1, ht.2]
      · unfold intParse
        split
        · rename_i heq; simp at heq; omega
        · rfl
  | neg h =>
    cases h with
    | zero => exact ⟨by rw [List.cons_append, matchInteger_neg]; rfl, rfl⟩
    | @digits c s h1 h2 h3 =>
      have ht := takeDigits h3 hr
      refine ⟨?_, rfl⟩
      rw [List.cons_append, matchInteger_neg]
      simp only [List.cons_append]
      rw [if_neg (by omega), if_pos ((isDigit_iff c).2 (by omega)), ht.1, ht.2]

theorem matchInteger_sound {s i rest : Str} (h : matchInteger s = some (i, rest)) : s = i ++ rest ∧ ∃ k, IntText i k := by
  cases s with
  | nil => simp [matchInteger] at h
  | cons c s =>
    by_cases hc : c = 45
    · subst hc
      rw [matchInteger_neg] at h
      cases s with
      | nil => simp at h
      | cons c s =>
        simp only at h
        split at h
        · rename_i h0
          cases h
          exact ⟨by rw [h0]; rfl, _, .neg .zero⟩
        · split at h
          · rename_i h0 hd
            cases h
            refine ⟨by simp, _, .neg (.digits ?_ ((isDigit_iff c).1 hd).2 (digits_takeWhile s))⟩
            have := (isDigit_iff c).1 hd; omega
          · cases h
    · rw [matchInteger_pos _ hc] at h
      split at h
      · rename_i h0
        cases h
        exact ⟨by rw [h0]; rfl, _, .pos .zero⟩
      · split at h
        · rename_i h0 hd
          cases h
          refine ⟨by simp, _, .pos (.digits ?_ ((isDigit_iff c).1 hd).2 (digits_takeWhile s))⟩
          have := (isDigit_iff c).1 hd; omega
        · cases h

theorem matchFrac_complete {f rest : Str} (h : FracText f) (hr : ∀ c ∈ rest.head?, isDigit c = false ∧ c ≠ 46) :
    matchFrac (f ++ rest) = (f, rest) := by
  cases h with
  | none =>
    rw [List.nil_append]
    unfold matchFrac
    split
    · have := hr 46 (by simp); simp at this
    · rfl
  | @some s h1 h2 =>
    cases s with
    | nil => exact absurd rfl h1
    | cons c s =>
      have hc := h2 c (by simp)
      have ht := takeDigits (s := s) (rest := rest) (fun x hx => h2 x (by simp [hx])) (fun c hc => (hr c hc).1)
      simp only [List.cons_append, matchFrac, (isDigit_iff c).2 hc, if_true, ht.1, ht.2]

theorem matchFrac_sound (s : Str) : s = (matchFrac s).1 ++ (matchFrac s).2 ∧ FracText (matchFrac s).1 := by
  unfold matchFrac
  split
  · rename_i c cs
    split
    · rename_i hd
      refine ⟨by simp, .some (by simp) ?_⟩
      intro x hx
      rcases List.mem_cons.1 hx with rfl | hx
      · exact (isDigit_iff x).1 hd
      · exact digits_takeWhile cs x hx
    · exact ⟨rfl, .none⟩
  · exact ⟨rfl, .none⟩

theorem matchExp_complete {e rest : Str} (h : ExpText e) (hr : ∀ c ∈ rest.head?, isDigit c = false ∧ c ≠ 101 ∧ c ≠ 69) :
    matchExp (e ++ rest) = (e, rest) := by
  cases h with
  | none =>
    rw [List.nil_append]
    cases rest with
    | nil => rfl
    | cons c rest =>
      have := hr c (by simp)
      rw [matchExp, if_neg (by omega)]
  | @some e sign s h1 h2 h3 h4 =>
    cases s with
    | nil => exact absurd rfl h3
    | cons c s =>
      have hc := h4 c (by simp)
      have hd := (isDigit_iff c).2 hc
      have ht := takeDigits (s := s) (rest := rest) (fun x hx => h4 x (by simp [hx])) (fun c hc => (hr c hc).1)
      rcases h2 with rfl | rfl | rfl
      · have hp : plusMinus (c :: (s ++ rest)) = [] := by
          rw [plusMinus] <;> intro cs' h' <;> simp at h' <;> omega
        simp only [List.append_assoc, List.cons_append, List.nil_append]
        rw [matchExp, if_pos h1, hp]
        simp [hd, ht]
      · simp only [List.append_assoc, List.cons_append, List.nil_append]
        rw [matchExp, if_pos h1]
        simp [plusMinus, hd, ht]
      · simp only [List.append_assoc, List.cons_append, List.nil_append]
        rw [matchExp, if_pos h1]
        simp [plusMinus, hd, ht]

theorem plusMinus_cases (cs : Str) : (plusMinus cs = [] ∨ plusMinus cs = [43] ∨ plusMinus cs = [45]) ∧
    cs = plusMinus cs ++ cs.drop (plusMinus cs).length := by
  unfold plusMinus
  split <;> simp

theorem matchExp_sound (s : Str) : s = (matchExp s).1 ++ (matchExp s).2 ∧ ExpText (matchExp s).1 := by
  cases s with
  | nil => exact ⟨rfl, .none⟩
  | cons e cs =>
    rw [matchExp]
    split
    · rename_i he
      obtain ⟨hsign, hcs⟩ := plusMinus_cases cs
      cases hdrop : cs.drop (plusMinus cs).length with
      | nil => exact ⟨rfl, .none⟩
      | cons d ds =>
        simp only
        split
        · rename_i hd
          rw [hdrop] at hcs
          refine ⟨?_, .some he hsign (by simp) ?_⟩
          · simp only [List.cons_append, List.append_assoc, List.takeWhile_append_dropWhile]
            rw [← hcs]
          · intro x hx
            rcases List.mem_cons.1 hx with rfl | hx
            · exact (isDigit_iff x).1 hd
            · exact digits_takeWhile ds x hx
        · exact ⟨rfl, .none⟩
    · exact ⟨rfl, .none⟩

theorem int_head {i : Str} {k : Int} (h : IntText i k) : ∃ c s, i = c :: s ∧ (c = 45 ∨ isDigit c = true) := by
  cases h with
  | pos h =>
    cases h with
    | zero => exact ⟨_, _, rfl, .inr rfl⟩
    | @digits c s h1 h2 _ => exact ⟨_, _, rfl, .inr ((isDigit_iff c).2 (by omega))⟩
  | neg h => exact ⟨_, _, rfl, .inl rfl⟩

theorem frac_head {f rest : Str} (h : FracText f) : ∀ c ∈ (f ++ rest).head?, c = 46 ∨ (f = [] ∧ c ∈ rest.head?) := by
  intro c hc
  cases h with
  | none => exact .inr ⟨rfl, hc⟩
  | some => simp at hc; exact .inl hc.symm

theorem exp_head {f rest : Str} (h : ExpText f) : ∀ c ∈ (f ++ rest).head?, (c = 101 ∨ c = 69) ∨ (f = [] ∧ c ∈ rest.head?) := by
  intro c hc
  cases h with
  | none => exact .inr ⟨rfl, hc⟩
  | some h1 => simp at hc; subst hc; exact .inl h1

/-- A number is none of the literals. -/
theorem scanOther_number {c : Nat} {s : Str} (h : c = 45 ∨ isDigit c = true) :
    (c :: s).take 4 ≠ nullText ∧ (c :: s).take 4 ≠ trueText ∧ (c :: s).take 5 ≠ falseText := by
  have : c ≤ 57 := by
    rcases h with rfl | h
    · omega
    · exact ((isDigit_iff c).1 h).2
  refine ⟨?_, ?_, ?_⟩ <;> intro he <;> simp [nullText, trueText, falseText] at he <;> omega

theorem scanOther_int (P : Floats) {s rest : Str} {i : Int} (h : IntText s i) (hr : Stop rest) :
    scanOther P (s ++ rest) = .ok (.int i) rest := by
  obtain ⟨h1, h2⟩ := matchInteger_complete h (rest := rest) (fun c hc => (hr c hc).1)
  obtain ⟨c, s', rfl, hc⟩ := int_head h
  obtain ⟨hn, ht, hf⟩ := scanOther_number (s := s' ++ rest) hc
  rw [List.cons_append] at h1 ⊢
  have hfr := matchFrac_complete FracText.none (rest := rest) (fun c hc => ⟨(hr c hc).1, (hr c hc).2.1⟩)
  have hex := matchExp_complete ExpText.none (rest := rest) (fun c hc => ⟨(hr c hc).1, (hr c hc).2.2⟩)
  rw [List.nil_append] at hfr hex
  simp only [scanOther, if_neg hn, if_neg ht, if_neg hf, h1, hfr, hex, ne_eq, not_true, or_self, if_false, h2]

theorem scanOther_float (P : Floats) {s rest : Str} (h : FloatText s) (hr : Stop rest) :
    scanOther P (s ++ rest) = .ok (.float (P.parse s)) rest := by
  obtain ⟨hi, hf, he, hne⟩ := h
  rename_i i frac exp k
  have hexp : ∀ c ∈ (exp ++ rest).head?, isDigit c = false ∧ c ≠ 46 := by
    intro c hc
    rcases exp_head he c hc with h | ⟨_, h⟩
    · rcases h with rfl | rfl <;> decide
    · exact ⟨(hr c h).1, (hr c h).2.1⟩
  have hfrac : ∀ c ∈ (frac ++ (exp ++ rest)).head?, isDigit c = false := by
    intro c hc
    rcases frac_head hf c hc with rfl | ⟨_, h⟩
    · decide
    · exact (hexp c h).1
  obtain ⟨h1, _⟩ := matchInteger_complete hi hfrac
  obtain ⟨c, s', rfl, hc⟩ := int_head hi
  obtain ⟨hn, ht, hfa⟩ := scanOther_number (s := s' ++ (frac ++ (exp ++ rest))) hc
  have hfr := matchFrac_complete hf hexp
  have hex := matchExp_complete he (rest := rest) (fun c hc => ⟨(hr c hc).1, (hr c hc).2.2⟩)
  have hassoc : c :: s' ++ frac ++ exp ++ rest = c :: (s' ++ (frac ++ (exp ++ rest))) := by simp
  rw [hassoc]
  rw [List.cons_append] at h1
  simp only [scanOther, if_neg hn, if_neg ht, if_neg hfa, h1, hfr, hex]
  rw [if_pos hne]

theorem take_eq {s t : Str} {n : Nat} (h : s.take n = t) : s = t ++ s.drop n := by
  rw [← h, List.take_append_drop]

theorem scanOther_sound (P : Floats) {hex : Str → Option Int} {strict : Bool} {s rest : Str} {v : Json P.F} (h : scanOther P s = .ok v rest) :
    ∃ p, s = p ++ rest ∧ p ≠ [] ∧ Text hex P strict p v := by
  unfold scanOther at h
  split at h
  · rename_i ht; simp only [R.ok.injEq] at h; obtain ⟨rfl, rfl⟩ := h
    exact ⟨_, take_eq ht, by decide, .null⟩
  · split at h
    · rename_i ht; simp only [R.ok.injEq] at h; obtain ⟨rfl, rfl⟩ := h
      exact ⟨_, take_eq ht, by decide, .true⟩
    · split at h
      · rename_i ht; simp only [R.ok.injEq] at h; obtain ⟨rfl, rfl⟩ := h
        exact ⟨_, take_eq ht, by decide, .false⟩
      · cases hm : matchInteger s with
        | some ir =>
          obtain ⟨i, r⟩ := ir
          rw [hm] at h
          simp only at h
          obtain ⟨rfl, k, hi⟩ := matchInteger_sound hm
          obtain ⟨hf1, hf2⟩ := matchFrac_sound r
          obtain ⟨he1, he2⟩ := matchExp_sound (matchFrac r).2
          have hne : i ≠ [] := by obtain ⟨_, _, rfl, _⟩ := int_head hi; simp
          have hr : r = (matchFrac r).1 ++ (matchExp (matchFrac r).2).1 ++ (matchExp (matchFrac r).2).2 := by
            rw [List.append_assoc, ← he1]; exact hf1
          split at h
          · rename_i hfe
            simp only [R.ok.injEq] at h
            obtain ⟨rfl, rfl⟩ := h
            refine ⟨i ++ (matchFrac r).1 ++ (matchExp (matchFrac r).2).1, ?_, by simp [hne], .float (.mk hi hf2 he2 hfe)⟩
            conv => lhs; rw [hr]
            simp
          · rename_i hfe
            simp only [R.ok.injEq] at h
            obtain ⟨rfl, rfl⟩ := h
            have h1 : (matchFrac r).1 = [] ∧ (matchExp (matchFrac r).2).1 = [] := by
              refine ⟨?_, ?_⟩
              · exact Classical.byContradiction fun h => hfe (.inl h)
              · exact Classical.byContradiction fun h => hfe (.inr h)
            refine ⟨i, ?_, hne, ?_⟩
            · conv => lhs; rw [hr, h1.1, h1.2]
              simp
            · have := (matchInteger_complete hi (rest := []) (by simp)).2
              rw [this]
              exact .int hi
        | none =>
          rw [hm] at h
          simp only at h
          split at h
          · rename_i ht; simp only [R.ok.injEq] at h; obtain ⟨rfl, rfl⟩ := h
            exact ⟨_, take_eq ht, by decide, .nan⟩
          · split at h
            · rename_i ht; simp only [R.ok.injEq] at h; obtain ⟨rfl, rfl⟩ := h
              exact ⟨_, take_eq ht, by decide, .inf⟩
            · split at h
              · rename_i ht; simp only [R.ok.injEq] at h; obtain ⟨rfl, rfl⟩ := h
                exact ⟨_, take_eq ht, by decide, .negInf⟩
              · cases h

theorem scanOther_fuel (P : Floats) (s : Str) : scanOther P s ≠ .outOfFuel := by
  unfold scanOther
  repeat' split
  all_goals simp
  all_goals (split <;> simp)

end Verif.Json
