import Verif.Codec.Lemmas

namespace Verif.Codec

/-! ## Decoding UTF-8 -/

/-- Decoding with a replacement for each byte that does not start a chunk. -/
def plainFrom (f : Nat → List Nat) : Nat → List Nat → List Nat
  | 0, _ => []
  | _ + 1, [] => []
  | n + 1, b :: l =>
    match chunk (b :: l) with
    | some (k, cp) => cp :: plainFrom f n ((b :: l).drop k)
    | none => f b ++ plainFrom f n l

theorem plainFrom_fuel (f : Nat → List Nat) (n : Nat) : ∀ (m : Nat) (l : List Nat), l.length ≤ n → l.length ≤ m → plainFrom f n l = plainFrom f m l := by
  induction n with
  | zero =>
    intro m l hn _
    have : l = [] := List.length_eq_zero_iff.1 (by omega)
    subst this
    cases m <;> rfl
  | succ n ih =>
    intro m l hn hm
    cases l with
    | nil => cases m <;> rfl
    | cons b l =>
      cases m with
      | zero => simp at hm
      | succ m =>
        rw [plainFrom, plainFrom]
        simp only [List.length_cons] at hn hm
        cases hc : chunk (b :: l) with
        | none =>
          simp only
          rw [ih m l (by omega) (by omega)]
        | some x =>
          obtain ⟨k, cp⟩ := x
          simp only
          have := chunk_pos hc
          rw [ih m _ (by simp only [List.length_drop, List.length_cons]; omega) (by simp only [List.length_drop, List.length_cons]; omega)]

theorem decodeLoop_bytewise {errors : Errors (List Nat)} {input : List Nat} {f : Nat → List Nat} (h : Bytewise errors input f) (fuel : Nat) :
    ∀ (pre l : List Nat), input = pre ++ l → l.length ≤ fuel → decodeLoop utf8 errors input fuel pre.length = .ok (plainFrom f fuel l, input.length) := by
  induction fuel with
  | zero =>
    intro pre l he hl
    have : l = [] := List.length_eq_zero_iff.1 (by omega)
    subst this
    simp only [List.append_nil] at he
    rw [decodeLoop, he, if_neg (by omega)]
    rfl
  | succ fuel ih =>
    intro pre l he hl
    cases l with
    | nil =>
      simp only [List.append_nil] at he
      rw [decodeLoop, he, if_neg (by omega)]
      rfl
    | cons b l =>
      have hlen : pre.length < input.length := by rw [he]; simp
      simp only [List.length_cons] at hl
      have hchunk := decodeChunk_eq pre b l
      rw [← he] at hchunk
      have hchunk : utf8.decodeChunk input pre.length = _ := hchunk
      rw [decodeLoop, if_pos hlen, hchunk, plainFrom]
      cases hc : chunk (b :: l) with
      | some x =>
        obtain ⟨k, cp⟩ := x
        simp only
        have hp := chunk_pos hc
        have hk : (pre ++ (b :: l).take k).length = pre.length + k := by
          rw [List.length_append, List.length_take, Nat.min_eq_left hp.2]
        have := ih (pre ++ (b :: l).take k) ((b :: l).drop k) (by rw [List.append_assoc, List.take_append_drop]; exact he)
          (by simp only [List.length_drop, List.length_cons]; omega)
        rw [hk] at this
        rw [this]
        rfl
      | none =>
        simp only
        have hn := ih (pre ++ [b]) l (by simpa using he) (by omega)
        simp only [List.length_append, List.length_singleton] at hn
        cases errors with
        | strict => exact absurd h (by simp [Bytewise])
        | ignore =>
          simp only [Bytewise] at h
          simp only [hn, h, Res.prepend]
        | replace =>
          simp only [Bytewise] at h
          simp only [hn, h, Res.prepend]
          rfl
        | custom g =>
          have hb := h pre.length hlen
          have hg : input[pre.length] = b := by simp [he]
          rw [hg] at hb
          simp only [hb, hn, Res.prepend]
          rfl

/-! ## Parts of errors -/

theorem chunk_cont {c : Nat} (l : List Nat) (h : 0x80 ≤ c ∧ c ≤ 0xBF) : chunk (c :: l) = none := by
  rw [chunk]
  rcases lead_cases c with ⟨ha, hl⟩ | ⟨ha, ha', hl⟩ | ⟨ha, ha', hl⟩ | ⟨ha, ha', hl⟩ | ⟨ha, hl⟩ <;> try omega
  simp only [hl, furtherL, gt_iff_lt, Nat.not_lt_zero, if_false]
  rw [if_neg (by omega)]

theorem plainFrom_cont (f : Nat → List Nat) (j : Nat) : ∀ (n m : Nat) (l : List Nat), l.length ≤ n → l.length ≤ m → (∀ c ∈ l.take j, 0x80 ≤ c ∧ c ≤ 0xBF) →
    plainFrom f n l = (l.take j).flatMap f ++ plainFrom f m (l.drop j) := by
  induction j with
  | zero => intro n m l hn hm _; simpa using plainFrom_fuel f n m l hn hm
  | succ j ih =>
    intro n m l hn hm hc
    cases l with
    | nil => cases n <;> cases m <;> rfl
    | cons b l =>
      simp only [List.length_cons] at hn hm
      cases n with
      | zero => omega
      | succ n =>
        rw [plainFrom, chunk_cont l (hc b (by simp))]
        simp only
        rw [ih n m l (by omega) (by omega) (fun c hc' => hc c (by simp [hc']))]
        simp

theorem foldl_max (xs : List Nat) : ∀ a, xs.foldl max a = a ∨ xs.foldl max a ∈ xs := by
  induction xs with
  | nil => intro a; left; rfl
  | cons x xs ih =>
    intro a
    rw [List.foldl_cons]
    rcases ih (max a x) with h | h
    · rw [h]
      rcases Nat.le_total a x with h' | h'
      · right; rw [Nat.max_eq_right h']; simp
      · left; exact Nat.max_eq_left h'
    · right; simp [h]

theorem matched_cont (row : List (Nat × Nat)) (hr : ∀ p ∈ row, 0x80 ≤ p.1 ∧ p.2 ≤ 0xBF) : ∀ (l : List Nat), ∀ c ∈ l.take (matched row l), 0x80 ≤ c ∧ c ≤ 0xBF := by
  induction row with
  | nil => intro l c hc; simp [matched] at hc
  | cons x row ih =>
    obtain ⟨lo, hi⟩ := x
    intro l c hc
    cases l with
    | nil => simp at hc
    | cons b l =>
      rw [matched] at hc
      split at hc
      · rename_i hb
        rw [List.take_succ_cons] at hc
        rcases List.mem_cons.1 hc with rfl | hc
        · have := hr (lo, hi) (by simp); simp only at this; omega
        · exact ih (fun p hp => hr p (by simp [hp])) l c hc
      · simp at hc

theorem subpart_cont (b : Nat) (l : List Nat) : ∃ j, subpart (b :: l) = j + 1 ∧ ∀ c ∈ l.take j, 0x80 ≤ c ∧ c ≤ 0xBF := by
  have htab : ∀ row ∈ table, ∀ p ∈ row.tail, 0x80 ≤ p.1 ∧ p.2 ≤ 0xBF := by decide
  rcases foldl_max (table.map fun row => matched row (b :: l)) 1 with h | h
  · exact ⟨0, h, by simp⟩
  · rw [List.mem_map] at h
    obtain ⟨row, hr, hm⟩ := h
    have hs : subpart (b :: l) = matched row (b :: l) := hm.symm
    have hpos : 1 ≤ subpart (b :: l) := by
      have : ∀ (xs : List Nat) (a : Nat), a ≤ xs.foldl max a := by
        intro xs
        induction xs with
        | nil => intro a; exact Nat.le_refl _
        | cons x xs ih => intro a; rw [List.foldl_cons]; exact Nat.le_trans (Nat.le_max_left _ _) (ih _)
      exact this _ 1
    have ht := htab row hr
    cases row with
    | nil => rw [hs] at hpos; simp [matched] at hpos
    | cons x row =>
      obtain ⟨lo, hi⟩ := x
      rw [matched] at hs
      split at hs
      · exact ⟨_, hs, matched_cont row ht l⟩
      · omega

/-- What each byte of an error is replaced by makes the same result as Python's. -/
theorem plain_py (f : Nat → List Nat) (n : Nat) : ∀ (m : Nat) (l : List Nat), l.length ≤ n → l.length ≤ m → NoSurrogates l →
    plainFrom f n l = pyDecodeFrom (fun seg => seg.flatMap f) m l := by
  induction n with
  | zero =>
    intro m l hn _ _
    have : l = [] := List.length_eq_zero_iff.1 (by omega)
    subst this
    cases m <;> rfl
  | succ n ih =>
    intro m l hn hm hs
    cases l with
    | nil => cases m <;> rfl
    | cons b l =>
      cases m with
      | zero => simp at hm
      | succ m =>
        rw [plainFrom, pyDecodeFrom, chunk_seqLength hs]
        simp only [List.length_cons] at hn hm
        cases hq : seqLength (b :: l) with
        | some k =>
          simp only [Option.map_some]
          have hk := (wf_length (seqLength_some hq).1).1
          rw [List.length_take] at hk
          congr 1
          exact ih m _ (by simp only [List.length_drop, List.length_cons]; omega) (by simp only [List.length_drop, List.length_cons]; omega)
            (noSurrogates_drop hs k)
        | none =>
          simp only [Option.map_none]
          obtain ⟨j, hj, hc⟩ := subpart_cont b l
          rw [hj, List.take_succ_cons, List.drop_succ_cons, List.flatMap_cons, List.append_assoc]
          refine congrArg (f b ++ ·) ?_
          rw [plainFrom_cont f j n n l (by omega) (by omega) hc]
          refine congrArg ((l.take j).flatMap f ++ ·) ?_
          exact ih m _ (by simp only [List.length_drop]; omega) (by simp only [List.length_drop]; omega) (noSurrogates_drop hs (j + 1))

/-- If errors are single bytes, a replacement of the whole is one of each byte. -/
theorem plain_py_single (r : List Nat) (n : Nat) : ∀ (m : Nat) (l : List Nat), l.length ≤ n → l.length ≤ m → NoSurrogates l →
    (∀ k < l.length, seqLength (l.drop k) = none → subpart (l.drop k) = 1) →
    plainFrom (fun _ => r) n l = pyDecodeFrom (fun _ => r) m l := by
  induction n with
  | zero =>
    intro m l hn _ _ _
    have : l = [] := List.length_eq_zero_iff.1 (by omega)
    subst this
    cases m <;> rfl
  | succ n ih =>
    intro m l hn hm hs h1
    cases l with
    | nil => cases m <;> rfl
    | cons b l =>
      cases m with
      | zero => simp at hm
      | succ m =>
        rw [plainFrom, pyDecodeFrom, chunk_seqLength hs]
        simp only [List.length_cons] at hn hm h1
        have hdrop : ∀ k, ∀ i < ((b :: l).drop k).length, seqLength (((b :: l).drop k).drop i) = none → subpart (((b :: l).drop k).drop i) = 1 := by
          intro k i hi hq
          rw [List.drop_drop] at hq ⊢
          refine h1 (k + i) ?_ hq
          simp only [List.length_drop, List.length_cons] at hi
          omega
        cases hq : seqLength (b :: l) with
        | some k =>
          simp only [Option.map_some]
          have hk := (wf_length (seqLength_some hq).1).1
          rw [List.length_take] at hk
          congr 1
          exact ih m _ (by simp only [List.length_drop, List.length_cons]; omega) (by simp only [List.length_drop, List.length_cons]; omega)
            (noSurrogates_drop hs k) (hdrop k)
        | none =>
          simp only [Option.map_none]
          have hsub := h1 0 (by omega) (by simpa using hq)
          simp only [List.drop_zero] at hsub
          rw [hsub]
          refine congrArg (r ++ ·) ?_
          exact ih m l (by omega) (by omega) (noSurrogates_drop hs 1) (hdrop 1)

/-! ## Strictly -/

/-- A sequence is decoded first. -/
theorem decodeLoop_seq {errors : Errors (List Nat)} {seq : List Nat} (h : Loose seq) (pre rest : List Nat) (fuel : Nat) :
    decodeLoop utf8 errors (pre ++ (seq ++ rest)) (fuel + 1) pre.length =
      (decodeLoop utf8 errors (pre ++ seq ++ rest) fuel (pre ++ seq).length).prepend [value seq] := by
  have hc := chunk_of_loose h rest
  cases seq with
  | nil =>
    have := (chunk_pos hc).1
    simp at this
  | cons b l =>
    rw [decodeLoop, if_pos (by simp)]
    have hd := decodeChunk_eq pre b (l ++ rest)
    simp only [List.cons_append] at hc
    rw [hc] at hd
    simp only at hd
    simp only [utf8, List.cons_append]
    rw [hd]
    simp [List.append_assoc]

theorem loose_pos {seq : List Nat} (h : Loose seq) : 1 ≤ seq.length := by
  have := chunk_of_loose h []
  exact (chunk_pos this).1

theorem decodeLoop_seqs {errors : Errors (List Nat)} : ∀ (seqs : List (List Nat)), (∀ s ∈ seqs, Loose s) → ∀ (pre : List Nat) (fuel : Nat),
    seqs.length ≤ fuel → decodeLoop utf8 errors (pre ++ seqs.flatten) fuel pre.length = .ok (seqs.map value, (pre ++ seqs.flatten).length) := by
  intro seqs
  induction seqs with
  | nil =>
    intro _ pre fuel _
    cases fuel <;> simp [decodeLoop]
  | cons s seqs ih =>
    intro h pre fuel hf
    cases fuel with
    | zero => simp at hf
    | succ fuel =>
      rw [List.flatten_cons, decodeLoop_seq (h s (by simp))]
      rw [ih (fun x hx => h x (by simp [hx])) (pre ++ s) fuel (by simpa using hf)]
      simp [Res.prepend]

theorem length_le_flatten : ∀ (seqs : List (List Nat)), (∀ s ∈ seqs, Loose s) → seqs.length ≤ seqs.flatten.length := by
  intro seqs
  induction seqs with
  | nil => intro _; simp
  | cons s seqs ih =>
    intro h
    have := loose_pos (h s (by simp))
    have := ih fun x hx => h x (by simp [hx])
    simp only [List.length_cons, List.flatten_cons, List.length_append]
    omega

theorem decode_seqs {errors : Errors (List Nat)} {seqs : List (List Nat)} (h : ∀ s ∈ seqs, Loose s) :
    decode utf8 errors seqs.flatten = .ok (seqs.map value, seqs.flatten.length) := by
  have := decodeLoop_seqs (errors := errors) seqs h [] seqs.flatten.length (length_le_flatten seqs h)
  simpa [decode] using this

/-- What strict decoding does: sequences up to the end, or to the first error. -/
theorem decodeLoop_strict (fuel : Nat) : ∀ (pre l : List Nat), l.length ≤ fuel →
    (∃ seqs : List (List Nat), (∀ s ∈ seqs, Loose s) ∧ l = seqs.flatten ∧
      decodeLoop utf8 .strict (pre ++ l) fuel pre.length = .ok (seqs.map value, (pre ++ l).length)) ∨
    (∃ (seqs : List (List Nat)) (rest : List Nat), (∀ s ∈ seqs, Loose s) ∧ l = seqs.flatten ++ rest ∧ rest ≠ [] ∧ chunk rest = none ∧
      decodeLoop utf8 .strict (pre ++ l) fuel pre.length = .error (pre.length + seqs.flatten.length) (pre.length + seqs.flatten.length + 1)) := by
  induction fuel with
  | zero =>
    intro pre l hl
    have : l = [] := List.length_eq_zero_iff.1 (by omega)
    subst this
    left
    exact ⟨[], by simp, rfl, by simp [decodeLoop]⟩
  | succ fuel ih =>
    intro pre l hl
    cases l with
    | nil => left; exact ⟨[], by simp, rfl, by simp [decodeLoop]⟩
    | cons b l =>
      cases hc : chunk (b :: l) with
      | none =>
        right
        refine ⟨[], b :: l, by simp, rfl, by simp, hc, ?_⟩
        have hd := decodeChunk_eq pre b l
        rw [hc] at hd
        simp only at hd
        rw [decodeLoop, if_pos (by simp)]
        simp only [utf8]
        rw [hd]
        rfl
      | some x =>
        obtain ⟨k, cp⟩ := x
        obtain ⟨hlo, hv⟩ := chunk_loose hc
        have hp := chunk_pos hc
        have hstep := decodeLoop_seq (errors := .strict) hlo pre ((b :: l).drop k) fuel
        rw [List.take_append_drop] at hstep
        have hlk : ((b :: l).drop k).length ≤ fuel := by simp only [List.length_drop, List.length_cons] at hl ⊢; omega
        have hjoin : (b :: l).take k ++ (b :: l).drop k = b :: l := List.take_append_drop k _
        rcases ih (pre ++ (b :: l).take k) ((b :: l).drop k) hlk with ⟨seqs, h1, h2, h3⟩ | ⟨seqs, rest, h1, h2, h3, h4, h5⟩
        · left
          refine ⟨(b :: l).take k :: seqs, ?_, ?_, ?_⟩
          · intro s hs
            rcases List.mem_cons.1 hs with rfl | hs
            · exact hlo
            · exact h1 s hs
          · rw [List.flatten_cons, ← h2, hjoin]
          · rw [hstep, h3]
            simp only [Res.prepend, List.map_cons, List.append_assoc, hjoin]
            rfl
        · right
          refine ⟨(b :: l).take k :: seqs, rest, ?_, ?_, h3, h4, ?_⟩
          · intro s hs
            rcases List.mem_cons.1 hs with rfl | hs
            · exact hlo
            · exact h1 s hs
          · rw [List.flatten_cons, List.append_assoc, ← h2, hjoin]
          · rw [hstep, h5]
            simp only [Res.prepend, List.flatten_cons, List.length_append, Nat.add_assoc]

/-! ## Encoding UTF-8 -/

theorem encode_loose {c : Nat} (h : c ≤ 0x10FFFF) : Loose (encodeCodepoint c) ∧ value (encodeCodepoint c) = c := by
  unfold encodeCodepoint
  rw [and63, and63, and63, and31, and15, and7, Nat.shiftRight_eq_div_pow, Nat.shiftRight_eq_div_pow, Nat.shiftRight_eq_div_pow]
  by_cases h1 : c ≤ 0x7F
  · rw [if_pos h1]; exact ⟨.inl (wf1.2 h1), rfl⟩
  · rw [if_neg h1]
    by_cases h2 : c ≤ 0x7FF
    · rw [if_pos h2]
      refine ⟨.inl (wf2.2 ?_), ?_⟩
      · omega
      · rw [value2]; omega
    · rw [if_neg h2]
      by_cases h3 : c ≤ 0xFFFF
      · rw [if_pos h3]
        refine ⟨?_, ?_⟩
        · by_cases hs : 0xD800 ≤ c ∧ c ≤ 0xDFFF
          · right
            refine ⟨0x80 + c / 2 ^ 6 % 64, 0x80 + c % 64, ?_, ?_⟩
            · have : 0xE0 + c / 2 ^ 12 % 16 = 0xED := by omega
              rw [this]
            · omega
          · left
            rw [wf3]
            omega
        · rw [value3]; omega
      · rw [if_neg h3]
        refine ⟨.inl (wf4.2 ?_), ?_⟩
        · omega
        · rw [value4]; omega

theorem encode_value {seq : List Nat} (h : Loose seq) : encodeCodepoint (value seq) = seq ∧ value seq ≤ 0x10FFFF := by
  have key : ∀ a b c : Nat, 0xE0 ≤ a ∧ a ≤ 0xEF ∧ (a = 0xE0 → 0xA0 ≤ b) ∧ 0x80 ≤ b ∧ b ≤ 0xBF ∧ 0x80 ≤ c ∧ c ≤ 0xBF →
      encodeCodepoint (value [a, b, c]) = [a, b, c] ∧ value [a, b, c] ≤ 0x10FFFF := by
    intro a b c h
    rw [value3]
    refine ⟨?_, by omega⟩
    unfold encodeCodepoint
    rw [and63, and63, and63, and31, and15, and7, Nat.shiftRight_eq_div_pow, Nat.shiftRight_eq_div_pow, Nat.shiftRight_eq_div_pow]
    rw [if_neg (by omega), if_neg (by omega), if_pos (by omega)]
    simp only [List.cons.injEq, and_true]
    omega
  rcases h with h | ⟨b, c, rfl, h1, h2, h3, h4⟩
  · have hlen := wf_length h
    match seq, h, hlen with
    | [a], h, _ =>
      rw [wf1] at h
      have hv : value [a] = a := by dsimp only [value]
      rw [hv]
      refine ⟨?_, by omega⟩
      unfold encodeCodepoint
      rw [if_pos h]
    | [a, b], h, _ =>
      rw [wf2] at h
      rw [value2]
      refine ⟨?_, by omega⟩
      unfold encodeCodepoint
      rw [and63, and63, and63, and31, and15, and7, Nat.shiftRight_eq_div_pow, Nat.shiftRight_eq_div_pow, Nat.shiftRight_eq_div_pow]
      rw [if_neg (by omega), if_pos (by omega)]
      simp only [List.cons.injEq, and_true]
      omega
    | [a, b, c], h, _ =>
      rw [wf3] at h
      exact key a b c (by omega)
    | [a, b, c, d], h, _ =>
      rw [wf4] at h
      rw [value4]
      refine ⟨?_, by omega⟩
      unfold encodeCodepoint
      rw [and63, and63, and63, and31, and15, and7, Nat.shiftRight_eq_div_pow, Nat.shiftRight_eq_div_pow, Nat.shiftRight_eq_div_pow]
      rw [if_neg (by omega), if_neg (by omega), if_neg (by omega)]
      simp only [List.cons.injEq, and_true]
      omega
  · exact key 0xED b c (by omega)

theorem value_scalar {seq : List Nat} (h : WellFormed seq) : Scalar (value seq) := by
  refine ⟨(encode_value (.inl h)).2, ?_⟩
  have hlen := wf_length h
  match seq, h, hlen with
  | [a], h, _ =>
    rw [wf1] at h
    have hv : value [a] = a := by dsimp only [value]
    rw [hv]; omega
  | [a, b], h, _ => rw [wf2] at h; rw [value2]; omega
  | [a, b, c], h, _ => rw [wf3] at h; rw [value3]; omega
  | [a, b, c, d], h, _ => rw [wf4] at h; rw [value4]; omega

theorem wf_of_scalar {c : Nat} (h : Scalar c) : WellFormed (encodeCodepoint c) := by
  obtain ⟨h1, h2⟩ := encode_loose h.1
  rcases h1 with h1 | ⟨b, d, he, hb⟩
  · exact h1
  · exfalso
    rw [he, value3] at h2
    have := h.2
    omega

theorem encode_utf8 (errors : Errors Replacement) (s : List Nat) : encode utf8 errors s = .ok (s.flatMap encodeCodepoint, s.length) := by
  unfold encode
  cases s with
  | nil => rfl
  | cons c s =>
    rw [List.length_cons, encodeLoop, if_pos (by simp)]
    simp only [utf8, utf8EncodeChunk, List.drop_zero]
    cases s with
    | nil => simp [encodeLoop, Res.prepend]
    | cons d s =>
      rw [List.length_cons, encodeLoop, if_neg (by simp)]
      simp [Res.prepend]

/-! ## One byte per character -/

theorem byteLoop_eq (limit : Nat) : ∀ (l : List Nat) (idx : Nat), byteLoop limit l idx =
    (l.takeWhile (· < limit), idx + (l.takeWhile (· < limit)).length, if ∀ c ∈ l, c < limit then none else some .midChunk) := by
  intro l
  induction l with
  | nil => intro idx; simp [byteLoop]
  | cons c l ih =>
    intro idx
    rw [byteLoop]
    by_cases hc : c ≥ limit
    · have h1 : ¬ (∀ x ∈ c :: l, x < limit) := fun h => by have := h c (by simp); omega
      rw [if_pos hc, if_neg h1, List.takeWhile_cons_of_neg (by simp; omega)]
      rfl
    · have hc' : c < limit := by omega
      rw [if_neg hc, ih, List.takeWhile_cons_of_pos (by simpa using hc')]
      simp only [List.length_cons, List.mem_cons, forall_eq_or_imp, hc', true_and, Prod.mk.injEq]
      exact ⟨by omega, trivial⟩

theorem split_first (limit : Nat) {l : List Nat} (h : ¬ ∀ c ∈ l, c < limit) :
    ∃ c rest, l = l.takeWhile (· < limit) ++ c :: rest ∧ limit ≤ c := by
  induction l with
  | nil => simp at h
  | cons c l ih =>
    by_cases hc : c < limit
    · rw [List.takeWhile_cons_of_pos (by simpa using hc)]
      obtain ⟨d, rest, h1, h2⟩ := ih (fun ha => h fun x hx => by
        rcases List.mem_cons.1 hx with rfl | hx
        · exact hc
        · exact ha x hx)
      exact ⟨d, rest, congrArg (c :: ·) h1, h2⟩
    · rw [List.takeWhile_cons_of_neg (by simpa using hc)]
      exact ⟨c, l, rfl, by omega⟩

theorem takeWhile_all {limit : Nat} {l : List Nat} (h : ∀ c ∈ l, c < limit) : l.takeWhile (· < limit) = l := by
  induction l with
  | nil => rfl
  | cons c l ih =>
    rw [List.takeWhile_cons_of_pos (by simpa using h c (by simp)), ih fun x hx => h x (by simp [hx])]

/-- Characters below the limit as they are, others replaced. -/
def subst (limit : Nat) (f : Nat → List Nat) (l : List Nat) : List Nat := l.flatMap fun c => if c < limit then [c] else f c

theorem subst_below {limit : Nat} {f : Nat → List Nat} {l : List Nat} (h : ∀ c ∈ l, c < limit) : subst limit f l = l := by
  induction l with
  | nil => rfl
  | cons c l ih =>
    simp only [subst, List.flatMap_cons, if_pos (h c (by simp))] at ih ⊢
    rw [ih fun x hx => h x (by simp [hx])]
    rfl

theorem subst_split (limit : Nat) (f : Nat → List Nat) (l rest : List Nat) (c : Nat) (hc : limit ≤ c) :
    subst limit f (l.takeWhile (· < limit) ++ c :: rest) = l.takeWhile (· < limit) ++ (f c ++ subst limit f rest) := by
  have h1 : subst limit f (l.takeWhile (· < limit)) = l.takeWhile (· < limit) := subst_below fun x hx => by
    have := List.all_eq_true.1 (List.all_takeWhile (p := fun y => decide (y < limit)) (l := l)) x hx
    simpa using this
  have h2 : ∀ a b, subst limit f (a ++ b) = subst limit f a ++ subst limit f b := fun a b => List.flatMap_append
  rw [h2, h1]
  have h3 : subst limit f (c :: rest) = f c ++ subst limit f rest := by
    simp only [subst, List.flatMap_cons, if_neg (Nat.not_lt.2 hc)]
  rw [h3]

theorem byte_decodeLoop {c : Stem} {limit : Nat} (hd : ∀ b i, c.decodeChunk b i = some (byteLoop limit (b.drop i) i))
    {errors : Errors (List Nat)} {input : List Nat} {f : Nat → List Nat} (h : Bytewise errors input f) (fuel : Nat) :
    ∀ (pre l : List Nat), input = pre ++ l → l.length ≤ fuel → decodeLoop c errors input fuel pre.length = .ok (subst limit f l, input.length) := by
  induction fuel with
  | zero =>
    intro pre l he hl
    have : l = [] := List.length_eq_zero_iff.1 (by omega)
    subst this
    simp only [List.append_nil] at he
    rw [decodeLoop, he, if_neg (by omega)]
    rfl
  | succ fuel ih =>
    intro pre l he hl
    by_cases hl0 : l = []
    · subst hl0
      simp only [List.append_nil] at he
      rw [decodeLoop, he, if_neg (by omega)]
      rfl
    have hlen : pre.length < input.length := by
      have := List.length_pos_iff.2 hl0
      rw [he, List.length_append]; omega
    rw [decodeLoop, if_pos hlen]
    have hdrop : input.drop pre.length = l := by rw [he]; simp
    rw [hd, hdrop, byteLoop_eq]
    by_cases hall : ∀ x ∈ l, x < limit
    · rw [if_pos hall, takeWhile_all hall]
      simp only
      have hi : pre.length + l.length = input.length := by rw [he]; simp
      rw [hi, subst_below hall]
      cases fuel <;> simp [decodeLoop, Res.prepend]
    · rw [if_neg hall]
      simp only
      obtain ⟨d, rest, h1, h2⟩ := split_first limit hall
      generalize ht : l.takeWhile (· < limit) = t at h1
      have hsub : subst limit f l = t ++ (f d ++ subst limit f rest) := by
        rw [h1, ← ht]; exact subst_split limit f l rest d h2
      have hn := ih (pre ++ t ++ [d]) rest (by rw [he, h1]; simp) (by
        have : l.length = (t ++ d :: rest).length := congrArg _ h1
        rw [List.length_append, List.length_cons] at this; omega)
      simp only [List.length_append, List.length_singleton] at hn
      have hlt : pre.length + t.length < input.length := by
        rw [he, h1]; simp
      have hg : input[pre.length + t.length] = d := by
        simp only [he, h1]
        rw [List.getElem_append_right (by omega)]
        simp
      cases errors with
      | strict => exact absurd h (by simp [Bytewise])
      | ignore =>
        simp only [Bytewise] at h
        subst h
        simp only [hn, hsub, Res.prepend]
        rfl
      | replace =>
        simp only [Bytewise] at h
        subst h
        simp only [hn, hsub, Res.prepend, List.append_assoc]
      | custom g =>
        have hb := h (pre.length + t.length) hlt
        rw [hg] at hb
        simp only [hb, hn, hsub, Res.prepend, List.append_assoc]

theorem encodeLoop_strict {c : Stem} {limit : Nat} (hc : ∀ s i, c.encodeChunk s i = byteLoop limit (s.drop i) i) (es : List Nat → Res (List Nat × Nat))
    (input : List Nat) (fuel : Nat) (hf : input.length ≤ fuel) : encodeLoop c es .strict input fuel 0 =
      if ∀ x ∈ input, x < limit then .ok (input, input.length)
      else .error (input.takeWhile (· < limit)).length ((input.takeWhile (· < limit)).length + 1) := by
  cases input with
  | nil => cases fuel <;> simp [encodeLoop]
  | cons a l =>
    cases fuel with
    | zero => simp at hf
    | succ fuel =>
      rw [encodeLoop, if_pos (by simp), hc, byteLoop_eq]
      simp only [List.drop_zero]
      by_cases hall : ∀ x ∈ a :: l, x < limit
      · rw [if_pos hall, if_pos hall, takeWhile_all hall]
        simp only [Nat.zero_add]
        cases fuel <;> simp [encodeLoop, Res.prepend]
      · rw [if_neg hall, if_neg hall]
        simp

theorem encodeStrict_eq {c : Stem} {limit : Nat} (hc : ∀ s i, c.encodeChunk s i = byteLoop limit (s.drop i) i) (input : List Nat) :
    encodeStrict c input = if ∀ x ∈ input, x < limit then .ok (input, input.length)
      else .error (input.takeWhile (· < limit)).length ((input.takeWhile (· < limit)).length + 1) :=
  encodeLoop_strict hc _ input _ (Nat.le_refl _)

theorem encodeLoop_charwise {c : Stem} {limit : Nat} (hc : ∀ s i, c.encodeChunk s i = byteLoop limit (s.drop i) i) (hq : 0x3F < limit)
    {errors : Errors Replacement} {input : List Nat} {f : Nat → List Nat} (h : Charwise errors input limit f) (fuel : Nat) :
    ∀ (pre l : List Nat), input = pre ++ l → l.length ≤ fuel →
      encodeLoop c (encodeStrict c) errors input fuel pre.length = .ok (subst limit f l, input.length) := by
  induction fuel with
  | zero =>
    intro pre l he hl
    have : l = [] := List.length_eq_zero_iff.1 (by omega)
    subst this
    simp only [List.append_nil] at he
    rw [encodeLoop, he, if_neg (by omega)]
    rfl
  | succ fuel ih =>
    intro pre l he hl
    by_cases hl0 : l = []
    · subst hl0
      simp only [List.append_nil] at he
      rw [encodeLoop, he, if_neg (by omega)]
      rfl
    have hlen : pre.length < input.length := by
      have := List.length_pos_iff.2 hl0
      rw [he, List.length_append]; omega
    rw [encodeLoop, if_pos hlen]
    have hdrop : input.drop pre.length = l := by rw [he]; simp
    rw [hc, hdrop, byteLoop_eq]
    by_cases hall : ∀ x ∈ l, x < limit
    · rw [if_pos hall, takeWhile_all hall]
      simp only
      have hi : pre.length + l.length = input.length := by rw [he]; simp
      rw [hi, subst_below hall]
      cases fuel <;> simp [encodeLoop, Res.prepend]
    · rw [if_neg hall]
      simp only
      obtain ⟨d, rest, h1, h2⟩ := split_first limit hall
      generalize ht : l.takeWhile (· < limit) = t at h1
      have hsub : subst limit f l = t ++ (f d ++ subst limit f rest) := by
        rw [h1, ← ht]; exact subst_split limit f l rest d h2
      have hn := ih (pre ++ t ++ [d]) rest (by rw [he, h1]; simp) (by
        have : l.length = (t ++ d :: rest).length := congrArg _ h1
        rw [List.length_append, List.length_cons] at this; omega)
      simp only [List.length_append, List.length_singleton] at hn
      have hlt : pre.length + t.length < input.length := by
        rw [he, h1]; simp
      have hg : input[pre.length + t.length] = d := by
        simp only [he, h1]
        rw [List.getElem_append_right (by omega)]
        simp
      have hstr : ∀ s : List Nat, (∀ x ∈ s, x < limit) → encodeStrict c s = .ok (s, s.length) := fun s hs => by
        rw [encodeStrict_eq hc, if_pos hs]
      cases errors with
      | strict => exact absurd h (by simp [Charwise])
      | ignore =>
        simp only [Charwise] at h
        subst h
        simp only [hstr [] (by simp), hn, hsub, Res.prepend, List.append_assoc]
      | replace =>
        simp only [Charwise] at h
        subst h
        simp only [hstr [0x3F] (by simpa using hq), hn, hsub, Res.prepend, List.append_assoc]
      | custom g =>
        have hb := h (pre.length + t.length) hlt
        rw [hg] at hb
        obtain ⟨hb1, hb2⟩ := hb
        rcases hb2 with hb2 | ⟨hb2, hb3⟩
        · simp only [hb1, hb2, hn, hsub, Res.prepend, List.append_assoc]
        · simp only [hb1, hb2, hstr _ hb3, hn, hsub, Res.prepend, List.append_assoc]

end Verif.Codec
