import Verif.Codec.Spec

namespace Verif.Codec

/-! ## Chunks, by the bytes that are left -/

/-- The loop over further bytes, on the list of them. -/
def furtherL : Nat → Nat → List Nat → Option Nat
  | cp, 0, _ => some cp
  | _, _ + 1, [] => none
  | cp, n + 1, b :: l => if 0x80 ≤ b ∧ b ≤ 0xBF then furtherL (cp * 64 + (b - 0x80)) n l else none

/-- A chunk: how many bytes, and the code point. -/
def chunk : List Nat → Option (Nat × Nat)
  | [] => none
  | b :: l =>
    match lead b with
    | none => none
    | some (n, cp, mincp, maxcp) =>
      if n > l.length then none
      else
        match furtherL cp n l with
        | none => none
        | some cp => if mincp ≤ cp ∧ cp ≤ maxcp then some (1 + n, cp) else none

theorem further_eq (n : Nat) : ∀ (pre l : List Nat) (cp : Nat), n ≤ l.length → further (pre ++ l) cp pre.length n = furtherL cp n l := by
  induction n with
  | zero => intro pre l cp _; rfl
  | succ n ih =>
    intro pre l cp h
    cases l with
    | nil => simp at h
    | cons b l =>
      rw [further, furtherL]
      have hg : (pre ++ b :: l).getD pre.length 0 = b := by simp
      simp only [hg]
      by_cases hb : 0x80 ≤ b ∧ b ≤ 0xBF
      · rw [if_pos hb, if_pos hb]
        have := ih (pre ++ [b]) l (cp * 64 + (b - 0x80)) (by simpa using h)
        simpa using this
      · rw [if_neg hb, if_neg hb]

theorem decodeChunk_eq (pre : List Nat) (b : Nat) (l : List Nat) : utf8DecodeChunk (pre ++ b :: l) pre.length =
    some (match chunk (b :: l) with
      | some (n, cp) => ([cp], pre.length + n, none)
      | none => ([], pre.length, some (match lead b with | none => .midChunk | some (n, _, _, _) => if n > l.length then .unexpectedEnd else .midChunk))) := by
  unfold utf8DecodeChunk chunk
  have hg : (pre ++ b :: l)[pre.length]? = some b := by simp
  rw [hg]
  simp only
  cases hl : lead b with
  | none => rfl
  | some x =>
    obtain ⟨n, cp, lo, hi⟩ := x
    simp only [List.length_append, List.length_cons]
    by_cases hn : n > l.length
    · rw [if_pos hn, if_pos (by omega)]
      simp [hn]
    · rw [if_neg hn, if_neg (by omega)]
      have := further_eq n (pre ++ [b]) l cp (by omega)
      simp only [List.append_assoc, List.singleton_append, List.length_append, List.length_singleton] at this
      rw [this]
      cases furtherL cp n l with
      | none => simp [hn]
      | some cp =>
        simp only
        by_cases hc : lo ≤ cp ∧ cp ≤ hi
        · rw [if_pos hc, if_pos hc]
          simp only [Option.some.injEq, Prod.mk.injEq, and_true, true_and]
          omega
        · rw [if_neg hc, if_neg hc]
          simp [hn]

theorem chunk_pos {l : List Nat} {n cp : Nat} (h : chunk l = some (n, cp)) : 1 ≤ n ∧ n ≤ l.length := by
  cases l with
  | nil => simp [chunk] at h
  | cons b l =>
    rw [chunk] at h
    split at h
    · simp at h
    · split at h
      · simp at h
      · split at h
        · simp at h
        · split at h
          · simp only [Option.some.injEq, Prod.mk.injEq] at h
            simp only [List.length_cons]
            omega
          · simp at h

/-! ## The table -/

/-- The table with encoded surrogates, which the code accepts. -/
def Loose (seq : List Nat) : Prop := WellFormed seq ∨ ∃ b c, seq = [0xED, b, c] ∧ 0xA0 ≤ b ∧ b ≤ 0xBF ∧ 0x80 ≤ c ∧ c ≤ 0xBF

theorem and7 (x : Nat) : x &&& 7 = x % 8 := Nat.and_two_pow_sub_one_eq_mod x 3
theorem and15 (x : Nat) : x &&& 15 = x % 16 := Nat.and_two_pow_sub_one_eq_mod x 4
theorem and31 (x : Nat) : x &&& 31 = x % 32 := Nat.and_two_pow_sub_one_eq_mod x 5
theorem and63 (x : Nat) : x &&& 63 = x % 64 := Nat.and_two_pow_sub_one_eq_mod x 6

theorem lead_cases (b : Nat) : (b ≤ 0xBF ∧ lead b = some (0, b, 0, 0x7F)) ∨ (0xC0 ≤ b ∧ b ≤ 0xDF ∧ lead b = some (1, b - 0xC0, 0x80, 0x7FF)) ∨
    (0xE0 ≤ b ∧ b ≤ 0xEF ∧ lead b = some (2, b - 0xE0, 0x800, 0xFFFF)) ∨ (0xF0 ≤ b ∧ b ≤ 0xF7 ∧ lead b = some (3, b - 0xF0, 0x10000, 0x10FFFF)) ∨
    (0xF8 ≤ b ∧ lead b = none) := by
  unfold lead
  rw [and7, and15, and31]
  by_cases h1 : b ≥ 0b11000000
  · rw [if_pos h1]
    by_cases h2 : b ≥ 0b11100000
    · rw [if_pos h2]
      by_cases h3 : b ≥ 0b11110000
      · rw [if_pos h3]
        by_cases h4 : b > 0b11110111
        · rw [if_pos h4]; right; right; right; right; exact ⟨by omega, rfl⟩
        · rw [if_neg h4]; right; right; right; left
          refine ⟨by omega, by omega, ?_⟩
          have : b % 8 = b - 0xF0 := by omega
          rw [this]
      · rw [if_neg h3, if_neg (by omega)]; right; right; left
        refine ⟨by omega, by omega, ?_⟩
        have : b % 16 = b - 0xE0 := by omega
        rw [this]
    · rw [if_neg h2, if_neg (by omega)]; right; left
      refine ⟨by omega, by omega, ?_⟩
      have : b % 32 = b - 0xC0 := by omega
      rw [this]
  · rw [if_neg h1]; left; exact ⟨by omega, rfl⟩

/-- The bytes are in the ranges, one by one. -/
def allIn : List (Nat × Nat) → List Nat → Prop
  | [], [] => True
  | (lo, hi) :: row, b :: l => (lo ≤ b ∧ b ≤ hi) ∧ allIn row l
  | [], _ :: _ => False
  | _ :: _, [] => False

theorem matched_le (row : List (Nat × Nat)) : ∀ l, matched row l ≤ row.length := by
  induction row with
  | nil => intro l; simp [matched]
  | cons x row ih =>
    obtain ⟨lo, hi⟩ := x
    intro l
    cases l with
    | nil => simp [matched]
    | cons b l =>
      rw [matched]
      split
      · have := ih l; simp only [List.length_cons]; omega
      · simp

theorem allIn_iff (row : List (Nat × Nat)) : ∀ l, (row.length = l.length ∧ matched row l = row.length) ↔ allIn row l := by
  induction row with
  | nil => intro l; cases l <;> simp [allIn, matched]
  | cons x row ih =>
    obtain ⟨lo, hi⟩ := x
    intro l
    cases l with
    | nil => simp [allIn]
    | cons b l =>
      rw [allIn, matched, ← ih l]
      split
      · rename_i h
        simp [h]
      · rename_i h
        simp [h]

/-- The bytes at the start are in the ranges. -/
theorem prefix_iff (row : List (Nat × Nat)) : ∀ l, matched row l = row.length ↔ row.length ≤ l.length ∧ allIn row (l.take row.length) := by
  induction row with
  | nil => intro l; simp [matched, allIn]
  | cons x row ih =>
    obtain ⟨lo, hi⟩ := x
    intro l
    cases l with
    | nil => simp [matched]
    | cons b l =>
      rw [matched, List.length_cons, List.take_succ_cons, allIn]
      split
      · rename_i h
        simp [h, ih l]
      · rename_i h
        simp [h]

theorem wf_iff (seq : List Nat) : WellFormed seq ↔ ∃ row ∈ table, allIn row seq := by
  unfold WellFormed
  simp only [allIn_iff]

theorem wf1 {a : Nat} : WellFormed [a] ↔ a ≤ 0x7F := by
  simp [wf_iff, table, allIn]

theorem wf2 {a b : Nat} : WellFormed [a, b] ↔ 0xC2 ≤ a ∧ a ≤ 0xDF ∧ 0x80 ≤ b ∧ b ≤ 0xBF := by
  simp only [wf_iff, table, List.mem_cons, List.not_mem_nil, or_false, exists_eq_or_imp, exists_eq_left, allIn, and_false, false_or, and_true]
  omega

theorem wf3 {a b c : Nat} : WellFormed [a, b, c] ↔ 0xE0 ≤ a ∧ a ≤ 0xEF ∧ (a = 0xE0 → 0xA0 ≤ b) ∧ (a = 0xED → b ≤ 0x9F) ∧ 0x80 ≤ b ∧ b ≤ 0xBF ∧
    0x80 ≤ c ∧ c ≤ 0xBF := by
  simp only [wf_iff, table, List.mem_cons, List.not_mem_nil, or_false, exists_eq_or_imp, exists_eq_left, allIn, and_false, false_or, and_true]
  omega

theorem wf4 {a b c d : Nat} : WellFormed [a, b, c, d] ↔ 0xF0 ≤ a ∧ a ≤ 0xF4 ∧ (a = 0xF0 → 0x90 ≤ b) ∧ (a = 0xF4 → b ≤ 0x8F) ∧ 0x80 ≤ b ∧ b ≤ 0xBF ∧
    0x80 ≤ c ∧ c ≤ 0xBF ∧ 0x80 ≤ d ∧ d ≤ 0xBF := by
  simp only [wf_iff, table, List.mem_cons, List.not_mem_nil, or_false, exists_eq_or_imp, exists_eq_left, allIn, and_false, false_or, and_true]
  omega

theorem wf_length {seq : List Nat} (h : WellFormed seq) : 1 ≤ seq.length ∧ seq.length ≤ 4 := by
  obtain ⟨row, hr, hl, _⟩ := h
  rw [← hl]
  have all : ∀ row ∈ table, 1 ≤ row.length ∧ row.length ≤ 4 := by decide
  exact all row hr

theorem value2 (a b : Nat) : value [a, b] = (a - 0xC0) * 64 + (b - 0x80) := by dsimp only [value]

theorem value3 (a b c : Nat) : value [a, b, c] = (a - 0xE0) * 4096 + (b - 0x80) * 64 + (c - 0x80) := by dsimp only [value]

theorem value4 (a b c d : Nat) : value [a, b, c, d] = (a - 0xF0) * 262144 + (b - 0x80) * 4096 + (c - 0x80) * 64 + (d - 0x80) := by dsimp only [value]

/-- A chunk is a well-formed sequence or an encoded surrogate. -/
theorem chunk_loose {l : List Nat} {n cp : Nat} (h : chunk l = some (n, cp)) : Loose (l.take n) ∧ value (l.take n) = cp := by
  cases l with
  | nil => simp [chunk] at h
  | cons a l =>
    rw [chunk] at h
    rcases lead_cases a with ⟨ha, hl⟩ | ⟨ha, ha', hl⟩ | ⟨ha, ha', hl⟩ | ⟨ha, ha', hl⟩ | ⟨ha, hl⟩
    · simp only [hl, furtherL, Nat.not_lt_zero, gt_iff_lt, if_false] at h
      split at h
      · rename_i hc
        simp only [Option.some.injEq, Prod.mk.injEq] at h
        obtain ⟨rfl, rfl⟩ := h
        have he : (a :: l).take (1 + 0) = [a] := rfl
        rw [he]
        exact ⟨.inl (wf1.2 hc.2), rfl⟩
      · simp at h
    · match l, h with
      | [], h => simp [hl] at h
      | b :: l, h =>
        simp only [hl, furtherL, List.length_cons, gt_iff_lt] at h
        rw [if_neg (by omega)] at h
        by_cases hb : 0x80 ≤ b ∧ b ≤ 0xBF
        · simp only [if_pos hb] at h
          split at h
          · rename_i hc
            simp only [Option.some.injEq, Prod.mk.injEq] at h
            obtain ⟨rfl, rfl⟩ := h
            refine ⟨.inl ?_, value2 a b⟩
            simp only [Nat.reduceAdd, List.take_succ_cons, List.take_zero, wf2]
            omega
          · simp at h
        · simp [hb] at h
    · match l, h with
      | [], h => simp [hl] at h
      | [b], h => simp [hl] at h
      | b :: c :: l, h =>
        simp only [hl, furtherL, List.length_cons, gt_iff_lt] at h
        rw [if_neg (by omega)] at h
        by_cases hb : 0x80 ≤ b ∧ b ≤ 0xBF
        · by_cases hc' : 0x80 ≤ c ∧ c ≤ 0xBF
          · simp only [if_pos hb, if_pos hc'] at h
            split at h
            · rename_i hc
              simp only [Option.some.injEq, Prod.mk.injEq] at h
              obtain ⟨rfl, rfl⟩ := h
              refine ⟨?_, (value3 a b c).trans (by omega)⟩
              simp only [Nat.reduceAdd, List.take_succ_cons, List.take_zero]
              by_cases hs : a = 0xED ∧ 0xA0 ≤ b
              · right; exact ⟨b, c, by rw [hs.1], hs.2, hb.2, hc'.1, hc'.2⟩
              · left; rw [wf3]; omega
            · simp at h
          · simp [hb, hc'] at h
        · simp [hb] at h
    · match l, h with
      | [], h => simp [hl] at h
      | [b], h => simp [hl] at h
      | [b, c], h => simp [hl] at h
      | b :: c :: d :: l, h =>
        simp only [hl, furtherL, List.length_cons, gt_iff_lt] at h
        rw [if_neg (by omega)] at h
        by_cases hb : 0x80 ≤ b ∧ b ≤ 0xBF
        · by_cases hc' : 0x80 ≤ c ∧ c ≤ 0xBF
          · by_cases hd : 0x80 ≤ d ∧ d ≤ 0xBF
            · simp only [if_pos hb, if_pos hc', if_pos hd] at h
              split at h
              · rename_i hc
                simp only [Option.some.injEq, Prod.mk.injEq] at h
                obtain ⟨rfl, rfl⟩ := h
                refine ⟨.inl ?_, (value4 a b c d).trans (by omega)⟩
                simp only [Nat.reduceAdd, List.take_succ_cons, List.take_zero, wf4]
                omega
              · simp at h
            · simp [hb, hc', hd] at h
          · simp [hb, hc'] at h
        · simp [hb] at h
    · simp [hl] at h

/-- A well-formed sequence or an encoded surrogate is a chunk. -/
theorem chunk_of_loose {seq : List Nat} (h : Loose seq) (rest : List Nat) : chunk (seq ++ rest) = some (seq.length, value seq) := by
  have key : ∀ a b c : Nat, 0xE0 ≤ a ∧ a ≤ 0xEF ∧ (a = 0xE0 → 0xA0 ≤ b) ∧ 0x80 ≤ b ∧ b ≤ 0xBF ∧ 0x80 ≤ c ∧ c ≤ 0xBF →
      chunk (a :: b :: c :: rest) = some (3, value [a, b, c]) := by
    intro a b c h
    rw [chunk]
    rcases lead_cases a with ⟨ha, hl⟩ | ⟨ha, ha', hl⟩ | ⟨ha, ha', hl⟩ | ⟨ha, ha', hl⟩ | ⟨ha, hl⟩ <;> try omega
    simp only [hl, furtherL, List.length_cons, gt_iff_lt]
    rw [if_neg (by omega), if_pos (by omega), if_pos (by omega)]
    simp only
    rw [if_pos (by omega)]
    have e : ((a - 0xE0) * 64 + (b - 0x80)) * 64 + (c - 0x80) = value [a, b, c] := by rw [value3]; omega
    rw [e]
  rcases h with h | ⟨b, c, rfl, h1, h2, h3, h4⟩
  · have hlen := wf_length h
    match seq, h, hlen with
    | [a], h, _ =>
      rw [wf1] at h
      simp only [List.singleton_append, chunk]
      rcases lead_cases a with ⟨ha, hl⟩ | ⟨ha, ha', hl⟩ | ⟨ha, ha', hl⟩ | ⟨ha, ha', hl⟩ | ⟨ha, hl⟩ <;> try omega
      simp only [hl, furtherL, gt_iff_lt, Nat.not_lt_zero, if_false]
      rw [if_pos ⟨Nat.zero_le _, h⟩]
      rfl
    | [a, b], h, _ =>
      rw [wf2] at h
      simp only [List.cons_append, List.nil_append, chunk]
      rcases lead_cases a with ⟨ha, hl⟩ | ⟨ha, ha', hl⟩ | ⟨ha, ha', hl⟩ | ⟨ha, ha', hl⟩ | ⟨ha, hl⟩ <;> try omega
      simp only [hl, furtherL, List.length_cons, gt_iff_lt]
      rw [if_neg (by omega), if_pos (by omega)]
      simp only
      rw [if_pos (by omega), value2]
      rfl
    | [a, b, c], h, _ =>
      rw [wf3] at h
      exact key a b c (by omega)
    | [a, b, c, d], h, _ =>
      rw [wf4] at h
      simp only [List.cons_append, List.nil_append, chunk]
      rcases lead_cases a with ⟨ha, hl⟩ | ⟨ha, ha', hl⟩ | ⟨ha, ha', hl⟩ | ⟨ha, ha', hl⟩ | ⟨ha, hl⟩ <;> try omega
      simp only [hl, furtherL, List.length_cons, gt_iff_lt]
      rw [if_neg (by omega), if_pos (by omega), if_pos (by omega), if_pos (by omega)]
      simp only
      rw [if_pos (by omega)]
      simp only [value4, Option.some.injEq, Prod.mk.injEq]
      refine ⟨rfl, ?_⟩
      omega
  · exact key 0xED b c (by omega)

theorem seqLength_some {l : List Nat} {k : Nat} (h : seqLength l = some k) : WellFormed (l.take k) ∧ k ≤ l.length := by
  unfold seqLength at h
  rw [Option.map_eq_some_iff] at h
  obtain ⟨row, hf, rfl⟩ := h
  have hm := List.mem_of_find?_eq_some hf
  have hp := List.find?_some hf
  simp only [decide_eq_true_eq] at hp
  obtain ⟨h1, h2⟩ := (prefix_iff row l).1 hp
  exact ⟨(wf_iff _).2 ⟨row, hm, h2⟩, h1⟩

theorem seqLength_none {l : List Nat} (h : seqLength l = none) : ∀ k ≤ l.length, ¬ WellFormed (l.take k) := by
  intro k hk hw
  obtain ⟨row, hr, hl, hm⟩ := hw
  unfold seqLength at h
  rw [Option.map_eq_none_iff, List.find?_eq_none] at h
  apply h row hr
  simp only [decide_eq_true_eq]
  have hlen : row.length = k := by rw [hl, List.length_take]; omega
  rw [prefix_iff, hlen]
  exact ⟨hk, (allIn_iff row _).1 ⟨hl, hm⟩⟩

/-- Without encoded surrogates, chunks are the well-formed sequences. -/
theorem chunk_seqLength {l : List Nat} (hs : NoSurrogates l) : chunk l = (seqLength l).map fun k => (k, value (l.take k)) := by
  cases h : seqLength l with
  | some k =>
    obtain ⟨h1, h2⟩ := seqLength_some h
    have := chunk_of_loose (.inl h1) (l.drop k)
    rw [List.take_append_drop, List.length_take, Nat.min_eq_left h2] at this
    simpa using this
  | none =>
    cases hc : chunk l with
    | none => rfl
    | some x =>
      obtain ⟨n, cp⟩ := x
      obtain ⟨h1, _⟩ := chunk_loose hc
      have hn := chunk_pos hc
      rcases h1 with h1 | ⟨b, c, he, hb⟩
      · exact absurd h1 (seqLength_none h n hn.2)
      · refine absurd hb (hs [] b c (l.drop n) ?_)
        have := List.take_append_drop n l
        rw [he] at this
        simpa using this.symm

theorem noSurrogates_drop {l : List Nat} (h : NoSurrogates l) (k : Nat) : NoSurrogates (l.drop k) := by
  intro pre b c post he
  refine h (l.take k ++ pre) b c post ?_
  rw [List.append_assoc, ← he, List.take_append_drop]

end Verif.Codec
