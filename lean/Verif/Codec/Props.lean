import Verif.Codec.Loops

/-! Encodings: UTF-8 is as in the Unicode standard but for surrogates, errors are handled as in Python or not, and text survives. -/
namespace Verif.Codec

/-! ## Encoding as UTF-8 -/

/-- **C100, part.** Encoding a string of scalar values gives, for each character, the well-formed sequence with that value, with any handler of errors.
Missing: surrogates, see `surrogates_encoded`. -/
theorem encode_exact_partial (errors : Errors Replacement) (s : List Nat) (hs : ∀ c ∈ s, Scalar c) :
    ∃ seqs : List (List Nat), encode utf8 errors s = .ok (seqs.flatten, s.length) ∧ (∀ q ∈ seqs, WellFormed q) ∧ seqs.map value = s := by
  refine ⟨s.map encodeCodepoint, ?_, ?_, ?_⟩
  · rw [encode_utf8, List.flatMap_def]
  · intro q hq
    obtain ⟨c, hc, rfl⟩ := List.mem_map.1 hq
    exact wf_of_scalar (hs c hc)
  · rw [List.map_map]
    conv => rhs; rw [← List.map_id s]
    exact List.map_congr_left fun c hc => (encode_loose (hs c hc).1).2

/-- **C100.** There is only one well-formed sequence with a given value, so that the result of encoding is determined. -/
theorem sequence_unique (p q : List Nat) (hp : WellFormed p) (hq : WellFormed q) (h : value p = value q) : p = q := by
  rw [← (encode_value (.inl hp)).1, ← (encode_value (.inl hq)).1, h]

/-- **C100.** What is encoded as UTF-8 is decoded to the same string, with any handlers; even with surrogates. -/
theorem round_trip (errors : Errors Replacement) (errors' : Errors (List Nat)) (s : List Nat) (hs : ∀ c ∈ s, c ≤ 0x10FFFF) :
    ∃ b, encode utf8 errors s = .ok (b, s.length) ∧ decode utf8 errors' b = .ok (s, b.length) := by
  refine ⟨s.flatMap encodeCodepoint, encode_utf8 _ _, ?_⟩
  rw [List.flatMap_def, decode_seqs]
  · rw [List.map_map]
    congr 2
    conv => rhs; rw [← List.map_id s]
    exact List.map_congr_left fun c hc => (encode_loose (hs c hc)).2
  · intro q hq
    obtain ⟨c, hc, rfl⟩ := List.mem_map.1 hq
    exact (encode_loose (hs c hc)).1

/-- **C100.** Bytes that are decoded strictly are those that the decoded string is encoded as. -/
theorem round_trip_back (errors : Errors Replacement) (b s : List Nat) (n : Nat) (h : decode utf8 .strict b = .ok (s, n)) :
    encode utf8 errors s = .ok (b, s.length) := by
  rw [encode_utf8]
  rcases decodeLoop_strict b.length [] b (Nat.le_refl _) with ⟨seqs, h1, h2, h3⟩ | ⟨_, _, _, _, _, _, h5⟩
  · have h3' : decode utf8 .strict b = _ := h3
    rw [h3'] at h
    simp only [Res.ok.injEq, Prod.mk.injEq] at h
    rw [← h.1, List.flatMap_map, h2]
    congr 2
    rw [List.flatMap_def]
    congr 1
    conv => rhs; rw [← List.map_id seqs]
    exact List.map_congr_left fun q hq => (encode_value (h1 q hq)).1
  · have h5' : decode utf8 .strict b = _ := h5
    rw [h5'] at h
    simp at h

example : encode utf8 .strict [0x41, 0xE9, 0x20AC, 0x1F600] = .ok ([0x41, 0xC3, 0xA9, 0xE2, 0x82, 0xAC, 0xF0, 0x9F, 0x98, 0x80], 4) ∧
    decode utf8 .strict [0x41, 0xC3, 0xA9, 0xE2, 0x82, 0xAC, 0xF0, 0x9F, 0x98, 0x80] = .ok ([0x41, 0xE9, 0x20AC, 0x1F600], 10) := by decide +kernel

/-- **C100, disagreement.** A surrogate is encoded (with the handler "strict"), where Python raises `UnicodeEncodeError`: what comes out is not well-formed. -/
theorem surrogates_encoded : encode utf8 .strict [0xD800] = .ok ([0xED, 0xA0, 0x80], 1) ∧ ¬ WellFormed [0xED, 0xA0, 0x80] ∧ ¬ Scalar 0xD800 := by
  refine ⟨by decide +kernel, by rw [wf3]; omega, fun h => h.2 (by omega)⟩

/-! ## Decoding UTF-8 -/

/-- **C101.** Bytes that are well-formed UTF-8 are decoded to their characters, all of them. -/
theorem well_formed_decoded (errors : Errors (List Nat)) (seqs : List (List Nat)) (h : ∀ q ∈ seqs, WellFormed q) :
    decode utf8 errors seqs.flatten = .ok (seqs.map value, seqs.flatten.length) :=
  decode_seqs fun q hq => .inl (h q hq)

/-- **C101, part.** If there are no encoded surrogates, then bytes are decoded strictly exactly if they are well-formed. Missing: encoded surrogates,
see `surrogates_decoded`. -/
theorem strict_exact_partial (b : List Nat) (hs : NoSurrogates b) (s : List Nat) (n : Nat) :
    decode utf8 .strict b = .ok (s, n) ↔ n = b.length ∧ ∃ seqs : List (List Nat), (∀ q ∈ seqs, WellFormed q) ∧ b = seqs.flatten ∧ s = seqs.map value := by
  constructor
  · intro h
    rcases decodeLoop_strict b.length [] b (Nat.le_refl _) with ⟨seqs, h1, h2, h3⟩ | ⟨_, _, _, _, _, _, h5⟩
    · have h3' : decode utf8 .strict b = _ := h3
      rw [h3'] at h
      simp only [Res.ok.injEq, Prod.mk.injEq, List.nil_append] at h
      refine ⟨h.2.symm, seqs, ?_, h2, h.1.symm⟩
      intro q hq
      rcases h1 q hq with hw | ⟨x, y, rfl, hxy⟩
      · exact hw
      · obtain ⟨pre, post, rfl⟩ := List.append_of_mem hq
        refine absurd hxy (hs pre.flatten x y post.flatten ?_)
        rw [h2]
        simp
    · have h5' : decode utf8 .strict b = _ := h5
      rw [h5'] at h
      simp at h
  · rintro ⟨rfl, seqs, h1, rfl, rfl⟩
    exact well_formed_decoded _ seqs h1

/-- **C101, part.** The error of strict decoding starts where well-formed sequences end and none follows; its end is one byte later. Missing: encoded
surrogates; and Python's end, see `error_end`. -/
theorem strict_error_partial (b : List Nat) (hs : NoSurrogates b) (i j : Nat) (h : decode utf8 .strict b = .error i j) :
    j = i + 1 ∧ i < b.length ∧ (∃ seqs : List (List Nat), (∀ q ∈ seqs, WellFormed q) ∧ b.take i = seqs.flatten) ∧
    ∀ k ≤ (b.drop i).length, ¬ WellFormed ((b.drop i).take k) := by
  rcases decodeLoop_strict b.length [] b (Nat.le_refl _) with ⟨seqs, h1, h2, h3⟩ | ⟨seqs, rest, h1, h2, h3, h4, h5⟩
  · have h3' : decode utf8 .strict b = _ := h3
    rw [h3'] at h
    simp at h
  · have h5' : decode utf8 .strict b = _ := h5
    rw [h5'] at h
    simp only [Res.error.injEq, List.length_nil, Nat.zero_add] at h
    obtain ⟨rfl, rfl⟩ := h
    have hd : b.drop seqs.flatten.length = rest := by rw [h2]; simp
    refine ⟨rfl, ?_, ⟨seqs, ?_, ?_⟩, ?_⟩
    · have := List.length_pos_iff.2 h3
      rw [h2, List.length_append]
      omega
    · intro q hq
      rcases h1 q hq with hw | ⟨x, y, rfl, hxy⟩
      · exact hw
      · obtain ⟨pre, post, rfl⟩ := List.append_of_mem hq
        refine absurd hxy (hs pre.flatten x y (post.flatten ++ rest) ?_)
        rw [h2]
        simp
    · rw [h2]; simp
    · rw [hd]
      intro k hk hw
      have := chunk_of_loose (.inl hw) (rest.drop k)
      rw [List.take_append_drop, h4] at this
      simp at this

example : decode utf8 .strict [0x61, 0xC3, 0xA9, 0xE2, 0x28, 0xA1] = .error 3 4 ∧ decode utf8 .strict [0xC0, 0x80] = .error 0 1 ∧
    decode utf8 .strict [0xF4, 0x90, 0x80, 0x80] = .error 0 1 ∧ NoSurrogates [0x61, 0xC3, 0xA9, 0xE2, 0x28, 0xA1] := by
  refine ⟨by decide +kernel, by decide +kernel, by decide +kernel, ?_⟩
  intro pre b c post h
  have hm : 0xED ∈ ([0x61, 0xC3, 0xA9, 0xE2, 0x28, 0xA1] : List Nat) := by rw [h]; simp
  exact absurd hm (by decide)

/-- **C101, disagreement.** Bytes that encode a surrogate are decoded, where Python raises `UnicodeDecodeError`; no well-formed sequence begins there. -/
theorem surrogates_decoded : decode utf8 .strict [0xED, 0xA0, 0x80] = .ok ([0xD800], 3) ∧ seqLength [0xED, 0xA0, 0x80] = none := by decide +kernel

/-- **C101, disagreement.** For the first two bytes of a sequence of three, Python's error ends after both ("can't decode bytes in position 0-1"); here it
ends after one. -/
theorem error_end : decode utf8 .strict [0xE2, 0x82] = .error 0 1 ∧ seqLength [0xE2, 0x82] = none ∧ subpart [0xE2, 0x82] = 2 := by decide +kernel

/-! ## Handlers of errors -/

/-- **C102, part.** Decoding with "ignore", or with any handler that replaces each byte of an error on its own (like "surrogateescape" and
"backslashreplace"), gives what Python gives, if there are no encoded surrogates. -/
theorem bytewise_exact_partial (errors : Errors (List Nat)) (b : List Nat) (f : Nat → List Nat) (h : Bytewise errors b f) (hs : NoSurrogates b) :
    decode utf8 errors b = .ok (pyDecode (fun seg => seg.flatMap f) b, b.length) := by
  unfold decode pyDecode
  rw [← plain_py f b.length b.length b (Nat.le_refl _) (Nat.le_refl _) hs]
  exact decodeLoop_bytewise h b.length [] b rfl (Nat.le_refl _)

/-- **C102, part.** Decoding with "replace" gives what Python gives, if there are no encoded surrogates and all errors are single bytes. Missing: errors of
more bytes, see `replace_doubles`. -/
theorem replace_partial (b : List Nat) (hs : NoSurrogates b) (h1 : ∀ k < b.length, seqLength (b.drop k) = none → subpart (b.drop k) = 1) :
    decode utf8 .replace b = .ok (pyDecode (fun _ => [0xFFFD]) b, b.length) := by
  unfold decode pyDecode
  rw [← plain_py_single [0xFFFD] b.length b.length b (Nat.le_refl _) (Nat.le_refl _) hs h1]
  exact decodeLoop_bytewise (errors := .replace) (f := fun _ => [0xFFFD]) rfl b.length [] b rfl (Nat.le_refl _)

/-- **C102.** With "ignore" or "replace", decoding never raises, whatever the bytes, and consumes them all. -/
theorem lenient_total (errors : Errors (List Nat)) (b : List Nat) (h : errors = .ignore ∨ errors = .replace) : ∃ s, decode utf8 errors b = .ok (s, b.length) := by
  rcases h with rfl | rfl
  · exact ⟨_, decodeLoop_bytewise (errors := .ignore) (f := fun _ => []) rfl b.length [] b rfl (Nat.le_refl _)⟩
  · exact ⟨_, decodeLoop_bytewise (errors := .replace) (f := fun _ => [0xFFFD]) rfl b.length [] b rfl (Nat.le_refl _)⟩

/-- The handler "surrogateescape", for some bytes. -/
def escape (input : List Nat) : Errors (List Nat) := .custom fun i _ => ([0xDC00 + input.getD i 0], i + 1)

example : Bytewise (escape [0x61, 0xE2, 0x82, 0x62]) [0x61, 0xE2, 0x82, 0x62] (fun c => [0xDC00 + c]) := by
  intro i hi
  simp [List.getD_eq_getElem?_getD, List.getElem?_eq_getElem hi]

example : decode utf8 (escape [0x61, 0xE2, 0x82, 0x62]) [0x61, 0xE2, 0x82, 0x62] = .ok ([0x61, 0xDCE2, 0xDC82, 0x62], 4) ∧
    decode utf8 .ignore [0x61, 0xE2, 0x82, 0x62] = .ok ([0x61, 0x62], 4) ∧
    decode utf8 .replace [0x61, 0xFF, 0x80, 0x62] = .ok ([0x61, 0xFFFD, 0xFFFD, 0x62], 4) ∧
    (∀ k < 4, seqLength ([0x61, 0xFF, 0x80, 0x62].drop k) = none → subpart ([0x61, 0xFF, 0x80, 0x62].drop k) = 1) := by decide +kernel

/-- **C102, disagreement.** With "replace", a truncated sequence of two bytes gives two replacement characters, where Python gives one. -/
theorem replace_doubles : decode utf8 .replace [0xE2, 0x82] = .ok ([0xFFFD, 0xFFFD], 2) ∧ pyDecode (fun _ => [0xFFFD]) [0xE2, 0x82] = [0xFFFD] := by
  decide +kernel

/-- **C102, disagreement.** Also without raising, encoded surrogates are decoded, where Python has three errors. -/
theorem surrogates_not_ignored : decode utf8 .ignore [0xED, 0xA0, 0x80] = .ok ([0xD800], 3) ∧ pyDecode (fun _ => []) [0xED, 0xA0, 0x80] = [] := by
  decide +kernel

/-! ## ASCII and Latin-1 -/

/-- **C103.** Strict encoding as ASCII: the codes of the characters if all of them are below 128, else an error at the first one that is not. -/
theorem ascii_encode_strict (s : List Nat) : encode ascii .strict s =
    if ∀ c ∈ s, c < 128 then .ok (s, s.length) else .error (s.takeWhile (· < 128)).length ((s.takeWhile (· < 128)).length + 1) :=
  encodeLoop_strict (limit := 0x80) (fun _ _ => rfl) _ s _ (Nat.le_refl _)

/-- **C103.** Strict encoding as Latin-1: the codes of the characters if all of them are below 256, else an error at the first one that is not. -/
theorem latin1_encode_strict (s : List Nat) : encode latin1 .strict s =
    if ∀ c ∈ s, c < 256 then .ok (s, s.length) else .error (s.takeWhile (· < 256)).length ((s.takeWhile (· < 256)).length + 1) :=
  encodeLoop_strict (limit := 256) (fun _ _ => rfl) _ s _ (Nat.le_refl _)

/-- **C103.** Encoding as ASCII with "ignore", "replace" or a handler that replaces each character on its own: all other characters stay. -/
theorem ascii_encode_charwise (errors : Errors Replacement) (s : List Nat) (f : Nat → List Nat) (h : Charwise errors s 128 f) :
    encode ascii errors s = .ok (s.flatMap fun c => if c < 128 then [c] else f c, s.length) :=
  encodeLoop_charwise (limit := 0x80) (fun _ _ => rfl) (by omega) h s.length [] s rfl (Nat.le_refl _)

/-- **C103.** Encoding as Latin-1 with "ignore", "replace" or a handler that replaces each character on its own: all other characters stay. -/
theorem latin1_encode_charwise (errors : Errors Replacement) (s : List Nat) (f : Nat → List Nat) (h : Charwise errors s 256 f) :
    encode latin1 errors s = .ok (s.flatMap fun c => if c < 256 then [c] else f c, s.length) :=
  encodeLoop_charwise (limit := 256) (fun _ _ => rfl) (by omega) h s.length [] s rfl (Nat.le_refl _)

/-- **C103.** Decoding ASCII with "ignore", "replace" or a handler that replaces each byte on its own. (Python's errors are single bytes here too.) -/
theorem ascii_decode_bytewise (errors : Errors (List Nat)) (b : List Nat) (f : Nat → List Nat) (h : Bytewise errors b f) :
    decode ascii errors b = .ok (b.flatMap fun c => if c < 128 then [c] else f c, b.length) :=
  byte_decodeLoop (limit := 0x80) (fun _ _ => rfl) h b.length [] b rfl (Nat.le_refl _)

/-- **C103.** Decoding Latin-1 gives the bytes as characters, always. -/
theorem latin1_decode (errors : Errors (List Nat)) (b : List Nat) : decode latin1 errors b = .ok (b, b.length) := by
  unfold decode
  cases b with
  | nil => rfl
  | cons c b =>
    rw [List.length_cons, decodeLoop, if_pos (by simp)]
    simp only [latin1, List.drop_zero]
    cases b with
    | nil => simp [decodeLoop, Res.prepend]
    | cons d b =>
      rw [List.length_cons, decodeLoop, if_neg (by simp)]
      simp [Res.prepend]

/-- **C103.** Strict decoding of ASCII: the bytes as characters if all of them are below 128, else an error at the first one that is not, of one byte. -/
theorem ascii_decode_strict (b : List Nat) : decode ascii .strict b =
    if ∀ c ∈ b, c < 128 then .ok (b, b.length) else .error (b.takeWhile (· < 128)).length ((b.takeWhile (· < 128)).length + 1) := by
  unfold decode
  cases b with
  | nil => simp [decodeLoop]
  | cons a l =>
    rw [List.length_cons, decodeLoop, if_pos (by simp)]
    simp only [ascii, List.drop_zero, byteLoop_eq]
    by_cases hall : ∀ x ∈ a :: l, x < 128
    · rw [if_pos hall, if_pos hall, takeWhile_all hall]
      simp only [Nat.zero_add]
      cases l <;> simp [decodeLoop, Res.prepend]
    · rw [if_neg hall, if_neg hall]
      simp

example : encode ascii .strict [0x61, 0xFF, 0x62] = .error 1 2 ∧ encode latin1 .strict [0x61, 0xFF, 0x62] = .ok ([0x61, 0xFF, 0x62], 3) ∧
    encode ascii .replace [0x61, 0xFF, 0x62] = .ok ([0x61, 0x3F, 0x62], 3) ∧ encode latin1 .ignore [0x20AC, 0x61] = .ok ([0x61], 2) ∧
    decode ascii .replace [0x61, 0xFF] = .ok ([0x61, 0xFFFD], 2) ∧ decode ascii .strict [0x61, 0xFF] = .error 1 2 := by decide +kernel

/-- The handler "backslashreplace" for 0xFF, and a handler that returns bytes. -/
example : Charwise (.custom fun _ _ => (.str [0x5C, 0x78, 0x66, 0x66], 1)) [0xFF] 128 (fun _ => [0x5C, 0x78, 0x66, 0x66]) ∧
    encode ascii (.custom fun _ _ => (.str [0x5C, 0x78, 0x66, 0x66], 1)) [0xFF] = .ok ([0x5C, 0x78, 0x66, 0x66], 1) := by
  refine ⟨?_, by decide +kernel⟩
  intro i hi
  simp only [List.length_singleton] at hi
  have : i = 0 := by omega
  subst this
  exact ⟨rfl, .inr ⟨rfl, by simp⟩⟩

/-- **C103, disagreement.** Python's error of encoding covers the whole run of characters that cannot be encoded ("can't encode characters in position
1-2"); here it is the first one only. -/
theorem encode_error_end : encode ascii .strict [0x61, 0xE9, 0xE9] = .error 1 2 ∧ runEnd 128 [0x61, 0xE9, 0xE9] 1 = 3 := by decide +kernel

/-! ## Incremental decoding -/

/-- **C104, part.** Nothing is lost by incremental decoding of UTF-8 (that does not end in an exception): what came out and what is left in the buffer
make the whole. Missing: that more than one character comes out at a time, and what happens at the end; see below. -/
theorem incremental_keeps_partial (handler : Option (Nat → Nat → List Nat × Nat)) (pieces : List (List Nat)) (out buffer : List Nat)
    (h : incAll utf8 handler [] pieces = .ok (out, buffer)) (s : List Nat) :
    (∃ n, decode utf8 .strict pieces.flatten = .ok (s, n)) ↔ ∃ r n, decode utf8 .strict buffer = .ok (r, n) ∧ s = out ++ r := by
  have key : ∀ (pieces : List (List Nat)) (start out buffer : List Nat), incAll utf8 handler start pieces = .ok (out, buffer) →
      ∃ seqs : List (List Nat), (∀ q ∈ seqs, Loose q) ∧ out = seqs.map value ∧ start ++ pieces.flatten = seqs.flatten ++ buffer := by
    intro pieces
    induction pieces with
    | nil =>
      intro start out buffer h
      simp only [incAll, Res.ok.injEq, Prod.mk.injEq] at h
      obtain ⟨rfl, rfl⟩ := h
      exact ⟨[], by simp, rfl, by simp⟩
    | cons piece pieces ih =>
      intro start out buffer h
      have step : ∀ o b, incDecode utf8 handler start piece false = .ok (o, b) →
          ∃ seqs : List (List Nat), (∀ q ∈ seqs, Loose q) ∧ o = seqs.map value ∧ start ++ piece = seqs.flatten ++ b := by
        intro o b hs
        unfold incDecode bufferDecode at hs
        generalize start ++ piece = data at hs
        cases data with
        | nil => simp [utf8, utf8DecodeChunk] at hs
        | cons x l =>
          have hd := decodeChunk_eq [] x l
          have hd' : utf8.decodeChunk (x :: l) 0 = _ := hd
          rw [hd'] at hs
          cases hc : chunk (x :: l) with
          | none =>
            simp only [hc, Bool.not_false, Bool.or_true, if_true, List.length_nil, List.drop_zero, Res.ok.injEq, Prod.mk.injEq] at hs
            obtain ⟨rfl, rfl⟩ := hs
            exact ⟨[], by simp, rfl, by simp⟩
          | some y =>
            obtain ⟨k, cp⟩ := y
            simp only [hc, List.length_nil, Nat.zero_add, Res.ok.injEq, Prod.mk.injEq] at hs
            obtain ⟨rfl, rfl⟩ := hs
            obtain ⟨h1, h2⟩ := chunk_loose hc
            refine ⟨[(x :: l).take k], by simpa using h1, by simp [h2], ?_⟩
            simp
      rw [incAll] at h
      cases hs : incDecode utf8 handler start piece false with
      | ok p =>
        obtain ⟨o, b⟩ := p
        rw [hs] at h
        simp only at h
        cases hr : incAll utf8 handler b pieces with
        | ok p =>
          obtain ⟨o', b'⟩ := p
          rw [hr] at h
          simp only [Res.ok.injEq, Prod.mk.injEq] at h
          obtain ⟨rfl, rfl⟩ := h
          obtain ⟨s1, h1, h2, h3⟩ := step o b hs
          obtain ⟨s2, h4, h5, h6⟩ := ih b o' b' hr
          refine ⟨s1 ++ s2, ?_, by rw [h2, h5, List.map_append], ?_⟩
          · intro q hq
            rcases List.mem_append.1 hq with hq | hq
            · exact h1 q hq
            · exact h4 q hq
          · rw [List.flatten_cons, ← List.append_assoc, h3, List.append_assoc, h6, List.flatten_append, List.append_assoc]
        | error a b => rw [hr] at h; simp at h
        | crash => rw [hr] at h; simp at h
        | endless => rw [hr] at h; simp at h
      | error a b => rw [hs] at h; simp at h
      | crash => rw [hs] at h; simp at h
      | endless => rw [hs] at h; simp at h
  obtain ⟨seqs, h1, h2, h3⟩ := key pieces [] out buffer h
  rw [List.nil_append] at h3
  subst h2
  have ok_iff : ∀ (b s : List Nat), (∃ n, decode utf8 .strict b = .ok (s, n)) ↔ ∃ seqs : List (List Nat), (∀ q ∈ seqs, Loose q) ∧ b = seqs.flatten ∧ s = seqs.map value := by
    intro b s
    constructor
    · rintro ⟨n, hn⟩
      rcases decodeLoop_strict b.length [] b (Nat.le_refl _) with ⟨seqs, h1, h2, h3⟩ | ⟨_, _, _, _, _, _, h5⟩
      · have h3' : decode utf8 .strict b = _ := h3
        rw [h3'] at hn
        simp only [Res.ok.injEq, Prod.mk.injEq] at hn
        exact ⟨seqs, h1, h2, hn.1.symm⟩
      · have h5' : decode utf8 .strict b = _ := h5
        rw [h5'] at hn
        simp at hn
    · rintro ⟨seqs, h1, rfl, rfl⟩
      exact ⟨_, decode_seqs h1⟩
  have cancel : ∀ (seqs : List (List Nat)), (∀ q ∈ seqs, Loose q) → ∀ (all : List (List Nat)), (∀ q ∈ all, Loose q) → ∀ rest, all.flatten = seqs.flatten ++ rest →
      ∃ more, all = seqs ++ more ∧ rest = more.flatten := by
    intro seqs
    induction seqs with
    | nil => intro _ all _ rest he; exact ⟨all, rfl, by simpa using he.symm⟩
    | cons q seqs ih =>
      intro hq all hall rest he
      have hqc := chunk_of_loose (hq q (by simp)) (seqs.flatten ++ rest)
      rw [← List.append_assoc, ← List.flatten_cons, ← he] at hqc
      cases all with
      | nil => simp [chunk] at hqc
      | cons p all =>
        have hpc := chunk_of_loose (hall p (by simp)) all.flatten
        rw [← List.flatten_cons, hqc] at hpc
        simp only [Option.some.injEq, Prod.mk.injEq] at hpc
        have hpq : p = q := by
          rw [List.flatten_cons, List.flatten_cons, List.append_assoc] at he
          exact List.append_inj_left he hpc.1.symm
        subst hpq
        rw [List.flatten_cons, List.flatten_cons, List.append_assoc] at he
        obtain ⟨more, h1, h2⟩ := ih (fun x hx => hq x (by simp [hx])) all (fun x hx => hall x (by simp [hx])) rest (List.append_cancel_left he)
        exact ⟨more, by rw [h1]; rfl, h2⟩
  rw [ok_iff]
  constructor
  · rintro ⟨all, ha, he, rfl⟩
    rw [h3] at he
    obtain ⟨more, rfl, hm⟩ := cancel seqs h1 all ha buffer he.symm
    refine ⟨more.map value, buffer.length, ?_, by rw [List.map_append]⟩
    rw [hm]; exact decode_seqs fun q hq => ha q (by simp [hq])
  · rintro ⟨r, n, hr, rfl⟩
    obtain ⟨more, hm1, hm2, rfl⟩ := (ok_iff buffer r).1 ⟨n, hr⟩
    refine ⟨seqs ++ more, ?_, ?_, by rw [List.map_append]⟩
    · intro q hq
      rcases List.mem_append.1 hq with hq | hq
      · exact h1 q hq
      · exact hm1 q hq
    · rw [h3, hm2, List.flatten_append]

example : incAll utf8 none [] [[0xE2], [0x82, 0xAC, 0x61], [0x62]] = .ok ([0x20AC, 0x61], [0x62]) := by decide +kernel

/-- **C104.** Incremental decoding of Latin-1 gives all of each piece at once. -/
theorem latin1_incremental (handler : Option (Nat → Nat → List Nat × Nat)) (pieces : List (List Nat)) :
    incAll latin1 handler [] pieces = .ok (pieces.flatten, []) := by
  induction pieces with
  | nil => rfl
  | cons piece pieces ih =>
    rw [incAll]
    have : incDecode latin1 handler [] piece false = .ok (piece, []) := by simp [incDecode, bufferDecode, latin1]
    rw [this]
    simp only [ih, List.flatten_cons]

example : incAll latin1 none [] [[0xE2], [], [0x82, 0x61]] = .ok ([0xE2, 0x82, 0x61], []) := by decide +kernel

/-- **C104, disagreement.** The incremental decoder of UTF-8 gives one character for each call, and leaves the rest in its buffer, even at the end. -/
theorem one_at_a_time : incDecode utf8 none [] [0x61, 0x62] true = .ok ([0x61], [0x62]) ∧ decode utf8 .strict [0x61, 0x62] = .ok ([0x61, 0x62], 2) := by
  decide +kernel

/-- **C104, disagreement.** With nothing to decode (as at the end of a file), the incremental decoder of UTF-8 raises `IndexError`. -/
theorem nothing_crashes (handler : Option (Nat → Nat → List Nat × Nat)) (final : Bool) : incDecode utf8 handler [] [] final = .crash := rfl

/-- **C104, disagreement.** A truncated sequence at the end raises no error, nor does a wrong byte before the end. -/
theorem errors_swallowed : incDecode utf8 none [] [0xE2] true = .ok ([], [0xE2]) ∧ incDecode utf8 none [] [0xFF, 0x61] false = .ok ([], [0xFF, 0x61]) ∧
    decode utf8 .strict [0xE2] = .error 0 1 ∧ decode utf8 .strict [0xFF, 0x61] = .error 0 1 := by decide +kernel

end Verif.Codec
