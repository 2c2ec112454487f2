import Verif.B64.Lemmas
/-
The properties proved about base64.
-/
namespace Verif.B64

/-- **C31.** Regrouping bits: for any input and output widths, the bits of the output are the bits of the input followed
by fewer than one output chunk of zeros, and each chunk fits its width. -/
theorem chunks_keep_bits {N M : Nat} (hM : 0 < M) {l : List Nat} (h : ∀ x ∈ l, x < 2 ^ N) :
    ∃ pad < M, (bitChunks N M 0 0 l).flatMap (bitsOf M) = l.flatMap (bitsOf N) ++ List.replicate pad false ∧
      ∀ x ∈ bitChunks N M 0 0 l, x < 2 ^ M := by
  have := bitChunks_spec hM l 0 0 (by decide) hM h
  exact this

example : bitChunks 8 5 0 0 [255, 0] = [31, 28, 0, 0] := by decide +kernel

/-- **C31.** Encoding with any alphabet of 64 characters gives the RFC 4648 text, with padding or without, and a newline
at the end if asked for. -/
theorem encode_rfc (alpha : List Nat) (newline padded : Bool) {data : List Nat} (h : ∀ b ∈ data, b < 256) :
    b2a alpha newline padded 0 data =
      (if padded then encoded (charOf alpha) data else (sextets data).map (charOf alpha)) ++
        if newline then [10] else [] := by
  rw [b2a_eq alpha newline padded 0 h]
  unfold wrapped plain
  rw [if_neg (by simp)]

/-- **C31.** With a wrap column, the same text is broken into lines: as many characters as whole groups of four fit in
the column, but at least four. -/
theorem encode_wraps (alpha : List Nat) (newline padded : Bool) {wrapcol : Nat} (hw : wrapcol ≠ 0) {data : List Nat}
    (h : ∀ b ∈ data, b < 256) :
    b2a alpha newline padded wrapcol data =
      List.intercalate [10] (lines (max 4 (wrapcol / 4 * 4))
        (if padded then encoded (charOf alpha) data else (sextets data).map (charOf alpha))) ++
        if newline then [10] else [] := by
  rw [b2a_eq alpha newline padded wrapcol h]
  unfold wrapped
  have hwidth : (if wrapcol < 4 then 4 else wrapcol / 4 * 4) = max 4 (wrapcol / 4 * 4) := by split <;> omega
  rw [hwidth]
  congr 1
  split
  · rw [wrap_lines (by omega)]; rfl
  · rename_i hn
    have : plain alpha padded data = [] := by
      by_cases he : plain alpha padded data = []
      · exact he
      · exact absurd ⟨hw, he⟩ hn
    have e2 : (if padded then encoded (charOf alpha) data else (sextets data).map (charOf alpha)) = [] := this
    rw [e2, this, lines_nil]
    rfl

/-- The length of the encoding is four characters for each three bytes begun. -/
theorem encode_length (alpha : List Nat) {data : List Nat} (h : ∀ b ∈ data, b < 256) :
    (b2a alpha false true 0 data).length = 4 * ((data.length + 2) / 3) := by
  rw [encode_rfc alpha false true h]
  simp only [if_true, Bool.false_eq_true, if_false, List.append_nil, encoded, padding, List.length_append, List.length_map,
    List.length_replicate, sextets_length]
  omega

/-- **C31.** What decoding accepts and returns, for every alphabet and text.  Characters foreign to base64 are skipped,
or refused in strict mode; the rest must be data characters followed by "=", not one more than a multiple of four, and
(if padding is asked for) with at least the padding that completes the last group, exactly that in strict mode when the
last group is incomplete. -/
theorem decode_exact {alpha : List Nat} (hA : Alphabet alpha) (strict padded : Bool) (s out : List Nat) :
    a2b alpha strict padded s = some out ↔
      (strict = true → ∀ c ∈ s, isBase64 alpha c = true) ∧
      ∃ vs pads, s.filter (isBase64 alpha) = vs.map (charOf alpha) ++ List.replicate pads 61 ∧
        (∀ v ∈ vs, v < 64) ∧ vs.length % 4 ≠ 1 ∧
        (padded = true → vs.length % 4 ≠ 0 → 4 - vs.length % 4 ≤ pads ∧ (strict = true → pads = 4 - vs.length % 4)) ∧
        out = bytesOf vs := by
  have hrm := remap_decode hA (decodeMap_decodes hA) strict s 0
  have fin : ∀ vs pads, remap (decodeMap alpha) strict 0 s = some (vs, pads) →
      (a2b alpha strict padded s = some out ↔ vs.length % 4 ≠ 1 ∧
        (padded = true → vs.length % 4 ≠ 0 → 4 - vs.length % 4 ≤ pads ∧ (strict = true → pads = 4 - vs.length % 4)) ∧
        out = bytesOf vs) := by
    intro vs pads hr
    obtain ⟨c1, c2⟩ := chunks68 vs
    unfold a2b
    rw [hr]
    dsimp only
    by_cases h0 : vs.length % 4 = 0
    · rw [if_neg (by simp [h0]), c1 h0]
      constructor
      · intro h
        exact ⟨by omega, fun _ hh => absurd h0 hh, (Option.some.inj h).symm⟩
      · rintro ⟨_, _, rfl⟩; rfl
    · rw [if_pos h0, c2 h0]
      by_cases h1 : vs.length % 4 = 1
      · rw [if_pos h1]
        simp [h1]
      · rw [if_neg h1]
        by_cases h2 : padded = true ∧ pads < 4 - vs.length % 4
        · rw [if_pos h2]
          constructor
          · intro h; simp at h
          · rintro ⟨_, hh, _⟩
            have := (hh h2.1 h0).1
            omega
        · rw [if_neg h2]
          by_cases h3 : padded = true ∧ strict = true ∧ pads > 4 - vs.length % 4
          · rw [if_pos h3]
            constructor
            · intro h; simp at h
            · rintro ⟨_, hh, _⟩
              have := (hh h3.1 h0).2 h3.2.1
              omega
          · rw [if_neg h3]
            constructor
            · intro h
              refine ⟨h1, fun hp _ => ⟨?_, fun hs => ?_⟩, (Option.some.inj h).symm⟩
              · by_cases hh : pads < 4 - vs.length % 4
                · exact absurd ⟨hp, hh⟩ h2
                · omega
              · by_cases hh : pads < 4 - vs.length % 4
                · exact absurd ⟨hp, hh⟩ h2
                · by_cases hh2 : pads > 4 - vs.length % 4
                  · exact absurd ⟨hp, hs, hh2⟩ h3
                  · omega
            · rintro ⟨_, _, rfl⟩; rfl
  constructor
  · intro h
    cases hr : remap (decodeMap alpha) strict 0 s with
    | none => unfold a2b at h; rw [hr] at h; simp at h
    | some r =>
      obtain ⟨vs, pads⟩ := r
      obtain ⟨a, b, _, _, d⟩ := (hrm (vs, pads)).mp hr
      obtain ⟨f1, f2, f3⟩ := (fin vs pads hr).mp h
      exact ⟨a, vs, pads, d, b, f1, f2, f3⟩
  · rintro ⟨a, vs, pads, d, b, f1, f2, f3⟩
    have hr := (hrm (vs, pads)).mpr ⟨a, b, Nat.zero_le _, by simp, d⟩
    exact (fin vs pads hr).mpr ⟨f1, f2, f3⟩

theorem std_example : Alphabet stdAlphabet := std_is_alphabet

example : a2b stdAlphabet false true ("YW Jj\nZA==".toList.map Char.toNat) = some ("abcd".toList.map Char.toNat) ∧
    a2b stdAlphabet true true ("YWJj\n".toList.map Char.toNat) = none ∧
    a2b stdAlphabet false true ("YWJjZ".toList.map Char.toNat) = none := by
  refine ⟨?_, ?_, ?_⟩
  · rw [decode_exact std_is_alphabet]
    exact ⟨by simp, [24, 22, 9, 35, 25, 0], 2, by decide +kernel, by decide, by decide, by decide, by decide +kernel⟩
  · decide +kernel
  · decide +kernel

theorem sextets_mod (l : List Nat) : (sextets l).length % 4 ≠ 1 := by rw [sextets_length]; omega

/-- **C31.** Decoding inverts encoding: for every alphabet and byte string, with or without padding, with any wrapping
and with or without the final newline (strict decoding only of text without newlines). -/
theorem decode_encode {alpha : List Nat} (hA : Alphabet alpha) {data : List Nat} (h : ∀ b ∈ data, b < 256)
    (newline padded strict : Bool) (wrapcol : Nat) (hs : strict = true → newline = false ∧ wrapcol = 0) (padCheck : Bool)
    (hp : padCheck = true → padded = true) :
    a2b alpha strict padCheck (b2a alpha newline padded wrapcol data) = some data := by
  rw [decode_exact hA, b2a_eq alpha newline padded wrapcol h]
  have hlt := sextets_lt h
  -- the text before wrapping
  obtain ⟨pads, hpads, hplain⟩ : ∃ pads, (padded = true → pads = (4 - (sextets data).length % 4) % 4) ∧
      plain alpha padded data = (sextets data).map (charOf alpha) ++ List.replicate pads 61 := by
    cases padded with
    | true => exact ⟨_, fun _ => rfl, by simp only [plain, if_true]; rfl⟩
    | false => exact ⟨0, fun h => by simp at h, by simp [plain]⟩
  have hall : ∀ c ∈ plain alpha padded data, isBase64 alpha c = true := by
    intro c hc
    rw [hplain] at hc
    unfold isBase64
    rcases List.mem_append.mp hc with hc | hc
    · obtain ⟨v, hv, rfl⟩ := List.mem_map.mp hc
      simp [charOf_mem hA (hlt v hv)]
    · simp [List.eq_of_mem_replicate hc]
  have h10 : isBase64 alpha 10 = false := by simp [isBase64, hA.noNewline]
  have hno : 10 ∉ plain alpha padded data := by
    intro hc
    have := hall 10 hc
    rw [h10] at this
    simp at this
  have hfilter : (wrapped newline wrapcol (plain alpha padded data)).filter (isBase64 alpha) = plain alpha padded data := by
    have hsub : ∀ l : List Nat, l.filter (· ≠ 10) = plain alpha padded data → l.filter (isBase64 alpha) = plain alpha padded data := by
      intro l hl
      have e : l.filter (isBase64 alpha) = (l.filter (· ≠ 10)).filter (isBase64 alpha) := by
        rw [List.filter_filter]
        apply List.filter_congr
        intro c _
        by_cases hc : c = 10
        · subst hc; rw [h10]; simp
        · simp [hc]
      rw [e, hl]
      exact List.filter_eq_self.mpr hall
    apply hsub
    unfold wrapped
    rw [List.filter_append]
    have h2 : (if newline = true then [10] else ([] : List Nat)).filter (· ≠ 10) = [] := by cases newline <;> rfl
    rw [h2, List.append_nil]
    split
    · exact wrap_filter _ _ 0 hno
    · apply List.filter_eq_self.mpr
      intro c hc
      simp only [ne_eq, decide_not, Bool.not_eq_true', decide_eq_false_iff_not]
      intro hce
      exact hno (hce ▸ hc)
  refine ⟨fun hst c hc => ?_, sextets data, pads, by rw [hfilter, hplain], hlt, sextets_mod data, fun hpc hne => ?_,
    (bytesOf_sextets h).symm⟩
  · obtain ⟨rfl, rfl⟩ := hs hst
    unfold wrapped at hc
    rw [if_neg (by simp)] at hc
    simp only [Bool.false_eq_true, if_false, List.append_nil] at hc
    exact hall c hc
  · have hpd := hpads (hp hpc)
    have hlt4 : (sextets data).length % 4 < 4 := Nat.mod_lt _ (by decide)
    have e : (4 - (sextets data).length % 4) % 4 = 4 - (sextets data).length % 4 := by omega
    rw [hpd, e]
    exact ⟨Nat.le_refl _, fun _ => rfl⟩

example : b2a stdAlphabet true true 4 ("abcd".toList.map Char.toNat) = "YWJj\nZA==\n".toList.map Char.toNat ∧
    b2a stdAlphabet false false 0 ("abcd".toList.map Char.toNat) = "YWJjZA".toList.map Char.toNat := by
  constructor
  · rw [encode_wraps stdAlphabet true true (by decide) (by decide +kernel)]
    rw [show max 4 (4 / 4 * 4) = 4 by decide,
      show (if true = true then encoded (charOf stdAlphabet) ("abcd".toList.map Char.toNat)
        else (sextets ("abcd".toList.map Char.toNat)).map (charOf stdAlphabet)) = "YWJjZA==".toList.map Char.toNat by decide +kernel,
      lines_step (by decide) (by decide +kernel), lines_step (by decide) (by decide +kernel),
      show (("YWJjZA==".toList.map Char.toNat).drop 4).drop 4 = [] by decide +kernel, lines_nil]
    decide +kernel
  · rw [encode_rfc stdAlphabet false false (by decide +kernel)]
    decide +kernel

/-- **C31.** Skipping: outside strict mode, foreign characters anywhere make no difference. -/
theorem decode_skips {alpha : List Nat} (hA : Alphabet alpha) (padded : Bool) (s : List Nat) :
    a2b alpha false padded s = a2b alpha false padded (s.filter (isBase64 alpha)) := by
  apply Option.ext
  intro out
  rw [decode_exact hA, decode_exact hA, List.filter_filter]
  simp

/-- **C31.** Text without spare bits and with exact padding is what encoding its bytes produces: encoding inverts
decoding on it. -/
theorem encode_decode {alpha : List Nat} (hA : Alphabet alpha) {vs : List Nat} (hv : ∀ v ∈ vs, v < 64)
    (hspare : NoSpareBits vs) :
    ∃ bytes, a2b alpha true true (vs.map (charOf alpha) ++ padding vs.length) = some bytes ∧
      b2a alpha false true 0 bytes = vs.map (charOf alpha) ++ padding vs.length := by
  have h1 : b2a alpha false true 0 (bytesOf vs) = vs.map (charOf alpha) ++ padding vs.length := by
    rw [encode_rfc alpha false true (bytesOf_lt hv)]
    simp only [if_true, Bool.false_eq_true, if_false, List.append_nil, encoded, sextets_bytesOf hv hspare]
  refine ⟨bytesOf vs, ?_, h1⟩
  rw [← h1]
  exact decode_encode hA (bytesOf_lt hv) false true true 0 (fun _ => ⟨rfl, rfl⟩) true (fun _ => rfl)

example : NoSpareBits [24, 22, 9, 35, 25, 0] := by show 0 % 16 = 0; rfl

/-- **C31, disagreement.** Strict decoding accepts padding that completes nothing: "=" alone, and "YWJj=" (RFC 4648
padding is there to complete the last group of four; binascii refuses both in strict mode). -/
theorem strict_accepts_excess_padding :
    a2b stdAlphabet true true ("=".toList.map Char.toNat) = some [] ∧
    a2b stdAlphabet true true ("YWJj=".toList.map Char.toNat) = some ("abc".toList.map Char.toNat) := by
  constructor
  · decide +kernel
  · rw [decode_exact std_is_alphabet]
    exact ⟨by decide +kernel, [24, 22, 9, 35], 1, by decide +kernel, by decide, by decide, by decide, by decide +kernel⟩

/-- **C31, disagreement.** Without strict mode binascii stops at the padding, so "YQ==YQ==" decodes to "a"; CrossHair
raises. -/
theorem data_after_padding_refused : a2b stdAlphabet false true ("YQ==YQ==".toList.map Char.toNat) = none := by
  decide +kernel

end Verif.B64
