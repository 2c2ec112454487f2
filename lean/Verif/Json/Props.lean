import Verif.Json.Ascii

/-! JSON (C56, C80, C81). -/
namespace Verif.Json

variable {P : Floats} {strict : Bool}

/-! ## An instance: floats with whole values -/

/-- Floats without a fraction. -/
def wholes : Floats where
  F := Int
  repr i := intRepr i ++ [46, 48]
  parse s := intParse (s.takeWhile (· != 46))

theorem intText_wholes {s : Str} {i : Int} (h : IntText s i) : s.takeWhile (· != 46) = s ∧ intParse s = i := by
  have dec : ∀ {s n}, Decimal s n → (∀ c ∈ s, 48 ≤ c) ∧ natParse s = n := by
    intro s n h
    cases h with
    | zero => exact ⟨by simp, rfl⟩
    | digits h1 h2 h3 =>
      refine ⟨?_, rfl⟩
      intro c hc
      rcases List.mem_cons.1 hc with rfl | hc
      · omega
      · exact (h3 c hc).1
  have tw : ∀ {s : Str}, (∀ c ∈ s, c ≠ 46) → s.takeWhile (· != 46) = s := by
    intro s
    induction s with
    | nil => intro _; rfl
    | cons c s ih =>
      intro h
      rw [List.takeWhile_cons, if_pos (by simpa using h c (by simp)), ih (fun x hx => h x (by simp [hx]))]
  cases h with
  | @pos _ n h =>
    obtain ⟨h1, h2⟩ := dec h
    refine ⟨tw (fun c hc => by have := h1 c hc; omega), ?_⟩
    unfold intParse
    split
    · have := h1 45 (by simp); omega
    · rw [h2]
  | @neg _ n h =>
    obtain ⟨h1, h2⟩ := dec h
    refine ⟨tw ?_, by rw [intParse, h2]⟩
    intro c hc
    rcases List.mem_cons.1 hc with rfl | hc
    · omega
    · have := h1 c hc; omega

theorem wholes_ok : wholes.Ok where
  text i := by
    have := FloatText.mk (intRepr_text i) (.some (s := [48]) (by simp) (by intro c hc; simp at hc; omega)) .none (.inl (by simp))
    simpa [wholes] using this
  parse i := by
    obtain ⟨h1, h2⟩ := intText_wholes (intRepr_text i)
    show intParse ((intRepr i ++ [46, 48]).takeWhile (· != 46)) = i
    rw [List.takeWhile_append, h1, if_pos rfl]
    simpa using h2

/-- `{"a": [1, -2.0, null], "é": {}}`; its text has an escape sequence. -/
def sample : Json wholes.F := .obj [([97], .arr [.int 1, .float (-2 : Int), .null]), ([233], .obj [])]

/-! ## Writing and reading (C56) -/

mutual
theorem ok_mono {F : Type} {p q : Str → Prop} (h : ∀ s, p s → q s) : ∀ (v : Json F), v.Ok p → v.Ok q
  | .null, _ => by simp [Json.Ok]
  | .bool _, _ => by simp [Json.Ok]
  | .int _, _ => by simp [Json.Ok]
  | .float _, _ => by simp [Json.Ok]
  | .nan, _ => by simp [Json.Ok]
  | .inf, _ => by simp [Json.Ok]
  | .negInf, _ => by simp [Json.Ok]
  | .str s, hv => by rw [Json.Ok] at hv ⊢; exact ⟨hv.1, h s hv.2⟩
  | .arr xs, hv => by rw [Json.Ok] at hv ⊢; exact okAll_mono h xs hv
  | .obj kvs, hv => by rw [Json.Ok] at hv ⊢; exact ⟨hv.1, okItems_mono h kvs hv.2⟩
theorem okAll_mono {F : Type} {p q : Str → Prop} (h : ∀ s, p s → q s) : ∀ (xs : List (Json F)), OkAll p xs → OkAll q xs
  | [], _ => by simp [OkAll]
  | x :: xs, hv => by rw [OkAll] at hv ⊢; exact ⟨ok_mono h x hv.1, okAll_mono h xs hv.2⟩
theorem okItems_mono {F : Type} {p q : Str → Prop} (h : ∀ s, p s → q s) : ∀ (kvs : List (Str × Json F)), OkItems p kvs → OkItems q kvs
  | [], _ => by simp [OkItems]
  | (k, v) :: kvs, hv => by
    rw [OkItems] at hv ⊢
    exact ⟨⟨hv.1.1, h k hv.1.2⟩, ok_mono h v hv.2.1, okItems_mono h kvs hv.2.2⟩
end

theorem document_text {s : Str} {v : Json P.F} (h : Text hex4 P strict s v) : Document hex4 P strict s v :=
  ⟨[], s, [], by simp [Ws], h, by simp [Ws], by simp⟩

theorem document_lax {s : Str} {v : Json P.F} (h : Document hex4 P strict s v) : Document laxHex P strict s v := by
  obtain ⟨w, t, w', hw, ht, hw', rfl⟩ := h
  exact ⟨w, t, w', hw, text_lax ht, hw', rfl⟩

theorem document_char {hex : Str → Option Int} {s : Str} {v : Json P.F} (h : Document hex P strict s v) : ∃ c s', s = c :: s' ∧ c < 128 := by
  obtain ⟨w, t, w', hw, ht, hw', rfl⟩ := h
  obtain ⟨c, t', rfl, hc⟩ := text_first ht
  cases w with
  | nil => exact ⟨c, _, rfl, hc⟩
  | cons d w =>
    have := hw d (by simp)
    exact ⟨d, _, rfl, by omega⟩

theorem loads_iff (s : Str) (v : Json P.F) : loads P strict s = .value v ↔ Document laxHex P strict s v := by
  unfold loads
  split
  · constructor
    · intro h; cases h
    · intro h
      obtain ⟨c, s', he, hc⟩ := document_char h
      simp only [List.cons.injEq] at he
      omega
  · exact decode_iff s v

/-- C56: What `dumps` writes, with any indentation, separators and order of keys, `loads` reads as the same value (a
dictionary whose keys are sorted is the same dictionary).  Missing: with `ensure_ascii`, strings in which the two halves of
a surrogate pair stand side by side, see `halves_joined`. -/
theorem roundtrip_partial {o : Opts} (hP : P.Ok) (ho : o.Ok) {v : Json P.F} (hv : v.Ok fun s => o.ascii = true → NoPairs s) :
    ∃ v', loads P strict (dumps P o v) = .value v' ∧ Same v v' ∧ (o.sortKeys = false → v' = v) :=
  ⟨canon o v, (loads_iff _ _).2 (document_lax (document_text (enc_text hP ho 0 v hv))), canon_same o v, fun h => canon_unsorted h v⟩

theorem default_ok : ({} : Opts).Ok where
  indent s h := by cases h
  itemSep := ⟨[], [32], by simp [Ws], by simp [Ws], rfl⟩
  keySep := ⟨[], [32], by simp [Ws], by simp [Ws], rfl⟩

/-- Indentation, other separators, sorted keys. -/
def fancy (ascii : Bool) : Opts := { ascii := ascii, indent := some [32, 9], itemSep := [44], keySep := [32, 58], sortKeys := true }

theorem fancy_ok (ascii : Bool) : (fancy ascii).Ok where
  indent s h := by cases h; simp [Ws]
  itemSep := ⟨[], [], by simp [Ws], by simp [Ws], rfl⟩
  keySep := ⟨[32], [], by simp [Ws], by simp [Ws], rfl⟩

theorem sample_ok : sample.Ok NoPairs := by
  simp [sample, Json.Ok, OkItems, OkAll, NoPairs]

example : ({} : Opts).Ok ∧ (fancy true).Ok ∧ wholes.Ok ∧ sample.Ok (fun s => ({} : Opts).ascii = true → NoPairs s) :=
  ⟨default_ok, fancy_ok true, wholes_ok, ok_mono (fun _ h _ => h) _ sample_ok⟩
/-- `{"a": [1, -2.0, null], "\u00e9": {}}` -/
example : dumps wholes {} sample =
    [123, 34, 97, 34, 58, 32, 91, 49, 44, 32, 45, 50, 46, 48, 44, 32, 110, 117, 108, 108, 93, 44, 32, 34, 92, 117, 48, 48, 101, 57, 34, 58, 32, 123, 125, 125] := by
  rfl
example : loads wholes true (dumps wholes {} sample) = .value sample := by rfl

/-- C56: Without `ensure_ascii` every value comes back. -/
theorem roundtrip_plain {o : Opts} (hP : P.Ok) (ho : o.Ok) (ha : o.ascii = false) {v : Json P.F} (hv : v.Ok fun _ => True) :
    ∃ v', loads P strict (dumps P o v) = .value v' ∧ Same v v' ∧ (o.sortKeys = false → v' = v) :=
  roundtrip_partial hP ho (ok_mono (fun _ _ h => by rw [ha] at h; cases h) v hv)

example : (Json.str [0xD800, 0xDC00] : Json wholes.F).Ok (fun _ => True) ∧ (fancy false).Ok ∧ (fancy false).ascii = false :=
  ⟨by simp [Json.Ok], fancy_ok false, rfl⟩
example : loads wholes true (dumps wholes { ascii := false } (.str [0xD800, 0xDC00])) = .value (.str [0xD800, 0xDC00]) := by rfl

/-- Disagreement: C56 with `ensure_ascii`, the default: a string of the two halves of a surrogate pair comes back as
one character.  (CPython's `json` does the same.) -/
theorem halves_joined : loads wholes true (dumps wholes {} (.str [0xD800, 0xDC00])) = .value (.str [0x10000]) := by rfl

/-- C56: With `sort_keys` all dictionaries are written in alphabetical order of the keys. -/
theorem keys_sorted {o : Opts} (hP : P.Ok) (ho : o.Ok) (hs : o.sortKeys = true) {v : Json P.F} (hv : v.Ok fun s => o.ascii = true → NoPairs s) :
    ∃ v', Document hex4 P strict (dumps P o v) v' ∧ Same v v' ∧ v'.Sorted :=
  ⟨canon o v, document_text (enc_text hP ho 0 v hv), canon_same o v, canon_sorted hs v hv⟩

example : (fancy true).sortKeys = true ∧
    dumps wholes (fancy true) (.obj [([98], .null), ([97, 97], .int 0), ([97], .arr [])]) =
      [123, 10, 32, 9, 34, 97, 34, 32, 58, 91, 93, 44, 10, 32, 9, 34, 97, 97, 34, 32, 58, 48, 44, 10, 32, 9, 34, 98, 34, 32, 58, 110, 117, 108, 108, 10, 125] :=
  ⟨rfl, rfl⟩

/-- C56: With `ensure_ascii` only ASCII characters are written. -/
theorem only_ascii {o : Opts} (hP : P.Ok) (ho : o.Ok) (ha : o.ascii = true) (v : Json P.F) : ∀ c ∈ dumps P o v, c < 128 :=
  as_enc hP ha ho 0 v

example : wholes.Ok ∧ (fancy true).Ok ∧ (fancy true).ascii = true := ⟨wholes_ok, fancy_ok true, rfl⟩

/-- C56: What `dumps` writes is JSON of a value that is the same. -/
theorem writes_json {o : Opts} (hP : P.Ok) (ho : o.Ok) {v : Json P.F} (hv : v.Ok fun s => o.ascii = true → NoPairs s) :
    ∃ v', Document hex4 P strict (dumps P o v) v' ∧ Same v v' ∧ (o.sortKeys = false → v' = v) :=
  ⟨canon o v, document_text (enc_text hP ho 0 v hv), canon_same o v, fun h => canon_unsorted h v⟩

example : sample.Ok (fun s => (fancy true).ascii = true → NoPairs s) := ok_mono (fun _ h _ => h) _ sample_ok

/-! ## What is read (C80) -/

/-- C80: `loads` reads every JSON document as the value it is a document of. -/
theorem reads_json {s : Str} {v : Json P.F} (h : Document hex4 P strict s v) : loads P strict s = .value v :=
  (loads_iff s v).2 (document_lax h)

/-- ` [1,"\ud83d\ude00"] ` -/
def sampleText : Str := [32, 91, 49, 44, 34, 92, 117, 100, 56, 51, 100, 92, 117, 100, 101, 48, 48, 34, 93, 32]

theorem sampleText_doc : Document hex4 wholes true sampleText (.arr [.int 1, .str [0x1F600]]) := by
  refine ⟨[32], [91, 49, 44, 34, 92, 117, 100, 56, 51, 100, 92, 117, 100, 101, 48, 48, 34, 93], [32], by simp [Ws], ?_, by simp [Ws], rfl⟩
  refine Text.arr (s := [49, 44, 34, 92, 117, 100, 56, 51, 100, 92, 117, 100, 101, 48, 48, 34]) ?_
  refine Elements.cons (w := []) (s := [49]) (w' := []) (s' := [34, 92, 117, 100, 56, 51, 100, 92, 117, 100, 101, 48, 48, 34]) (by simp [Ws])
    (.int (.pos (.digits (s := []) (by omega) (by omega) (by simp [Digits])))) (by simp [Ws]) ?_
  refine Elements.one (w := []) (s := [34, 92, 117, 100, 56, 51, 100, 92, 117, 100, 101, 48, 48, 34]) (w' := []) (by simp [Ws]) (.str (s := [92, 117, 100, 56, 51, 100, 92, 117, 100, 101, 48, 48]) ?_) (by simp [Ws])
  exact Body.pair (u := 0xD83D) (u' := 0xDE00) (by decide) (by unfold isHigh; omega) (by decide) (by unfold isLow; omega) .nil

example : loads wholes true sampleText = .value (.arr [.int 1, .str [0x1F600]]) := reads_json sampleText_doc

/-- C80: `loads` reads nothing but JSON documents, and as the value they are documents of; all other texts are refused
with an error.  Missing: texts with a sign, an underscore or white space among the four characters behind a `\u`, see
`sign_accepted`, `space_accepted` and `underscore_accepted`. -/
theorem only_json_partial {s : Str} {v : Json P.F} (hs : PlainHex s) : loads P strict s = .value v ↔ Document hex4 P strict s v := by
  refine ⟨fun h => ?_, reads_json⟩
  obtain ⟨w, t, w', hw, ht, hw', rfl⟩ := (loads_iff s v).1 h
  exact ⟨w, t, w', hw, text_strict ht (plain_infix hs ⟨w, w', rfl⟩), hw', rfl⟩

example : loads wholes true [91, 49, 44, 93] = .error := by rfl

/-- C80: `loads` always ends, with a value or an error. -/
theorem loads_ends (s : Str) : loads P strict s ≠ .outOfFuel := by
  unfold loads
  split
  · intro h; cases h
  · exact decode_ends s

/-- C80: A text has at most one value. -/
theorem value_unique {s : Str} {v v' : Json P.F} (h : Document hex4 P strict s v) (h' : Document hex4 P strict s v') : v = v' := by
  have := (reads_json h).symm.trans (reads_json h')
  cases this
  rfl

example : Document hex4 wholes true sampleText (.arr [.int 1, .str [0x1F600]]) := sampleText_doc

/-- The text of a document that begins with a quote begins with the text of a string. -/
theorem document_quote {hex : Str → Option Int} {s : Str} {v : Json P.F} (h : Document hex P strict (34 :: s) v) :
    ∃ b t w', Body hex strict b t ∧ s = b ++ 34 :: w' := by
  obtain ⟨w, t, w', hw, ht, hw', he⟩ := h
  cases w with
  | cons d w =>
    have := hw d (by simp)
    simp only [List.cons_append, List.cons.injEq] at he
    omega
  | nil =>
    have num : ∀ {s i}, IntText s i → ∀ r r', 34 :: r ≠ s ++ r' := by
      intro s i h r r' he
      cases h with
      | pos h =>
        cases h with
        | zero => simp at he
        | digits h1 h2 h3 => simp only [List.cons_append, List.cons.injEq] at he; omega
      | neg h => simp at he
    simp only [List.nil_append] at he
    cases ht with
    | str h => 
      simp only [List.cons_append, List.cons.injEq, true_and, List.append_assoc, List.nil_append] at he
      exact ⟨_, _, _, h, he⟩
    | int h => exact absurd he (num h _ _)
    | float h =>
      cases h with
      | mk h _ _ _ => exact absurd he (by simp only [List.append_assoc]; exact num h _ _)
    | null => simp [nullText] at he
    | true => simp [trueText] at he
    | false => simp [falseText] at he
    | nan => simp [nanText] at he
    | inf => simp [infText] at he
    | negInf => simp [negInfText] at he
    | arrEmpty _ => simp at he
    | arr _ => simp at he
    | objEmpty _ => simp at he
    | obj _ => simp at he

theorem not_document {a b c d : Nat} {s : Str} (h : hex4 [a, b, c, d] = none) (v : Json P.F) :
    ¬Document hex4 P strict (34 :: 92 :: 117 :: a :: b :: c :: d :: s) v := by
  intro hd
  obtain ⟨x, t, w', hb, he⟩ := document_quote hd
  match x, hb, he with
  | [], _, he => simp at he
  | [y], hb, he =>
    simp only [List.cons_append, List.cons.injEq, List.nil_append] at he
    omega
  | y :: z :: x, hb, he =>
    simp only [List.cons_append, List.cons.injEq] at he
    obtain ⟨rfl, rfl, he⟩ := he
    obtain ⟨a', b', c', d', s', u, rfl, hu⟩ := body_u hb
    simp only [List.cons_append, List.cons.injEq] at he
    obtain ⟨rfl, rfl, rfl, rfl, _⟩ := he
    rw [h] at hu
    cases hu

/-- Disagreement: C80. `"\u+123"` is no JSON, but is read. (CPython's `json` refuses it.) -/
theorem sign_accepted : loads wholes true [34, 92, 117, 43, 49, 50, 51, 34] = .value (.str [0x123]) ∧
    ∀ v, ¬Document hex4 wholes true [34, 92, 117, 43, 49, 50, 51, 34] v := ⟨by rfl, not_document (by decide)⟩

/-- Disagreement: C80. `"\u 123"` is no JSON, but is read. -/
theorem space_accepted : loads wholes true [34, 92, 117, 32, 49, 50, 51, 34] = .value (.str [0x123]) ∧
    ∀ v, ¬Document hex4 wholes true [34, 92, 117, 32, 49, 50, 51, 34] v := ⟨by rfl, not_document (by decide)⟩

/-- Disagreement: C80. `"\u1_23"` is no JSON, but is read. -/
theorem underscore_accepted : loads wholes true [34, 92, 117, 49, 95, 50, 51, 34] = .value (.str [0x123]) ∧
    ∀ v, ¬Document hex4 wholes true [34, 92, 117, 49, 95, 50, 51, 34] v := ⟨by rfl, not_document (by decide)⟩

/-! ## Bytes (C81) -/

/-- C81: For a JSON document in any Unicode transformation format and byte order, with a byte order mark or without, that
format is detected. -/
theorem detects {s : Str} {v : Json P.F} (h : Document hex4 P true s v) (hs : ∀ c ∈ s, c ≤ 0x10FFFF) (f : Form) (bom : Bool) :
    detect (f.bytes bom s) = f.name bom := by
  obtain ⟨c, s', rfl, hc, hc', hz⟩ := document_first h
  exact document_bytes hc hc' hz (fun x hx => hs x (by simp [hx])) f bom

example : Document hex4 wholes true sampleText (.arr [.int 1, .str [0x1F600]]) ∧ (∀ c ∈ sampleText, c ≤ 0x10FFFF) := ⟨sampleText_doc, by decide⟩
example : (Form.utf16 false).bytes true [123, 125] = [0xFF, 0xFE, 123, 0, 125, 0] ∧ detect [0xFF, 0xFE, 123, 0, 125, 0] = .utf16 := by decide +kernel

end Verif.Json
