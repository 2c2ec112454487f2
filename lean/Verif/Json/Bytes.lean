import Verif.Json.Strict

/-! The encoding of a document. -/
namespace Verif.Json

variable {P : Floats}

def NonZero (s : Str) : Prop := ∀ c ∈ s, c ≠ 0

theorem nz_append {s t : Str} (h : NonZero s) (h' : NonZero t) : NonZero (s ++ t) := fun c hc => (List.mem_append.1 hc).elim (h c) (h' c)
theorem nz_cons {c : Nat} {s : Str} (h : c ≠ 0) (h' : NonZero s) : NonZero (c :: s) := by
  intro x hx
  rcases List.mem_cons.1 hx with rfl | hx
  · exact h
  · exact h' x hx
theorem nz_ws {s : Str} (h : Ws s) : NonZero s := fun c hc => by have := h c hc; omega
theorem nz_digits {s : Str} (h : Digits s) : NonZero s := fun c hc => by have := h c hc; omega
theorem nz_nil : NonZero [] := fun _ h => nomatch h

theorem nz_hex {a b c d : Nat} {u : Int} {s : Str} (h : hex4 [a, b, c, d] = some u) (hs : NonZero s) : NonZero (92 :: 117 :: a :: b :: c :: d :: s) := by
  obtain ⟨_, _, _, _, ha, hb, hc, hd, _⟩ := hex4_some h
  have := (hexValue_some ha).1
  have := (hexValue_some hb).1
  have := (hexValue_some hc).1
  have := (hexValue_some hd).1
  exact nz_cons (by omega) (nz_cons (by omega) (nz_cons (by omega) (nz_cons (by omega) (nz_cons (by omega) (nz_cons (by omega) hs)))))

theorem nz_body {s t : Str} (h : Body hex4 true s t) : NonZero s := by
  induction h with
  | nil => exact nz_nil
  | plain _ _ h _ ih => exact nz_cons (by have := h rfl; omega) ih
  | short h _ ih =>
    refine nz_cons (by omega) (nz_cons ?_ ih)
    simp only [shortEscapes, List.mem_cons, Prod.mk.injEq, List.not_mem_nil, or_false] at h
    omega
  | unicode h _ _ _ _ ih => exact nz_hex h ih
  | pair h _ h' _ _ ih => exact nz_hex h (nz_hex h' ih)

theorem nz_decimal {s : Str} {n : Nat} (h : Decimal s n) : NonZero s := by
  cases h with
  | zero => exact nz_cons (by omega) nz_nil
  | digits h1 h2 h3 => exact nz_cons (by omega) (nz_digits h3)

theorem nz_int {s : Str} {i : Int} (h : IntText s i) : NonZero s := by
  cases h with
  | pos h => exact nz_decimal h
  | neg h => exact nz_cons (by omega) (nz_decimal h)

theorem nz_float {s : Str} (h : FloatText s) : NonZero s := by
  cases h with
  | mk h1 h2 h3 _ =>
    refine nz_append (nz_append (nz_int h1) ?_) ?_
    · cases h2 with
      | none => exact nz_nil
      | some _ h => exact nz_cons (by omega) (nz_digits h)
    · cases h3 with
      | none => exact nz_nil
      | some he hs _ h =>
        refine nz_append (nz_cons (by omega) ?_) (nz_digits h)
        rcases hs with rfl | rfl | rfl
        · exact nz_nil
        · exact nz_cons (by omega) nz_nil
        · exact nz_cons (by omega) nz_nil

theorem nz_between {a b : Nat} {s : Str} (ha : a ≠ 0) (h : NonZero s) (hb : b ≠ 0) : NonZero (a :: s ++ [b]) :=
  nz_append (nz_cons ha h) (nz_cons hb nz_nil)

mutual
theorem nz_text : ∀ {s : Str} {v : Json P.F}, Text hex4 P true s v → NonZero s
  | _, _, .null => by unfold NonZero; decide
  | _, _, .true => by unfold NonZero; decide
  | _, _, .false => by unfold NonZero; decide
  | _, _, .nan => by unfold NonZero; decide
  | _, _, .inf => by unfold NonZero; decide
  | _, _, .negInf => by unfold NonZero; decide
  | _, _, .int h => nz_int h
  | _, _, .float h => nz_float h
  | _, _, .str h => nz_between (by omega) (nz_body h) (by omega)
  | _, _, .arrEmpty h => nz_between (by omega) (nz_ws h) (by omega)
  | _, _, .arr h => nz_between (by omega) (nz_elements h) (by omega)
  | _, _, .objEmpty h => nz_between (by omega) (nz_ws h) (by omega)
  | _, _, .obj h => nz_between (by omega) (nz_entries h) (by omega)
theorem nz_elements : ∀ {s : Str} {xs : List (Json P.F)}, Elements hex4 P true s xs → NonZero s
  | _, _, .one hw h hw' => nz_append (nz_append (nz_ws hw) (nz_text h)) (nz_ws hw')
  | _, _, .cons hw h hw' h2 => nz_append (nz_append (nz_append (nz_ws hw) (nz_text h)) (nz_ws hw')) (nz_cons (by omega) (nz_elements h2))
theorem nz_entries : ∀ {s : Str} {kvs : List (Str × Json P.F)}, Entries hex4 P true s kvs → NonZero s
  | _, _, .one hw hk h1 h2 h hw' => by
    have := nz_append (nz_append (nz_append (nz_append (nz_append (nz_ws hw) (nz_cons (by omega : (34:Nat) ≠ 0) (nz_body hk))) (nz_cons (by omega : (34:Nat) ≠ 0) (nz_ws h1)))
      (nz_cons (by omega : (58:Nat) ≠ 0) (nz_ws h2))) (nz_text h)) (nz_ws hw')
    simpa using this
  | _, _, .cons hw hk h1 h2 h hw' h3 => by
    have := nz_append (nz_append (nz_append (nz_append (nz_append (nz_append (nz_ws hw) (nz_cons (by omega : (34:Nat) ≠ 0) (nz_body hk))) (nz_cons (by omega : (34:Nat) ≠ 0) (nz_ws h1)))
      (nz_cons (by omega : (58:Nat) ≠ 0) (nz_ws h2))) (nz_text h)) (nz_ws hw')) (nz_cons (by omega : (44:Nat) ≠ 0) (nz_entries h3))
    simpa using this
end

theorem text_first {hex : Str → Option Int} {strict : Bool} {s : Str} {v : Json P.F} (h : Text hex P strict s v) : ∃ c s', s = c :: s' ∧ c < 128 := by
  have num : ∀ {s i}, IntText s i → ∃ c s', s = c :: s' ∧ c < 128 := by
    intro s i h
    cases h with
    | pos h =>
      cases h with
      | zero => exact ⟨_, _, rfl, by omega⟩
      | digits h1 h2 h3 => exact ⟨_, _, rfl, by omega⟩
    | neg h => exact ⟨_, _, rfl, by omega⟩
  cases h with
  | int h => exact num h
  | float h =>
    cases h with
    | mk h1 _ _ _ =>
      obtain ⟨c, s', rfl, hc⟩ := num h1
      exact ⟨c, _, rfl, hc⟩
  | _ => exact ⟨_, _, rfl, by omega⟩

theorem document_first {s : Str} {v : Json P.F} (h : Document hex4 P true s v) : ∃ c s', s = c :: s' ∧ c ≠ 0 ∧ c < 128 ∧ NonZero s' := by
  obtain ⟨w, t, w', hw, ht, hw', rfl⟩ := h
  have hz : NonZero (w ++ t ++ w') := nz_append (nz_append (nz_ws hw) (nz_text ht)) (nz_ws hw')
  obtain ⟨c, t', rfl, hc⟩ := text_first ht
  cases w with
  | nil => exact ⟨c, t' ++ w', rfl, hz c (by simp), hc, fun x hx => hz x (by simp at hx ⊢; exact .inr hx)⟩
  | cons d w =>
    have := hw d (by simp)
    exact ⟨d, w ++ c :: t' ++ w', rfl, by omega, by omega, fun x hx => hz x (by simp at hx ⊢; exact .inr hx)⟩

theorem bytes2 (big : Bool) (u : Nat) (hu : u ≠ 0) (hu' : u < 65536) : ∃ x y, byteList big 2 u = [x, y] ∧ (x ≠ 0 ∨ y ≠ 0) := by
  cases big with
  | false => exact ⟨u / 256 ^ 0 % 256, u / 256 ^ 1 % 256, rfl, by omega⟩
  | true => exact ⟨u / 256 ^ 1 % 256, u / 256 ^ 0 % 256, rfl, by omega⟩

theorem utf16_first (big : Bool) (c : Nat) (hc : c ≠ 0) (hc' : c ≤ 0x10FFFF) :
    ∃ x y r, (Form.utf16 big).char c = x :: y :: r ∧ (x ≠ 0 ∨ y ≠ 0) := by
  rw [Form.char]
  split
  · obtain ⟨x, y, h, hxy⟩ := bytes2 big c hc (by omega)
    exact ⟨x, y, [], h, hxy⟩
  · obtain ⟨x, y, h, hxy⟩ := bytes2 big (0xD800 + (c - 0x10000) / 1024) (by omega) (by omega)
    rw [h]
    exact ⟨x, y, _, rfl, hxy⟩

theorem utf8_first (c : Nat) (hc : c ≠ 0) : ∃ x r, Form.utf8.char c = x :: r ∧ x ≠ 0 := by
  simp only [Form.char]
  split
  · exact ⟨_, _, rfl, hc⟩
  · split
    · exact ⟨_, _, rfl, by omega⟩
    · split
      · exact ⟨_, _, rfl, by omega⟩
      · exact ⟨_, _, rfl, by omega⟩

theorem utf8_ascii {c : Nat} (hc : c < 128) : Form.utf8.char c = [c] := by
  simp only [Form.char]; rw [if_pos (by omega)]
theorem utf16_ascii (big : Bool) {c : Nat} (hc : c < 128) : (Form.utf16 big).char c = if big then [0, c] else [c, 0] := by
  have h1 : c / 256 = 0 := by omega
  have h2 : c % 256 = c := by omega
  rw [Form.char, if_pos (by omega)]
  cases big <;> simp [byteList, List.range_succ, h1, h2]
theorem utf32_ascii (big : Bool) {c : Nat} (hc : c < 128) : (Form.utf32 big).char c = if big then [0, 0, 0, c] else [c, 0, 0, 0] := by
  have h1 : c / 256 = 0 := by omega
  have h2 : c % 256 = c := by omega
  have h3 : c / 65536 = 0 := by omega
  have h4 : c / 16777216 = 0 := by omega
  rw [Form.char]
  cases big <;> simp [byteList, List.range_succ, h1, h2, h3, h4]

theorem document_bytes {c : Nat} {s : Str} (hc : c ≠ 0) (hc' : c < 128) (hs : NonZero s) (hs' : ∀ x ∈ s, x ≤ 0x10FFFF) (f : Form) (bom : Bool) :
    detect (f.bytes bom (c :: s)) = f.name bom := by
  have h239 : c ≠ 239 := by omega
  have h254 : c ≠ 254 := by omega
  have h255 : c ≠ 255 := by omega
  cases bom with
  | true =>
    cases f with
    | utf8 =>
      have : Form.utf8.char 0xFEFF = [0xEF, 0xBB, 0xBF] := by decide
      simp [Form.bytes, this, detect, Form.name, List.isPrefixOf]
    | utf16 big =>
      simp only [Form.bytes, if_true, List.flatMap_cons, utf16_ascii big hc']
      cases big with
      | true =>
        have : (Form.utf16 true).char 0xFEFF = [0xFE, 0xFF] := by decide
        simp [this, detect, Form.name, List.isPrefixOf]
      | false =>
        have : (Form.utf16 false).char 0xFEFF = [0xFF, 0xFE] := by decide
        simp [this, detect, Form.name, List.isPrefixOf, hc.symm]
    | utf32 big =>
      simp only [Form.bytes, if_true, List.flatMap_cons]
      cases big with
      | true =>
        have : (Form.utf32 true).char 0xFEFF = [0, 0, 0xFE, 0xFF] := by decide
        simp [this, detect, Form.name, List.isPrefixOf]
      | false =>
        have : (Form.utf32 false).char 0xFEFF = [0xFF, 0xFE, 0, 0] := by decide
        simp [this, detect, Form.name, List.isPrefixOf]
  | false =>
    simp only [Form.bytes, Bool.false_eq_true, if_false, List.flatMap_cons]
    cases f with
    | utf8 =>
      rw [utf8_ascii hc']
      cases s with
      | nil => simp [detect, detectPlain, Form.name, List.isPrefixOf, hc.symm, h239.symm, h254.symm, h255.symm]
      | cons d s =>
        obtain ⟨x, r, hx, hx0⟩ := utf8_first d (hs d (by simp))
        rw [List.flatMap_cons, hx]
        simp [detect, detectPlain, Form.name, List.isPrefixOf, hc, hc.symm, h239.symm, h254.symm, h255.symm, hx0]
    | utf16 big =>
      rw [utf16_ascii big hc']
      cases s with
      | nil => cases big <;> simp [detect, detectPlain, Form.name, List.isPrefixOf, hc, hc.symm, h239.symm, h254.symm, h255.symm]
      | cons d s =>
        obtain ⟨x, y, r, hx, hx0⟩ := utf16_first big d (hs d (by simp)) (hs' d (by simp))
        rw [List.flatMap_cons, hx]
        cases big <;> simp [detect, detectPlain, Form.name, List.isPrefixOf, hc, hc.symm, h239.symm, h254.symm, h255.symm, hx0]
    | utf32 big =>
      rw [utf32_ascii big hc']
      cases big <;> simp [detect, detectPlain, Form.name, List.isPrefixOf, hc, hc.symm, h239.symm, h254.symm, h255.symm]

end Verif.Json
