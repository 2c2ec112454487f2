import Verif.Pack.Model
import Verif.Ints.Props
/-
Lemmas about the struct model.
-/
namespace Verif.Pack

open Verif.Ints

/-! ### Parsing -/

theorem repeatCount_eq (ds : List Char) :
    (if ds = [] then 1 else ds.foldl (fun n d => 10 * n + (d.toNat - 48)) 0) = repeatCount ds := rfl

theorem standardSize_codes (c : Char) : (standardSize c).isSome = true ↔ c ∈ plainCodes ∨ c ∈ stringCodes := by
  have h1 : ∀ c ∈ plainCodes ++ stringCodes, (standardSize c).isSome = true := by decide +kernel
  constructor
  · intro h
    rw [← List.mem_append]
    unfold standardSize at h
    have sub : ∀ l : List Char, (∀ x ∈ l, x ∈ plainCodes ++ stringCodes) → c ∈ l → c ∈ plainCodes ++ stringCodes := fun l h h' => h c h'
    split at h
    · rename_i hm; exact sub _ (by decide +kernel) hm
    · split at h
      · rename_i hm; exact sub _ (by decide +kernel) hm
      · split at h
        · rename_i hm; exact sub _ (by decide +kernel) hm
        · split at h
          · rename_i hm; exact sub _ (by decide +kernel) hm
          · split at h
            · rename_i hm; exact sub ['D'] (by decide +kernel) (List.mem_singleton.mpr hm)
            · split at h
              · rename_i hm; exact sub _ (by decide +kernel) hm
              · split at h
                · rename_i hm; exact sub _ (by decide +kernel) hm
                · simp at h
  · intro h
    exact h1 c (List.mem_append.mpr h)

theorem codes_facts : ∀ c ∈ plainCodes ++ stringCodes, c.isDigit = false ∧ isFmtSpace c = false := by decide +kernel

theorem plain_not_string : ∀ c ∈ plainCodes, c ∉ ['s', 'p'] := by decide +kernel

theorem digit_not_space {d : Char} (h : d.isDigit = true) : isFmtSpace d = false := by
  cases hs : isFmtSpace d with
  | false => rfl
  | true =>
    unfold isFmtSpace at hs
    simp only [List.mem_cons, List.not_mem_nil, or_false, decide_eq_true_eq] at hs
    rcases hs with rfl | rfl | rfl | rfl | rfl <;> revert h <;> decide +kernel

/-- Reading digits. -/
theorem parseItems_digits (ds : List Char) : ∀ (pre s : List Char), (∀ d ∈ ds, d.isDigit = true) →
    parseItems pre (ds ++ s) = parseItems (pre ++ ds) s := by
  induction ds with
  | nil => intro pre s _; simp
  | cons d ds ih =>
    intro pre s h
    have hd := h d (List.mem_cons_self ..)
    rw [List.cons_append]
    conv_lhs => unfold parseItems
    rw [if_neg (by rw [digit_not_space hd]; simp), if_pos hd, ih _ _ (fun x hx => h x (List.mem_cons_of_mem _ hx))]
    simp

/-- Reading a code after digits. -/
theorem parseItems_code (ds : List Char) {c : Char} (s : List Char) (hc : c ∈ plainCodes ∨ c ∈ stringCodes) :
    parseItems ds (c :: s) = if c ∈ ['s', 'p'] then (parseItems [] s).map ((c, repeatCount ds) :: ·)
      else (parseItems [] s).map (List.replicate (repeatCount ds) (c, 1) ++ ·) := by
  obtain ⟨h1, h2⟩ := codes_facts c (List.mem_append.mpr hc)
  conv_lhs => unfold parseItems
  rw [if_neg (by rw [h2]; simp), if_neg (by rw [h1]; simp)]
  dsimp only
  rw [if_pos ((standardSize_codes c).mpr hc), repeatCount_eq]

/-- Soundness of the parser, with the digits already read. -/
theorem parseItems_sound (s : List Char) : ∀ (ds : List Char) (l : List (Char × Nat)), (∀ d ∈ ds, d.isDigit = true) →
    parseItems ds s = some l → Items (ds ++ s) l := by
  induction s with
  | nil =>
    intro ds l _ h
    unfold parseItems at h
    split at h
    · rename_i h0
      cases h
      rw [h0]
      exact .nil
    · simp at h
  | cons c s ih =>
    intro ds l hds h
    unfold parseItems at h
    split at h
    · rename_i h0
      rw [h0.1]
      exact .space h0.2 (ih [] l (by simp) h)
    · split at h
      · rename_i hd
        have := ih (ds ++ [c]) l (by
          intro d hd'
          rcases List.mem_append.mp hd' with h' | h'
          · exact hds d h'
          · rw [List.mem_singleton.mp h']; exact hd) h
        simpa using this
      · dsimp only at h
        split at h
        · rename_i hsp
          obtain ⟨l', hl', rfl⟩ := Option.map_eq_some_iff.mp h
          exact .string hds hsp (ih [] l' (by simp) hl')
        · split at h
          · rename_i hnsp hstd
            obtain ⟨l', hl', rfl⟩ := Option.map_eq_some_iff.mp h
            refine .plain hds ?_ (ih [] l' (by simp) hl')
            rcases (standardSize_codes c).mp hstd with h' | h'
            · exact h'
            · exact absurd h' hnsp
          · simp at h

theorem parseItems_iff (s : List Char) (l : List (Char × Nat)) : parseItems [] s = some l ↔ Items s l := by
  constructor
  · intro h; exact parseItems_sound s [] l (by simp) h
  · intro h
    induction h with
    | nil => rfl
    | space hc _ ih =>
      unfold parseItems
      rw [if_pos ⟨rfl, hc⟩]
      exact ih
    | @plain ds c s l hds hc _ ih =>
      rw [parseItems_digits ds [] _ hds, List.nil_append, parseItems_code ds s (.inl hc), if_neg (plain_not_string c hc), ih]
      rfl
    | @string ds c s l hds hc _ ih =>
      rw [parseItems_digits ds [] _ hds, List.nil_append, parseItems_code ds s (.inr hc), if_pos (show c ∈ ['s', 'p'] from hc), ih]
      rfl

/-! ### Fields -/

/-- Facts about an integer code. -/
theorem intCode_facts {c : Char} {n : Nat} {s : Bool} (h : intCode c = some (n, s)) :
    isIntFormat c = true ∧ isSigned c = s ∧ (∀ real, itemSize real c 1 = some n) ∧ c ≠ 'x' ∧ c ≠ 'c' ∧ c ≠ '?' ∧ n ≠ 0 := by
  have tab : ∀ c ∈ ['b', 'B', 'h', 'H', 'i', 'I', 'l', 'L', 'q', 'Q'], ∀ n s, intCode c = some (n, s) →
      isIntFormat c = true ∧ isSigned c = s ∧ (∀ real, itemSize real c 1 = some n) ∧ c ≠ 'x' ∧ c ≠ 'c' ∧ c ≠ '?' ∧ n ≠ 0 := by
    intro c hc n s hh
    simp only [List.mem_cons, List.not_mem_nil, or_false] at hc
    rcases hc with rfl | rfl | rfl | rfl | rfl | rfl | rfl | rfl | rfl | rfl <;>
      · cases hh
        exact ⟨by decide, by decide, fun _ => by rfl, by decide, by decide, by decide, by decide⟩
  refine tab c ?_ n s h
  unfold intCode at h
  simp only [List.mem_cons, List.not_mem_nil, or_false]
  by_contra hno
  push Not at hno
  obtain ⟨h1, h2, h3, h4, h5, h6, h7, h8, h9, h10⟩ := hno
  rw [if_neg h1, if_neg h2, if_neg h3, if_neg h4, if_neg h5, if_neg h6, if_neg h7, if_neg h8, if_neg h9, if_neg h10] at h
  simp at h

theorem byteorder_cases (p : Char) : byteorder p = "big" ∨ byteorder p = "little" := by
  unfold byteorder; split
  · exact .inr rfl
  · exact .inl rfl

/-- The byte order the code uses. -/
def bigOf (p : Char) : Bool := decide (p ≠ '<')

theorem byteorder_big (p : Char) (bs : List Int) :
    (if byteorder p = "big" then bs.reverse else bs) = if bigOf p then bs.reverse else bs := by
  unfold byteorder bigOf
  by_cases h : p = '<'
  · simp [h]
  · simp [h]

theorem fits_mod {v : Int} {n : Nat} {s : Bool} (h : Fits v n s) : (if v < 0 then 256 ^ n + v else v) = v % 256 ^ n := by
  have hpos : (0 : Int) < 256 ^ n := by positivity
  unfold Fits at h
  cases s with
  | false =>
    simp only [Bool.false_eq_true, if_false] at h
    rw [if_neg (by omega), Int.emod_eq_of_lt h.1 h.2]
  | true =>
    simp only [if_true] at h
    by_cases hn : n = 0
    · rw [if_pos hn] at h; subst h; simp
    · rw [if_neg hn] at h
      split
      · rw [← Int.add_emod_left (a := 256 ^ n), Int.emod_eq_of_lt (by omega) (by omega)]
      · rw [Int.emod_eq_of_lt (by omega) (by omega)]

/-- An integer field: exactly the right bytes. -/
theorem toBytes_field {v : Int} {n : Nat} {s : Bool} (hn : n ≠ 0) (p : Char) (bs : List Int) :
    toBytes v n (byteorder p) s = .ok bs ↔
      Fits v n s ∧ bs.length = n ∧ AreBytes bs ∧ valueOf (bigOf p) bs = v % 256 ^ n := by
  have hov := to_bytes_overflow_iff v n (byteorder p) s (fun _ => hn)
  constructor
  · intro h
    have hf : Fits v n s := by
      by_contra hc
      rw [hov.2 hc] at h
      cases h
    obtain ⟨h1, h2, h3⟩ := to_bytes_value h
    rw [byteorder_big, fits_mod hf] at h3
    exact ⟨hf, h1, h2, h3⟩
  · rintro ⟨hf, h1, h2, h3⟩
    obtain ⟨bs', hbs'⟩ := hov.1 hf
    obtain ⟨g1, g2, g3⟩ := to_bytes_value hbs'
    rw [byteorder_big, fits_mod hf] at g3
    rw [hbs']
    congr 1
    unfold valueOf at h3
    have hrev : ∀ l : List Int, AreBytes l → AreBytes (if bigOf p = true then l.reverse else l) := by
      intro l hl
      split
      · intro b hb; exact hl b (by simpa using hb)
      · exact hl
    have := littleValue_inj _ _ (hrev bs' g2) (hrev bs h2) (by split <;> simp [g1, h1]) (by rw [g3, h3])
    split at this
    · exact List.reverse_injective this
    · exact this

theorem toBytes_error {v : Int} {n : Nat} {s : Bool} (hn : n ≠ 0) (p : Char) (h : ¬ Fits v n s) :
    toBytes v n (byteorder p) s = .error .overflow := (to_bytes_overflow_iff v n (byteorder p) s (fun _ => hn)).2 h

/-- The size of what one code packs. -/
theorem packItem_int {real : Real} {p c : Char} {n : Nat} {s : Bool} (h : intCode c = some (n, s)) (v : Int) :
    packItem real p c 1 (.int v) = match toBytes v n (byteorder p) s with
      | .ok bs => .ok bs
      | .error _ => .error .structError := by
  obtain ⟨f1, f2, f3, f4, f5, f6, f7⟩ := intCode_facts h
  unfold packItem
  rw [if_neg f5, if_neg f6, if_pos f1, f3 real, f2]
  dsimp only
  cases toBytes v n (byteorder p) s <;> rfl

end Verif.Pack
