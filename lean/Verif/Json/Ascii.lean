import Verif.Json.Write
import Verif.Json.Bytes

/-! The order of keys, and the characters of what is written. -/
namespace Verif.Json

variable {P : Floats}

theorem strLt_before : ∀ {a b : Str}, strLt a b = true → Before a b
  | _, [], h => by simp [strLt] at h
  | [], _ :: _, _ => .nil
  | x :: a, y :: b, h => by
    simp only [strLt, Bool.or_eq_true, decide_eq_true_eq, Bool.and_eq_true, beq_iff_eq] at h
    rcases h with h | ⟨rfl, h⟩
    · exact .lt h
    · exact .cons (strLt_before h)

theorem sortedItems_iff {F : Type} (kvs : List (Str × Json F)) : SortedItems kvs ↔ ∀ kv ∈ kvs, kv.2.Sorted := by
  induction kvs with
  | nil => simp [SortedItems]
  | cons kv kvs ih => obtain ⟨k, v⟩ := kv; simp only [SortedItems, List.mem_cons, forall_eq_or_imp, ih]

mutual
theorem canon_sorted {o : Opts} {p : Str → Prop} {F : Type} (ho : o.sortKeys = true) : ∀ (v : Json F), v.Ok p → (canon o v).Sorted
  | .null, _ => by simp [canon, Json.Sorted]
  | .bool _, _ => by simp [canon, Json.Sorted]
  | .int _, _ => by simp [canon, Json.Sorted]
  | .float _, _ => by simp [canon, Json.Sorted]
  | .nan, _ => by simp [canon, Json.Sorted]
  | .inf, _ => by simp [canon, Json.Sorted]
  | .negInf, _ => by simp [canon, Json.Sorted]
  | .str _, _ => by simp [canon, Json.Sorted]
  | .arr xs, h => by
    rw [Json.Ok] at h
    rw [canon, Json.Sorted]
    exact canonAll_sorted ho xs h
  | .obj kvs, h => by
    rw [Json.Ok] at h
    rw [canon, Json.Sorted, ho]
    simp only [if_true]
    constructor
    · rw [List.pairwise_map]
      refine (sortedItems_sorted ?_).imp (fun h => strLt_before h)
      rw [canonItems_keys]
      exact h.1
    · rw [sortedItems_iff]
      intro kv hkv
      exact (sortedItems_iff _).1 (canonItems_sorted ho kvs h.2) kv ((sorted_perm _).mem_iff.1 hkv)
theorem canonAll_sorted {o : Opts} {p : Str → Prop} {F : Type} (ho : o.sortKeys = true) : ∀ (xs : List (Json F)), OkAll p xs → SortedAll (canonAll o xs)
  | [], _ => by simp [canonAll, SortedAll]
  | x :: xs, h => by
    rw [OkAll] at h
    rw [canonAll, SortedAll]
    exact ⟨canon_sorted ho x h.1, canonAll_sorted ho xs h.2⟩
theorem canonItems_sorted {o : Opts} {p : Str → Prop} {F : Type} (ho : o.sortKeys = true) : ∀ (kvs : List (Str × Json F)), OkItems p kvs → SortedItems (canonItems o kvs)
  | [], _ => by simp [canonItems, SortedItems]
  | (k, v) :: kvs, h => by
    rw [OkItems] at h
    rw [canonItems, SortedItems]
    exact ⟨canon_sorted ho v h.2.1, canonItems_sorted ho kvs h.2.2⟩
end

/-! ## ASCII -/

def Ascii (s : Str) : Prop := ∀ c ∈ s, c < 128

theorem as_append {s t : Str} (h : Ascii s) (h' : Ascii t) : Ascii (s ++ t) := fun c hc => (List.mem_append.1 hc).elim (h c) (h' c)
theorem as_cons {c : Nat} {s : Str} (h : c < 128) (h' : Ascii s) : Ascii (c :: s) := by
  intro x hx
  rcases List.mem_cons.1 hx with rfl | hx
  · exact h
  · exact h' x hx
theorem as_ws {s : Str} (h : Ws s) : Ascii s := fun c hc => by have := h c hc; omega
theorem as_digits {s : Str} (h : Digits s) : Ascii s := fun c hc => by have := h c hc; omega
theorem as_nil : Ascii [] := fun _ h => nomatch h

theorem as_decimal {s : Str} {n : Nat} (h : Decimal s n) : Ascii s := by
  cases h with
  | zero => exact as_cons (by omega) as_nil
  | digits h1 h2 h3 => exact as_cons (by omega) (as_digits h3)

theorem as_int {s : Str} {i : Int} (h : IntText s i) : Ascii s := by
  cases h with
  | pos h => exact as_decimal h
  | neg h => exact as_cons (by omega) (as_decimal h)

theorem as_float {s : Str} (h : FloatText s) : Ascii s := by
  cases h with
  | mk h1 h2 h3 _ =>
    refine as_append (as_append (as_int h1) ?_) ?_
    · cases h2 with
      | none => exact as_nil
      | some _ h => exact as_cons (by omega) (as_digits h)
    · cases h3 with
      | none => exact as_nil
      | some he hs _ h =>
        refine as_append (as_cons (by omega) ?_) (as_digits h)
        rcases hs with rfl | rfl | rfl
        · exact as_nil
        · exact as_cons (by omega) as_nil
        · exact as_cons (by omega) as_nil

theorem as_around {c : Nat} {s : Str} (hc : c < 128) (h : Around c s) : Ascii s := by
  obtain ⟨w, w', hw, hw', rfl⟩ := h
  exact as_append (as_ws hw) (as_cons hc (as_ws hw'))

theorem as_hexDigit {n : Nat} (h : n < 16) : hexDigit n < 128 := by
  unfold hexDigit; split <;> omega

theorem as_uText (n : Nat) : Ascii (uText n) := by
  unfold uText
  exact as_cons (by omega) (as_cons (by omega) (as_cons (as_hexDigit (by omega)) (as_cons (as_hexDigit (by omega)) (as_cons (as_hexDigit (by omega))
    (as_cons (as_hexDigit (by omega)) as_nil)))))

theorem as_escapeDct {c : Nat} {e : Str} (h : escapeDct c = some e) : Ascii e := by
  unfold escapeDct at h
  have two : ∀ {a b : Nat}, a < 128 → b < 128 → Ascii [a, b] := fun h1 h2 => as_cons h1 (as_cons h2 as_nil)
  split at h
  · cases h; exact two (by omega) (by omega)
  split at h
  · cases h; exact two (by omega) (by omega)
  split at h
  · cases h; exact two (by omega) (by omega)
  split at h
  · cases h; exact two (by omega) (by omega)
  split at h
  · cases h; exact two (by omega) (by omega)
  split at h
  · cases h; exact two (by omega) (by omega)
  split at h
  · cases h; exact two (by omega) (by omega)
  split at h
  · cases h; exact as_uText c
  · cases h

theorem as_encCharAscii (c : Nat) : Ascii (encCharAscii c) := by
  unfold encCharAscii
  split
  · split
    · rename_i e he; exact as_escapeDct he
    · split
      · exact as_uText c
      · exact as_append (as_uText _) (as_uText _)
  · exact as_cons (by omega) as_nil

theorem as_encStr (s : Str) : Ascii (encStr true s) := by
  unfold encStr
  refine as_append (as_cons (by omega) ?_) (as_cons (by omega) as_nil)
  intro c hc
  obtain ⟨a, _, ha⟩ := List.mem_flatMap.1 hc
  exact as_encCharAscii a c ha

theorem as_members {o : Opts} (ha : o.ascii = true) (ho : o.Ok) {sep : Str} (hsep : Ascii sep) : ∀ (first : Bool) (ts : List (Str × Str)),
    (∀ t ∈ ts, Ascii t.2) → Ascii (members o sep first ts)
  | _, [], _ => by rw [members]; exact as_nil
  | first, (k, t) :: ts, h => by
    rw [members, ha]
    refine as_append (as_append (as_append (as_append ?_ (as_encStr k)) (as_around (by omega) ho.keySep)) (h (k, t) (by simp)))
      (as_members ha ho hsep false ts (fun t ht => h t (by simp [ht])))
    split
    · exact as_nil
    · exact hsep

mutual
theorem as_enc {o : Opts} (hP : P.Ok) (ha : o.ascii = true) (ho : o.Ok) (level : Nat) : ∀ (v : Json P.F), Ascii (enc P o level v)
  | .null => by rw [enc]; unfold Ascii; decide
  | .bool true => by rw [enc]; unfold Ascii; decide
  | .bool false => by rw [enc]; unfold Ascii; decide
  | .nan => by rw [enc]; unfold Ascii; decide
  | .inf => by rw [enc]; unfold Ascii; decide
  | .negInf => by rw [enc]; unfold Ascii; decide
  | .int i => by rw [enc]; exact as_int (intRepr_text i)
  | .float f => by rw [enc]; exact as_float (hP.text f)
  | .str s => by rw [enc, ha]; exact as_encStr s
  | .arr [] => by rw [enc]; unfold Ascii; decide
  | .arr (x :: xs) => by
    rw [enc]
    exact as_append (as_append (as_items hP ha ho (level + 1) _ (as_append (as_cons (by omega) as_nil) (as_ws (ws_newline ho _))) (x :: xs))
      (as_ws (ws_newline ho _))) (as_cons (by omega) as_nil)
  | .obj [] => by rw [enc]; unfold Ascii; decide
  | .obj (kv :: kvs) => by
    rw [enc]
    refine as_append (as_append (as_append (as_append (as_cons (by omega) as_nil) (as_ws (ws_newline ho _))) (as_members ha ho ?_ true _ ?_))
      (as_ws (ws_newline ho _))) (as_cons (by omega) as_nil)
    · exact as_append (as_around (by omega) ho.itemSep) (as_ws (ws_newline ho _))
    · have hv := as_values hP ha ho (level + 1) (kv :: kvs)
      intro t ht
      split at ht
      · exact hv t ((sorted_perm _).mem_iff.1 ht)
      · exact hv t ht
theorem as_items {o : Opts} (hP : P.Ok) (ha : o.ascii = true) (ho : o.Ok) (level : Nat) (buf : Str) (hb : Ascii buf) :
    ∀ (xs : List (Json P.F)), Ascii (items P o level buf xs)
  | [] => by rw [items]; exact as_nil
  | x :: xs => by
    rw [items]
    exact as_append (as_append hb (as_enc hP ha ho level x))
      (as_items hP ha ho level _ (as_append (as_around (by omega) ho.itemSep) (as_ws (ws_newline ho _))) xs)
theorem as_values {o : Opts} (hP : P.Ok) (ha : o.ascii = true) (ho : o.Ok) (level : Nat) : ∀ (kvs : List (Str × Json P.F)),
    ∀ t ∈ values P o level kvs, Ascii t.2
  | [] => by intro t ht; simp [values] at ht
  | (k, v) :: kvs => by
    intro t ht
    rw [values, List.mem_cons] at ht
    rcases ht with rfl | ht
    · exact as_enc hP ha ho level v
    · exact as_values hP ha ho level kvs t ht
end

end Verif.Json
