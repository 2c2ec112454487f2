import Verif.Json.Encode
import Verif.Json.Sound

/-! Lists and dictionaries. -/
namespace Verif.Json

variable {P : Floats} {strict : Bool}

mutual
/-- The value with its dictionaries sorted, if the options ask for it. -/
def canon {F : Type} (o : Opts) : Json F → Json F
  | .arr xs => .arr (canonAll o xs)
  | .obj kvs => .obj (if o.sortKeys then sortedItems (canonItems o kvs) else canonItems o kvs)
  | v => v
def canonAll {F : Type} (o : Opts) : List (Json F) → List (Json F)
  | [] => []
  | x :: xs => canon o x :: canonAll o xs
def canonItems {F : Type} (o : Opts) : List (Str × Json F) → List (Str × Json F)
  | [] => []
  | (k, v) :: kvs => (k, canon o v) :: canonItems o kvs
end

theorem canonItems_keys {F : Type} (o : Opts) : ∀ (kvs : List (Str × Json F)), (canonItems o kvs).map Prod.fst = kvs.map Prod.fst
  | [] => by simp [canonItems]
  | (k, v) :: kvs => by simp [canonItems, canonItems_keys o kvs]

mutual
theorem canon_unsorted {F : Type} {o : Opts} (h : o.sortKeys = false) : ∀ (v : Json F), canon o v = v
  | .null => by simp [canon]
  | .bool _ => by simp [canon]
  | .int _ => by simp [canon]
  | .float _ => by simp [canon]
  | .nan => by simp [canon]
  | .inf => by simp [canon]
  | .negInf => by simp [canon]
  | .str _ => by simp [canon]
  | .arr xs => by rw [canon, canonAll_unsorted h xs]
  | .obj kvs => by rw [canon, canonItems_unsorted h kvs, h]; simp
theorem canonAll_unsorted {F : Type} {o : Opts} (h : o.sortKeys = false) : ∀ (xs : List (Json F)), canonAll o xs = xs
  | [] => by simp [canonAll]
  | x :: xs => by rw [canonAll, canon_unsorted h x, canonAll_unsorted h xs]
theorem canonItems_unsorted {F : Type} {o : Opts} (h : o.sortKeys = false) : ∀ (kvs : List (Str × Json F)), canonItems o kvs = kvs
  | [] => by simp [canonItems]
  | (k, v) :: kvs => by rw [canonItems, canon_unsorted h v, canonItems_unsorted h kvs]
end

theorem insertKey_perm {α : Type} (x : Str × α) (ys : List (Str × α)) : (insertKey strLt x ys).Perm (x :: ys) := by
  induction ys with
  | nil => exact .refl _
  | cons y ys ih =>
    rw [insertKey]
    split
    · exact .refl _
    · exact (ih.cons y).trans (.swap x y ys)

theorem sorted_perm {α : Type} (xs : List (Str × α)) : (sortedItems xs).Perm xs := by
  induction xs with
  | nil => exact .refl _
  | cons x xs ih => exact (insertKey_perm x _).trans (ih.cons x)

theorem same_refl_all {F : Type} : ∀ (kvs : List (Str × Json F)), SameItems kvs kvs
  | [] => .nil
  | (_, _) :: kvs => .cons .refl (same_refl_all kvs)

mutual
theorem canon_same {F : Type} (o : Opts) : ∀ (v : Json F), Same v (canon o v)
  | .null => by simp only [canon]; exact .refl
  | .bool _ => by simp only [canon]; exact .refl
  | .int _ => by simp only [canon]; exact .refl
  | .float _ => by simp only [canon]; exact .refl
  | .nan => by simp only [canon]; exact .refl
  | .inf => by simp only [canon]; exact .refl
  | .negInf => by simp only [canon]; exact .refl
  | .str _ => by simp only [canon]; exact .refl
  | .arr xs => by rw [canon]; exact .arr (canonAll_same o xs)
  | .obj kvs => by
    rw [canon]
    refine .obj (canonItems_same o kvs) ?_
    split
    · exact (sorted_perm _).symm
    · exact .refl _
theorem canonAll_same {F : Type} (o : Opts) : ∀ (xs : List (Json F)), SameAll xs (canonAll o xs)
  | [] => by rw [canonAll]; exact .nil
  | x :: xs => by rw [canonAll]; exact .cons (canon_same o x) (canonAll_same o xs)
theorem canonItems_same {F : Type} (o : Opts) : ∀ (kvs : List (Str × Json F)), SameItems kvs (canonItems o kvs)
  | [] => by rw [canonItems]; exact .nil
  | (k, v) :: kvs => by rw [canonItems]; exact .cons (canon_same o v) (canonItems_same o kvs)
end

/-! ## Texts -/

theorem ws_newline {o : Opts} (ho : o.Ok) (level : Nat) : Ws (o.newline level) := by
  unfold Opts.newline
  cases hi : o.indent with
  | none => intro c hc; simp at hc
  | some ind =>
    have hw := ho.indent ind hi
    intro c hc
    simp only [List.mem_cons, List.mem_flatten, List.mem_replicate] at hc
    rcases hc with rfl | ⟨l, ⟨_, rfl⟩, hc⟩
    · simp
    · exact hw c hc

theorem ws_append {a b : Str} (ha : Ws a) (hb : Ws b) : Ws (a ++ b) := fun c hc => (List.mem_append.1 hc).elim (ha c) (hb c)

/-- What is needed of strings: with `ensure_ascii`, no surrogate pairs in two characters. -/
def StrOk (o : Opts) (s : Str) : Prop := o.ascii = true → NoPairs s

theorem encStr_body {o : Opts} {s : Str} (h : (∀ c ∈ s, c ≤ 0x10FFFF) ∧ StrOk o s) : ∃ b, encStr o.ascii s = 34 :: b ++ [34] ∧ Body hex4 strict b s := by
  refine ⟨_, rfl, ?_⟩
  cases ha : o.ascii with
  | true => exact body_ascii h.1 (h.2 ha)
  | false => exact body_plain s

/-- The texts of the values of a dictionary, and their keys. -/
inductive Texts (P : Floats) (strict : Bool) (o : Opts) : List (Str × Str) → List (Str × Json P.F) → Prop
  | nil : Texts P strict o [] []
  | cons {k t v ts vs} : ((∀ c ∈ k, c ≤ 0x10FFFF) ∧ StrOk o k) → Text hex4 P strict t v → Texts P strict o ts vs →
      Texts P strict o ((k, t) :: ts) ((k, v) :: vs)

theorem texts_insert {o : Opts} {k t : Str} {v : Json P.F} (hk : (∀ c ∈ k, c ≤ 0x10FFFF) ∧ StrOk o k) (ht : Text hex4 P strict t v)
    {ts : List (Str × Str)} {vs : List (Str × Json P.F)} (h : Texts P strict o ts vs) :
    Texts P strict o (insertKey strLt (k, t) ts) (insertKey strLt (k, v) vs) := by
  induction h with
  | nil => exact .cons hk ht .nil
  | cons hk' ht' h ih =>
    rw [insertKey, insertKey]
    simp only
    split
    · exact .cons hk ht (.cons hk' ht' h)
    · exact .cons hk' ht' ih

theorem texts_sorted {o : Opts} {ts : List (Str × Str)} {vs : List (Str × Json P.F)} (h : Texts P strict o ts vs) :
    Texts P strict o (sortedItems ts) (sortedItems vs) := by
  induction h with
  | nil => exact .nil
  | cons hk ht _ ih => exact texts_insert hk ht ih

theorem members_entries {o : Opts} (ho : o.Ok) {nl : Str} (hnl : Ws nl) {ts : List (Str × Str)} {vs : List (Str × Json P.F)} (h : Texts P strict o ts vs) :
    ts ≠ [] → ∀ first, ∃ T, members o (o.itemSep ++ nl) first ts = (if first then [] else o.itemSep ++ nl) ++ T ∧
      ∀ w w', Ws w → Ws w' → Entries hex4 P strict (w ++ T ++ w') vs := by
  induction h with
  | nil => intro h; exact absurd rfl h
  | @cons k t v ts vs hk ht h ih =>
    intro _ first
    rw [members]
    refine ⟨_, by rw [List.append_assoc, List.append_assoc, List.append_assoc], ?_⟩
    intro w w' hw hw'
    obtain ⟨b, hb, hbody⟩ := encStr_body (strict := strict) hk
    obtain ⟨a1, a2, ha1, ha2, hks⟩ := ho.keySep
    rw [hb, hks]
    cases h with
    | nil =>
      rw [members]
      have e : w ++ (34 :: b ++ [34] ++ (a1 ++ 58 :: a2 ++ (t ++ []))) ++ w' = w ++ 34 :: b ++ 34 :: a1 ++ 58 :: a2 ++ t ++ w' := by simp
      rw [e]
      exact .one hw hbody ha1 ha2 ht hw'
    | cons hk' ht' h' =>
      obtain ⟨T, hT, hE⟩ := ih (by simp) false
      rw [hT]
      obtain ⟨b1, b2, hb1, hb2, his⟩ := ho.itemSep
      simp only [Bool.false_eq_true, if_false]
      rw [his]
      have e : w ++ (34 :: b ++ [34] ++ (a1 ++ 58 :: a2 ++ (t ++ (b1 ++ 44 :: b2 ++ nl ++ T)))) ++ w' =
          w ++ 34 :: b ++ 34 :: a1 ++ 58 :: a2 ++ t ++ b1 ++ 44 :: (b2 ++ nl ++ T ++ w') := by simp
      rw [e]
      exact .cons hw hbody ha1 ha2 ht hb1 (hE _ _ (ws_append hb2 hnl) hw')

theorem setItem_new {α : Type} {k : Str} {v : α} : ∀ {d : List (Str × α)}, k ∉ d.map Prod.fst → setItem k v d = d ++ [(k, v)] := by
  intro d
  induction d with
  | nil => intro _; rfl
  | cons x d ih =>
    intro h
    simp only [List.map_cons, List.mem_cons, not_or] at h
    rw [setItem, if_neg (fun e => h.1 e.symm), ih h.2]; rfl

theorem lastWins_nodup {α : Type} {kvs : List (Str × α)} (h : (kvs.map Prod.fst).Nodup) : lastWins kvs = kvs := by
  rw [← dictOf_eq]
  suffices H : ∀ (kvs d : List (Str × α)), ((d ++ kvs).map Prod.fst).Nodup → kvs.foldl (fun d kv => setItem kv.1 kv.2 d) d = d ++ kvs by
    exact H kvs [] h
  intro kvs
  induction kvs with
  | nil => intro d _; simp
  | cons kv kvs ih =>
    intro d hd
    rw [List.foldl_cons]
    have hk : kv.1 ∉ d.map Prod.fst := by
      rw [List.map_append, List.nodup_append] at hd
      intro hm
      exact hd.2.2 kv.1 hm kv.1 (by simp) rfl
    rw [setItem_new hk, ih]
    · simp
    · simpa using hd

theorem texts_length {o : Opts} {ts : List (Str × Str)} {vs : List (Str × Json P.F)} (h : Texts P strict o ts vs) : ts.length = vs.length := by
  induction h with
  | nil => rfl
  | cons _ _ _ ih => simp [ih]

mutual
theorem enc_text {o : Opts} (hP : P.Ok) (ho : o.Ok) (level : Nat) : ∀ (v : Json P.F), v.Ok (StrOk o) → Text hex4 P strict (enc P o level v) (canon o v)
  | .null, _ => by simp only [enc, canon]; exact .null
  | .bool true, _ => by simp only [enc, canon]; exact .true
  | .bool false, _ => by simp only [enc, canon]; exact .false
  | .int i, _ => by simp only [enc, canon]; exact .int (intRepr_text i)
  | .float f, _ => by
    simp only [enc, canon]
    have := Text.float (hex := hex4) (P := P) (strict := strict) (hP.text f)
    rwa [hP.parse] at this
  | .nan, _ => by simp only [enc, canon]; exact .nan
  | .inf, _ => by simp only [enc, canon]; exact .inf
  | .negInf, _ => by simp only [enc, canon]; exact .negInf
  | .str s, h => by
    simp only [enc, canon]
    rw [Json.Ok] at h
    obtain ⟨b, hb, hbody⟩ := encStr_body (strict := strict) h
    rw [hb]
    exact .str hbody
  | .arr [], _ => by simp only [enc, canon, canonAll]; exact .arrEmpty (w := []) (by simp [Ws])
  | .arr (x :: xs), h => by
    rw [Json.Ok] at h
    obtain ⟨T, hT, hE⟩ := items_text hP ho (level + 1) (x :: xs) h (by simp) ([91] ++ o.newline (level + 1))
    rw [enc, canon, hT]
    have e : [91] ++ o.newline (level + 1) ++ T ++ o.newline level ++ [93] = 91 :: (o.newline (level + 1) ++ T ++ o.newline level) ++ [93] := by simp
    rw [e]
    exact .arr (hE _ _ (ws_newline ho _) (ws_newline ho _))
  | .obj [], _ => by
    simp only [enc, canon, canonItems]
    have : (if o.sortKeys = true then sortedItems ([] : List (Str × Json P.F)) else []) = [] := by split <;> rfl
    rw [this]
    exact .objEmpty (w := []) (by simp [Ws])
  | .obj (kv :: kvs), h => by
    rw [Json.Ok] at h
    have ht := values_text hP ho (level + 1) (kv :: kvs) h.2
    rw [enc, canon]
    have ht' : Texts P strict o (if o.sortKeys then sortedItems (values P o (level + 1) (kv :: kvs)) else values P o (level + 1) (kv :: kvs))
        (if o.sortKeys then sortedItems (canonItems o (kv :: kvs)) else canonItems o (kv :: kvs)) := by
      split
      · exact texts_sorted ht
      · exact ht
    generalize hvs : (if o.sortKeys then sortedItems (canonItems o (kv :: kvs)) else canonItems o (kv :: kvs)) = vs at ht'
    generalize (if o.sortKeys then sortedItems (values P o (level + 1) (kv :: kvs)) else values P o (level + 1) (kv :: kvs)) = ts at ht'
    have hperm : vs.Perm (canonItems o (kv :: kvs)) := by
      rw [← hvs]
      split
      · exact sorted_perm _
      · exact .refl _
    have hne : ts ≠ [] := by
      intro e
      have h1 := texts_length ht'
      have h2 := hperm.length_eq
      have h3 := congrArg List.length (canonItems_keys o (kv :: kvs))
      simp only [List.length_map, List.length_cons] at h3
      rw [e, h2, h3] at h1
      simp at h1
    obtain ⟨T, hT, hE⟩ := members_entries ho (ws_newline ho (level + 1)) ht' hne true
    have hnd : (vs.map Prod.fst).Nodup := by
      rw [(hperm.map Prod.fst).nodup_iff, canonItems_keys]
      exact h.1
    rw [hT]
    have e : [123] ++ o.newline (level + 1) ++ ((if true = true then [] else o.itemSep ++ o.newline (level + 1)) ++ T) ++ o.newline level ++ [125] =
        123 :: (o.newline (level + 1) ++ T ++ o.newline level) ++ [125] := by simp
    rw [e]
    have := Text.obj (hE _ _ (ws_newline ho (level + 1)) (ws_newline ho level))
    rwa [lastWins_nodup hnd] at this
theorem items_text {o : Opts} (hP : P.Ok) (ho : o.Ok) (level : Nat) : ∀ (xs : List (Json P.F)), OkAll (StrOk o) xs → xs ≠ [] →
    ∀ buf, ∃ T, items P o level buf xs = buf ++ T ∧ ∀ w w', Ws w → Ws w' → Elements hex4 P strict (w ++ T ++ w') (canonAll o xs)
  | [], _, h => absurd rfl h
  | [x], hx, _ => by
    intro buf
    rw [OkAll] at hx
    refine ⟨_, by rw [items, List.append_assoc], fun w w' hw hw' => ?_⟩
    rw [items, List.append_nil, canonAll, canonAll]
    exact .one hw (enc_text hP ho level x hx.1) hw'
  | x :: y :: ys, hx, _ => by
    intro buf
    rw [OkAll] at hx
    obtain ⟨T, hT, hE⟩ := items_text hP ho level (y :: ys) hx.2 (by simp) (o.itemSep ++ o.newline level)
    refine ⟨_, by rw [items, List.append_assoc], fun w w' hw hw' => ?_⟩
    rw [hT, canonAll]
    obtain ⟨a1, a2, ha1, ha2, his⟩ := ho.itemSep
    rw [his]
    have e : w ++ (enc P o level x ++ (a1 ++ 44 :: a2 ++ o.newline level ++ T)) ++ w' = w ++ enc P o level x ++ a1 ++ 44 :: (a2 ++ o.newline level ++ T ++ w') := by simp
    rw [e]
    exact .cons hw (enc_text hP ho level x hx.1) ha1 (hE _ _ (ws_append ha2 (ws_newline ho level)) hw')
theorem values_text {o : Opts} (hP : P.Ok) (ho : o.Ok) (level : Nat) : ∀ (kvs : List (Str × Json P.F)), OkItems (StrOk o) kvs →
    Texts P strict o (values P o level kvs) (canonItems o kvs)
  | [], _ => by rw [values, canonItems]; exact .nil
  | (k, v) :: kvs, h => by
    rw [OkItems] at h
    rw [values, canonItems]
    exact .cons h.1 (enc_text hP ho level v h.2.1) (values_text hP ho level kvs h.2.2)
end

/-! ## Sorted keys -/

theorem strLt_irrefl : ∀ (a : Str), strLt a a = false
  | [] => rfl
  | x :: a => by simp [strLt, strLt_irrefl a]

theorem strLt_total : ∀ (a b : Str), strLt a b = false → a ≠ b → strLt b a = true
  | [], [], _, h => absurd rfl h
  | [], _ :: _, h, _ => by simp [strLt] at h
  | _ :: _, [], _, _ => rfl
  | x :: a, y :: b, h, hne => by
    simp only [strLt, Bool.or_eq_false_iff, decide_eq_false_iff_not, Bool.and_eq_false_iff, beq_eq_false_iff_ne] at h
    simp only [strLt, Bool.or_eq_true, decide_eq_true_eq, Bool.and_eq_true, beq_iff_eq]
    by_cases hxy : x = y
    · subst hxy
      refine .inr ⟨rfl, strLt_total a b ?_ (fun e => hne (by rw [e]))⟩
      rcases h.2 with h2 | h2
      · exact absurd rfl h2
      · exact h2
    · exact .inl (by omega)

theorem strLt_trans : ∀ (a b c : Str), strLt a b = true → strLt b c = true → strLt a c = true
  | _, [], _, h, _ => by simp [strLt] at h
  | _, _ :: _, [], _, h => by simp [strLt] at h
  | [], _ :: _, _ :: _, _, _ => rfl
  | x :: a, y :: b, z :: c, h1, h2 => by
    simp only [strLt, Bool.or_eq_true, decide_eq_true_eq, Bool.and_eq_true, beq_iff_eq] at h1 h2 ⊢
    rcases h1 with h1 | ⟨rfl, h1⟩ <;> rcases h2 with h2 | ⟨rfl, h2⟩
    · exact .inl (by omega)
    · exact .inl h1
    · exact .inl h2
    · exact .inr ⟨rfl, strLt_trans a b c h1 h2⟩

theorem insertKey_sorted {α : Type} {x : Str × α} : ∀ {ys : List (Str × α)}, ys.Pairwise (fun a b => strLt a.1 b.1 = true) → x.1 ∉ ys.map Prod.fst →
    (insertKey strLt x ys).Pairwise (fun a b => strLt a.1 b.1 = true) := by
  intro ys
  induction ys with
  | nil => intro _ _; simp [insertKey]
  | cons y ys ih =>
    intro hp hx
    simp only [List.map_cons, List.mem_cons, not_or] at hx
    rw [List.pairwise_cons] at hp
    rw [insertKey]
    split
    · rename_i hlt
      rw [List.pairwise_cons, List.pairwise_cons]
      refine ⟨?_, hp⟩
      intro z hz
      rcases List.mem_cons.1 hz with rfl | hz
      · exact hlt
      · exact strLt_trans _ _ _ hlt (hp.1 z hz)
    · rename_i hlt
      rw [List.pairwise_cons]
      refine ⟨?_, ih hp.2 hx.2⟩
      intro z hz
      rcases List.mem_cons.1 ((insertKey_perm x ys).mem_iff.1 hz) with rfl | hz
      · exact strLt_total _ _ (by simpa using hlt) hx.1
      · exact hp.1 z hz

theorem sortedItems_sorted {α : Type} : ∀ {xs : List (Str × α)}, (xs.map Prod.fst).Nodup → (sortedItems xs).Pairwise (fun a b => strLt a.1 b.1 = true) := by
  intro xs
  induction xs with
  | nil => intro _; exact .nil
  | cons x xs ih =>
    intro h
    rw [List.map_cons, List.nodup_cons] at h
    refine insertKey_sorted (ih h.2) ?_
    show x.1 ∉ (sortedItems xs).map Prod.fst
    rw [((sorted_perm xs).map Prod.fst).mem_iff]
    exact h.1

end Verif.Json
