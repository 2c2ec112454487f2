import Verif.DictGets.Model
/-
When `dict.get` does what Python's does.
-/
namespace Verif.DictGets

variable {V : Type} (eq : Key → Key → Bool)

theorem search_cases (key : Key) (default : V) : ∀ items : List (Key × V),
    (∃ k, (k, search eq key default items) ∈ items ∧ (k.id = key.id ∨ eq k key = true)) ∨
    (search eq key default items = default ∧ ∀ k v, (k, v) ∈ items → ¬ (k.id = key.id ∨ eq k key = true))
  | [] => .inr ⟨rfl, fun _ _ h => by cases h⟩
  | (k, v) :: rest => by
    by_cases hk : k.id = key.id ∨ eq k key = true
    · refine .inl ⟨k, ?_, hk⟩
      simp [search, hk]
    · simp only [search, if_neg hk]
      rcases search_cases key default rest with ⟨k', hm, hf⟩ | ⟨he, hn⟩
      · exact .inl ⟨k', List.mem_cons_of_mem _ hm, hf⟩
      · refine .inr ⟨he, fun k' v' hm => ?_⟩
        rcases List.mem_cons.mp hm with h | h
        · injection h with h1 h2
          subst h1
          exact hk
        · exact hn k' v' h

/-- `dict.get`, with the default by position or left out, does what Python's does, for all dictionaries whose `items` lists the entries, and all keys that have the same hash as the keys of the dictionary they equal or are. -/
theorem get_partial (entries : List (Key × V)) (key : Key) (default : V) (native : Result V)
    (hnative : PyGet eq entries key default false native)
    (hhash : ∀ k v, (k, v) ∈ entries → k.id = key.id ∨ eq k key = true → k.hash = key.hash) :
    PyGet eq entries key default false (get eq entries key default false native) := by
  unfold get simpleGet
  split
  · exact hnative
  · split
    · exact .unhashable (by assumption)
    · rename_i hh
      rcases search_cases eq key default entries with ⟨k, hm, hf⟩ | ⟨he, hn⟩
      · exact .found k _ hh hm ⟨hhash k _ hm hf, hf⟩
      · rw [he]
        exact .missing hh fun k v hm hf => hn k v hm hf.2

/-- And there is only one answer if no two entries are found for the key. -/
theorem get_unique_partial (entries : List (Key × V)) (key : Key) (default : V) (native r : Result V)
    (hnative : PyGet eq entries key default false native)
    (hhash : ∀ k v, (k, v) ∈ entries → k.id = key.id ∨ eq k key = true → k.hash = key.hash)
    (hone : ∀ k v k' v', (k, v) ∈ entries → (k', v') ∈ entries → Found eq k key → Found eq k' key → v = v')
    (hr : PyGet eq entries key default false r) : get eq entries key default false native = r := by
  have hg := get_partial eq entries key default native hnative hhash
  generalize get eq entries key default false native = s at hg
  cases hg with
  | unhashable h =>
    cases hr with
    | unhashable _ => rfl
    | found k v h' _ _ => exact absurd h h'
    | missing h' _ => exact absurd h h'
  | found k v h hm hf =>
    cases hr with
    | unhashable h' => exact absurd h' h
    | found k' v' _ hm' hf' => rw [hone k v k' v' hm hm' hf hf']
    | missing _ hn => exact absurd hf (hn k v hm)
  | missing h hn =>
    cases hr with
    | unhashable h' => exact absurd h' h
    | found k' v' _ hm' hf' => exact absurd hf' (hn k' v' hm')
    | missing _ _ => rfl

/-- Objects are equal if their hashes are. -/
def sameHash (a b : Key) : Bool := a.hash == b.hash

/-- A dictionary with two tuples. -/
def sample : List (Key × Nat) := [(⟨1, some 10, false⟩, 5), (⟨2, some 20, false⟩, 6)]

example : get sameHash sample ⟨3, some 20, false⟩ 0 false .typeError = .value 6 ∧
    get sameHash sample ⟨3, some 30, false⟩ 0 false .typeError = .value 0 ∧
    get sameHash sample ⟨3, none, false⟩ 0 false (.value 9) = .typeError := by decide +kernel

example : ∀ k v, (k, v) ∈ sample → k.id = 3 ∨ sameHash k ⟨3, some 20, false⟩ = true → k.hash = some 20 := by
  intro k v hm
  simp only [sample, List.mem_cons, List.not_mem_nil, or_false, Prod.mk.injEq] at hm
  rcases hm with ⟨rfl, _⟩ | ⟨rfl, _⟩ <;> simp [sameHash]

/-- Disagreement: the default is accepted as a keyword; Python raises `TypeError`. -/
theorem keyword_taken (entries : List (Key × V)) (key : Key) (default : V) (native : Result V) (hp : key.plain = false) (hh : key.hash ≠ none) :
    (∃ v, get eq entries key default true native = .value v) ∧ ∀ r, PyGet eq entries key default true r → r = .typeError := by
  refine ⟨⟨search eq key default entries, ?_⟩, fun r hr => by cases hr; rfl⟩
  simp [get, simpleGet, hp, hh]

/-- Disagreement: for keys other than numbers and text, subclasses of dictionaries that override `items` lose entries: with one that lists nothing, the default is returned for all keys. -/
theorem items_overridden (key : Key) (default : V) (native : Result V) (hp : key.plain = false) (hh : key.hash ≠ none) :
    get eq [] key default false native = .value default := by
  simp [get, simpleGet, search, hp, hh]

example : get sameHash [] ⟨1, some 10, false⟩ 0 false (.value 5) = .value 0 ∧ PyGet sameHash sample ⟨1, some 10, false⟩ 0 false (.value 5) :=
  ⟨by decide +kernel, .found ⟨1, some 10, false⟩ 5 (by decide) (by simp [sample]) ⟨rfl, .inl rfl⟩⟩

/-- Disagreement: objects that are equal but have different hashes are found; Python does not find them. -/
theorem hashes_ignored (key k : Key) (v default : V) (native : Result V) (hp : key.plain = false) (hh : key.hash ≠ none) (he : eq k key = true)
    (hd : k.hash ≠ key.hash) :
    get eq [(k, v)] key default false native = .value v ∧ ∀ r, PyGet eq [(k, v)] key default false r → r = .value default := by
  refine ⟨by simp [get, simpleGet, search, hp, hh, he], fun r hr => ?_⟩
  cases hr with
  | unhashable h => exact absurd h hh
  | found k' v' _ hm hf =>
    simp only [List.mem_cons, List.not_mem_nil, or_false, Prod.mk.injEq] at hm
    rw [hm.1] at hf
    exact absurd hf.1 hd
  | missing _ _ => rfl

example : get (fun _ _ => true) [(⟨1, some 10, false⟩, 5)] ⟨2, some 20, false⟩ 0 false (.value 0) = .value 5 := by decide +kernel

end Verif.DictGets
