import Verif.Pack.Lemmas
/-
The properties proved about struct packing.
-/
namespace Verif.Pack

open Verif.Ints

/-- **C32.** Parsing accepts exactly the format grammar (after the surrounding whitespace is stripped), and lists its
items. -/
theorem parse_exact (fmt : List Char) (p : Char) (items : List (Char × Nat)) :
    parseFormat fmt = some (p, items) ↔ strip fmt ≠ [] ∧ Format (strip fmt) p items := by
  unfold parseFormat
  cases hs : strip fmt with
  | nil => simp
  | cons c rest =>
    dsimp only
    simp only [ne_eq, reduceCtorEq, not_false_eq_true, true_and]
    by_cases hc : c ∈ ['@', '=', '<', '>', '!']
    · rw [if_pos hc, Option.map_eq_some_iff]
      constructor
      · rintro ⟨l, hl, he⟩
        obtain ⟨rfl, rfl⟩ := Prod.mk.inj he
        exact .explicit hc ((parseItems_iff _ _).mp hl)
      · intro h
        cases h with
        | explicit _ hi => exact ⟨_, (parseItems_iff _ _).mpr hi, rfl⟩
        | default hno _ => exact absurd hc (hno c (by simp))
    · rw [if_neg hc, Option.map_eq_some_iff]
      constructor
      · rintro ⟨l, hl, he⟩
        obtain ⟨rfl, rfl⟩ := Prod.mk.inj he
        exact .default (by intro c' hc'; simp at hc'; rw [← hc']; exact hc) ((parseItems_iff _ _).mp hl)
      · intro h
        cases h with
        | explicit hp _ => exact absurd hp hc
        | default _ hi => exact ⟨_, (parseItems_iff _ _).mpr hi, rfl⟩

example : parseFormat "<2h x3s".toList = some ('<', [('h', 1), ('h', 1), ('x', 1), ('s', 3)]) ∧
    parseFormat "h2".toList = none := by decide +kernel

/-- The codes of these items are integers, `c` and padding. -/
def Simple (items : List (Char × Nat)) : Prop := ∀ it ∈ items, it.2 = 1 ∧ (it.1 = 'x' ∨ it.1 = 'c' ∨ (intCode it.1).isSome = true)

/-- `c` is given a byte string (the documented type). -/
def GoodArg : Char × Nat → Val → Prop
  | (c, _), .bytes _ => c = 'c'
  | (c, _), .int _ => c ≠ 'c'
  | _, .other _ => False

theorem simple_total (real : Real) {items : List (Char × Nat)} (h : Simple items) : ∃ n, totalSize real items = some n := by
  induction items with
  | nil => exact ⟨0, rfl⟩
  | cons it items ih =>
    obtain ⟨m, hm⟩ := ih (fun x hx => h x (List.mem_cons_of_mem _ hx))
    obtain ⟨c, k⟩ := it
    obtain ⟨h1, h2⟩ := h (c, k) (List.mem_cons_self ..)
    dsimp only at h1 h2
    subst h1
    have : ∃ n, itemSize real c 1 = some n := by
      rcases h2 with rfl | rfl | h2
      · exact ⟨1, rfl⟩
      · exact ⟨1, rfl⟩
      · obtain ⟨⟨n, s⟩, hn⟩ := Option.isSome_iff_exists.mp h2
        exact ⟨n, (intCode_facts hn).2.2.1 real⟩
    obtain ⟨n, hn⟩ := this
    exact ⟨n + m, by simp [totalSize, hn, hm]⟩

/-- The layout fixes the number of arguments. -/
theorem layout_count {big : Bool} {items : List (Char × Nat)} {vs : List Val} {bs : List Int} (h : Layout big items vs bs) :
    vs.length = (items.filter fun it => it.1 ≠ 'x').length := by
  induction h with
  | nil => rfl
  | pad _ ih => simpa using ih
  | char _ ih => simpa using ih
  | int hc _ _ _ _ _ ih =>
    rw [List.filter_cons_of_pos (by simpa using (intCode_facts hc).2.2.2.1), List.length_cons, List.length_cons, ih]

theorem packLoop_layout (real : Real) (p : Char) : ∀ (items : List (Char × Nat)) (vs : List Val) (bs : List Int),
    Simple items → vs.length = (items.filter fun it => it.1 ≠ 'x').length →
    List.Forall₂ GoodArg (items.filter fun it => it.1 ≠ 'x') vs →
    (packLoop real p items vs = .ok bs ↔ Layout (bigOf p) items vs bs) := by
  intro items
  induction items with
  | nil =>
    intro vs bs _ hlen _
    have : vs = [] := List.length_eq_zero_iff.mp hlen
    subst this
    simp only [packLoop, Except.ok.injEq]
    constructor
    · rintro rfl; exact .nil
    · intro h; cases h; rfl
  | cons it items ih =>
    intro vs bs hs hlen hgood
    obtain ⟨c, k⟩ := it
    obtain ⟨h1, h2⟩ := hs (c, k) (List.mem_cons_self ..)
    dsimp only at h1 h2
    subst h1
    have hs' : Simple items := fun x hx => hs x (List.mem_cons_of_mem _ hx)
    by_cases hx : c = 'x'
    · subst hx
      rw [List.filter_cons_of_neg (by simp)] at hlen hgood
      unfold packLoop
      rw [if_pos rfl]
      constructor
      · intro h
        cases hr : packLoop real p items vs with
        | error e => rw [hr] at h; cases h
        | ok b =>
          rw [hr] at h
          cases h
          exact .pad ((ih vs b hs' hlen hgood).mp hr)
      · intro h
        cases h with
        | pad h' => rw [(ih vs _ hs' hlen hgood).mpr h']; rfl
        | int hc => exact absurd rfl (intCode_facts hc).2.2.2.1
    · rw [List.filter_cons_of_pos (by simpa using hx)] at hlen hgood
      cases vs with
      | nil => simp at hlen
      | cons v vs =>
        rw [List.length_cons, List.length_cons] at hlen
        have hlen' : vs.length = (items.filter fun it => it.1 ≠ 'x').length := by omega
        rw [List.forall₂_cons] at hgood
        obtain ⟨hg, hgood⟩ := hgood
        unfold packLoop
        rw [if_neg hx]
        dsimp only
        by_cases hcc : c = 'c'
        · subst hcc
          cases v with
          | other i => exact absurd hg id
          | int v => exact absurd rfl hg
          | bytes b =>
            have hp : packItem real p 'c' 1 (.bytes b) = if b.length ≠ 1 then .error .structError else .ok b := by
              unfold packItem; rw [if_pos rfl]
            rw [hp]
            constructor
            · intro h
              split at h
              · cases h
              · rename_i hl
                obtain ⟨x, rfl⟩ := List.length_eq_one_iff.mp (not_not.mp hl)
                cases hr : packLoop real p items vs with
                | error e => rw [hr] at h; cases h
                | ok b =>
                  rw [hr] at h
                  cases h
                  exact .char ((ih vs b hs' hlen' hgood).mp hr)
            · intro h
              cases h with
              | char h' =>
                rw [if_neg (by simp)]
                show (packLoop real p items vs).map _ = _
                rw [(ih vs _ hs' hlen' hgood).mpr h']
                rfl
        · have hint : (intCode c).isSome = true := by
            rcases h2 with h2 | h2 | h2
            · exact absurd h2 hx
            · exact absurd h2 hcc
            · exact h2
          obtain ⟨⟨n, s⟩, hn⟩ := Option.isSome_iff_exists.mp hint
          have hn0 := (intCode_facts hn).2.2.2.2.2.2
          cases v with
          | other i => exact absurd hg id
          | bytes b => exact absurd hg hcc
          | int v =>
            rw [packItem_int hn v]
            constructor
            · intro h
              cases ht : toBytes v n (byteorder p) s with
              | error e => rw [ht] at h; cases h
              | ok fb =>
                rw [ht] at h
                obtain ⟨g1, g2, g3, g4⟩ := (toBytes_field hn0 p fb).mp ht
                cases hr : packLoop real p items vs with
                | error e => rw [hr] at h; cases h
                | ok b =>
                  rw [hr] at h
                  cases h
                  exact .int hn g1 g2 g3 g4 ((ih vs b hs' hlen' hgood).mp hr)
            · intro h
              cases h with
              | pad _ => exact absurd rfl hx
              | int hc g1 g2 g3 g4 h' =>
                rw [hn] at hc
                cases hc
                rw [(toBytes_field hn0 p _).mpr ⟨g1, g2, g3, g4⟩]
                show (packLoop real p items vs).map _ = _
                rw [(ih vs _ hs' hlen' hgood).mpr h']
                rfl

/-- **C32.** With an explicit byte order, packing integers, single bytes and padding gives exactly the bytes of the
standard layout, and fails exactly if there is no such layout: a wrong number of arguments, or a number out of range.
(`machineBig` is the byte order of the machine, which matters only for "=".) -/
theorem pack_layout_partial (real : Real) {p : Char} {machineBig : Bool}
    (hp : p ∈ ['<', '>', '!'] ∨ (p = '=' ∧ machineBig = true)) {items : List (Char × Nat)} (hs : Simple items)
    {vs : List Val} (hg : vs.length = (items.filter fun it => it.1 ≠ 'x').length →
      List.Forall₂ GoodArg (items.filter fun it => it.1 ≠ 'x') vs) (bs : List Int) :
    pack real p items vs = .ok bs ↔
      Layout (if p = '<' then false else if p = '=' then machineBig else true) items vs bs := by
  have hbig : (if p = '<' then false else if p = '=' then machineBig else true) = bigOf p := by
    unfold bigOf
    rcases hp with h | ⟨rfl, rfl⟩
    · simp only [List.mem_cons, List.not_mem_nil, or_false] at h
      rcases h with rfl | rfl | rfl <;> decide +revert
    · decide
  rw [hbig]
  obtain ⟨n, hn⟩ := simple_total real hs
  unfold pack
  rw [if_neg (by rw [hn]; simp)]
  by_cases hlen : vs.length = (items.filter fun it => it.1 ≠ 'x').length
  · rw [if_neg (not_not.mpr hlen)]
    exact packLoop_layout real p items vs bs hs hlen (hg hlen)
  · rw [if_pos hlen]
    constructor
    · intro h; cases h
    · intro h; exact absurd (layout_count h) hlen

/-- **C32, disagreement.** On a little-endian machine, "=H" and "H" must give the low byte first; CrossHair packs the
high byte first. -/
theorem native_order_wrong (real : Real) : pack real '=' [('H', 1)] [.int 1] = .ok [0, 1] ∧
    pack real '@' [('H', 1)] [.int 1] = .ok [0, 1] ∧ ¬ Layout false [('H', 1)] [.int 1] [0, 1] ∧
    Layout false [('H', 1)] [.int 1] [1, 0] := by
  refine ⟨by rfl, by rfl, ?_, ?_⟩
  · intro h
    generalize hl : ([0, 1] : List Int) = l at h
    cases h with
    | int hc hf hlen hb hv h' =>
      cases h'
      rw [List.append_nil] at hl
      subst hl
      cases hc
      revert hv
      decide
  · have := Layout.int (big := false) (c := 'H') (v := 1) (field := [1, 0]) (n := 2) (signed := false) (by decide)
      (by unfold Fits; decide) (by decide) (by intro b hb; simp only [List.mem_cons, List.not_mem_nil, or_false] at hb; rcases hb with rfl | rfl <;> decide) (by decide) Layout.nil
    exact this

/-- The size of the items. -/
theorem pack_size {real : Real} {p : Char} (hreal : ∀ c n v bs, real.pack c n v = some bs → itemSize real c n = some bs.length) :
    ∀ (items : List (Char × Nat)) (vs : List Val) (bs : List Int), (∀ it ∈ items, it.1 ∉ ['s', 'p'] → it.2 = 1) →
    packLoop real p items vs = .ok bs → totalSize real items = some bs.length := by
  intro items
  induction items with
  | nil => intro vs bs _ h; cases h; rfl
  | cons it items ih =>
    intro vs bs hone h
    obtain ⟨c, k⟩ := it
    have hone' := fun x hx => hone x (List.mem_cons_of_mem (c, k) hx)
    have hk := hone (c, k) (List.mem_cons_self ..)
    dsimp only at hk
    unfold packLoop at h
    split at h
    · rename_i hc
      subst hc
      cases hr : packLoop real p items vs with
      | error e => rw [hr] at h; cases h
      | ok b =>
        rw [hr] at h
        cases h
        simp [totalSize, ih vs b hone' hr, itemSize, standardSize]
    · cases vs with
      | nil => cases h
      | cons v vs =>
        dsimp only at h
        cases hi : packItem real p c k v with
        | error e => rw [hi] at h; cases h
        | ok fb =>
          rw [hi] at h
          replace h : (packLoop real p items vs).map (fb ++ ·) = .ok bs := h
          cases hr : packLoop real p items vs with
          | error e => rw [hr] at h; cases h
          | ok b =>
            rw [hr] at h
            cases h
            have hsize : itemSize real c k = some fb.length := by
              unfold packItem at hi
              split at hi
              · rename_i hc
                subst hc
                have := hk (by decide)
                subst this
                split at hi
                · split at hi
                  · cases hi
                  · rename_i hl
                    cases hi
                    rw [not_not.mp hl]
                    rfl
                · split at hi
                  · cases hi; rfl
                  · cases hi
                · cases hi
              · split at hi
                · rename_i hc
                  subst hc
                  have := hk (by decide)
                  subst this
                  split at hi
                  · rename_i v
                    cases ht : toBytes v 1 (byteorder p) false with
                    | error e => rw [ht] at hi; cases hi
                    | ok b' =>
                      rw [ht] at hi
                      cases hi
                      rw [(to_bytes_value ht).1]
                      rfl
                  · cases hi
                · split at hi
                  · split at hi
                    · rename_i size v hsz
                      cases ht : toBytes v size (byteorder p) (isSigned c) with
                      | error e => rw [ht] at hi; cases hi
                      | ok b' =>
                        rw [ht] at hi
                        cases hi
                        rw [(to_bytes_value ht).1, hsz]
                    · cases hi
                  · cases ht : real.pack c k v with
                    | none => rw [ht] at hi; cases hi
                    | some b' =>
                      rw [ht] at hi
                      cases hi
                      exact hreal c k v _ ht
            simp [totalSize, hsize, ih vs b hone' hr]

/-- The value a field gives back. -/
def restored (real : Real) (it : Char × Nat) (v : Val) : Prop :=
  if it.1 = 'c' then ∃ b, v = .bytes b
  else if it.1 = '?' then v = .int 0 ∨ v = .int 1
  else isIntFormat it.1 = true ∨ ∀ bs, real.pack it.1 it.2 v = some bs → real.unpack it.1 it.2 bs = some v

theorem unpackLoop_pack {real : Real} {p : Char}
    (hreal : ∀ c n v bs, real.pack c n v = some bs → itemSize real c n = some bs.length) :
    ∀ (items : List (Char × Nat)) (vs : List Val) (pre bs post : List Int),
    (∀ it ∈ items, it.1 ∉ ['s', 'p'] → it.2 = 1) → (∀ it ∈ items, (itemSize real it.1 it.2).isSome = true) →
    vs.length = (items.filter fun it => it.1 ≠ 'x').length →
    List.Forall₂ (restored real) (items.filter fun it => it.1 ≠ 'x') vs →
    packLoop real p items vs = .ok bs → unpackLoop real p items pre.length (pre ++ bs ++ post) = some vs := by
  intro items
  induction items with
  | nil =>
    intro vs pre bs post _ _ hlen _ _
    have : vs = [] := List.length_eq_zero_iff.mp hlen
    rw [this]
    rfl
  | cons it items ih =>
    intro vs pre bs post hone hsome hlen hres h
    obtain ⟨c, k⟩ := it
    have hone' := fun x hx => hone x (List.mem_cons_of_mem (c, k) hx)
    have hsome' := fun x hx => hsome x (List.mem_cons_of_mem (c, k) hx)
    have hk := hone (c, k) (List.mem_cons_self ..)
    dsimp only at hk
    have hstep : ∀ (fb b : List Int) (vs' : List Val), fb ++ b = bs →
        vs'.length = (items.filter fun it => it.1 ≠ 'x').length →
        List.Forall₂ (restored real) (items.filter fun it => it.1 ≠ 'x') vs' →
        packLoop real p items vs' = .ok b →
        unpackLoop real p items (pre.length + fb.length) (pre ++ bs ++ post) = some vs' ∧
        ((pre ++ bs ++ post).drop pre.length).take fb.length = fb := by
      intro fb b vs' hb hl hr hp
      have := ih vs' (pre ++ fb) b post hone' hsome' hl hr hp
      rw [List.length_append] at this
      subst hb
      constructor
      · simpa [List.append_assoc] using this
      · rw [List.append_assoc, List.drop_left, List.append_assoc, List.take_left]
    unfold packLoop at h
    split at h
    · rename_i hc
      subst hc
      rw [List.filter_cons_of_neg (by simp)] at hlen hres
      have := hk (by decide)
      subst this
      cases hr : packLoop real p items vs with
      | error e => rw [hr] at h; cases h
      | ok b =>
        rw [hr] at h
        cases h
        obtain ⟨h1, _⟩ := hstep (List.replicate 1 0) b vs rfl hlen hres hr
        unfold unpackLoop
        rw [show itemSize real 'x' 1 = some 1 from rfl]
        rw [Option.bind_some]
        dsimp only
        rw [if_pos rfl]
        exact h1
    · rename_i hx
      rw [List.filter_cons_of_pos (by simpa using hx)] at hlen hres
      cases vs with
      | nil => cases h
      | cons v vs =>
        dsimp only at h
        rw [List.length_cons, List.length_cons] at hlen
        rw [List.forall₂_cons] at hres
        obtain ⟨hv, hres⟩ := hres
        cases hi : packItem real p c k v with
        | error e => rw [hi] at h; cases h
        | ok fb =>
          rw [hi] at h
          replace h : (packLoop real p items vs).map (fb ++ ·) = .ok bs := h
          cases hr : packLoop real p items vs with
          | error e => rw [hr] at h; cases h
          | ok b =>
            rw [hr] at h
            replace h : fb ++ b = bs := by cases h; rfl
            obtain ⟨h1, h2⟩ := hstep fb b vs h (by omega) hres hr
            unfold restored at hv
            dsimp only at hv
            unfold packItem at hi
            unfold unpackLoop
            by_cases hc : c = 'c'
            · subst hc
              rw [if_pos rfl] at hi hv
              have := hk (by decide)
              subst this
              obtain ⟨bb, rfl⟩ := hv
              dsimp only at hi
              split at hi
              · cases hi
              · rename_i hl
                cases hi
                rw [not_not.mp hl] at h1 h2
                rw [show itemSize real 'c' 1 = some 1 from rfl]
                rw [Option.bind_some]
                dsimp only
                rw [if_neg (by decide), if_pos rfl, h1, h2]
                rfl
            · rw [if_neg hc] at hi hv
              by_cases hq : c = '?'
              · subst hq
                rw [if_pos rfl] at hi hv
                have := hk (by decide)
                subst this
                rw [show itemSize real '?' 1 = some 1 from rfl]
                rw [Option.bind_some]
                dsimp only
                rw [if_neg (by decide), if_neg (by decide), if_pos rfl]
                have hbo := byteorder_cases p
                rcases hv with rfl | rfl
                · have ht : toBytes 0 1 (byteorder p) false = .ok [0] := by rcases hbo with h | h <;> rw [h] <;> rfl
                  dsimp only at hi
                  rw [ht] at hi
                  cases hi
                  rw [show ([0] : List Int).length = 1 from rfl] at h1 h2
                  rw [h1, h2]
                  rfl
                · have ht : toBytes 1 1 (byteorder p) false = .ok [1] := by rcases hbo with h | h <;> rw [h] <;> rfl
                  dsimp only at hi
                  rw [ht] at hi
                  cases hi
                  rw [show ([1] : List Int).length = 1 from rfl] at h1 h2
                  rw [h1, h2]
                  rfl
              · rw [if_neg hq] at hi hv
                by_cases hint : isIntFormat c = true
                · rw [if_pos hint] at hi
                  split at hi
                  · rename_i size v' hsz
                    cases ht : toBytes v' size (byteorder p) (isSigned c) with
                    | error e => rw [ht] at hi; cases hi
                    | ok b' =>
                      rw [ht] at hi
                      cases hi
                      have hl := (to_bytes_value ht).1
                      rw [hsz]
                      rw [Option.bind_some]
                      dsimp only
                      rw [if_neg hx, if_neg hc, if_neg hq, if_pos hint]
                      rw [hl] at h1 h2
                      rw [h2, h1, bytes_roundtrip (byteorder_cases p) ht]
                      rfl
                  · cases hi
                · rw [if_neg hint] at hi
                  cases ht : real.pack c k v with
                  | none => rw [ht] at hi; cases hi
                  | some b' =>
                    rw [ht] at hi
                    cases hi
                    have hl := hreal c k v _ ht
                    rw [hl]
                    rw [Option.bind_some]
                    dsimp only
                    rw [if_neg hx, if_neg hc, if_neg hq, if_neg hint, h1, h2]
                    rcases hv with hv | hv
                    · exact absurd hv hint
                    · rw [hv _ ht]
                      rfl

/-- **C32.** Unpacking what was packed gives back the values, for every byte order and every list of items.  Bools are
given as 0 or 1 and single characters as byte strings; for floats, strings and pointers the real module's own round trip
is assumed. -/
theorem pack_roundtrip {real : Real} {p : Char}
    (hreal : ∀ c n v bs, real.pack c n v = some bs → itemSize real c n = some bs.length)
    {items : List (Char × Nat)} {vs : List Val} {bs : List Int} (hone : ∀ it ∈ items, it.1 ∉ ['s', 'p'] → it.2 = 1)
    (hres : vs.length = (items.filter fun it => it.1 ≠ 'x').length →
      List.Forall₂ (restored real) (items.filter fun it => it.1 ≠ 'x') vs)
    (h : pack real p items vs = .ok bs) : unpack real p items bs = some vs := by
  unfold pack at h
  split at h
  · cases h
  · rename_i hsome
    split at h
    · cases h
    · rename_i hlen
      have hlen := not_not.mp hlen
      have hsz := pack_size hreal items vs bs hone h
      unfold unpack
      rw [hsz]
      show (if bs.length < bs.length then none else unpackLoop real p items 0 bs) = some vs
      rw [if_neg (by omega)]
      have hall : ∀ its : List (Char × Nat), (totalSize real its).isSome = true → ∀ it ∈ its, (itemSize real it.1 it.2).isSome = true := by
        intro its
        induction its with
        | nil => intro _ it hit; simp at hit
        | cons a its ih =>
          intro ht it hit
          obtain ⟨ac, ak⟩ := a
          unfold totalSize at ht
          cases ha : itemSize real ac ak with
          | none => rw [ha] at ht; simp at ht
          | some n =>
            rw [ha] at ht
            rcases List.mem_cons.mp hit with rfl | hit
            · dsimp only; rw [ha]; rfl
            · exact ih (by simpa using ht) it hit
      have := unpackLoop_pack hreal items vs [] bs [] hone (hall items (by rw [hsz]; rfl)) hlen (hres hlen) h
      simpa using this

/-- A real module for examples, knowing no other codes. -/
def noReal : Real := ⟨fun _ => none, fun _ _ _ => none, fun _ _ _ => none⟩

example : ∃ bs, pack noReal '<' [('h', 1), ('x', 1), ('c', 1), ('?', 1)] [.int (-2), .bytes [65], .int 1] = .ok bs ∧
    unpack noReal '<' [('h', 1), ('x', 1), ('c', 1), ('?', 1)] bs = some [.int (-2), .bytes [65], .int 1] :=
  ⟨[254, 255, 0, 65, 1], by decide +kernel, by decide +kernel⟩

/-- **C32, disagreement.** `unpack` must refuse a buffer longer than the format; CrossHair ignores the rest. -/
theorem unpack_accepts_long_buffer : unpack noReal '<' [('H', 1)] [1, 0, 7, 7] = some [.int 1] := by decide +kernel

/-- **C32, disagreement.** `pack('?', v)` must pack the truth of `v`; CrossHair packs the number, and raises
`OverflowError` from 256 on.  `pack('c', 65)` must be refused; CrossHair packs the byte. -/
theorem bool_and_char_arguments : pack noReal '<' [('?', 1)] [.int 2] = .ok [2] ∧
    pack noReal '<' [('?', 1)] [.int 256] = .error .overflow ∧ pack noReal '<' [('c', 1)] [.int 65] = .ok [65] := by decide +kernel

/-- **C32, disagreement.** The empty format is valid and packs nothing; CrossHair raises. -/
theorem empty_format_refused : parseFormat [] = none := by decide

/-- **C32.** `pack_into` replaces the bytes at the offset and nothing else, when they lie inside the buffer and the
offset is not negative. -/
theorem packInto_partial {real : Real} {p : Char} {items : List (Char × Nat)} {vs : List Val} {packed buffer : List Int}
    (h : pack real p items vs = .ok packed) {offset : Nat} (hin : offset + packed.length ≤ buffer.length) :
    ∃ out, packInto real p items buffer offset vs = .ok out ∧ out.length = buffer.length ∧
      ∀ i : Nat, out[i]? = if offset ≤ i ∧ i < offset + packed.length then packed[i - offset]? else buffer[i]? := by
  unfold packInto
  rw [h]
  refine ⟨assignSlice buffer offset (offset + packed.length) packed, rfl, ?_, ?_⟩
  · unfold assignSlice
    dsimp only
    rw [if_neg (by omega), if_neg (by omega)]
    simp only [List.length_append, List.length_take, List.length_drop]
    omega
  · intro i
    unfold assignSlice
    dsimp only
    rw [if_neg (by omega), if_neg (by omega)]
    rw [show min (offset : Int).toNat buffer.length = offset by omega,
      show min ((offset : Int) + packed.length).toNat buffer.length = offset + packed.length by omega,
      show max offset (offset + packed.length) = offset + packed.length by omega]
    by_cases h1 : i < offset
    · rw [if_neg (by omega), List.append_assoc, List.getElem?_append_left (by rw [List.length_take]; omega),
        List.getElem?_take_of_lt h1]
    · by_cases h2 : i < offset + packed.length
      · rw [if_pos ⟨by omega, h2⟩, List.append_assoc, List.getElem?_append_right (by rw [List.length_take]; omega),
          List.length_take, show min offset buffer.length = offset by omega, List.getElem?_append_left (by omega)]
      · rw [if_neg (by omega), List.getElem?_append_right (by simp; omega), List.getElem?_drop]
        congr 1
        simp only [List.length_append, List.length_take]
        omega

/-- **C32, disagreement.** Packing past the end of a buffer must be refused, and a negative offset counts from the end;
CrossHair lengthens the buffer in both cases. -/
theorem packInto_grows : packInto noReal '<' [('H', 1)] [9] 0 [.int 1] = .ok [1, 0] ∧
    packInto noReal '<' [('H', 1)] [7, 8, 9] (-2) [.int 1] = .ok [7, 1, 0, 8, 9] := by decide +kernel

/-- **C32.** Iterated unpacking of a buffer made of whole chunks unpacks each chunk. -/
theorem iterUnpack_chunks (real : Real) (p : Char) (items : List (Char × Nat)) (size : Nat) (hsize : 0 < size)
    (chunks : List (List Int)) : ∀ (pre : List Int) (fuel : Nat), (∀ c ∈ chunks, c.length = size) → chunks.length < fuel →
    iterUnpack real p items size fuel pre.length (pre ++ chunks.flatten) = (chunks.map (unpack real p items), true) := by
  induction chunks with
  | nil =>
    intro pre fuel _ hf
    obtain ⟨f, rfl⟩ : ∃ f, fuel = f + 1 := ⟨fuel - 1, by omega⟩
    unfold iterUnpack
    rw [if_neg (by simp; omega)]
    rfl
  | cons c chunks ih =>
    intro pre fuel hc hf
    obtain ⟨f, rfl⟩ : ∃ f, fuel = f + 1 := ⟨fuel - 1, by omega⟩
    have hcl := hc c (List.mem_cons_self ..)
    have := ih (pre ++ c) f (fun x hx => hc x (List.mem_cons_of_mem _ hx)) (by rw [List.length_cons] at hf; omega)
    rw [List.length_append, hcl, List.append_assoc] at this
    unfold iterUnpack
    rw [if_pos (by simp [hcl])]
    rw [List.flatten_cons, this]
    dsimp only
    rw [List.drop_left, ← hcl, List.take_left]
    rfl

example : iterUnpack noReal '>' [('H', 1)] 2 5 0 [0, 1, 0, 2] = ([some [.int 1], some [.int 2]], true) := by decide +kernel

/-- **C32, disagreement.** With a format of size 0 (such as "0h"), iteration must be refused; CrossHair never ends. -/
theorem iterUnpack_endless (real : Real) (p : Char) (buffer : List Int) :
    ∀ fuel, iterUnpack real p [] 0 fuel 0 buffer = (List.replicate fuel (some []), false) := by
  intro fuel
  induction fuel with
  | zero => rfl
  | succ f ih =>
    unfold iterUnpack
    rw [if_pos (by omega)]
    rw [ih]
    rfl

/-- **C32, disagreement.** A buffer that is not a multiple of the size must be refused; CrossHair ignores the rest. -/
theorem iterUnpack_leftover : iterUnpack noReal '>' [('H', 1)] 2 5 0 [0, 1, 9] = ([some [.int 1]], true) := by decide +kernel

end Verif.Pack
