import Verif.Buffers.Main
import Verif.Buffers.TextSpec
import Verif.Seq.Props
/-
Properties of CrossHair's bytes, bytearrays and memoryviews.
-/
set_option linter.unusedSectionVars false
set_option linter.constructorNameAsVariable false
set_option linter.unusedTactic false
set_option linter.unreachableTactic false
namespace Verif.Buffers

/-! ### Case and whitespace -/

theorem swap_cases (b : Int) (l u : Bool) : swapAsciiCase b l u =
    if l = true ∧ 65 ≤ b ∧ b ≤ 90 then b + 32 else if u = true ∧ 97 ≤ b ∧ b ≤ 122 then b - 32 else b := by
  unfold swapAsciiCase ofBool
  cases l <;> cases u <;> simp <;> (repeat' split) <;> omega

theorem mem_letters (x y : Int) : (x, y) ∈ letters ↔ 65 ≤ x ∧ x ≤ 90 ∧ y = x + 32 := by
  unfold letters
  rw [List.mem_map]
  constructor
  · rintro ⟨k, hk, he⟩
    have := List.mem_range.1 hk
    injection he with h1 h2
    omega
  · rintro ⟨h1, h2, h3⟩
    refine ⟨(x - 65).toNat, List.mem_range.2 (by omega), ?_⟩
    have : ((x - 65).toNat : Int) = x - 65 := by omega
    rw [this, h3]
    congr 1 <;> omega

/-- `lower`, `upper` and `swapcase` keep the length, turn a letter of the other case into its partner
and leave every other byte alone. -/
theorem case_methods (xs : List Int) :
    (lower xs).length = xs.length ∧ (upper xs).length = xs.length ∧
    (swapcase xs).length = xs.length ∧
    ∀ (k : Nat) (b : Int), xs[k]? = some b →
      (∃ l, (lower xs)[k]? = some l ∧ ((b, l) ∈ letters ∨ (l = b ∧ ∀ c, (b, c) ∉ letters))) ∧
      (∃ u, (upper xs)[k]? = some u ∧ ((u, b) ∈ letters ∨ (u = b ∧ ∀ c, (c, b) ∉ letters))) ∧
      (∃ w, (swapcase xs)[k]? = some w ∧ ((b, w) ∈ letters ∨ (w, b) ∈ letters ∨
        (w = b ∧ ∀ c, (b, c) ∉ letters ∧ (c, b) ∉ letters))) := by
  refine ⟨by simp [lower], by simp [upper], by simp [swapcase], fun k b hk => ⟨?_, ?_, ?_⟩⟩
  · refine ⟨swapAsciiCase b true false, by simp [lower, hk], ?_⟩
    rw [swap_cases]
    simp only [mem_letters]
    by_cases h : 65 ≤ b ∧ b ≤ 90
    · left; rw [if_pos (by simp [h])]; omega
    · right
      rw [if_neg (by simpa using h), if_neg (by simp)]
      exact ⟨rfl, fun c hc => h ⟨hc.1, hc.2.1⟩⟩
  · refine ⟨swapAsciiCase b false true, by simp [upper, hk], ?_⟩
    rw [swap_cases]
    simp only [mem_letters]
    rw [if_neg (by simp)]
    by_cases h : 97 ≤ b ∧ b ≤ 122
    · left; rw [if_pos (by simp [h])]; omega
    · right
      rw [if_neg (by simpa using h)]
      exact ⟨rfl, fun c hc => h (by omega)⟩
  · refine ⟨swapAsciiCase b true true, by simp [swapcase, hk], ?_⟩
    rw [swap_cases]
    simp only [mem_letters]
    by_cases h : 65 ≤ b ∧ b ≤ 90
    · left; rw [if_pos (by simp [h])]; omega
    · rw [if_neg (by simpa using h)]
      by_cases h' : 97 ≤ b ∧ b ≤ 122
      · right; left; rw [if_pos (by simp [h'])]; omega
      · right; right
        rw [if_neg (by simpa using h')]
        exact ⟨rfl, fun c => ⟨fun hc => h ⟨hc.1, hc.2.1⟩, fun hc => h' (by omega)⟩⟩

example : lower [65, 90, 91, 200] = [97, 122, 91, 200] ∧ swapcase [97, 65] = [65, 97] := by decide

/-- `swapcase` twice changes nothing, and `lower` and `upper` are settled after one application. -/
theorem case_laws (xs : List Int) :
    swapcase (swapcase xs) = xs ∧ lower (lower xs) = lower xs ∧ upper (upper xs) = upper xs ∧
    lower (upper xs) = lower xs ∧ upper (lower xs) = upper xs := by
  refine ⟨?_, ?_, ?_, ?_, ?_⟩ <;>
    simp only [swapcase, lower, upper, List.map_map]
  · conv_rhs => rw [← List.map_id xs]
    apply List.map_congr_left; intro b _
    simp only [Function.comp, swap_cases, id]
    (repeat' split) <;> simp_all <;> omega
  all_goals
    apply List.map_congr_left; intro b _
    simp only [Function.comp, swap_cases]
    (repeat' split) <;> simp_all <;> omega

theorem isStripped_iff (c : Int) (chars : Option (List Int)) :
    isStripped c chars = true ↔ Removed chars c := by
  cases chars with
  | none => simp [isStripped, Removed, isAsciiSpaceOrd]; omega
  | some ts => simp [isStripped, Removed]

theorem lstripLoop_eq (chars : Option (List Int)) (xs : List Int) : ∀ (bs p : List Int),
    xs = p ++ bs → lstripLoop chars xs p.length bs = bs.dropWhile fun b => isStripped b chars
  | [], _, _ => rfl
  | b :: bs, p, h => by
    unfold lstripLoop
    rw [List.dropWhile_cons]
    cases hb : isStripped b chars
    · simp [h]
    · simp only [Bool.not_true, Bool.false_eq_true, if_false, if_true]
      have := lstripLoop_eq chars xs bs (p ++ [b]) (by simp [h])
      rw [List.length_append] at this
      exact this

theorem lstrip_eq (chars : Option (List Int)) (xs : List Int) :
    lstrip chars xs = xs.dropWhile fun b => isStripped b chars :=
  lstripLoop_eq chars xs xs [] rfl

theorem dropWhile_stripped (chars : Option (List Int)) : ∀ xs : List Int,
    StrippedLeft (Removed chars) xs (xs.dropWhile fun b => isStripped b chars)
  | [] => ⟨⟨[], rfl, by simp⟩, by simp⟩
  | x :: xs => by
    rw [List.dropWhile_cons]
    split
    · rename_i h
      obtain ⟨⟨p, h1, h2⟩, h3⟩ := dropWhile_stripped chars xs
      refine ⟨⟨x :: p, by rw [List.cons_append, ← h1], ?_⟩, h3⟩
      intro c hc
      rcases List.mem_cons.1 hc with hc | hc
      · subst hc; exact (isStripped_iff _ _).1 h
      · exact h2 c hc
    · rename_i h
      refine ⟨⟨[], rfl, by simp⟩, ?_⟩
      intro c cs he
      injection he with h1 h2
      subst h1
      exact fun hr => h ((isStripped_iff _ _).2 hr)

/-- `lstrip` removes exactly the leading bytes of the set. -/
theorem lstrip_spec (chars : Option (List Int)) (xs : List Int) :
    StrippedLeft (Removed chars) xs (lstrip chars xs) := by
  rw [lstrip_eq]; exact dropWhile_stripped chars xs

example : lstrip none [32, 9, 97, 32] = [97, 32] ∧ lstrip (some [97]) [97, 98, 97] = [98, 97] := by
  decide

theorem rstripN_spec (chars : Option (List Int)) : ∀ (fuel : Nat) (xs : List Int),
    xs.length < fuel → StrippedRight (Removed chars) xs (rstripN chars fuel xs)
  | 0, _, h => by omega
  | fuel + 1, xs, h => by
    unfold rstripN
    by_cases hx : xs.length = 0
    · rw [if_pos hx]
      have : xs = [] := List.eq_nil_of_length_eq_zero hx
      subst this
      exact ⟨⟨[], rfl, by simp⟩, by simp⟩
    · rw [if_neg hx]
      have hne : xs ≠ [] := fun he => hx (by simp [he])
      have hsplit : xs = xs.dropLast ++ [xs.getLastD 0] := by
        rw [List.getLastD_eq_getLast?, List.getLast?_eq_some_getLast hne, Option.getD_some]
        exact (List.dropLast_concat_getLast hne).symm
      split
      · rename_i hs
        obtain ⟨⟨p, h1, h2⟩, h3⟩ := rstripN_spec chars fuel xs.dropLast (by simp; omega)
        refine ⟨⟨p ++ [xs.getLastD 0], ?_, ?_⟩, h3⟩
        · rw [← List.append_assoc, ← h1]; exact hsplit
        · intro c hc
          rcases List.mem_append.1 hc with hc | hc
          · exact h2 c hc
          · rw [List.mem_singleton.1 hc]; exact (isStripped_iff _ _).1 hs
      · rename_i hs
        refine ⟨⟨[], by simp, by simp⟩, ?_⟩
        intro c cs he hr
        apply hs
        rw [he]
        simpa using (isStripped_iff _ _).2 hr

/-- `rstrip` removes exactly the trailing bytes of the set. -/
theorem rstrip_spec (chars : Option (List Int)) (xs : List Int) :
    StrippedRight (Removed chars) xs (rstrip chars xs) := rstripN_spec chars _ xs (by omega)

example : rstrip none [32, 97, 32, 10] = [32, 97] ∧ rstrip none [32, 32] = [] := by decide

/-- `strip` removes exactly the leading and trailing bytes of the set. -/
theorem strip_spec (chars : Option (List Int)) (xs : List Int) :
    StrippedBoth (Removed chars) xs (strip chars xs) := by
  obtain ⟨⟨p, h1, h2⟩, h3⟩ := lstrip_spec chars xs
  obtain ⟨⟨q, h4, h5⟩, h6⟩ := rstrip_spec chars (lstrip chars xs)
  refine ⟨⟨p, q, ?_, h2, h5⟩, ?_, h6⟩
  · show xs = p ++ rstrip chars (lstrip chars xs) ++ q
    rw [List.append_assoc, ← h4]; exact h1
  · intro c cs he
    apply h3 c (cs ++ q)
    rw [h4]
    show rstrip chars (lstrip chars xs) ++ q = _
    rw [show rstrip chars (lstrip chars xs) = c :: cs from he]; rfl

/-- There is only one such result. -/
theorem stripped_unique (P : Int → Prop) (xs ys zs : List Int) (hy : StrippedLeft P xs ys)
    (hz : StrippedLeft P xs zs) : ys = zs := by
  obtain ⟨⟨p, h1, h2⟩, h3⟩ := hy
  obtain ⟨⟨q, h4, h5⟩, h6⟩ := hz
  have key : ∀ (p q ys zs : List Int), p ++ ys = q ++ zs → (∀ c ∈ p, P c) → (∀ c ∈ q, P c) →
      (∀ c cs, ys = c :: cs → ¬ P c) → (∀ c cs, zs = c :: cs → ¬ P c) → ys = zs := by
    intro p
    induction p with
    | nil =>
      intro q ys zs he _ hq hy _
      cases q with
      | nil => exact he
      | cons c q => exact absurd (hq c (by simp)) (hy c (q ++ zs) he)
    | cons a p ih =>
      intro q ys zs he hp hq hy hz
      cases q with
      | nil => exact absurd (hp a (by simp)) (hz a (p ++ ys) he.symm)
      | cons c q =>
        rw [List.cons_append, List.cons_append] at he
        injection he with h1 h2
        exact ih q ys zs h2 (fun c hc => hp c (by simp [hc])) (fun c hc => hq c (by simp [hc])) hy hz
  exact key p q ys zs (h1.symm.trans h4) h2 h5 h3 h6

example : strip none [32, 97, 32, 98, 10] = [97, 32, 98] ∧
    strip (some [97, 98]) [97, 99, 98, 99, 98, 97] = [99, 98, 99] := by decide

/-! ### Operators between the bytes-like types -/

/-- Ordering: possible for exactly the pairs of types for which Python allows it, and then the
lexicographic order of the bytes.  (Operands that are arrays of wider numbers are left out.) -/
theorem ordering_spec (self other : Ty) (hs : self.symbolic = true) (ho : other ≠ .arrayWide)
    (xs ys : List Int) :
    ((self, other) ∉ pyOrdered → ∀ op, cmpOp op self xs other ys = .error .type) ∧
    ((self, other) ∈ pyOrdered → ∃ f : Seq.CmpOp → Bool,
      (∀ op, cmpOp op self xs other ys = .ok (f op)) ∧
      (f .lt = true ↔ Seq.LexLt (fun a b => decide (a < b)) xs ys) ∧
      (f .le = true ↔ Seq.LexLt (fun a b => decide (a < b)) xs ys ∨ xs = ys) ∧
      (f .gt = true ↔ Seq.LexLt (fun a b => decide (a < b)) ys xs) ∧
      (f .ge = true ↔ Seq.LexLt (fun a b => decide (a < b)) ys xs ∨ ys = xs)) := by
  have hir : ∀ a : Int, (fun a b : Int => decide (a < b)) a a = false := fun a => by simp
  constructor
  · intro hn op
    cases self <;> cases other <;> first
      | rfl
      | exact absurd (by decide) hn
      | exact absurd rfl ho
      | cases hs
  · intro hm
    refine ⟨fun op => tupleCmp op xs ys, ?_, Seq.seqLt_iff hir xs ys, Seq.seqLe_iff hir xs ys,
      Seq.seqGt_iff hir xs ys, Seq.seqGe_iff hir xs ys⟩
    intro op
    cases self <;> cases other <;> first
      | rfl
      | exact absurd hm (by decide)

example : cmpOp .lt .bytes [1, 2] .bytearray [1, 3] = .ok true ∧
    cmpOp .lt .memoryview [1] .memoryview [2] = .error .type := ⟨rfl, rfl⟩

/-- Equality, except between `bytes` and arrays: true exactly for operands of comparable types with
the same bytes. -/
theorem equality_partial (self other : Ty) (hs : self.symbolic = true) (ho : other ≠ .arrayWide)
    (hb : ¬ (self = .bytes ∧ other = .arrayB)) (xs ys : List Int) :
    bytesEq xs other ys = true ↔ (self, other) ∈ pyEqual ∧ xs = ys := by
  have hmem : (self, other) ∈ pyEqual ↔ other.allBytes = true := by
    cases self <;> cases other <;> first
      | decide
      | exact absurd rfl ho
      | exact absurd ⟨rfl, rfl⟩ hb
      | cases hs
  rw [hmem]
  unfold bytesEq
  cases other.allBytes with
  | false => simp
  | true =>
    by_cases hl : xs.length = ys.length
    · simp [hl]
    · simp only [Bool.not_true, Bool.false_eq_true, if_false, hl, ne_eq, not_false_eq_true, if_true,
        true_and, false_iff]
      exact fun he => hl (by rw [he])

example : bytesEq [1, 2] .bytearray [1, 2] = true ∧ bytesEq [1, 2] .sequence [1, 2] = false := by
  decide

/-- Disagreement: `b"a" == array("B", b"a")` is true under CrossHair, false in Python. -/
theorem bytes_equal_array : bytesEq [97] .arrayB [97] = true ∧ (Ty.bytes, Ty.arrayB) ∉ pyEqual := by
  decide

/-- `+`: possible for exactly the pairs of types that Python can add; the sum has the type of the
first operand and its bytes are those of the operands in order.  (Arrays of wider numbers and, for
`bytes`, operands with memory of their own are left out.) -/
theorem addition_spec (self other : Ty) (hs : self.symbolic = true) (ho : other ≠ .arrayWide)
    (xs ys : List Int) :
    ((self, other) ∉ pyAddable → add self xs other ys none = .error .type) ∧
    ((self, other) ∈ pyAddable → add self xs other ys none = .ok (self, xs ++ ys)) := by
  constructor
  · intro hn
    cases self <;> cases other <;> first
      | rfl
      | exact absurd (by decide) hn
      | exact absurd rfl ho
      | cases hs
  · intro hm
    cases self <;> cases other <;> first
      | rfl
      | exact absurd hm (by decide)

/-- The same with a native first operand: `bytes` and `bytearray` take any symbolic operand, every
other type gives a `TypeError`. -/
theorem right_addition_spec (left self : Ty) (hs : self.symbolic = true) (ls xs : List Int) :
    radd left ls self xs = if left = .bytes ∨ left = .bytearray then .ok (left, ls ++ xs)
      else .error .type := by
  cases left <;> cases self <;> first
    | rfl
    | cases hs

example : add .bytes [1] .memoryview [2] none = .ok (.bytes, [1, 2]) ∧
    radd .bytearray [1] .bytes [2] = .ok (.bytearray, [1, 2]) ∧
    add .memoryview [1] .bytes [2] none = .error .type := ⟨rfl, rfl, rfl⟩

/-- Disagreement: a `bytearray` cannot be added to an array of wider numbers, although a `bytes`
can and Python allows both. -/
theorem bytearray_add_wide : add .bytearray [1] .arrayWide [256] (some [0, 1]) = .error .type ∧
    add .bytes [1] .arrayWide [256] (some [0, 1]) = .ok (.bytes, [1, 0, 1]) := ⟨rfl, rfl⟩

/-- Searching for a number: it must be a byte. -/
theorem search_int (n : Int) :
    searchInt n = if 0 ≤ n ∧ n ≤ 255 then .ok [n] else .error .value := by
  unfold searchInt
  by_cases h : 0 ≤ n ∧ n ≤ 255
  · rw [if_pos h, if_neg]; simp; omega
  · rw [if_neg h, if_pos]; simp; omega

/-! ### Histories of buffers and views -/

/-- The state of a program that starts with some objects and no views. -/
def start (init : List (Kind × List Int)) : St :=
  ⟨fun o => ⟨(init.getD o (.bytes, [])).1, vals (init.getD o (.bytes, [])).2⟩, init.length,
    fun _ => none, 0⟩
@[inherit_doc start] def pyStart (init : List (Kind × List Int)) : PySt :=
  ⟨fun o => ⟨(init.getD o (.bytes, [])).1, (init.getD o (.bytes, [])).2⟩, init.length,
    fun _ => none, 0⟩

theorem start_rel (init : List (Kind × List Int)) : Rel (start init) (pyStart init) :=
  ⟨fun _ => rfl, fun _ => rfl, rfl, rfl, fun _ _ => rfl, fun _ _ h => by cases h⟩

/-- A program with bytes, bytearrays and views whose operations fit (`Fits`) sees under CrossHair
what it sees in Python, exceptions included, and every object ends with the same contents.

Missing: the operations that do not fit; see the disagreements below. -/
theorem buffers_history_partial (init : List (Kind × List Int)) (fuel : Nat) (ops : List Op)
    (hf : AllFit (pyStart init) ops) :
    (history (step fuel) (start init) ops).1 = (history pyStep (pyStart init) ops).1 ∧
    ∀ o, (step fuel (history (step fuel) (start init) ops).2 (.read o)).1 =
      .ok (.bytes ((history pyStep (pyStart init) ops).2.buf o).data) := by
  obtain ⟨h1, h2⟩ := history_rel (start_rel init) fuel ops hf
  refine ⟨h1, fun o => ?_⟩
  simp only [step, h2.inner, cells_vals]
  rfl

/-- A bytearray of four bytes, a view on its middle, a write through it, seen from everywhere. -/
def sample : List Op :=
  [.viewOf 0 0, .subView 1 0 (some 1) (some (-1)), .viewSet 1 (-1) (.int 9), .viewRead 0,
   .viewRead 1, .viewGet 1 5, .copy .bytes 0, .setIdx 0 1 (.int 300), .setIdx 0 1 (.int 7),
   .viewGet 1 0, .read 1]

example : AllFit (pyStart [(.array, [1, 2, 3, 4])]) sample := by
  refine ⟨⟨?_, ?_⟩, ⟨?_, ?_⟩, ⟨?_, ?_⟩, ⟨?_, ?_⟩, ⟨?_, ?_⟩, ⟨?_, ?_⟩, ⟨?_, ?_⟩, ⟨?_, ?_⟩, ⟨?_, ?_⟩,
    ⟨?_, ?_⟩, ⟨?_, ?_⟩, trivial⟩
  all_goals first
    | trivial
    | exact fun h => by cases h
    | exact (by decide : 0 < 1)
    | (intro p hp; cases hp; right; exact fun h => by cases h)

example : (history pyStep (pyStart [(.array, [1, 2, 3, 4])]) sample).1 =
    [.ok .none, .ok .none, .ok .none, .ok (.bytes [1, 2, 9, 4]), .ok (.bytes [2, 9]),
     .error .index, .ok .none, .error .value, .ok .none, .ok (.byte 7), .ok (.bytes [1, 2, 9, 4])] :=
  rfl

/-- The object an operation writes to, if any. -/
def target (t : PySt) : Op → Option Nat
  | .append o _ | .extend o _ | .extendBuf o _ | .extendView o _ | .insert o _ _ | .setIdx o _ _
  | .setSlice o _ _ | .delIdx o _ | .delSlice o _ => some o
  | .viewSet v _ _ | .viewSetSlice v _ _ _ | .viewSetView v _ _ _ =>
    match t.view v with
    | some p => some p.obj
    | none => none
  | _ => none

/-- No operation of a program writes to the object. -/
def NeverWrites (o : Nat) (t : PySt) : List Op → Prop
  | [] => True
  | op :: ops => target t op ≠ some o ∧ NeverWrites o (pyStep t op).2 ops

theorem store_other (t : PySt) (o o' : Nat) (r : Except Err (List Int)) (h : o' ≠ o) :
    (t.store o' r).2.buf o = t.buf o ∧ (t.store o' r).2.bufs = t.bufs := by
  unfold PySt.store
  cases (t.buf o').kind with
  | bytes => exact ⟨rfl, rfl⟩
  | array =>
    cases r with
    | error e => exact ⟨rfl, rfl⟩
    | ok d =>
      simp only
      split
      · exact ⟨rfl, rfl⟩
      · exact ⟨by simp [PySt.setData, upd, Ne.symm h], rfl⟩

theorem viewStore_other (t : PySt) (p : PyView) (a b : Option Int) (xs : List Int) (o : Nat)
    (h : p.obj ≠ o) :
    (t.viewStore p a b xs).2.buf o = t.buf o ∧ (t.viewStore p a b xs).2.bufs = t.bufs := by
  unfold PySt.viewStore
  split
  · exact ⟨rfl, rfl⟩
  · simp only
    split
    · exact ⟨by simp [PySt.setData, upd, Ne.symm h], rfl⟩
    · exact ⟨rfl, rfl⟩

theorem pyStep_other (t : PySt) (o : Nat) (ho : o < t.bufs) (op : Op) (h : target t op ≠ some o) :
    (pyStep t op).2.buf o = t.buf o ∧ t.bufs ≤ (pyStep t op).2.bufs := by
  have hnew : ∀ k d, (t.new k d).buf o = t.buf o ∧ t.bufs ≤ (t.new k d).bufs := by
    intro k d
    have : o ≠ t.bufs := by omega
    exact ⟨by simp [PySt.new, upd, this], by simp [PySt.new]⟩
  have hst : ∀ o' r, o' ≠ o → (t.store o' r).2.buf o = t.buf o ∧ t.bufs ≤ (t.store o' r).2.bufs := by
    intro o' r hne
    obtain ⟨h1, h2⟩ := store_other t o o' r hne
    exact ⟨h1, le_of_eq h2.symm⟩
  have hsame : t.buf o = t.buf o ∧ t.bufs ≤ t.bufs := ⟨rfl, le_refl _⟩
  cases op with
  | newArray items => simp only [pyStep]; split <;> first | exact hsame | exact hnew _ _
  | copy k src => exact hnew _ _
  | ofView k v => simp only [pyStep]; split <;> first | exact hsame | exact hnew _ _
  | append o' x => exact hst o' _ (fun he => h (by simp [target, he]))
  | extend o' x => exact hst o' _ (fun he => h (by simp [target, he]))
  | extendBuf o' x => exact hst o' _ (fun he => h (by simp [target, he]))
  | extendView o' v =>
    simp only [pyStep]
    split
    · exact hsame
    · exact hst o' _ (fun he => h (by simp [target, he]))
  | insert o' i x => exact hst o' _ (fun he => h (by simp [target, he]))
  | setIdx o' i x => exact hst o' _ (fun he => h (by simp [target, he]))
  | setSlice o' i x => exact hst o' _ (fun he => h (by simp [target, he]))
  | delIdx o' i => exact hst o' _ (fun he => h (by simp [target, he]))
  | delSlice o' i => exact hst o' _ (fun he => h (by simp [target, he]))
  | getIdx o' i => exact hsame
  | read o' => exact hsame
  | viewOf dst o' => exact hsame
  | subView dst v a b => simp only [pyStep]; split <;> exact hsame
  | toReadonly dst v => simp only [pyStep]; split <;> exact hsame
  | viewGet v i =>
    simp only [pyStep]
    (repeat' split) <;> exact hsame
  | viewRead v => simp only [pyStep]; split <;> exact hsame
  | viewSet v i x =>
    simp only [pyStep]
    cases hv : t.view v with
    | none => exact hsame
    | some p =>
      have hne : p.obj ≠ o := fun he => h (by simp [target, hv, he])
      simp only
      (repeat' split) <;> first | exact hsame | exact ⟨by simp [PySt.setData, upd, Ne.symm hne], le_refl _⟩
  | viewSetSlice v a b xs =>
    simp only [pyStep]
    cases hv : t.view v with
    | none => exact hsame
    | some p =>
      have hne : p.obj ≠ o := fun he => h (by simp [target, hv, he])
      obtain ⟨h1, h2⟩ := viewStore_other t p a b xs o hne
      exact ⟨h1, le_of_eq h2.symm⟩
  | viewSetView v a b src =>
    simp only [pyStep]
    cases hv : t.view v with
    | none => exact hsame
    | some p =>
      have hne : p.obj ≠ o := fun he => h (by simp [target, hv, he])
      simp only
      split
      · exact hsame
      · obtain ⟨h1, h2⟩ := viewStore_other t p a b _ o hne
        exact ⟨h1, le_of_eq h2.symm⟩

theorem pyHistory_other (o : Nat) (ops : List Op) (t : PySt) (ho : o < t.bufs)
    (hn : NeverWrites o t ops) : (history pyStep t ops).2.buf o = t.buf o := by
  induction ops generalizing t with
  | nil => rfl
  | cons op ops ih =>
    obtain ⟨h1, h2⟩ := hn
    obtain ⟨e1, e2⟩ := pyStep_other t o ho op h1
    exact (ih _ (by omega) h2).trans e1

theorem allFit_append (t : PySt) (os ps : List Op) :
    AllFit t (os ++ ps) ↔ AllFit t os ∧ AllFit (history pyStep t os).2 ps := by
  induction os generalizing t with
  | nil => simp [AllFit, history]
  | cons o os ih => simp only [List.cons_append, AllFit, history, ih, and_assoc]

/-- Take a copy `bytes(o)` or `bytearray(o)` of an object at any point of a program.  However the
program goes on, unless it writes to the copy itself, the copy still has the bytes the object had
when it was taken.

Missing: copies of views (`tobytes_changes`), which do not fit. -/
theorem copies_stay_partial (init : List (Kind × List Int)) (fuel : Nat) (before after : List Op)
    (kind : Kind) (o : Nat)
    (hf : AllFit (pyStart init) (before ++ .copy kind o :: after))
    (hn : NeverWrites (history pyStep (pyStart init) before).2.bufs
      (pyStep (history pyStep (pyStart init) before).2 (.copy kind o)).2 after) :
    (step fuel (history (step fuel) (start init) (before ++ .copy kind o :: after)).2
      (.read (history pyStep (pyStart init) before).2.bufs)).1 =
    (step fuel (history (step fuel) (start init) before).2 (.read o)).1 := by
  have hb := ((allFit_append _ _ _).1 hf).1
  rw [(buffers_history_partial init fuel _ hf).2, (buffers_history_partial init fuel _ hb).2]
  have hh : ∀ (os : List Op) (t : PySt) (ps : List Op),
      (history pyStep t (os ++ ps)).2 = (history pyStep (history pyStep t os).2 ps).2 := by
    intro os
    induction os with
    | nil => intro t ps; rfl
    | cons x os ih => intro t ps; exact ih _ ps
  rw [hh]
  show Except.ok (Out.bytes ((history pyStep (pyStep _ (.copy kind o)).2 after).2.buf _).data) = _
  rw [pyHistory_other _ after _ (by simp [pyStep, PySt.new]) hn]
  simp [pyStep, PySt.new, upd]

example : NeverWrites 1 (pyStep (pyStart [(.array, [1, 2])]) (.copy .bytes 0)).2
    [.setIdx 0 0 (.int 9), .append 0 (.int 3), .viewOf 0 0, .viewSet 0 0 (.int 5)] := by
  refine ⟨?_, ?_, ?_, ?_, trivial⟩ <;> exact fun h => by cases h

/-! ### Bytes and failures -/

/-- However a program manipulates its buffers and views, everything it reads from them is a byte
(0 to 255), if it started with bytes and gave bytes to `bytearray([...])`; no number that is out of
range gets in by `append`, `extend`, `insert`, index or slice assignment.

Missing: `bytearray([...])` itself does not check (`bytearray_unchecked`). -/
theorem reads_bytes_partial (init : List (Kind × List Int))
    (hi : ∀ x ∈ init, ∀ n ∈ x.2, 0 ≤ n ∧ n ≤ 255) (fuel : Nat) (ops : List Op)
    (hg : ∀ op ∈ ops, Given op) :
    ∀ r ∈ (history (step fuel) (start init) ops).1, ShowsBytes r := by
  have h0 : Bytes (start init) := by
    intro o
    apply vals_bytes
    intro n hn
    by_cases ho : o < init.length
    · simp only [List.getD, List.getElem?_eq_getElem ho, Option.getD_some] at hn
      exact hi _ (List.getElem_mem ho) n hn
    · simp only [List.getD, List.getElem?_eq_none (by omega : init.length ≤ o), Option.getD_none] at hn
      cases hn
  generalize start init = s at h0
  clear hi
  induction ops generalizing s with
  | nil => intro r hr; cases hr
  | cons op ops ih =>
    intro r hr
    rcases List.mem_cons.1 hr with hr | hr
    · rw [hr]; exact step_shows h0 fuel op
    · exact ih (fun op' ho => hg op' (by simp [ho])) _
        (step_bytes h0 fuel op (hg op (by simp))) r hr

example : (∀ op ∈ sample, Given op) := by
  intro op hop
  simp only [sample, List.mem_cons, List.not_mem_nil, or_false] at hop
  rcases hop with h | h | h | h | h | h | h | h | h | h | h <;> subst h <;> trivial

theorem store_fails {s : St} {o : Nat} {r : Except Err (List Cell)} {e : Err}
    (h : (s.store o r).1 = .error e) : (s.store o r).2 = s := by
  unfold St.store at *
  cases hk : (s.buf o).kind with
  | bytes => rfl
  | array =>
    rw [hk] at h
    cases r with
    | error e => rfl
    | ok cs => cases h

/-- An operation that raises an exception changes nothing. -/
theorem failure_changes_nothing (fuel : Nat) (s : St) (op : Op) (e : Err)
    (h : (step fuel s op).1 = .error e) : (step fuel s op).2 = s := by
  have hview : ∀ w a b new, (s.viewSetSlice w a b new).1 = .error e →
      (s.viewSetSlice w a b new).2 = s := by
    intro w a b new h
    unfold St.viewSetSlice at *
    split at h
    · rw [if_pos (by assumption)]
    · rename_i hro
      rw [if_neg hro]
      simp only at h ⊢
      split at h
      · rfl
      · split at h
        · rfl
        · split at h
          · rw [if_pos (by assumption)]
          · rw [if_neg (by assumption)]
            exact store_fails h
  cases op with
  | newArray items => cases h
  | copy k src => cases h
  | ofView k v => simp only [step] at h ⊢; cases hv : s.view v <;> rw [hv] at h <;> first | rfl | cases h
  | append o x => exact store_fails h
  | extend o items => exact store_fails h
  | extendBuf o src => exact store_fails h
  | extendView o v =>
    simp only [step] at h ⊢
    cases hv : s.view v with
    | none => rfl
    | some w => rw [hv] at h; exact store_fails h
  | insert o i x => exact store_fails h
  | setIdx o i x => exact store_fails h
  | setSlice o sl items => exact store_fails h
  | delIdx o i => exact store_fails h
  | delSlice o sl => exact store_fails h
  | getIdx o i => rfl
  | read o => rfl
  | viewOf dst o => cases h
  | subView dst v a b =>
    simp only [step] at h ⊢; cases hv : s.view v <;> rw [hv] at h <;> first | rfl | cases h
  | toReadonly dst v =>
    simp only [step] at h ⊢; cases hv : s.view v <;> rw [hv] at h <;> first | rfl | cases h
  | viewGet v i => simp only [step]; cases s.view v <;> rfl
  | viewRead v => simp only [step]; cases s.view v <;> rfl
  | viewSet v i x =>
    simp only [step] at h ⊢
    cases hv : s.view v with
    | none => rfl
    | some w =>
      rw [hv] at h
      simp only at h ⊢
      unfold St.viewSet at *
      split at h
      · rw [if_pos (by assumption)]
      · rename_i hro
        rw [if_neg hro]
        simp only at h ⊢
        split at h
        · rw [if_pos (by assumption)]; exact store_fails h
        · rw [if_neg (by assumption)]; exact store_fails h
  | viewSetSlice v a b xs =>
    simp only [step] at h ⊢
    cases hv : s.view v with
    | none => rfl
    | some w => rw [hv] at h; exact hview w a b _ h
  | viewSetView v a b src =>
    simp only [step] at h ⊢
    cases hv : s.view v with
    | none => rfl
    | some w =>
      rw [hv] at h
      simp only at h ⊢
      cases hv' : s.view src with
      | none => rfl
      | some w' => rw [hv'] at h; exact hview w a b _ h

example : (step 9 (start [(.array, [1])]) (.append 0 (.int 256))).1 = .error .value := rfl

/-- A write through a read-only view is a `TypeError`. -/
theorem readonly_write (fuel : Nat) (s : St) (v : Nat) (w : View) (hv : s.view v = some w)
    (hr : w.readonly = true) (i : Int) (x : Item) (a b : Option Int) (xs : List Int) :
    (step fuel s (.viewSet v i x)).1 = .error .type ∧
    (step fuel s (.viewSetSlice v a b xs)).1 = .error .type := by
  simp [step, hv, St.viewSet, St.viewSetSlice, hr]

/-! ### Disagreements -/

/-- What a program sees under CrossHair and in Python. -/
def seen (init : List (Kind × List Int)) (ops : List Op) : List (Except Err Out) :=
  (history (step 9) (start init) ops).1
@[inherit_doc seen] def pySeen (init : List (Kind × List Int)) (ops : List Op) :
    List (Except Err Out) := (history pyStep (pyStart init) ops).1

/-- Disagreement: `bytearray([300])` is accepted under CrossHair and contains 300; in Python it is a
`ValueError`. -/
theorem bytearray_unchecked : seen [] [.newArray [.int 300], .read 0] =
      [.ok .none, .ok (.bytes [300])] ∧
    pySeen [] [.newArray [.int 300]] = [.error .value] := ⟨rfl, rfl⟩

/-- Disagreement: the immutable result of `memoryview.tobytes()` changes when the viewed bytearray is
written to later; in Python it is a copy. -/
theorem tobytes_changes :
    seen [(.array, [1, 2])] [.viewOf 0 0, .ofView .bytes 0, .read 1, .setIdx 0 0 (.int 9), .read 1] =
      [.ok .none, .ok .none, .ok (.bytes [1, 2]), .ok .none, .ok (.bytes [9, 2])] ∧
    pySeen [(.array, [1, 2])] [.viewOf 0 0, .ofView .bytes 0, .read 1, .setIdx 0 0 (.int 9), .read 1] =
      [.ok .none, .ok .none, .ok (.bytes [1, 2]), .ok .none, .ok (.bytes [1, 2])] := ⟨rfl, rfl⟩

/-- Disagreement: so does what `bytearray.extend(view)` added. -/
theorem extend_view_changes :
    seen [(.array, [1]), (.array, [7])]
      [.viewOf 0 0, .extendView 1 0, .setIdx 0 0 (.int 9), .read 1] =
      [.ok .none, .ok .none, .ok .none, .ok (.bytes [7, 9])] ∧
    pySeen [(.array, [1]), (.array, [7])]
      [.viewOf 0 0, .extendView 1 0, .setIdx 0 0 (.int 9), .read 1] =
      [.ok .none, .ok .none, .ok .none, .ok (.bytes [7, 1])] := ⟨rfl, rfl⟩

/-- Disagreement: a write at an index outside of a view changes the bytes of the object next to the
view; in Python it is an `IndexError`. -/
theorem view_write_outside :
    seen [(.array, [1, 2, 3, 4])] [.viewOf 0 0, .subView 1 0 (some 1) (some 3),
        .viewSet 1 2 (.int 9), .viewSet 1 (-3) (.int 8), .read 0] =
      [.ok .none, .ok .none, .ok .none, .ok .none, .ok (.bytes [8, 2, 3, 9])] ∧
    pySeen [(.array, [1, 2, 3, 4])] [.viewOf 0 0, .subView 1 0 (some 1) (some 3),
        .viewSet 1 2 (.int 9), .viewSet 1 (-3) (.int 8), .read 0] =
      [.ok .none, .ok .none, .error .index, .error .index, .ok (.bytes [1, 2, 3, 4])] := ⟨rfl, rfl⟩

/-- Disagreement: assigning to `view[:2]` is a `TypeError` under CrossHair. -/
theorem view_slice_open :
    seen [(.array, [1, 2, 3])] [.viewOf 0 0, .viewSetSlice 0 none (some 2) [8, 9]] =
      [.ok .none, .error .type] ∧
    pySeen [(.array, [1, 2, 3])] [.viewOf 0 0, .viewSetSlice 0 none (some 2) [8, 9], .read 0] =
      [.ok .none, .ok .none, .ok (.bytes [8, 9, 3])] := ⟨rfl, rfl⟩

/-- Disagreement: a negative first bound is taken from the wrong end of the object: `view[-1:3]` of
a view on `object[1:4]` means its last byte, but is refused under CrossHair. -/
theorem view_slice_negative :
    seen [(.array, [1, 2, 3, 4])] [.viewOf 0 0, .subView 1 0 (some 1) (some 4),
        .viewSetSlice 1 (some (-1)) (some 3) [9]] =
      [.ok .none, .ok .none, .error .value] ∧
    pySeen [(.array, [1, 2, 3, 4])] [.viewOf 0 0, .subView 1 0 (some 1) (some 4),
        .viewSetSlice 1 (some (-1)) (some 3) [9], .read 0] =
      [.ok .none, .ok .none, .ok .none, .ok (.bytes [1, 2, 3, 9])] := by
  constructor
  · simp [seen, history, step, start, St.setView, upd, View.slice, Seq.indices, Seq.normalizeIdx,
      Seq.clampSlice, St.viewSetSlice, composeSlices, vals, Seq.pySlice, Seq.pyIndices, Seq.elems,
      Range.Rng.iter, Range.iterUp, Seq.lookup]
  · rfl

/-- Disagreement: an assignment to a slice that reaches beyond a view writes to the object beyond
the view; in Python the slice ends with the view. -/
theorem view_slice_outside :
    seen [(.array, [1, 2, 3, 4])] [.viewOf 0 0, .subView 1 0 (some 0) (some 2),
        .viewSetSlice 1 (some 0) (some 3) [7, 8, 9], .read 0] =
      [.ok .none, .ok .none, .ok .none, .ok (.bytes [7, 8, 9, 4])] ∧
    pySeen [(.array, [1, 2, 3, 4])] [.viewOf 0 0, .subView 1 0 (some 0) (some 2),
        .viewSetSlice 1 (some 0) (some 3) [7, 8, 9], .read 0] =
      [.ok .none, .ok .none, .error .value, .ok (.bytes [1, 2, 3, 4])] := by
  constructor
  · simp [seen, history, step, start, St.setView, upd, View.slice, Seq.indices, Seq.normalizeIdx,
      Seq.clampSlice, St.viewSetSlice, composeSlices, vals, Seq.pySlice, Seq.pyIndices, Seq.elems,
      Range.Rng.iter, Range.iterUp, Seq.lookup, St.store, Seq.pySetSlice, ofSeq, St.cells, St.cell,
      andThen]
  · rfl

/-- Disagreement: after `view[0:2] = view`, which changes nothing in Python, the object refers to
itself, and reading it never comes to an end, however deep the call stack is. -/
theorem view_self_assignment (fuel : Nat) :
    (history (step fuel) (start [(.array, [1, 2])])
      [.viewOf 0 0, .viewSetView 0 (some 0) (some 2) 0, .read 0]).1 =
      [.ok .none, .ok .none, .error .recursion] ∧
    pySeen [(.array, [1, 2])] [.viewOf 0 0, .viewSetView 0 (some 0) (some 2) 0, .read 0] =
      [.ok .none, .ok .none, .ok (.bytes [1, 2])] := by
  constructor
  · have loop : ∀ (s : St), (s.buf 0).inner = [.ref 0 0, .ref 0 1] →
        ∀ k, s.cell k (.ref 0 0) = .error .recursion := by
      intro s hs k
      induction k with
      | zero => rfl
      | succ k ih =>
        unfold St.cell
        rw [hs]
        exact ih
    simp [history, step, start, St.setView, upd, St.viewSetSlice, composeSlices, vals, Seq.pySlice,
      Seq.pyIndices, Seq.elems, Range.Rng.iter, Range.iterUp, Seq.lookup, St.store, Seq.pySetSlice,
      ofSeq, View.cells, List.range, List.range.loop, St.cells]
    rw [loop]
    · rfl
    · rfl
  · rfl

/-- Disagreement: a bytearray can be resized while there is a view on it; in Python that is a
`BufferError`.  Reading the view afterwards fails. -/
theorem resize_with_view :
    seen [(.array, [1, 2])] [.viewOf 0 0, .delIdx 0 0, .viewRead 0] =
      [.ok .none, .ok .none, .error .index] ∧
    pySeen [(.array, [1, 2])] [.viewOf 0 0, .delIdx 0 0, .viewRead 0] =
      [.ok .none, .error .buffer, .ok (.bytes [1, 2])] := ⟨rfl, rfl⟩

/-- Disagreement: of `extend([300, "a"])` Python notices the number first, CrossHair the string. -/
theorem extend_error : seen [(.array, [])] [.extend 0 [.int 300, .other]] = [.error .type] ∧
    pySeen [(.array, [])] [.extend 0 [.int 300, .other]] = [.error .value] := ⟨rfl, rfl⟩

end Verif.Buffers
