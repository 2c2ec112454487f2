import Verif.Buffers.Steps
/-
The histories on which CrossHair's buffers and Python's agree, and what stays true of bytes.
-/
set_option linter.unusedSectionVars false
namespace Verif.Buffers
open Verif.Seq (Slice pyGet pySet pySlice pySetSlice lookup)

theorem getIdx_eq {s : St} {t : PySt} (h : Rel s t) (fuel : Nat) (o : Nat) (i : Int) :
    (andThen (ofSeq (pyGet (s.buf o).inner i)) fun c =>
      andThen (s.cell fuel c) fun n => .ok (Out.byte n)) =
    (andThen (ofSeq (pyGet (t.buf o).data i)) fun n => .ok (Out.byte n)) := by
  rw [h.inner, vals, pyGet_map]
  cases pyGet (t.buf o).data i with
  | error e => cases e <;> rfl
  | ok n =>
    show andThen (s.cell fuel (.val n)) _ = _
    rw [cell_val]; rfl

theorem viewGet_eq {s : St} {t : PySt} (h : Rel s t) (fuel : Nat) {w : View} {p : PyView}
    (hw : ViewRel w p) (hp : ViewOk t p) (i : Int) :
    s.viewGet fuel w i =
    (match pyPos p.len i with
      | none => .error .index
      | some k => match (t.window p)[k]? with
        | none => .error .index
        | some n => .ok (Out.byte n)) := by
  have hlen : w.stop - w.start = p.len := by
    rcases hw.bounds with hb | hb <;> omega
  unfold St.viewGet
  rw [hlen]
  unfold Seq.checkIdx pyPos Seq.normalizeIdx
  simp only
  generalize (if i < 0 then i + (p.len : Int) else i) = j
  by_cases hj : 0 ≤ j ∧ j < p.len
  · rw [if_pos hj, if_pos hj]
    have hs : w.start = p.start := by
      rcases hw.bounds with hb | hb <;> omega
    have hin := hp.inside
    obtain ⟨k, rfl⟩ : ∃ k : Nat, j = k := ⟨j.toNat, by omega⟩
    have hc := cell_ref h fuel p.obj (p.start + k) (by omega)
    push_cast at hc
    simp only [hs, hw.obj, hc, Int.toNat_natCast]
    have hg : (t.window p)[k]? = some ((t.buf p.obj).data.getD (p.start + k) 0) := by
      unfold PySt.window
      have hk : p.start + k < (t.buf p.obj).data.length := by omega
      rw [List.getElem?_take, if_pos (by omega), List.getElem?_drop,
        List.getElem?_eq_getElem hk]
      simp [List.getD, List.getElem?_eq_getElem hk]
    rw [hg]; rfl
  · rw [if_neg hj, if_neg hj]

/-- What an operation must satisfy for CrossHair to do what Python does:

* it does not resize a bytearray on which there is a view;
* `bytearray(items)` gets bytes;
* nothing copies the contents of a view (`tobytes`, `bytearray(view)`, `extend(view)`,
  `view[a:b] = view`);
* a list of values does not have a number out of range before something that is no number;
* a write through a view goes to an index within the view, or to a slice with both bounds, the first
  not negative and both within the view. -/
def Fits (t : PySt) (op : Op) : Prop :=
  (pyStep t op).1 ≠ .error .buffer ∧
  match op with
  | .newArray items => ∃ d, pyBytes items = .ok d
  | .ofView _ _ | .extendView _ _ | .viewSetView _ _ _ _ => False
  | .extend _ items | .setSlice _ _ items => Item.other ∈ items → pyBytes items = .error .type
  | .viewOf _ o => o < t.bufs
  | .viewSet v i _ => ∀ p, t.view v = some p → p.readonly = true ∨ pyPos p.len i ≠ none
  | .viewSetSlice v a b _ => ∀ p, t.view v = some p → p.readonly = true ∨
      ∃ a' b', a = some a' ∧ b = some b' ∧ 0 ≤ a' ∧ a' ≤ p.len ∧ -(p.len : Int) ≤ b' ∧ b' ≤ p.len
  | _ => True

theorem vals_append (xs ys : List Int) : vals (xs ++ ys) = vals xs ++ vals ys := by simp [vals]

/-- One operation. -/
theorem step_rel {s : St} {t : PySt} (h : Rel s t) (fuel : Nat) (op : Op) (hf : Fits t op) :
    (step fuel s op).1 = (pyStep t op).1 ∧ Rel (step fuel s op).2 (pyStep t op).2 := by
  obtain ⟨hb, hf⟩ := hf
  cases op with
  | newArray items =>
    obtain ⟨d, hd⟩ := hf
    simp only [step, pyStep, hd, pyBytes_ints items d hd]
    exact ⟨trivial, new_rel h _ _⟩
  | copy k src =>
    simp only [step, pyStep, h.inner]
    exact ⟨trivial, new_rel h _ _⟩
  | ofView k v => exact hf.elim
  | append o x =>
    have := store_rel h o _ hb
    simp only [step, pyStep, asByteValue_eq]
    rw [andThen_emap vals (pyByte x) (fun n => .ok ((t.buf o).data ++ [n]))
      (fun n => .ok ((s.buf o).inner ++ [Cell.val n])) (fun n => by rw [h.inner]; simp [emap, vals])]
    exact this
  | extend o items =>
    have := store_rel h o _ hb
    simp only [step, pyStep, validated_eq items hf]
    rw [andThen_emap vals (pyBytes items) (fun ns => .ok ((t.buf o).data ++ ns))
      (fun ns => .ok ((s.buf o).inner ++ vals ns)) (fun n => by rw [h.inner]; simp [emap, vals])]
    exact this
  | extendBuf o src =>
    have := store_rel h o _ hb
    simp only [step, pyStep, h.inner]
    rw [← vals_append]
    exact this
  | extendView o v => exact hf.elim
  | insert o i x =>
    have := store_rel h o _ hb
    simp only [step, pyStep, asByteValue_eq]
    rw [andThen_emap vals (pyByte x) (fun n => .ok (Seq.pyInsert (t.buf o).data i n))
      (fun n => .ok (Seq.pyInsert (s.buf o).inner i (.val n)))
      (fun n => by rw [h.inner, vals, pyInsert_map]; rfl)]
    exact this
  | setIdx o i x =>
    have := store_rel h o _ hb
    simp only [step, pyStep, St.setIdx, asByteValue_eq]
    rw [andThen_emap vals (pyByte x) (fun n => ofSeq (pySet (t.buf o).data i n))
      (fun n => ofSeq (pySet (s.buf o).inner i (.val n)))
      (fun n => by rw [h.inner, vals, pySet_map, ofSeq_emap]; rfl)]
    exact this
  | setSlice o sl items =>
    have := store_rel h o _ hb
    simp only [step, pyStep, validated_eq items hf]
    rw [andThen_emap vals (pyBytes items) (fun ns => ofSeq (pySetSlice (t.buf o).data sl ns))
      (fun ns => ofSeq (pySetSlice (s.buf o).inner sl (vals ns)))
      (fun n => by rw [h.inner, vals, vals, pySetSlice_map, ofSeq_emap]; rfl)]
    exact this
  | delIdx o i =>
    have := store_rel h o _ hb
    simp only [step, pyStep]
    rw [h.inner, vals, pyDel_map, ofSeq_emap]
    exact this
  | delSlice o sl =>
    have := store_rel h o _ hb
    simp only [step, pyStep]
    rw [h.inner, vals, pyDelSlice_map, ofSeq_emap]
    exact this
  | getIdx o i => exact ⟨getIdx_eq h fuel o i, h⟩
  | read o =>
    simp only [step, pyStep, h.inner, cells_vals]
    exact ⟨rfl, h⟩
  | viewOf dst o =>
    simp only [step, pyStep, h.inner, h.kind]
    refine ⟨trivial, setView_rel h dst ⟨rfl, rfl, .inl ⟨rfl, by simp [vals]⟩⟩ ⟨hf, ?_, ?_⟩⟩
    · simp
    · intro hk; exact decide_eq_true hk
  | subView dst v a b =>
    simp only [step, pyStep]
    cases hv : t.view v with
    | none => rw [h.noView v hv]; exact ⟨rfl, h⟩
    | some p =>
      obtain ⟨_, h2, w, hw, hwp⟩ := h.someView v p hv
      rw [hw]
      refine ⟨rfl, setView_rel h dst (slice_rel hwp a b) ⟨h2.used, ?_, h2.ro⟩⟩
      show p.start + (pyStretch p.len a b).1 + (pyStretch p.len a b).2 ≤ (t.buf p.obj).data.length
      have := h2.inside
      have := stretch_first p.len a b
      rcases stretch_le p.len a b with h3 | h3 <;> omega
  | toReadonly dst v =>
    simp only [step, pyStep]
    cases hv : t.view v with
    | none => rw [h.noView v hv]; exact ⟨rfl, h⟩
    | some p =>
      obtain ⟨_, h2, w, hw, hwp⟩ := h.someView v p hv
      rw [hw]
      exact ⟨rfl, setView_rel h dst ⟨hwp.obj, rfl, hwp.bounds⟩ ⟨h2.used, h2.inside, fun _ => rfl⟩⟩
  | viewGet v i =>
    simp only [step, pyStep]
    cases hv : t.view v with
    | none => rw [h.noView v hv]; exact ⟨rfl, h⟩
    | some p =>
      obtain ⟨_, h2, w, hw, hwp⟩ := h.someView v p hv
      rw [hw]
      simp only
      rw [viewGet_eq h fuel hwp h2]
      constructor
      · cases pyPos p.len i with
        | none => rfl
        | some k => simp only; cases (t.window p)[k]? <;> rfl
      · cases pyPos p.len i with
        | none => exact h
        | some k => simp only; cases (t.window p)[k]? <;> exact h
  | viewRead v =>
    simp only [step, pyStep]
    cases hv : t.view v with
    | none => rw [h.noView v hv]; exact ⟨rfl, h⟩
    | some p =>
      obtain ⟨_, h2, w, hw, hwp⟩ := h.someView v p hv
      rw [hw]
      simp only [view_cells h hwp h2 fuel]
      exact ⟨rfl, h⟩
  | viewSet v i x =>
    simp only [step, pyStep]
    cases hv : t.view v with
    | none => rw [h.noView v hv]; exact ⟨rfl, h⟩
    | some p =>
      obtain ⟨_, h2, w, hw, hwp⟩ := h.someView v p hv
      rw [hw]
      simp only
      by_cases hr : p.readonly = true
      · rw [if_pos hr]
        unfold St.viewSet
        rw [hwp.ro, if_pos hr]
        exact ⟨rfl, h⟩
      · rw [if_neg hr]
        have hr' : p.readonly = false := by simpa using hr
        cases hk : pyPos p.len i with
        | none => exact absurd hk ((hf p hv).resolve_left hr)
        | some k =>
          obtain ⟨e1, e2, e3⟩ := viewSet_rel h hwp h2 hr' i x hk
          rw [e1]
          simp only
          cases hx : pyByte x with
          | error e => rw [e3 e hx]; exact ⟨rfl, h⟩
          | ok n => exact e2 n hx
  | viewSetSlice v a b xs =>
    simp only [step, pyStep]
    cases hv : t.view v with
    | none => rw [h.noView v hv]; exact ⟨rfl, h⟩
    | some p =>
      obtain ⟨_, h2, w, hw, hwp⟩ := h.someView v p hv
      rw [hw]
      simp only
      by_cases hr : p.readonly = true
      · unfold St.viewSetSlice PySt.viewStore
        rw [hwp.ro, if_pos hr, if_pos hr]
        exact ⟨rfl, h⟩
      · obtain ⟨a', b', rfl, rfl, h3, h4, h5, h6⟩ := (hf p hv).resolve_left hr
        exact viewSetSlice_rel h hwp h2 (by simpa using hr) a' b' xs h3 h4 h5 h6
  | viewSetView v a b src => exact hf.elim

/-- Every operation of a program fits when it is reached. -/
def AllFit (t : PySt) : List Op → Prop
  | [] => True
  | op :: ops => Fits t op ∧ AllFit (pyStep t op).2 ops

theorem history_rel {s : St} {t : PySt} (h : Rel s t) (fuel : Nat) (ops : List Op)
    (hf : AllFit t ops) :
    (history (step fuel) s ops).1 = (history pyStep t ops).1 ∧
    Rel (history (step fuel) s ops).2 (history pyStep t ops).2 := by
  induction ops generalizing s t with
  | nil => exact ⟨rfl, h⟩
  | cons op ops ih =>
    obtain ⟨h1, h2⟩ := hf
    obtain ⟨e, hr⟩ := step_rel h fuel op h1
    obtain ⟨e', hr'⟩ := ih hr h2
    exact ⟨by simp only [history, e, e'], hr'⟩

/-! ### Bytes stay bytes -/

/-- A cell that is a byte, or refers to one. -/
def ByteCell : Cell → Prop
  | .val n => 0 ≤ n ∧ n ≤ 255
  | .ref _ _ => True

/-- All stored numbers are bytes. -/
def Bytes (s : St) : Prop := ∀ o, ∀ c ∈ (s.buf o).inner, ByteCell c

theorem pyGet_mem {α : Type} {xs : List α} {i : Int} {v : α} (h : pyGet xs i = .ok v) : v ∈ xs := by
  unfold pyGet lookup at h
  generalize (if i < 0 then i + (xs.length : Int) else i) = j at h
  by_cases hj : 0 ≤ j
  · rw [if_pos hj] at h
    cases hx : xs[j.toNat]? with
    | none => rw [hx] at h; cases h
    | some u =>
      rw [hx] at h
      injection h with h; subst h
      exact List.mem_of_getElem? hx
  · rw [if_neg hj] at h; cases h

theorem cell_byte {s : St} (h : Bytes s) : ∀ (fuel : Nat) (c : Cell) (n : Int), ByteCell c →
    s.cell fuel c = .ok n → 0 ≤ n ∧ n ≤ 255
  | fuel, .val m, n, hc, he => by
    rw [cell_val] at he; injection he with he; subst he; exact hc
  | 0, .ref _ _, n, _, he => by cases he
  | fuel + 1, .ref o i, n, _, he => by
    unfold St.cell at he
    cases hg : pyGet (s.buf o).inner i with
    | error e => rw [hg] at he; cases he
    | ok c =>
      rw [hg] at he
      exact cell_byte h fuel c n (h o c (pyGet_mem hg)) he

theorem cells_bytes {s : St} (h : Bytes s) (fuel : Nat) : ∀ (cs : List Cell) (ns : List Int),
    (∀ c ∈ cs, ByteCell c) → s.cells fuel cs = .ok ns → ∀ n ∈ ns, 0 ≤ n ∧ n ≤ 255
  | [], ns, _, he => by cases he; intro n hn; cases hn
  | c :: cs, ns, hc, he => by
    unfold St.cells at he
    cases h1 : s.cell fuel c with
    | error e => rw [h1] at he; cases he
    | ok m =>
      rw [h1] at he
      simp only at he
      cases h2 : s.cells fuel cs with
      | error e => rw [h2] at he; cases he
      | ok ms =>
        rw [h2] at he
        simp only [Except.ok.injEq] at he
        subst he
        intro n hn
        rcases List.mem_cons.1 hn with hn | hn
        · subst hn; exact cell_byte h fuel c _ (hc c (by simp)) h1
        · exact cells_bytes h fuel cs ms (fun c hc' => hc c (by simp [hc'])) h2 n hn

theorem store_bytes {s : St} (h : Bytes s) (o : Nat) (r : Except Err (List Cell))
    (hr : ∀ cs, r = .ok cs → ∀ c ∈ cs, ByteCell c) : Bytes (s.store o r).2 := by
  unfold St.store
  cases (s.buf o).kind with
  | bytes => exact h
  | array =>
    cases r with
    | error e => exact h
    | ok cs =>
      intro o' c
      show c ∈ (upd s.buf o _ o').inner → _
      unfold upd; split
      · exact hr cs rfl c
      · exact h o' c

theorem new_bytes {s : St} (h : Bytes s) (k : Kind) (cs : List Cell)
    (hr : ∀ c ∈ cs, ByteCell c) : Bytes (s.new k cs) := by
  intro o' c
  show c ∈ (upd s.buf s.bufs _ o').inner → _
  unfold upd; split
  · exact hr c
  · exact h o' c

theorem ofSeq_ok {α : Type} {r : Except Seq.PyErr α} {v : α} (h : ofSeq r = .ok v) : r = .ok v := by
  cases r with
  | ok u => injection h with h; rw [h]
  | error e => cases e <;> cases h

theorem andThen_ok {α β : Type} {r : Except Err α} {f : α → Except Err β} {v : β}
    (h : andThen r f = .ok v) : ∃ u, r = .ok u ∧ f u = .ok v := by
  cases r with
  | ok u => exact ⟨u, rfl, h⟩
  | error e => cases h

theorem asByteValue_range {x : Item} {n : Int} (h : asByteValue x = .ok n) : 0 ≤ n ∧ n ≤ 255 := by
  rw [asByteValue_eq] at h
  cases x with
  | other => cases h
  | int m =>
    unfold pyByte at h
    simp only at h
    split at h
    · injection h with h; subst h; assumption
    · cases h

theorem validated_range {items : List Item} {ns : List Int} (h : validatedByteValues items = .ok ns) :
    ∀ n ∈ ns, 0 ≤ n ∧ n ≤ 255 := by
  unfold validatedByteValues at h
  split at h
  · cases h
  · split at h
    · cases h
    · rename_i hn
      injection h with h; subst h
      intro n hn'
      have : outOfByteRange n ≠ true := fun hc => hn (List.any_eq_true.2 ⟨n, hn', hc⟩)
      simp only [outOfByteRange, ne_eq, Bool.or_eq_true, decide_eq_true_eq] at this
      omega

theorem vals_bytes {ns : List Int} (h : ∀ n ∈ ns, 0 ≤ n ∧ n ≤ 255) : ∀ c ∈ vals ns, ByteCell c := by
  intro c hc
  obtain ⟨n, hn, rfl⟩ := List.mem_map.1 hc
  exact h n hn

theorem cells_refs (w : View) : ∀ c ∈ w.cells, ByteCell c := by
  intro c hc
  obtain ⟨n, hn, rfl⟩ := List.mem_map.1 hc
  trivial

/-- The values given to `bytearray(items)`, and to a slice of a view, are bytes. -/
def Given : Op → Prop
  | .newArray items => ∀ n, Item.int n ∈ items → 0 ≤ n ∧ n ≤ 255
  | .viewSetSlice _ _ _ xs => ∀ n ∈ xs, 0 ≤ n ∧ n ≤ 255
  | _ => True

theorem mem_ints : ∀ (items : List Item) (n : Int), n ∈ ints items → Item.int n ∈ items
  | .int m :: xs, n, h => by
    rcases List.mem_cons.1 h with h | h
    · subst h; simp
    · exact List.mem_cons_of_mem _ (mem_ints xs n h)
  | .other :: xs, n, h => List.mem_cons_of_mem _ (mem_ints xs n h)

theorem setIdx_bytes {s : St} (h : Bytes s) (o : Nat) (i : Int) (x : Item) :
    Bytes (s.setIdx o i x).2 := by
  apply store_bytes h
  intro cs hcs c hc
  obtain ⟨n, hn, hp⟩ := andThen_ok hcs
  rcases mem_pySet (ofSeq_ok hp) c hc with hc | hc
  · exact h o c hc
  · subst hc; exact asByteValue_range hn

theorem viewSetSlice_bytes {s : St} (h : Bytes s) (w : View) (a b : Option Int) (new : List Cell)
    (hn : ∀ c ∈ new, ByteCell c) : Bytes (s.viewSetSlice w a b new).2 := by
  unfold St.viewSetSlice
  split
  · exact h
  · simp only
    split
    · exact h
    · split
      · exact h
      · split
        · exact h
        · apply store_bytes h
          intro cs hcs c hc
          rcases mem_pySetSlice (ofSeq_ok hcs) c hc with hc | hc
          · exact h _ c hc
          · exact hn c hc

theorem step_bytes {s : St} (h : Bytes s) (fuel : Nat) (op : Op) (hg : Given op) :
    Bytes (step fuel s op).2 := by
  cases op with
  | newArray items =>
    exact new_bytes h _ _ (vals_bytes fun n hn => hg n (mem_ints items n hn))
  | copy k src => exact new_bytes h _ _ (h src)
  | ofView k v =>
    simp only [step]
    cases s.view v with
    | none => exact h
    | some w => exact new_bytes h _ _ (cells_refs w)
  | append o x =>
    apply store_bytes h
    intro cs hcs c hc
    obtain ⟨n, hn, hp⟩ := andThen_ok hcs
    injection hp with hp; subst hp
    rcases List.mem_append.1 hc with hc | hc
    · exact h o c hc
    · rw [List.mem_singleton.1 hc]; exact asByteValue_range hn
  | extend o items =>
    apply store_bytes h
    intro cs hcs c hc
    obtain ⟨n, hn, hp⟩ := andThen_ok hcs
    injection hp with hp; subst hp
    rcases List.mem_append.1 hc with hc | hc
    · exact h o c hc
    · exact vals_bytes (validated_range hn) c hc
  | extendBuf o src =>
    apply store_bytes h
    intro cs hcs c hc
    injection hcs with hcs; subst hcs
    rcases List.mem_append.1 hc with hc | hc
    · exact h o c hc
    · exact h src c hc
  | extendView o v =>
    simp only [step]
    cases s.view v with
    | none => exact h
    | some w =>
      apply store_bytes h
      intro cs hcs c hc
      injection hcs with hcs; subst hcs
      rcases List.mem_append.1 hc with hc | hc
      · exact h o c hc
      · exact cells_refs w c hc
  | insert o i x =>
    apply store_bytes h
    intro cs hcs c hc
    obtain ⟨n, hn, hp⟩ := andThen_ok hcs
    injection hp with hp; subst hp
    rcases mem_pyInsert c hc with hc | hc
    · exact h o c hc
    · subst hc; exact asByteValue_range hn
  | setIdx o i x => exact setIdx_bytes h o i x
  | setSlice o sl items =>
    apply store_bytes h
    intro cs hcs c hc
    obtain ⟨n, hn, hp⟩ := andThen_ok hcs
    rcases mem_pySetSlice (ofSeq_ok hp) c hc with hc | hc
    · exact h o c hc
    · exact vals_bytes (validated_range hn) c hc
  | delIdx o i =>
    apply store_bytes h
    intro cs hcs c hc
    exact h o c (mem_pyDel (ofSeq_ok hcs) c hc)
  | delSlice o sl =>
    apply store_bytes h
    intro cs hcs c hc
    exact h o c (mem_pyDelSlice (ofSeq_ok hcs) c hc)
  | getIdx o i => exact h
  | read o => exact h
  | viewOf dst o => exact h
  | subView dst v a b => simp only [step]; cases s.view v <;> exact h
  | toReadonly dst v => simp only [step]; cases s.view v <;> exact h
  | viewGet v i =>
    simp only [step]
    cases s.view v with
    | none => exact h
    | some w => exact h
  | viewRead v => simp only [step]; cases s.view v <;> exact h
  | viewSet v i x =>
    simp only [step]
    cases s.view v with
    | none => exact h
    | some w =>
      simp only
      unfold St.viewSet
      split
      · exact h
      · split <;> exact setIdx_bytes h _ _ _
  | viewSetSlice v a b xs =>
    simp only [step]
    cases s.view v with
    | none => exact h
    | some w => exact viewSetSlice_bytes h w a b _ (vals_bytes hg)
  | viewSetView v a b src =>
    simp only [step]
    cases s.view v with
    | none => exact h
    | some w =>
      simp only
      cases s.view src with
      | none => exact h
      | some w' => exact viewSetSlice_bytes h w a b _ (cells_refs w')

/-- What an operation shows is a byte or bytes. -/
def ShowsBytes : Except Err Out → Prop
  | .ok (.byte n) => 0 ≤ n ∧ n ≤ 255
  | .ok (.bytes ns) => ∀ n ∈ ns, 0 ≤ n ∧ n ≤ 255
  | _ => True

theorem store_shows (s : St) (o : Nat) (r : Except Err (List Cell)) :
    ShowsBytes (s.store o r).1 := by
  unfold St.store; cases (s.buf o).kind with
  | bytes => trivial
  | array => cases r <;> trivial

theorem viewSetSlice_shows (s : St) (w : View) (a b : Option Int) (new : List Cell) :
    ShowsBytes (s.viewSetSlice w a b new).1 := by
  unfold St.viewSetSlice
  split
  · trivial
  · simp only
    split
    · trivial
    · split
      · trivial
      · split
        · trivial
        · exact store_shows _ _ _

theorem step_shows {s : St} (h : Bytes s) (fuel : Nat) (op : Op) : ShowsBytes (step fuel s op).1 := by
  cases op with
  | newArray items => trivial
  | copy k src => trivial
  | ofView k v => simp only [step]; cases s.view v <;> trivial
  | append o x => exact store_shows _ _ _
  | extend o items => exact store_shows _ _ _
  | extendBuf o src => exact store_shows _ _ _
  | extendView o v =>
    simp only [step]
    cases s.view v with
    | none => trivial
    | some w => exact store_shows _ _ _
  | insert o i x => exact store_shows _ _ _
  | setIdx o i x => exact store_shows _ _ _
  | setSlice o sl items => exact store_shows _ _ _
  | delIdx o i => exact store_shows _ _ _
  | delSlice o sl => exact store_shows _ _ _
  | getIdx o i =>
    simp only [step]
    cases hg : ofSeq (pyGet (s.buf o).inner i) with
    | error e => trivial
    | ok c =>
      simp only [andThen]
      cases hc : s.cell fuel c with
      | error e => trivial
      | ok n => exact cell_byte h fuel c n (h o c (pyGet_mem (ofSeq_ok hg))) hc
  | read o =>
    simp only [step]
    cases hc : s.cells fuel (s.buf o).inner with
    | error e => trivial
    | ok ns => exact cells_bytes h fuel _ ns (h o) hc
  | viewOf dst o => trivial
  | subView dst v a b => simp only [step]; cases s.view v <;> trivial
  | toReadonly dst v => simp only [step]; cases s.view v <;> trivial
  | viewGet v i =>
    simp only [step]
    cases s.view v with
    | none => trivial
    | some w =>
      simp only
      unfold St.viewGet
      split
      · trivial
      · rename_i k _
        cases hc : s.cell (fuel + 1) (.ref w.obj (w.start + k)) with
        | error e => trivial
        | ok n => exact cell_byte h (fuel + 1) (.ref w.obj (w.start + k)) n trivial hc
  | viewRead v =>
    simp only [step]
    cases s.view v with
    | none => trivial
    | some w =>
      simp only
      cases hc : s.cells (fuel + 1) w.cells with
      | error e => trivial
      | ok ns => exact cells_bytes h (fuel + 1) _ ns (cells_refs w) hc
  | viewSet v i x =>
    simp only [step]
    cases s.view v with
    | none => trivial
    | some w =>
      simp only
      unfold St.viewSet
      split
      · trivial
      · split <;> exact store_shows _ _ _
  | viewSetSlice v a b xs =>
    simp only [step]
    cases s.view v with
    | none => trivial
    | some w => exact viewSetSlice_shows _ _ _ _ _
  | viewSetView v a b src =>
    simp only [step]
    cases s.view v with
    | none => trivial
    | some w =>
      simp only
      cases s.view src with
      | none => trivial
      | some w' => exact viewSetSlice_shows _ _ _ _ _

end Verif.Buffers
