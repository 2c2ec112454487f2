import Verif.Repro.Lemmas

/-! # Reading the text of a value gives the value back -/

namespace Verif.Repro

/-- The tokens an expression can begin with. -/
def Tok.opens : Tok → Bool
  | .rpar | .rbrack | .rbrace | .comma | .colon | .kw _ => false
  | _ => true

theorem expr_list (d : Nat) (t : Tok) (r : List Tok) (s : Store) (h : t.opens = true) :
    expr (d + 1) (.lbrack :: t :: r) s =
      match items d .rbrack (t :: r) s with
      | some (vs, ts, s) => some ((s.new .list vs).1, ts, (s.new .list vs).2)
      | none => none := by
  cases t <;> first | rfl | exact absurd h Bool.false_ne_true

theorem expr_tuple (d : Nat) (t : Tok) (r : List Tok) (s : Store) (h : t.opens = true) :
    expr (d + 1) (.lpar :: t :: r) s =
      match named d (t :: r) s with
      | some (v, .rpar :: ts, s) => some (v, ts, s)
      | some (v, .comma :: .rpar :: ts, s) =>
        some ((s.new .tuple [v]).1, ts, (s.new .tuple [v]).2)
      | some (v, .comma :: ts, s) =>
        match items d .rpar ts s with
        | some (vs, ts, s) => some ((s.new .tuple (v :: vs)).1, ts, (s.new .tuple (v :: vs)).2)
        | none => none
      | _ => none := by
  cases t <;> first | rfl | exact absurd h Bool.false_ne_true

theorem expr_brace (d : Nat) (t : Tok) (r : List Tok) (s : Store) (h : t.opens = true) :
    expr (d + 1) (.lbrace :: t :: r) s =
      match named d (t :: r) s with
      | some (v, .rbrace :: ts, s) => some ((s.new .set [v]).1, ts, (s.new .set [v]).2)
      | some (v, .comma :: ts, s) =>
        match items d .rbrace ts s with
        | some (vs, ts, s) => some ((s.new .set (v :: vs)).1, ts, (s.new .set (v :: vs)).2)
        | none => none
      | some (_, .colon :: _, _) =>
        match pairs d (t :: r) s with
        | some (vs, ts, s) => some ((s.new .dict vs).1, ts, (s.new .dict vs).2)
        | none => none
      | _ => none := by
  cases t <;> first | rfl | exact absurd h Bool.false_ne_true

theorem expr_call (d : Nat) (f : String) (t : Tok) (r : List Tok) (s : Store) (h : t ≠ .rpar) :
    expr (d + 1) (.fn f :: .lpar :: t :: r) s =
      match args d false (t :: r) s with
      | some (ks, vs, ts, s) => some ((s.call f ks vs).1, ts, (s.call f ks vs).2)
      | none => none := by
  cases t <;> first | rfl | exact absurd rfl h

theorem named_expr (d : Nat) (t : Tok) (r : List Tok) (s : Store) (h : ∀ n, t ≠ .bind n) :
    named (d + 1) (t :: r) s = expr d (t :: r) s := by
  cases t <;> first | rfl | exact absurd rfl (h _)

theorem args_pos (d : Nat) (t : Tok) (r : List Tok) (s : Store) (h : t.opens = true) :
    args (d + 1) false (t :: r) s =
      match named d (t :: r) s with
      | some (v, .rpar :: ts, s) => some ([none], [v], ts, s)
      | some (v, .comma :: ts, s) =>
        match args d false ts s with
        | some (ks, vs, ts, s) => some (none :: ks, v :: vs, ts, s)
        | none => none
      | _ => none := by
  cases t <;> first | rfl | exact absurd h Bool.false_ne_true

/-- `cleanup` with given numbers. -/
abbrev clean (K : Nat → Option Nat) (ts : List Tok) : List Tok := ts.flatMap (cleanTok K)

theorem clean_append (K : Nat → Option Nat) (a b : List Tok) : clean K (a ++ b) = clean K a ++ clean K b :=
  List.flatMap_append

/-- What holds between the objects written so far (`nm`) and the interpreter that has read their
    text: `ρ` gives each its new identity, and those that have a variable are its value. -/
structure Inv (h : Nat → Option (Kind × List Val)) (K : Nat → Option Nat) (nm : List Nat) (s : Store)
    (ρ : Nat → Nat) : Prop where
  lt : ∀ i ∈ nm, ρ i < s.next
  inj : ∀ i ∈ nm, ∀ j ∈ nm, ρ i = ρ j → i = j
  closed : ∀ i ∈ nm, ∃ k ps, h i = some (k, ps) ∧ ∀ j ∈ idsAll ps, j ∈ nm
  vars : ∀ i ∈ nm, ∀ n, K i = some n → ∀ k ps, h i = some (k, ps) →
    lookup n s.vars = some (.node (ρ i) k (renameAll ρ ps))

/-- After a text has been read: the new objects `nm'` include the old and the ids read, whose new
    identities have not changed. -/
structure Done (h : Nat → Option (Kind × List Val)) (K : Nat → Option Nat) (nm nm' : List Nat) (s' : Store)
    (ρ ρ' : Nat → Nat) (ids : List Nat) : Prop where
  inv : Inv h K nm' s' ρ'
  agree : ∀ i ∈ nm, ρ' i = ρ i
  more : ∀ i ∈ nm, i ∈ nm'
  ids : ∀ i ∈ ids, i ∈ nm'

theorem Done.trans {h : Nat → Option (Kind × List Val)} {K : Nat → Option Nat} {n0 n1 n2 : List Nat} {s1 s2 : Store}
    {ρ0 ρ1 ρ2 : Nat → Nat} {a b : List Nat} (h1 : Done h K n0 n1 s1 ρ0 ρ1 a) (h2 : Done h K n1 n2 s2 ρ1 ρ2 b) :
    Done h K n0 n2 s2 ρ0 ρ2 (a ++ b) where
  inv := h2.inv
  agree := fun i hi => (h2.agree i (h1.more i hi)).trans (h1.agree i hi)
  more := fun i hi => h2.more i (h1.more i hi)
  ids := fun i hi => by
    rcases List.mem_append.mp hi with hi | hi
    · exact h2.more i (h1.ids i hi)
    · exact h2.ids i hi

/-- Which objects have a number. -/
abbrev kept (K : Nat → Option Nat) (i : Nat) : Prop := (K i).isSome = true

/-- The statement for one value. -/
def Reads (h : Nat → Option (Kind × List Val)) (K : Nat → Option Nat) (v : Val) : Prop :=
  ∀ nm seen s ρ, (∀ i, i ∈ seen ↔ i ∈ nm) → v.InHeap h → v.WellMade → v.Writable (kept K) seen →
    (∀ i, 2 ≤ (v.meets seen ++ seen).count i → kept K i) → Inv h K nm s ρ →
    ∃ D s' ρ', Done h K nm (reprVal nm v).2 s' ρ ρ' v.ids ∧
      (∃ t r, clean K (reprVal nm v).1 = t :: r ∧ t.opens = true) ∧
      (∀ rest d, D ≤ d → named d (clean K (reprVal nm v).1 ++ rest) s = some (v.rename ρ', rest, s')) ∧
      (v.Plain (kept K) seen → ∀ rest d, D ≤ d →
        expr d (clean K (reprVal nm v).1 ++ rest) s = some (v.rename ρ', rest, s'))

theorem clean_cons_comma (K : Nat → Option Nat) (ts : List Tok) : clean K (.comma :: ts) = .comma :: clean K ts := rfl

theorem joined_cons_cons (t u : List Tok) (ts : List (List Tok)) : joined (t :: u :: ts) = t ++ .comma :: joined (u :: ts) := by
  rw [joined]
  simp

theorem le_count_left (a b : List Nat) (i : Nat) : b.count i ≤ (a ++ b).count i := by
  rw [List.count_append]; omega

/-- Several values separated by commas, where assignments may stand. -/
theorem read_items (h : Nat → Option (Kind × List Val)) (K : Nat → Option Nat) :
    ∀ (ps : List Val), ps ≠ [] → (∀ p ∈ ps, Reads h K p) →
    ∀ nm seen s ρ bare, (∀ i, i ∈ seen ↔ i ∈ nm) → allInHeap h ps → allWellMade ps →
      allWritable (kept K) seen bare ps →
      (∀ i, 2 ≤ (meetsAll seen ps ++ seen).count i → kept K i) → Inv h K nm s ρ →
      ∃ D s' ρ', Done h K nm (reprAll nm ps).2 s' ρ ρ' (idsAll ps) ∧
        (∃ t r, clean K (joined (reprAll nm ps).1) = t :: r ∧ t.opens = true) ∧
        ∀ close rest d, D ≤ d → close ≠ .comma →
          items d close (clean K (joined (reprAll nm ps).1) ++ close :: rest) s = some (renameAll ρ' ps, rest, s')
  | [], hne, _, _, _, _, _, _, _, _, _, _, _, _ => absurd rfl hne
  | p :: ps, _, hP, nm, seen, s, ρ, bare, hs, hh, hw, hwr, hk, hi => by
    rw [allInHeap] at hh
    rw [allWellMade] at hw
    rw [allWritable] at hwr
    rw [meetsAll] at hk
    have hk' : ∀ i, 2 ≤ (meetsAll (p.meets seen ++ seen) ps ++ (p.meets seen ++ seen)).count i → kept K i := by
      intro i h2
      apply hk i
      simp only [List.count_append] at h2 ⊢
      omega
    obtain ⟨D, s1, ρ1, hd, ⟨t, r, ht, hto⟩, hn, _⟩ := hP p (List.mem_cons_self ..) nm seen s ρ hs hh.1 hw.1 hwr.2.1
      (fun i h2 => hk' i (Nat.le_trans h2 (le_count_left _ _ i))) hi
    have hsync := (names_val p nm seen hw.1 hs).2
    cases ps with
    | nil =>
      refine ⟨D + 1, s1, ρ1, ?_, ⟨t, r, ?_, hto⟩, ?_⟩
      · have : idsAll [p] = p.ids := by rw [idsAll, idsAll, List.append_nil]
        rw [this, reprAll, reprAll]
        exact hd
      · rw [reprAll, reprAll]; exact ht
      · intro close rest d hD hc
        obtain ⟨d, rfl⟩ : ∃ e, d = e + 1 := ⟨d - 1, by omega⟩
        rw [reprAll, reprAll]
        show items (d + 1) close (clean K (reprVal nm p).1 ++ close :: rest) s = _
        rw [items, hn _ d (by omega)]
        simp only [if_true]
        rw [renameAll, renameAll]
    | cons q qs =>
      obtain ⟨D2, s2, ρ2, hd2, ⟨t2, r2, ht2, hto2⟩, hn2⟩ := read_items h K (q :: qs) (List.cons_ne_nil _ _)
        (fun p hp => hP p (List.mem_cons_of_mem _ hp)) (reprVal nm p).2 (p.meets seen ++ seen) s1 ρ1 bare.tail hsync hh.2 hw.2
        hwr.2.2 hk' hd.inv
      have htext : clean K (joined (reprAll nm (p :: q :: qs)).1) =
          clean K (reprVal nm p).1 ++ .comma :: clean K (joined (reprAll (reprVal nm p).2 (q :: qs)).1) := by
        rw [reprAll, reprAll]
        rw [joined_cons_cons, clean_append, clean_cons_comma]
      refine ⟨D + D2 + 1, s2, ρ2, ?_, ⟨t, r ++ .comma :: clean K (joined (reprAll (reprVal nm p).2 (q :: qs)).1), ?_, hto⟩, ?_⟩
      · have : idsAll (p :: q :: qs) = p.ids ++ idsAll (q :: qs) := by rw [idsAll]
        rw [this]
        have hr : (reprAll nm (p :: q :: qs)).2 = (reprAll (reprVal nm p).2 (q :: qs)).2 := by
          rw [reprAll]
        rw [hr]
        exact hd.trans hd2
      · rw [htext, ht, List.cons_append]
      · intro close rest d hD hc
        obtain ⟨d, rfl⟩ : ∃ e, d = e + 1 := ⟨d - 1, by omega⟩
        rw [htext, List.append_assoc, items, hn _ d (by omega)]
        simp only [List.cons_append]
        rw [if_neg (fun e => hc e.symm), if_pos trivial, hn2 close rest d (by omega) hc]
        simp only
        rw [show renameAll ρ2 (p :: q :: qs) = p.rename ρ2 :: renameAll ρ2 (q :: qs) by rw [renameAll],
          rename_congr ρ2 ρ1 p fun i hi => hd2.agree i (hd.ids i hi)]

theorem clean_cons_colon (K : Nat → Option Nat) (ts : List Tok) : clean K (.colon :: ts) = .colon :: clean K ts := rfl

/-- The items of a dictionary. -/
theorem read_pairs (h : Nat → Option (Kind × List Val)) (K : Nat → Option Nat) :
    ∀ (ps : List Val), ps ≠ [] → ps.length % 2 = 0 → (∀ p ∈ ps, Reads h K p) →
    ∀ nm seen s ρ, (∀ i, i ∈ seen ↔ i ∈ nm) → allInHeap h ps → allWellMade ps →
      allWritable (kept K) seen (List.replicate ps.length true) ps →
      (∀ i, 2 ≤ (meetsAll seen ps ++ seen).count i → kept K i) → Inv h K nm s ρ →
      ∃ D s' ρ', Done h K nm (reprAll nm ps).2 s' ρ ρ' (idsAll ps) ∧
        (∃ t r, clean K (joined (paired (reprAll nm ps).1)) = t :: r ∧ t.opens = true) ∧
        (∃ X v1 s1, ∀ rest d, D ≤ d →
          named d (clean K (joined (paired (reprAll nm ps).1)) ++ rest) s = some (v1, .colon :: (X ++ rest), s1)) ∧
        ∀ rest d, D ≤ d →
          pairs d (clean K (joined (paired (reprAll nm ps).1)) ++ .rbrace :: rest) s = some (renameAll ρ' ps, rest, s')
  | [], hne, _, _, _, _, _, _, _, _, _, _, _, _ => absurd rfl hne
  | [_], _, hl, _, _, _, _, _, _, _, _, _, _, _ => by simp at hl
  | p :: q :: ps, _, hl, hP, nm, seen, s, ρ, hs, hh, hw, hwr, hk, hi => by
    rw [allInHeap, allInHeap] at hh
    rw [allWellMade, allWellMade] at hw
    rw [allWritable, allWritable] at hwr
    simp only [List.length_cons, List.replicate_succ, List.headD_cons, List.tail_cons, true_implies] at hwr
    obtain ⟨hp1, hp2, hq1, hq2, hwr⟩ := hwr
    rw [meetsAll, meetsAll] at hk
    have hk' : ∀ i, 2 ≤ (meetsAll (q.meets (p.meets seen ++ seen) ++ (p.meets seen ++ seen)) ps ++
        (q.meets (p.meets seen ++ seen) ++ (p.meets seen ++ seen))).count i → kept K i := by
      intro i h2
      apply hk i
      simp only [List.count_append] at h2 ⊢
      omega
    have hk2 : ∀ i, 2 ≤ (q.meets (p.meets seen ++ seen) ++ (p.meets seen ++ seen)).count i → kept K i :=
      fun i h2 => hk' i (Nat.le_trans h2 (le_count_left _ _ i))
    obtain ⟨D, s1, ρ1, hd, ⟨t, r, ht, hto⟩, hnm, hn⟩ := hP p (List.mem_cons_self ..) nm seen s ρ hs hh.1 hw.1 hp2
      (fun i h2 => hk2 i (Nat.le_trans h2 (le_count_left _ _ i))) hi
    replace hn := hn hp1
    have hsync := (names_val p nm seen hw.1 hs).2
    obtain ⟨D2, s2, ρ2, hd2, ⟨t2, r2, ht2, hto2⟩, _, hn2⟩ := hP q (List.mem_cons_of_mem _ (List.mem_cons_self ..))
      (reprVal nm p).2 (p.meets seen ++ seen) s1 ρ1 hsync hh.2.1 hw.2.1 hq2 hk2 hd.inv
    replace hn2 := hn2 hq1
    have hsync2 := (names_val q (reprVal nm p).2 (p.meets seen ++ seen) hw.2.1 hsync).2
    cases ps with
    | nil =>
      have htext : clean K (joined (paired (reprAll nm [p, q]).1)) =
          clean K (reprVal nm p).1 ++ .colon :: clean K (reprVal (reprVal nm p).2 q).1 := by
        rw [reprAll, reprAll, reprAll, paired, paired, joined, clean_append, clean_cons_colon]
        intro a b c hc; cases hc
      refine ⟨D + D2 + 1, s2, ρ2, ?_, ⟨t, r ++ .colon :: clean K (reprVal (reprVal nm p).2 q).1, ?_, hto⟩,
        ⟨clean K (reprVal (reprVal nm p).2 q).1, p.rename ρ1, s1, ?_⟩, ?_⟩
      · have : idsAll [p, q] = p.ids ++ q.ids := by rw [idsAll, idsAll, idsAll, List.append_nil]
        rw [this, reprAll, reprAll, reprAll]
        exact hd.trans hd2
      · rw [htext, ht, List.cons_append]
      · intro rest d hD
        rw [htext, List.append_assoc, hnm _ d (by omega), List.cons_append]
      · intro rest d hD
        obtain ⟨d, rfl⟩ : ∃ e, d = e + 1 := ⟨d - 1, by omega⟩
        rw [htext, List.append_assoc, pairs, hn _ d (by omega)]
        simp only [List.cons_append]
        rw [hn2 _ d (by omega)]
        simp only
        rw [renameAll, renameAll, renameAll, rename_congr ρ2 ρ1 p fun i hi => hd2.agree i (hd.ids i hi)]
    | cons u us =>
      obtain ⟨D3, s3, ρ3, hd3, _, _, hn3⟩ := read_pairs h K (u :: us) (List.cons_ne_nil _ _) (by simp at hl ⊢; omega)
        (fun p hp => hP p (List.mem_cons_of_mem _ (List.mem_cons_of_mem _ hp))) (reprVal (reprVal nm p).2 q).2
        (q.meets (p.meets seen ++ seen) ++ (p.meets seen ++ seen)) s2 ρ2 hsync2 hh.2.2 hw.2.2
        hwr hk' hd2.inv
      have htext : clean K (joined (paired (reprAll nm (p :: q :: u :: us)).1)) =
          clean K (reprVal nm p).1 ++ .colon :: (clean K (reprVal (reprVal nm p).2 q).1 ++
            .comma :: clean K (joined (paired (reprAll (reprVal (reprVal nm p).2 q).2 (u :: us)).1))) := by
        rw [reprAll, reprAll]
        simp only
        rw [paired]
        obtain ⟨a, as, ha⟩ : ∃ a as, paired (reprAll (reprVal (reprVal nm p).2 q).2 (u :: us)).1 = a :: as := by
          have hlen := reprAll_length (reprVal (reprVal nm p).2 q).2 (u :: us)
          match hr : (reprAll (reprVal (reprVal nm p).2 q).2 (u :: us)).1, hlen with
          | [], hlen => simp at hlen
          | [x], hlen => simp only [List.length_cons, List.length_nil] at hl hlen; omega
          | x :: y :: zs, _ => exact ⟨_, _, by rw [paired]⟩
        rw [ha, joined_cons_cons, List.append_assoc, clean_append, List.cons_append, clean_cons_colon, clean_append,
          clean_cons_comma]
      refine ⟨D + D2 + D3 + 1, s3, ρ3, ?_, ⟨t, r ++ .colon :: (clean K (reprVal (reprVal nm p).2 q).1 ++
            .comma :: clean K (joined (paired (reprAll (reprVal (reprVal nm p).2 q).2 (u :: us)).1))), ?_, hto⟩,
        ⟨(clean K (reprVal (reprVal nm p).2 q).1 ++
            .comma :: clean K (joined (paired (reprAll (reprVal (reprVal nm p).2 q).2 (u :: us)).1))), p.rename ρ1, s1, ?_⟩, ?_⟩
      · have : idsAll (p :: q :: u :: us) = p.ids ++ (q.ids ++ idsAll (u :: us)) := by rw [idsAll, idsAll]
        have hr : (reprAll nm (p :: q :: u :: us)).2 = (reprAll (reprVal (reprVal nm p).2 q).2 (u :: us)).2 := by
          rw [reprAll, reprAll]
        rw [this, hr]
        exact hd.trans (hd2.trans hd3)
      · rw [htext, ht, List.cons_append]
      · intro rest d hD
        rw [htext, List.append_assoc, hnm _ d (by omega), List.cons_append]
      · intro rest d hD
        obtain ⟨d, rfl⟩ : ∃ e, d = e + 1 := ⟨d - 1, by omega⟩
        rw [htext, List.append_assoc, pairs, hn _ d (by omega)]
        simp only [List.cons_append]
        rw [List.append_assoc, hn2 _ d (by omega)]
        simp only [List.cons_append]
        rw [hn3 _ d (by omega)]
        simp only
        have hd23 := hd2.trans hd3
        rw [show renameAll ρ3 (p :: q :: u :: us) = p.rename ρ3 :: q.rename ρ3 :: renameAll ρ3 (u :: us) by
            rw [renameAll, renameAll],
          rename_congr ρ3 ρ1 p fun i hi => hd23.agree i (hd.ids i hi),
          rename_congr ρ3 ρ2 q fun i hi => hd3.agree i (hd2.ids i hi)]

theorem clean_cons_kw (K : Nat → Option Nat) (x : String) (ts : List Tok) : clean K (.kw x :: ts) = .kw x :: clean K ts := rfl

/-- The arguments of a call. -/
theorem read_args (h : Nat → Option (Kind × List Val)) (K : Nat → Option Nat) :
    ∀ (ps : List Val) (ks : List (Option String)), ps ≠ [] → ks.length = ps.length →
    (ks.Pairwise fun a b => a.isSome → b.isSome) → (∀ p ∈ ps, Reads h K p) →
    ∀ nm seen s ρ b, (b = true → ∀ k ∈ ks, k.isSome = true) → (∀ i, i ∈ seen ↔ i ∈ nm) → allInHeap h ps → allWellMade ps →
      allWritable (kept K) seen (ks.map Option.isSome) ps →
      (∀ i, 2 ≤ (meetsAll seen ps ++ seen).count i → kept K i) → Inv h K nm s ρ →
      ∃ D s' ρ', Done h K nm (reprAll nm ps).2 s' ρ ρ' (idsAll ps) ∧
        (∃ t r, clean K (joined (withKws ks (reprAll nm ps).1)) = t :: r ∧ t ≠ .rpar) ∧
        ∀ rest d, D ≤ d →
          args d b (clean K (joined (withKws ks (reprAll nm ps).1)) ++ .rpar :: rest) s = some (ks, renameAll ρ' ps, rest, s')
  | [], _, hne, _, _, _, _, _, _, _, _, _, _, _, _, _, _, _ => absurd rfl hne
  | p :: ps, [], _, hl, _, _, _, _, _, _, _, _, _, _, _, _, _, _ => by simp at hl
  | p :: ps, k :: ks, _, hl, hpw, hP, nm, seen, s, ρ, b, hb, hs, hh, hw, hwr, hk, hi => by
    rw [allInHeap] at hh
    rw [allWellMade] at hw
    rw [allWritable] at hwr
    simp only [List.map_cons, List.headD_cons, List.tail_cons] at hwr
    rw [meetsAll] at hk
    rw [List.pairwise_cons] at hpw
    have hk' : ∀ i, 2 ≤ (meetsAll (p.meets seen ++ seen) ps ++ (p.meets seen ++ seen)).count i → kept K i := by
      intro i h2
      apply hk i
      simp only [List.count_append] at h2 ⊢
      omega
    obtain ⟨D, s1, ρ1, hd, ⟨t, r, ht, hto⟩, hn, hx⟩ := hP p (List.mem_cons_self ..) nm seen s ρ hs hh.1 hw.1 hwr.2.1
      (fun i h2 => hk' i (Nat.le_trans h2 (le_count_left _ _ i))) hi
    have hsync := (names_val p nm seen hw.1 hs).2
    cases ps with
    | nil =>
      have hks : ks = [] := List.length_eq_zero_iff.mp (by simpa using hl)
      subst hks
      have hids : idsAll [p] = p.ids := by rw [idsAll, idsAll, List.append_nil]
      have hrep : (reprAll nm [p]) = ([(reprVal nm p).1], (reprVal nm p).2) := by rw [reprAll, reprAll]
      rw [hids, hrep]
      cases k with
      | some x =>
        have htext : clean K (joined (withKws [some x] [(reprVal nm p).1])) = .kw x :: clean K (reprVal nm p).1 := rfl
        refine ⟨D + 1, s1, ρ1, hd, ⟨.kw x, _, htext, by simp⟩, ?_⟩
        intro rest d hD
        obtain ⟨d, rfl⟩ : ∃ e, d = e + 1 := ⟨d - 1, by omega⟩
        rw [htext, List.cons_append, args, hx (hwr.1 rfl) _ d (by omega)]
        simp only
        rw [renameAll, renameAll]
      | none =>
        cases b with
        | true => exact absurd (hb rfl none (List.mem_cons_self ..)) (by simp)
        | false =>
          have htext : clean K (joined (withKws [none] [(reprVal nm p).1])) = clean K (reprVal nm p).1 := rfl
          refine ⟨D + 1, s1, ρ1, hd, ⟨t, r, htext.trans ht, by rintro rfl; exact absurd hto Bool.false_ne_true⟩, ?_⟩
          intro rest d hD
          obtain ⟨d, rfl⟩ : ∃ e, d = e + 1 := ⟨d - 1, by omega⟩
          rw [htext, ht, List.cons_append, args_pos d t _ s hto, ← List.cons_append, ← ht, hn _ d (by omega)]
          simp only
          rw [renameAll, renameAll]
    | cons q qs =>
      cases ks with
      | nil => simp at hl
      | cons k2 ks =>
        obtain ⟨D2, s2, ρ2, hd2, ⟨t2, r2, ht2, hto2⟩, hn2⟩ := read_args h K (q :: qs) (k2 :: ks) (List.cons_ne_nil _ _)
          (by simpa using hl) hpw.2
          (fun p hp => hP p (List.mem_cons_of_mem _ hp)) (reprVal nm p).2 (p.meets seen ++ seen) s1 ρ1 (b || k.isSome)
          (by
            intro hbk k' hk'
            rcases Bool.or_eq_true _ _ ▸ hbk with h | h
            · exact hb h k' (List.mem_cons_of_mem _ hk')
            · exact hpw.1 k' hk' h)
          hsync hh.2 hw.2 hwr.2.2 hk' hd.inv
        have hids : idsAll (p :: q :: qs) = p.ids ++ idsAll (q :: qs) := by rw [idsAll]
        have hrep : (reprAll nm (p :: q :: qs)) = ((reprVal nm p).1 :: (reprAll (reprVal nm p).2 (q :: qs)).1,
          (reprAll (reprVal nm p).2 (q :: qs)).2) := by rw [reprAll]
        have hren : renameAll ρ2 (p :: q :: qs) = p.rename ρ1 :: renameAll ρ2 (q :: qs) := by
          rw [renameAll, rename_congr ρ2 ρ1 p fun i hi => hd2.agree i (hd.ids i hi)]
        obtain ⟨a, as, ha⟩ : ∃ a as, withKws (k2 :: ks) (reprAll (reprVal nm p).2 (q :: qs)).1 = a :: as := by
          rw [reprAll]
          cases k2 <;> exact ⟨_, _, rfl⟩
        rw [ha] at hn2
        rw [hids, hrep]
        cases k with
        | some x =>
          have htext : clean K (joined (withKws (some x :: k2 :: ks) ((reprVal nm p).1 :: (reprAll (reprVal nm p).2 (q :: qs)).1))) =
              .kw x :: (clean K (reprVal nm p).1 ++ .comma :: clean K (joined (a :: as))) := by
            rw [withKws, ha, joined_cons_cons, clean_append, clean_cons_comma]
            rfl
          refine ⟨D + D2 + 1, s2, ρ2, hd.trans hd2, ⟨.kw x, _, htext, by simp⟩, ?_⟩
          intro rest d hD
          obtain ⟨d, rfl⟩ : ∃ e, d = e + 1 := ⟨d - 1, by omega⟩
          rw [htext, List.cons_append, List.append_assoc, args, hx (hwr.1 rfl) _ d (by omega)]
          simp only [List.cons_append]
          have := hn2 rest d (by omega)
          rw [show (b || (some x).isSome) = true from Bool.or_true b] at this
          rw [this, hren]
        | none =>
          cases b with
          | true => exact absurd (hb rfl none (List.mem_cons_self ..)) (by simp)
          | false =>
            have htext : clean K (joined (withKws (none :: k2 :: ks) ((reprVal nm p).1 :: (reprAll (reprVal nm p).2 (q :: qs)).1))) =
                clean K (reprVal nm p).1 ++ .comma :: clean K (joined (a :: as)) := by
              rw [withKws, ha, joined_cons_cons, clean_append, clean_cons_comma]
            refine ⟨D + D2 + 1, s2, ρ2, hd.trans hd2, ⟨t, _, by rw [htext, ht, List.cons_append], by
              rintro rfl; exact absurd hto Bool.false_ne_true⟩, ?_⟩
            intro rest d hD
            obtain ⟨d, rfl⟩ : ∃ e, d = e + 1 := ⟨d - 1, by omega⟩
            rw [htext, List.append_assoc, ht, List.cons_append, args_pos d t _ s hto, ← List.cons_append, ← ht, hn _ d (by omega)]
            simp only [List.cons_append]
            have := hn2 rest d (by omega)
            rw [show (false || (none : Option String).isSome) = false from rfl] at this
            rw [this, hren]

/-- Two or more values separated by commas: the first, and the others. -/
theorem read_split (h : Nat → Option (Kind × List Val)) (K : Nat → Option Nat) (p q : Val) (qs : List Val)
    (hP : ∀ v ∈ p :: q :: qs, Reads h K v) (nm seen : List Nat) (s : Store) (ρ : Nat → Nat) (bare : List Bool)
    (hs : ∀ i, i ∈ seen ↔ i ∈ nm) (hh : allInHeap h (p :: q :: qs)) (hw : allWellMade (p :: q :: qs))
    (hwr : allWritable (kept K) seen bare (p :: q :: qs))
    (hk : ∀ i, 2 ≤ (meetsAll seen (p :: q :: qs) ++ seen).count i → kept K i) (hi : Inv h K nm s ρ) :
    ∃ D s' ρ' v1 s1 X vs, Done h K nm (reprAll nm (p :: q :: qs)).2 s' ρ ρ' (idsAll (p :: q :: qs)) ∧
      v1 :: vs = renameAll ρ' (p :: q :: qs) ∧
      (∃ t r, clean K (joined (reprAll nm (p :: q :: qs)).1) = t :: r ∧ t.opens = true) ∧
      (∃ t r, X = t :: r ∧ t.opens = true) ∧
      ∀ close rest d, D ≤ d → close ≠ .comma →
        named d (clean K (joined (reprAll nm (p :: q :: qs)).1) ++ close :: rest) s =
          some (v1, .comma :: (X ++ close :: rest), s1) ∧
        items d close (X ++ close :: rest) s1 = some (vs, rest, s') := by
  rw [allInHeap] at hh
  rw [allWellMade] at hw
  rw [allWritable] at hwr
  rw [meetsAll] at hk
  have hk' : ∀ i, 2 ≤ (meetsAll (p.meets seen ++ seen) (q :: qs) ++ (p.meets seen ++ seen)).count i → kept K i := by
    intro i h2
    apply hk i
    simp only [List.count_append] at h2 ⊢
    omega
  obtain ⟨D, s1, ρ1, hd, ⟨t, r, ht, hto⟩, hn, _⟩ := hP p (List.mem_cons_self ..) nm seen s ρ hs hh.1 hw.1 hwr.2.1
    (fun i h2 => hk' i (Nat.le_trans h2 (le_count_left _ _ i))) hi
  have hsync := (names_val p nm seen hw.1 hs).2
  obtain ⟨D2, s2, ρ2, hd2, hX, hn2⟩ := read_items h K (q :: qs) (List.cons_ne_nil _ _)
    (fun p hp => hP p (List.mem_cons_of_mem _ hp)) (reprVal nm p).2 (p.meets seen ++ seen) s1 ρ1 bare.tail hsync hh.2 hw.2
    hwr.2.2 hk' hd.inv
  have htext : clean K (joined (reprAll nm (p :: q :: qs)).1) =
      clean K (reprVal nm p).1 ++ .comma :: clean K (joined (reprAll (reprVal nm p).2 (q :: qs)).1) := by
    rw [reprAll, reprAll]
    rw [joined_cons_cons, clean_append, clean_cons_comma]
  refine ⟨D + D2, s2, ρ2, p.rename ρ1, s1, _, renameAll ρ2 (q :: qs), ?_, ?_,
    ⟨t, r ++ .comma :: clean K (joined (reprAll (reprVal nm p).2 (q :: qs)).1), ?_, hto⟩, hX, ?_⟩
  · have : idsAll (p :: q :: qs) = p.ids ++ idsAll (q :: qs) := by rw [idsAll]
    rw [this]
    have hr : (reprAll nm (p :: q :: qs)).2 = (reprAll (reprVal nm p).2 (q :: qs)).2 := by
      rw [reprAll]
    rw [hr]
    exact hd.trans hd2
  · rw [show renameAll ρ2 (p :: q :: qs) = p.rename ρ2 :: renameAll ρ2 (q :: qs) by rw [renameAll],
      rename_congr ρ2 ρ1 p fun i hi => hd2.agree i (hd.ids i hi)]
  · rw [htext, ht, List.cons_append]
  · intro close rest d hD hc
    refine ⟨?_, hn2 close rest d (by omega) hc⟩
    rw [htext, List.append_assoc, hn _ d (by omega), List.cons_append]

/-- One value alone. -/
theorem read_single (h : Nat → Option (Kind × List Val)) (K : Nat → Option Nat) (p : Val)
    (hP : Reads h K p) (nm seen : List Nat) (s : Store) (ρ : Nat → Nat) (bare : List Bool)
    (hs : ∀ i, i ∈ seen ↔ i ∈ nm) (hh : allInHeap h [p]) (hw : allWellMade [p])
    (hwr : allWritable (kept K) seen bare [p])
    (hk : ∀ i, 2 ≤ (meetsAll seen [p] ++ seen).count i → kept K i) (hi : Inv h K nm s ρ) :
    ∃ D s' ρ', Done h K nm (reprAll nm [p]).2 s' ρ ρ' (idsAll [p]) ∧
      (∃ t r, clean K (joined (reprAll nm [p]).1) = t :: r ∧ t.opens = true) ∧
      ∀ rest d, D ≤ d →
        named d (clean K (joined (reprAll nm [p]).1) ++ rest) s = some (p.rename ρ', rest, s') := by
  rw [allInHeap] at hh
  rw [allWellMade] at hw
  rw [allWritable] at hwr
  rw [meetsAll, meetsAll, List.append_nil] at hk
  obtain ⟨D, s1, ρ1, hd, ht, hn, _⟩ := hP nm seen s ρ hs hh.1 hw.1 hwr.2.1 hk hi
  have hrep : (reprAll nm [p]) = ([(reprVal nm p).1], (reprVal nm p).2) := by rw [reprAll, reprAll]
  have hids : idsAll [p] = p.ids := by rw [idsAll, idsAll, List.append_nil]
  rw [hrep, hids]
  exact ⟨D, s1, ρ1, hd, ht, hn⟩

mutual
theorem meets_ids : ∀ (v : Val) (seen : List Nat), ∀ j ∈ v.meets seen, j ∈ v.ids
  | .atom _, _, j, hj => by rw [Val.meets] at hj; cases hj
  | .node i k ps, seen, j, hj => by
    rw [Val.meets] at hj
    rw [Val.ids]
    split at hj
    · rw [List.mem_singleton] at hj
      rw [hj]; exact List.mem_cons_self ..
    · rcases List.mem_cons.mp hj with rfl | hj
      · exact List.mem_cons_self ..
      · exact List.mem_cons_of_mem _ (meetsAll_ids ps seen j hj)
theorem meetsAll_ids : ∀ (ps : List Val) (seen : List Nat), ∀ j ∈ meetsAll seen ps, j ∈ idsAll ps
  | [], _, j, hj => by rw [meetsAll] at hj; cases hj
  | p :: ps, seen, j, hj => by
    rw [meetsAll] at hj
    rw [idsAll]
    rcases List.mem_append.mp hj with hj | hj
    · exact List.mem_append_left _ (meets_ids p seen j hj)
    · exact List.mem_append_right _ (meetsAll_ids ps _ j hj)
end

theorem done_refl {h : Nat → Option (Kind × List Val)} {K : Nat → Option Nat} {nm : List Nat} {s : Store}
    {ρ : Nat → Nat} (hi : Inv h K nm s ρ) : Done h K nm nm s ρ ρ [] :=
  ⟨hi, fun _ _ => rfl, fun _ h => h, fun _ h => by cases h⟩

/-- The text of an object without its name. -/
theorem read_body (h : Nat → Option (Kind × List Val)) (K : Nat → Option Nat) (k : Kind) (ps : List Val)
    (hP : ∀ p ∈ ps, Reads h K p) (nm seen : List Nat) (s : Store) (ρ : Nat → Nat)
    (hs : ∀ i, i ∈ seen ↔ i ∈ nm) (hh : allInHeap h ps) (hf : k.Fits ps) (hw : allWellMade ps)
    (htu : k = .tuple → ps.length ≠ 1) (hwr : allWritable (kept K) seen (k.bare ps.length) ps)
    (hk : ∀ i, 2 ≤ (meetsAll seen ps ++ seen).count i → kept K i) (hi : Inv h K nm s ρ) :
    ∃ D s' ρ' m, Done h K nm (reprAll nm ps).2 s' ρ ρ' (idsAll ps) ∧ s'.next ≤ m ∧
      (∃ t r, clean K (body k (reprAll nm ps).1) = t :: r ∧ t.opens = true ∧ ∀ n, t ≠ .bind n) ∧
      ∀ rest d, D ≤ d → expr d (clean K (body k (reprAll nm ps).1) ++ rest) s =
        some (.node m k (renameAll ρ' ps), rest, { s' with next := m + 1 }) := by
  have hnil : reprAll nm [] = ([], nm) := by rw [reprAll]
  have hinil : idsAll [] = [] := by rw [idsAll]
  have hrnil : ∀ ρ, renameAll ρ [] = [] := fun ρ => by rw [renameAll]
  cases k with
  | list =>
    cases ps with
    | nil =>
      rw [hnil, hinil]
      refine ⟨1, s, ρ, s.next, done_refl hi, Nat.le_refl _, ⟨_, _, rfl, rfl, by simp⟩, ?_⟩
      intro rest d hd
      obtain ⟨d, rfl⟩ : ∃ e, d = e + 1 := ⟨d - 1, by omega⟩
      rw [hrnil]; rfl
    | cons p ps =>
      obtain ⟨D, s', ρ', hd, ⟨t, r, ht, hto⟩, hn⟩ := read_items h K (p :: ps) (List.cons_ne_nil _ _) hP nm seen s ρ _ hs hh hw hwr hk hi
      have htext : clean K (body .list (reprAll nm (p :: ps)).1) =
          .lbrack :: (clean K (joined (reprAll nm (p :: ps)).1) ++ [.rbrack]) := by
        show .lbrack :: clean K (joined _ ++ [.rbrack]) = _
        rw [clean_append]; rfl
      refine ⟨D + 1, s', ρ', s'.next, hd, Nat.le_refl _, ⟨_, _, htext, rfl, by simp⟩, ?_⟩
      intro rest d hD
      obtain ⟨d, rfl⟩ : ∃ e, d = e + 1 := ⟨d - 1, by omega⟩
      have := hn .rbrack rest d (by omega) (by simp)
      rw [htext, List.cons_append, List.append_assoc, List.singleton_append]
      rw [ht, List.cons_append] at this ⊢
      rw [expr_list d t _ s hto, this]
      rfl
  | tuple =>
    cases ps with
    | nil =>
      rw [hnil, hinil]
      refine ⟨1, s, ρ, s.next, done_refl hi, Nat.le_refl _, ⟨_, _, rfl, rfl, by simp⟩, ?_⟩
      intro rest d hd
      obtain ⟨d, rfl⟩ : ∃ e, d = e + 1 := ⟨d - 1, by omega⟩
      rw [hrnil]; rfl
    | cons p ps =>
      cases ps with
      | nil => exact absurd rfl (htu rfl)
      | cons q qs =>
        obtain ⟨D, s', ρ', v1, s1, X, vs, hd, hv, ⟨t, r, ht, hto⟩, ⟨t2, r2, hX, hto2⟩, hn⟩ :=
          read_split h K p q qs hP nm seen s ρ _ hs hh hw hwr hk hi
        have htext : clean K (body .tuple (reprAll nm (p :: q :: qs)).1) =
            .lpar :: (clean K (joined (reprAll nm (p :: q :: qs)).1) ++ [.rpar]) := by
          show .lpar :: clean K (joined _ ++ [.rpar]) = _
          rw [clean_append]; rfl
        refine ⟨D + 1, s', ρ', s'.next, hd, Nat.le_refl _, ⟨_, _, htext, rfl, by simp⟩, ?_⟩
        intro rest d hD
        obtain ⟨d, rfl⟩ : ∃ e, d = e + 1 := ⟨d - 1, by omega⟩
        obtain ⟨h1, h2⟩ := hn .rpar rest d (by omega) (by simp)
        rw [htext, List.cons_append, List.append_assoc, List.singleton_append]
        rw [ht, List.cons_append] at h1 ⊢
        rw [expr_tuple d t _ s hto, h1]
        rw [hX, List.cons_append] at h2 ⊢
        rw [← hv]
        have hne : t2 ≠ .rpar := by rintro rfl; exact absurd hto2 Bool.false_ne_true
        split
        · rename_i hx; simp at hx
        · rename_i hx
          simp only [Option.some.injEq, Prod.mk.injEq, List.cons.injEq] at hx
          exact absurd hx.2.1.2.1 hne
        · rename_i hx
          simp only [Option.some.injEq, Prod.mk.injEq, List.cons.injEq] at hx
          obtain ⟨rfl, ⟨_, rfl⟩, rfl⟩ := hx
          rw [h2]
          rfl
        · rename_i hx
          exact absurd rfl (hx _ _ _)
  | set =>
    cases ps with
    | nil =>
      rw [hnil, hinil]
      refine ⟨1, s, ρ, s.next, done_refl hi, Nat.le_refl _, ⟨_, _, rfl, rfl, by simp⟩, ?_⟩
      intro rest d hd
      obtain ⟨d, rfl⟩ : ∃ e, d = e + 1 := ⟨d - 1, by omega⟩
      rw [hrnil]; rfl
    | cons p ps =>
      have htext : clean K (body .set (reprAll nm (p :: ps)).1) =
          .lbrace :: (clean K (joined (reprAll nm (p :: ps)).1) ++ [.rbrace]) := by
        have : body .set (reprAll nm (p :: ps)).1 = .lbrace :: (joined (reprAll nm (p :: ps)).1 ++ [.rbrace]) := by
          rw [reprAll]; rfl
        rw [this]
        show .lbrace :: clean K (joined _ ++ [.rbrace]) = _
        rw [clean_append]; rfl
      cases ps with
      | nil =>
        obtain ⟨D, s', ρ', hd, ⟨t, r, ht, hto⟩, hn⟩ := read_single h K p (hP p (List.mem_cons_self ..)) nm seen s ρ _ hs hh hw hwr hk hi
        refine ⟨D + 1, s', ρ', s'.next, hd, Nat.le_refl _, ⟨_, _, htext, rfl, by simp⟩, ?_⟩
        intro rest d hD
        obtain ⟨d, rfl⟩ : ∃ e, d = e + 1 := ⟨d - 1, by omega⟩
        have := hn (.rbrace :: rest) d (by omega)
        rw [htext, List.cons_append, List.append_assoc, List.singleton_append]
        rw [ht, List.cons_append] at this ⊢
        rw [expr_brace d t _ s hto, this, renameAll, renameAll]
        rfl
      | cons q qs =>
        obtain ⟨D, s', ρ', v1, s1, X, vs, hd, hv, ⟨t, r, ht, hto⟩, _, hn⟩ :=
          read_split h K p q qs hP nm seen s ρ _ hs hh hw hwr hk hi
        refine ⟨D + 1, s', ρ', s'.next, hd, Nat.le_refl _, ⟨_, _, htext, rfl, by simp⟩, ?_⟩
        intro rest d hD
        obtain ⟨d, rfl⟩ : ∃ e, d = e + 1 := ⟨d - 1, by omega⟩
        obtain ⟨h1, h2⟩ := hn .rbrace rest d (by omega) (by simp)
        rw [htext, List.cons_append, List.append_assoc, List.singleton_append]
        rw [ht, List.cons_append] at h1 ⊢
        rw [expr_brace d t _ s hto, h1, ← hv]
        simp only
        rw [h2]
        rfl
  | frozenset =>
    cases ps with
    | nil =>
      rw [hnil, hinil]
      refine ⟨1, s, ρ, s.next, done_refl hi, Nat.le_refl _, ⟨_, _, rfl, rfl, by simp⟩, ?_⟩
      intro rest d hd
      obtain ⟨d, rfl⟩ : ∃ e, d = e + 1 := ⟨d - 1, by omega⟩
      rw [hrnil]; rfl
    | cons p ps =>
      have htext : clean K (body .frozenset (reprAll nm (p :: ps)).1) =
          .fn "frozenset" :: .lpar :: .lbrace :: (clean K (joined (reprAll nm (p :: ps)).1) ++ [.rbrace, .rpar]) := by
        have : body .frozenset (reprAll nm (p :: ps)).1 =
            .fn "frozenset" :: .lpar :: .lbrace :: (joined (reprAll nm (p :: ps)).1 ++ [.rbrace, .rpar]) := by
          rw [reprAll]; rfl
        rw [this]
        show .fn "frozenset" :: .lpar :: .lbrace :: clean K (joined _ ++ [.rbrace, .rpar]) = _
        rw [clean_append]; rfl
      -- the reading of the inner set
      have inner : ∃ D s' ρ', Done h K nm (reprAll nm (p :: ps)).2 s' ρ ρ' (idsAll (p :: ps)) ∧
          ∀ rest d, D ≤ d → expr d (.lbrace :: (clean K (joined (reprAll nm (p :: ps)).1) ++ .rbrace :: rest)) s =
            some (.node s'.next .set (renameAll ρ' (p :: ps)), rest, { s' with next := s'.next + 1 }) := by
        cases ps with
        | nil =>
          obtain ⟨D, s', ρ', hd, ⟨t, r, ht, hto⟩, hn⟩ := read_single h K p (hP p (List.mem_cons_self ..)) nm seen s ρ _ hs hh hw hwr hk hi
          refine ⟨D + 1, s', ρ', hd, ?_⟩
          intro rest d hD
          obtain ⟨d, rfl⟩ : ∃ e, d = e + 1 := ⟨d - 1, by omega⟩
          have := hn (.rbrace :: rest) d (by omega)
          rw [ht, List.cons_append] at this ⊢
          rw [expr_brace d t _ s hto, this, renameAll, renameAll]
          rfl
        | cons q qs =>
          obtain ⟨D, s', ρ', v1, s1, X, vs, hd, hv, ⟨t, r, ht, hto⟩, _, hn⟩ :=
            read_split h K p q qs hP nm seen s ρ _ hs hh hw hwr hk hi
          refine ⟨D + 1, s', ρ', hd, ?_⟩
          intro rest d hD
          obtain ⟨d, rfl⟩ : ∃ e, d = e + 1 := ⟨d - 1, by omega⟩
          obtain ⟨h1, h2⟩ := hn .rbrace rest d (by omega) (by simp)
          rw [ht, List.cons_append] at h1 ⊢
          rw [expr_brace d t _ s hto, h1, ← hv]
          simp only
          rw [h2]
          rfl
      obtain ⟨D, s', ρ', hd, hn⟩ := inner
      refine ⟨D + 3, s', ρ', s'.next + 1, hd, Nat.le_succ _, ⟨_, _, htext, rfl, by simp⟩, ?_⟩
      intro rest d hD
      obtain ⟨d, rfl⟩ : ∃ e, d = e + 3 := ⟨d - 3, by omega⟩
      rw [htext]
      simp only [List.cons_append, List.append_assoc, List.nil_append]
      rw [expr_call (d + 2) _ _ _ _ (by simp), args_pos (d + 1) _ _ _ rfl, named_expr d _ _ _ (by simp), hn _ d (by omega)]
      rfl
  | dict =>
    cases ps with
    | nil =>
      rw [hnil, hinil]
      refine ⟨1, s, ρ, s.next, done_refl hi, Nat.le_refl _, ⟨_, _, rfl, rfl, by simp⟩, ?_⟩
      intro rest d hd
      obtain ⟨d, rfl⟩ : ∃ e, d = e + 1 := ⟨d - 1, by omega⟩
      rw [hrnil]; rfl
    | cons p ps =>
      obtain ⟨D, s', ρ', hd, ⟨t, r, ht, hto⟩, ⟨X, v1, s1, hn⟩, hx⟩ := read_pairs h K (p :: ps) (List.cons_ne_nil _ _) hf hP nm seen s ρ hs hh hw hwr hk hi
      have htext : clean K (body .dict (reprAll nm (p :: ps)).1) =
          .lbrace :: (clean K (joined (paired (reprAll nm (p :: ps)).1)) ++ [.rbrace]) := by
        show .lbrace :: clean K (joined (paired _) ++ [.rbrace]) = _
        rw [clean_append]; rfl
      refine ⟨D + 1, s', ρ', s'.next, hd, Nat.le_refl _, ⟨_, _, htext, rfl, by simp⟩, ?_⟩
      intro rest d hD
      obtain ⟨d, rfl⟩ : ∃ e, d = e + 1 := ⟨d - 1, by omega⟩
      have h1 := hn (.rbrace :: rest) d (by omega)
      have h2 := hx rest d (by omega)
      rw [htext, List.cons_append, List.append_assoc, List.singleton_append]
      rw [ht, List.cons_append] at h1 h2 ⊢
      rw [expr_brace d t _ s hto, h1]
      simp only
      rw [h2]
      rfl
  | blob b =>
    have : ps = [] := List.length_eq_zero_iff.mp hf
    subst this
    rw [hnil, hinil]
    refine ⟨1, s, ρ, s.next, done_refl hi, Nat.le_refl _, ⟨_, _, rfl, rfl, by simp⟩, ?_⟩
    intro rest d hd
    obtain ⟨d, rfl⟩ : ∃ e, d = e + 1 := ⟨d - 1, by omega⟩
    rw [hrnil]; rfl
  | call f ks =>
    obtain ⟨hf1, hf2, hf3, hf4⟩ := hf
    have hcall : ∀ (s : Store) ks (vs : List Val), s.call f ks vs = s.new (.call f ks) vs := by
      intro s ks vs
      unfold Store.call
      rw [if_neg (fun h => hf1 h.1), if_neg (fun h => hf2 h.1)]
      split
      · exact absurd rfl hf2
      · rfl
    cases ps with
    | nil =>
      have : ks = [] := List.length_eq_zero_iff.mp hf3
      subst this
      rw [hnil, hinil]
      refine ⟨1, s, ρ, s.next, done_refl hi, Nat.le_refl _, ⟨_, _, rfl, rfl, by simp⟩, ?_⟩
      intro rest d hd
      obtain ⟨d, rfl⟩ : ∃ e, d = e + 1 := ⟨d - 1, by omega⟩
      show expr (d + 1) (.fn f :: .lpar :: .rpar :: rest) s = _
      rw [expr, hcall, hrnil]; rfl
    | cons p ps =>
      obtain ⟨D, s', ρ', hd, ⟨t, r, ht, hto⟩, hn⟩ := read_args h K (p :: ps) ks (List.cons_ne_nil _ _) hf3 hf4 hP nm seen s ρ
        false (by simp) hs hh hw hwr hk hi
      have htext : clean K (body (.call f ks) (reprAll nm (p :: ps)).1) =
          .fn f :: .lpar :: (clean K (joined (withKws ks (reprAll nm (p :: ps)).1)) ++ [.rpar]) := by
        show .fn f :: .lpar :: clean K (joined (withKws ks _) ++ [.rpar]) = _
        rw [clean_append]; rfl
      refine ⟨D + 1, s', ρ', s'.next, hd, Nat.le_refl _, ⟨_, _, htext, rfl, by simp⟩, ?_⟩
      intro rest d hD
      obtain ⟨d, rfl⟩ : ∃ e, d = e + 1 := ⟨d - 1, by omega⟩
      have := hn rest d (by omega)
      rw [htext, List.cons_append, List.cons_append, List.append_assoc, List.singleton_append]
      rw [ht, List.cons_append] at this ⊢
      rw [expr_call d f t _ s hto, this]
      simp only
      rw [hcall]
      rfl

/-- A new object. -/
theorem new_done {h : Nat → Option (Kind × List Val)} {K : Nat → Option Nat} (hK : ∀ i j n, K i = some n → K j = some n → i = j)
    {nm nm1 : List Nat} {s1 : Store} {ρ ρ1 : Nat → Nat} {i m : Nat} {k : Kind} {ps : List Val}
    (hd : Done h K nm nm1 s1 ρ ρ1 (idsAll ps)) (hi : i ∉ nm1) (hh : h i = some (k, ps)) (hm : s1.next ≤ m)
    (vars : List (Nat × Val))
    (hvars : vars = match K i with
      | some n => (n, .node m k (renameAll ρ1 ps)) :: s1.vars
      | none => s1.vars) :
    Done h K nm (i :: nm1) ⟨vars, m + 1⟩ ρ (fun j => if j = i then m else ρ1 j) (i :: idsAll ps) := by
  have hne : ∀ j ∈ nm1, j ≠ i := by rintro j hj rfl; exact hi hj
  have hcong : ∀ qs : List Val, (∀ j ∈ idsAll qs, j ∈ nm1) →
      renameAll (fun j => if j = i then m else ρ1 j) qs = renameAll ρ1 qs := by
    intro qs hq
    apply renameAll_congr
    intro j hj
    exact if_neg (hne j (hq j hj))
  refine ⟨⟨?_, ?_, ?_, ?_⟩, ?_, ?_, ?_⟩
  · intro j hj
    show (if j = i then m else ρ1 j) < m + 1
    rcases List.mem_cons.mp hj with rfl | hj
    · rw [if_pos rfl]; omega
    · rw [if_neg (hne j hj)]
      have := hd.inv.lt j hj
      omega
  · intro a ha b hb hab
    have hab : (if a = i then m else ρ1 a) = (if b = i then m else ρ1 b) := hab
    rcases List.mem_cons.mp ha with ha | ha <;> rcases List.mem_cons.mp hb with hb | hb
    · rw [ha, hb]
    · rw [if_pos ha, if_neg (hne b hb)] at hab
      have := hd.inv.lt b hb
      omega
    · rw [if_pos hb, if_neg (hne a ha)] at hab
      have := hd.inv.lt a ha
      omega
    · rw [if_neg (hne a ha), if_neg (hne b hb)] at hab
      exact hd.inv.inj a ha b hb hab
  · intro j hj
    rcases List.mem_cons.mp hj with rfl | hj
    · exact ⟨k, ps, hh, fun j hj => List.mem_cons_of_mem _ (hd.ids j hj)⟩
    · obtain ⟨k', ps', h1, h2⟩ := hd.inv.closed j hj
      exact ⟨k', ps', h1, fun j hj => List.mem_cons_of_mem _ (h2 j hj)⟩
  · intro j hj n hn k' ps' hj'
    show lookup n vars = some (.node (if j = i then m else ρ1 j) k' _)
    rcases List.mem_cons.mp hj with rfl | hj
    · rw [hh] at hj'
      injection hj' with hj'
      injection hj' with e1 e2
      subst e1 e2
      rw [hvars, hn, if_pos rfl, hcong ps hd.ids]
      exact if_pos rfl
    · obtain ⟨k2, ps2, h1, h2⟩ := hd.inv.closed j hj
      rw [h1] at hj'
      injection hj' with hj'
      injection hj' with e1 e2
      subst e1 e2
      rw [hcong ps2 h2, if_neg (hne j hj)]
      have hold := hd.inv.vars j hj n hn k2 ps2 h1
      rw [hvars]
      cases hKi : K i with
      | none => exact hold
      | some n' =>
        show (if n' = n then _ else lookup n s1.vars) = _
        rw [if_neg]
        · exact hold
        · rintro rfl
          exact hne j hj (hK j i n' hn hKi)
  · intro j hj
    show (if j = i then m else ρ1 j) = ρ j
    rw [if_neg (hne j (hd.more j hj)), hd.agree j hj]
  · intro j hj
    exact List.mem_cons_of_mem _ (hd.more j hj)
  · intro j hj
    rcases List.mem_cons.mp hj with rfl | hj
    · exact List.mem_cons_self ..
    · exact List.mem_cons_of_mem _ (hd.ids j hj)

/-- The text of any value reads as the value. -/
theorem reads_all (h : Nat → Option (Kind × List Val)) (K : Nat → Option Nat)
    (hK : ∀ i j n, K i = some n → K j = some n → i = j) : ∀ (n : Nat) (v : Val), v.size < n → Reads h K v := by
  intro n
  induction n with
  | zero => intro v hv; omega
  | succ n ih =>
    intro v hv nm seen s ρ hs hh hw hwr hk hi
    cases v with
    | atom a =>
      refine ⟨2, s, ρ, ?_, ⟨.atom a, [], by rw [reprVal]; rfl, rfl⟩, ?_, ?_⟩
      · rw [reprVal, Val.ids]; exact done_refl hi
      · intro rest d hD
        obtain ⟨d, rfl⟩ : ∃ e, d = e + 2 := ⟨d - 2, by omega⟩
        rw [reprVal, Val.rename]; rfl
      · intro _ rest d hD
        obtain ⟨d, rfl⟩ : ∃ e, d = e + 1 := ⟨d - 1, by omega⟩
        rw [reprVal, Val.rename]; rfl
    | node i k ps =>
      by_cases him : i ∈ nm
      · -- the object has a variable
        have hrep : reprVal nm (.node i k ps) = ([.use i], nm) := by rw [reprVal, if_pos him]
        have hkeep : kept K i := by
          apply hk i
          rw [Val.meets, if_pos ((hs i).mpr him), List.count_append]
          have : 0 < seen.count i := List.count_pos_iff.mpr ((hs i).mpr him)
          simp only [List.count_cons_self, List.count_nil]
          omega
        obtain ⟨m, hm⟩ := Option.isSome_iff_exists.mp hkeep
        have hclean : clean K [.use i] = [.use m] := by
          show cleanTok K (.use i) ++ [] = _
          rw [cleanTok, hm]; rfl
        have hheap : h i = some (k, ps) := by rw [Val.InHeap] at hh; exact hh.1
        have hlook := hi.vars i him m hm k ps hheap
        rw [hrep]
        refine ⟨2, s, ρ, ⟨hi, fun _ _ => rfl, fun _ h => h, ?_⟩, ⟨.use m, [], hclean, rfl⟩, ?_, ?_⟩
        · intro j hj
          rw [Val.ids] at hj
          rcases List.mem_cons.mp hj with rfl | hj
          · exact him
          · obtain ⟨k', ps', h1, h2⟩ := hi.closed i him
            rw [hheap] at h1
            injection h1 with h1
            injection h1 with e1 e2
            subst e2
            exact h2 j hj
        · intro rest d hD
          obtain ⟨d, rfl⟩ : ∃ e, d = e + 2 := ⟨d - 2, by omega⟩
          rw [hclean, Val.rename]
          show (lookup m s.vars).map _ = _
          rw [hlook]; rfl
        · intro _ rest d hD
          obtain ⟨d, rfl⟩ : ∃ e, d = e + 1 := ⟨d - 1, by omega⟩
          rw [hclean, Val.rename]
          show (lookup m s.vars).map _ = _
          rw [hlook]; rfl
      · -- a new object
        have hseen : i ∉ seen := fun h => him ((hs i).mp h)
        have hni := not_inside hh
        have hh0 := hh
        rw [Val.InHeap] at hh
        rw [Val.WellMade] at hw
        rw [Val.Writable] at hwr
        rw [Val.meets, if_neg hseen] at hk
        have hwr := hwr.resolve_left hseen
        obtain ⟨D, s1, ρ1, m, hd, hm, ⟨t, r, ht, hto, htb⟩, hx⟩ := read_body h K k ps
          (fun p hp => ih p (by have := size_mem ps p hp; rw [Val.size] at hv; omega)) nm seen s ρ hs hh.2 hw.1 hw.2 hwr.1 hwr.2
          (fun j h2 => hk j (by rw [List.cons_append, List.count_cons]; omega)) hi
        have hnm1 : i ∉ (reprAll nm ps).2 := by
          intro hmem
          rw [← (names_all ps nm seen hw.2 hs).2, List.mem_append] at hmem
          rcases hmem with h | h
          · exact hni (meetsAll_ids ps seen i h)
          · exact hseen h
        have hrep : reprVal nm (.node i k ps) = (.bind i :: body k (reprAll nm ps).1, i :: (reprAll nm ps).2) := by
          rw [reprVal, if_neg him]
        have hren : (Val.node i k ps).rename (fun j => if j = i then m else ρ1 j) = .node m k (renameAll ρ1 ps) := by
          rw [Val.rename, if_pos rfl, renameAll_congr (fun j => if j = i then m else ρ1 j) ρ1 ps]
          intro j hj
          exact if_neg (by rintro rfl; exact hni hj)
        have hids : (Val.node i k ps).ids = i :: idsAll ps := by rw [Val.ids]
        rw [hrep, hids]
        cases hKi : K i with
        | none =>
          have hclean : clean K (.bind i :: body k (reprAll nm ps).1) = clean K (body k (reprAll nm ps).1) := by
            show cleanTok K (.bind i) ++ _ = _
            rw [cleanTok, hKi]; rfl
          refine ⟨D + 1, ⟨s1.vars, m + 1⟩, _, new_done hK hd hnm1 hh.1 hm _ (by rw [hKi]), ⟨t, r, hclean.trans ht, hto⟩, ?_, ?_⟩
          · intro rest d hD
            obtain ⟨d, rfl⟩ : ∃ e, d = e + 1 := ⟨d - 1, by omega⟩
            have := hx rest d (by omega)
            rw [hclean, hren]
            rw [ht, List.cons_append] at this ⊢
            rw [named_expr d t _ s htb, this]
          · intro _ rest d hD
            rw [hclean, hren, hx rest d (by omega)]
        | some n =>
          have hclean : clean K (.bind i :: body k (reprAll nm ps).1) = .bind n :: clean K (body k (reprAll nm ps).1) := by
            show cleanTok K (.bind i) ++ _ = _
            rw [cleanTok, hKi]; rfl
          refine ⟨D + 1, ⟨(n, .node m k (renameAll ρ1 ps)) :: s1.vars, m + 1⟩, _,
            new_done hK hd hnm1 hh.1 hm _ (by rw [hKi]), ⟨_, _, hclean, rfl⟩, ?_, ?_⟩
          · intro rest d hD
            obtain ⟨d, rfl⟩ : ∃ e, d = e + 1 := ⟨d - 1, by omega⟩
            rw [hclean, hren, List.cons_append, named, hx rest d (by omega)]
          · intro hp
            rw [Val.Plain] at hp
            rcases hp with hp | hp
            · exact absurd hp hseen
            · exact absurd (by rw [kept, hKi]; rfl) hp

end Verif.Repro
