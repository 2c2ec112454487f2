import Verif.Repro.Read

/-! # The variables in a text -/

namespace Verif.Repro

/-- A token that is neither a use nor an assignment of a variable. -/
def Tok.plain : Tok → Bool
  | .use _ | .bind _ => false
  | _ => true

theorem scan_append : ∀ (a b : List Tok) (nm : List Nat), scan nm (a ++ b) = (scan nm a).bind fun nm => scan nm b
  | [], b, nm => rfl
  | t :: a, b, nm => by
    cases t <;> simp only [List.cons_append, scan, scan_append a b] <;> split <;> simp [*]

theorem scan_plain (t : Tok) (ht : t.plain = true) (ts : List Tok) (nm : List Nat) : scan nm (t :: ts) = scan nm ts := by
  cases t <;> first | rfl | exact absurd ht Bool.false_ne_true

/-- Texts one after the other. -/
def scanAll (nm : List Nat) : List (List Tok) → Option (List Nat)
  | [] => some nm
  | t :: ts => (scan nm t).bind fun nm => scanAll nm ts

theorem scan_joined : ∀ (ts : List (List Tok)) (nm : List Nat), scan nm (joined ts) = scanAll nm ts
  | [], nm => rfl
  | [t], nm => by
    rw [joined, scanAll]
    cases scan nm t <;> rfl
  | t :: u :: ts, nm => by
    rw [joined_cons_cons, scan_append, scanAll]
    congr 1
    funext nm'
    rw [scan_plain _ rfl, scan_joined (u :: ts) nm']

theorem scanAll_paired : ∀ (ts : List (List Tok)) (nm : List Nat), ts.length % 2 = 0 → scanAll nm (paired ts) = scanAll nm ts
  | [], _, _ => rfl
  | [t], _, h => by simp at h
  | t :: u :: ts, nm, h => by
    rw [paired, scanAll, scanAll, scan_append, Option.bind_assoc]
    congr 1
    funext nm'
    rw [scan_plain _ rfl, scanAll]
    congr 1
    funext nm''
    exact scanAll_paired ts nm'' (by simp at h; omega)

theorem scanAll_withKws : ∀ (ks : List (Option String)) (ts : List (List Tok)) (nm : List Nat), ks.length = ts.length →
    scanAll nm (withKws ks ts) = scanAll nm ts
  | [], [], _, _ => rfl
  | some x :: ks, t :: ts, nm, h => by
    rw [withKws, scanAll, scanAll, scan_plain _ rfl]
    congr 1
    funext nm'
    exact scanAll_withKws ks ts nm' (by simpa using h)
  | none :: ks, t :: ts, nm, h => by
    rw [withKws, scanAll, scanAll]
    congr 1
    funext nm'
    exact scanAll_withKws ks ts nm' (by simpa using h)
  | [], t :: ts, _, h => by simp at h
  | _ :: ks, [], _, h => by simp at h

theorem scan_close (a b : List Tok) (nm : List Nat) (hb : ∀ t ∈ b, t.plain = true) : scan nm (a ++ b) = scan nm a := by
  rw [scan_append]
  have : ∀ (b : List Tok), (∀ t ∈ b, t.plain = true) → ∀ nm, scan nm b = some nm := by
    intro b
    induction b with
    | nil => intros; rfl
    | cons t b ih =>
      intro h nm
      rw [scan_plain t (h t (List.mem_cons_self ..)), ih fun t ht => h t (List.mem_cons_of_mem _ ht)]
  cases scan nm a with
  | none => rfl
  | some nm' => exact this b hb nm'

theorem scan_body (k : Kind) (ts : List (List Tok)) (ps : List Val) (hl : ts.length = ps.length) (hf : k.Fits ps) (nm : List Nat) :
    scan nm (body k ts) = scanAll nm ts := by
  cases k with
  | list =>
    show scan nm (joined ts ++ [.rbrack]) = _
    rw [scan_close _ _ _ (by simp [Tok.plain]), scan_joined]
  | tuple =>
    show scan nm (joined ts ++ [.rpar]) = _
    rw [scan_close _ _ _ (by simp [Tok.plain]), scan_joined]
  | set =>
    cases ts with
    | nil => rfl
    | cons t ts =>
      show scan nm (joined (t :: ts) ++ [.rbrace]) = _
      rw [scan_close _ _ _ (by simp [Tok.plain]), scan_joined]
  | frozenset =>
    cases ts with
    | nil => rfl
    | cons t ts =>
      show scan nm (joined (t :: ts) ++ [.rbrace, .rpar]) = _
      rw [scan_close _ _ _ (by simp [Tok.plain]), scan_joined]
  | dict =>
    show scan nm (joined (paired ts) ++ [.rbrace]) = _
    rw [scan_close _ _ _ (by simp [Tok.plain]), scan_joined, scanAll_paired ts nm (by rw [hl]; exact hf)]
  | blob t =>
    have : ps.length = 0 := hf
    have : ts = [] := List.length_eq_zero_iff.mp (by omega)
    rw [this]
    rfl
  | call f ks =>
    show scan nm (joined (withKws ks ts) ++ [.rpar]) = _
    rw [scan_close _ _ _ (by simp [Tok.plain]), scan_joined, scanAll_withKws ks ts nm (by rw [hl]; exact hf.2.2.1)]

mutual
/-- Every name in a text is assigned once, before it is used.  `kn` holds the names known, which are
    those of `nm` and perhaps the objects we are inside of. -/
theorem scan_val (h : Nat → Option (Kind × List Val)) : ∀ (v : Val) (nm kn : List Nat), v.InHeap h → v.WellMade →
    (∀ i ∈ nm, i ∈ kn) → (∀ i ∈ v.ids, i ∈ kn → i ∈ nm) →
    ∃ kn', scan kn (reprVal nm v).1 = some kn' ∧ (∀ i, i ∈ kn' ↔ i ∈ kn ∨ i ∈ (reprVal nm v).2)
  | .atom a, nm, kn, _, _, h1, _ => ⟨kn, by rw [reprVal]; rfl, fun i => by
      rw [reprVal]
      exact ⟨.inl, fun h => h.elim id (h1 i)⟩⟩
  | .node i k ps, nm, kn, hh, hw, h1, h2 => by
    have hni := not_inside hh
    rw [Val.InHeap] at hh
    rw [Val.WellMade] at hw
    rw [reprVal]
    by_cases hi : i ∈ nm
    · rw [if_pos hi]
      refine ⟨kn, ?_, fun j => ⟨.inl, fun h => h.elim id (h1 j)⟩⟩
      show (if i ∈ kn then some kn else none) = _
      rw [if_pos (h1 i hi)]
    · rw [if_neg hi]
      have hik : i ∉ kn := fun h => hi (h2 i (by rw [Val.ids]; exact List.mem_cons_self ..) h)
      obtain ⟨kn', h3, h4⟩ := scan_all h ps nm (i :: kn) hh.2 hw.2 (fun j hj => List.mem_cons_of_mem _ (h1 j hj))
        (fun j hj hk => by
          rcases List.mem_cons.mp hk with rfl | hk
          · exact absurd hj hni
          · exact h2 j (by rw [Val.ids]; exact List.mem_cons_of_mem _ hj) hk)
      refine ⟨kn', ?_, fun j => ?_⟩
      · show (if i ∈ kn then none else scan (i :: kn) (body k _)) = _
        rw [if_neg hik, scan_body k _ ps (reprAll_length nm ps) hw.1, h3]
      · rw [h4, List.mem_cons, List.mem_cons]
        tauto
theorem scan_all (h : Nat → Option (Kind × List Val)) : ∀ (ps : List Val) (nm kn : List Nat), allInHeap h ps → allWellMade ps →
    (∀ i ∈ nm, i ∈ kn) → (∀ i ∈ idsAll ps, i ∈ kn → i ∈ nm) →
    ∃ kn', scanAll kn (reprAll nm ps).1 = some kn' ∧ (∀ i, i ∈ kn' ↔ i ∈ kn ∨ i ∈ (reprAll nm ps).2)
  | [], nm, kn, _, _, h1, _ => ⟨kn, by rw [reprAll]; rfl, fun i => by
      rw [reprAll]
      exact ⟨.inl, fun h => h.elim id (h1 i)⟩⟩
  | p :: ps, nm, kn, hh, hw, h1, h2 => by
    rw [allInHeap] at hh
    rw [allWellMade] at hw
    obtain ⟨kn1, h3, h4⟩ := scan_val h p nm kn hh.1 hw.1 h1 (fun j hj => h2 j (by rw [idsAll]; exact List.mem_append_left _ hj))
    have hmono := (names_val p nm nm hw.1 fun _ => Iff.rfl).2
    obtain ⟨kn2, h5, h6⟩ := scan_all h ps (reprVal nm p).2 kn1 hh.2 hw.2 (fun j hj => (h4 j).mpr (.inr hj))
      (fun j hj hk => by
        rcases (h4 j).mp hk with hk | hk
        · exact (hmono j).mp (List.mem_append_right _ (h2 j (by rw [idsAll]; exact List.mem_append_right _ hj) hk))
        · exact hk)
    have hmono2 := (names_all ps (reprVal nm p).2 (reprVal nm p).2 hw.2 fun _ => Iff.rfl).2
    refine ⟨kn2, ?_, fun j => ?_⟩
    · rw [reprAll]
      show (scan kn (reprVal nm p).1).bind _ = _
      rw [h3]
      exact h5
    · rw [h6, h4, reprAll]
      show _ ↔ _ ∨ j ∈ (reprAll (reprVal nm p).2 ps).2
      have := fun h : j ∈ (reprVal nm p).2 => (hmono2 j).mp (List.mem_append_right _ h)
      tauto
end

/-! ## After `cleanup` -/

theorem scan_clean (K : Nat → Option Nat) (hK : ∀ i j n, K i = some n → K j = some n → i = j) :
    ∀ (ts : List Tok) (kn kn' : List Nat), scan kn ts = some kn' → (scan (kn.filterMap K) (clean K ts)).isSome
  | [], _, _, _ => rfl
  | t :: ts, kn, kn', h => by
    show (scan _ (cleanTok K t ++ clean K ts)).isSome = true
    cases t with
    | use i =>
      rw [scan] at h
      split at h
      · rename_i hi
        rw [cleanTok]
        cases hKi : K i with
        | none => exact scan_clean K hK ts kn kn' h
        | some n =>
          show (if n ∈ _ then scan _ (clean K ts) else none).isSome = true
          rw [if_pos (List.mem_filterMap.mpr ⟨i, hi, hKi⟩)]
          exact scan_clean K hK ts kn kn' h
      · cases h
    | bind i =>
      rw [scan] at h
      split at h
      · cases h
      · rename_i hi
        have ih := scan_clean K hK ts (i :: kn) kn' h
        rw [cleanTok]
        cases hKi : K i with
        | none =>
          rw [List.filterMap_cons, hKi] at ih
          exact ih
        | some n =>
          rw [List.filterMap_cons, hKi] at ih
          show (if n ∈ _ then none else scan (n :: _) (clean K ts)).isSome = true
          rw [if_neg]
          · exact ih
          · intro hm
            obtain ⟨j, hj, hKj⟩ := List.mem_filterMap.mp hm
            exact hi (hK j i n hKj hKi ▸ hj)
    | _ => exact scan_clean K hK ts kn kn' h

/-- In a text where every name is assigned before it is used, the assigned names are the names in
    order of first appearance. -/
theorem assigned_firsts : ∀ (ts : List Tok) (kn kn' : List Nat), scan kn ts = some kn' → assigned ts = firsts kn (namesOf ts)
  | [], _, _, _ => rfl
  | t :: ts, kn, kn', h => by
    cases t with
    | use i =>
      rw [scan] at h
      split at h
      · rename_i hi
        show assigned ts = firsts kn (i :: namesOf ts)
        rw [firsts, if_pos hi]
        exact assigned_firsts ts kn kn' h
      · cases h
    | bind i =>
      rw [scan] at h
      split at h
      · cases h
      · rename_i hi
        show i :: assigned ts = firsts kn (i :: namesOf ts)
        rw [firsts, if_neg hi, assigned_firsts ts (i :: kn) kn' h]
    | _ => exact assigned_firsts ts kn kn' h

theorem assigned_clean (K : Nat → Option Nat) : ∀ ts : List Tok, assigned (clean K ts) = (assigned ts).filterMap K
  | [] => rfl
  | t :: ts => by
    show assigned (cleanTok K t ++ clean K ts) = _
    cases t with
    | use i =>
      rw [cleanTok]
      cases K i <;> exact assigned_clean K ts
    | bind i =>
      rw [cleanTok]
      show _ = (i :: assigned ts).filterMap K
      rw [List.filterMap_cons]
      cases K i with
      | none => exact assigned_clean K ts
      | some n => exact congrArg (n :: ·) (assigned_clean K ts)
    | _ => exact assigned_clean K ts

theorem firsts_nodup : ∀ (is seen : List Nat), (firsts seen is).Nodup
  | [], _ => by rw [firsts]; exact List.nodup_nil
  | i :: is, seen => by
    rw [firsts]
    split
    · exact firsts_nodup is seen
    · exact List.nodup_cons.mpr ⟨fun h => ((firsts_mem _ _ _).mp h).2 (List.mem_cons_self ..), firsts_nodup is _⟩

theorem numbered (all : List Nat) : ∀ (is : List Nat) (n : Nat), is.Nodup →
    is.filterMap (renumber (remaps all n is)) = List.range' n (is.countP fun i => decide (1 < all.count i))
  | [], n, _ => rfl
  | i :: is, n, h => by
    obtain ⟨h1, h2⟩ := List.nodup_cons.mp h
    rw [remaps]
    by_cases hc : all.count i > 1
    · rw [if_pos hc, List.filterMap_cons, renumber, if_pos rfl, List.countP_cons_of_pos (by simpa using hc), List.range'_succ]
      simp only
      rw [← numbered all is (n + 1) h2]
      congr 1
      apply List.filterMap_congr
      intro j hj
      rw [renumber, if_neg]
      rintro rfl
      exact h1 hj
    · rw [if_neg hc, List.countP_cons_of_neg (by simpa using hc), List.filterMap_cons]
      have : renumber (remaps all n is) i = none := by
        have := renumber_remaps all is n i
        cases hr : renumber (remaps all n is) i with
        | none => rfl
        | some m => rw [hr] at this; exact absurd (this.mp rfl).1 h1
      rw [this]
      exact numbered all is n h2

end Verif.Repro
