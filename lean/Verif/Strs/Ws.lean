import Verif.Strs.Parts
/-
Lemmas about splitting at whitespace and about the case predicates.
-/
namespace Verif.Strs

variable {p : Nat → Bool}

theorem searchWs_none {t : Str} (h : searchWs p t = none) : ∀ c ∈ t, p c = false := by
  unfold searchWs at h
  rw [Option.map_eq_none_iff, List.findIdx?_eq_none_iff] at h
  exact h

theorem mem_takeWhile_p {s : Str} {c : Nat} (h : c ∈ s.takeWhile p) : p c = true := by
  have := List.all_takeWhile (p := p) (l := s)
  rw [List.all_eq_true] at this
  exact this c h

theorem searchWs_some {t : Str} {i j : Nat} (h : searchWs p t = some (i, j)) :
    ∃ w r s, t = w ++ r ++ s ∧ w.length = i ∧ (w ++ r).length = j ∧ r ≠ [] ∧ (∀ c ∈ w, p c = false) ∧
      (∀ c ∈ r, p c = true) ∧ (∀ c, s.head? = some c → p c = false) := by
  unfold searchWs at h
  rw [Option.map_eq_some_iff] at h
  obtain ⟨k, hk, he⟩ := h
  simp only [Prod.mk.injEq] at he
  obtain ⟨rfl, rfl⟩ := he
  rw [List.findIdx?_eq_some_iff_getElem] at hk
  obtain ⟨hl, h1, h2⟩ := hk
  refine ⟨t.take k, (t.drop k).takeWhile p, (t.drop k).dropWhile p, ?_, by simp; omega, ?_, ?_, ?_, ?_, ?_⟩
  · rw [List.append_assoc, List.takeWhile_append_dropWhile, List.take_append_drop]
  · rw [List.length_append, List.length_take]; congr 1; omega
  · rw [List.drop_eq_getElem_cons hl, List.takeWhile_cons, if_pos h1]; simp
  · intro c hc
    rw [List.mem_take_iff_getElem] at hc
    obtain ⟨j, hj, rfl⟩ := hc
    simpa using h2 j (by omega)
  · intro c hc; exact mem_takeWhile_p hc
  · intro c hc
    have := List.head?_dropWhile_not (p := p) (l := t.drop k)
    rw [hc] at this
    simpa using this

theorem isWs_prepend {lim : Option Nat} {s : Str} {ps : List Str} (h : IsWsSplit p lim s ps)
    {r : Str} (hr : ∀ c ∈ r, p c = true) : IsWsSplit p lim (r ++ s) ps := by
  cases h with
  | empty _ _ hws =>
    refine IsWsSplit.empty _ _ ?_
    intro c hc
    rcases List.mem_append.mp hc with hc | hc
    · exact hr c hc
    · exact hws c hc
  | rest ws s c hws hh hc =>
    rw [← List.append_assoc]
    refine IsWsSplit.rest (r ++ ws) _ c ?_ hh hc
    intro c hc
    rcases List.mem_append.mp hc with hc | hc
    · exact hr c hc
    · exact hws c hc
  | word _ ws w s ps hl hws hw1 hw2 hs hps =>
    rw [← List.append_assoc, ← List.append_assoc]
    refine IsWsSplit.word lim (r ++ ws) w s ps hl ?_ hw1 hw2 hs hps
    intro c hc
    rcases List.mem_append.mp hc with hc | hc
    · exact hr c hc
    · exact hws c hc

theorem isWs_append {s : Str} {ps : List Str} {lim : Option Nat} (h : IsWsSplit p lim s ps)
    (hn : lim = none) {r : Str} (hr : ∀ c ∈ r, p c = true) : IsWsSplit p lim (s ++ r) ps := by
  induction h with
  | empty lim ws hws =>
    refine IsWsSplit.empty _ _ ?_
    intro c hc
    rcases List.mem_append.mp hc with hc | hc
    · exact hws c hc
    · exact hr c hc
  | rest => simp at hn
  | word lim ws w s ps hl hws hw1 hw2 hs hps ih =>
    rw [List.append_assoc]
    refine IsWsSplit.word lim ws w (s ++ r) ps hl hws hw1 hw2 ?_ (ih (by rw [hn]; rfl))
    intro c hc
    cases s with
    | nil =>
      simp only [List.nil_append] at hc
      exact hr c (List.mem_of_mem_head? hc)
    | cons d s =>
      simp at hc
      exact hs c (by simp [hc])

/-- A non-empty string that neither starts nor ends with whitespace. -/
def Trim (p : Nat → Bool) (t : Str) : Prop :=
  t ≠ [] ∧ (∀ c, t.head? = some c → p c = false) ∧ (∀ c, t.getLast? = some c → p c = false)

theorem trim_tail {w r s : Str} (h : Trim p (w ++ r ++ s)) (hr : r ≠ []) (hrp : ∀ c ∈ r, p c = true)
    (hs : ∀ c, s.head? = some c → p c = false) : w ≠ [] ∧ Trim p s := by
  obtain ⟨h1, h2, h3⟩ := h
  constructor
  · rintro rfl
    cases r with
    | nil => exact hr rfl
    | cons c r =>
      have := h2 c (by simp)
      rw [hrp c (by simp)] at this
      simp at this
  · have hne : s ≠ [] := by
      rintro rfl
      obtain ⟨r', c, rfl⟩ := List.eq_nil_or_concat r |>.resolve_left hr
      have := h3 c (by simp)
      rw [hrp c (by simp)] at this
      simp at this
    refine ⟨hne, hs, ?_⟩
    intro c hc
    refine h3 c ?_
    rw [List.getLast?_append, hc]
    rfl

theorem isWs_whole {t : Str} (lim : Option Nat) (h : Trim p t) (hl : lim = some 0 ∨ ∀ c ∈ t, p c = false) :
    IsWsSplit p lim t [t] := by
  by_cases h0 : lim = some 0
  · subst h0
    cases ht : t with
    | nil => exact absurd ht h.1
    | cons c t' =>
      exact IsWsSplit.rest [] (c :: t') c (by simp) rfl (h.2.1 c (by rw [ht]; rfl))
  · have h1 := hl.resolve_left h0
    have := IsWsSplit.word lim [] t [] [] h0 (by simp) h.1 h1 (by simp) (IsWsSplit.empty _ [] (by simp))
    simpa using this

theorem splitParts_spec : ∀ (fuel : Nat) (lim : Option Nat) (t : Str), t.length < fuel → Trim p t →
    IsWsSplit p lim t (splitParts p fuel lim t) := by
  intro fuel
  induction fuel with
  | zero => intro _ _ h; omega
  | succ fuel ih =>
    intro lim t hlen ht
    unfold splitParts
    by_cases h0 : lim = some 0
    · rw [if_pos h0]; exact isWs_whole _ ht (Or.inl h0)
    · rw [if_neg h0]
      cases hs : searchWs p t with
      | none => exact isWs_whole _ ht (Or.inr (searchWs_none hs))
      | some ij =>
        obtain ⟨i, j⟩ := ij
        obtain ⟨w, r, s, rfl, hw, hj, hr, hw2, hr2, hs2⟩ := searchWs_some hs
        obtain ⟨hw3, ht2⟩ := trim_tail ht hr hr2 hs2
        simp only
        have hsl : 0 < s.length := List.length_pos_iff.mpr ht2.1
        have hrl : 0 < r.length := List.length_pos_iff.mpr hr
        have hjl := hj
        rw [List.length_append] at hjl
        rw [if_neg (by simp; omega), cut_to, ← hw, ← hj, List.drop_left, List.append_assoc, List.take_left]
        have := IsWsSplit.word lim [] w (r ++ s) (splitParts p fuel (lim.map (· - 1)) s) h0 (by simp) hw3 hw2
          (by
            intro c hc
            cases r with
            | nil => exact absurd rfl hr
            | cons d r => simp at hc; exact hr2 c (by simp [hc]))
          (isWs_prepend (ih _ s (by simp at hlen; omega) ht2) hr2)
        simpa using this

theorem trim_strip {s : Str} (h : strip p s ≠ []) :
    ∃ a b, s = a ++ strip p s ++ b ∧ (∀ c ∈ a, p c = true) ∧ (∀ c ∈ b, p c = true) ∧ Trim p (strip p s) := by
  obtain ⟨a, h1, h2, h3⟩ := lstrip_spec p s
  obtain ⟨b, g1, g2, g3⟩ := rstrip_spec p (lstrip p s)
  refine ⟨a, b, ?_, h2, g2, h, ?_, g3⟩
  · unfold strip
    rw [List.append_assoc, ← g1]
    exact h1
  · intro c hc
    refine h3 c ?_
    rw [g1, List.head?_append]
    unfold strip at hc
    rw [hc]; rfl

theorem strip_nil {s : Str} (h : strip p s = []) : ∀ c ∈ s, p c = true := by
  obtain ⟨a, h1, h2, h3⟩ := lstrip_spec p s
  obtain ⟨b, g1, g2, g3⟩ := rstrip_spec p (lstrip p s)
  unfold strip at h
  rw [h] at g1
  intro c hc
  rw [h1, g1] at hc
  simp at hc
  rcases hc with hc | hc
  · exact h2 c hc
  · exact g2 c hc

theorem splitWs_spec (s : Str) (n : Int) (h : n ≤ 0 ∨ ∀ c, s.getLast? = some c → p c = false) :
    IsWsSplit p (asLimit n) s (splitWs p s n) := by
  unfold splitWs
  by_cases h0 : n = 0
  · subst h0
    rw [if_pos rfl]
    simp only
    obtain ⟨a, h1, h2, h3⟩ := lstrip_spec p s
    by_cases hl : (lstrip p s).length = 0
    · rw [if_pos hl]
      have : lstrip p s = [] := List.length_eq_zero_iff.mp hl
      rw [this] at h1
      refine IsWsSplit.empty _ _ ?_
      rw [h1]; simpa using h2
    · rw [if_neg hl]
      cases hc : (lstrip p s).head? with
      | none => rw [List.head?_eq_none_iff] at hc; rw [hc] at hl; simp at hl
      | some c =>
        have := IsWsSplit.rest a (lstrip p s) c h2 hc (h3 c hc)
        rw [← h1] at this
        exact this
  · rw [if_neg h0]
    simp only
    by_cases hl : (strip p s).length = 0
    · rw [if_pos hl]
      exact IsWsSplit.empty _ _ (strip_nil (List.length_eq_zero_iff.mp hl))
    · rw [if_neg hl]
      have hne : strip p s ≠ [] := fun e => hl (by rw [e]; rfl)
      obtain ⟨a, b, h1, h2, h3, h4⟩ := trim_strip hne
      have hlim : (if n < 0 then none else some n.toNat) = asLimit n := rfl
      rw [hlim]
      have hsp := splitParts_spec (p := p) ((strip p s).length + 1) (asLimit n) (strip p s) (by omega) h4
      generalize splitParts p ((strip p s).length + 1) (asLimit n) (strip p s) = ps at hsp ⊢
      rcases h with h | h
      · have := isWs_prepend (isWs_append hsp (by unfold asLimit; rw [if_pos (by omega)]) h3) h2
        rw [← List.append_assoc, ← h1] at this
        exact this
      · have hb : b = [] := by
          by_contra hb
          obtain ⟨b', c, rfl⟩ := List.eq_nil_or_concat b |>.resolve_left hb
          have := h c (by rw [h1]; simp)
          rw [h3 c (by simp)] at this
          simp at this
        subst hb
        have := isWs_prepend hsp h2
        rw [List.append_nil] at h1
        rw [← h1] at this
        exact this

/-- Words and the runs between them. -/
def flat (w0 : Str) (D : List (Str × Str)) : Str := w0 ++ D.flatMap fun d => d.1 ++ d.2

/-- Where the runs are, from position `k` on. -/
def posns : Nat → List (Str × Str) → List (Nat × Nat)
  | _, [] => []
  | k, (r, w) :: D => (k, k + r.length) :: posns (k + r.length + w.length) D

/-- Words are non-empty and without whitespace, runs are non-empty and of whitespace. -/
def Good (p : Nat → Bool) (w0 : Str) (D : List (Str × Str)) : Prop :=
  (w0 ≠ [] ∧ ∀ c ∈ w0, p c = false) ∧
  ∀ d ∈ D, d.1 ≠ [] ∧ (∀ c ∈ d.1, p c = true) ∧ d.2 ≠ [] ∧ ∀ c ∈ d.2, p c = false

theorem decompose : ∀ (fuel off : Nat) (t : Str), t.length < fuel → Trim p t →
    ∃ w0 D, Good p w0 D ∧ t = flat w0 D ∧ findAllWs p fuel off t = posns (off + w0.length) D := by
  intro fuel
  induction fuel with
  | zero => intro _ _ h; omega
  | succ fuel ih =>
    intro off t hlen ht
    unfold findAllWs
    cases hs : searchWs p t with
    | none => exact ⟨t, [], ⟨⟨ht.1, searchWs_none hs⟩, by simp⟩, by simp [flat], rfl⟩
    | some ij =>
      obtain ⟨i, j⟩ := ij
      obtain ⟨w, r, s, rfl, hw, hj, hr, hw2, hr2, hs2⟩ := searchWs_some hs
      obtain ⟨hw3, ht2⟩ := trim_tail ht hr hr2 hs2
      have hrl : 0 < r.length := List.length_pos_iff.mpr hr
      have hjl := hj
      rw [List.length_append] at hjl
      obtain ⟨w0, D, g1, g2, g3⟩ := ih (off + j) s (by simp at hlen; omega) ht2
      refine ⟨w, (r, w0) :: D, ⟨⟨hw3, hw2⟩, ?_⟩, ?_, ?_⟩
      · intro d hd
        rcases List.mem_cons.mp hd with rfl | hd
        · exact ⟨hr, hr2, g1.1⟩
        · exact g1.2 d hd
      · rw [g2]; simp [flat, List.append_assoc]
      · simp only
        have e : (w ++ r ++ s).drop j = s := by rw [← hj, List.drop_left]
        rw [e, g3]
        simp only [posns]
        rw [← hjl, hw]
        simp only [Nat.add_assoc]

theorem posns_snoc (r w : Str) : ∀ (D : List (Str × Str)) (k : Nat),
    posns k (D ++ [(r, w)]) = posns k D ++
      [(k + (D.flatMap fun d => d.1 ++ d.2).length, k + (D.flatMap fun d => d.1 ++ d.2).length + r.length)] := by
  intro D
  induction D with
  | nil => intro k; simp [posns]
  | cons d D ih =>
    intro k
    obtain ⟨r', w'⟩ := d
    simp only [List.cons_append, posns, ih, List.flatMap_cons, List.length_append]
    congr 3 <;> simp <;> omega

theorem flat_snoc (w0 r w : Str) (D : List (Str × Str)) :
    flat w0 (D ++ [(r, w)]) = flat w0 D ++ r ++ w := by
  simp [flat, List.append_assoc]

theorem flat_length (w0 : Str) (D : List (Str × Str)) :
    (flat w0 D).length = w0.length + (D.flatMap fun d => d.1 ++ d.2).length := by
  simp [flat]

theorem trim_reverse {t : Str} (h : Trim p t) : Trim p t.reverse := by
  obtain ⟨h1, h2, h3⟩ := h
  refine ⟨by simpa using h1, ?_, ?_⟩
  · intro c hc; rw [List.head?_reverse] at hc; exact h3 c hc
  · intro c hc; rw [List.getLast?_reverse] at hc; exact h2 c hc

theorem trim_flat {w0 : Str} {D : List (Str × Str)} (h : Good p w0 D) : Trim p (flat w0 D) := by
  obtain ⟨⟨h1, h2⟩, h3⟩ := h
  refine ⟨by simp [flat, h1], ?_, ?_⟩
  · intro c hc
    cases w0 with
    | nil => exact absurd rfl h1
    | cons d w0 => simp [flat] at hc; exact h2 c (by simp [hc])
  · intro c hc
    rcases List.eq_nil_or_concat D with rfl | ⟨D', ⟨r, w⟩, rfl⟩
    · simp [flat] at hc; exact h2 c (List.mem_of_getLast? hc)
    · have := h3 (r, w) (by simp)
      rw [List.concat_eq_append, flat_snoc, List.getLast?_append] at hc
      cases hl : w.getLast? with
      | none => rw [List.getLast?_eq_none_iff] at hl; exact absurd hl this.2.2.1
      | some d =>
        rw [hl] at hc
        simp at hc
        rw [← hc]
        exact this.2.2.2 d (List.mem_of_getLast? hl)

theorem rsplitPartsLoop_spec (s w0 : Str) : ∀ (D' D : List (Str × Str)) (stop : Nat) (n : Int),
    D = D'.reverse → Good p w0 D → s.take stop = flat w0 D → stop = (flat w0 D).length → 0 ≤ n →
    IsWsSplit p (some n.toNat) (flat w0 D).reverse
      ((rsplitPartsLoop s (posns w0.length D).reverse stop n).map List.reverse) := by
  intro D'
  induction D' with
  | nil =>
    intro D stop n hD hg hs _ hn
    simp only [List.reverse_nil] at hD
    subst hD
    simp only [posns, List.reverse_nil, rsplitPartsLoop, List.map_cons, List.map_nil, cut_to, hs]
    refine isWs_whole _ (trim_reverse (trim_flat hg)) (Or.inr ?_)
    intro c hc
    simp [flat] at hc
    exact hg.1.2 c hc
  | cons d D' ih =>
    intro D stop n hD hg hs hst hn
    obtain ⟨r, w⟩ := d
    rw [List.reverse_cons] at hD
    have hgd : Good p w0 D'.reverse := ⟨hg.1, fun d hd => hg.2 d (by rw [hD]; exact List.mem_append_left _ hd)⟩
    have hrw := hg.2 (r, w) (by rw [hD]; simp)
    simp only at hrw
    have htrim := trim_reverse (trim_flat hg)
    rw [hD, posns_snoc, List.reverse_append, List.reverse_singleton, List.singleton_append]
    rw [hD, flat_snoc] at hs hst htrim
    rw [flat_snoc]
    unfold rsplitPartsLoop
    by_cases h0 : n ≤ 0
    · rw [if_pos h0, cut_to, hs]
      exact isWs_whole _ htrim (Or.inl (by congr 1; omega))
    · rw [if_neg h0, ← flat_length, cut_mid, hs]
      have e1 : List.drop ((flat w0 D'.reverse).length + r.length) (flat w0 D'.reverse ++ r ++ w) = w := by
        rw [← List.length_append, List.drop_left]
      rw [e1]
      have hpre : s.take (flat w0 D'.reverse).length = flat w0 D'.reverse := by
        have := congrArg (List.take (flat w0 D'.reverse).length) hs
        rw [List.take_take, List.append_assoc, List.take_left] at this
        rw [Nat.min_eq_left (by rw [hst]; simp)] at this
        exact this
      have hr := ih D'.reverse (flat w0 D'.reverse).length (n - 1) rfl hgd hpre rfl (by omega)
      have hlim : (some n.toNat : Option Nat).map (· - 1) = some (n - 1).toNat := by
        simp
      have := IsWsSplit.word (p := p) (some n.toNat) [] w.reverse (r.reverse ++ (flat w0 D'.reverse).reverse) _
        (by simp; omega) (by simp) (by simpa using hrw.2.2.1)
        (by intro c hc; exact hrw.2.2.2 c (by simpa using hc))
        (by
          intro c hc
          have hne : r.reverse ≠ [] := by simpa using hrw.1
          cases hr' : r.reverse with
          | nil => exact absurd hr' hne
          | cons d r' =>
            rw [hr'] at hc
            simp at hc
            exact hrw.2.1 c (by rw [← List.mem_reverse, hr', hc]; simp))
        (by
          rw [hlim]
          exact isWs_prepend hr (fun c hc => hrw.2.1 c (by simpa using hc)))
      simpa [List.append_assoc] using this

theorem rsplitParts_spec {s : Str} (n : Int) (hn : 0 ≤ n) (h : Trim p s) :
    IsWsRsplit p (some n.toNat) s (rsplitParts p s n) := by
  obtain ⟨w0, D, h1, h2, h3⟩ := decompose (p := p) (s.length + 1) 0 s (by omega) h
  have := rsplitPartsLoop_spec (p := p) s w0 D.reverse D s.length n (by simp) h1 (by simpa using h2)
    (by rw [← h2]) hn
  unfold rsplitParts IsWsRsplit
  rw [h3, Nat.zero_add]
  simp only
  cases D with
  | nil =>
    rw [if_pos (by rfl)]
    have hw : s = w0 := by simpa [flat] using h2
    refine isWs_whole _ (trim_reverse h) (Or.inr ?_)
    intro c hc
    rw [hw] at hc
    exact h1.1.2 c (by simpa using hc)
  | cons d D =>
    rw [if_neg (by simp [posns]), List.reverse_reverse]
    rw [← h2] at this
    exact this

theorem isWs_unlimited {lim : Option Nat} {s : Str} {ps : List Str} (h : IsWsSplit p lim s ps) :
    ∀ n, lim = some n → s.length < n → IsWsSplit p none s ps := by
  induction h with
  | empty lim ws hws => intro n _ _; exact IsWsSplit.empty _ _ hws
  | rest ws s c _ _ _ => intro n hn hl; simp at hn; omega
  | word lim ws w s ps hl hws hw1 hw2 hs hps ih =>
    intro n hn hlen
    have : 0 < w.length := List.length_pos_iff.mpr hw1
    simp at hlen
    exact IsWsSplit.word none ws w s ps (by simp) hws hw1 hw2 hs (ih (n - 1) (by rw [hn]; rfl) (by omega))

theorem rsplitWs_spec (maxsize : Int) (s : Str) (hm : s.length < maxsize) (n : Int)
    (h : n ≤ 0 ∨ ∀ c, s.head? = some c → p c = false) :
    IsWsRsplit p (asLimit n) s (rsplitWs p maxsize s n) := by
  unfold rsplitWs
  by_cases h0 : n = 0
  · subst h0
    rw [if_pos rfl]
    simp only
    obtain ⟨b, h1, h2, h3⟩ := rstrip_spec p s
    unfold IsWsRsplit
    by_cases hl : (rstrip p s).length = 0
    · rw [if_pos hl]
      have : rstrip p s = [] := List.length_eq_zero_iff.mp hl
      rw [this] at h1
      refine IsWsSplit.empty _ _ ?_
      rw [h1]; simpa using h2
    · rw [if_neg hl]
      cases hc : (rstrip p s).getLast? with
      | none => rw [List.getLast?_eq_none_iff] at hc; rw [hc] at hl; simp at hl
      | some c =>
        have := IsWsSplit.rest b.reverse (rstrip p s).reverse c (by simpa using h2)
          (by rw [List.head?_reverse]; exact hc) (h3 c hc)
        rw [← List.reverse_append, ← h1] at this
        exact this
  · rw [if_neg h0]
    simp only
    by_cases hl : (strip p s).length = 0
    · rw [if_pos hl]
      refine IsWsSplit.empty _ _ ?_
      have := strip_nil (List.length_eq_zero_iff.mp hl)
      simpa using this
    · rw [if_neg hl]
      have hne : strip p s ≠ [] := fun e => hl (by rw [e]; rfl)
      obtain ⟨a, b, h1, h2, h3, h4⟩ := trim_strip hne
      have hrev : s.reverse = b.reverse ++ (strip p s).reverse ++ a.reverse := by
        conv_lhs => rw [h1]
        simp [List.append_assoc]
      have hlen : (strip p s).length ≤ s.length := by
        conv_rhs => rw [h1]
        simp; omega
      unfold IsWsRsplit
      rw [hrev]
      by_cases hneg : n < 0
      · rw [if_pos hneg]
        have hlim : asLimit n = none := by unfold asLimit; rw [if_pos hneg]
        rw [hlim]
        have := isWs_unlimited (rsplitParts_spec (p := p) maxsize (by omega) h4) _ rfl (by simp; omega)
        rw [List.append_assoc]
        exact isWs_prepend (isWs_append this rfl (by simpa using h2)) (by simpa using h3)
      · rw [if_neg hneg]
        have hlim : asLimit n = some n.toNat := by unfold asLimit; rw [if_neg hneg]
        rw [hlim]
        have ha : a = [] := by
          by_contra ha
          cases a with
          | nil => exact ha rfl
          | cons c a' =>
            have := h.resolve_left (by omega) c (by rw [h1]; simp)
            rw [h2 c (by simp)] at this
            simp at this
        subst ha
        simp only [List.reverse_nil, List.append_nil]
        exact isWs_prepend (rsplitParts_spec (p := p) n (by omega) h4) (by simpa using h3)

theorem islowerLoop_spec (lower title : Nat → Bool) : ∀ (s : Str) (found : Bool),
    islowerLoop lower title found s = true ↔
      (∀ c ∈ s, title c = false) ∧ (found = true ∨ ∃ c ∈ s, lower c = true) := by
  intro s
  induction s with
  | nil => intro f; simp [islowerLoop]
  | cons c s ih =>
    intro f
    unfold islowerLoop
    by_cases h : title c = true
    · rw [if_pos h]; simp [h]
    · rw [if_neg h, ih]
      by_cases hl : lower c = true <;> simp [h, hl]

theorem isupperLoop_spec (lower upper title : Nat → Bool) : ∀ (s : Str) (found : Bool),
    isupperLoop lower upper title found s = true ↔
      (∀ c ∈ s, upper c = true ∨ (lower c = false ∧ title c = false)) ∧
        (found = true ∨ ∃ c ∈ s, upper c = true) := by
  intro s
  induction s with
  | nil => intro f; simp [isupperLoop]
  | cons c s ih =>
    intro f
    unfold isupperLoop
    by_cases h : upper c = true
    · rw [if_pos h, ih]; simp [h]
    · rw [if_neg h]
      by_cases hl : (lower c || title c) = true
      · rw [if_pos hl]
        simp [h]
        intro h1 h2
        simp [h1, h2] at hl
      · rw [if_neg hl, ih]
        simp [h] at hl ⊢
        simp [hl]

theorem istitleLoop_spec (lower title : Nat → Bool) (hd : ∀ c, title c = true → lower c = false) :
    ∀ (s : Str) (e found : Bool),
    (istitleLoop lower title e found s = true ↔
      (∀ a c b, s = a ++ c :: b →
        (title c = true → (a.getLast?.map fun d => lower d || title d).getD (!e) = false) ∧
        (lower c = true → (a.getLast?.map fun d => lower d || title d).getD (!e) = true)) ∧
      (found = true ∨ ∃ c ∈ s, title c = true)) := by
  intro s
  induction s with
  | nil => intro e f; simp [istitleLoop]
  | cons x s ih =>
    intro e f
    have key : ∀ e' : Bool, (!e') = (lower x || title x) →
        ((∀ a c b, x :: s = a ++ c :: b →
          (title c = true → (a.getLast?.map fun d => lower d || title d).getD (!e) = false) ∧
          (lower c = true → (a.getLast?.map fun d => lower d || title d).getD (!e) = true)) ↔
        ((title x = true → e = true) ∧ (lower x = true → e = false)) ∧
        (∀ a c b, s = a ++ c :: b →
          (title c = true → (a.getLast?.map fun d => lower d || title d).getD (!e') = false) ∧
          (lower c = true → (a.getLast?.map fun d => lower d || title d).getD (!e') = true))) := by
      intro e' he'
      have hb : ∀ a : Str, ((x :: a).getLast?.map fun d => lower d || title d).getD (!e) =
          (a.getLast?.map fun d => lower d || title d).getD (!e') := by
        intro a
        rw [List.getLast?_cons]
        cases a.getLast? with
        | none => simp [he']
        | some d => simp
      constructor
      · intro h
        constructor
        · have := h [] x s rfl
          simpa using this
        · intro a c b hs
          have := h (x :: a) c b (by rw [hs]; rfl)
          rw [hb] at this
          exact this
      · rintro ⟨h1, h2⟩ a c b hs
        cases a with
        | nil =>
          simp at hs
          rw [← hs.1]
          simpa using h1
        | cons y a =>
          simp at hs
          rw [← hs.1, hb]
          exact h2 a c b hs.2
    unfold istitleLoop
    by_cases ht : title x = true
    · have hl := hd x ht
      rw [if_pos ht]
      cases e with
      | false =>
        rw [if_pos (show (!false) = true from rfl), key false (by simp [ht])]
        simp [ht]
      | true =>
        rw [if_neg (by simp), ih, key false (by simp [ht])]
        simp [ht, hl]
    · rw [if_neg ht]
      by_cases hl : lower x = true
      · rw [if_pos hl]
        cases e with
        | true =>
          rw [if_pos rfl, key false (by simp [hl])]
          simp [hl]
        | false =>
          rw [if_neg (by simp), ih, key false (by simp [hl])]
          simp [ht]
      · rw [if_neg hl, ih, key true (by simp [hl, ht])]
        simp [ht, hl]

end Verif.Strs
