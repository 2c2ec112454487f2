import Verif.Regex.Lang

/-! Lemmas: expressions that the matcher can do by their looks, and the methods of patterns. -/
namespace Verif.Regex

/-! ## Looks -/

theorem unique_bind {l : List Hit} {f : Nat → List Hit} (hl : l.length ≤ 1) (hf : ∀ off, (f off).length ≤ 1) : (bindHits l f).length ≤ 1 := by
  match l, hl with
  | [], _ => simp [bind_nil]
  | [a], _ =>
    rw [bind_cons, bind_nil, List.append_nil, List.length_map]
    exact hf _

mutual
theorem det_runs (s : Subject) : ∀ p, Det p → ∀ off, (runs s p off).length ≤ 1
  | .char mask, _, off => by
    rw [runs]
    split
    · split <;> simp
    · simp
  | .rep greedy min max body, h, off => by
    rw [Det] at h
    obtain ⟨rfl, h⟩ := h
    rw [runs_rep]
    refine unique_bind (unique_times (det_seq s body h) min off) fun o => ?_
    simp [extra, more]
  | .branch _, h, _ => by rw [Det] at h; exact h.elim
  | .at kind, _, off => by
    rw [runs]
    split <;> simp
  | .ahead positive sub, _, off => by
    rw [runs]
    split <;> split <;> simp
  | .behind positive width sub, _, off => by
    rw [runs]
    split <;> split <;> simp
  | .group num sub, h, off => by
    rw [Det] at h
    rw [runs, List.length_map]
    exact det_seq s sub h off
  | .close num start, _, off => by simp [runs]
theorem det_seq (s : Subject) : ∀ ps, DetSeq ps → ∀ off, (runsSeq s ps off).length ≤ 1
  | [], _, off => by simp [runsSeq]
  | p :: ps, h, off => by
    rw [DetSeq] at h
    rw [runsSeq_cons]
    exact unique_bind (det_runs s p h.1 off) (det_seq s ps h.2)
end

/-- Bodies that consume at least so much. -/
def Wide (w : Nat) (f : Nat → List Hit) : Prop := ∀ off, ∀ h ∈ f off, off + w ≤ h.stop

theorem wide_bind {v w : Nat} {f g : Nat → List Hit} (hf : Wide v f) (hg : Wide w g) : Wide (v + w) fun o => bindHits (f o) g := by
  intro off h hh
  obtain ⟨a, ha, b, hb, rfl⟩ := mem_bind.1 hh
  have h1 := hf off a ha
  have h2 := hg a.stop b hb
  show off + (v + w) ≤ b.stop
  omega

theorem wide_times {w : Nat} {f : Nat → List Hit} (hf : Wide w f) : ∀ n, Wide (n * w) (times f n)
  | 0 => by
    intro off h hh
    simp only [times, List.mem_singleton] at hh
    subst hh
    simp [Hit.at]
  | n + 1 => by
    have := wide_bind hf (wide_times hf n)
    intro off h hh
    have := this off h hh
    rw [Nat.add_mul]
    omega

theorem wide_zero {s : Subject} {f : Nat → List Hit} (hf : Bounded s f) : Wide 0 f := fun off h hh => (hf off h hh).1

mutual
theorem wide_runs (s : Subject) : ∀ p, Wide (width p) (runs s p)
  | .char mask => by
    intro off h hh
    rw [runs] at hh
    split at hh
    · split at hh
      · simp only [List.mem_singleton] at hh
        subst hh
        simp [width, Hit.at]
      · cases hh
    · cases hh
  | .rep greedy min max body => by
    have h1 := wide_bind (wide_times (wide_seq s body) min) (wide_zero (bounded_more (greedy := greedy) (bounded_seq s body) (extra s min max) none))
    intro off h hh
    rw [runs_rep] at hh
    have := h1 off h hh
    rw [width]
    exact this
  | .branch alts => by
    intro off h hh
    rw [runs] at hh
    rw [width]
    exact wide_alts s alts off h hh
  | .at kind => by rw [width]; exact wide_zero (bounded_runs s _)
  | .ahead positive sub => by rw [width]; exact wide_zero (bounded_runs s _)
  | .behind positive w sub => by rw [width]; exact wide_zero (bounded_runs s _)
  | .group num sub => by
    intro off h hh
    rw [runs] at hh
    obtain ⟨a, ha, rfl⟩ := List.mem_map.1 hh
    rw [width]
    exact wide_seq s sub off a ha
  | .close num start => by rw [width]; exact wide_zero (bounded_runs s _)
theorem wide_seq (s : Subject) : ∀ ps, Wide (widthSeq ps) (runsSeq s ps)
  | [] => by rw [widthSeq]; exact wide_zero (bounded_seq s _)
  | p :: ps => by
    have := wide_bind (wide_runs s p) (wide_seq s ps)
    intro off h hh
    rw [runsSeq_cons] at hh
    rw [widthSeq]
    exact this off h hh
theorem wide_alts (s : Subject) : ∀ as, Wide (widthAlts as) (runsAlts s as)
  | [] => by
    intro off h hh
    rw [runsAlts] at hh
    cases hh
  | [a] => by
    intro off h hh
    rw [runsAlts, runsAlts, List.append_nil] at hh
    rw [widthAlts]
    exact wide_seq s a off h hh
  | a :: b :: as => by
    intro off h hh
    rw [runsAlts] at hh
    rw [widthAlts]
    · rcases List.mem_append.1 hh with hh | hh
      · have := wide_seq s a off h hh
        have := Nat.min_le_left (widthSeq a) (widthAlts (b :: as))
        have h0 : Nat.min (widthSeq a) (widthAlts (b :: as)) ≤ widthSeq a := this
        omega
      · have := wide_alts s (b :: as) off h hh
        have h0 : Nat.min (widthSeq a) (widthAlts (b :: as)) ≤ widthAlts (b :: as) := Nat.min_le_right _ _
        omega
    · simp
end

mutual
theorem plain_good (s : Subject) : ∀ p, Plain s.multiline p → Good s p
  | .char _, _ => by rw [Good]; trivial
  | .rep greedy min max body, h => by
    rw [Plain] at h
    rw [Good]
    refine ⟨h.1, det_seq s body h.2.1, fun off x hx => ?_, plain_goodSeq s body h.2.2.2⟩
    have := wide_seq s body off x hx
    have := h.2.2.1
    omega
  | .branch alts, h => by
    rw [Plain] at h
    rw [Good]
    exact ⟨h.1, plain_goodAlts s alts h.2⟩
  | .at kind, h => by
    rw [Plain] at h
    rw [Good]
    rcases h with rfl | rfl | ⟨rfl, h⟩ | ⟨rfl, h⟩
    · trivial
    · trivial
    · intro h'; rw [h] at h'; cases h'
    · exact .inl h
  | .ahead positive sub, h => by
    rw [Plain] at h
    rw [Good]
    exact ⟨h.1, plain_goodSeq s sub h.2⟩
  | .behind positive w sub, h => by
    rw [Plain] at h
    rw [Good]
    exact ⟨h.1, h.2.1, plain_goodSeq s sub h.2.2⟩
  | .group num sub, h => by
    rw [Plain] at h
    rw [Good]
    exact plain_goodSeq s sub h
  | .close num start, _ => by rw [Good]; trivial
theorem plain_goodSeq (s : Subject) : ∀ ps, PlainSeq s.multiline ps → GoodSeq s ps
  | [], _ => by rw [GoodSeq]; trivial
  | p :: ps, h => by
    rw [PlainSeq] at h
    rw [GoodSeq]
    exact ⟨plain_good s p h.1, plain_goodSeq s ps h.2⟩
theorem plain_goodAlts (s : Subject) : ∀ as, PlainAlts s.multiline as → GoodAlts s as
  | [], _ => by rw [GoodAlts]; trivial
  | a :: as, h => by
    rw [PlainAlts] at h
    rw [GoodAlts]
    exact ⟨plain_goodSeq s a h.1, plain_goodAlts s as h.2⟩
end

/-! ## The matcher at all positions -/

theorem pick_first (s : Subject) (pats : List Re) (off : Nat) (allow : Bool) :
    pick allow off (runsSeq s pats off) = match firstMatch s pats off allow with | some h => .hit h | none => .no := rfl

theorem go_all {s : Subject} {pats : List Re} (hg : GoodSeq s pats) (hn : (groupsSeq pats).Nodup) :
    ∃ N, ∀ n ≥ N, ∀ off ≤ s.text.length, ∀ allow, (go s n pats off allow).result = firstMatch s pats off allow := by
  have key : ∀ L ≤ s.text.length + 1, ∃ N, ∀ n ≥ N, ∀ off < L, ∀ allow, (go s n pats off allow).result = firstMatch s pats off allow := by
    intro L
    induction L with
    | zero => exact fun _ => ⟨0, fun _ _ off ho => by omega⟩
    | succ L ih =>
      intro hL
      obtain ⟨N, hN⟩ := ih (by omega)
      obtain ⟨N1, h1⟩ := go_exact s pats L true hg hn (by omega)
      obtain ⟨N2, h2⟩ := go_exact s pats L false hg hn (by omega)
      refine ⟨N + N1 + N2, fun n hn off ho allow => ?_⟩
      by_cases he : off < L
      · exact hN n (by omega) off he allow
      · obtain rfl : off = L := by omega
        have : go s n pats off allow = pick allow off (runsSeq s pats off) := by
          cases allow
          · exact h2 n (by omega)
          · exact h1 n (by omega)
        rw [this, pick_first]
        cases firstMatch s pats off allow <;> rfl
  obtain ⟨N, hN⟩ := key (s.text.length + 1) (Nat.le_refl _)
  exact ⟨N, fun n hn off ho allow => hN n hn off (by omega) allow⟩

theorem runs_full (s : Subject) (pats : List Re) (off : Nat) (hoff : off ≤ s.text.length) :
    runsSeq s (fullPattern pats) off = (runsSeq s pats off).filter fun h => h.stop = s.text.length := by
  rw [fullPattern, runsSeq_append]
  have hb : ∀ h ∈ runsSeq s pats off, h.stop ≤ s.text.length := fun h hh => by
    have := bounded_seq s pats off h hh
    omega
  generalize runsSeq s pats off = l at hb ⊢
  induction l with
  | nil => rfl
  | cons a l ih =>
    rw [bind_cons, ih fun h hh => hb h (by simp [hh]), runsSeq_cons, runs]
    have := hb a (by simp)
    by_cases h : a.stop = s.text.length
    · have h' : atHolds s a.stop .endingString = true := by simp [atHolds, h]
      rw [if_pos h', List.filter_cons_of_pos (by simpa using h)]
      rw [bind_at, runsSeq_nil, List.map_cons, Hit.add_at]
      rfl
    · have h' : ¬atHolds s a.stop .endingString = true := by simp [atHolds]; omega
      rw [if_neg h', List.filter_cons_of_neg (by simpa using h)]
      rfl

theorem groups_full (pats : List Re) : groupsSeq (fullPattern pats) = groupsSeq pats := by
  rw [fullPattern, groups_append]
  simp [groupsSeq, groupsOf]

theorem good_full {s : Subject} {pats : List Re} (h : GoodSeq s pats) : GoodSeq s (fullPattern pats) := by
  rw [fullPattern, good_append]
  refine ⟨h, ?_⟩
  simp [GoodSeq, Good, atFits]

/-! ## Searching -/

theorem searchLoop_spec (m : Nat → Option Hit) (endpos : Nat) (he : m endpos = none) : ∀ n pos, endpos < pos + n → Leftmost m pos endpos (searchLoop m endpos n pos)
  | 0, pos, h => by
    intro j h1 h2
    omega
  | n + 1, pos, h => by
    rw [searchLoop]
    by_cases hp : pos < endpos
    · rw [if_pos hp]
      cases hm : m pos with
      | some x => exact ⟨Nat.le_refl _, by omega, hm, fun j h1 h2 => by omega⟩
      | none =>
        simp only
        have ih := searchLoop_spec m endpos he n (pos + 1) (by omega)
        cases hs : searchLoop m endpos n (pos + 1) with
        | none =>
          rw [hs] at ih
          intro j h1 h2
          by_cases hj : j = pos
          · rw [hj]; exact hm
          · exact ih j (by omega) h2
        | some x =>
          rw [hs] at ih
          obtain ⟨h1, h2, h3, h4⟩ := ih
          refine ⟨by omega, h2, h3, fun j h5 h6 => ?_⟩
          by_cases hj : j = pos
          · rw [hj]; exact hm
          · exact h4 j (by omega) h6
    · rw [if_neg hp]
      intro j h1 h2
      obtain rfl : j = endpos := by omega
      exact he

theorem leftmost_unique {m : Nat → Option Hit} {pos endpos : Nat} : ∀ {a b : Option (Nat × Hit)}, Leftmost m pos endpos a → Leftmost m pos endpos b → a = b
  | none, none, _, _ => rfl
  | none, some (i, h), ha, ⟨h1, h2, h3, _⟩ => by rw [ha i h1 h2] at h3; cases h3
  | some (i, h), none, ⟨h1, h2, h3, _⟩, hb => by rw [hb i h1 h2] at h3; cases h3
  | some (i, h), some (j, k), ⟨h1, h2, h3, h4⟩, ⟨k1, k2, k3, k4⟩ => by
    have : i = j := by
      rcases Nat.lt_trichotomy i j with hlt | heq | hgt
      · rw [k4 i h1 hlt] at h3; cases h3
      · exact heq
      · rw [h4 j k1 hgt] at k3; cases k3
    subst this
    rw [h3] at k3
    cases k3
    rfl

theorem leftmost_congr {m m' : Nat → Option Hit} {pos endpos : Nat} (h : ∀ i, pos ≤ i → i ≤ endpos → m i = m' i) : ∀ {a : Option (Nat × Hit)}, Leftmost m pos endpos a → Leftmost m' pos endpos a
  | none, ha => fun j h1 h2 => by rw [← h j h1 h2]; exact ha j h1 h2
  | some (i, x), ⟨h1, h2, h3, h4⟩ => ⟨h1, h2, by rw [← h i h1 h2]; exact h3, fun j h5 h6 => by rw [← h j h5 (by omega)]; exact h4 j h5 h6⟩

theorem scan_unique {m : Nat → Bool → Option Hit} {endpos pos : Nat} {allow : Bool} {l l' : List (Nat × Hit)} (h : Scan m endpos pos allow l)
    (h' : Scan m endpos pos allow l') : l = l' := by
  induction h generalizing l' with
  | done h =>
    cases h' with
    | done _ => rfl
    | next k _ => exact absurd (leftmost_unique h k) (by simp)
  | next h _ ih =>
    cases h' with
    | done k => exact absurd (leftmost_unique h k) (by simp)
    | next k k' =>
      have := leftmost_unique h k
      cases this
      rw [ih k']

/-! ## Finding all matches -/

/-- What is asked of the matcher: matches end at the end of the text at the latest, and are empty only if that is allowed. -/
def Obeys (m : Nat → Bool → Option Hit) (endpos : Nat) : Prop :=
  ∀ i allow h, i ≤ endpos → m i allow = some h → i ≤ h.stop ∧ h.stop ≤ endpos ∧ (allow = false → i < h.stop)

theorem leftmost_skip {m : Nat → Bool → Option Hit} {endpos pos : Nat} {allow : Bool} (hm : m pos allow = none) :
    ∀ {r : Option (Nat × Hit)}, Leftmost (fun i => m i (true || decide (i ≠ pos + 1))) (pos + 1) endpos r → Leftmost (fun i => m i (allow || decide (i ≠ pos))) pos endpos r
  | none, h => by
    intro j h1 h2
    by_cases hj : j = pos
    · subst hj; simpa using hm
    · have := h j (by omega) h2
      simpa [hj] using this
  | some (i, x), ⟨h1, h2, h3, h4⟩ => by
    refine ⟨by omega, h2, ?_, fun j h5 h6 => ?_⟩
    · have : i ≠ pos := by omega
      simpa [this] using h3
    · by_cases hj : j = pos
      · subst hj; simpa using hm
      · have := h4 j (by omega) h6
        simpa [hj] using this

theorem finditer_scan {m : Nat → Bool → Option Hit} {endpos : Nat} (hm : Obeys m endpos) : ∀ n pos lastEmpty,
    2 * (endpos + 1 - pos) + (if lastEmpty then 0 else 1) < n → ∃ l, finditerLoop m endpos n pos lastEmpty = some l ∧ Scan m endpos pos (!lastEmpty) l
  | 0, pos, lastEmpty, h => by omega
  | n + 1, pos, lastEmpty, h => by
    rw [finditerLoop]
    by_cases hp : endpos < pos
    · rw [if_pos hp]
      exact ⟨[], rfl, .done fun j h1 h2 => by omega⟩
    · rw [if_neg hp]
      cases hx : m pos (!lastEmpty) with
      | none =>
        obtain ⟨l, h1, h2⟩ := finditer_scan hm n (pos + 1) false (by simp only [Bool.false_eq_true, if_false]; split at h <;> omega)
        refine ⟨l, h1, ?_⟩
        cases h2 with
        | done h2 => exact .done (leftmost_skip hx h2)
        | next h2 h3 => exact .next (leftmost_skip hx h2) h3
      | some x =>
        simp only
        obtain ⟨h1, h2, h3⟩ := hm pos _ x (by omega) hx
        have hl : Leftmost (fun i => m i (!lastEmpty || decide (i ≠ pos))) pos endpos (some (pos, x)) :=
          ⟨Nat.le_refl _, by omega, by simpa using hx, fun j h5 h6 => by omega⟩
        by_cases he : pos = x.stop
        · rw [if_pos he]
          have hle : lastEmpty = false := by
            cases lastEmpty
            · rfl
            · have := h3 rfl; omega
          subst hle
          obtain ⟨l, h4, h5⟩ := finditer_scan hm n pos true (by simp only [Bool.false_eq_true, if_false, if_true] at h ⊢; omega)
          refine ⟨(pos, x) :: l, by rw [h4]; rfl, .next hl ?_⟩
          rw [← he]
          simpa using h5
        · rw [if_neg he]
          obtain ⟨l, h4, h5⟩ := finditer_scan hm n x.stop false (by simp only [Bool.false_eq_true, if_false]; split at h <;> omega)
          refine ⟨(pos, x) :: l, by rw [h4]; rfl, .next hl ?_⟩
          have : pos < x.stop := by omega
          simpa [this] using h5

theorem first_obeys (s : Subject) (pats : List Re) : Obeys (firstMatch s pats) s.text.length := by
  intro i allow h hi hm
  have h1 := List.mem_of_find?_eq_some hm
  have h2 := List.find?_some hm
  have h3 := bounded_seq s pats i h h1
  refine ⟨h3.1, by omega, fun ha => ?_⟩
  subst ha
  simpa using h2

theorem finditer_congr {m m' : Nat → Bool → Option Hit} {endpos : Nat} (h : ∀ i ≤ endpos, ∀ a, m i a = m' i a) : ∀ n pos e,
    finditerLoop m endpos n pos e = finditerLoop m' endpos n pos e
  | 0, _, _ => rfl
  | n + 1, pos, e => by
    rw [finditerLoop, finditerLoop]
    by_cases hp : endpos < pos
    · rw [if_pos hp, if_pos hp]
    · rw [if_neg hp, if_neg hp, h pos (by omega)]
      simp only [finditer_congr h n]

theorem searchLoop_congr {m m' : Nat → Option Hit} {endpos : Nat} (h : ∀ i ≤ endpos, m i = m' i) : ∀ n pos, searchLoop m endpos n pos = searchLoop m' endpos n pos
  | 0, _ => rfl
  | n + 1, pos => by
    rw [searchLoop, searchLoop]
    by_cases hp : pos < endpos
    · rw [if_pos hp, if_pos hp, h pos (by omega)]
      simp only [searchLoop_congr h n]
    · rw [if_neg hp, if_neg hp]

/-! ## Splitting -/

theorem leftmost_true (m : Nat → Bool → Option Hit) (endpos pos : Nat) (r : Option (Nat × Hit)) :
    Leftmost (fun i => m i (true || decide (i ≠ pos))) pos endpos r ↔ Leftmost (fun i => m i true) pos endpos r := by
  simp

theorem search_left {m : Nat → Bool → Option Hit} {endpos : Nat} (he : m endpos true = none) (pos : Nat) : Leftmost (fun i => m i true) pos endpos (search (fun i => m i true) pos endpos) :=
  searchLoop_spec _ endpos he _ pos (by omega)

theorem split_spec {m : Nat → Bool → Option Hit} {text : List Nat} (hm : Obeys m text.length) (he : m text.length true = none) (maxsplit : Int) :
    ∀ n pos splits parts l, Scan m text.length pos true l → text.length < pos + n → pos ≤ text.length →
      (maxsplit ≠ 0 → splits ≤ maxsplit.toNat) →
      ∃ r, splitLoop (spans (fun i => m i true) text.length) text maxsplit n pos splits parts = some r ∧
        (r = .parts (parts ++ between text pos (if maxsplit = 0 then l else l.take (maxsplit.toNat - splits))) ∨
          r = .concrete ∧ ∃ i h, m i true = some h ∧ h.stop = i)
  | 0, pos, splits, parts, l, hs, hn, hp, hk => by omega
  | n + 1, pos, splits, parts, l, hs, hn, hp, hk => by
    rw [splitLoop]
    by_cases hx : maxsplit ≠ 0 ∧ maxsplit ≤ splits
    · rw [if_pos hx]
      refine ⟨_, rfl, .inl ?_⟩
      have : maxsplit.toNat - splits = 0 := by omega
      rw [if_neg hx.1, this]
      rfl
    · rw [if_neg hx]
      have hl := search_left he pos
      cases hr : search (fun i => m i true) pos text.length with
      | none =>
        rw [hr] at hl
        have hsp : spans (fun i => m i true) text.length pos = none := by rw [spans, hr]; rfl
        rw [hsp]
        refine ⟨_, rfl, .inl ?_⟩
        have : l = [] := scan_unique hs (.done ((leftmost_true m _ pos none).2 hl))
        subst this
        simp [between]
      | some r =>
        obtain ⟨i, x⟩ := r
        rw [hr] at hl
        have hsp : spans (fun i => m i true) text.length pos = some (i, x.stop) := by rw [spans, hr]; rfl
        rw [hsp]
        simp only
        obtain ⟨h1, h2, h3, h4⟩ := id hl
        obtain ⟨k1, k2, _⟩ := hm i true x h2 h3
        by_cases hix : i = x.stop
        · rw [if_pos hix]
          exact ⟨_, rfl, .inr ⟨rfl, i, x, h3, hix.symm⟩⟩
        · rw [if_neg hix]
          have hlt : i < x.stop := by omega
          cases hs with
          | done hd => exact absurd (leftmost_unique ((leftmost_true m _ pos _).1 hd) hl) (by simp)
          | next hd hrest =>
            have := leftmost_unique ((leftmost_true m _ pos _).1 hd) hl
            cases this
            rename_i l
            rw [decide_eq_true hlt] at hrest
            have htake : (if maxsplit = 0 then (i, x) :: l else ((i, x) :: l).take (maxsplit.toNat - splits)) =
                (i, x) :: (if maxsplit = 0 then l else l.take (maxsplit.toNat - (splits + 1))) := by
              by_cases hz : maxsplit = 0
              · rw [if_pos hz, if_pos hz]
              · rw [if_neg hz, if_neg hz]
                obtain ⟨k, hk'⟩ : ∃ k, maxsplit.toNat - splits = k + 1 := ⟨maxsplit.toNat - splits - 1, by omega⟩
                rw [hk', List.take_succ_cons]
                congr 2
                omega
            by_cases hend : x.stop = text.length
            · rw [if_pos hend]
              refine ⟨_, rfl, .inl ?_⟩
              rw [htake]
              have : l = [] := by
                refine scan_unique hrest (.done ?_)
                intro j h5 h6
                obtain rfl : j = text.length := by omega
                simpa using he
              subst this
              simp [between, hend]
            · rw [if_neg hend]
              obtain ⟨r, h5, h6⟩ := split_spec hm he maxsplit n x.stop (splits + 1) (parts ++ [(text.take i).drop pos]) l hrest (by omega) k2 (by omega)
              refine ⟨r, h5, ?_⟩
              rcases h6 with h6 | h6
              · left
                rw [h6, htake]
                simp [between]
              · exact .inr h6

/-! ## Strings without their beginning -/

/-- A subject without its first `k` characters. -/
def Subject.drop (s : Subject) (k : Nat) : Subject := { s with text := s.text.drop k }

/-- The same matches in a string without its first `k` characters. -/
def Shift (k : Nat) (f' f : Nat → List Hit) : Prop := ∀ i, (f' i).map (·.stop) = (f (k + i)).map (·.stop - k)

theorem bind_stops (l : List Hit) (f : Nat → List Hit) : (bindHits l f).map (·.stop) = (l.map (·.stop)).flatMap fun o => (f o).map (·.stop) := by
  induction l with
  | nil => rfl
  | cons a l ih =>
    rw [bind_cons, List.map_append, ih, List.map_cons, List.flatMap_cons, List.map_map]
    rfl

theorem bind_stops_sub (k : Nat) (l : List Hit) (f : Nat → List Hit) : (bindHits l f).map (·.stop - k) = (l.map (·.stop)).flatMap fun o => (f o).map (·.stop - k) := by
  induction l with
  | nil => rfl
  | cons a l ih =>
    rw [bind_cons, List.map_append, ih, List.map_cons, List.flatMap_cons, List.map_map]
    rfl

theorem shift_bind_at {k : Nat} {l' l : List Hit} {g' g : Nat → List Hit} (hl : l'.map (·.stop) = l.map (·.stop - k)) (hk : ∀ h ∈ l, k ≤ h.stop) (hg : Shift k g' g) :
    (bindHits l' g').map (·.stop) = (bindHits l g).map (·.stop - k) := by
  rw [bind_stops, bind_stops_sub, hl]
  clear hl
  induction l with
  | nil => rfl
  | cons a l ih =>
    rw [List.map_cons, List.map_cons, List.flatMap_cons, List.flatMap_cons, ih fun h hh => hk h (by simp [hh]), hg]
    have := hk a (by simp)
    rw [show k + (a.stop - k) = a.stop by omega]

theorem shift_bind {k : Nat} {f' f g' g : Nat → List Hit} {s : Subject} (hb : Bounded s f) (hf : Shift k f' f) (hg : Shift k g' g) :
    Shift k (fun o => bindHits (f' o) g') (fun o => bindHits (f o) g) := by
  intro i
  refine shift_bind_at (hf i) (fun h hh => ?_) hg
  have := hb (k + i) h hh
  omega

theorem shift_at (k : Nat) : Shift k (fun o => [.at o]) fun o => [.at o] := by
  intro i
  simp [Hit.at]

theorem shift_times {k : Nat} {f' f : Nat → List Hit} {s : Subject} (hb : Bounded s f) (hf : Shift k f' f) : ∀ n, Shift k (times f' n) (times f n)
  | 0 => shift_at k
  | n + 1 => shift_bind hb hf (shift_times hb hf n)

theorem shift_more {k : Nat} {f' f : Nat → List Hit} {s : Subject} {greedy : Bool} (hb : Bounded s f) (hc : Consumes f) (hc' : Consumes f') (hf : Shift k f' f) :
    ∀ n, Shift k (more greedy f' n none) (more greedy f n none)
  | 0 => shift_at k
  | n + 1 => by
    intro i
    have := shift_bind hb hf (shift_more hb hc hc' hf n (greedy := greedy)) i
    rw [more_unfold hc, more_unfold hc']
    cases greedy
    · simp only [Bool.false_eq_true, if_false, List.map_cons, this]
      simp [Hit.at]
    · simp only [if_true, List.map_append, this]
      simp [Hit.at]

theorem more_stable' {s : Subject} {greedy : Bool} {f : Nat → List Hit} (hc : Consumes f) (hb : Bounded s f) {n off : Nat} (h : s.text.length - off ≤ n) :
    ∀ d, more greedy f (n + d) none off = more greedy f n none off
  | 0 => rfl
  | d + 1 => by rw [show n + (d + 1) = (n + d) + 1 by omega, more_stable hc hb _ _ (by omega), more_stable' hc hb h d]

theorem shift_rep {s : Subject} {k : Nat} {greedy : Bool} {min : Nat} {max : Option Nat} {body : List Re} (hw : 0 < widthSeq body)
    (hf : Shift k (runsSeq (s.drop k) body) (runsSeq s body)) : Shift k (runs (s.drop k) (.rep greedy min max body)) (runs s (.rep greedy min max body)) := by
  have hc : ∀ s, Consumes (runsSeq s body) := fun s off h hh => by
    have := wide_seq s body off h hh
    omega
  intro i
  rw [runs_rep, runs_rep]
  refine shift_bind (bounded_times (bounded_seq s body) min) (shift_times (bounded_seq s body) hf min) ?_ i
  have hm := shift_more (greedy := greedy) (bounded_seq s body) (hc s) (hc _) hf
  cases max with
  | some m => exact hm (m - min)
  | none =>
    intro o
    have h1 : extra (s.drop k) min none = s.text.length - k + 1 := by simp [extra, Subject.drop]
    rw [h1, hm (s.text.length - k + 1) o]
    have h2 : extra s min none = s.text.length - k + 1 + (s.text.length - (s.text.length - k)) := by
      simp only [extra]
      omega
    rw [h2, more_stable' (n := s.text.length - k + 1) (hc s) (bounded_seq s body) (by omega)]

mutual
theorem shift_runs (s : Subject) (k : Nat) : ∀ p, Plain s.multiline p → Forward p → Shift k (runs (s.drop k) p) (runs s p)
  | .char mask, _, _ => by
    intro i
    rw [runs, runs]
    have : (s.drop k).text[i]? = s.text[k + i]? := by simp [Subject.drop]
    rw [this]
    cases s.text[k + i]? with
    | none => rfl
    | some c =>
      simp only
      split
      · simp [Hit.at]; omega
      · rfl
  | .rep greedy min max body, hp, hf => by
    rw [Plain] at hp
    rw [Forward] at hf
    exact shift_rep hp.2.2.1 (shift_seq s k body hp.2.2.2 hf)
  | .branch alts, hp, hf => by
    rw [Plain] at hp
    rw [Forward] at hf
    intro i
    rw [runs, runs]
    exact shift_alts s k alts hp.2 hf i
  | .at kind, hp, hf => by
    rw [Forward] at hf
    subst hf
    intro i
    rw [runs, runs]
    have : atHolds (s.drop k) i .endingString = atHolds s (k + i) .endingString := by
      simp only [atHolds, Subject.drop, List.length_drop]
      congr 1
      exact propext ⟨fun _ => by omega, fun _ => by omega⟩
    rw [this]
    split
    · simp [Hit.at]
    · rfl
  | .ahead positive sub, hp, hf => by
    rw [Plain] at hp
    rw [Forward] at hf
    intro i
    have := shift_seq s k sub hp.2 hf i
    rw [runs, runs]
    cases h1 : runsSeq (s.drop k) sub i with
    | nil =>
      rw [h1] at this
      have h2 : runsSeq s sub (k + i) = [] := by simpa using this.symm
      rw [h2]
      cases positive <;> simp [Hit.at]
    | cons a l =>
      rw [h1] at this
      cases h2 : runsSeq s sub (k + i) with
      | nil => rw [h2] at this; simp at this
      | cons b l' => cases positive <;> simp
  | .behind _ _ _, _, hf => by rw [Forward] at hf; exact hf.elim
  | .group num sub, hp, hf => by
    rw [Plain] at hp
    rw [Forward] at hf
    intro i
    rw [runs, runs, List.map_map, List.map_map]
    exact shift_seq s k sub hp hf i
  | .close num start, _, _ => by
    intro i
    simp [runs]
theorem shift_seq (s : Subject) (k : Nat) : ∀ ps, PlainSeq s.multiline ps → ForwardSeq ps → Shift k (runsSeq (s.drop k) ps) (runsSeq s ps)
  | [], _, _ => by
    intro i
    simp [runsSeq, Hit.at]
  | p :: ps, hp, hf => by
    rw [PlainSeq] at hp
    rw [ForwardSeq] at hf
    intro i
    rw [runsSeq_cons, runsSeq_cons]
    exact shift_bind (bounded_runs s p) (shift_runs s k p hp.1 hf.1) (shift_seq s k ps hp.2 hf.2) i
theorem shift_alts (s : Subject) (k : Nat) : ∀ as, PlainAlts s.multiline as → ForwardAlts as → Shift k (runsAlts (s.drop k) as) (runsAlts s as)
  | [], _, _ => by
    intro i
    simp [runsAlts]
  | a :: as, hp, hf => by
    rw [PlainAlts] at hp
    rw [ForwardAlts] at hf
    intro i
    rw [runsAlts, runsAlts, List.map_append, List.map_append, shift_seq s k a hp.1 hf.1 i, shift_alts s k as hp.2 hf.2 i]
end

/-! ## Replacing -/

/-- What is asked of a matcher for replacing: it consumes something, and does not look back. -/
structure Local (m : List Nat → Nat → Option Hit) : Prop where
  consumes : ∀ text i h, i ≤ text.length → m text i = some h → i < h.stop ∧ h.stop ≤ text.length
  drop : ∀ text k i, (m (text.drop k) i).map (·.stop) = (m text (k + i)).map (·.stop - k)

theorem search_drop {m : List Nat → Nat → Option Hit} (hm : Local m) (text : List Nat) (p : Nat) (hp : p ≤ text.length) :
    ∃ r, Leftmost (m text) p text.length r ∧ spans (m (text.drop p)) (text.drop p).length 0 = r.map fun r => (r.1 - p, r.2.stop - p) := by
  have hend : m (text.drop p) (text.drop p).length = none := by
    cases h : m (text.drop p) (text.drop p).length with
    | none => rfl
    | some x =>
      have := hm.consumes _ _ x (Nat.le_refl _) h
      omega
  have hl : Leftmost (m (text.drop p)) 0 (text.drop p).length (search (m (text.drop p)) 0 (text.drop p).length) := searchLoop_spec _ _ hend _ 0 (by omega)
  have hlen : (text.drop p).length = text.length - p := by simp
  rw [spans]
  have none_iff : ∀ i, m (text.drop p) i = none → m text (p + i) = none := fun i h => by
    have := hm.drop text p i
    rw [h] at this
    simpa using this.symm
  cases hs : search (m (text.drop p)) 0 (text.drop p).length with
  | none =>
    rw [hs] at hl
    refine ⟨none, fun j h1 h2 => ?_, rfl⟩
    have := none_iff (j - p) (hl (j - p) (by omega) (by omega))
    rwa [show p + (j - p) = j by omega] at this
  | some r =>
    obtain ⟨i, x⟩ := r
    rw [hs] at hl
    obtain ⟨h1, h2, h3, h4⟩ := hl
    have hd := hm.drop text p i
    rw [h3] at hd
    cases hy : m text (p + i) with
    | none => rw [hy] at hd; simp at hd
    | some y =>
      rw [hy] at hd
      have hd : x.stop = y.stop - p := by simpa using hd
      refine ⟨some (p + i, y), ⟨by omega, by omega, hy, fun j h5 h6 => ?_⟩, ?_⟩
      · have := none_iff (j - p) (h4 (j - p) (by omega) (by omega))
        rwa [show p + (j - p) = j by omega] at this
      · simp [hd]

theorem leftmost_any (m : List Nat → Nat → Option Hit) (text : List Nat) (allow : Bool) (endpos pos : Nat) (r : Option (Nat × Hit)) :
    Leftmost (fun i => (fun i (_ : Bool) => m text i) i (allow || decide (i ≠ pos))) pos endpos r ↔ Leftmost (m text) pos endpos r := Iff.rfl

theorem subn_spec {m : List Nat → Nat → Option Hit} (hm : Local m) (text : List Nat) (repl : List Nat → List Nat) :
    ∀ n p count allow l, Scan (fun i _ => m text i) text.length p allow l → p ≤ text.length → text.length - p < n →
      subnLoop (fun t => spans (m t) t.length 0) repl n (text.drop p) count =
        some (replaced text repl p (if count ≤ 0 then l else l.take count.toNat), (if count ≤ 0 then l else l.take count.toNat).length)
  | 0, _, _, _, _, _, _, h => by omega
  | n + 1, p, count, allow, l, hs, hp, hn => by
    rw [subnLoop]
    obtain ⟨r, h1, h2⟩ := search_drop hm text p hp
    rw [h2]
    cases r with
    | none =>
      have : l = [] := scan_unique hs (.done h1)
      subst this
      simp [replaced]
    | some r =>
      obtain ⟨i, x⟩ := r
      cases hs with
      | done hd => exact absurd (leftmost_unique h1 hd) (by simp)
      | next hd hrest =>
        rename_i l
        have := leftmost_unique h1 hd
        cases this
        obtain ⟨k1, k2, k3, _⟩ := h1
        obtain ⟨k4, k5⟩ := hm.consumes _ _ _ k2 k3
        simp only [Option.map_some]
        have e1 : (text.drop p).take (i - p) = (text.take i).drop p := by
          rw [List.take_drop]
          rw [show p + (i - p) = i by omega]
        have e2 : ((text.drop p).take (x.stop - p)).drop (i - p) = (text.take x.stop).drop i := by
          rw [List.take_drop, List.drop_drop]
          rw [show p + (x.stop - p) = x.stop by omega, show p + (i - p) = i by omega]
        have e3 : (text.drop p).drop (x.stop - p) = text.drop x.stop := by
          rw [List.drop_drop]
          rw [show p + (x.stop - p) = x.stop by omega]
        rw [e1, e2, e3]
        have hne : ¬(x.stop - p = i - p) := by omega
        rw [if_neg hne]
        by_cases hc : count = 1
        · subst hc
          simp [replaced]
        · rw [if_neg hc, subn_spec hm text repl n x.stop (count - 1) _ l hrest k5 (by omega)]
          by_cases hz : count ≤ 0
          · have hz' : count - 1 ≤ 0 := by omega
            simp only [hz, hz', if_true, Option.map_some, replaced, List.length_cons]
          · have hz' : ¬(count - 1 ≤ 0) := by omega
            obtain ⟨c, hc'⟩ : ∃ c, count.toNat = c + 1 := ⟨count.toNat - 1, by omega⟩
            have : (count - 1).toNat = c := by omega
            simp only [hz, hz', if_false, Option.map_some, this, hc', List.take_succ_cons, replaced, List.length_cons]

theorem first_local {s : Subject} {pats : List Re} (hp : PlainSeq s.multiline pats) (hf : ForwardSeq pats) (hw : 0 < widthSeq pats) :
    Local fun t i => firstMatch { s with text := t } pats i true := by
  constructor
  · intro text i h hi hm
    have h1 := List.mem_of_find?_eq_some hm
    have h2 := wide_seq _ pats i h h1
    have h3 := bounded_seq _ pats i h h1
    have h4 : ({ s with text := text } : Subject).text = text := rfl
    rw [h4] at h3
    omega
  · intro text k i
    have := shift_seq { s with text := text } k pats hp hf i
    have e : ∀ l : List Hit, l.find? (fun h => true || decide (i < h.stop)) = l.head? := fun l => by cases l <;> simp
    have e' : ∀ l : List Hit, l.find? (fun h => true || decide (k + i < h.stop)) = l.head? := fun l => by cases l <;> simp
    simp only [firstMatch, e, e', ← List.head?_map]
    rw [← this]
    rfl

theorem searchAll_congr {m m' : Nat → Option Hit} {endpos : Nat} (h : ∀ i ≤ endpos, m i = m' i) (pos : Nat) : search m pos endpos = search m' pos endpos :=
  searchLoop_congr h _ pos

theorem spans_congr {m m' : Nat → Option Hit} {endpos : Nat} (h : ∀ i ≤ endpos, m i = m' i) (pos : Nat) : spans m endpos pos = spans m' endpos pos := by
  rw [spans, spans, searchAll_congr h]

theorem splitLoop_congr {f g : Nat → Option (Nat × Nat)} (h : ∀ p, f p = g p) (text : List Nat) (maxsplit : Int) (n pos splits : Nat) (parts : List (List Nat)) :
    splitLoop f text maxsplit n pos splits parts = splitLoop g text maxsplit n pos splits parts := by
  rw [show f = g from funext h]

theorem subnLoop_congr {f g : List Nat → Option (Nat × Nat)} (repl : List Nat → List Nat) : ∀ n text count, (∀ k, f (text.drop k) = g (text.drop k)) →
    subnLoop f repl n text count = subnLoop g repl n text count
  | 0, _, _, _ => rfl
  | n + 1, text, count, h => by
    have h0 := h 0
    rw [List.drop_zero] at h0
    rw [subnLoop, subnLoop, h0]
    have hk : ∀ k count, subnLoop f repl n (text.drop k) count = subnLoop g repl n (text.drop k) count := fun k count =>
      subnLoop_congr repl n _ _ fun j => by rw [List.drop_drop]; exact h _
    cases g text with
    | none => rfl
    | some r =>
      obtain ⟨a, b⟩ := r
      simp only
      by_cases hb : b = a
      · simp only [hb, if_true, hk]
      · simp only [hb, if_false, hk]

theorem go_drops {s : Subject} {pats : List Re} (hp : PlainSeq s.multiline pats) (hn : (groupsSeq pats).Nodup) :
    ∃ N, ∀ n ≥ N, ∀ k, ∀ off ≤ (s.text.drop k).length, ∀ allow,
      (go { s with text := s.text.drop k } n pats off allow).result = firstMatch { s with text := s.text.drop k } pats off allow := by
  have key : ∀ L, ∃ N, ∀ n ≥ N, ∀ k < L, ∀ off ≤ (s.text.drop k).length, ∀ allow,
      (go { s with text := s.text.drop k } n pats off allow).result = firstMatch { s with text := s.text.drop k } pats off allow := by
    intro L
    induction L with
    | zero => exact ⟨0, fun _ _ k hk => by omega⟩
    | succ L ih =>
      obtain ⟨N, hN⟩ := ih
      obtain ⟨M, hM⟩ := go_all (s := { s with text := s.text.drop L }) (plain_goodSeq _ pats hp) hn
      refine ⟨N + M, fun n h k hk => ?_⟩
      by_cases he : k < L
      · exact hN n (by omega) k he
      · obtain rfl : k = L := by omega
        exact hM n (by omega)
  obtain ⟨N, hN⟩ := key (s.text.length + 1)
  refine ⟨N, fun n h k => ?_⟩
  by_cases hk : k < s.text.length + 1
  · exact hN n h k hk
  · have : s.text.drop k = s.text.drop s.text.length := by
      rw [List.drop_eq_nil_of_le (by omega), List.drop_eq_nil_of_le (Nat.le_refl _)]
    rw [this]
    exact hN n h s.text.length (by omega)

/-! ## Greedy and lazy -/

theorem more_ge {s : Subject} {greedy : Bool} {f : Nat → List Hit} (hb : Bounded s f) (n : Nat) (last : Option Nat) (off : Nat) : ∀ h ∈ more greedy f n last off, off ≤ h.stop :=
  fun h hh => (bounded_more hb n last off h hh).1

theorem more_greedy {s : Subject} {f : Nat → List Hit} (hb : Bounded s f) (hc : Consumes f) (hu : ∀ off, (f off).length ≤ 1) :
    ∀ n off, ((more true f n none off).map (·.stop)).Pairwise (· > ·)
  | 0, off => by simp [more]
  | n + 1, off => by
    rw [more_unfold hc, if_pos rfl, List.map_append, List.pairwise_append]
    have key : (List.map (·.stop) (bindHits (f off) (more true f n none))).Pairwise (· > ·) ∧ ∀ x ∈ List.map (·.stop) (bindHits (f off) (more true f n none)), off < x := by
      match hf : f off, hu off with
      | [], _ => simp [bind_nil]
      | [a], _ =>
        have h1 := hc off a (by rw [hf]; simp)
        rw [bind_cons, bind_nil, List.append_nil, List.map_map]
        refine ⟨more_greedy hb hc hu n a.stop, fun x hx => ?_⟩
        obtain ⟨b, hb', rfl⟩ := List.mem_map.1 hx
        have := more_ge hb n none a.stop b hb'
        show off < b.stop
        omega
    refine ⟨key.1, by simp, fun x hx y hy => ?_⟩
    simp only [List.map_cons, List.map_nil, List.mem_singleton] at hy
    subst hy
    exact key.2 x hx

theorem more_lazy {s : Subject} {f : Nat → List Hit} (hb : Bounded s f) (hc : Consumes f) (hu : ∀ off, (f off).length ≤ 1) :
    ∀ n off, ((more false f n none off).map (·.stop)).Pairwise (· < ·)
  | 0, off => by simp [more]
  | n + 1, off => by
    rw [more_unfold hc, if_neg (by simp), List.map_cons, List.pairwise_cons]
    match hf : f off, hu off with
    | [], _ => simp [bind_nil]
    | [a], _ =>
      have h1 := hc off a (by rw [hf]; simp)
      rw [bind_cons, bind_nil, List.append_nil, List.map_map]
      refine ⟨fun x hx => ?_, more_lazy hb hc hu n a.stop⟩
      obtain ⟨b, hb', rfl⟩ := List.mem_map.1 hx
      have := more_ge hb n none a.stop b hb'
      show off < b.stop
      omega

theorem rep_sorted {s : Subject} {greedy : Bool} {min : Nat} {max : Option Nat} {body : List Re} (hg : Good s (.rep greedy min max body)) (off : Nat) :
    ((runs s (.rep greedy min max body) off).map (·.stop)).Pairwise fun a b => if greedy then b < a else a < b := by
  rw [Good] at hg
  obtain ⟨_, hu, hc, _⟩ := hg
  rw [runs_rep]
  match ht : times (runsSeq s body) min off, unique_times hu min off with
  | [], _ => simp [bind_nil]
  | [a], _ =>
    rw [bind_cons, bind_nil, List.append_nil, List.map_map]
    cases greedy
    · simp only [Bool.false_eq_true, if_false]
      exact more_lazy (bounded_seq s body) hc hu _ a.stop
    · simp only [if_true]
      exact more_greedy (bounded_seq s body) hc hu _ a.stop

/-! ## Order of the matches that are found -/

theorem scan_ordered {m : Nat → Bool → Option Hit} {endpos pos : Nat} {allow : Bool} {l : List (Nat × Hit)} (hm : Obeys m endpos) (h : Scan m endpos pos allow l) :
    (∀ x ∈ l, pos ≤ x.1 ∧ x.1 ≤ x.2.stop ∧ x.2.stop ≤ endpos ∧ (allow = false → pos < x.2.stop)) ∧
      l.Pairwise fun x y => x.2.stop ≤ y.1 ∧ x.2.stop < y.2.stop ∨ x.1 < x.2.stop ∧ x.2.stop ≤ y.1 := by
  induction h with
  | done _ => simp
  | next h _ ih =>
    rename_i pos allow i x l _
    obtain ⟨h1, h2, h3, _⟩ := h
    obtain ⟨k1, k2, k3⟩ := hm _ _ _ h2 h3
    constructor
    · intro y hy
      rcases List.mem_cons.1 hy with rfl | hy
      · refine ⟨h1, k1, k2, fun ha => ?_⟩
        by_cases hi : i = pos
        · subst hi
          exact k3 (by simp [ha])
        · show pos < x.stop
          omega
      · obtain ⟨j1, j2, j3, j4⟩ := ih.1 y hy
        refine ⟨by omega, j2, j3, fun ha => ?_⟩
        by_cases hx : i < x.stop
        · omega
        · have := j4 (by simpa using hx)
          omega
    · refine List.pairwise_cons.2 ⟨fun y hy => ?_, ih.2⟩
      obtain ⟨j1, j2, j3, j4⟩ := ih.1 y hy
      by_cases hx : i < x.stop
      · exact .inr ⟨hx, j1⟩
      · exact .inl ⟨j1, j4 (by simpa using hx)⟩

theorem find_congr {l : List Hit} {p q : Hit → Bool} (h : ∀ x ∈ l, p x = q x) : l.find? p = l.find? q := by
  induction l with
  | nil => rfl
  | cons a l ih => rw [List.find?_cons, List.find?_cons, h a (by simp), ih fun x hx => h x (by simp [hx])]

end Verif.Regex
