import Verif.Regex.Lemmas

/-! The matcher finds the first of the matches, for expressions that it can do. -/
namespace Verif.Regex

mutual
/-- How deep repetitions and look-arounds are nested. -/
def depth : Re → Nat
  | .char _ => 0
  | .rep _ _ _ body => depthSeq body + 1
  | .branch alts => depthAlts alts
  | .at _ => 0
  | .ahead _ sub => depthSeq sub + 1
  | .behind _ _ sub => depthSeq sub + 1
  | .group _ sub => depthSeq sub
  | .close _ _ => 0
def depthSeq : List Re → Nat
  | [] => 0
  | p :: ps => max (depth p) (depthSeq ps)
def depthAlts : List (List Re) → Nat
  | [] => 0
  | a :: as => max (depthSeq a) (depthAlts as)
end

mutual
/-- How many steps there are until something is consumed. -/
def weight : Re → Nat
  | .char _ => 1
  | .rep _ min _ _ => if min = 0 then 2 else 1
  | .branch alts => weightAlts alts + 1
  | .at _ => 1
  | .ahead _ _ => 1
  | .behind _ _ _ => 1
  | .group _ sub => weightSeq sub + 2
  | .close _ _ => 1
def weightSeq : List Re → Nat
  | [] => 0
  | p :: ps => weight p + weightSeq ps
def weightAlts : List (List Re) → Nat
  | [] => 0
  | a :: as => weightSeq a + weightAlts as + 1
end

theorem depth_append (ps qs : List Re) : depthSeq (ps ++ qs) = max (depthSeq ps) (depthSeq qs) := by
  induction ps with
  | nil => simp [depthSeq]
  | cons p ps ih => rw [List.cons_append, depthSeq, depthSeq, ih]; omega

theorem weight_append (ps qs : List Re) : weightSeq (ps ++ qs) = weightSeq ps + weightSeq qs := by
  induction ps with
  | nil => simp [weightSeq]
  | cons p ps ih => rw [List.cons_append, weightSeq, weightSeq, ih]; omega

theorem good_append (s : Subject) (ps qs : List Re) : GoodSeq s (ps ++ qs) ↔ GoodSeq s ps ∧ GoodSeq s qs := by
  induction ps with
  | nil => simp [GoodSeq]
  | cons p ps ih => rw [List.cons_append, GoodSeq, GoodSeq, ih, and_assoc]

theorem groups_append (ps qs : List Re) : groupsSeq (ps ++ qs) = groupsSeq ps ++ groupsSeq qs := by
  induction ps with
  | nil => simp [groupsSeq]
  | cons p ps ih => rw [List.cons_append, groupsSeq, groupsSeq, ih, List.append_assoc]

/-- The first match, other than the empty one if that is not allowed. -/
def pick (allowEmpty : Bool) (off : Nat) (l : List Hit) : Out :=
  match l.find? fun h => allowEmpty || decide (off < h.stop) with
  | some h => .hit h
  | none => .no

theorem pick_nil (allow : Bool) (off : Nat) : pick allow off [] = .no := rfl

theorem pick_append (allow : Bool) (off : Nat) (l l' : List Hit) :
    pick allow off (l ++ l') = match pick allow off l with | .no => pick allow off l' | o => o := by
  unfold pick
  rw [List.find?_append]
  cases l.find? fun h => allow || decide (off < h.stop) <;> rfl

theorem pick_add (allow : Bool) (off : Nat) (a : Hit) (ha : off ≤ a.stop) (l : List Hit) (hl : ∀ h ∈ l, a.stop ≤ h.stop) :
    pick allow off (l.map a.add) = match pick (if a.stop ≤ off then allow else true) a.stop l with | .hit h => .hit (a.add h) | o => o := by
  unfold pick
  rw [List.find?_map]
  have : l.find? ((fun h => allow || decide (off < h.stop)) ∘ a.add) = l.find? (fun h => (if a.stop ≤ off then allow else true) || decide (a.stop < h.stop)) := by
    induction l with
    | nil => rfl
    | cons h l ih =>
      have h1 := hl h (by simp)
      rw [List.find?_cons, List.find?_cons, ih (fun x hx => hl x (by simp [hx]))]
      have : ((fun h => allow || decide (off < h.stop)) ∘ a.add) h = ((if a.stop ≤ off then allow else true) || decide (a.stop < h.stop)) := by
        simp only [Function.comp, Hit.add]
        by_cases h2 : a.stop ≤ off
        · rw [if_pos h2]
          rw [show a.stop = off by omega]
          rfl
        · rw [if_neg h2]
          have : off < h.stop := by omega
          simp [this]
      rw [this]
  rw [this]
  cases l.find? fun h => (if a.stop ≤ off then allow else true) || decide (a.stop < h.stop) <;> rfl

theorem cont_exact {s : Subject} {m : List Re → Nat → Bool → Out} {rest : List Re} {off : Nat} {allow : Bool} {a : Hit} (ha : off ≤ a.stop)
    (hm : m rest a.stop (if a.stop ≤ off then allow else true) = pick (if a.stop ≤ off then allow else true) a.stop (runsSeq s rest a.stop)) :
    cont m rest off allow a = pick allow off ((runsSeq s rest a.stop).map a.add) := by
  rw [cont, hm, pick_add allow off a ha _ (fun h hh => (bounded_seq s rest a.stop h hh).1)]
  cases pick (if a.stop ≤ off then allow else true) a.stop (runsSeq s rest a.stop) <;> rfl

theorem pick_hit {allow : Bool} {off : Nat} {l : List Hit} {h : Hit} (hp : pick allow off l = .hit h) : h ∈ l := by
  unfold pick at hp
  split at hp
  · cases hp
    rename_i hf
    exact List.mem_of_find?_eq_some hf
  · cases hp

theorem pick_true (off : Nat) (l : List Hit) : pick true off l = match l with | h :: _ => .hit h | [] => .no := by
  cases l <;> simp [pick]

/-- What is to be shown of the matcher. -/
def Exact (s : Subject) (pats : List Re) (off : Nat) (allow : Bool) : Prop :=
  ∃ N, ∀ n ≥ N, go s n pats off allow = pick allow off (runsSeq s pats off)

theorem exact_of_step {s : Subject} {pats : List Re} {off : Nat} {allow : Bool}
    (h : ∃ N, ∀ n ≥ N, step s (go s n) pats off allow = pick allow off (runsSeq s pats off)) : Exact s pats off allow := by
  obtain ⟨N, h⟩ := h
  refine ⟨N + 1, fun n hn => ?_⟩
  obtain ⟨n', rfl⟩ : ∃ n', n = n' + 1 := ⟨n - 1, by omega⟩
  exact h n' (by omega)

/-- At most one match. -/
theorem unique_times {f : Nat → List Hit} (hf : ∀ off, (f off).length ≤ 1) : ∀ n off, (times f n off).length ≤ 1
  | 0, off => by simp [times]
  | n + 1, off => by
    rw [times_succ]
    have := hf off
    cases h : f off with
    | nil => simp [bind_nil]
    | cons a l =>
      rw [h] at this
      have hl : l = [] := by cases l with | nil => rfl | cons _ _ => simp at this
      subst hl
      rw [bind_cons, bind_nil, List.append_nil, List.length_map]
      exact unique_times hf n a.stop

/-- The loop for the least number of repetitions. -/
theorem atLeast_exact {s : Subject} {body : List Re} (hu : ∀ off, (runsSeq s body off).length ≤ 1)
    (hb : ∀ off, off ≤ s.text.length → Exact s body off true) :
    ∀ k (acc : Hit), acc.stop ≤ s.text.length → ∃ N, ∀ n ≥ N, atLeast (fun o => go s n body o true) k acc =
      match times (runsSeq s body) k acc.stop with | h :: _ => .hit (acc.add h) | [] => .no
  | 0, acc, _ => ⟨0, fun n _ => by simp [atLeast, times, Hit.add_at]⟩
  | k + 1, acc, hacc => by
    obtain ⟨N, hN⟩ := hb acc.stop hacc
    rw [times_succ]
    have hlen := hu acc.stop
    cases hr : runsSeq s body acc.stop with
    | nil =>
      refine ⟨N, fun n hn => ?_⟩
      rw [atLeast, hN n hn, pick_true, hr]
      rfl
    | cons a l =>
      rw [hr] at hlen
      have hl : l = [] := by cases l with | nil => rfl | cons _ _ => simp at hlen
      subst hl
      have hstop := bounded_seq s body acc.stop a (by rw [hr]; simp)
      obtain ⟨M, hM⟩ := atLeast_exact hu hb k (acc.add a) (by simp only [Hit.add]; omega)
      refine ⟨max N M, fun n hn => ?_⟩
      rw [atLeast, hN n (by omega), pick_true, hr]
      simp only
      rw [hM n (by omega), bind_cons, bind_nil, List.append_nil]
      show (match times (runsSeq s body) k a.stop with | h :: _ => Out.hit ((acc.add a).add h) | [] => .no) = _
      cases times (runsSeq s body) k a.stop with
      | nil => rfl
      | cons b _ =>
        simp only [List.map_cons, Hit.add_assoc]

theorem consumes_times {f : Nat → List Hit} (hc : Consumes f) {s : Subject} (hb : Bounded s f) : ∀ n, n ≠ 0 → Consumes (times f n)
  | 0, h => absurd rfl h
  | n + 1, _ => by
    intro off h hh
    rw [times_succ] at hh
    obtain ⟨a, ha, b, hb', rfl⟩ := mem_bind.1 hh
    have h1 := hc off a ha
    have h2 := bounded_times hb n a.stop b hb'
    simp only [Hit.add]
    omega

/-- The flattening of a group makes no difference. -/
theorem runs_group (s : Subject) (num : Nat) (sub rest : List Re) (off : Nat) :
    runsSeq s (.group num sub :: rest) off = runsSeq s (sub ++ .close num off :: rest) off := by
  rw [runsSeq_append, runsSeq_cons, runs]
  generalize runsSeq s sub off = l
  induction l with
  | nil => rfl
  | cons a l ih =>
    rw [List.map_cons, bind_cons, bind_cons, ih]
    congr 1
    rw [runsSeq_cons, runs, bind_cons, bind_nil, List.append_nil, List.map_map]
    congr 1
    funext b
    simp only [Function.comp, Hit.add, Hit.mk.injEq, true_and]
    funext i
    cases b.groups i with
    | some x => simp
    | none =>
      simp only [Groups.set, Groups.none, Option.none_or]
      split <;> simp

theorem runs_branch (s : Subject) (a : List Re) (as : List (List Re)) (rest : List Re) (off : Nat) :
    runsSeq s (.branch (a :: as) :: rest) off = runsSeq s (a ++ rest) off ++ runsSeq s (.branch as :: rest) off := by
  rw [runsSeq_append, runsSeq_cons, runsSeq_cons, runs, runs, runsAlts, bind_append]

theorem runs_branch_nil (s : Subject) (rest : List Re) (off : Nat) : runsSeq s (.branch [] :: rest) off = [] := by
  rw [runsSeq_cons, runs, runsAlts, bind_nil]

/-! ## Positions -/

theorem word_at {s : Subject} {off : Nat} (h : off < s.text.length) : wordAt s off = s.word (s.text.getD off 0) := by
  rw [wordAt, List.getD_eq_getElem?_getD, List.getElem?_eq_getElem h]
  rfl

theorem boundary_exact {s : Subject} (hf : atFits s .boundary) {off : Nat} (hoff : off ≤ s.text.length) :
    isBoundary s off = (decide (s.text.length ≤ off ∨ off = 0) || (s.word (s.text.getD (off - 1) 0) != s.word (s.text.getD off 0))) := by
  obtain ⟨⟨c, hc, hcw⟩, ⟨d, hd, hdw⟩⟩ := hf
  have hpos : 0 < s.text.length := by
    cases ht : s.text with
    | nil => rw [ht] at hc; cases hc
    | cons _ _ => simp
  unfold isBoundary
  by_cases h0 : off = 0
  · subst h0
    have : wordAt s 0 = true := by
      rw [wordAt, ← List.head?_eq_getElem?, hc]
      exact hcw
    simp [this]
  · by_cases hl : s.text.length ≤ off
    · have hlast : wordAt s (off - 1) = true := by
        rw [wordAt, show off - 1 = s.text.length - 1 by omega, ← List.getLast?_eq_getElem?, hd]
        exact hdw
      have hnone : wordAt s off = false := by
        rw [wordAt, List.getElem?_eq_none hl]
        rfl
      simp [hlast, hnone, hl, Nat.pos_of_ne_zero h0]
    · rw [word_at (by omega), word_at (by omega)]
      simp [h0, hl, Nat.pos_of_ne_zero h0]

theorem at_exact {s : Subject} {kind : At} (hf : atFits s kind) {off : Nat} (hoff : off ≤ s.text.length) (c : Out) :
    at_ s off c kind = if atHolds s off kind then c else .no := by
  cases kind with
  | beginning =>
    simp only [at_, atHolds]
    by_cases h0 : off = 0
    · subst h0
      simp only [if_true, decide_true, Bool.or_true, true_or]
      cases c with
      | no =>
        simp only
        cases hm : s.multiline with
        | false => rfl
        | true =>
          have := hf hm
          cases hl : s.text.getLast? with
          | none => exact absurd (List.getLast?_eq_none_iff.1 hl) this
          | some x => simp
      | _ => rfl
    · simp only [h0, if_false, false_or]
      cases hm : s.multiline with
      | false => simp
      | true =>
        have : off - 1 < s.text.length := by omega
        rw [List.getElem?_eq_getElem this]
        by_cases hx : s.text[off - 1] = 10 <;> simp [hx]
  | beginningString => simp [at_, atHolds]
  | ending =>
    simp only [at_, atHolds]
    by_cases hl : s.text.length ≤ off
    · simp [hl]
    · simp only [hl, if_false, false_or]
      rcases hf with hf | hf
      · simp only [hf, if_true, true_and]
        by_cases hx : s.text[off]? = some 10 <;> simp [hx]
      · have : ¬(off + 1 = s.text.length ∧ s.text[off]? = some 10) := by
          rintro ⟨h1, h2⟩
          apply hf
          rw [List.getLast?_eq_getElem?, show s.text.length - 1 = off by omega, h2]
        simp only [this, false_or]
        cases hm : s.multiline with
        | false => simp
        | true => by_cases hx : s.text[off]? = some 10 <;> simp [hx]
  | endingString => simp [at_, atHolds]
  | boundary =>
    simp only [at_, atHolds, boundary_exact hf hoff]
    by_cases hl : s.text.length ≤ off ∨ off = 0
    · simp only [hl, if_true, decide_true, Bool.true_or]
    · simp only [hl, if_false, decide_false, Bool.false_or]
  | nonBoundary =>
    simp only [at_, atHolds, boundary_exact hf hoff]
    by_cases hl : s.text.length ≤ off ∨ off = 0
    · simp [hl]
    · simp only [hl, if_false, decide_false, Bool.false_or, bne, Bool.not_not]

/-! ## The matcher -/

theorem at_fun (s : Subject) (off : Nat) (kind : At) (rest : List Re) :
    runsSeq s (.at kind :: rest) off = if atHolds s off kind then runsSeq s rest off else [] := by
  rw [runsSeq_cons, runs]
  split
  · exact bind_at _ _
  · rfl

theorem pick_at (allow : Bool) (off : Nat) (l : List Hit) : pick allow off (l.map (Hit.add (.at off))) = pick allow off l := by
  rw [map_at_add]

theorem groups_empty {s : Subject} {sub : List Re} (h : groupsSeq sub = []) {off : Nat} {x : Hit} (hx : x ∈ runsSeq s sub off) : x.groups = .none := by
  funext i
  exact unset_seq s i sub (by rw [h]; simp) off x hx

/-- The matcher, for expressions nested less than `d`, if it is right for the bodies of repetitions and look-arounds. -/
theorem exact_step {s : Subject} {d : Nat}
    (ihd : ∀ pats off allow, depthSeq pats < d → GoodSeq s pats → (groupsSeq pats).Nodup → off ≤ s.text.length → Exact s pats off allow) :
    ∀ k w pats off allow, s.text.length - off = k → weightSeq pats = w → depthSeq pats < d + 1 → GoodSeq s pats → (groupsSeq pats).Nodup →
      off ≤ s.text.length → Exact s pats off allow := by
  intro k
  induction k using Nat.strongRecOn with
  | _ k ihk =>
  intro w
  induction w using Nat.strongRecOn with
  | _ w ihw =>
  intro pats off allow hk hw hd hg hn hoff
  -- the induction hypotheses as one
  have ih : ∀ pats' off' allow', off ≤ off' → off' ≤ s.text.length → (off < off' ∨ weightSeq pats' < weightSeq pats) → depthSeq pats' < d + 1 →
      GoodSeq s pats' → (groupsSeq pats').Nodup → Exact s pats' off' allow' := by
    intro pats' off' allow' h1 h2 h3 h4 h5 h6
    by_cases hlt : off < off'
    · exact ihk (s.text.length - off') (by omega) _ pats' off' allow' rfl rfl h4 h5 h6 h2
    · have : off' = off := by omega
      subst this
      exact ihw (weightSeq pats') (by omega) pats' off' allow' hk rfl h4 h5 h6 h2
  cases pats with
  | nil =>
    refine exact_of_step ⟨0, fun n _ => ?_⟩
    rw [runsSeq_nil]
    cases allow <;> simp [step, pick, Hit.at]
  | cons p rest =>
    rw [depthSeq] at hd
    rw [GoodSeq] at hg
    rw [groupsSeq, List.nodup_append] at hn
    have hdr : depthSeq rest < d + 1 := by omega
    have hwr : weightSeq rest < weightSeq (p :: rest) := by
      rw [weightSeq]
      have : 0 < weight p := by cases p <;> simp only [weight] <;> (try split) <;> omega
      omega
    -- the rest, behind a match of the first pattern
    have ihr : ∀ (a : Hit), off ≤ a.stop → a.stop ≤ s.text.length →
        ∃ N, ∀ n ≥ N, cont (go s n) rest off allow a = pick allow off ((runsSeq s rest a.stop).map a.add) := by
      intro a h1 h2
      obtain ⟨N, hN⟩ := ih rest a.stop (if a.stop ≤ off then allow else true) h1 h2 (.inr hwr) hdr hg.2 hn.2.1
      exact ⟨N, fun n hn => cont_exact h1 (hN n hn)⟩
    cases p with
    | char mask =>
      refine exact_of_step ?_
      cases hc : s.text[off]? with
      | none =>
        refine ⟨0, fun n _ => ?_⟩
        rw [runsSeq_cons, runs, hc]
        simp only [step, hc]
        rfl
      | some c =>
        by_cases hm : mask c = true
        · obtain ⟨hlt, _⟩ := List.getElem?_eq_some_iff.1 hc
          obtain ⟨N, hN⟩ := ihr (.at (off + 1)) (by simp [Hit.at]) (by simp only [Hit.at]; omega)
          refine ⟨N, fun n hn => ?_⟩
          rw [runsSeq_cons, runs, hc]
          simp only [step, hc, hm, if_true]
          rw [hN n hn, bind_cons, bind_nil, List.append_nil]
        · refine ⟨0, fun n _ => ?_⟩
          rw [runsSeq_cons, runs, hc]
          simp only [step, hc, hm]
          rfl
    | «at» kind =>
      obtain ⟨N, hN⟩ := ihr (.at off) (by simp [Hit.at]) (by simpa [Hit.at] using hoff)
      refine exact_of_step ⟨N, fun n hn => ?_⟩
      rw [at_fun]
      simp only [step]
      have hfit := hg.1
      rw [Good] at hfit
      rw [hN n hn, at_exact hfit hoff]
      split
      · exact pick_at _ _ _
      · rfl
    | close num start =>
      obtain ⟨N, hN⟩ := ihr (.at off) (by simp [Hit.at]) (by simpa [Hit.at] using hoff)
      refine exact_of_step ⟨N, fun n hn' => ?_⟩
      simp only [step]
      rw [hN n hn', runsSeq_cons, runs, bind_cons, bind_nil, List.append_nil]
      have hnum : num ∉ groupsSeq rest := fun hmem => hn.2.2 num (by simp [groupsOf]) num hmem rfl
      have hs : ∀ h ∈ runsSeq s rest off, (⟨off, Groups.none.set num (start, off)⟩ : Hit).add h = ⟨h.stop, h.groups.set num (start, off)⟩ := by
        intro h hh
        have := unset_seq s num rest hnum off h hh
        simp only [Hit.add, Hit.mk.injEq, true_and]
        funext i
        simp only [Groups.set, Groups.none]
        split
        · rename_i hi; subst hi; simp [this]
        · simp
      rw [List.map_congr_left hs]
      show (match pick allow off ((runsSeq s rest off).map (Hit.add (.at off))) with | .hit h => Out.hit ⟨h.stop, h.groups.set num (start, off)⟩ | o => o) = _
      rw [map_at_add]
      unfold pick
      rw [List.find?_map]
      show _ = match Option.map _ (List.find? (fun h => allow || decide (off < h.stop)) (runsSeq s rest off)) with | some h => Out.hit h | none => .no
      cases List.find? (fun h => allow || decide (off < h.stop)) (runsSeq s rest off) <;> rfl
    | group num sub =>
      have hdep : depthSeq (sub ++ .close num off :: rest) < d + 1 := by
        rw [depth_append, depthSeq]
        simp only [depth] at hd ⊢
        omega
      have hwt : weightSeq (sub ++ .close num off :: rest) < weightSeq (.group num sub :: rest) := by
        rw [weight_append, weightSeq, weightSeq]
        simp only [weight]
        omega
      have hgd : GoodSeq s (sub ++ .close num off :: rest) := by
        rw [good_append, GoodSeq]
        have h1 := hg.1
        rw [Good] at h1
        exact ⟨h1, by simp [Good], hg.2⟩
      have hnd : (groupsSeq (sub ++ .close num off :: rest)).Nodup := by
        rw [groups_append, groupsSeq]
        simp only [groupsOf] at hn ⊢
        rw [List.nodup_cons] at hn
        rw [List.nodup_append]
        refine ⟨hn.1.2, ?_, ?_⟩
        · rw [List.singleton_append, List.nodup_cons]
          exact ⟨fun hmem => hn.2.2 num (by simp) num hmem rfl, hn.2.1⟩
        · intro a ha b hb hab
          rcases List.mem_append.1 hb with hb | hb
          · simp only [List.mem_singleton] at hb
            exact hn.1.1 (by rw [← hb, ← hab]; exact ha)
          · exact hn.2.2 a (by simp [ha]) b hb hab
      obtain ⟨N, hN⟩ := ih (sub ++ .close num off :: rest) off allow (Nat.le_refl _) hoff (.inr hwt) hdep hgd hnd
      refine exact_of_step ⟨N, fun n hn' => ?_⟩
      simp only [step]
      rw [hN n hn', runs_group]
    | branch alts =>
      have h1 := hg.1
      rw [Good] at h1
      cases alts with
      | nil => exact absurd rfl h1.1
      | cons a as =>
        rw [GoodAlts] at h1
        simp only [depth, depthAlts] at hd
        simp only [groupsOf, groupsAlts] at hn
        have hnd0 := List.nodup_append.1 hn.1
        have hA : ∃ N, ∀ n ≥ N, go s n (a ++ rest) off allow = pick allow off (runsSeq s (a ++ rest) off) := by
          refine ih (a ++ rest) off allow (Nat.le_refl _) hoff (.inr ?_) ?_ ?_ ?_
          · rw [weight_append, weightSeq]
            simp only [weight, weightAlts]
            omega
          · rw [depth_append]; omega
          · rw [good_append]; exact ⟨h1.2.1, hg.2⟩
          · rw [groups_append, List.nodup_append]
            exact ⟨hnd0.1, hn.2.1, fun x hx y hy => hn.2.2 x (List.mem_append.2 (.inl hx)) y hy⟩
        obtain ⟨N, hN⟩ := hA
        cases as with
        | nil =>
          refine exact_of_step ⟨N, fun n hn' => ?_⟩
          simp only [step, branch_]
          rw [hN n hn', runs_branch, runs_branch_nil, List.append_nil]
        | cons b as =>
          obtain ⟨M, hM⟩ := ih (.branch (b :: as) :: rest) off allow (Nat.le_refl _) hoff (.inr (by
              rw [weightSeq, weightSeq]
              simp only [weight, weightAlts]
              omega)) (by
              rw [depthSeq]
              simp only [depth]
              omega) (by
              rw [GoodSeq, Good]
              exact ⟨⟨by simp, h1.2.2⟩, hg.2⟩) (by
              rw [groupsSeq, List.nodup_append]
              exact ⟨hnd0.2.1, hn.2.1, fun x hx y hy => hn.2.2 x (List.mem_append.2 (.inr hx)) y hy⟩)
          refine exact_of_step ⟨max N M, fun n hn' => ?_⟩
          simp only [step, branch_]
          rw [hN n (by omega), hM n (by omega), runs_branch s a (b :: as), pick_append]
          cases pick allow off (runsSeq s (a ++ rest) off) <;> rfl
    | ahead positive sub =>
      have h1 := hg.1
      rw [Good] at h1
      simp only [depth] at hd
      simp only [groupsOf] at hn
      obtain ⟨N, hN⟩ := ihd sub off true (by omega) h1.2 hn.1 hoff
      obtain ⟨M, hM⟩ := ih rest off allow (Nat.le_refl _) hoff (.inr hwr) hdr hg.2 hn.2.1
      refine exact_of_step ⟨max N M, fun n hn' => ?_⟩
      simp only [step]
      rw [hN n (by omega), hM n (by omega), pick_true, runsSeq_cons, runs]
      cases hr : runsSeq s sub off with
      | nil =>
        simp only [look]
        cases positive
        · simp only [Bool.false_eq_true, if_false]
          rw [bind_at]
        · rfl
      | cons x l =>
        simp only [look]
        cases positive
        · rfl
        · simp only [if_true]
          rw [groups_empty (h1.1 rfl) (x := x) (off := off) (by rw [hr]; simp)]
          exact (congrArg _ (bind_at off _)).symm
    | behind positive width sub =>
      have h1 := hg.1
      rw [Good] at h1
      simp only [depth] at hd
      simp only [groupsOf] at hn
      obtain ⟨hp, hgr, hgs⟩ := h1
      subst hp
      by_cases hw' : off < width
      · refine exact_of_step ⟨0, fun n _ => ?_⟩
        simp only [step, hw', if_true]
        rw [runsSeq_cons, runs]
        simp only [hw', if_true]
        rfl
      obtain ⟨N, hN⟩ := ihd sub (off - width) true (by omega) hgs hn.1 (by omega)
      obtain ⟨M, hM⟩ := ih rest off allow (Nat.le_refl _) hoff (.inr hwr) hdr hg.2 hn.2.1
      refine exact_of_step ⟨max N M, fun n hn' => ?_⟩
      simp only [step, hw', if_false]
      rw [hN n (by omega), hM n (by omega), pick_true, runsSeq_cons, runs]
      simp only [hw', if_false]
      cases hr : runsSeq s sub (off - width) with
      | nil => rfl
      | cons x l =>
        simp only [look, if_true]
        rw [groups_empty hgr (x := x) (off := off - width) (by rw [hr]; simp)]
        exact (congrArg _ (bind_at off _)).symm
    | rep greedy min max body =>
      have h1 := hg.1
      rw [Good] at h1
      obtain ⟨hmm, hu, hc, hgb⟩ := h1
      simp only [depth] at hd
      simp only [groupsOf] at hn
      have hb : ∀ o, o ≤ s.text.length → Exact s body o true := fun o ho => ihd body o true (by omega) hgb hn.1 ho
      obtain ⟨N, hN⟩ := atLeast_exact hu hb min (.at off) (by simpa [Hit.at] using hoff)
      have hnot : ¬(max.any (· < min) = true) := by
        cases max with
        | none => simp
        | some m => have := hmm m rfl; simp; omega
      have hlen := unique_times hu min off
      have hN' : ∀ n ≥ N, atLeast (fun o => go s n body o true) min (.at off) =
          match times (runsSeq s body) min off with | h :: _ => .hit h | [] => .no := by
        intro n hn'
        rw [hN n hn']
        show (match times (runsSeq s body) min off with | h :: _ => Out.hit ((Hit.at off).add h) | [] => .no) = _
        cases times (runsSeq s body) min off with
        | nil => rfl
        | cons h _ => simp only [Hit.at_add]
      cases ht : times (runsSeq s body) min off with
      | nil =>
        refine exact_of_step ⟨N, fun n hn' => ?_⟩
        simp only [step, repeat_, hnot]
        rw [hN' n hn', ht, runsSeq_cons, runs_rep, ht]
        rfl
      | cons o l =>
        rw [ht] at hlen
        have hl : l = [] := by cases l with | nil => rfl | cons _ _ => simp at hlen
        subst hl
        have hob := bounded_times (bounded_seq s body) min off o (by rw [ht]; simp)
        have hob1 : off ≤ o.stop := hob.1
        have hob2 : o.stop ≤ s.text.length := by omega
        obtain ⟨M, hM⟩ := ihr o hob1 hob2
        have hruns : runsSeq s (.rep greedy min max body :: rest) off =
            (bindHits (more greedy (runsSeq s body) (extra s min max) none o.stop) (runsSeq s rest)).map o.add := by
          rw [runsSeq_cons, runs_rep, ht, bind_assoc, bind_cons, bind_nil, List.append_nil]
        by_cases hmax : max.any (· ≤ min) = true
        · refine exact_of_step ⟨Nat.max N M, fun n hn' => ?_⟩
          have hN1 : n ≥ N := Nat.le_trans (Nat.le_max_left _ _) hn'
          have hM1 : n ≥ M := Nat.le_trans (Nat.le_max_right _ _) hn'
          simp only [step, repeat_, hnot]
          rw [hN' n hN1, ht]
          simp only [hmax, if_true, Bool.false_eq_true, if_false]
          rw [hM n hM1, hruns]
          have : extra s min max = 0 := by
            cases max with
            | none => simp at hmax
            | some m => simp only [Option.any_some, decide_eq_true_eq] at hmax; simp only [extra]; omega
          rw [this, more, bind_at]
        · have hrem : remaining min max ≠ some 0 := by
            cases max with
            | none => simp [remaining]
            | some m => simp only [Option.any_some, decide_eq_true_eq] at hmax; simp only [remaining, ne_eq, Option.some.injEq]; omega
          have hextra : extra s min max = extra s 0 (remaining min max) := by
            cases max with
            | none => rfl
            | some m => simp [extra, remaining]
          have hprog : off < o.stop ∨ weightSeq (.rep greedy 1 (remaining min max) body :: rest) < weightSeq (.rep greedy min max body :: rest) := by
            by_cases hmin : min = 0
            · right
              rw [weightSeq, weightSeq]
              simp [weight, hmin]
            · left
              exact consumes_times hc (bounded_seq s body) min hmin off o (by rw [ht]; simp)
          obtain ⟨K, hK⟩ := ih (.rep greedy 1 (remaining min max) body :: rest) o.stop (allow || !decide (o.stop ≤ off)) hob1 hob2 hprog (by
              rw [depthSeq]
              simp only [depth]
              omega) (by
              rw [GoodSeq, Good]
              refine ⟨⟨?_, hu, hc, hgb⟩, hg.2⟩
              intro m hm'
              cases max with
              | none => simp [remaining] at hm'
              | some x =>
                have h0 : x - min ≠ 0 := fun h => hrem (by rw [remaining, h])
                simp only [remaining, Option.some.injEq] at hm'
                omega) (by
              rw [groupsSeq, List.nodup_append]
              simpa only [groupsOf] using hn)
          refine exact_of_step ⟨N + M + K, fun n hn' => ?_⟩
          simp only [step, repeat_, hnot]
          rw [hN' n (by omega), ht]
          simp only [hmax, Bool.false_eq_true, if_false]
          rw [repeatRest, hM n (by omega), hK n (by omega), hruns, hextra, rep_unfold hc _ hrem]
          have hal : (allow || !decide (o.stop ≤ off)) = if o.stop ≤ off then allow else true := by
            by_cases h2 : o.stop ≤ off <;> simp [h2]
          rw [hal]
          have hrep := pick_add allow off o hob1 (runsSeq s (.rep greedy 1 (remaining min max) body :: rest) o.stop)
            (fun h hh => (bounded_seq s _ o.stop h hh).1)
          cases greedy
          · simp only [Bool.false_eq_true, if_false]
            rw [List.map_append, pick_append, hrep]
            cases pick allow off ((runsSeq s rest o.stop).map o.add) <;> simp only
            cases pick (if o.stop ≤ off then allow else true) o.stop (runsSeq s (.rep false 1 (remaining min max) body :: rest) o.stop) <;> rfl
          · simp only [if_true]
            rw [List.map_append, pick_append, hrep]
            cases pick (if o.stop ≤ off then allow else true) o.stop (runsSeq s (.rep true 1 (remaining min max) body :: rest) o.stop) <;> rfl

/-- The matcher returns the first match, other than the empty one if that is not allowed, or says that there is none. -/
theorem go_exact (s : Subject) (pats : List Re) (off : Nat) (allow : Bool) (hg : GoodSeq s pats) (hn : (groupsSeq pats).Nodup) (hoff : off ≤ s.text.length) :
    Exact s pats off allow := by
  have key : ∀ d pats off allow, depthSeq pats < d → GoodSeq s pats → (groupsSeq pats).Nodup → off ≤ s.text.length → Exact s pats off allow := by
    intro d
    induction d with
    | zero => intro _ _ _ h; omega
    | succ d ih => intro pats off allow h1 h2 h3 h4; exact exact_step ih _ _ pats off allow rfl rfl h1 h2 h3 h4
  exact key (depthSeq pats + 1) pats off allow (by omega) hg hn hoff

end Verif.Regex
