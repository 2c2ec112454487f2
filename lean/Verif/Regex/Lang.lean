import Verif.Regex.Exact

/-! Matches and the language, and that the matcher is sound. -/
namespace Verif.Regex

/-- The matches of `f` are those of the relation `r`. -/
def Agree (f : Nat → List Hit) (r : Nat → Nat → Prop) : Prop := ∀ off e, (∃ h ∈ f off, h.stop = e) ↔ r off e

theorem agree_bind {f g : Nat → List Hit} {r t : Nat → Nat → Prop} (hf : Agree f r) (hg : Agree g t) :
    Agree (fun o => bindHits (f o) g) (fun o e => ∃ c, r o c ∧ t c e) := by
  intro off e
  constructor
  · rintro ⟨h, hh, rfl⟩
    obtain ⟨a, ha, b, hb, rfl⟩ := mem_bind.1 hh
    exact ⟨a.stop, (hf off a.stop).1 ⟨a, ha, rfl⟩, (hg a.stop b.stop).1 ⟨b, hb, rfl⟩⟩
  · rintro ⟨c, h1, h2⟩
    obtain ⟨a, ha, rfl⟩ := (hf off c).2 h1
    obtain ⟨b, hb, rfl⟩ := (hg a.stop e).2 h2
    exact ⟨a.add b, mem_bind.2 ⟨a, ha, b, hb, rfl⟩, rfl⟩

theorem agree_times {f : Nat → List Hit} {r : Nat → Nat → Prop} (hf : Agree f r) : ∀ n, Agree (times f n) (Steps r n)
  | 0 => by
    intro off e
    simp [times, Steps, Hit.at]
  | n + 1 => agree_bind hf (agree_times hf n)

theorem steps_add {r : Nat → Nat → Prop} : ∀ n m a b, Steps r (n + m) a b ↔ ∃ c, Steps r n a c ∧ Steps r m c b
  | 0, m, a, b => by simp [Steps]
  | n + 1, m, a, b => by
    rw [show n + 1 + m = (n + m) + 1 by omega]
    simp only [Steps, steps_add n m]
    constructor
    · rintro ⟨c, h1, d, h2, h3⟩; exact ⟨d, ⟨c, h1, h2⟩, h3⟩
    · rintro ⟨d, ⟨c, h1, h2⟩, h3⟩; exact ⟨c, h1, d, h2, h3⟩

theorem more_sound {f : Nat → List Hit} {r : Nat → Nat → Prop} (hf : Agree f r) {greedy : Bool} : ∀ n last off, ∀ h ∈ more greedy f n last off,
    ∃ k, k ≤ n ∧ Steps r k off h.stop
  | 0, _, off, h, hh => by
    simp only [more, List.mem_singleton] at hh
    subst hh
    exact ⟨0, Nat.le_refl _, rfl⟩
  | n + 1, last, off, h, hh => by
    have hat : ∀ {h : Hit}, h ∈ [Hit.at off] → ∃ k, k ≤ n + 1 ∧ Steps r k off h.stop := by
      intro h hh
      simp only [List.mem_singleton] at hh
      subst hh
      exact ⟨0, Nat.zero_le _, rfl⟩
    have hb : ∀ {h : Hit}, h ∈ bindHits (f off) (more greedy f n (some off)) → ∃ k, k ≤ n + 1 ∧ Steps r k off h.stop := by
      intro h hh
      obtain ⟨a, ha, b, hb, rfl⟩ := mem_bind.1 hh
      obtain ⟨k, hk, hs⟩ := more_sound hf n (some off) a.stop b hb
      exact ⟨k + 1, by omega, a.stop, (hf off a.stop).1 ⟨a, ha, rfl⟩, hs⟩
    rw [more_succ] at hh
    split at hh
    · exact hat hh
    · split at hh
      · exact (List.mem_append.1 hh).elim hb hat
      · rcases List.mem_cons.1 hh with hh | hh
        · exact hat (by rw [hh]; simp)
        · exact hb hh

theorem more_complete {f : Nat → List Hit} {r : Nat → Nat → Prop} (hf : Agree f r) {greedy : Bool} : ∀ k n last off e, k ≤ n → last ≠ some off →
    Steps r k off e → ∃ h ∈ more greedy f n last off, h.stop = e
  | 0, n, last, off, e, _, _, hs => by
    simp only [Steps] at hs
    subst hs
    refine ⟨.at off, ?_, rfl⟩
    cases n with
    | zero => simp [more]
    | succ n =>
      rw [more_succ]
      split
      · simp
      · split <;> simp
  | k + 1, n, last, off, e, hk, hl, hs => by
    obtain ⟨c, h1, h2⟩ := hs
    by_cases hc : c = off
    · subst hc
      exact more_complete hf k n last c e (by omega) hl h2
    · obtain ⟨n', rfl⟩ : ∃ n', n = n' + 1 := ⟨n - 1, by omega⟩
      obtain ⟨a, ha, rfl⟩ := (hf off c).2 h1
      obtain ⟨b, hb, rfl⟩ := more_complete hf (greedy := greedy) k n' (some off) a.stop e (by omega) (by simp; omega) h2
      have hmem : a.add b ∈ bindHits (f off) (more greedy f n' (some off)) := mem_bind.2 ⟨a, ha, b, hb, rfl⟩
      refine ⟨a.add b, ?_, rfl⟩
      rw [more_succ, if_neg hl]
      split
      · exact List.mem_append.2 (.inl hmem)
      · exact List.mem_cons.2 (.inr hmem)

/-- Repetitions of the empty string can be left out. -/
theorem steps_short {s : Subject} {f : Nat → List Hit} {r : Nat → Nat → Prop} (hf : Agree f r) (hb : Bounded s f) : ∀ k off e, Steps r k off e →
    ∃ k', k' ≤ s.text.length - off ∧ Steps r k' off e
  | 0, off, e, h => ⟨0, Nat.zero_le _, h⟩
  | k + 1, off, e, h => by
    obtain ⟨c, h1, h2⟩ := h
    obtain ⟨k', hk, h3⟩ := steps_short hf hb k c e h2
    by_cases hc : c = off
    · subst hc
      exact ⟨k', hk, h3⟩
    · obtain ⟨a, ha, rfl⟩ := (hf off c).2 h1
      have := hb off a ha
      exact ⟨k' + 1, by omega, a.stop, h1, h3⟩

theorem agree_rep {s : Subject} {f : Nat → List Hit} {r : Nat → Nat → Prop} (hf : Agree f r) (hb : Bounded s f) (greedy : Bool) (min : Nat) (max : Option Nat)
    (hm : ∀ m, max = some m → min ≤ m) :
    Agree (fun o => bindHits (times f min o) (more greedy f (extra s min max) none)) (fun o e => ∃ n, min ≤ n ∧ (∀ m, max = some m → n ≤ m) ∧ Steps r n o e) := by
  intro off e
  constructor
  · rintro ⟨h, hh, rfl⟩
    obtain ⟨a, ha, b, hb', rfl⟩ := mem_bind.1 hh
    obtain ⟨k, hk, hs⟩ := more_sound hf _ _ _ b hb'
    refine ⟨min + k, by omega, ?_, (steps_add min k off _).2 ⟨a.stop, (agree_times hf min off _).1 ⟨a, ha, rfl⟩, hs⟩⟩
    intro m hmax
    subst hmax
    have := hm m rfl
    simp only [extra] at hk
    omega
  · rintro ⟨n, h1, h2, h3⟩
    obtain ⟨k, rfl⟩ : ∃ k, n = min + k := ⟨n - min, by omega⟩
    obtain ⟨c, h4, h5⟩ := (steps_add min k off e).1 h3
    obtain ⟨a, ha, rfl⟩ := (agree_times hf min off c).2 h4
    have : ∃ k', k' ≤ extra s min max ∧ Steps r k' a.stop e := by
      cases max with
      | some m =>
        have := h2 m rfl
        exact ⟨k, by simp only [extra]; omega, h5⟩
      | none =>
        obtain ⟨k', hk', h6⟩ := steps_short hf hb k a.stop e h5
        exact ⟨k', by simp only [extra]; omega, h6⟩
    obtain ⟨k', hk', h6⟩ := this
    obtain ⟨b, hb', rfl⟩ := more_complete hf (greedy := greedy) k' (extra s min max) none a.stop e hk' (by simp) h6
    exact ⟨a.add b, mem_bind.2 ⟨a, ha, b, hb', rfl⟩, rfl⟩

mutual
theorem agree_runs (s : Subject) : ∀ p, Wf p → Agree (runs s p) (lang s p)
  | .char mask, _ => by
    intro off e
    rw [runs, lang]
    cases hc : s.text[off]? with
    | none => simp
    | some c =>
      constructor
      · rintro ⟨h, hh, rfl⟩
        simp only at hh
        split at hh
        · rename_i hm
          simp only [List.mem_singleton] at hh
          subst hh
          exact ⟨rfl, c, rfl, hm⟩
        · cases hh
      · rintro ⟨rfl, d, hd, hm⟩
        cases hd
        simp only [hm, if_true]
        exact ⟨.at (off + 1), by simp, rfl⟩
  | .rep greedy min max body, hw => by
    intro off e
    rw [Wf] at hw
    rw [lang, runs_rep]
    exact agree_rep (agree_seq s body hw.2) (bounded_seq s body) greedy min max hw.1 off e
  | .branch alts, hw => by
    intro off e
    rw [Wf] at hw
    rw [runs, lang]
    exact agree_alts s alts hw off e
  | .at kind, _ => by
    intro off e
    rw [runs, lang]
    by_cases h : atHolds s off kind = true <;> simp [h, Hit.at, eq_comm]
  | .ahead positive sub, hw => by
    intro off e
    rw [Wf] at hw
    have ih := agree_seq s sub hw off
    rw [runs, lang]
    cases hr : runsSeq s sub off with
    | nil =>
      have : ¬∃ x, langSeq s sub off x := by
        rintro ⟨x, hx⟩
        obtain ⟨h, hh, _⟩ := (ih x).2 hx
        rw [hr] at hh
        cases hh
      cases positive <;> simp [this, Hit.at, eq_comm]
    | cons a l =>
      have : ∃ x, langSeq s sub off x := ⟨a.stop, (ih a.stop).1 ⟨a, by rw [hr]; simp, rfl⟩⟩
      cases positive <;> simp [this, eq_comm]
  | .behind positive width sub, hw => by
    intro off e
    rw [Wf] at hw
    have ih := agree_seq s sub hw (off - width)
    rw [runs, lang]
    by_cases hlt : off < width
    · have : ¬(width ≤ off ∧ ∃ x, langSeq s sub (off - width) x) := by rintro ⟨h, _⟩; omega
      simp only [hlt, if_true]
      cases positive <;> simp [this, Hit.at, eq_comm]
    · simp only [hlt, if_false]
      cases hr : runsSeq s sub (off - width) with
      | nil =>
        have : ¬(width ≤ off ∧ ∃ x, langSeq s sub (off - width) x) := by
          rintro ⟨_, x, hx⟩
          obtain ⟨h, hh, _⟩ := (ih x).2 hx
          rw [hr] at hh
          cases hh
        cases positive <;> simp only [this, Bool.false_eq_true, if_false, if_true] <;> simp [Hit.at, eq_comm]
      | cons a l =>
        have : width ≤ off ∧ ∃ x, langSeq s sub (off - width) x := ⟨by omega, a.stop, (ih a.stop).1 ⟨a, by rw [hr]; simp, rfl⟩⟩
        cases positive <;> simp only [this, Bool.false_eq_true, if_false, if_true] <;> simp [eq_comm]
  | .group num sub, hw => by
    intro off e
    rw [Wf] at hw
    rw [runs, lang, ← agree_seq s sub hw off e]
    constructor
    · rintro ⟨h, hh, rfl⟩
      obtain ⟨a, ha, rfl⟩ := List.mem_map.1 hh
      exact ⟨a, ha, rfl⟩
    · rintro ⟨a, ha, rfl⟩
      exact ⟨_, List.mem_map.2 ⟨a, ha, rfl⟩, rfl⟩
  | .close num start, _ => by
    intro off e
    rw [runs, lang]
    simp [eq_comm]
theorem agree_seq (s : Subject) : ∀ ps, WfSeq ps → Agree (runsSeq s ps) (langSeq s ps)
  | [], _ => by
    intro off e
    rw [runsSeq_nil, langSeq]
    simp [Hit.at, eq_comm]
  | p :: ps, hw => by
    intro off e
    rw [WfSeq] at hw
    rw [runsSeq_cons, langSeq]
    exact agree_bind (agree_runs s p hw.1) (agree_seq s ps hw.2) off e
theorem agree_alts (s : Subject) : ∀ as, WfAlts as → Agree (runsAlts s as) (langAlts s as)
  | [], _ => by
    intro off e
    rw [runsAlts, langAlts]
    simp
  | a :: as, hw => by
    intro off e
    rw [WfAlts] at hw
    rw [runsAlts, langAlts, ← agree_seq s a hw.1 off e, ← agree_alts s as hw.2 off e]
    simp only [List.mem_append, or_and_right, exists_or]
end

mutual
theorem good_wf (s : Subject) : ∀ p, Good s p → Wf p
  | .char _, _ => by simp [Wf]
  | .rep _ _ _ body, h => by
    rw [Good] at h
    rw [Wf]
    exact ⟨h.1, good_wfSeq s body h.2.2.2⟩
  | .branch alts, h => by
    rw [Good] at h
    rw [Wf]
    exact good_wfAlts s alts h.2
  | .at _, _ => by simp [Wf]
  | .ahead _ sub, h => by
    rw [Good] at h
    rw [Wf]
    exact good_wfSeq s sub h.2
  | .behind _ _ sub, h => by
    rw [Good] at h
    rw [Wf]
    exact good_wfSeq s sub h.2.2
  | .group _ sub, h => by
    rw [Good] at h
    rw [Wf]
    exact good_wfSeq s sub h
  | .close _ _, _ => by simp [Wf]
theorem good_wfSeq (s : Subject) : ∀ ps, GoodSeq s ps → WfSeq ps
  | [], _ => by simp [WfSeq]
  | p :: ps, h => by
    rw [GoodSeq] at h
    rw [WfSeq]
    exact ⟨good_wf s p h.1, good_wfSeq s ps h.2⟩
theorem good_wfAlts (s : Subject) : ∀ as, GoodAlts s as → WfAlts as
  | [], _ => by simp [WfAlts]
  | a :: as, h => by
    rw [GoodAlts] at h
    rw [WfAlts]
    exact ⟨good_wfSeq s a h.1, good_wfAlts s as h.2⟩
end

/-! ## More nested calls than needed make no difference -/

/-- `m'` gives what `m` gives where `m` ends. -/
def Le (m m' : List Re → Nat → Bool → Out) : Prop := ∀ p o a, m p o a ≠ .endless → m' p o a = m p o a

theorem cont_le {m m' : List Re → Nat → Bool → Out} (h : Le m m') (rest : List Re) (off : Nat) (allow : Bool) (a : Hit) (he : cont m rest off allow a ≠ .endless) :
    cont m' rest off allow a = cont m rest off allow a := by
  unfold cont at he ⊢
  rw [h _ _ _ (fun hx => he (by rw [hx]))]

theorem atLeast_le {m m' : Nat → Out} (h : ∀ o, m o ≠ .endless → m' o = m o) : ∀ k acc, atLeast m k acc ≠ .endless → atLeast m' k acc = atLeast m k acc
  | 0, _, _ => rfl
  | k + 1, acc, he => by
    rw [atLeast] at he ⊢
    rw [atLeast]
    have h1 : m acc.stop ≠ .endless := fun hx => he (by rw [hx])
    rw [h _ h1]
    cases hm : m acc.stop with
    | hit x =>
      rw [hm] at he
      exact atLeast_le h k _ he
    | _ => rfl

theorem repeatRest_le {m m' : List Re → Nat → Bool → Out} (h : Le m m') (greedy : Bool) (rem : Option Nat) (body rest : List Re) (off : Nat) (allow : Bool) (o : Hit)
    (he : repeatRest m greedy rem body rest off allow o ≠ .endless) : repeatRest m' greedy rem body rest off allow o = repeatRest m greedy rem body rest off allow o := by
  unfold repeatRest at he ⊢
  have hc := cont_le h rest off allow o
  have hm := h (.rep greedy 1 rem body :: rest) o.stop (allow || !decide (o.stop ≤ off))
  cases greedy
  · simp only [Bool.false_eq_true, if_false] at he ⊢
    have h1 : cont m rest off allow o ≠ .endless := fun hx => he (by rw [hx])
    rw [hc h1]
    cases hr : cont m rest off allow o with
    | no =>
      rw [hr] at he
      simp only at he ⊢
      rw [hm (fun hx => he (by rw [hx]))]
    | _ => rfl
  · simp only [if_true] at he ⊢
    have h1 : m (.rep true 1 rem body :: rest) o.stop (allow || !decide (o.stop ≤ off)) ≠ .endless := fun hx => he (by rw [hx])
    rw [hm h1]
    cases hr : m (.rep true 1 rem body :: rest) o.stop (allow || !decide (o.stop ≤ off)) with
    | no =>
      rw [hr] at he
      simp only at he ⊢
      exact hc he
    | _ => rfl

theorem at_le {s : Subject} {off : Nat} {kind : At} {c c' : Out} (h : c ≠ .endless → c' = c) (he : at_ s off c kind ≠ .endless) : at_ s off c' kind = at_ s off c kind := by
  by_cases hc : c = .endless
  · subst hc
    cases kind with
    | beginning =>
      simp only [at_] at he ⊢
      by_cases h0 : off = 0
      · simp [h0] at he
      · simp only [h0, if_false] at he ⊢
        cases hm : s.multiline <;> simp only [hm, Bool.false_eq_true, if_false, if_true] at he ⊢
        cases hl : s.text[off - 1]? with
        | none => rfl
        | some x =>
          rw [hl] at he
          simp only at he ⊢
          by_cases hx : x = 10
          · simp [hx] at he
          · simp [hx]
    | beginningString =>
      simp only [at_] at he ⊢
      by_cases h0 : off = 0 <;> simp [h0] at he ⊢
    | ending =>
      simp only [at_] at he ⊢
      by_cases h0 : s.text.length ≤ off
      · simp [h0] at he
      · simp only [h0, if_false] at he ⊢
        cases hm : s.multiline <;> simp only [hm, Bool.false_eq_true, if_false, if_true] at he ⊢
        by_cases hx : s.text[off]? = some 10
        · simp [hx] at he
        · simp [hx]
    | endingString =>
      simp only [at_] at he ⊢
      by_cases h0 : s.text.length ≤ off
      · simp [h0] at he
      · simp [h0]
    | boundary =>
      simp only [at_] at he ⊢
      by_cases h0 : s.text.length ≤ off ∨ off = 0
      · simp [h0] at he
      · simp only [h0, if_false] at he ⊢
        split
        · rename_i hx; rw [if_pos hx] at he; exact absurd rfl he
        · rfl
    | nonBoundary =>
      simp only [at_] at he ⊢
      by_cases h0 : s.text.length ≤ off ∨ off = 0
      · simp [h0]
      · simp only [h0, if_false] at he ⊢
        split
        · rename_i hx; rw [if_pos hx] at he; exact absurd rfl he
        · rfl
  · rw [h hc]

theorem look_le {x x' c c' : Out} {positive : Bool} (hx : x ≠ .endless → x' = x) (hc : c ≠ .endless → c' = c) (he : look x positive c ≠ .endless) :
    look x' positive c' = look x positive c := by
  unfold look at he ⊢
  have h1 : x ≠ .endless := fun h => he (by rw [h])
  rw [hx h1]
  cases x with
  | endless => exact absurd rfl h1
  | indexError => rfl
  | no =>
    simp only at he ⊢
    cases positive
    · simp only [Bool.false_eq_true, if_false] at he ⊢; exact hc he
    · rfl
  | hit _ =>
    simp only at he ⊢
    cases positive
    · rfl
    · simp only [if_true] at he ⊢; exact hc he

theorem step_le (s : Subject) {m m' : List Re → Nat → Bool → Out} (h : Le m m') : Le (step s m) (step s m') := by
  intro pats off allow he
  cases pats with
  | nil => rfl
  | cons p rest =>
    cases p with
    | char mask =>
      simp only [step] at he ⊢
      cases hc : s.text[off]? with
      | none => rfl
      | some c =>
        rw [hc] at he
        simp only at he ⊢
        by_cases hm : mask c = true
        · simp only [hm, if_true] at he ⊢
          exact cont_le h _ _ _ _ he
        · simp [hm]
    | rep greedy min max body =>
      simp only [step, repeat_] at he ⊢
      by_cases hm : max.any (· < min) = true
      · simp [hm]
      · simp only [hm] at he ⊢
        have h1 : atLeast (fun o => m body o true) min (.at off) ≠ .endless := fun hx => he (by rw [hx]; rfl)
        rw [atLeast_le (fun o ho => h body o true ho) min _ h1]
        cases ha : atLeast (fun o => m body o true) min (.at off) with
        | hit o =>
          rw [ha] at he
          simp only [Bool.false_eq_true, if_false] at he ⊢
          by_cases hx : max.any (· ≤ min) = true
          · simp only [hx, if_true] at he ⊢
            exact cont_le h _ _ _ _ he
          · simp only [hx] at he ⊢
            exact repeatRest_le h _ _ _ _ _ _ _ he
        | _ => rfl
    | branch alts =>
      simp only [step] at he ⊢
      cases alts with
      | nil => rfl
      | cons a as =>
        cases as with
        | nil => exact h _ _ _ he
        | cons b as =>
          simp only [branch_] at he ⊢
          have h1 : m (a ++ rest) off allow ≠ .endless := fun hx => he (by rw [hx])
          rw [h _ _ _ h1]
          cases ha : m (a ++ rest) off allow with
          | no =>
            rw [ha] at he
            exact h _ _ _ he
          | _ => rfl
    | «at» kind =>
      simp only [step] at he ⊢
      exact at_le (fun hc => cont_le h _ _ _ _ hc) he
    | ahead positive sub =>
      simp only [step] at he ⊢
      exact look_le (h _ _ _) (h _ _ _) he
    | behind positive width sub =>
      simp only [step] at he ⊢
      by_cases hw : off < width
      · simp [hw]
      · simp only [hw, if_false] at he ⊢
        exact look_le (h _ _ _) (h _ _ _) he
    | group num sub => exact h _ _ _ he
    | close num start =>
      simp only [step] at he ⊢
      rw [cont_le h _ _ _ _ (fun hx => he (by rw [hx]))]

theorem go_le (s : Subject) : ∀ n, Le (go s n) (go s (n + 1))
  | 0 => fun _ _ _ h => absurd rfl h
  | n + 1 => step_le s (go_le s n)

theorem go_mono (s : Subject) {n m : Nat} (h : n ≤ m) {pats : List Re} {off : Nat} {allow : Bool} (he : go s n pats off allow ≠ .endless) :
    go s m pats off allow = go s n pats off allow := by
  induction m with
  | zero => rw [show n = 0 by omega]
  | succ m ih =>
    by_cases hm : n = m + 1
    · rw [hm]
    · have := ih (by omega)
      rw [go_le s m _ _ _ (by rw [this]; exact he), this]

/-- Whatever the number of nested calls, if the matcher ends then with the first match. -/
theorem go_ends {s : Subject} {pats : List Re} {off : Nat} {allow : Bool} (hg : GoodSeq s pats) (hn : (groupsSeq pats).Nodup) (hoff : off ≤ s.text.length) {n : Nat}
    (he : go s n pats off allow ≠ .endless) : go s n pats off allow = pick allow off (runsSeq s pats off) := by
  obtain ⟨N, hN⟩ := go_exact s pats off allow hg hn hoff
  exact (go_mono s (Nat.le_max_left n N) he).symm.trans (hN (max n N) (Nat.le_max_right n N))

/-! ## Soundness -/

theorem sane_append (s : Subject) (ps qs : List Re) : SaneSeq s (ps ++ qs) ↔ SaneSeq s ps ∧ SaneSeq s qs := by
  induction ps with
  | nil => simp [SaneSeq]
  | cons p ps ih => rw [List.cons_append, SaneSeq, SaneSeq, ih, and_assoc]

theorem lang_append (s : Subject) (ps qs : List Re) (a b : Nat) : langSeq s (ps ++ qs) a b ↔ ∃ c, langSeq s ps a c ∧ langSeq s qs c b := by
  induction ps generalizing a with
  | nil => simp [langSeq]
  | cons p ps ih =>
    rw [List.cons_append, langSeq]
    simp only [ih, langSeq]
    constructor
    · rintro ⟨c, h1, d, h2, h3⟩; exact ⟨d, ⟨c, h1, h2⟩, h3⟩
    · rintro ⟨d, ⟨c, h1, h2⟩, h3⟩; exact ⟨c, h1, d, h2, h3⟩

/-- What is shown of a match of the matcher. -/
def Sound (s : Subject) (pats : List Re) (off : Nat) (allow : Bool) (h : Hit) : Prop :=
  langSeq s pats off h.stop ∧ (allow = false → off < h.stop) ∧ off ≤ h.stop ∧ h.stop ≤ s.text.length

theorem cont_sound {s : Subject} {m : List Re → Nat → Bool → Out} {rest : List Re} {off : Nat} {allow : Bool} {a h : Hit}
    (hm : ∀ o al x, o ≤ s.text.length → m rest o al = .hit x → Sound s rest o al x) (h1 : off ≤ a.stop) (h2 : a.stop ≤ s.text.length)
    (hc : cont m rest off allow a = .hit h) : langSeq s rest a.stop h.stop ∧ (allow = false → off < h.stop) ∧ off ≤ h.stop ∧ h.stop ≤ s.text.length := by
  unfold cont at hc
  cases hr : m rest a.stop (if a.stop ≤ off then allow else true) with
  | hit x =>
    rw [hr] at hc
    cases hc
    obtain ⟨h3, h4, h5, h6⟩ := hm _ _ _ h2 hr
    refine ⟨h3, ?_, ?_, h6⟩
    · intro ha
      subst ha
      simp only [Hit.add]
      by_cases hle : a.stop ≤ off
      · rw [if_pos hle] at h4
        have := h4 rfl
        omega
      · omega
    · simp only [Hit.add]; omega
  | _ => rw [hr] at hc; cases hc

theorem atLeast_sound {s : Subject} {m : Nat → Out} {body : List Re} (hm : ∀ o x, o ≤ s.text.length → m o = .hit x → Sound s body o true x) :
    ∀ k acc h, acc.stop ≤ s.text.length → atLeast m k acc = .hit h → Steps (langSeq s body) k acc.stop h.stop ∧ acc.stop ≤ h.stop ∧ h.stop ≤ s.text.length
  | 0, acc, h, hl, he => by
    simp only [atLeast, Out.hit.injEq] at he
    subst he
    exact ⟨rfl, Nat.le_refl _, hl⟩
  | k + 1, acc, h, hl, he => by
    rw [atLeast] at he
    cases hr : m acc.stop with
    | hit x =>
      rw [hr] at he
      obtain ⟨h1, _, h2, h3⟩ := hm _ _ hl hr
      obtain ⟨h4, h5, h6⟩ := atLeast_sound hm k (acc.add x) h h3 he
      exact ⟨⟨x.stop, h1, h4⟩, by simp only [Hit.add] at h5; omega, h6⟩
    | _ => rw [hr] at he; cases he

theorem at_hit {s : Subject} {kind : At} (hf : atFits s kind) {off : Nat} (hoff : off ≤ s.text.length) {c : Out} {h : Hit} (he : at_ s off c kind = .hit h) :
    atHolds s off kind = true ∧ c = .hit h := by
  rw [at_exact hf hoff] at he
  split at he
  · rename_i hh; exact ⟨hh, he⟩
  · cases he

theorem no_lang {s : Subject} {sub : List Re} {off : Nat} (hg : GoodSeq s sub) (hn : (groupsSeq sub).Nodup) (hoff : off ≤ s.text.length) {n : Nat}
    (he : go s n sub off true = .no) : ¬∃ x, langSeq s sub off x := by
  have h1 := go_ends hg hn hoff (n := n) (allow := true) (by rw [he]; simp)
  rw [he, pick_true] at h1
  rintro ⟨x, hx⟩
  obtain ⟨h, hh, _⟩ := (agree_seq s sub (good_wfSeq s sub hg) off x).2 hx
  cases hr : runsSeq s sub off with
  | nil => rw [hr] at hh; cases hh
  | cons a l => rw [hr] at h1; cases h1

theorem go_sound (s : Subject) : ∀ n pats off allow h, SaneSeq s pats → off ≤ s.text.length → go s n pats off allow = .hit h → Sound s pats off allow h
  | 0, _, _, _, _, _, _, he => by cases he
  | n + 1, pats, off, allow, h, hs, hoff, he => by
    have ih := go_sound s n
    change step s (go s n) pats off allow = .hit h at he
    cases pats with
    | nil =>
      simp only [step] at he
      cases allow
      · cases he
      · simp only [if_true, Out.hit.injEq] at he
        subst he
        refine ⟨by simp [langSeq, Hit.at], by simp, Nat.le_refl _, hoff⟩
    | cons p rest =>
      rw [SaneSeq] at hs
      have ihr : ∀ o al x, o ≤ s.text.length → go s n rest o al = .hit x → Sound s rest o al x := fun o al x ho hx => ih rest o al x hs.2 ho hx
      unfold Sound
      rw [langSeq]
      cases p with
      | char mask =>
        simp only [step] at he
        cases hc : s.text[off]? with
        | none => rw [hc] at he; cases he
        | some c =>
          rw [hc] at he
          simp only at he
          by_cases hm : mask c = true
          · simp only [hm, if_true] at he
            obtain ⟨hlt, _⟩ := List.getElem?_eq_some_iff.1 hc
            obtain ⟨h1, h2⟩ := cont_sound ihr (by simp [Hit.at]) (by simp only [Hit.at]; omega) he
            exact ⟨⟨off + 1, by rw [lang]; exact ⟨rfl, c, hc, hm⟩, h1⟩, h2⟩
          · simp only [hm] at he
            cases he
      | rep greedy min max body =>
        have hsb := hs.1
        rw [Sane] at hsb
        simp only [step, repeat_] at he
        by_cases hm : max.any (· < min) = true
        · simp only [hm, if_true] at he; cases he
        · simp only [hm, Bool.false_eq_true, if_false] at he
          have hmin : ∀ m, max = some m → min ≤ m := by
            intro m hmm
            subst hmm
            simpa using hm
          cases ha : atLeast (fun o => go s n body o true) min (.at off) with
          | hit o =>
            rw [ha] at he
            simp only at he
            obtain ⟨h1, h2, h3⟩ := atLeast_sound (fun o x ho hx => ih body o true x hsb ho hx) min (.at off) o (by simpa [Hit.at] using hoff) ha
            simp only [Hit.at] at h1 h2
            have stopped : cont (go s n) rest off allow o = .hit h →
                (∃ c, lang s (.rep greedy min max body) off c ∧ langSeq s rest c h.stop) ∧ (allow = false → off < h.stop) ∧ off ≤ h.stop ∧ h.stop ≤ s.text.length := by
              intro hc
              obtain ⟨h4, h5⟩ := cont_sound ihr h2 h3 hc
              exact ⟨⟨o.stop, by rw [lang]; exact ⟨min, Nat.le_refl _, hmin, h1⟩, h4⟩, h5⟩
            by_cases hx : max.any (· ≤ min) = true
            · simp only [hx, if_true] at he
              exact stopped he
            · simp only [hx, Bool.false_eq_true, if_false] at he
              have longer : (match go s n (.rep greedy 1 (remaining min max) body :: rest) o.stop (allow || !decide (o.stop ≤ off)) with
                  | .hit h => Out.hit (o.add h) | o => o) = .hit h →
                  (∃ c, lang s (.rep greedy min max body) off c ∧ langSeq s rest c h.stop) ∧ (allow = false → off < h.stop) ∧ off ≤ h.stop ∧ h.stop ≤ s.text.length := by
                intro hc
                cases hr : go s n (.rep greedy 1 (remaining min max) body :: rest) o.stop (allow || !decide (o.stop ≤ off)) with
                | hit x =>
                  rw [hr] at hc
                  cases hc
                  obtain ⟨h4, h5, h6, h7⟩ := ih _ _ _ _ (by rw [SaneSeq, Sane]; exact ⟨hsb, hs.2⟩) h3 hr
                  rw [langSeq] at h4
                  obtain ⟨c, h8, h9⟩ := h4
                  rw [lang] at h8
                  obtain ⟨k, hk1, hk2, hk3⟩ := h8
                  refine ⟨⟨c, ?_, h9⟩, ?_, ?_, h7⟩
                  · rw [lang]
                    refine ⟨min + k, by omega, ?_, (steps_add min k off c).2 ⟨o.stop, h1, hk3⟩⟩
                    intro m hmm
                    subst hmm
                    have := hk2 (m - min) rfl
                    have := hmin m rfl
                    omega
                  · intro hal
                    subst hal
                    simp only [Hit.add]
                    by_cases hle : o.stop ≤ off
                    · have := h5 (by simp [hle])
                      omega
                    · omega
                  · simp only [Hit.add]; omega
                | _ => rw [hr] at hc; cases hc
              unfold repeatRest at he
              cases greedy
              · simp only [Bool.false_eq_true, if_false] at he
                cases hr : cont (go s n) rest off allow o with
                | no =>
                  rw [hr] at he
                  exact longer he
                | hit x =>
                  rw [hr] at he
                  simp only [Out.hit.injEq] at he
                  subst he
                  exact stopped hr
                | _ => rw [hr] at he; cases he
              · simp only [if_true] at he
                split at he
                · exact stopped he
                · exact longer he
          | _ => rw [ha] at he; cases he
      | branch alts =>
        have hsa := hs.1
        rw [Sane] at hsa
        simp only [step] at he
        cases alts with
        | nil => cases he
        | cons a as =>
          rw [SaneAlts] at hsa
          have first : go s n (a ++ rest) off allow = .hit h →
              (∃ c, lang s (.branch (a :: as)) off c ∧ langSeq s rest c h.stop) ∧ (allow = false → off < h.stop) ∧ off ≤ h.stop ∧ h.stop ≤ s.text.length := by
            intro hx
            obtain ⟨h1, h2⟩ := ih _ _ _ _ ((sane_append s a rest).2 ⟨hsa.1, hs.2⟩) hoff hx
            obtain ⟨c, h3, h4⟩ := (lang_append s a rest off h.stop).1 h1
            exact ⟨⟨c, by rw [lang, langAlts]; exact .inl h3, h4⟩, h2⟩
          cases as with
          | nil => exact first he
          | cons b as =>
            simp only [branch_] at he
            cases hr : go s n (a ++ rest) off allow with
            | no =>
              rw [hr] at he
              obtain ⟨h1, h2⟩ := ih _ _ _ _ (by rw [SaneSeq, Sane]; exact ⟨hsa.2, hs.2⟩) hoff he
              rw [langSeq] at h1
              obtain ⟨c, h3, h4⟩ := h1
              rw [lang] at h3
              exact ⟨⟨c, by rw [lang, langAlts]; exact .inr h3, h4⟩, h2⟩
            | hit x =>
              rw [hr] at he
              simp only [Out.hit.injEq] at he
              subst he
              exact first hr
            | _ => rw [hr] at he; cases he
      | «at» kind =>
        have hsk := hs.1
        rw [Sane] at hsk
        simp only [step] at he
        obtain ⟨h1, h2⟩ := at_hit hsk hoff he
        obtain ⟨h3, h4⟩ := cont_sound ihr (by simp [Hit.at]) (by simpa [Hit.at] using hoff) h2
        exact ⟨⟨off, by rw [lang]; exact ⟨rfl, h1⟩, h3⟩, h4⟩
      | ahead positive sub =>
        have hsa := hs.1
        rw [Sane] at hsa
        simp only [step, look] at he
        cases hr : go s n sub off true with
        | hit x =>
          rw [hr] at he
          cases positive
          · cases he
          · simp only [if_true] at he hsa
            obtain ⟨h1, h2⟩ := ihr _ _ _ hoff he
            exact ⟨⟨off, by rw [lang]; exact ⟨rfl, by simp only [true_iff]; exact ⟨x.stop, (ih _ _ _ _ hsa hoff hr).1⟩⟩, h1⟩, h2⟩
        | no =>
          rw [hr] at he
          cases positive
          · simp only [Bool.false_eq_true, if_false] at he hsa
            obtain ⟨h1, h2⟩ := ihr _ _ _ hoff he
            exact ⟨⟨off, by rw [lang]; exact ⟨rfl, by simpa using no_lang hsa.1 hsa.2 hoff hr⟩, h1⟩, h2⟩
          · cases he
        | _ => rw [hr] at he; cases he
      | behind positive width sub =>
        have hsa := hs.1
        rw [Sane] at hsa
        simp only [step, look] at he
        by_cases hw : off < width
        · simp only [hw, if_true] at he; cases he
        · simp only [hw, if_false] at he
          cases hr : go s n sub (off - width) true with
          | hit x =>
            rw [hr] at he
            cases positive
            · cases he
            · simp only [if_true] at he hsa
              obtain ⟨h1, h2⟩ := ihr _ _ _ hoff he
              refine ⟨⟨off, ?_, h1⟩, h2⟩
              rw [lang]
              exact ⟨rfl, by simp only [true_iff]; exact ⟨by omega, x.stop, (ih _ _ _ _ hsa (by omega) hr).1⟩⟩
          | no =>
            rw [hr] at he
            cases positive
            · simp only [Bool.false_eq_true, if_false] at he hsa
              obtain ⟨h1, h2⟩ := ihr _ _ _ hoff he
              refine ⟨⟨off, ?_, h1⟩, h2⟩
              rw [lang]
              refine ⟨rfl, ?_⟩
              simp only [Bool.false_eq_true, false_iff]
              rintro ⟨_, hx⟩
              exact no_lang hsa.1 hsa.2 (by omega) hr hx
            · cases he
          | _ => rw [hr] at he; cases he
      | group num sub =>
        have hsa := hs.1
        rw [Sane] at hsa
        simp only [step] at he
        obtain ⟨h1, h2⟩ := ih _ _ _ _ ((sane_append s sub _).2 ⟨hsa, by rw [SaneSeq, Sane]; exact ⟨trivial, hs.2⟩⟩) hoff he
        obtain ⟨c, h3, h4⟩ := (lang_append s sub _ off h.stop).1 h1
        rw [langSeq] at h4
        obtain ⟨d, h5, h6⟩ := h4
        rw [lang] at h5
        subst h5
        exact ⟨⟨d, by rw [lang]; exact h3, h6⟩, h2⟩
      | close num start =>
        simp only [step] at he
        cases hr : cont (go s n) rest off allow (.at off) with
        | hit x =>
          rw [hr] at he
          simp only [Out.hit.injEq] at he
          subst he
          obtain ⟨h3, h4⟩ := cont_sound ihr (by simp [Hit.at]) (by simpa [Hit.at] using hoff) hr
          exact ⟨⟨off, by rw [lang], h3⟩, h4⟩
        | _ => rw [hr] at he; cases he

end Verif.Regex
