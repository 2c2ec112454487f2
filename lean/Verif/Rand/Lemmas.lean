import Verif.Rand.Spec
import Mathlib.Tactic.Linarith
import Mathlib.Tactic.Ring

/-! Helper lemmas about random generators. -/
namespace Verif.Rand

/-- No generator is beyond the end of the values. -/
def Inv (w : World) : Prop := ∀ (g i : Nat), w.idx[g]? = some i → i ≤ w.future.length

theorem inv_start : Inv start := by
  intro g i h
  match g, h with
  | 0, h => simp [start] at h; omega
  | n + 1, h => simp [start] at h

/-- A request, when the generator exists. -/
theorem ask_eq (o : Oracle) {w : World} (hw : Inv w) {g i : Nat} (hg : w.idx[g]? = some i) (r : Req) :
    (∃ v, w.future[i]? = some v ∧
      step o w (.ask g r) = (.value (view o r v), { future := w.future, idx := w.idx.set g (i + 1) })) ∨
    (i = w.future.length ∧
      step o w (.ask g r) = (.value (view o r (o.fresh i r)),
        { future := w.future ++ [o.fresh i r], idx := w.idx.set g (i + 1) })) := by
  have hi := hw g i hg
  rcases Nat.lt_or_ge i w.future.length with h | h
  · left
    refine ⟨w.future[i], by simp [h], ?_⟩
    simp [step, hg, Nat.not_le.2 h, h]
  · right
    have : i = w.future.length := by omega
    subst this
    refine ⟨rfl, ?_⟩
    simp [step, hg]

theorem step_inv (o : Oracle) {w : World} (hw : Inv w) (e : Event) :
    Inv (step o w e).2 ∧ w.future <+: (step o w e).2.future := by
  cases e with
  | ask g r =>
    cases hg : w.idx[g]? with
    | none => simp [step, hg]; exact hw
    | some i =>
      have hi := hw g i hg
      rcases ask_eq o hw hg r with ⟨v, hv, h⟩ | ⟨hl, h⟩
      · rw [h]
        have hlt := (List.getElem?_eq_some_iff.1 hv).1
        refine ⟨?_, List.prefix_rfl⟩
        intro g' i' h'
        simp only [List.getElem?_set] at h'
        split at h'
        · split at h'
          · cases h'; exact hlt
          · cases h'
        · exact hw g' i' h'
      · rw [h]
        refine ⟨?_, List.prefix_append _ _⟩
        intro g' i' h'
        simp only [List.getElem?_set] at h'
        simp only [List.length_append, List.length_singleton]
        split at h'
        · split at h'
          · cases h'; omega
          · cases h'
        · have := hw g' i' h'; omega
  | copy g =>
    cases hg : w.idx[g]? with
    | none => simp [step, hg]; exact hw
    | some i =>
      simp only [step, hg]
      refine ⟨?_, List.prefix_rfl⟩
      intro g' i' h'
      rcases Nat.lt_or_ge g' w.idx.length with h | h
      · rw [List.getElem?_append_left h] at h'; exact hw g' i' h'
      · rw [List.getElem?_append_right h] at h'
        have hlt := (List.getElem?_eq_some_iff.1 h').1
        simp at hlt
        have h0 : g' - w.idx.length = 0 := by omega
        rw [h0] at h'
        cases h'
        exact hw g i hg
  | seed g s =>
    cases hg : w.idx[g]? with
    | none => simp [step, hg]; exact hw
    | some i => simp [step, hg]; exact hw

theorem run_inv (o : Oracle) : ∀ (es : List Event) {w : World}, Inv w →
    Inv (run o w es).2 ∧ w.future <+: (run o w es).2.future
  | [], _, h => ⟨h, List.prefix_rfl⟩
  | e :: es, w, h => by
    have h1 := step_inv o h e
    have h2 := run_inv o es h1.1
    exact ⟨h2.1, h1.2.trans h2.2⟩

/-- Answers to requests from position `i` on, when the values are `F`. -/
def replayFrom (o : Oracle) (F : List Val) : Nat → List Req → List Out
  | _, [] => []
  | i, r :: rs => (match F[i]? with
    | some v => .value (view o r v)
    | none => .indexError) :: replayFrom o F (i + 1) rs

theorem replayFrom_append (o : Oracle) (F : List Val) : ∀ (a b : List Req) (i : Nat),
    replayFrom o F i a <+: replayFrom o F i (a ++ b)
  | [], _, _ => List.nil_prefix
  | r :: a, b, i => by
    simp only [replayFrom, List.cons_append]
    exact (List.cons_prefix_cons).2 ⟨rfl, replayFrom_append o F a b (i + 1)⟩

theorem prefix_get {F G : List Val} (h : F <+: G) {i : Nat} {v : Val} (hv : F[i]? = some v) : G[i]? = some v := by
  obtain ⟨t, rfl⟩ := h
  rw [List.getElem?_append_left (List.getElem?_eq_some_iff.1 hv).1, hv]

theorem step_idx_other (o : Oracle) {w : World} (hw : Inv w) {g i : Nat} (hg : w.idx[g]? = some i) (e : Event)
    (h : ∀ r, e ≠ .ask g r) : (step o w e).2.idx[g]? = some i := by
  cases e with
  | ask g' r =>
    have hne : g' ≠ g := fun e => h r (by rw [e])
    cases hg' : w.idx[g']? with
    | none => simp [step, hg', hg]
    | some i' =>
      rcases ask_eq o hw hg' r with ⟨v, _, h1⟩ | ⟨_, h1⟩ <;>
      · rw [h1]
        simp [List.getElem?_set, hne, hg]
  | copy g' =>
    cases hg' : w.idx[g']? with
    | none => simp [step, hg', hg]
    | some i' =>
      simp only [step, hg']
      rw [List.getElem?_append_left (List.getElem?_eq_some_iff.1 hg).1, hg]
  | seed g' s => cases hg' : w.idx[g']? <;> simp [step, hg', hg]

theorem answers_eq (o : Oracle) : ∀ (es : List Event) {w : World}, Inv w → ∀ {g i : Nat}, w.idx[g]? = some i →
    answers g es (run o w es).1 = replayFrom o (run o w es).2.future i (asked g es)
  | [], _, _, _, _, _ => rfl
  | e :: es, w, hw, g, i, hg => by
    have h1 := step_inv o hw e
    have h2 := run_inv o es h1.1
    show answers g (e :: es) ((step o w e).1 :: (run o (step o w e).2 es).1) =
      replayFrom o (run o (step o w e).2 es).2.future i (asked g (e :: es))
    by_cases he : ∃ r, e = .ask g r
    · obtain ⟨r, rfl⟩ := he
      have hidx : (step o w (.ask g r)).2.idx[g]? = some (i + 1) := by
        have hlt := (List.getElem?_eq_some_iff.1 hg).1
        rcases ask_eq o hw hg r with ⟨v, _, h⟩ | ⟨_, h⟩ <;>
        · rw [h]; simp [hlt]
      have ih := answers_eq o es h1.1 hidx
      simp only [answers, asked, if_true, replayFrom]
      rw [ih]
      congr 1
      rcases ask_eq o hw hg r with ⟨v, hv, h⟩ | ⟨hl, h⟩
      · have : (step o w (.ask g r)).2.future[i]? = some v := by rw [h]; exact hv
        rw [prefix_get h2.2 this, h]
      · have : (step o w (.ask g r)).2.future[i]? = some (o.fresh i r) := by rw [h, hl]; simp
        rw [prefix_get h2.2 this, h]
    · have he' : ∀ r, e ≠ .ask g r := fun r hr => he ⟨r, hr⟩
      have ih := answers_eq o es h1.1 (step_idx_other o hw hg e he')
      rw [show asked g (e :: es) = asked g es from ?_, ← ih]
      · cases e with
        | ask g' r =>
          have hne : g' ≠ g := fun e => he' r (by rw [e])
          simp [answers, hne]
        | copy g' => rfl
        | seed g' s => rfl
      · cases e with
        | ask g' r =>
          have hne : g' ≠ g := fun e => he' r (by rw [e])
          simp [asked, hne]
        | copy g' => rfl
        | seed g' s => rfl

/-- Positive caps. -/
def PosCaps (R : Nat → Req) : Prop := ∀ i cap, R i = .below cap → 0 < cap

theorem fresh_inRange {o : Oracle} (ho : o.Obeys) (i : Nat) (r : Req) (hr : ∀ cap, r = .below cap → 0 < cap) :
    InRange r (view o r (o.fresh i r)) := by
  cases r with
  | random =>
    obtain ⟨q, hq, h1, h2⟩ := ho.1 i
    rw [hq]
    exact ⟨h1, h2⟩
  | below cap =>
    obtain ⟨k, hk, h1, h2⟩ := ho.2 i cap (hr cap rfl)
    rw [hk]
    refine ⟨?_, ?_, ?_⟩
    · simp only [view]; exact_mod_cast h1
    · simp only [view]; exact_mod_cast h2
    · simp [view]

theorem follows_run {o : Oracle} (ho : o.Obeys) {R : Nat → Req} (hR : PosCaps R) :
    ∀ (es : List Event) {w : World}, Inv w → (∀ (i : Nat) (v : Val), w.future[i]? = some v → v = o.fresh i (R i)) →
      Follows o R w es → ∀ (n g : Nat) (r : Req) (q : Rat), es[n]? = some (Event.ask g r) →
        (run o w es).1[n]? = some (Out.value q) → InRange r q
  | [], _, _, _, _, n, g, r, q, h, _ => by simp at h
  | e :: es, w, hw, hF, hf, n, g, r, q, h, hq => by
    have hq' : ((step o w e).1 :: (run o (step o w e).2 es).1)[n]? = some (.value q) := hq
    have h1 := step_inv o hw e
    have hF' : ∀ (i : Nat) (v : Val), (step o w e).2.future[i]? = some v → v = o.fresh i (R i) := by
      intro i v hv
      cases e with
      | ask g' r' =>
        cases hg' : w.idx[g']? with
        | none => simp [step, hg'] at hv; exact hF i v hv
        | some i' =>
          have hr := hf.1 g' i' r' rfl hg'
          rcases ask_eq o hw hg' r' with ⟨v', hv', h2⟩ | ⟨hl, h2⟩
          · rw [h2] at hv; exact hF i v hv
          · rw [h2] at hv
            simp only at hv
            rcases Nat.lt_or_ge i w.future.length with hlt | hge
            · rw [List.getElem?_append_left hlt] at hv; exact hF i v hv
            · rw [List.getElem?_append_right hge] at hv
              have hlt := (List.getElem?_eq_some_iff.1 hv).1
              simp at hlt
              have hii : i = i' := by omega
              subst hii
              rw [hl] at hv
              simp at hv
              rw [← hv, hr, hl]
      | copy g' => cases hg' : w.idx[g']? <;> simp [step, hg'] at hv <;> exact hF i v hv
      | seed g' s => cases hg' : w.idx[g']? <;> simp [step, hg'] at hv <;> exact hF i v hv
    cases n with
    | succ n =>
      simp only [List.getElem?_cons_succ] at h hq'
      exact follows_run ho hR es h1.1 hF' hf.2 n g r q h hq'
    | zero =>
      simp only [List.getElem?_cons_zero] at h hq'
      cases h
      cases hg : w.idx[g]? with
      | none => simp [step, hg] at hq'
      | some i =>
        have hr := hf.1 g i r rfl hg
        have hcap : ∀ cap, r = .below cap → 0 < cap := fun cap hc => hR i cap (by rw [← hr, hc])
        rcases ask_eq o hw hg r with ⟨v, hv, h2⟩ | ⟨_, h2⟩
        · rw [h2] at hq'
          simp only [Option.some.injEq, Out.value.injEq] at hq'
          rw [← hq', hF i v hv, ← hr]
          exact fresh_inRange ho i r hcap
        · rw [h2] at hq'
          simp only [Option.some.injEq, Out.value.injEq] at hq'
          rw [← hq']
          exact fresh_inRange ho i r hcap

end Verif.Rand
