import Verif.Explore.Loop
/- Helper lemmas: the parts of a comparison. -/
namespace Verif.Explore
open Verif.Search
variable {W : World} {P : Prog W} {K : Analysis → Prop}

theorem acc_congr {i : W.Inp} {s s' : P.S} (h : P.act s = P.act s') (ha : Accounted P K i s) : Accounted P K i s' := by
  cases ha with
  | cut hu => exact .cut hu
  | done a k => exact .done (h ▸ a) k
  | ask a k => exact .ask (h ▸ a) k
  | realize a k => exact .realize (h ▸ a) k
  | fork b a k => exact .fork b (h ▸ a) k
  | assume a b k => exact .assume (h ▸ a) b k
  | excluded a b => exact .excluded (h ▸ a) b
  | cap a k => exact .cap (h ▸ a) k
  | detached a b k => exact .detached (h ▸ a) b k

theorem runs_congr {i : W.Inp} {s s' : P.S} {o} (h : P.act s = P.act s') (ha : Runs P i s o) : Runs P i s' o := by
  cases ha with
  | done a => exact .done (h ▸ a)
  | ask a k => exact .ask (h ▸ a) k
  | realize a k => exact .realize (h ▸ a) k
  | fork b a k => exact .fork b (h ▸ a) k
  | assume a b k => exact .assume (h ▸ a) b k
  | excluded a b => exact .excluded (h ▸ a) b
  | cap a k => exact .cap (h ▸ a) k
  | detach a k => exact .detach (h ▸ a) k

section part
variable {A R : Type} (F : Fun W A R) (inj : F.S → P.S) (onRet : R → Action W.E W.X W.V P.S)
  (onFail : Action W.E W.X W.V P.S) (hact : ∀ s, P.act (inj s) = lift inj onRet onFail (F.act s))

include hact in
theorem acc_part {i : W.Inp} {t : P.S} (h : Accounted P K i t) : ∀ s, inj s = t →
    K .unknown ∨ Does F i s .illegal ∨
    (∃ r s', Does F i s (.ret r) ∧ P.act s' = onRet r ∧ Accounted P K i s') ∨
    (∃ s', Does F i s .fail ∧ P.act s' = onFail ∧ Accounted P K i s') := by
  induction h with
  | cut hu => intro s hs; exact Or.inl hu
  | @done t r a ha hk =>
    intro s hs
    subst hs
    have hx := hact s
    cases hp : F.act s with
    | ret v => rw [hp] at hx; exact Or.inr (Or.inr (Or.inl ⟨v, inj s, .ret hp, hx, .done ha hk⟩))
    | fail => rw [hp] at hx; exact Or.inr (Or.inr (Or.inr ⟨inj s, .fail hp, hx, .done ha hk⟩))
    | giveUp =>
      rw [hp, ha] at hx
      simp only [lift, Action.done.injEq] at hx
      exact Or.inl (hx.2 ▸ hk)
    | _ => rw [hp, ha] at hx; simp [lift] at hx
  | @ask t e k ha h2 ih =>
    intro s hs
    subst hs
    have hx := hact s
    cases hp : F.act s with
    | ret v => rw [hp] at hx; exact Or.inr (Or.inr (Or.inl ⟨v, inj s, .ret hp, hx, .ask ha h2⟩))
    | fail => rw [hp] at hx; exact Or.inr (Or.inr (Or.inr ⟨inj s, .fail hp, hx, .ask ha h2⟩))
    | ask e' k' =>
      rw [hp, ha] at hx
      simp only [lift, Action.ask.injEq] at hx
      obtain ⟨rfl, rfl⟩ := hx
      rcases ih _ rfl with h | h | ⟨r, s', h, h'⟩ | ⟨s', h, h'⟩
      · exact Or.inl h
      · exact Or.inr (Or.inl (.ask hp h))
      · exact Or.inr (Or.inr (Or.inl ⟨r, s', .ask hp h, h'⟩))
      · exact Or.inr (Or.inr (Or.inr ⟨s', .ask hp h, h'⟩))
    | _ => rw [hp, ha] at hx; simp [lift] at hx
  | @realize t e k ha h2 ih =>
    intro s hs
    subst hs
    have hx := hact s
    cases hp : F.act s with
    | ret v => rw [hp] at hx; exact Or.inr (Or.inr (Or.inl ⟨v, inj s, .ret hp, hx, .realize ha h2⟩))
    | fail => rw [hp] at hx; exact Or.inr (Or.inr (Or.inr ⟨inj s, .fail hp, hx, .realize ha h2⟩))
    | realize e' k' =>
      rw [hp, ha] at hx
      simp only [lift, Action.realize.injEq] at hx
      obtain ⟨rfl, rfl⟩ := hx
      rcases ih _ rfl with h | h | ⟨r, s', h, h'⟩ | ⟨s', h, h'⟩
      · exact Or.inl h
      · exact Or.inr (Or.inl (.realize hp h))
      · exact Or.inr (Or.inr (Or.inl ⟨r, s', .realize hp h, h'⟩))
      · exact Or.inr (Or.inr (Or.inr ⟨s', .realize hp h, h'⟩))
    | _ => rw [hp, ha] at hx; simp [lift] at hx
  | @fork t k b ha h2 ih =>
    intro s hs
    subst hs
    have hx := hact s
    cases hp : F.act s with
    | ret v => rw [hp] at hx; exact Or.inr (Or.inr (Or.inl ⟨v, inj s, .ret hp, hx, .fork b ha h2⟩))
    | fail => rw [hp] at hx; exact Or.inr (Or.inr (Or.inr ⟨inj s, .fail hp, hx, .fork b ha h2⟩))
    | fork k' =>
      rw [hp, ha] at hx
      simp only [lift, Action.fork.injEq] at hx
      subst hx
      rcases ih _ rfl with h | h | ⟨r, s', h, h'⟩ | ⟨s', h, h'⟩
      · exact Or.inl h
      · exact Or.inr (Or.inl (.fork b hp h))
      · exact Or.inr (Or.inr (Or.inl ⟨r, s', .fork b hp h, h'⟩))
      · exact Or.inr (Or.inr (Or.inr ⟨s', .fork b hp h, h'⟩))
    | _ => rw [hp, ha] at hx; simp [lift] at hx
  | @assume t e k ha hh h2 ih =>
    intro s hs
    subst hs
    have hx := hact s
    cases hp : F.act s with
    | ret v => rw [hp] at hx; exact Or.inr (Or.inr (Or.inl ⟨v, inj s, .ret hp, hx, .assume ha hh h2⟩))
    | fail => rw [hp] at hx; exact Or.inr (Or.inr (Or.inr ⟨inj s, .fail hp, hx, .assume ha hh h2⟩))
    | assume e' k' =>
      rw [hp, ha] at hx
      simp only [lift, Action.assume.injEq] at hx
      obtain ⟨rfl, rfl⟩ := hx
      rcases ih _ rfl with h | h | ⟨r, s', h, h'⟩ | ⟨s', h, h'⟩
      · exact Or.inl h
      · exact Or.inr (Or.inl (.assume hp hh h))
      · exact Or.inr (Or.inr (Or.inl ⟨r, s', .assume hp hh h, h'⟩))
      · exact Or.inr (Or.inr (Or.inr ⟨s', .assume hp hh h, h'⟩))
    | _ => rw [hp, ha] at hx; simp [lift] at hx
  | @excluded t e k ha hh =>
    intro s hs
    subst hs
    have hx := hact s
    cases hp : F.act s with
    | ret v => rw [hp] at hx; exact Or.inr (Or.inr (Or.inl ⟨v, inj s, .ret hp, hx, .excluded ha hh⟩))
    | fail => rw [hp] at hx; exact Or.inr (Or.inr (Or.inr ⟨inj s, .fail hp, hx, .excluded ha hh⟩))
    | assume e' k' =>
      rw [hp, ha] at hx
      simp only [lift, Action.assume.injEq] at hx
      obtain ⟨rfl, rfl⟩ := hx
      exact Or.inr (Or.inl (.illegal hp hh))
    | _ => rw [hp, ha] at hx; simp [lift] at hx
  | @cap t s' ha h2 ih =>
    intro s hs
    subst hs
    have hx := hact s
    cases hp : F.act s with
    | ret v => rw [hp] at hx; exact Or.inr (Or.inr (Or.inl ⟨v, inj s, .ret hp, hx, .cap ha h2⟩))
    | fail => rw [hp] at hx; exact Or.inr (Or.inr (Or.inr ⟨inj s, .fail hp, hx, .cap ha h2⟩))
    | cap k' =>
      rw [hp, ha] at hx
      simp only [lift, Action.cap.injEq] at hx
      subst hx
      rcases ih _ rfl with h | h | ⟨r, s', h, h'⟩ | ⟨s', h, h'⟩
      · exact Or.inl h
      · exact Or.inr (Or.inl (.cap hp h))
      · exact Or.inr (Or.inr (Or.inl ⟨r, s', .cap hp h, h'⟩))
      · exact Or.inr (Or.inr (Or.inr ⟨s', .cap hp h, h'⟩))
    | _ => rw [hp, ha] at hx; simp [lift] at hx
  | @detached t s' a ha hr hk =>
    intro s hs
    subst hs
    have hx := hact s
    cases hp : F.act s with
    | ret v => rw [hp] at hx; exact Or.inr (Or.inr (Or.inl ⟨v, inj s, .ret hp, hx, .detached ha hr hk⟩))
    | fail => rw [hp] at hx; exact Or.inr (Or.inr (Or.inr ⟨inj s, .fail hp, hx, .detached ha hr hk⟩))
    | _ => rw [hp, ha] at hx; simp [lift] at hx

include hact in
theorem runs_part {i : W.Inp} {t : P.S} {o} (h : Runs P i t o) : ∀ s, inj s = t →
    (o = some .unknown ∧ Does F i s .gaveUp) ∨ (o = none ∧ Does F i s .illegal) ∨
    (∃ r s', Does F i s (.ret r) ∧ P.act s' = onRet r ∧ Runs P i s' o) ∨
    (∃ s', Does F i s .fail ∧ P.act s' = onFail ∧ Runs P i s' o) := by
  induction h with
  | @done t r a ha =>
    intro s hs
    subst hs
    have hx := hact s
    cases hp : F.act s with
    | ret v => rw [hp] at hx; exact Or.inr (Or.inr (Or.inl ⟨v, inj s, .ret hp, hx, .done ha⟩))
    | fail => rw [hp] at hx; exact Or.inr (Or.inr (Or.inr ⟨inj s, .fail hp, hx, .done ha⟩))
    | giveUp =>
      rw [hp, ha] at hx
      simp only [lift, Action.done.injEq] at hx
      exact Or.inl ⟨by rw [hx.2], .giveUp hp⟩
    | _ => rw [hp, ha] at hx; simp [lift] at hx
  | @ask t e k o ha h2 ih =>
    intro s hs
    subst hs
    have hx := hact s
    cases hp : F.act s with
    | ret v => rw [hp] at hx; exact Or.inr (Or.inr (Or.inl ⟨v, inj s, .ret hp, hx, .ask ha h2⟩))
    | fail => rw [hp] at hx; exact Or.inr (Or.inr (Or.inr ⟨inj s, .fail hp, hx, .ask ha h2⟩))
    | ask e' k' =>
      rw [hp, ha] at hx
      simp only [lift, Action.ask.injEq] at hx
      obtain ⟨rfl, rfl⟩ := hx
      rcases ih _ rfl with h | h | ⟨r, s', h, h'⟩ | ⟨s', h, h'⟩
      · exact Or.inl ⟨h.1, .ask hp h.2⟩
      · exact Or.inr (Or.inl ⟨h.1, .ask hp h.2⟩)
      · exact Or.inr (Or.inr (Or.inl ⟨r, s', .ask hp h, h'⟩))
      · exact Or.inr (Or.inr (Or.inr ⟨s', .ask hp h, h'⟩))
    | _ => rw [hp, ha] at hx; simp [lift] at hx
  | @realize t e k o ha h2 ih =>
    intro s hs
    subst hs
    have hx := hact s
    cases hp : F.act s with
    | ret v => rw [hp] at hx; exact Or.inr (Or.inr (Or.inl ⟨v, inj s, .ret hp, hx, .realize ha h2⟩))
    | fail => rw [hp] at hx; exact Or.inr (Or.inr (Or.inr ⟨inj s, .fail hp, hx, .realize ha h2⟩))
    | realize e' k' =>
      rw [hp, ha] at hx
      simp only [lift, Action.realize.injEq] at hx
      obtain ⟨rfl, rfl⟩ := hx
      rcases ih _ rfl with h | h | ⟨r, s', h, h'⟩ | ⟨s', h, h'⟩
      · exact Or.inl ⟨h.1, .realize hp h.2⟩
      · exact Or.inr (Or.inl ⟨h.1, .realize hp h.2⟩)
      · exact Or.inr (Or.inr (Or.inl ⟨r, s', .realize hp h, h'⟩))
      · exact Or.inr (Or.inr (Or.inr ⟨s', .realize hp h, h'⟩))
    | _ => rw [hp, ha] at hx; simp [lift] at hx
  | @fork t k o b ha h2 ih =>
    intro s hs
    subst hs
    have hx := hact s
    cases hp : F.act s with
    | ret v => rw [hp] at hx; exact Or.inr (Or.inr (Or.inl ⟨v, inj s, .ret hp, hx, .fork b ha h2⟩))
    | fail => rw [hp] at hx; exact Or.inr (Or.inr (Or.inr ⟨inj s, .fail hp, hx, .fork b ha h2⟩))
    | fork k' =>
      rw [hp, ha] at hx
      simp only [lift, Action.fork.injEq] at hx
      subst hx
      rcases ih _ rfl with h | h | ⟨r, s', h, h'⟩ | ⟨s', h, h'⟩
      · exact Or.inl ⟨h.1, .fork b hp h.2⟩
      · exact Or.inr (Or.inl ⟨h.1, .fork b hp h.2⟩)
      · exact Or.inr (Or.inr (Or.inl ⟨r, s', .fork b hp h, h'⟩))
      · exact Or.inr (Or.inr (Or.inr ⟨s', .fork b hp h, h'⟩))
    | _ => rw [hp, ha] at hx; simp [lift] at hx
  | @assume t e k o ha hh h2 ih =>
    intro s hs
    subst hs
    have hx := hact s
    cases hp : F.act s with
    | ret v => rw [hp] at hx; exact Or.inr (Or.inr (Or.inl ⟨v, inj s, .ret hp, hx, .assume ha hh h2⟩))
    | fail => rw [hp] at hx; exact Or.inr (Or.inr (Or.inr ⟨inj s, .fail hp, hx, .assume ha hh h2⟩))
    | assume e' k' =>
      rw [hp, ha] at hx
      simp only [lift, Action.assume.injEq] at hx
      obtain ⟨rfl, rfl⟩ := hx
      rcases ih _ rfl with h | h | ⟨r, s', h, h'⟩ | ⟨s', h, h'⟩
      · exact Or.inl ⟨h.1, .assume hp hh h.2⟩
      · exact Or.inr (Or.inl ⟨h.1, .assume hp hh h.2⟩)
      · exact Or.inr (Or.inr (Or.inl ⟨r, s', .assume hp hh h, h'⟩))
      · exact Or.inr (Or.inr (Or.inr ⟨s', .assume hp hh h, h'⟩))
    | _ => rw [hp, ha] at hx; simp [lift] at hx
  | @excluded t e k ha hh =>
    intro s hs
    subst hs
    have hx := hact s
    cases hp : F.act s with
    | ret v => rw [hp] at hx; exact Or.inr (Or.inr (Or.inl ⟨v, inj s, .ret hp, hx, .excluded ha hh⟩))
    | fail => rw [hp] at hx; exact Or.inr (Or.inr (Or.inr ⟨inj s, .fail hp, hx, .excluded ha hh⟩))
    | assume e' k' =>
      rw [hp, ha] at hx
      simp only [lift, Action.assume.injEq] at hx
      obtain ⟨rfl, rfl⟩ := hx
      exact Or.inr (Or.inl ⟨rfl, .illegal hp hh⟩)
    | _ => rw [hp, ha] at hx; simp [lift] at hx
  | @cap t s' o ha h2 ih =>
    intro s hs
    subst hs
    have hx := hact s
    cases hp : F.act s with
    | ret v => rw [hp] at hx; exact Or.inr (Or.inr (Or.inl ⟨v, inj s, .ret hp, hx, .cap ha h2⟩))
    | fail => rw [hp] at hx; exact Or.inr (Or.inr (Or.inr ⟨inj s, .fail hp, hx, .cap ha h2⟩))
    | cap k' =>
      rw [hp, ha] at hx
      simp only [lift, Action.cap.injEq] at hx
      subst hx
      rcases ih _ rfl with h | h | ⟨r, s', h, h'⟩ | ⟨s', h, h'⟩
      · exact Or.inl ⟨h.1, .cap hp h.2⟩
      · exact Or.inr (Or.inl ⟨h.1, .cap hp h.2⟩)
      · exact Or.inr (Or.inr (Or.inl ⟨r, s', .cap hp h, h'⟩))
      · exact Or.inr (Or.inr (Or.inr ⟨s', .cap hp h, h'⟩))
    | _ => rw [hp, ha] at hx; simp [lift] at hx
  | @detach t s' o ha h2 _ =>
    intro s hs
    subst hs
    have hx := hact s
    cases hp : F.act s with
    | ret v => rw [hp] at hx; exact Or.inr (Or.inr (Or.inl ⟨v, inj s, .ret hp, hx, .detach ha h2⟩))
    | fail => rw [hp] at hx; exact Or.inr (Or.inr (Or.inr ⟨inj s, .fail hp, hx, .detach ha h2⟩))
    | _ => rw [hp, ha] at hx; simp [lift] at hx

end part

variable {M : Pair W}

theorem reach_part {A R : Type} (F : Fun W A R) (inj : F.S → P.S) (good : R → Analysis) (bad : Analysis)
    (hact : ∀ s, P.act (inj s) = lift inj (fun r => .done true (good r)) (.done true bad) (F.act s)) {t : P.S} {a : Analysis}
    (h : Reach P t a) : ∀ s, inj s = t → (∃ r, a = good r) ∨ MayFail F s ∨ a = .unknown := by
  induction h with
  | @done t r a ha =>
    rintro s rfl
    rw [hact s] at ha
    cases hp : F.act s with
    | ret v => rw [hp] at ha; simp only [lift, Action.done.injEq] at ha; exact Or.inl ⟨v, ha.2.symm⟩
    | fail => exact Or.inr (Or.inl (.fail hp))
    | giveUp => rw [hp] at ha; simp only [lift, Action.done.injEq] at ha; exact Or.inr (Or.inr ha.2.symm)
    | _ => rw [hp] at ha; simp [lift] at ha
  | @ask t e k a b ha _ ih =>
    rintro s rfl
    rw [hact s] at ha
    cases hp : F.act s with
    | ask e' k' =>
      rw [hp] at ha; simp only [lift, Action.ask.injEq] at ha
      obtain ⟨rfl, rfl⟩ := ha
      exact (ih _ rfl).imp id (Or.imp (.ask b hp) id)
    | _ => rw [hp] at ha; simp [lift] at ha
  | @realize t e k a b ha _ ih =>
    rintro s rfl
    rw [hact s] at ha
    cases hp : F.act s with
    | realize e' k' =>
      rw [hp] at ha; simp only [lift, Action.realize.injEq] at ha
      obtain ⟨rfl, rfl⟩ := ha
      exact (ih _ rfl).imp id (Or.imp (.realize b hp) id)
    | _ => rw [hp] at ha; simp [lift] at ha
  | @fork t k a b ha _ ih =>
    rintro s rfl
    rw [hact s] at ha
    cases hp : F.act s with
    | fork k' =>
      rw [hp] at ha; simp only [lift, Action.fork.injEq] at ha
      subst ha
      exact (ih _ rfl).imp id (Or.imp (.fork b hp) id)
    | _ => rw [hp] at ha; simp [lift] at ha
  | @assume t e k a ha _ ih =>
    rintro s rfl
    rw [hact s] at ha
    cases hp : F.act s with
    | assume e' k' =>
      rw [hp] at ha; simp only [lift, Action.assume.injEq] at ha
      obtain ⟨rfl, rfl⟩ := ha
      exact (ih _ rfl).imp id (Or.imp (.assume hp) id)
    | _ => rw [hp] at ha; simp [lift] at ha
  | @cap t k a ha _ ih =>
    rintro s rfl
    rw [hact s] at ha
    cases hp : F.act s with
    | cap k' =>
      rw [hp] at ha; simp only [lift, Action.cap.injEq] at ha
      subst ha
      exact (ih _ rfl).imp id (Or.imp (.cap hp) id)
    | _ => rw [hp] at ha; simp [lift] at ha
  | @detach t s' a ha _ ih =>
    rintro s rfl
    rw [hact s] at ha
    cases hp : F.act s <;> rw [hp] at ha <;> simp [lift] at ha

theorem runs_done {i : W.Inp} {s : P.S} {r a o} (ha : P.act s = .done r a) (h : Runs P i s o) : o = some a := by
  cases h <;> simp_all

theorem acc_done {i : W.Inp} {s : P.S} {r a} (ha : P.act s = .done r a) (h : Accounted P K i s) : K .unknown ∨ K a := by
  cases h with
  | cut hu => exact Or.inl hu
  | done ha' hk =>
    rw [ha] at ha'
    simp only [Action.done.injEq] at ha'
    exact Or.inr (ha'.2 ▸ hk)
  | _ => simp_all

theorem runs_detach {i : W.Inp} {s s' : P.S} {o} (ha : P.act s = .detach s') (h : Runs P i s o) : Runs P i s' o := by
  cases h <;> simp_all

theorem acc_detach {i : W.Inp} {s s' : P.S} (ha : P.act s = .detach s') (h : Accounted P K i s) :
    K .unknown ∨ ∃ a, Reach P s' a ∧ K a := by
  cases h with
  | cut hu => exact Or.inl hu
  | detached ha' hr hk =>
    rw [ha] at ha'
    injection ha' with ha'
    subst ha'
    exact Or.inr ⟨_, hr, hk⟩
  | _ => simp_all

/-- What `acc_pair` concludes. -/
def Told (M : Pair W) (K : Analysis → Prop) (i : W.Inp) : Prop :=
  K .unknown ∨ (∃ text, K { status := some .refuted, messages := [text] }) ∨ Illegal M i ∨ Ignored M i ∨
    ∃ a r1 r2, Calls M i a r1 r2 ∧ (Does M.same i (M.same.start (r1, r2)) (.ret true) ∨
      Does M.same i (M.same.start (r1, r2)) .fail ∨
      Does M.same i (M.same.start (r1, r2)) (.ret false) ∧ MayFail M.tell (M.tell.start (a, r1, r2)))

/-- What is known of an input that the paths of a comparison account for. -/
theorem acc_pair {i : W.Inp} (h : Accounted (runIteration M) K i (begin M)) : Told M K i := by
  have hcmp : ∀ a r1 r2, Calls M i a r1 r2 → ∀ t : (runIteration M).S, t = Phase.cmp a r1 r2 (M.same.start (r1, r2)) →
      Accounted (runIteration M) K i t → Told M K i := by
    intro a r1 r2 hc t ht hacc
    rcases acc_part (P := runIteration M) M.same (Phase.cmp a r1 r2) _ _ (fun _ => rfl) hacc _ ht.symm with
      h | h | ⟨b, s', h, hs', h'⟩ | ⟨s', h, hs', h'⟩
    · exact Or.inl h
    · exact Or.inr (Or.inr (Or.inl (Or.inr (Or.inr ⟨a, r1, r2, hc, h⟩))))
    · cases b with
      | true => exact Or.inr (Or.inr (Or.inr (Or.inr ⟨a, r1, r2, hc, Or.inl h⟩)))
      | false =>
        simp only [Bool.false_eq_true, if_false] at hs'
        rcases acc_detach hs' h' with hu | ⟨x, hr, hk⟩
        · exact Or.inl hu
        · rcases reach_part (P := runIteration M) M.tell Phase.tell _ _ (fun _ => rfl) hr _ rfl with ⟨text, rfl⟩ | hm | rfl
          · exact Or.inr (Or.inl ⟨text, hk⟩)
          · exact Or.inr (Or.inr (Or.inr (Or.inr ⟨a, r1, r2, hc, Or.inr (Or.inr ⟨h, hm⟩)⟩)))
          · exact Or.inl hk
    · exact Or.inr (Or.inr (Or.inr (Or.inr ⟨a, r1, r2, hc, Or.inr (Or.inl h)⟩)))
  have htwo : ∀ a r1, Does M.gen i (M.gen.start ()) (.ret a) →
      (∃ e, Does M.fn1 i (M.fn1.start a) e ∧ e.outcome = some r1) →
      ∀ t : (runIteration M).S, t = Phase.two a r1 (M.fn2.start a) →
      Accounted (runIteration M) K i t → Told M K i := by
    intro a r1 hg h1 t ht hacc
    rcases acc_part (P := runIteration M) M.fn2 (Phase.two a r1) _ _ (fun _ => rfl) hacc _ ht.symm with
      h | h | ⟨r, s', h, hs', h'⟩ | ⟨s', h, hs', h'⟩
    · exact Or.inl h
    · obtain ⟨e, he, ho⟩ := h1
      exact Or.inr (Or.inr (Or.inl (Or.inr (Or.inl ⟨a, hg, Or.inr ⟨e, r1, he, ho, h⟩⟩))))
    · exact hcmp a r1 (some r) ⟨hg, h1, _, h, rfl⟩ _ rfl (acc_congr hs' h')
    · exact hcmp a r1 none ⟨hg, h1, _, h, rfl⟩ _ rfl (acc_congr hs' h')
  rcases acc_part (P := runIteration M) M.gen Phase.gen _ _ (fun _ => rfl) h _ rfl with
    h | h | ⟨a, s', hg, hs', h'⟩ | ⟨s', h, hs', h'⟩
  · exact Or.inl h
  · exact Or.inr (Or.inr (Or.inl (Or.inl h)))
  · have h' : Accounted (runIteration M) K i (Phase.one a (M.fn1.start a)) := acc_congr hs' h'
    rcases acc_part (P := runIteration M) M.fn1 (Phase.one a) _ _ (fun _ => rfl) h' _ rfl with
      h | h | ⟨r, s', h, hs', h'⟩ | ⟨s', h, hs', h'⟩
    · exact Or.inl h
    · exact Or.inr (Or.inr (Or.inl (Or.inr (Or.inl ⟨a, hg, Or.inl h⟩))))
    · exact htwo a (some r) hg ⟨_, h, rfl⟩ _ rfl (acc_congr hs' h')
    · exact htwo a none hg ⟨_, h, rfl⟩ _ rfl (acc_congr hs' h')
  · exact Or.inr (Or.inr (Or.inr (Or.inl h)))

/-- What `runs_pair` concludes. -/
def Real (M : Pair W) (i : W.Inp) (x : Analysis) (text : String) : Prop :=
  x.messages = [text] ∧ ∃ a r1 r2, Calls M i a r1 r2 ∧ Does M.same i (M.same.start (r1, r2)) (.ret false) ∧
    Does M.tell i (M.tell.start (a, r1, r2)) (.ret text)

/-- A run that ends with a message is one on which the functions differ. -/
theorem runs_pair {i : W.Inp} {x : Analysis} (hrun : Runs (runIteration M) i (begin M) (some x)) {text : String}
    (ht : text ∈ x.messages) : Real M i x text := by
  have hno : some x = some Analysis.unknown → Real M i x text := by
    intro h
    injection h with h
    subst h
    simp [Analysis.unknown] at ht
  have hdone : ∀ (s : (runIteration M).S) r (a : Analysis), a.messages = [] → (runIteration M).act s = .done r a →
      Runs (runIteration M) i s (some x) → Real M i x text := by
    intro s r a ha hs hr
    have := runs_done hs hr
    injection this with this
    subst this
    rw [ha] at ht
    cases ht
  have hcmp : ∀ a r1 r2, Calls M i a r1 r2 → ∀ t : (runIteration M).S, t = Phase.cmp a r1 r2 (M.same.start (r1, r2)) →
      Runs (runIteration M) i t (some x) → Real M i x text := by
    intro a r1 r2 hc t het hacc
    rcases runs_part (P := runIteration M) M.same (Phase.cmp a r1 r2) _ _ (fun _ => rfl) hacc _ het.symm with
      h | h | ⟨b, s', hb, hs', h'⟩ | ⟨s', h, hs', h'⟩
    · exact hno h.1
    · exact absurd h.1 (by simp)
    · cases b with
      | true =>
        simp only [if_true] at hs'
        exact hdone _ _ _ rfl rfl (runs_detach hs' h')
      | false =>
        simp only [Bool.false_eq_true, if_false] at hs'
        rcases runs_part (P := runIteration M) M.tell Phase.tell _ _ (fun _ => rfl) (runs_detach hs' h') _ rfl with
          h2 | h2 | ⟨v, s2, h2, hs2, h3⟩ | ⟨s2, h2, hs2, h3⟩
        · exact hno h2.1
        · exact absurd h2.1 (by simp)
        · have := runs_done hs2 h3
          injection this with this
          subst this
          simp only [List.mem_singleton] at ht
          subst ht
          exact ⟨rfl, a, r1, r2, hc, hb, h2⟩
        · exact hdone _ _ _ rfl hs2 h3
    · exact hdone _ _ _ rfl hs' h'
  have htwo : ∀ a r1, Does M.gen i (M.gen.start ()) (.ret a) →
      (∃ e, Does M.fn1 i (M.fn1.start a) e ∧ e.outcome = some r1) →
      ∀ t : (runIteration M).S, t = Phase.two a r1 (M.fn2.start a) →
      Runs (runIteration M) i t (some x) → Real M i x text := by
    intro a r1 hg h1 t het hacc
    rcases runs_part (P := runIteration M) M.fn2 (Phase.two a r1) _ _ (fun _ => rfl) hacc _ het.symm with
      h | h | ⟨r, s', h, hs', h'⟩ | ⟨s', h, hs', h'⟩
    · exact hno h.1
    · exact absurd h.1 (by simp)
    · exact hcmp a r1 (some r) ⟨hg, h1, _, h, rfl⟩ _ rfl (runs_congr hs' h')
    · exact hcmp a r1 none ⟨hg, h1, _, h, rfl⟩ _ rfl (runs_congr hs' h')
  rcases runs_part (P := runIteration M) M.gen Phase.gen _ _ (fun _ => rfl) hrun _ rfl with
    h | h | ⟨a, s', hg, hs', h'⟩ | ⟨s', h, hs', h'⟩
  · exact hno h.1
  · exact absurd h.1 (by simp)
  · have h' : Runs (runIteration M) i (Phase.one a (M.fn1.start a)) (some x) := runs_congr hs' h'
    rcases runs_part (P := runIteration M) M.fn1 (Phase.one a) _ _ (fun _ => rfl) h' _ rfl with
      h | h | ⟨r, s', h, hs', h'⟩ | ⟨s', h, hs', h'⟩
    · exact hno h.1
    · exact absurd h.1 (by simp)
    · exact htwo a (some r) hg ⟨_, h, rfl⟩ _ rfl (runs_congr hs' h')
    · exact htwo a none hg ⟨_, h, rfl⟩ _ rfl (runs_congr hs' h')
  · exact hdone _ _ _ rfl hs' h'

end Verif.Explore
