import Verif.Editor.Model
import Verif.Watch.Props
import Mathlib.Data.List.Induction
namespace Verif.Editor

open Verif.Watch (put remove lookup_put lookup_remove)

/-! ### Dictionaries -/

theorem put_keys {K V : Type} [DecidableEq K] (d : List (K × V)) (k : K) (v : V) :
    (put d k v).map (·.1) = if k ∈ d.map (·.1) then d.map (·.1) else d.map (·.1) ++ [k] := by
  induction d with
  | nil => simp [put]
  | cons e d ih =>
    obtain ⟨k', v'⟩ := e
    rw [put]
    by_cases h : k' = k
    · subst h
      simp
    · rw [if_neg h, List.map_cons, ih]
      by_cases h' : k ∈ d.map (·.1)
      · rw [if_pos h', if_pos (by simpa using Or.inr (by simpa using h'))]
        rfl
      · rw [if_neg h', if_neg (by
          rw [List.map_cons, List.mem_cons]
          rintro (e | e)
          · exact h e.symm
          · exact h' e)]
        rfl

theorem put_nodup {K V : Type} [DecidableEq K] (d : List (K × V)) (k : K) (v : V) (h : (d.map (·.1)).Nodup) : ((put d k v).map (·.1)).Nodup := by
  rw [put_keys]
  split
  · exact h
  · rename_i hk
    rw [List.nodup_append]
    refine ⟨h, by simp, fun a ha b hb e => ?_⟩
    rw [List.mem_singleton] at hb
    subst hb
    subst e
    exact hk ha

theorem put_all {K V : Type} [DecidableEq K] (P : K × V → Prop) (d : List (K × V)) (k : K) (v : V) (h : ∀ e ∈ d, P e) (hv : P (k, v)) :
    ∀ e ∈ put d k v, P e := by
  induction d with
  | nil => simpa [put] using hv
  | cons e d ih =>
    obtain ⟨k', v'⟩ := e
    rw [put]
    split
    · intro x hx
      rcases List.mem_cons.1 hx with rfl | hx
      · exact hv
      · exact h x (List.mem_cons_of_mem _ hx)
    · intro x hx
      rcases List.mem_cons.1 hx with rfl | hx
      · exact h _ List.mem_cons_self
      · exact ih (fun e he => h e (List.mem_cons_of_mem _ he)) x hx

theorem mem_lookup {K V : Type} [DecidableEq K] (d : List (K × V)) (h : (d.map (·.1)).Nodup) (k : K) (v : V) :
    (k, v) ∈ d ↔ d.lookup k = some v := by
  induction d with
  | nil => simp
  | cons e d ih =>
    obtain ⟨k', v'⟩ := e
    rw [List.map_cons, List.nodup_cons] at h
    rw [List.mem_cons, ih h.2, List.lookup_cons]
    by_cases hk : k = k'
    · subst hk
      simp only [beq_self_eq_true, Prod.mk.injEq, true_and, Option.some.injEq]
      constructor
      · rintro (e | e)
        · exact e.symm
        · exact absurd (List.mem_map_of_mem (f := Prod.fst) ((ih h.2).2 e)) h.1
      · exact fun e => .inl e.symm
    · have : (k == k') = false := by simpa using hk
      simp [this, hk]

/-! ### The worst messages -/

theorem firstWorst_mem {l : List Msg} {m : Msg} (h : FirstWorst l m) : m ∈ l := by
  obtain ⟨a, b, rfl, _⟩ := h
  simp

theorem firstWorst_le {l : List Msg} {m : Msg} (h : FirstWorst l m) (x : Msg) (hx : x ∈ l) (he : x.line = m.line) : x.kind.rank ≤ m.kind.rank := by
  obtain ⟨a, b, rfl, h1, h2⟩ := h
  rcases List.mem_append.1 hx with hx | hx
  · exact Nat.le_of_lt (h1 x hx he)
  · rcases List.mem_cons.1 hx with rfl | hx
    · exact Nat.le_refl _
    · exact h2 x hx he

theorem firstWorst_unique {l : List Msg} {x y : Msg} (hx : FirstWorst l x) (hy : FirstWorst l y) (he : x.line = y.line) : x = y := by
  have h1 := firstWorst_le hx y (firstWorst_mem hy) he.symm
  have h2 := firstWorst_le hy x (firstWorst_mem hx) he
  obtain ⟨a, b, hl, ha, hb⟩ := hx
  obtain ⟨a', b', hl', ha', hb'⟩ := hy
  rw [hl] at hl'
  rcases List.append_eq_append_iff.1 hl' with ⟨c, hc, hc'⟩ | ⟨c, hc, hc'⟩
  · cases c with
    | nil => exact (List.cons.inj hc').1
    | cons z c =>
      obtain ⟨rfl, _⟩ := List.cons.inj hc'
      have := ha' x (by rw [hc]; simp) he
      omega
  · cases c with
    | nil => exact (List.cons.inj hc').1.symm
    | cons z c =>
      obtain ⟨rfl, _⟩ := List.cons.inj hc'
      have := ha y (by rw [hc]; simp) he.symm
      omega

theorem firstWorst_append (l : List Msg) (m x : Msg) :
    FirstWorst (l ++ [m]) x ↔ (FirstWorst l x ∧ (m.line = x.line → m.kind.rank ≤ x.kind.rank)) ∨
      (x = m ∧ ∀ y ∈ l, y.line = m.line → y.kind.rank < m.kind.rank) := by
  constructor
  · rintro ⟨a, b, hl, ha, hb⟩
    rcases List.eq_nil_or_concat b with rfl | ⟨b', z, rfl⟩
    · obtain ⟨rfl, h⟩ := List.append_inj' hl rfl
      obtain ⟨rfl, _⟩ := List.cons.inj h
      exact .inr ⟨rfl, ha⟩
    · rw [List.concat_eq_append, ← List.cons_append, ← List.append_assoc] at hl
      obtain ⟨rfl, h⟩ := List.append_inj' hl rfl
      obtain ⟨rfl, _⟩ := List.cons.inj h
      refine .inl ⟨⟨a, b', rfl, ha, fun y hy => hb y (by simp [hy])⟩, fun e => hb m (by simp) e⟩
  · rintro (⟨⟨a, b, rfl, ha, hb⟩, h⟩ | ⟨rfl, h⟩)
    · refine ⟨a, b ++ [m], by simp, ha, fun y hy => ?_⟩
      rcases List.mem_append.1 hy with hy | hy
      · exact hb y hy
      · rw [List.mem_singleton] at hy
        subst hy
        exact h
    · exact ⟨l, [], rfl, h, fun y hy => by cases hy⟩

theorem firstWorst_exists (l : List Msg) : ∀ x ∈ l, ∃ m, FirstWorst l m ∧ m.line = x.line := by
  induction l using List.reverseRecOn with
  | nil => exact fun _ h => by cases h
  | append_singleton l m ih =>
    intro x hx
    have key : ∃ z, FirstWorst (l ++ [m]) z ∧ z.line = m.line := by
      by_cases h : ∀ y ∈ l, y.line = m.line → y.kind.rank < m.kind.rank
      · exact ⟨m, (firstWorst_append l m m).2 (.inr ⟨rfl, h⟩), rfl⟩
      · have ⟨y, hy, he, hle⟩ : ∃ y, y ∈ l ∧ y.line = m.line ∧ ¬y.kind.rank < m.kind.rank := by
          by_contra hcon
          exact h fun y hy he => by
            by_contra hlt
            exact hcon ⟨y, hy, he, hlt⟩
        obtain ⟨z, hz, hze⟩ := ih y hy
        refine ⟨z, (firstWorst_append l m z).2 (.inl ⟨hz, fun _ => ?_⟩), hze.trans he⟩
        have := firstWorst_le hz y hy hze.symm
        omega
    by_cases hl : x.line = m.line
    · obtain ⟨z, hz, e⟩ := key
      exact ⟨z, hz, e.trans hl.symm⟩
    · rcases List.mem_append.1 hx with hx | hx
      · obtain ⟨z, hz, e⟩ := ih x hx
        exact ⟨z, (firstWorst_append l m z).2 (.inl ⟨hz, fun e' => absurd (e.symm.trans e'.symm) hl⟩), e⟩
      · rw [List.mem_singleton] at hx
        exact absurd (congrArg Msg.line hx) hl

/-! ### What is recorded -/

/-- The lines are those of the messages. -/
def Keyed (fs : Found) : Prop := (∀ e ∈ fs, e.1 = e.2.line) ∧ (fs.map (·.1)).Nodup

/-- What is recorded is right, as far as it is shown. -/
def Best (l : List Msg) (fs : Found) : Prop := ∀ m : Msg, 2 ≤ m.kind.rank → (fs.lookup m.line = some m ↔ FirstWorst l m)

theorem record_keyed (fs : Found) (m : Msg) (h : Keyed fs) : Keyed (record fs m) := by
  have : Keyed (put fs m.line m) := ⟨put_all (fun e => e.1 = e.2.line) fs m.line m h.1 rfl, put_nodup fs m.line m h.2⟩
  unfold record
  split
  · exact this
  · split
    · exact this
    · exact h

theorem lookup_line {fs : Found} (h : Keyed fs) {n : Int} {m : Msg} (hl : fs.lookup n = some m) : m.line = n :=
  (h.1 _ ((mem_lookup fs h.2 n m).2 hl)).symm

theorem record_best (l : List Msg) (fs : Found) (m : Msg) (hk : Keyed fs) (h : Best l fs) : Best (l ++ [m]) (record fs m) := by
  intro x hx
  rw [firstWorst_append]
  have hput : (put fs m.line m).lookup x.line = if x.line = m.line then some m else fs.lookup x.line := lookup_put fs m.line m x.line
  by_cases hline : x.line = m.line
  · have hput' : (put fs m.line m).lookup x.line = some m := by rw [hput, if_pos hline]
    -- if nothing on the line is at least as bad, the new one is recorded
    have new : (∀ y ∈ l, y.line = m.line → y.kind.rank < m.kind.rank) → (some m = some x ↔
        (FirstWorst l x ∧ (m.line = x.line → m.kind.rank ≤ x.kind.rank)) ∨ (x = m ∧ ∀ y ∈ l, y.line = m.line → y.kind.rank < m.kind.rank)) := by
      intro hall
      constructor
      · intro e
        exact .inr ⟨(Option.some.inj e).symm, hall⟩
      · rintro (⟨hf, hle⟩ | ⟨e, _⟩)
        · have := hall x (firstWorst_mem hf) hline
          have := hle hline.symm
          omega
        · rw [e]
    unfold record
    cases hl : fs.lookup m.line with
    | none =>
      simp only
      rw [hput']
      by_cases hm : 2 ≤ m.kind.rank
      · apply new
        intro y hy he
        obtain ⟨z, hz, hze⟩ := firstWorst_exists l y hy
        by_cases h2 : 2 ≤ z.kind.rank
        · have := (h z h2).2 hz
          rw [hze, he, hl] at this
          cases this
        · have := firstWorst_le hz y hy hze.symm
          omega
      · constructor
        · intro e
          rw [Option.some.inj e] at hm
          exact absurd hx hm
        · rintro (⟨hf, _⟩ | ⟨e, _⟩)
          · have := (h x hx).2 hf
            rw [hline, hl] at this
            cases this
          · rw [← e] at hm
            exact absurd hx hm
    | some old =>
      have hold := lookup_line hk hl
      simp only
      by_cases hr : old.kind.rank < m.kind.rank
      · rw [if_pos hr, hput']
        by_cases hm : 2 ≤ m.kind.rank
        · apply new
          intro y hy he
          by_cases ho : 2 ≤ old.kind.rank
          · have hf := (h old ho).1 (by rw [hold]; exact hl)
            have := firstWorst_le hf y hy (he.trans hold.symm)
            omega
          · obtain ⟨z, hz, hze⟩ := firstWorst_exists l y hy
            by_cases h2 : 2 ≤ z.kind.rank
            · have := (h z h2).2 hz
              rw [hze, he, hl] at this
              rw [Option.some.inj this] at ho
              exact absurd h2 ho
            · have := firstWorst_le hz y hy hze.symm
              omega
        · constructor
          · intro e
            rw [Option.some.inj e] at hm
            exact absurd hx hm
          · rintro (⟨hf, hle⟩ | ⟨e, _⟩)
            · have := (h x hx).2 hf
              rw [hline, hl] at this
              cases this
              omega
            · rw [← e] at hm
              exact absurd hx hm
      · rw [if_neg hr, hline, hl]
        constructor
        · intro e
          cases e
          refine .inl ⟨(h x hx).1 (by rw [hline]; exact hl), fun _ => ?_⟩
          omega
        · rintro (⟨hf, _⟩ | ⟨e, hall⟩)
          · have := (h x hx).2 hf
            rwa [hline, hl] at this
          · exfalso
            subst e
            by_cases ho : 2 ≤ old.kind.rank
            · have hf := (h old ho).1 (by rw [hold]; exact hl)
              exact hr (hall old (firstWorst_mem hf) hold)
            · omega
  · have hsame : (record fs m).lookup x.line = fs.lookup x.line := by
      unfold record
      split
      · rw [hput, if_neg hline]
      · split
        · rw [hput, if_neg hline]
        · rfl
    rw [hsame, h x hx]
    constructor
    · exact fun hf => .inl ⟨hf, fun e => absurd e.symm hline⟩
    · rintro (⟨hf, _⟩ | ⟨e, _⟩)
      · exact hf
      · rw [e] at hline
        exact absurd rfl hline

theorem best_nil : Best [] [] := fun m _ => ⟨fun h => by simp at h, fun h => by have := firstWorst_mem h; cases this⟩

theorem toShow_marks (l : List Msg) (fs : Found) (hk : Keyed fs) (h : Best l fs) : Marks l (toShow fs) := by
  have hmem : ∀ m, m ∈ toShow fs ↔ fs.lookup m.line = some m ∧ 2 ≤ m.kind.rank := by
    intro m
    unfold toShow
    rw [List.mem_filter, List.mem_map]
    have hr : (!decide (m.kind.rank < Kind.preUnsat.rank)) = true ↔ 2 ≤ m.kind.rank := by
      rw [Bool.not_eq_true', decide_eq_false_iff_not, show Kind.preUnsat.rank = 2 from rfl, Nat.not_lt]
    rw [hr]
    refine and_congr ⟨?_, fun e => ⟨(m.line, m), (mem_lookup fs hk.2 _ _).2 e, rfl⟩⟩ Iff.rfl
    rintro ⟨⟨k, m'⟩, he, rfl⟩
    have := hk.1 _ he
    simp only at this
    subst this
    exact (mem_lookup fs hk.2 _ _).1 he
  refine ⟨fun m => ?_, ?_⟩
  · rw [hmem]
    constructor
    · exact fun ⟨h1, h2⟩ => ⟨(h m h2).1 h1, h2⟩
    · exact fun ⟨h1, h2⟩ => ⟨(h m h2).2 h1, h2⟩
  · have hmap : (fs.map (·.2)).map Msg.line = fs.map (·.1) := by
      rw [List.map_map]
      exact List.map_congr_left fun e he => (hk.1 e he).symm
    unfold toShow
    exact List.Nodup.sublist (List.Sublist.map _ List.filter_sublist) (hmap ▸ hk.2)

end Verif.Editor
