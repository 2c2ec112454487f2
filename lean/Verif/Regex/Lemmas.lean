import Verif.Regex.Spec

namespace Verif.Regex

theorem Hit.add_assoc (a b c : Hit) : (a.add b).add c = a.add (b.add c) := by
  simp only [Hit.add, Hit.mk.injEq, true_and]
  funext i
  cases c.groups i <;> simp

theorem Hit.add_at (a : Hit) : a.add (.at a.stop) = a := by
  cases a; simp [Hit.add, Hit.at, Groups.none]

theorem Hit.at_add (off : Nat) (a : Hit) : (Hit.at off).add a = a := by
  cases a; simp [Hit.add, Hit.at, Groups.none]

theorem map_at_add (off : Nat) (l : List Hit) : l.map (Hit.add (.at off)) = l := by
  rw [show Hit.add (.at off) = id from funext fun a => Hit.at_add off a, List.map_id]

/-- The first part, then the second. -/
def bindHits (l : List Hit) (f : Nat → List Hit) : List Hit := l.flatMap fun h => (f h.stop).map h.add

theorem bind_nil (f : Nat → List Hit) : bindHits [] f = [] := rfl
theorem bind_cons (h : Hit) (l : List Hit) (f : Nat → List Hit) : bindHits (h :: l) f = (f h.stop).map h.add ++ bindHits l f := rfl
theorem bind_append (l m : List Hit) (f : Nat → List Hit) : bindHits (l ++ m) f = bindHits l f ++ bindHits m f := by
  simp [bindHits, List.flatMap_append]

theorem bind_at (off : Nat) (f : Nat → List Hit) : bindHits [.at off] f = f off := by
  rw [bind_cons, bind_nil, List.append_nil]
  exact map_at_add off _

theorem bind_map (h : Hit) (l : List Hit) (f : Nat → List Hit) : bindHits (l.map h.add) f = (bindHits l f).map h.add := by
  induction l with
  | nil => rfl
  | cons a l ih =>
    rw [List.map_cons, bind_cons, bind_cons, List.map_append, ih]
    congr 1
    rw [List.map_map]
    congr 1
    funext b
    exact Hit.add_assoc h a b

theorem bind_assoc (l : List Hit) (f g : Nat → List Hit) : bindHits (bindHits l f) g = bindHits l fun o => bindHits (f o) g := by
  induction l with
  | nil => rfl
  | cons a l ih => rw [bind_cons, bind_append, ih, bind_map, bind_cons]

theorem bind_right (l : List Hit) : bindHits l (fun o => [.at o]) = l := by
  induction l with
  | nil => rfl
  | cons a l ih =>
    rw [bind_cons, ih]
    simp [Hit.add_at]

theorem mem_bind {h : Hit} {l : List Hit} {f : Nat → List Hit} : h ∈ bindHits l f ↔ ∃ a ∈ l, ∃ b ∈ f a.stop, a.add b = h := by
  simp [bindHits, List.mem_flatMap]

theorem runsSeq_cons (s : Subject) (p : Re) (ps : List Re) (off : Nat) : runsSeq s (p :: ps) off = bindHits (runs s p off) (runsSeq s ps) := by
  rw [runsSeq]; rfl

theorem runsSeq_nil (s : Subject) (off : Nat) : runsSeq s [] off = [.at off] := by rw [runsSeq]

theorem runsSeq_append (s : Subject) (ps qs : List Re) (off : Nat) : runsSeq s (ps ++ qs) off = bindHits (runsSeq s ps off) (runsSeq s qs) := by
  induction ps generalizing off with
  | nil => rw [List.nil_append, runsSeq_nil, bind_at]
  | cons p ps ih =>
    rw [List.cons_append, runsSeq_cons, runsSeq_cons, bind_assoc]
    congr 1
    funext o
    exact ih o

theorem times_succ (body : Nat → List Hit) (n off : Nat) : times body (n + 1) off = bindHits (body off) (times body n) := rfl

theorem times_one (body : Nat → List Hit) (off : Nat) : times body 1 off = body off := by
  rw [times_succ]
  exact bind_right _

theorem runs_rep (s : Subject) (greedy : Bool) (min : Nat) (max : Option Nat) (body : List Re) (off : Nat) :
    runs s (.rep greedy min max body) off = bindHits (times (runsSeq s body) min off)
      (more greedy (runsSeq s body) (extra s min max) none) := by
  rw [runs]; rfl

/-! ## Where matches end -/

/-- Matches do not end before they start, nor behind the end of the string. -/
def Bounded (s : Subject) (body : Nat → List Hit) : Prop := ∀ off, ∀ h ∈ body off, off ≤ h.stop ∧ (h.stop ≤ off ∨ h.stop ≤ s.text.length)

theorem bounded_at (s : Subject) : Bounded s fun o => [.at o] := by
  intro off h hh
  simp only [List.mem_singleton] at hh
  subst hh
  exact ⟨Nat.le_refl _, .inl (Nat.le_refl _)⟩

theorem bounded_bind {s : Subject} {f g : Nat → List Hit} (hf : Bounded s f) (hg : Bounded s g) : Bounded s fun o => bindHits (f o) g := by
  intro off h hh
  obtain ⟨a, ha, b, hb, rfl⟩ := mem_bind.1 hh
  have h1 := hf off a ha
  have h2 := hg a.stop b hb
  simp only [Hit.add]
  omega

theorem bounded_times {s : Subject} {f : Nat → List Hit} (hf : Bounded s f) : ∀ n, Bounded s (times f n)
  | 0 => bounded_at s
  | n + 1 => bounded_bind hf (bounded_times hf n)

theorem more_succ (greedy : Bool) (body : Nat → List Hit) (n : Nat) (last : Option Nat) (off : Nat) : more greedy body (n + 1) last off =
    if last = some off then [.at off]
    else if greedy then bindHits (body off) (more greedy body n (some off)) ++ [.at off]
    else .at off :: bindHits (body off) (more greedy body n (some off)) := rfl

theorem bounded_more {s : Subject} {greedy : Bool} {f : Nat → List Hit} (hf : Bounded s f) : ∀ n last, Bounded s (more greedy f n last)
  | 0, _ => bounded_at s
  | n + 1, last => by
    intro off h hh
    rw [more_succ] at hh
    have hat : ∀ {h : Hit}, h ∈ [Hit.at off] → off ≤ h.stop ∧ (h.stop ≤ off ∨ h.stop ≤ s.text.length) := fun hh => bounded_at s off _ hh
    have hb : ∀ {h : Hit}, h ∈ bindHits (f off) (more greedy f n (some off)) → off ≤ h.stop ∧ (h.stop ≤ off ∨ h.stop ≤ s.text.length) := by
      intro h hh
      obtain ⟨a, ha, b, hb, rfl⟩ := mem_bind.1 hh
      have h1 := hf off a ha
      have h2 := bounded_more hf n (some off) a.stop b hb
      simp only [Hit.add]
      omega
    split at hh
    · exact hat hh
    · split at hh
      · exact (List.mem_append.1 hh).elim hb hat
      · rcases List.mem_cons.1 hh with hh | hh
        · exact hat (by rw [hh]; simp)
        · exact hb hh

mutual
theorem bounded_runs (s : Subject) : ∀ p, Bounded s (runs s p)
  | .char mask => by
    intro off h hh
    rw [runs] at hh
    split at hh
    · rename_i c hc
      split at hh
      · simp only [List.mem_singleton] at hh
        subst hh
        obtain ⟨hlt, _⟩ := List.getElem?_eq_some_iff.1 hc
        simp only [Hit.at]
        omega
      · cases hh
    · cases hh
  | .rep greedy min max body => by
    intro off h hh
    rw [runs_rep] at hh
    exact bounded_bind (bounded_times (bounded_seq s body) min) (bounded_more (bounded_seq s body) _ _) off h hh
  | .branch alts => by
    intro off h hh
    rw [runs] at hh
    exact bounded_alts s alts off h hh
  | .at kind => by
    intro off h hh
    rw [runs] at hh
    split at hh
    · exact bounded_at s off h hh
    · cases hh
  | .ahead positive sub => by
    intro off h hh
    rw [runs] at hh
    split at hh <;> split at hh
    · simp only [List.mem_singleton] at hh
      subst hh
      simp
    · cases hh
    · cases hh
    · exact bounded_at s off h hh
  | .behind positive width sub => by
    intro off h hh
    rw [runs] at hh
    split at hh <;> split at hh
    · simp only [List.mem_singleton] at hh
      subst hh
      simp
    · cases hh
    · cases hh
    · exact bounded_at s off h hh
  | .group num sub => by
    intro off h hh
    rw [runs] at hh
    obtain ⟨a, ha, rfl⟩ := List.mem_map.1 hh
    exact bounded_seq s sub off a ha
  | .close num start => by
    intro off h hh
    rw [runs] at hh
    simp only [List.mem_singleton] at hh
    subst hh
    simp
theorem bounded_seq (s : Subject) : ∀ ps, Bounded s (runsSeq s ps)
  | [] => by
    intro off h hh
    rw [runsSeq_nil] at hh
    exact bounded_at s off h hh
  | p :: ps => by
    intro off h hh
    rw [runsSeq_cons] at hh
    exact bounded_bind (bounded_runs s p) (bounded_seq s ps) off h hh
theorem bounded_alts (s : Subject) : ∀ as, Bounded s (runsAlts s as)
  | [] => by
    intro off h hh
    rw [runsAlts] at hh
    cases hh
  | a :: as => by
    intro off h hh
    rw [runsAlts] at hh
    exact (List.mem_append.1 hh).elim (bounded_seq s a off h) (bounded_alts s as off h)
end

/-! ## Groups -/

/-- A group is not set. -/
def Unset (num : Nat) (body : Nat → List Hit) : Prop := ∀ off, ∀ h ∈ body off, h.groups num = none

theorem unset_at (num : Nat) : Unset num fun o => [.at o] := by
  intro off h hh
  simp only [List.mem_singleton] at hh
  subst hh
  rfl

theorem unset_bind {num : Nat} {f g : Nat → List Hit} (hf : Unset num f) (hg : Unset num g) : Unset num fun o => bindHits (f o) g := by
  intro off h hh
  obtain ⟨a, ha, b, hb, rfl⟩ := mem_bind.1 hh
  simp [Hit.add, hf off a ha, hg a.stop b hb]

theorem unset_times {num : Nat} {f : Nat → List Hit} (hf : Unset num f) : ∀ n, Unset num (times f n)
  | 0 => unset_at num
  | n + 1 => unset_bind hf (unset_times hf n)

theorem unset_more {num : Nat} {greedy : Bool} {f : Nat → List Hit} (hf : Unset num f) : ∀ n last, Unset num (more greedy f n last)
  | 0, _ => unset_at num
  | n + 1, last => by
    intro off h hh
    rw [more_succ] at hh
    have hb : ∀ {h : Hit}, h ∈ bindHits (f off) (more greedy f n (some off)) → h.groups num = none := by
      intro h hh
      obtain ⟨a, ha, b, hb, rfl⟩ := mem_bind.1 hh
      simp [Hit.add, hf off a ha, unset_more hf n (some off) a.stop b hb]
    split at hh
    · exact unset_at num off h hh
    · split at hh
      · exact (List.mem_append.1 hh).elim hb (unset_at num off h)
      · rcases List.mem_cons.1 hh with hh | hh
        · exact unset_at num off h (by rw [hh]; simp)
        · exact hb hh

mutual
theorem unset_runs (s : Subject) (num : Nat) : ∀ p, num ∉ groupsOf p → Unset num (runs s p)
  | .char mask, _ => by
    intro off h hh
    rw [runs] at hh
    split at hh
    · split at hh
      · exact unset_at num (off + 1) h hh
      · cases hh
    · cases hh
  | .rep greedy min max body, hn => by
    intro off h hh
    rw [runs_rep] at hh
    rw [groupsOf] at hn
    exact unset_bind (unset_times (unset_seq s num body hn) min) (unset_more (unset_seq s num body hn) _ _) off h hh
  | .branch alts, hn => by
    intro off h hh
    rw [runs] at hh
    rw [groupsOf] at hn
    exact unset_alts s num alts hn off h hh
  | .at kind, _ => by
    intro off h hh
    rw [runs] at hh
    split at hh
    · exact unset_at num off h hh
    · cases hh
  | .ahead positive sub, hn => by
    intro off h hh
    rw [runs] at hh
    rw [groupsOf] at hn
    split at hh <;> split at hh
    · rename_i a _ ha _
      simp only [List.mem_singleton] at hh
      subst hh
      exact unset_seq s num sub hn off a (by rw [ha]; simp)
    · cases hh
    · cases hh
    · exact unset_at num off h hh
  | .behind positive width sub, hn => by
    intro off h hh
    rw [runs] at hh
    rw [groupsOf] at hn
    split at hh <;> split at hh
    · rename_i a _ ha _
      simp only [List.mem_singleton] at hh
      subst hh
      split at ha
      · cases ha
      · exact unset_seq s num sub hn _ a (by rw [ha]; simp)
    · cases hh
    · cases hh
    · exact unset_at num off h hh
  | .group num' sub, hn => by
    intro off h hh
    rw [runs] at hh
    rw [groupsOf, List.mem_cons, not_or] at hn
    obtain ⟨a, ha, rfl⟩ := List.mem_map.1 hh
    simp only [Groups.set, hn.1, if_false]
    exact unset_seq s num sub hn.2 off a ha
  | .close num' start, hn => by
    intro off h hh
    rw [runs] at hh
    rw [groupsOf, List.mem_singleton] at hn
    simp only [List.mem_singleton] at hh
    subst hh
    simp [Groups.set, hn, Groups.none]
theorem unset_seq (s : Subject) (num : Nat) : ∀ ps, num ∉ groupsSeq ps → Unset num (runsSeq s ps)
  | [], _ => by
    intro off h hh
    rw [runsSeq_nil] at hh
    exact unset_at num off h hh
  | p :: ps, hn => by
    intro off h hh
    rw [runsSeq_cons] at hh
    rw [groupsSeq, List.mem_append, not_or] at hn
    exact unset_bind (unset_runs s num p hn.1) (unset_seq s num ps hn.2) off h hh
theorem unset_alts (s : Subject) (num : Nat) : ∀ as, num ∉ groupsAlts as → Unset num (runsAlts s as)
  | [], _ => by
    intro off h hh
    rw [runsAlts] at hh
    cases hh
  | a :: as, hn => by
    intro off h hh
    rw [runsAlts] at hh
    rw [groupsAlts, List.mem_append, not_or] at hn
    exact (List.mem_append.1 hh).elim (unset_seq s num a hn.1 off h) (unset_alts s num as hn.2 off h)
end

/-! ## Repetitions of bodies that consume something -/

theorem more_last {greedy : Bool} {f : Nat → List Hit} (n : Nat) {l off : Nat} (h : l ≠ off) : more greedy f n (some l) off = more greedy f n none off := by
  cases n with
  | zero => rfl
  | succ n =>
    have h1 : ¬(some l = some off) := by simpa using h
    have h2 : ¬((none : Option Nat) = some off) := by simp
    simp only [more_succ, h1, h2, if_false]

/-- Bodies that consume something. -/
def Consumes (f : Nat → List Hit) : Prop := ∀ off, ∀ h ∈ f off, off < h.stop

theorem bind_congr {l : List Hit} {f g : Nat → List Hit} (h : ∀ a ∈ l, f a.stop = g a.stop) : bindHits l f = bindHits l g := by
  induction l with
  | nil => rfl
  | cons a l ih => rw [bind_cons, bind_cons, h a (by simp), ih (fun b hb => h b (by simp [hb]))]

theorem more_unfold {greedy : Bool} {f : Nat → List Hit} (hc : Consumes f) (n off : Nat) : more greedy f (n + 1) none off =
    if greedy then bindHits (f off) (more greedy f n none) ++ [.at off] else .at off :: bindHits (f off) (more greedy f n none) := by
  rw [more_succ, if_neg (by simp)]
  have : bindHits (f off) (more greedy f n (some off)) = bindHits (f off) (more greedy f n none) :=
    bind_congr fun a ha => more_last n (by have := hc off a ha; omega)
  rw [this]

/-- More repetitions than there are characters left make no difference. -/
theorem more_stable {s : Subject} {greedy : Bool} {f : Nat → List Hit} (hc : Consumes f) (hb : Bounded s f) :
    ∀ n off, s.text.length - off ≤ n → more greedy f (n + 1) none off = more greedy f n none off
  | 0, off, h => by
    have : f off = [] := by
      cases hf : f off with
      | nil => rfl
      | cons a l =>
        have h1 := hc off a (by rw [hf]; simp)
        have h2 := hb off a (by rw [hf]; simp)
        omega
    rw [more_unfold hc, this]
    cases greedy <;> rfl
  | n + 1, off, h => by
    rw [more_unfold hc, more_unfold hc]
    have : bindHits (f off) (more greedy f (n + 1) none) = bindHits (f off) (more greedy f n none) := by
      refine bind_congr fun a ha => more_stable hc hb n a.stop ?_
      have h1 := hc off a ha
      omega
    rw [this]

/-- The repetitions beyond the least number: either stop, or go on with at least one more. -/
theorem rep_unfold {s : Subject} {greedy : Bool} {body rest : List Re} (hc : Consumes (runsSeq s body)) (rem : Option Nat) (hrem : rem ≠ some 0) (off : Nat) :
    bindHits (more greedy (runsSeq s body) (extra s 0 rem) none off) (runsSeq s rest) =
      if greedy then runsSeq s (.rep greedy 1 rem body :: rest) off ++ runsSeq s rest off
      else runsSeq s rest off ++ runsSeq s (.rep greedy 1 rem body :: rest) off := by
  have key : ∀ n, bindHits (more greedy (runsSeq s body) (n + 1) none off) (runsSeq s rest) =
      if greedy then bindHits (bindHits (runsSeq s body off) (more greedy (runsSeq s body) n none)) (runsSeq s rest) ++ runsSeq s rest off
      else runsSeq s rest off ++ bindHits (bindHits (runsSeq s body off) (more greedy (runsSeq s body) n none)) (runsSeq s rest) := by
    intro n
    rw [more_unfold hc]
    cases greedy
    · simp only [Bool.false_eq_true, if_false]
      rw [show ∀ l : List Hit, Hit.at off :: l = [Hit.at off] ++ l from fun _ => rfl, bind_append, bind_at]
    · simp only [if_true]
      rw [bind_append, bind_at]
  cases rem with
  | some m =>
    obtain ⟨n, rfl⟩ : ∃ n, m = n + 1 := ⟨m - 1, by
      have : m ≠ 0 := fun h => hrem (by rw [h])
      omega⟩
    show bindHits (more greedy (runsSeq s body) (n + 1) none off) _ = _
    rw [key, runsSeq_cons, runs_rep, times_one]
    rfl
  | none =>
    show bindHits (more greedy (runsSeq s body) (s.text.length + 1) none off) _ = _
    rw [← more_stable hc (bounded_seq s body) (s.text.length + 1) off (by omega), key, runsSeq_cons, runs_rep, times_one]
    rfl

end Verif.Regex
