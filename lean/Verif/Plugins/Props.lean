import Verif.Plugins.Model
/-
When extra plugins run as Python modules do.
-/
namespace Verif.Plugins

/-- The names in terms. -/
def Uses (ts : List Term) (x : Nat) : Prop := Term.name x ∈ ts

/-- The names that a statement mentions. -/
def Mentions : Stmt → Nat → Prop
  | .assign x ts, y => y = x ∨ Uses ts y
  | .define f b, y => y = f ∨ Uses b y
  | .call f, y => y = f

/-- The names that a statement sets. -/
def Sets : Stmt → Nat → Prop
  | .assign x _, y => y = x
  | .define f _, y => y = f
  | .call _, _ => False

/-- The names used in functions. -/
def Inside : Stmt → Nat → Prop
  | .define _ b, y => Uses b y
  | _, _ => False

theorem total_congr (l l' : Scope) : ∀ ts : List Term, (∀ x, Uses ts x → l x = l' x) → total l ts = total l' ts
  | [], _ => rfl
  | t :: ts, h => by
    have ht : term l t = term l' t := by
      cases t with
      | num n => rfl
      | name x => simp only [term, h x (by simp [Uses])]
    have hts := total_congr l l' ts fun x hx => h x (List.mem_cons_of_mem _ hx)
    simp only [total, ht, hts]

/-- The names that matter (`N`) are not those of `main.py`, and those used in functions (`Q`) are not set by the plugin. -/
theorem run_eq (builtins globals : Scope) (N Q : Nat → Prop) (hg : ∀ x, N x → globals x = none) (hb : ∀ x b, builtins x ≠ some (.fn b)) :
    ∀ (p : List Stmt) (l m : Scope), (∀ s ∈ p, ∀ x, Mentions s x → N x) → (∀ s ∈ p, ∀ x, Sets s x → ¬ Q x) → (∀ s ∈ p, ∀ x, Inside s x → Q x) →
    (∀ x, N x → l x = m x) → (∀ x, Q x → m x = none) → (∀ f b, m f = some (.fn b) → ∀ x, Uses b x → N x ∧ Q x) →
    exec builtins globals p l = pyRun builtins p m
  | [], _, _, _, _, _, _, _, _ => rfl
  | .assign x ts :: p, l, m, hN, hS, hI, hlm, hQ, hf => by
    have ht : total (fun y => (l y).or ((globals y).or (builtins y))) ts = total (fun y => (m y).or (builtins y)) ts := by
      apply total_congr
      intro y hy
      have hy' := hN _ List.mem_cons_self y (.inr hy)
      simp [hlm y hy', hg y hy']
    simp only [exec, pyRun, ht]
    cases total (fun y => (m y).or (builtins y)) ts with
    | none => rfl
    | some n =>
      refine run_eq builtins globals N Q hg hb p _ _ (fun s hs => hN s (List.mem_cons_of_mem _ hs)) (fun s hs => hS s (List.mem_cons_of_mem _ hs))
        (fun s hs => hI s (List.mem_cons_of_mem _ hs)) (fun y hy => ?_) (fun y hy => ?_) (fun f b hfb => ?_)
      · simp only [Scope.set, hlm y hy]
      · have : y ≠ x := fun h => hS _ List.mem_cons_self y h hy
        simp [Scope.set, this, hQ y hy]
      · by_cases h : f = x
        · simp [Scope.set, h] at hfb
        · simp only [Scope.set, if_neg h] at hfb
          exact hf f b hfb
  | .define g b :: p, l, m, hN, hS, hI, hlm, hQ, hf => by
    simp only [exec, pyRun]
    refine run_eq builtins globals N Q hg hb p _ _ (fun s hs => hN s (List.mem_cons_of_mem _ hs)) (fun s hs => hS s (List.mem_cons_of_mem _ hs))
      (fun s hs => hI s (List.mem_cons_of_mem _ hs)) (fun y hy => ?_) (fun y hy => ?_) (fun f b' hfb => ?_)
    · simp only [Scope.set, hlm y hy]
    · have : y ≠ g := fun h => hS _ List.mem_cons_self y h hy
      simp [Scope.set, this, hQ y hy]
    · by_cases h : f = g
      · simp only [Scope.set, if_pos h, Option.some.injEq, Val.fn.injEq] at hfb
        subst hfb
        exact fun x hx => ⟨hN _ List.mem_cons_self x (.inr hx), hI _ List.mem_cons_self x hx⟩
      · simp only [Scope.set, if_neg h] at hfb
        exact hf f b' hfb
  | .call g :: p, l, m, hN, hS, hI, hlm, hQ, hf => by
    have hNg := hN _ List.mem_cons_self g rfl
    have ih := run_eq builtins globals N Q hg hb p l m (fun s hs => hN s (List.mem_cons_of_mem _ hs)) (fun s hs => hS s (List.mem_cons_of_mem _ hs))
      (fun s hs => hI s (List.mem_cons_of_mem _ hs)) hlm hQ hf
    have hl : (l g).or ((globals g).or (builtins g)) = (m g).or (builtins g) := by simp [hlm g hNg, hg g hNg]
    simp only [exec, pyRun, hl, ih]
    cases hv : (m g).or (builtins g) with
    | none => rfl
    | some v =>
      cases v with
      | int n => rfl
      | fn b =>
        have hm : m g = some (.fn b) := by
          cases hmg : m g with
          | none => rw [hmg] at hv; exact absurd hv (hb g b)
          | some w => rw [hmg] at hv; exact hv
        have ht : total (fun y => (globals y).or (builtins y)) b = total (fun y => (m y).or (builtins y)) b := by
          apply total_congr
          intro y hy
          obtain ⟨h1, h2⟩ := hf g b hm y hy
          simp [hg y h1, hQ y h2]
        simp only [ht]
        cases total (fun y => (m y).or (builtins y)) b <;> rfl

/-- Extra plugins run as Python modules do if the names they mention are not names of `crosshair/main.py` or local to it, and their functions use no names that the plugins set. -/
theorem plugin_partial (builtins globals locals : Scope) (p : List Stmt) (hb : ∀ x b, builtins x ≠ some (.fn b))
    (hnames : ∀ s ∈ p, ∀ x, Mentions s x → globals x = none ∧ locals x = none)
    (hinside : ∀ s ∈ p, ∀ t ∈ p, ∀ x, Inside s x → ¬ Sets t x) :
    exec builtins globals p locals = pyRun builtins p fun _ => none := by
  refine run_eq builtins globals (fun x => ∃ s ∈ p, Mentions s x) (fun x => ∃ s ∈ p, Inside s x) ?_ hb p locals _ ?_ ?_ ?_ ?_ ?_ ?_
  · rintro x ⟨s, hs, hx⟩; exact (hnames s hs x hx).1
  · exact fun s hs x hx => ⟨s, hs, hx⟩
  · rintro t ht x hx ⟨s, hs, hi⟩; exact hinside s hs t ht x hi hx
  · exact fun s hs x hx => ⟨s, hs, hx⟩
  · rintro x ⟨s, hs, hx⟩; exact (hnames s hs x hx).2
  · exact fun _ _ => rfl
  · exact fun f b h => by cases h

/-- The built-in name 0 is 7. -/
def one : Scope := fun x => if x = 0 then some (.int 7) else none

example : exec one (fun _ => none) [.assign 1 [.num 2, .name 0], .define 2 [.name 0, .num 1], .call 2, .assign 3 [.name 1], .call 3] (fun _ => none) =
    [some 8, none] := by decide +kernel

example : ∀ s ∈ [Stmt.assign 1 [.num 2, .name 0], .define 2 [.name 0, .num 1], .call 2], ∀ t ∈ [Stmt.assign 1 [.num 2, .name 0], .define 2 [.name 0, .num 1], .call 2],
    ∀ x, Inside s x → ¬ Sets t x := by
  intro s hs t ht x
  simp only [List.mem_cons, List.not_mem_nil, or_false] at hs ht
  rcases hs with rfl | rfl | rfl <;> rcases ht with rfl | rfl | rfl <;> simp [Inside, Sets, Uses]
  all_goals omega

/-- Disagreement: functions of plugins do not see what the plugins import, assign or define: calls raise `NameError`. -/
theorem own_names_unseen (builtins globals locals : Scope) (x f n : Nat) (hx : x ≠ f) (hg : globals x = none) (hb : builtins x = none) :
    exec builtins globals [.assign x [.num n], .define f [.name x], .call f] locals = [none] ∧
    pyRun builtins [.assign x [.num n], .define f [.name x], .call f] (fun _ => none) = [some n] := by
  simp [exec, pyRun, total, term, Scope.set, hx, hg, hb]

example : exec one (fun _ => none) [.assign 1 [.num 2], .define 2 [.name 1], .call 2] (fun _ => none) = [none] ∧
    pyRun one [.assign 1 [.num 2], .define 2 [.name 1], .call 2] (fun _ => none) = [some 2] := by decide +kernel

/-- Disagreement: and if `crosshair/main.py` has a name that a plugin sets, the functions of the plugin see the one of `main.py`. -/
theorem names_of_main (builtins globals locals : Scope) (x f n k : Nat) (hx : x ≠ f) (hg : globals x = some (.int k)) :
    exec builtins globals [.assign x [.num n], .define f [.name x], .call f] locals = [some k] ∧
    pyRun builtins [.assign x [.num n], .define f [.name x], .call f] (fun _ => none) = [some n] := by
  simp [exec, pyRun, total, term, Scope.set, hx, hg]

example : exec one (fun x => if x = 1 then some (.int 9) else none) [.assign 1 [.num 2], .define 2 [.name 1], .call 2] (fun _ => none) = [some 9] := by decide +kernel

end Verif.Plugins
