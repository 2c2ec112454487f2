import Verif.Unify.Sound

/-! Bindings as meaning of type variables. -/
namespace Verif.Unify

variable {H : Hier}

/-- Type variables stand for the types that they are bound to. -/
def over (H : Hier) (ρ : Env) (b : Bindings) : Env := fun x favour v =>
  match b.lookup x with
  | some t => mem H ρ favour t v
  | none => ρ x favour v

mutual
theorem mem_realize {ρ : Env} {b : Bindings} : ∀ (t : Ty) (favour : Bool) (v : Val),
    mem H (over H ρ b) favour t v ↔ mem H ρ favour (realize b t) v
  | .any, _, _ => by simp [realize, mem]
  | .var x, favour, v => by
    rw [realize, mem, over]
    cases b.lookup x with
    | none => simp [mem]
    | some t => simp
  | .cls c args, favour, v => by
    rw [realize, mem, mem, parts_realize args favour]
  | .tuple ts, favour, v => by
    cases v <;> simp only [realize, mem]
    exact items_realize ts favour _
  | .tupleVar t, favour, v => by
    cases v <;> simp only [realize, mem]
    exact ⟨fun h x hx => (mem_realize t favour x).1 (h x hx), fun h x hx => (mem_realize t favour x).2 (h x hx)⟩
  | .tupleRaw, favour, v => by cases v <;> simp [realize, mem]
  | .callable (some args) r, favour, v => by
    cases v with
    | fn accepts calls =>
      simp only [realize, mem]
      rw [length_realize args]
      refine and_congr_right fun _ => ⟨fun h c hc ha => (mem_realize r favour c.2).1 (h c hc ((items_realize args _ c.1).2 ha)),
        fun h c hc ha => (mem_realize r favour c.2).2 (h c hc ((items_realize args _ c.1).1 ha))⟩
    | _ => simp only [realize, mem]
  | .callable none r, favour, v => by
    cases v with
    | fn accepts calls =>
      simp only [realize, mem]
      refine or_congr Iff.rfl (and_congr_right fun _ => ⟨fun h c hc => (mem_realize r favour c.2).1 (h c hc),
        fun h c hc => (mem_realize r favour c.2).2 (h c hc)⟩)
    | _ => simp only [realize, mem]
  | .union ts, favour, v => by
    rw [realize, mem, mem, union_realize ts favour]
theorem parts_realize {ρ : Env} {b : Bindings} : ∀ (ts : List Ty) (favour : Bool) (ps : List (List Val)),
    memParts H (over H ρ b) favour ts ps ↔ memParts H ρ favour (realizeAll b ts) ps
  | [], _, _ => by simp [realizeAll, memParts]
  | t :: ts, favour, [] => by simp [realizeAll, memParts]
  | t :: ts, favour, p :: ps => by
    rw [realizeAll, memParts, memParts, parts_realize ts favour ps]
    exact and_congr_left fun _ => ⟨fun h x hx => (mem_realize t favour x).1 (h x hx), fun h x hx => (mem_realize t favour x).2 (h x hx)⟩
theorem items_realize {ρ : Env} {b : Bindings} : ∀ (ts : List Ty) (favour : Bool) (xs : List Val),
    memItems H (over H ρ b) favour ts xs ↔ memItems H ρ favour (realizeAll b ts) xs
  | [], _, [] => by simp [realizeAll, memItems]
  | [], _, _ :: _ => by simp [realizeAll, memItems]
  | t :: ts, favour, [] => by simp [realizeAll, memItems]
  | t :: ts, favour, x :: xs => by
    rw [realizeAll, memItems, memItems, items_realize ts favour xs, mem_realize t favour x]
theorem union_realize {ρ : Env} {b : Bindings} : ∀ (ts : List Ty) (favour : Bool) (v : Val),
    memUnion H (over H ρ b) favour ts v ↔ memUnion H ρ favour (realizeAll b ts) v
  | [], _, _ => by simp [realizeAll, memUnion]
  | t :: ts, favour, v => by
    rw [realizeAll, memUnion, memUnion, union_realize ts favour v, mem_realize t favour v]
theorem length_realize {b : Bindings} : ∀ (ts : List Ty), (realizeAll b ts).length = ts.length
  | [] => by simp [realizeAll]
  | t :: ts => by simp [realizeAll, length_realize ts]
end

mutual
theorem realize_closed (b : Bindings) : ∀ (t : Ty), t.all Ty.notVar = true → realize b t = t
  | .any, _ => rfl
  | .var x, h => by simp [Ty.all, Ty.notVar] at h
  | .cls c args, h => by
    rw [Ty.all, Bool.and_eq_true] at h
    rw [realize, realizeAll_closed b args h.2]
  | .tuple ts, h => by
    rw [Ty.all, Bool.and_eq_true] at h
    rw [realize, realizeAll_closed b ts h.2]
  | .tupleVar t, h => by
    rw [Ty.all, Bool.and_eq_true] at h
    rw [realize, realize_closed b t h.2]
  | .tupleRaw, _ => rfl
  | .callable (some args) r, h => by
    rw [Ty.all, Bool.and_eq_true, Bool.and_eq_true] at h
    rw [realize, realizeAll_closed b args h.2.1, realize_closed b r h.2.2]
  | .callable none r, h => by
    rw [Ty.all, Bool.and_eq_true] at h
    rw [realize, realize_closed b r h.2]
  | .union ts, h => by
    rw [Ty.all, Bool.and_eq_true] at h
    rw [realize, realizeAll_closed b ts h.2]
theorem realizeAll_closed (b : Bindings) : ∀ (ts : List Ty), allAll Ty.notVar ts = true → realizeAll b ts = ts
  | [], _ => rfl
  | t :: ts, h => by
    rw [allAll, Bool.and_eq_true] at h
    rw [realizeAll, realize_closed b t h.1, realizeAll_closed b ts h.2]
end

theorem mem_over_closed {ρ : Env} {b : Bindings} {t : Ty} (h : t.all Ty.notVar = true) (favour : Bool) (v : Val) :
    mem H (over H ρ b) favour t v ↔ mem H ρ favour t v := by
  rw [mem_realize, realize_closed b t h]

theorem agrees_over {ρ : Env} {b : Bindings} (hb : Bound H b) : Agrees H (over H ρ b) b := by
  intro x t hx favour v
  rw [mem_over_closed (hb x t hx).1]
  rw [over, hx]

end Verif.Unify
