import Verif.Unify.Lemmas

/-! Unification with a type without variables comes to an end. -/
namespace Verif.Unify

variable {H : Hier}

mutual
/-- A size of types, where a type variable has size `M`. -/
def Ty.weight (M : Nat) : Ty → Nat
  | .any => 1
  | .var _ => M + 2
  | .cls _ args => 2 + weightAll M args
  | .tuple ts => 6 + weightAll M ts
  | .tupleVar t => 6 + t.weight M
  | .tupleRaw => 6
  | .callable (some args) r => 2 + weightAll M args + r.weight M
  | .callable none r => 2 + r.weight M
  | .union ts => 2 + weightAll M ts
def weightAll (M : Nat) : List Ty → Nat
  | [] => 0
  | t :: ts => 1 + t.weight M + weightAll M ts
end

theorem weight_mem {M : Nat} {ts : List Ty} {t : Ty} (h : t ∈ ts) : t.weight M + 1 ≤ weightAll M ts := by
  induction ts with
  | nil => cases h
  | cons x xs ih =>
    rw [weightAll]
    rcases List.mem_cons.1 h with rfl | h
    · omega
    · have := ih h; omega

theorem length_weight {M : Nat} {ts : List Ty} : ts.length ≤ weightAll M ts := by
  induction ts with
  | nil => simp
  | cons x xs ih => rw [weightAll]; simp; omega

theorem weight_pos {M : Nat} (t : Ty) : 1 ≤ t.weight M := by
  cases t with
  | callable a r => cases a <;> simp only [Ty.weight] <;> omega
  | _ => simp only [Ty.weight] <;> omega

/-- One of the types has no variables, and is not too large. -/
def Half (M : Nat) (v r : Ty) : Prop :=
  (v.all Ty.notVar = true ∧ v.weight M ≤ M + 2) ∨ (r.all Ty.notVar = true ∧ r.weight M ≤ M + 2)

def Light (M : Nat) (b : Bindings) : Prop := ∀ x t, b.lookup x = some t → t.all Ty.notVar = true ∧ t.weight M ≤ M + 2

/-- The outcome is there, and its bindings are not too large. -/
def Res.fine (M : Nat) : Res → Prop
  | .ok true b => Light M b
  | .ok false _ => True
  | .crash => True
  | .outOfFuel => False

def Fine (H : Hier) (M N k : Nat) : Prop := ∀ n, N ≤ n → ∀ v r b, v.weight M + r.weight M ≤ k → Half M v r → Light M b →
  (unify H n v r b).fine M

theorem weight_get {M : Nat} {b : Bindings} (hb : Light M b) (t : Ty) : (get b t).weight M ≤ t.weight M := by
  rcases get_cases b t with e | ⟨x, t', rfl, hx, e⟩
  · rw [e]; exact Nat.le_refl _
  · rw [e, Ty.weight]; exact (hb x t' hx).2

theorem Half.get {M : Nat} {b : Bindings} {v r : Ty} (h : Half M v r) : Half M (get b v) (get b r) := by
  rcases h with ⟨h1, h2⟩ | ⟨h1, h2⟩
  · left; rw [get_closed h1]; exact ⟨h1, h2⟩
  · right; rw [get_closed h1]; exact ⟨h1, h2⟩

theorem all_fine {M N k : Nat} (h : Fine H M N k) (vs : List Ty) : ∀ n, N + vs.length + 1 ≤ n → ∀ rs b,
    (∀ v ∈ vs, ∀ r ∈ rs, v.weight M + r.weight M ≤ k ∧ Half M v r) → Light M b → (unifyAll H n vs rs b).fine M := by
  induction vs with
  | nil =>
    intro n hn rs b _ hb
    obtain ⟨n, rfl⟩ : ∃ m, n = m + 1 := ⟨n - 1, by omega⟩
    simp only [unifyAll]; exact hb
  | cons v vs ih =>
    intro n hn rs b hp hb
    obtain ⟨n, rfl⟩ : ∃ m, n = m + 1 := ⟨n - 1, by omega⟩
    simp only [List.length_cons] at hn
    cases rs with
    | nil => simp only [unifyAll]; exact hb
    | cons r rs =>
      rw [unifyAll]
      have h1 := h n (by omega) v r b (hp v (by simp) r (by simp)).1 (hp v (by simp) r (by simp)).2 hb
      cases hu : unify H n v r b with
      | ok ans b' =>
        rw [hu] at h1
        cases ans with
        | true => exact ih n (by omega) rs b' (fun x hx y hy => hp x (by simp [hx]) y (by simp [hy])) h1
        | false => trivial
      | crash => trivial
      | outOfFuel => rw [hu] at h1; exact h1

theorem unionValue_fine {M N k : Nat} (h : Fine H M N k) (vs : List Ty) : ∀ n, N + vs.length + 1 ≤ n → ∀ r b,
    (∀ v ∈ vs, v.weight M + r.weight M ≤ k ∧ Half M v r) → Light M b → (unionValue H n vs r b).fine M := by
  induction vs with
  | nil =>
    intro n hn r b _ hb
    obtain ⟨n, rfl⟩ : ∃ m, n = m + 1 := ⟨n - 1, by omega⟩
    simp only [unionValue]; exact hb
  | cons v vs ih =>
    intro n hn r b hp hb
    obtain ⟨n, rfl⟩ : ∃ m, n = m + 1 := ⟨n - 1, by omega⟩
    simp only [List.length_cons] at hn
    rw [unionValue]
    have h1 := h n (by omega) v r b (hp v (by simp)).1 (hp v (by simp)).2 hb
    cases hu : unify H n v r b with
    | ok ans b' =>
      cases ans with
      | true => exact ih n (by omega) r b (fun x hx => hp x (by simp [hx])) hb
      | false => trivial
    | crash => trivial
    | outOfFuel => rw [hu] at h1; exact h1

theorem unionRecv_fine {M N k : Nat} (h : Fine H M N k) (rs : List Ty) : ∀ n, N + rs.length + 1 ≤ n → ∀ v b,
    (∀ r ∈ rs, v.weight M + r.weight M ≤ k ∧ Half M v r) → Light M b → (unionRecv H n v rs b).fine M := by
  induction rs with
  | nil =>
    intro n hn v b _ hb
    obtain ⟨n, rfl⟩ : ∃ m, n = m + 1 := ⟨n - 1, by omega⟩
    simp only [unionRecv]; trivial
  | cons r rs ih =>
    intro n hn v b hp hb
    obtain ⟨n, rfl⟩ : ∃ m, n = m + 1 := ⟨n - 1, by omega⟩
    simp only [List.length_cons] at hn
    rw [unionRecv]
    have h1 := h n (by omega) v r b (hp r (by simp)).1 (hp r (by simp)).2 hb
    cases hu : unify H n v r b with
    | ok ans b' =>
      cases ans with
      | true => rw [hu] at h1; exact h1
      | false => exact ih n (by omega) v b (fun x hx => hp x (by simp [hx])) hb
    | crash => trivial
    | outOfFuel => rw [hu] at h1; exact h1

theorem arguments_fine {M N k : Nat} (h : Fine H M N k) {vs rs : List Ty} {n : Nat} (hn : N + vs.length + rs.length + 2 ≤ n) {b : Bindings}
    (hp : ∀ v ∈ vs, ∀ r ∈ rs, v.weight M + r.weight M ≤ k ∧ Half M v r)
    (ho : ∀ r ∈ rs, 2 + r.weight M ≤ k) (hb : Light M b) : (arguments H n vs rs b).fine M := by
  obtain ⟨n, rfl⟩ : ∃ m, n = m + 1 := ⟨n - 1, by omega⟩
  rw [arguments]
  split
  · split
    · refine all_fine h _ n (by simp; omega) rs b ?_ hb
      intro v hv r hr
      obtain ⟨_, _, rfl⟩ := List.mem_map.1 hv
      refine ⟨by have := ho r hr; simp [Ty.weight, weightAll]; omega, .inl ⟨rfl, by simp [Ty.weight, weightAll]⟩⟩
    · trivial
  · exact all_fine h vs n (by omega) rs b hp hb

theorem Half.object {M : Nat} (r : Ty) : Half M (.cls H.objectC []) r := .inl ⟨rfl, by simp [Ty.weight, weightAll]⟩

theorem half_part {M : Nat} {v r v' r' : Ty} (h : Half M v r) (hv : Part v' v) (hr : Part r' r)
    (hwv : v'.weight M ≤ v.weight M) (hwr : r'.weight M ≤ r.weight M) : Half M v' r' := by
  rcases h with ⟨h1, h2⟩ | ⟨h1, h2⟩
  · exact .inl ⟨hv.1 _ h1, by omega⟩
  · exact .inr ⟨hr.1 _ h1, by omega⟩

theorem half_flip {M : Nat} {v r v' r' : Ty} (h : Half M v r) (hv : Anti v' v) (hr : Anti r' r)
    (hwv : v'.weight M ≤ v.weight M) (hwr : r'.weight M ≤ r.weight M) : Half M r' v' := by
  rcases h with ⟨h1, h2⟩ | ⟨h1, h2⟩
  · exact .inr ⟨hv.1 _ h1, by omega⟩
  · exact .inl ⟨hr.1 _ h1, by omega⟩

theorem classes_fine {M N k : Nat} (h : Fine H M N k) {v r : Ty} {n o : Nat} (hw : v.weight M + r.weight M ≤ k + 1)
    (hn : N + k + 6 ≤ n) (hh : Half M v r) {b : Bindings} (hb : Light M b) : (classes H n o v r b).fine M := by
  obtain ⟨n, rfl⟩ : ∃ m, n = m + 1 := ⟨n - 1, by omega⟩
  have hN1 : 1 ≤ n := by omega
  rw [classes]
  split
  · split
    · cases hcv : callArgs v with
      | none => trivial
      | some cv =>
        cases hcr : callArgs r with
        | none => trivial
        | some cr =>
          obtain ⟨va, vr⟩ := cv
          obtain ⟨ra, rr⟩ := cr
          simp only
          -- the return types
          have hret : (unify H n vr rr b).fine M := by
            cases v with
            | callable a t =>
              simp only [callArgs, Option.some.injEq, Prod.mk.injEq] at hcv
              obtain ⟨rfl, rfl⟩ := hcv
              have hwv : t.weight M + 1 ≤ (Ty.callable a t).weight M := by
                cases a <;> simp only [Ty.weight] <;> omega
              cases r with
              | callable a' t' =>
                simp only [callArgs, Option.some.injEq, Prod.mk.injEq] at hcr
                obtain ⟨rfl, rfl⟩ := hcr
                have hwr : t'.weight M + 1 ≤ (Ty.callable a' t').weight M := by
                  cases a' <;> simp only [Ty.weight] <;> omega
                exact h n (by omega) t t' b (by omega) (half_part hh (part_ret a t) (part_ret a' t') (by omega) (by omega)) hb
              | cls c args =>
                cases args with
                | cons => simp [callArgs] at hcr
                | nil =>
                  simp only [callArgs, Option.some.injEq, Prod.mk.injEq] at hcr
                  obtain ⟨rfl, rfl⟩ := hcr
                  refine h n (by omega) t .any b ?_ (.inr ⟨rfl, by simp [Ty.weight]⟩) hb
                  simp only [Ty.weight, weightAll] at hw ⊢; omega
              | _ => simp [callArgs] at hcr
            | cls c args =>
              cases args with
              | cons => simp [callArgs] at hcv
              | nil =>
                simp only [callArgs, Option.some.injEq, Prod.mk.injEq] at hcv
                obtain ⟨rfl, rfl⟩ := hcv
                obtain ⟨n, rfl⟩ : ∃ m, n = m + 1 := ⟨n - 1, by omega⟩
                rw [unify]
                simp only [get, Ty.isAny, Bool.true_or, if_true]
                exact hb
            | _ => simp [callArgs] at hcv
          cases hu : unify H n vr rr b with
          | ok ans b' =>
            rw [hu] at hret
            cases ans with
            | false => trivial
            | true =>
              simp only
              cases va with
              | none => exact hret
              | some vs =>
                cases ra with
                | none => exact hret
                | some rs =>
                  simp only
                  split
                  · trivial
                  · cases v with
                    | callable a t =>
                      simp only [callArgs, Option.some.injEq, Prod.mk.injEq] at hcv
                      obtain ⟨rfl, rfl⟩ := hcv
                      cases r with
                      | callable a' t' =>
                        simp only [callArgs, Option.some.injEq, Prod.mk.injEq] at hcr
                        obtain ⟨rfl, rfl⟩ := hcr
                        have hlen := length_weight (M := M) (ts := rs)
                        simp only [Ty.weight] at hw
                        refine all_fine h rs n (by omega) vs b' ?_ hret
                        intro x hx y hy
                        have h1 := weight_mem (M := M) hx
                        have h2 := weight_mem (M := M) hy
                        refine ⟨by omega, half_flip hh (anti_arg hy) (anti_arg hx) ?_ ?_⟩
                        · simp only [Ty.weight]; omega
                        · simp only [Ty.weight]; omega
                      | cls c args => cases args <;> simp [callArgs] at hcr
                      | _ => simp [callArgs] at hcr
                    | cls c args => cases args <;> simp [callArgs] at hcv
                    | _ => simp [callArgs] at hcv
          | crash => trivial
          | outOfFuel => rw [hu] at hret; exact hret
    · have hargs : ∀ (vs rs : List Ty), (∀ x ∈ vs, Part x v) → (∀ y ∈ rs, Part y r) → weightAll M vs + 2 ≤ v.weight M →
          weightAll M rs + 2 ≤ r.weight M → (arguments H n vs rs b).fine M := by
        intro vs rs hvs hrs h1 h2
        have h3 := length_weight (M := M) (ts := vs)
        have h4 := length_weight (M := M) (ts := rs)
        refine arguments_fine h (by omega) ?_ ?_ hb
        · intro x hx y hy
          have h5 := weight_mem (M := M) hx
          have h6 := weight_mem (M := M) hy
          exact ⟨by omega, half_part hh (hvs x hx) (hrs y hy) (by omega) (by omega)⟩
        · intro y hy
          have h6 := weight_mem (M := M) hy
          omega
      have hp : ∀ vs rs, pairing v r = .args vs rs → (arguments H n vs rs b).fine M := by
        intro vs rs hpair
        cases v <;> cases r <;> simp only [pairing, reduceCtorEq, Pairing.args.injEq] at hpair
        · obtain ⟨rfl, rfl⟩ := hpair
          refine hargs _ _ (fun x hx => part_cls hx) (fun y hy => part_cls hy) ?_ ?_ <;> simp only [Ty.weight] <;> omega
        · obtain ⟨rfl, rfl⟩ := hpair
          refine hargs _ _ (fun x hx => part_tuple hx) (fun y hy => part_cls hy) ?_ ?_ <;> simp only [Ty.weight] <;> omega
        · obtain ⟨rfl, rfl⟩ := hpair
          refine hargs _ _ (fun x hx => part_tuple hx) (fun y hy => part_tuple hy) ?_ ?_ <;> simp only [Ty.weight] <;> omega
        · obtain ⟨rfl, rfl⟩ := hpair
          refine hargs _ _ (fun x hx => (by cases hx)) (fun y hy => part_cls hy) ?_ ?_ <;> simp only [Ty.weight, weightAll] <;> omega
        · obtain ⟨rfl, rfl⟩ := hpair
          refine hargs _ _ (fun x hx => (by cases hx)) (fun y hy => part_tuple hy) ?_ ?_ <;> simp only [Ty.weight, weightAll] <;> omega
        · split at hpair <;> cases hpair
      cases hpair : pairing v r with
      | args vs rs => exact hp vs rs hpair
      | answer ans => cases ans <;> first | exact hb | trivial
      | crash => trivial
      | long t =>
        simp only
        have hv : v = .tupleRaw ∧ r = .tupleVar t := by
          cases v <;> cases r <;> simp only [pairing, reduceCtorEq, Pairing.long.injEq] at hpair
          · rw [hpair]; exact ⟨rfl, rfl⟩
          · split at hpair <;> cases hpair
        obtain ⟨rfl, rfl⟩ := hv
        simp only [Ty.weight] at hw
        have := h n (by omega) (.cls H.objectC []) t b (by simp only [Ty.weight, weightAll]; omega) (Half.object t) hb
        cases hu : unify H n (.cls H.objectC []) t b with
        | ok ans b' => cases ans <;> trivial
        | crash => trivial
        | outOfFuel => rw [hu] at this; exact this
  · trivial

theorem half_seq_left {M : Nat} {v r t : Ty} (h : Half M v r) (hc : v.all Ty.notVar = true → t.all Ty.notVar = true)
    (hw : t.weight M + 3 ≤ v.weight M) : Half M (.cls H.sequenceC [t]) r := by
  rcases h with ⟨h1, h2⟩ | h
  · refine .inl ⟨by simp [Ty.all, allAll, Ty.notVar, hc h1], ?_⟩
    simp only [Ty.weight, weightAll]; omega
  · exact .inr h

theorem half_seq_right {M : Nat} {v r t : Ty} (h : Half M v r) (hc : r.all Ty.notVar = true → t.all Ty.notVar = true)
    (hw : t.weight M + 3 ≤ r.weight M) : Half M v (.cls H.sequenceC [t]) := by
  rcases h with h | ⟨h1, h2⟩
  · exact .inl h
  · refine .inr ⟨by simp [Ty.all, allAll, Ty.notVar, hc h1], ?_⟩
    simp only [Ty.weight, weightAll]; omega

theorem raw_long_fine {M N k : Nat} (h : Fine H M N k) {t : Ty} {n o : Nat} (hw : 2 + t.weight M ≤ k) (hn : N + 1 ≤ n) {b : Bindings}
    (hb : Light M b) : (classes H n o .tupleRaw (.tupleVar t) b).fine M := by
  obtain ⟨n, rfl⟩ : ∃ m, n = m + 1 := ⟨n - 1, by omega⟩
  rw [classes]
  split
  · split
    · simp only [callArgs]; trivial
    · simp only [pairing]
      have := h n (by omega) (.cls H.objectC []) t b (by simp only [Ty.weight, weightAll]; omega) (Half.object t) hb
      cases hu : unify H n (.cls H.objectC []) t b with
      | ok ans b' => cases ans <;> trivial
      | crash => trivial
      | outOfFuel => rw [hu] at this; exact this
  · trivial

theorem raw_raw_fine {M : Nat} {n o : Nat} (hn : 1 ≤ n) {b : Bindings} (hb : Light M b) :
    (classes H n o .tupleRaw .tupleRaw b).fine M := by
  obtain ⟨n, rfl⟩ : ∃ m, n = m + 1 := ⟨n - 1, by omega⟩
  rw [classes]
  split
  · split
    · simp only [callArgs]; trivial
    · simp only [pairing]; exact hb
  · trivial

theorem tupleRecv_fine {M N k : Nat} (h : Fine H M N k) {v r : Ty} {n : Nat} (hw : v.weight M + r.weight M ≤ k + 1)
    (hn : N + k + 7 ≤ n) (hh : Half M v r) {b : Bindings} (hb : Light M b) : (tupleRecv H n v r b).fine M := by
  obtain ⟨n, rfl⟩ : ∃ m, n = m + 1 := ⟨n - 1, by omega⟩
  have hpos := weight_pos (M := M) v
  cases r with
  | tupleVar t =>
    rw [tupleRecv]
    simp only [Ty.weight] at hw
    have h1 := h n (by omega) v (.cls H.sequenceC [t]) b (by simp only [Ty.weight, weightAll]; omega)
      (half_seq_right hh (fun hc => (part_tupleVar t).1 _ hc) (by simp only [Ty.weight]; omega)) hb
    cases hu : unify H n v (.cls H.sequenceC [t]) b with
    | ok ans b' =>
      rw [hu] at h1
      cases ans with
      | true => exact h1
      | false => exact raw_long_fine h (by omega) (by omega) hb
    | crash => trivial
    | outOfFuel => rw [hu] at h1; exact h1
  | tupleRaw =>
    rw [tupleRecv]
    simp only [Ty.weight] at hw
    have h1 := h n (by omega) v (.cls H.sequenceC [.cls H.objectC []]) b (by simp only [Ty.weight, weightAll]; omega)
      (half_seq_right hh (fun _ => rfl) (by simp only [Ty.weight, weightAll]; omega)) hb
    cases hu : unify H n v (.cls H.sequenceC [.cls H.objectC []]) b with
    | ok ans b' =>
      rw [hu] at h1
      cases ans with
      | true => exact h1
      | false => exact raw_raw_fine (by omega) hb
    | crash => trivial
    | outOfFuel => rw [hu] at h1; exact h1
  | _ => rw [tupleRecv] <;> first | exact classes_fine h hw (by omega) hh hb | (intros; simp_all)

theorem uniform_closed {ts : List Ty} {t : Ty} (hu : uniform H ts = some t) :
    ((Ty.tuple ts).all Ty.notVar = true → t.all Ty.notVar = true) ∧ ∀ M, t.weight M + 4 ≤ (Ty.tuple ts).weight M := by
  cases ts with
  | nil =>
    simp only [uniform, Option.some.injEq] at hu
    subst hu
    exact ⟨fun _ => rfl, fun M => by simp only [Ty.weight, weightAll]; omega⟩
  | cons x xs =>
    simp only [uniform] at hu
    split at hu
    · cases hu
      refine ⟨fun h => (part_tuple (List.mem_cons_self ..)).1 _ h, fun M => ?_⟩
      simp only [Ty.weight, weightAll]; omega
    · cases hu

theorem tuples_fine {M N k : Nat} (h : Fine H M N k) {v r : Ty} {n : Nat} (hw : v.weight M + r.weight M ≤ k + 1)
    (hn : N + k + 8 ≤ n) (hh : Half M v r) {b : Bindings} (hb : Light M b) (hM : 4 ≤ M) : (tuples H n v r b).fine M := by
  obtain ⟨n, rfl⟩ : ∃ m, n = m + 1 := ⟨n - 1, by omega⟩
  have hraw : 6 ≤ v.weight M → (tupleRecv H n .tupleRaw r b).fine M := by
    intro hv
    refine tupleRecv_fine h (by simp only [Ty.weight]; omega) (by omega) (.inl ⟨rfl, by simp only [Ty.weight]; omega⟩) hb
  cases v with
  | tuple ts =>
    rw [tuples]
    cases hun : uniform H ts with
    | none => exact tupleRecv_fine h hw (by omega) hh hb
    | some t =>
      simp only
      obtain ⟨hc, hwt⟩ := uniform_closed hun
      have hwt := hwt M
      have h1 := h n (by omega) (.cls H.sequenceC [t]) r b (by rw [Ty.weight, weightAll, weightAll]; omega)
        (half_seq_left hh hc (by omega)) hb
      cases hu : unify H n (.cls H.sequenceC [t]) r b with
      | ok ans b' =>
        rw [hu] at h1
        cases ans with
        | true => exact h1
        | false =>
          simp only
          split
          · trivial
          · exact tupleRecv_fine h hw (by omega) hh hb
      | crash => trivial
      | outOfFuel => rw [hu] at h1; exact h1
  | tupleVar t =>
    rw [tuples]
    have h1 := h n (by omega) (.cls H.sequenceC [t]) r b (by simp only [Ty.weight, weightAll] at hw ⊢; omega)
      (half_seq_left hh (fun hc => (part_tupleVar t).1 _ hc) (by simp only [Ty.weight]; omega)) hb
    cases hu : unify H n (.cls H.sequenceC [t]) r b with
    | ok ans b' =>
      rw [hu] at h1
      cases ans with
      | true => exact h1
      | false => exact hraw (by simp only [Ty.weight]; omega)
    | crash => trivial
    | outOfFuel => rw [hu] at h1; exact h1
  | tupleRaw =>
    rw [tuples]
    have h1 := h n (by omega) (.cls H.sequenceC [.cls H.objectC []]) r b (by simp only [Ty.weight, weightAll] at hw ⊢; omega)
      (half_seq_left hh (fun _ => rfl) (by simp only [Ty.weight, weightAll]; omega)) hb
    cases hu : unify H n (.cls H.sequenceC [.cls H.objectC []]) r b with
    | ok ans b' =>
      rw [hu] at h1
      cases ans with
      | true => exact h1
      | false => exact hraw (by simp only [Ty.weight]; omega)
    | crash => trivial
    | outOfFuel => rw [hu] at h1; exact h1
  | _ => rw [tuples] <;> first | exact tupleRecv_fine h hw (by omega) hh hb | (intros; simp_all)

theorem receive_fine {M N k : Nat} (h : Fine H M N k) {v r : Ty} {n : Nat} (hw : v.weight M + r.weight M ≤ k + 1)
    (hn : N + k + 9 ≤ n) (hh : Half M v r) {b : Bindings} (hb : Light M b) (hM : 4 ≤ M) : (receive H n v r b).fine M := by
  obtain ⟨n, rfl⟩ : ∃ m, n = m + 1 := ⟨n - 1, by omega⟩
  have hobj : (v.orObject H).weight M ≤ v.weight M ∧ Half M (v.orObject H) r := by
    cases v with
    | var x =>
      refine ⟨by simp only [Ty.orObject, Ty.weight, weightAll]; omega, Half.object r⟩
    | _ => exact ⟨Nat.le_refl _, hh⟩
  have htup : (tuples H n (v.orObject H) r b).fine M := tuples_fine h (by omega) (by omega) hobj.2 hb hM
  cases r with
  | union rs =>
    rw [receive]
    have hl := length_weight (M := M) (ts := rs)
    simp only [Ty.weight] at hw
    have hpos := weight_pos (M := M) v
    refine unionRecv_fine h rs n (by omega) v b ?_ hb
    intro r hr
    have := weight_mem (M := M) hr
    exact ⟨by omega, half_part hh (Part.refl v) (part_union hr) (Nat.le_refl _) (by simp only [Ty.weight]; omega)⟩
  | var x =>
    rw [receive]
    split
    · trivial
    · intro y t hy
      rw [List.lookup_cons] at hy
      split at hy
      · cases hy
        rcases hh with hh | ⟨hh, _⟩
        · exact hh
        · simp [Ty.all, Ty.notVar] at hh
      · exact hb y t hy
  | _ => rw [receive] <;> first | exact htup | (intros; simp_all)

/-- Unification comes to an end, however large the types that are bound already. -/
theorem fine_all (H : Hier) (M : Nat) (hM : 4 ≤ M) : ∀ k, ∃ N, Fine H M N k := by
  intro k
  induction k with
  | zero =>
    refine ⟨0, fun n _ v r b hw _ _ => ?_⟩
    have := weight_pos (M := M) v
    omega
  | succ k ih =>
    obtain ⟨N, h⟩ := ih
    refine ⟨N + k + 10, fun n hn v r b hw hh hb => ?_⟩
    obtain ⟨n, rfl⟩ : ∃ m, n = m + 1 := ⟨n - 1, by omega⟩
    have hwv := weight_get hb v
    have hwr := weight_get hb r
    have hg := hh.get (b := b)
    rw [unify]
    split
    · exact hb
    · generalize get b v = v' at *
      generalize get b r = r' at *
      have hrec : (receive H n v' r' b).fine M := receive_fine h (by omega) (by omega) hg hb hM
      cases v' with
      | union vs =>
        have hl := length_weight (M := M) (ts := vs)
        simp only [Ty.weight] at hwv
        have hpos := weight_pos (M := M) r'
        refine unionValue_fine h vs n (by omega) r' b ?_ hb
        intro x hx
        have := weight_mem (M := M) hx
        exact ⟨by omega, half_part hg (part_union hx) (Part.refl r') (by simp only [Ty.weight]; omega) (Nat.le_refl _)⟩
      | _ => exact hrec

mutual
theorem weight_closed (M : Nat) : ∀ (t : Ty), t.all Ty.notVar = true → t.weight M = t.weight 0
  | .any, _ => rfl
  | .var x, h => by simp [Ty.all, Ty.notVar] at h
  | .cls c args, h => by
    rw [Ty.all, Bool.and_eq_true] at h
    rw [Ty.weight, Ty.weight, weightAll_closed M args h.2]
  | .tuple ts, h => by
    rw [Ty.all, Bool.and_eq_true] at h
    rw [Ty.weight, Ty.weight, weightAll_closed M ts h.2]
  | .tupleVar t, h => by
    rw [Ty.all, Bool.and_eq_true] at h
    rw [Ty.weight, Ty.weight, weight_closed M t h.2]
  | .tupleRaw, _ => rfl
  | .callable (some args) r, h => by
    rw [Ty.all, Bool.and_eq_true, Bool.and_eq_true] at h
    rw [Ty.weight, Ty.weight, weightAll_closed M args h.2.1, weight_closed M r h.2.2]
  | .callable none r, h => by
    rw [Ty.all, Bool.and_eq_true] at h
    rw [Ty.weight, Ty.weight, weight_closed M r h.2]
  | .union ts, h => by
    rw [Ty.all, Bool.and_eq_true] at h
    rw [Ty.weight, Ty.weight, weightAll_closed M ts h.2]
theorem weightAll_closed (M : Nat) : ∀ (ts : List Ty), allAll Ty.notVar ts = true → weightAll M ts = weightAll 0 ts
  | [], _ => rfl
  | t :: ts, h => by
    rw [allAll, Bool.and_eq_true] at h
    rw [weightAll, weightAll, weight_closed M t h.1, weightAll_closed M ts h.2]
end

end Verif.Unify
