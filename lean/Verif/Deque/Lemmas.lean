import Verif.Deque.Spec
import Mathlib.Data.List.Rotate
import Mathlib.Tactic.Ring
import Mathlib.Tactic.Linarith

/-! Helper lemmas about the heap of lists, and about single operations. -/
namespace Verif.Deque

variable {α : Type}

/-- Distinct deques refer to distinct lists, and every list exists. -/
structure Sep (w : World α) : Prop where
  inj : ∀ (i j : Nat) (d d' : Dq), w.dqs[i]? = some d → w.dqs[j]? = some d' → d.ref = d'.ref → i = j
  bound : ∀ (i : Nat) (d : Dq), w.dqs[i]? = some d → d.ref < w.heap.length

theorem contents_eq {w : World α} {d : Dq} (h : d.ref < w.heap.length) :
    w.contents d = w.heap[d.ref] := by
  simp [World.contents, List.getD, h]

theorem view_get (w : World α) (i : Nat) :
    w.view[i]? = (w.dqs[i]?).map fun d => (w.contents d, d.maxlen) := by
  simp [World.view]

theorem view_length (w : World α) : w.view.length = w.dqs.length := by simp [World.view]

theorem contents_store {w : World α} {d : Dq} (xs : List α) (h : d.ref < w.heap.length) :
    (w.store d xs).contents d = xs := by
  simp [World.contents, World.store, List.getD, h]

theorem contents_store_ne {w : World α} {d d' : Dq} (xs : List α) (h : d.ref ≠ d'.ref) :
    (w.store d xs).contents d' = w.contents d' := by
  simp [World.contents, World.store, List.getD, h]

theorem sep_store {w : World α} (hs : Sep w) (d : Dq) (xs : List α) : Sep (w.store d xs) := by
  refine ⟨hs.inj, fun i d' h => ?_⟩
  have := hs.bound i d' h
  simpa [World.store] using this

theorem view_store {w : World α} (hs : Sep w) {i : Nat} {d : Dq} (hd : w.dqs[i]? = some d) (xs : List α) :
    (w.store d xs).view = w.view.set i (xs, d.maxlen) := by
  apply List.ext_getElem?
  intro j
  rw [view_get, List.getElem?_set, view_get, view_length]
  have hi : i < w.dqs.length := (List.getElem?_eq_some_iff.1 hd).1
  show Option.map _ (w.dqs[j]?) = _
  by_cases hj : i = j
  · subst hj
    rw [hd]
    simp [contents_store xs (hs.bound i d hd), hi]
  · simp only [hj, if_false]
    cases hq : w.dqs[j]? with
    | none => rfl
    | some d' =>
      have : d.ref ≠ d'.ref := fun e => hj (hs.inj i j d d' hd hq e)
      simp [contents_store_ne xs this]

theorem sep_rebind {w : World α} (hs : Sep w) (i : Nat) (d : Dq) (xs : List α) :
    Sep (w.rebind i d xs) := by
  have key : ∀ (j : Nat) (e : Dq), (w.rebind i d xs).dqs[j]? = some e →
      (i = j ∧ e.ref = w.heap.length) ∨ (i ≠ j ∧ w.dqs[j]? = some e) := by
    intro j e h
    simp only [World.rebind, List.getElem?_set] at h
    by_cases hj : i = j
    · left
      simp only [hj, if_true] at h
      split at h
      · cases h; exact ⟨hj, rfl⟩
      · cases h
    · right
      simp only [hj, if_false] at h
      exact ⟨hj, h⟩
  constructor
  · intro a b e e' ha hb hr
    rcases key a e ha with ⟨h1, h2⟩ | ⟨h1, h2⟩ <;> rcases key b e' hb with ⟨h3, h4⟩ | ⟨h3, h4⟩
    · omega
    · have := hs.bound b e' h4; omega
    · have := hs.bound a e h2; omega
    · exact hs.inj a b e e' h2 h4 hr
  · intro a e ha
    have : (w.rebind i d xs).heap.length = w.heap.length + 1 := by simp [World.rebind]
    rw [this]
    rcases key a e ha with ⟨_, h2⟩ | ⟨_, h2⟩
    · omega
    · have := hs.bound a e h2; omega

theorem contents_append {w : World α} {dqs : List Dq} {d : Dq} (ys : List α) (h : d.ref < w.heap.length) :
    World.contents ⟨w.heap ++ [ys], dqs⟩ d = w.contents d := by
  simp [World.contents, List.getD, List.getElem?_append_left h]

theorem view_rebind {w : World α} (hs : Sep w) {i : Nat} {d : Dq} (hd : w.dqs[i]? = some d) (xs : List α) :
    (w.rebind i d xs).view = w.view.set i (xs, d.maxlen) := by
  apply List.ext_getElem?
  intro j
  rw [view_get, List.getElem?_set, view_get, view_length]
  have hi : i < w.dqs.length := (List.getElem?_eq_some_iff.1 hd).1
  by_cases hj : i = j
  · subst hj
    simp [World.rebind, hi, World.contents, List.getD]
  · simp only [World.rebind, List.getElem?_set, hj, if_false]
    cases hq : w.dqs[j]? with
    | none => rfl
    | some d' => simp [contents_append xs (hs.bound j d' hq)]

theorem sep_create {w : World α} (hs : Sep w) (xs : List α) (m : Option Nat) :
    Sep (w.create xs m).2 := by
  have key : ∀ (j : Nat) (e : Dq), (w.create xs m).2.dqs[j]? = some e →
      (j = w.dqs.length ∧ e.ref = w.heap.length) ∨ (w.dqs[j]? = some e) := by
    intro j e h
    simp only [World.create] at h
    rcases Nat.lt_or_ge j w.dqs.length with hj | hj
    · right; rwa [List.getElem?_append_left hj] at h
    · left
      rw [List.getElem?_append_right hj] at h
      have := (List.getElem?_eq_some_iff.1 h).1
      simp at this
      have hj' : j = w.dqs.length := by omega
      subst hj'
      simp at h
      exact ⟨rfl, by rw [← h]⟩
  constructor
  · intro a b e e' ha hb hr
    rcases key a e ha with ⟨h1, h2⟩ | h2 <;> rcases key b e' hb with ⟨h3, h4⟩ | h4
    · omega
    · have := hs.bound b e' h4; omega
    · have := hs.bound a e h2; omega
    · exact hs.inj a b e e' h2 h4 hr
  · intro a e ha
    have : (w.create xs m).2.heap.length = w.heap.length + 1 := by simp [World.create]
    rw [this]
    rcases key a e ha with ⟨_, h2⟩ | h2
    · omega
    · have := hs.bound a e h2; omega

theorem view_create {w : World α} (hs : Sep w) (xs : List α) (m : Option Nat) :
    (w.create xs m).2.view = w.view ++ [(xs, m)] := by
  simp only [World.create, World.view, List.map_append, List.map_cons, List.map_nil]
  congr 1
  · apply List.map_congr_left
    intro d hd
    obtain ⟨i, hi⟩ := List.mem_iff_getElem?.1 hd
    rw [contents_append xs (hs.bound i d hi)]
  · simp [World.contents, List.getD]

theorem sep_empty : Sep (World.empty : World α) := by
  constructor <;> intros <;> simp_all [World.empty]

/-! ## Lists -/

theorem indexLoop_eq [DecidableEq α] (x : α) (hi : Nat) : ∀ (ys : List α) (i : Nat),
    indexLoop x hi i ys =
      ((List.range' i ys.length).find? fun p => decide (p < hi) && ys[p - i]? == some x) := by
  intro ys
  induction ys with
  | nil => intro i; simp [indexLoop]
  | cons y ys ih =>
    intro i
    rw [indexLoop, List.length_cons, List.range'_succ, List.find?_cons]
    simp only [Nat.sub_self, List.getElem?_cons_zero]
    by_cases h : i < hi
    · by_cases hy : y = x
      · simp [h, hy]
      · simp only [h, if_true, hy, if_false, decide_true, Bool.true_and]
        have : (some y == some x) = false := by simp [hy]
        rw [this, ih]
        simp only []
        apply find_congr
        intro p hp
        simp only [List.mem_range'_1] at hp
        have : p - i = (p - (i + 1)) + 1 := by omega
        rw [this, List.getElem?_cons_succ]
    · simp only [h, if_false, decide_false, Bool.false_and]
      symm
      rw [List.find?_eq_none]
      intro p hp
      simp only [List.mem_range'_1] at hp
      have : ¬ p < hi := by omega
      simp [this]
where
  find_congr {l : List Nat} {p q : Nat → Bool} (h : ∀ a ∈ l, p a = q a) : l.find? p = l.find? q := by
    induction l with
    | nil => rfl
    | cons a l ih =>
      rw [List.find?_cons, List.find?_cons, h a (by simp), ih (fun b hb => h b (by simp [hb]))]

theorem listIndex_eq [DecidableEq α] (xs : List α) (x : α) (start stop : Option Int) :
    listIndex xs x start stop =
      firstAt xs x (clip xs.length (start.getD 0)) (clip xs.length (stop.getD xs.length)) := by
  unfold listIndex firstAt
  simp only
  generalize clip xs.length (stop.getD xs.length) = hi
  have hlo : clip xs.length (start.getD 0) ≤ xs.length := by unfold clip; simp only; omega
  generalize clip xs.length (start.getD 0) = lo at *
  rw [indexLoop_eq, List.range_eq_range', List.length_drop]
  have e : List.range' 0 xs.length = List.range' 0 lo ++ List.range' lo (xs.length - lo) := by
    have h1 := List.range'_append_1 (s := 0) (m := lo) (n := xs.length - lo)
    rw [Nat.zero_add, Nat.add_sub_cancel' hlo] at h1
    exact h1.symm
  rw [e, List.find?_append]
  have : (List.range' 0 lo).find? (fun p => decide (lo ≤ p ∧ p < hi) && xs[p]? == some x) = none := by
    rw [List.find?_eq_none]
    intro p hp
    simp only [List.mem_range'_1] at hp
    have : ¬ lo ≤ p := by omega
    simp [this]
  rw [this, Option.none_or]
  apply indexLoop_eq.find_congr
  intro p hp
  simp only [List.mem_range'_1] at hp
  rw [List.getElem?_drop]
  have h1 : lo + (p - lo) = p := by omega
  simp [h1, hp.1]

theorem firstAt_cons [DecidableEq α] (y x : α) (ys : List α) :
    firstAt (y :: ys) x 0 (y :: ys).length =
      if y = x then some 0 else (firstAt ys x 0 ys.length).map (· + 1) := by
  unfold firstAt
  rw [List.length_cons, List.range_succ_eq_map, List.find?_cons]
  by_cases h : y = x
  · simp [h]
  · have : (some y == some x) = false := by simp [h]
    simp only [List.getElem?_cons_zero, this, Bool.and_false, h, if_false, List.find?_map]
    congr 1
    apply indexLoop_eq.find_congr
    intro p _
    simp [Function.comp]

theorem listRemove_eq [DecidableEq α] (x : α) : ∀ xs : List α,
    listRemove x xs = (firstAt xs x 0 xs.length).map fun p => xs.take p ++ xs.drop (p + 1)
  | [] => rfl
  | y :: ys => by
    rw [listRemove, firstAt_cons]
    by_cases h : y = x
    · simp [h]
    · simp only [h, if_false, listRemove_eq x ys, Option.map_map]
      congr 1

theorem countLoop_eq [DecidableEq α] (x : α) : ∀ (xs : List α) (c : Nat),
    countLoop x c xs = c + (xs.filter (· = x)).length
  | [], c => by simp [countLoop]
  | y :: ys, c => by
    rw [countLoop]
    by_cases h : y = x
    · simp [h, countLoop_eq x ys]; omega
    · simp [h, countLoop_eq x ys]

theorem mulLoop_eq (xs : List α) : ∀ (n : Nat) (acc : List α),
    mulLoop xs acc n = acc ++ (List.replicate n xs).flatten
  | 0, acc => by simp [mulLoop]
  | n + 1, acc => by rw [mulLoop, mulLoop_eq xs n, List.replicate_succ]; simp

theorem position_lt {n : Nat} {k : Int} {p : Nat} (h : position n k = some p) : p < n := by
  unfold position at h
  simp only at h
  generalize (if k < 0 then k + (n : Int) else k) = j at h
  by_cases hj : 0 ≤ j ∧ j < n
  · rw [if_pos hj] at h
    have := Option.some.inj h
    omega
  · rw [if_neg hj] at h
    cases h

theorem set_eq (xs : List α) (p : Nat) (x : α) (h : p < xs.length) :
    xs.set p x = xs.take p ++ x :: xs.drop (p + 1) := by
  rw [List.set_eq_take_append_cons_drop, if_pos h]

theorem eraseIdx_eq (xs : List α) (p : Nat) : xs.eraseIdx p = xs.take p ++ xs.drop (p + 1) :=
  List.eraseIdx_eq_take_drop_succ _ _

/-! ## Rotation -/

theorem rotL_eq (xs : List α) : rotL xs = xs.rotate 1 := by
  cases xs <;> simp [rotL]

theorem rotR_eq (xs : List α) : rotR xs = xs.rotate (xs.length - 1) := by
  unfold rotR
  rcases List.eq_nil_or_concat xs with rfl | ⟨ys, z, rfl⟩
  · simp
  · simp only [List.concat_eq_append, List.getLast?_append, List.getLast?_singleton, Option.some_or,
      List.dropLast_concat, List.length_append, List.length_singleton, Nat.add_sub_cancel]
    rw [List.rotate_append_length_eq]
    simp

theorem times_rotL : ∀ (n : Nat) (xs : List α), times rotL n xs = xs.rotate n
  | 0, xs => by simp [times]
  | n + 1, xs => by rw [times, times_rotL n, rotL_eq, List.rotate_rotate, Nat.add_comm]

theorem times_rotR : ∀ (n : Nat) (xs : List α), times rotR n xs = xs.rotate (n * (xs.length - 1))
  | 0, xs => by simp [times]
  | n + 1, xs => by
    rw [times, times_rotR n, rotR_eq, List.rotate_rotate, List.length_rotate]
    congr 1; ring

theorem rotate_slice (xs : List α) (a : Nat) :
    xs.drop (a % xs.length) ++ xs.take (a % xs.length) = xs.rotate a :=
  (List.rotate_eq_drop_append_take_mod).symm

theorem turn_nil (n : Int) : turn n ([] : List α) = [] := by
  unfold turn
  split
  · rw [times_rotR]; simp
  · rw [times_rotL]; simp

theorem turn_eq (xs : List α) (n : Int) (h : xs ≠ []) :
    turn n xs = xs.drop ((-n).fmod xs.length).toNat ++ xs.take ((-n).fmod xs.length).toNat := by
  have hl : 0 < xs.length := List.length_pos_iff.2 h
  unfold turn
  split
  · rename_i hn
    rw [times_rotR]
    have : ((-n).fmod xs.length).toNat = (n.toNat * (xs.length - 1)) % xs.length := by
      rw [Int.fmod_eq_emod_of_nonneg _ (by omega)]
      obtain ⟨k, rfl⟩ := Int.eq_ofNat_of_zero_le hn
      have : ((k : Int) * ((xs.length : Int) - 1)) % xs.length = (-(k : Int)) % xs.length := by
        have e : (k : Int) * ((xs.length : Int) - 1) = -(k : Int) + xs.length * k := by ring
        rw [e, Int.add_mul_emod_self_left]
      rw [← this]
      have e2 : (k : Int) * ((xs.length : Int) - 1) = ((k * (xs.length - 1) : Nat) : Int) := by
        push_cast [Nat.cast_sub hl]; ring
      rw [e2, ← Int.natCast_mod, Int.toNat_natCast, Int.toNat_natCast]
    rw [this, rotate_slice xs _]
  · rename_i hn
    rw [times_rotL]
    have : ((-n).fmod xs.length).toNat = (-n).toNat % xs.length := by
      rw [Int.fmod_eq_emod_of_nonneg _ (by omega)]
      obtain ⟨k, hk⟩ := Int.eq_ofNat_of_zero_le (show 0 ≤ -n by omega)
      rw [hk, ← Int.natCast_mod, Int.toNat_natCast, Int.toNat_natCast]
    rw [this, rotate_slice xs _]

theorem rotated_eq (xs : List α) (n : Int) : (rotated xs n).getD xs = turn n xs := by
  unfold rotated
  by_cases h : xs = []
  · subst h; simp [turn_nil]
  · have he : xs.isEmpty = false := by simpa using h
    by_cases hm : n.fmod xs.length = 0
    · simp only [he, hm, beq_self_eq_true, Bool.or_true, if_true, Option.getD_none]
      rw [turn_eq xs n h]
      have : (-n).fmod xs.length = 0 := by
        rw [Int.fmod_eq_emod_of_nonneg _ (by omega)] at hm ⊢
        exact Int.emod_eq_zero_of_dvd (Int.dvd_neg.2 (Int.dvd_of_emod_eq_zero hm))
      simp [this]
    · have : (n.fmod xs.length == 0) = false := by simpa using hm
      simp only [he, this, Bool.or_self, Bool.false_eq_true, if_false, Option.getD_some]
      rw [turn_eq xs n h]

/-! ## One operation -/

/-- Every deque keeps within its bound. -/
def Within (s : List (Plain α)) : Prop := ∀ (i : Nat) (xs : List α) (m : Option Nat), s[i]? = some (xs, m) → fits m xs.length = true

theorem within_set {s : List (Plain α)} (hw : Within s) {i : Nat} {xs : List α} {m : Option Nat}
    (h : fits m xs.length = true) : Within (s.set i (xs, m)) := by
  intro j ys m' hj
  rw [List.getElem?_set] at hj
  split at hj
  · split at hj
    · cases hj; exact h
    · cases hj
  · exact hw j ys m' hj

theorem within_add {s : List (Plain α)} (hw : Within s) {xs : List α} {m : Option Nat}
    (h : fits m xs.length = true) : Within (s ++ [(xs, m)]) := by
  intro j ys m' hj
  rcases Nat.lt_or_ge j s.length with h1 | h1
  · rw [List.getElem?_append_left h1] at hj; exact hw j ys m' hj
  · rw [List.getElem?_append_right h1] at hj
    have := (List.getElem?_eq_some_iff.1 hj).1
    have h0 : j - s.length = 0 := by simp at this; omega
    rw [h0] at hj
    cases hj; exact h

theorem fits_le {m : Option Nat} {a b : Nat} (h : fits m b = true) (hab : a ≤ b) : fits m a = true := by
  cases m with
  | none => rfl
  | some k => simp [fits] at h ⊢; omega

theorem fallLeft_fits {m : Option Nat} {xs : List α} (h : fits m xs.length = true) : fallLeft m xs = xs := by
  cases m with
  | none => rfl
  | some k => simp [fits] at h; simp [fallLeft, Nat.sub_eq_zero_of_le h]

theorem fallRight_fits {m : Option Nat} {xs : List α} (h : fits m xs.length = true) : fallRight m xs = xs := by
  cases m with
  | none => rfl
  | some k => simp [fits] at h; simp [fallRight, List.take_of_length_le h]

theorem fallLeft_length (m : Option Nat) (xs : List α) : fits m (fallLeft m xs).length = true := by
  cases m with
  | none => rfl
  | some k => simp [fallLeft, fits]; omega

theorem fallRight_length (m : Option Nat) (xs : List α) : fits m (fallRight m xs).length = true := by
  cases m with
  | none => rfl
  | some k => simp [fallRight, fits]

theorem times_length {f : List α → List α} (hf : ∀ xs, (f xs).length = xs.length) :
    ∀ (n : Nat) (xs : List α), (times f n xs).length = xs.length
  | 0, _ => rfl
  | n + 1, xs => by rw [times, times_length hf n, hf]

theorem turn_length (n : Int) (xs : List α) : (turn n xs).length = xs.length := by
  unfold turn
  split
  · rw [times_rotR, List.length_rotate]
  · rw [times_rotL, List.length_rotate]

/-- The model and the specification agree on an operation. -/
structure Agree [DecidableEq α] (w : World α) (r : Out α × World α) (q : Out α × List (Plain α)) : Prop where
  out : r.1 = q.1
  view : r.2.view = q.2
  sep : Sep r.2
  within : Within q.2

variable [DecidableEq α]

theorem agree_same {w : World α} (hs : Sep w) (hw : Within w.view) (o : Out α) :
    Agree w (o, w) (o, w.view) := ⟨rfl, rfl, hs, hw⟩

theorem agree_store {w : World α} (hs : Sep w) (hw : Within w.view) {i : Nat} {d : Dq}
    (hd : w.dqs[i]? = some d) (o : Out α) {xs ys : List α} (e : xs = ys)
    (hf : fits d.maxlen xs.length = true) :
    Agree w (o, w.store d xs) (o, w.view.set i (ys, d.maxlen)) := by
  subst e
  exact ⟨rfl, view_store hs hd xs, sep_store hs d xs, within_set hw hf⟩

theorem agree_rebind {w : World α} (hs : Sep w) (hw : Within w.view) {i : Nat} {d : Dq}
    (hd : w.dqs[i]? = some d) (o : Out α) {xs ys : List α} (e : xs = ys)
    (hf : fits d.maxlen xs.length = true) :
    Agree w (o, w.rebind i d xs) (o, w.view.set i (ys, d.maxlen)) := by
  subst e
  exact ⟨rfl, view_rebind hs hd xs, sep_rebind hs i d xs, within_set hw hf⟩

theorem agree_create {w : World α} (hs : Sep w) (hw : Within w.view) {m : Option Nat}
    {xs ys : List α} (e : xs = ys) (hf : fits m xs.length = true) :
    Agree w (w.create xs m) (.made w.view.length, w.view ++ [(ys, m)]) := by
  subst e
  exact ⟨by rw [view_length]; rfl, view_create hs xs m, sep_create hs xs m, within_add hw hf⟩

theorem agree_on {w : World α} (hs : Sep w) (hw : Within w.view) (i : Nat)
    {f : Dq → Out α × World α} {g : Plain α → Out α × List (Plain α)}
    (h : ∀ d, w.dqs[i]? = some d → w.view[i]? = some (w.contents d, d.maxlen) →
      fits d.maxlen (w.contents d).length = true →
      Agree w (f d) (g (w.contents d, d.maxlen))) :
    Agree w (w.on i f) (onPlain w.view i g) := by
  unfold World.on onPlain
  have hv := view_get w i
  cases hd : w.dqs[i]? with
  | none =>
    rw [hd] at hv
    simp only [Option.map_none] at hv
    rw [hv]
    exact agree_same hs hw _
  | some d =>
    rw [hd] at hv
    simp only [Option.map_some] at hv
    rw [hv]
    exact h d hd hv (hw i _ _ hv)

theorem store_rebind {w : World α} (hs : Sep w) (hw : Within w.view) {i : Nat} {d : Dq}
    (hd : w.dqs[i]? = some d) (o : Out α) (zs : List α) {xs ys : List α} (e : xs = ys)
    (hf : fits d.maxlen xs.length = true) :
    Agree w (o, (w.store d zs).rebind i d xs) (o, w.view.set i (ys, d.maxlen)) := by
  subst e
  refine ⟨rfl, ?_, sep_rebind (sep_store hs d zs) i d xs, within_set hw hf⟩
  show ((w.store d zs).rebind i d xs).view = _
  rw [view_rebind (sep_store hs d zs) (show (w.store d zs).dqs[i]? = some d from hd), view_store hs hd,
    List.set_set]

theorem agree_append {w : World α} (hs : Sep w) (hw : Within w.view) {i : Nat} {d : Dq}
    (hd : w.dqs[i]? = some d) (x : α) (h0 : d.maxlen ≠ some 0)
    (hf : fits d.maxlen (w.contents d).length = true) :
    Agree w (append w i d x) (.unit, w.view.set i (fallLeft d.maxlen (w.contents d ++ [x]), d.maxlen)) := by
  unfold append
  simp only
  cases hm : d.maxlen with
  | none =>
    simp only [hasRoom, hm, if_true]
    have := agree_rebind hs hw hd .unit (xs := w.contents d ++ [x]) rfl (by simp [hm, fits])
    rwa [hm] at this
  | some k =>
    by_cases hk : (w.contents d).length < k
    · simp only [hasRoom, hm, hk, decide_true, if_true]
      have := agree_rebind hs hw hd .unit (xs := w.contents d ++ [x])
        (ys := fallLeft (some k) (w.contents d ++ [x]))
        (by rw [fallLeft_fits]; simp [fits]; omega) (by simp [hm, fits]; omega)
      rwa [hm] at this
    · simp only [hasRoom, hm, hk, decide_false, Bool.false_eq_true, if_false]
      rw [hm] at hf h0
      simp only [fits, decide_eq_true_eq] at hf
      have hb := hs.bound i d hd
      cases hx : w.contents d with
      | nil =>
        rw [hx] at hf hk
        simp at hk
        exact absurd (by rw [hk]) h0
      | cons y ys =>
        simp only
        have := store_rebind hs hw hd .unit ((y :: ys).drop 1)
          (xs := (w.store d ((y :: ys).drop 1)).contents d ++ [x])
          (ys := fallLeft (some k) (y :: ys ++ [x])) (by
            rw [contents_store _ hb]
            rw [hx] at hf hk
            simp only [List.length_cons] at hf hk
            have : ((y :: ys) ++ [x]).length - k = 1 := by simp; omega
            simp only [fallLeft, this]
            simp) (by
            rw [contents_store _ hb, hm]
            rw [hx] at hf
            simp only [List.length_cons] at hf
            simp [fits]; omega)
        rwa [hm] at this

theorem agree_appendleft {w : World α} (hs : Sep w) (hw : Within w.view) {i : Nat} {d : Dq}
    (hd : w.dqs[i]? = some d) (x : α) (h0 : d.maxlen ≠ some 0)
    (hf : fits d.maxlen (w.contents d).length = true) :
    Agree w (appendleft w i d x) (.unit, w.view.set i (fallRight d.maxlen (x :: w.contents d), d.maxlen)) := by
  unfold appendleft
  simp only
  cases hm : d.maxlen with
  | none =>
    simp only [hasRoom, hm, if_true]
    have := agree_rebind hs hw hd .unit (xs := [x] ++ w.contents d) rfl (by simp [hm, fits])
    rwa [hm] at this
  | some k =>
    by_cases hk : (w.contents d).length < k
    · simp only [hasRoom, hm, hk, decide_true, if_true]
      have := agree_rebind hs hw hd .unit (xs := [x] ++ w.contents d)
        (ys := fallRight (some k) (x :: w.contents d))
        (by rw [fallRight_fits]; rfl; simp [fits]; omega) (by simp [hm, fits]; omega)
      rwa [hm] at this
    · simp only [hasRoom, hm, hk, decide_false, Bool.false_eq_true, if_false]
      rw [hm] at hf h0
      simp only [fits, decide_eq_true_eq] at hf
      have hb := hs.bound i d hd
      cases hx : w.contents d with
      | nil =>
        rw [hx] at hf hk
        simp at hk
        exact absurd (by rw [hk]) h0
      | cons y ys =>
        simp only
        have := store_rebind hs hw hd .unit ((y :: ys).dropLast)
          (xs := [x] ++ (w.store d ((y :: ys).dropLast)).contents d)
          (ys := fallRight (some k) (x :: y :: ys)) (by
            rw [contents_store _ hb]
            rw [hx] at hf hk
            simp only [List.length_cons] at hf hk
            have : k = ys.length + 1 := by omega
            simp only [fallRight, this, List.take_succ_cons, List.singleton_append]
            rw [List.dropLast_eq_take]
            simp) (by
            rw [contents_store _ hb, hm]
            rw [hx] at hf
            simp only [List.length_cons] at hf
            simp [fits]; omega)
        rwa [hm] at this

theorem flatten_length (xs : List α) (n : Nat) : (List.replicate n xs).flatten.length = n * xs.length := by
  simp

theorem step_agree {w : World α} (hs : Sep w) (hw : Within w.view) (op : Op α) (hr : Roomy w.view op) :
    Agree w (step w op) (plainStep w.view op) := by
  cases op with
  | new xs m => exact agree_create hs hw rfl hr
  | append i x => exact agree_on hs hw i fun d hd hv hf => agree_append hs hw hd x (hr _ _ hv) hf
  | appendleft i x => exact agree_on hs hw i fun d hd hv hf => agree_appendleft hs hw hd x (hr _ _ hv) hf
  | clear i => exact agree_on hs hw i fun d hd hv hf => agree_rebind hs hw hd _ rfl (fits_le hf (by simp))
  | copy i => exact agree_on hs hw i fun d hd hv hf => agree_create hs hw rfl hf
  | add i j =>
    exact agree_on hs hw i fun d hd hv hf => agree_on hs hw j fun d' hd' hv' hf' => by
      have h1 := hr _ _ _ _ hv hv'
      rw [← List.length_append] at h1
      exact agree_create hs hw (fallLeft_fits h1).symm h1
  | mul i n =>
    exact agree_on hs hw i fun d hd hv hf => by
      have h1 := hr _ _ hv
      rw [← flatten_length] at h1
      have e : mulLoop (w.contents d) [] n.toNat = (List.replicate n.toNat (w.contents d)).flatten := by
        rw [mulLoop_eq]; rfl
      exact agree_create hs hw (by rw [e, fallLeft_fits h1]) (by rw [e]; exact h1)
  | eq i j =>
    exact agree_on hs hw i fun d hd hv hf => agree_on hs hw j fun d' hd' hv' hf' => agree_same hs hw _
  | len i => exact agree_on hs hw i fun d hd hv hf => agree_same hs hw _
  | get i k =>
    exact agree_on hs hw i fun d hd hv hf => by
      simp only
      cases position (w.contents d).length k with
      | none => exact agree_same hs hw _
      | some p =>
        simp only
        cases (w.contents d)[p]? <;> exact agree_same hs hw _
  | set i k x =>
    exact agree_on hs hw i fun d hd hv hf => by
      simp only
      cases hp : position (w.contents d).length k with
      | none => exact agree_same hs hw _
      | some p =>
        exact agree_store hs hw hd _ (set_eq _ _ _ (position_lt hp)) (by simpa using hf)
  | del i k =>
    exact agree_on hs hw i fun d hd hv hf => by
      simp only
      cases hp : position (w.contents d).length k with
      | none => exact agree_same hs hw _
      | some p =>
        refine agree_store hs hw hd _ (eraseIdx_eq _ _) (fits_le hf ?_)
        exact (List.eraseIdx_sublist _ _).length_le
  | count i x =>
    exact agree_on hs hw i fun d hd hv hf => by
      simp only [countLoop_eq, Nat.zero_add]
      exact agree_same hs hw _
  | extend i ys =>
    exact agree_on hs hw i fun d hd hv hf => by
      have h1 := hr _ _ hv
      rw [← List.length_append] at h1
      exact agree_store hs hw hd _ (fallLeft_fits h1).symm h1
  | extendFrom i j =>
    exact agree_on hs hw i fun d hd hv hf => agree_on hs hw j fun d' hd' hv' hf' => by
      have h1 := hr _ _ _ _ hv hv'
      rw [← List.length_append] at h1
      exact agree_store hs hw hd _ (fallLeft_fits h1).symm h1
  | extendleft i ys =>
    exact agree_on hs hw i fun d hd hv hf => by
      have h1 : fits d.maxlen (ys.reverse ++ w.contents d).length = true := by
        have := hr _ _ hv
        rw [Nat.add_comm] at this
        simpa using this
      exact agree_rebind hs hw hd _ (fallRight_fits h1).symm h1
  | index i x start stop =>
    exact agree_on hs hw i fun d hd hv hf => by
      simp only [listIndex_eq]
      cases firstAt (w.contents d) x (clip (w.contents d).length (start.getD 0))
          (clip (w.contents d).length (stop.getD (w.contents d).length)) <;> exact agree_same hs hw _
  | insert i k x =>
    exact agree_on hs hw i fun d hd hv hf => by
      have h1 := hr _ _ hv
      simp only [h1, Bool.false_eq_true, if_false]
      refine agree_store hs hw hd _ rfl ?_
      cases hm : d.maxlen with
      | none => rfl
      | some m =>
        rw [hm] at h1
        simp [full] at h1
        simp [fits, listInsert]; omega
  | pop i =>
    exact agree_on hs hw i fun d hd hv hf => by
      simp only
      cases hl : (w.contents d).getLast? with
      | none => exact agree_same hs hw _
      | some x =>
        exact agree_store hs hw hd _ (List.dropLast_eq_take) (fits_le hf (by simp))
  | popleft i =>
    exact agree_on hs hw i fun d hd hv hf => by
      simp only
      cases hl : w.contents d with
      | nil => exact agree_same hs hw _
      | cons x xs =>
        rw [hl] at hf
        exact agree_store hs hw hd _ (by simp) (fits_le hf (by simp))
  | remove i x =>
    exact agree_on hs hw i fun d hd hv hf => by
      simp only [listRemove_eq]
      cases hl : firstAt (w.contents d) x 0 (w.contents d).length with
      | none => exact agree_same hs hw _
      | some p =>
        refine agree_store hs hw hd _ rfl (fits_le hf ?_)
        simp; omega
  | reverse i => exact agree_on hs hw i fun d hd hv hf => agree_store hs hw hd _ rfl (by simpa using hf)
  | rotate i n =>
    exact agree_on hs hw i fun d hd hv hf => by
      simp only
      have e := rotated_eq (w.contents d) n
      cases hl : rotated (w.contents d) n with
      | none =>
        rw [hl] at e
        simp only [Option.getD_none] at e
        refine ⟨rfl, ?_, hs, within_set hw (by rw [← e]; exact hf)⟩
        show w.view = w.view.set i (turn n (w.contents d), d.maxlen)
        rw [← e]
        apply List.ext_getElem?
        intro j
        rw [List.getElem?_set]
        split
        · rename_i hij
          subst hij
          rw [if_pos (List.getElem?_eq_some_iff.1 hv).1, hv]
        · rfl
      | some ys =>
        rw [hl] at e
        simp only [Option.getD_some] at e
        exact agree_rebind hs hw hd _ e (by rw [e, turn_length]; exact hf)

theorem run_agree : ∀ (ops : List (Op α)) {w : World α}, Sep w → Within w.view → RoomyRun w.view ops →
    (run w ops).1 = (plainRun w.view ops).1 ∧ (run w ops).2.view = (plainRun w.view ops).2
  | [], w, _, _, _ => ⟨rfl, rfl⟩
  | op :: ops, w, hs, hw, hr => by
    have h := step_agree hs hw op hr.1
    have h2 := run_agree ops h.sep (by rw [h.view]; exact h.within) (by rw [h.view]; exact hr.2)
    rw [h.view] at h2
    exact ⟨by simp only [run, plainRun]; rw [h.out, h2.1], by simp only [run, plainRun]; exact h2.2⟩

/-- No deque has a bound. -/
def Free (s : List (Plain α)) : Prop := ∀ (i : Nat) (xs : List α) (m : Option Nat), s[i]? = some (xs, m) → m = none

omit [DecidableEq α] in
theorem free_set {s : List (Plain α)} (hw : Free s) {i : Nat} {xs : List α} {m : Option Nat}
    (h : m = none) : Free (s.set i (xs, m)) := by
  intro j ys m' hj
  rw [List.getElem?_set] at hj
  split at hj
  · split at hj
    · cases hj; exact h
    · cases hj
  · exact hw j ys m' hj

omit [DecidableEq α] in
theorem free_add {s : List (Plain α)} (hw : Free s) {xs : List α} {m : Option Nat}
    (h : m = none) : Free (s ++ [(xs, m)]) := by
  intro j ys m' hj
  rcases Nat.lt_or_ge j s.length with h1 | h1
  · rw [List.getElem?_append_left h1] at hj; exact hw j ys m' hj
  · rw [List.getElem?_append_right h1] at hj
    have := (List.getElem?_eq_some_iff.1 hj).1
    have h0 : j - s.length = 0 := by simp at this; omega
    rw [h0] at hj
    cases hj; exact h

omit [DecidableEq α] in
theorem free_on {s : List (Plain α)} (hw : Free s) (i : Nat) {g : Plain α → Out α × List (Plain α)}
    (h : ∀ xs m, m = none → Free (g (xs, m)).2) : Free (onPlain s i g).2 := by
  unfold onPlain
  cases hp : s[i]? with
  | none => exact hw
  | some p => exact h p.1 p.2 (hw i p.1 p.2 hp)

theorem free_step {s : List (Plain α)} (hw : Free s) (op : Op α) (h : ∀ xs m, op = .new xs m → m = none) :
    Free (plainStep s op).2 := by
  cases op with
  | new xs m => exact free_add hw (h xs m rfl)
  | add i j => exact free_on hw i fun xs m hm => free_on hw j fun ys m' _ => free_add hw hm
  | extendFrom i j => exact free_on hw i fun xs m hm => free_on hw j fun ys m' _ => free_set hw hm
  | eq i j => exact free_on hw i fun xs m hm => free_on hw j fun ys m' _ => hw
  | _ =>
    refine free_on hw _ fun xs m hm => ?_
    simp only
    (repeat' split) <;> first
      | exact hw
      | exact free_set hw hm
      | exact free_add hw hm

theorem free_roomy {s : List (Plain α)} (hw : Free s) (op : Op α) (h : ∀ xs m, op = .new xs m → m = none) :
    Roomy s op := by
  cases op with
  | new xs m => rw [h xs m rfl]; rfl
  | append i x => intro xs m hx; rw [hw i xs m hx]; simp
  | appendleft i x => intro xs m hx; rw [hw i xs m hx]; simp
  | add i j => intro xs m ys m' hx _; rw [hw i xs m hx]; rfl
  | extendFrom i j => intro xs m ys m' hx _; rw [hw i xs m hx]; rfl
  | mul i n => intro xs m hx; rw [hw i xs m hx]; rfl
  | extend i n => intro xs m hx; rw [hw i xs m hx]; rfl
  | extendleft i n => intro xs m hx; rw [hw i xs m hx]; rfl
  | insert i k x => intro xs m hx; rw [hw i xs m hx]; rfl
  | _ => trivial

theorem free_run : ∀ (ops : List (Op α)) {s : List (Plain α)}, Free s → Unbounded ops → RoomyRun s ops
  | [], _, _, _ => trivial
  | op :: ops, s, hs, hu => by
    have h : ∀ xs m, op = .new xs m → m = none := fun xs m e => hu xs m (by simp [e])
    exact ⟨free_roomy hs op h, free_run ops (free_step hs op h) (fun xs m hm => hu xs m (by simp [hm]))⟩

end Verif.Deque
