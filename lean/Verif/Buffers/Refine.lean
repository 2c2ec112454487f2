import Verif.Buffers.Lemmas
import Verif.Seq.Shell
/-
CrossHair's buffers and Python's, step by step.
-/
set_option linter.unusedSectionVars false
namespace Verif.Buffers
open Verif.Seq (Slice pyGet pySet pySlice pySetSlice lookup)

/-- A CrossHair view and a Python view on the same stretch. -/
structure ViewRel (w : View) (p : PyView) : Prop where
  obj : w.obj = p.obj
  ro : w.readonly = p.readonly
  bounds : (w.start = p.start ∧ w.stop = p.start + p.len) ∨ (p.len = 0 ∧ w.start = 0 ∧ w.stop = 0)

/-- A Python view that fits the objects: it lies within its object and is read-only on `bytes`. -/
structure ViewOk (t : PySt) (p : PyView) : Prop where
  used : p.obj < t.bufs
  inside : p.start + p.len ≤ (t.buf p.obj).data.length
  ro : (t.buf p.obj).kind = .bytes → p.readonly = true

/-- A CrossHair state and a Python state with the same objects and views. -/
structure Rel (s : St) (t : PySt) : Prop where
  kind : ∀ o, (s.buf o).kind = (t.buf o).kind
  inner : ∀ o, (s.buf o).inner = vals (t.buf o).data
  bufs : s.bufs = t.bufs
  views : s.views = t.views
  noView : ∀ v, t.view v = none → s.view v = none
  someView : ∀ v p, t.view v = some p → v < t.views ∧ ViewOk t p ∧ ∃ w, s.view v = some w ∧ ViewRel w p

theorem cell_val (s : St) (fuel : Nat) (n : Int) : s.cell fuel (.val n) = .ok n := by
  cases fuel <;> rfl

theorem cells_vals (s : St) (fuel : Nat) : ∀ ns : List Int, s.cells fuel (vals ns) = .ok ns
  | [] => rfl
  | n :: ns => by
    have := cells_vals s fuel ns
    unfold vals at this ⊢
    simp only [List.map_cons, St.cells, cell_val, this]

theorem cells_map {γ : Type} (s : St) (fuel : Nat) (f : γ → Cell) (g : γ → Int) : ∀ cs : List γ,
    (∀ c ∈ cs, s.cell fuel (f c) = .ok (g c)) → s.cells fuel (cs.map f) = .ok (cs.map g)
  | [], _ => rfl
  | c :: cs, h => by
    have := cells_map s fuel f g cs (fun c hc => h c (by simp [hc]))
    simp only [List.map_cons, St.cells, h c (by simp), this]

theorem cell_ref {s : St} {t : PySt} (h : Rel s t) (fuel : Nat) (o : Nat) (k : Nat)
    (hk : k < (t.buf o).data.length) :
    s.cell (fuel + 1) (.ref o (k : Int)) = .ok ((t.buf o).data.getD k 0) := by
  unfold St.cell
  rw [h.inner o, vals, pyGet_map]
  have : pyGet (t.buf o).data (k : Int) = .ok ((t.buf o).data.getD k 0) := by
    unfold pyGet lookup
    have h0 : ¬ ((k : Int) < 0) := by omega
    rw [if_neg h0, if_pos (by omega), Int.toNat_natCast, List.getElem?_eq_getElem hk]
    simp [List.getD, List.getElem?_eq_getElem hk]
  rw [this]
  exact cell_val s fuel _

theorem window_map (xs : List Int) (a n : Nat) (h : a + n ≤ xs.length) :
    (xs.drop a).take n = (List.range n).map fun k => xs.getD (a + k) 0 := by
  apply List.ext_getElem
  · simp; omega
  · intro k h1 h2
    have hk : a + k < xs.length := by simp at h1; omega
    simp [List.getD, List.getElem?_eq_getElem hk]

theorem view_cells {s : St} {t : PySt} (h : Rel s t) {w : View} {p : PyView} (hw : ViewRel w p)
    (hp : ViewOk t p) (fuel : Nat) : s.cells (fuel + 1) w.cells = .ok (t.window p) := by
  unfold View.cells PySt.window
  rw [window_map _ _ _ hp.inside]
  have hlen : (w.stop - w.start).toNat = p.len := by
    rcases hw.bounds with hb | hb <;> omega
  rw [hlen]
  apply cells_map s (fuel + 1) (fun (k : Nat) => Cell.ref w.obj (w.start + (k : Int)))
    (fun k => (t.buf p.obj).data.getD (p.start + k) 0)
  intro k hk
  have hk : k < p.len := List.mem_range.1 hk
  have hs : w.start = p.start := by
    rcases hw.bounds with hb | hb <;> omega
  rw [hs, hw.obj]
  have := cell_ref h fuel p.obj (p.start + k) (by have := hp.inside; omega)
  push_cast at this
  exact this

/-- The stretch of a view. -/
theorem slice_rel {w : View} {p : PyView} (h : ViewRel w p) (a b : Option Int) :
    ViewRel (w.slice a b)
      ⟨p.obj, p.start + (pyStretch p.len a b).1, (pyStretch p.len a b).2, p.readonly⟩ := by
  have hlen : (w.stop - w.start).toNat = p.len := by
    rcases h.bounds with hb | hb <;> omega
  have key : ∃ x y : Int, (w.slice a b) = (if w.start + y ≤ w.start + x then
      { w with start := 0, stop := 0 } else { w with start := w.start + x, stop := w.start + y }) ∧
      x = (pyStretch p.len a b).1 ∧
      ((y = (pyStretch p.len a b).1 + (pyStretch p.len a b).2) ∨
        (y ≤ x ∧ (pyStretch p.len a b).2 = 0)) := by
    unfold View.slice
    rw [hlen]
    simp only [Seq.indices]
    refine ⟨_, _, rfl, ?_⟩
    have hn : ¬ ((1 : Int) < 0) := by omega
    unfold Seq.clampSlice pyStretch Seq.normalizeIdx
    rw [if_neg hn]
    cases a <;> cases b <;> simp only [Option.map_none, Option.map_some, Option.getD_none, Option.getD_some] <;>
      (repeat' split) <;> simp only [Option.getD_some] <;> omega
  obtain ⟨x, y, h1, h2, h3⟩ := key
  rw [h1]
  have hle : (pyStretch p.len a b).1 ≤ p.len := by
    unfold pyStretch
    cases a <;> simp only <;> (repeat' split) <;> omega
  have hle2 : (pyStretch p.len a b).1 + (pyStretch p.len a b).2 ≤ p.len := by
    unfold pyStretch at hle ⊢
    cases b <;> simp only at hle ⊢ <;> (repeat' split) <;> omega
  by_cases hc : w.start + y ≤ w.start + x
  · rw [if_pos hc]
    refine ⟨h.obj, h.ro, .inr ⟨?_, rfl, rfl⟩⟩
    show (pyStretch p.len a b).2 = 0
    omega
  · rw [if_neg hc]
    refine ⟨h.obj, h.ro, .inl ⟨?_, ?_⟩⟩
    · show w.start + x = ((p.start + (pyStretch p.len a b).1 : Nat) : Int)
      rcases h.bounds with hb | hb <;> omega
    · show w.start + y = ((p.start + (pyStretch p.len a b).1 : Nat) : Int) + ((pyStretch p.len a b).2 : Nat)
      rcases h.bounds with hb | hb <;> omega

theorem stretch_le (n : Nat) (a b : Option Int) : (pyStretch n a b).1 + (pyStretch n a b).2 ≤ n ∨
    (pyStretch n a b).2 = 0 := by
  unfold pyStretch
  cases b <;> simp only <;> (repeat' split) <;> omega

theorem stretch_first (n : Nat) (a b : Option Int) : (pyStretch n a b).1 ≤ n := by
  unfold pyStretch
  cases a <;> simp only <;> (repeat' split) <;> omega

end Verif.Buffers
