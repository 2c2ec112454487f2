import Verif.Gcds.Model
import Verif.Ints.Props
/-
`math.gcd` with any number of arguments of any kind.
-/
namespace Verif.Gcds

/-- With up to two arguments that are no floats, and no objects that are not true, `gcd` does what Python's does. -/
theorem gcd_partial (l : List Arg) (h2 : l.length ≤ 2) (hf : ∀ z, Arg.float z ∉ l) (ho : Arg.other false ∉ l) : Python l (gcd l) := by
  match l, h2 with
  | [], _ =>
    have h := Ints.gcd_greatest 0 0
    exact ⟨_, ⟨h.1, fun z hz => (by cases hz), fun d _ => h.2.2.2 d (Int.dvd_zero d) (Int.dvd_zero d)⟩, rfl⟩
  | [.other _], _ => rfl
  | [.float z], _ => exact absurd List.mem_cons_self (hf z)
  | [.int x], _ =>
    have h := Ints.gcd_greatest x 0
    refine ⟨_, ⟨h.1, fun z hz => ?_, fun d hd => h.2.2.2 d (hd x List.mem_cons_self) (Int.dvd_zero d)⟩, rfl⟩
    rw [List.mem_singleton.mp hz]
    exact h.2.1
  | [.other _, .other _], _ => rfl
  | [.other _, .int y], _ => rfl
  | [.int x, .other true], _ => rfl
  | [.int x, .other false], _ => exact absurd (List.mem_cons_of_mem _ List.mem_cons_self) ho
  | [.float z, _], _ => exact absurd List.mem_cons_self (hf z)
  | [_, .float z], _ => exact absurd (List.mem_cons_of_mem _ List.mem_cons_self) (hf z)
  | [.int x, .int y], _ =>
    have h := Ints.gcd_greatest x y
    refine ⟨Ints.gcd x y, ⟨h.1, fun z hz => ?_, fun d hd => h.2.2.2 d (hd x (by simp)) (hd y (by simp))⟩, ?_⟩
    · simp at hz
      rcases hz with rfl | rfl
      · exact h.2.1
      · exact h.2.2.1
    · simp [gcd, Arg.val, Arg.isFloat]

example : gcd [.int (-12), .int 18] = .int 6 ∧ gcd [] = .int 0 ∧ gcd [.int 3, .other true] = .typeError := by
  simp [gcd, Arg.val, Arg.isFloat, Ints.gcd_spec]
  decide

/-- Python's result is unique, so that the theorems below are disagreements. -/
theorem python_unique (l : List Arg) (r s : Res) (hr : Python l r) (hs : Python l s) : r = s := by
  unfold Python at hr hs
  cases h : ints l with
  | none => simp only [h] at hr hs; rw [hr, hs]
  | some zs =>
    simp only [h] at hr hs
    obtain ⟨g, hg, rfl⟩ := hr
    obtain ⟨k, hk, rfl⟩ := hs
    have h1 := hk.2.2 g hg.2.1
    have h2 := hg.2.2 k hk.2.1
    rw [Int.dvd_antisymm hg.1 hk.1 h1 h2]

/-- Disagreement: three or more integers are a `TypeError`. -/
theorem three_refused (zs : List Int) (h : 3 ≤ zs.length) : gcd (zs.map Arg.int) = .typeError ∧ ¬ Python (zs.map Arg.int) .typeError := by
  constructor
  · match zs, h with
    | _ :: _ :: _ :: _, _ => rfl
  · have hi : ∀ l : List Int, ints (l.map Arg.int) = some l := by
      intro l
      induction l with
      | nil => rfl
      | cons z l ih => simp [ints, ih]
    unfold Python
    simp only [hi]
    rintro ⟨g, _, hg⟩
    cases hg

example : gcd [.int 4, .int 6, .int 8] = .typeError ∧ ¬ Python [.int 4, .int 6, .int 8] .typeError := three_refused [4, 6, 8] (by decide)

/-- Disagreement: floats whose values are integers are taken, where Python raises a `TypeError`. -/
theorem floats_taken (x y : Int) : gcd [.float x, .float y] = .float (Int.gcd x y) ∧ Python [.float x, .float y] .typeError := by
  refine ⟨?_, rfl⟩
  simp [gcd, Arg.val, Arg.isFloat, Ints.gcd_spec]

/-- Disagreement: with an object that is not true as the second argument, like `None`, the first is given without its sign. -/
theorem none_taken (x : Int) : gcd [.int x, .other false] = .int x.natAbs ∧ Python [.int x, .other false] .typeError := by
  refine ⟨?_, rfl⟩
  simp [gcd, Arg.val, Arg.isFloat, Ints.gcd_spec]

end Verif.Gcds
