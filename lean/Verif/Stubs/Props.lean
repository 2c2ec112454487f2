import Verif.Stubs.Lemmas
/-
Property theorems for the stub parser (C122, C123).
-/
namespace Verif.Stubs

/-! ### C122: annotations with `|` become annotations with `Union` -/

/-- **C122.** Every annotation, however its brackets nest, is rewritten to the one with the same parts in the same places in which each
list of alternatives - at the top, or between brackets and commas at any depth - is enclosed in `Union[…]` with commas for its bars; nothing
else changes, and the rewriting never raises. (The text is taken as a nesting of brackets; a bar between quotes counts as a bar, see
`rewrite_literal`.) -/
theorem rewrite_union (p : Pieces) (h : p.Ok) : rewrite p.text = some p.union := by
  have := loop_pieces p h [] [] [] 0 false []
  simp only [List.nil_append, List.append_nil, List.length_nil, Nat.zero_add, Bool.false_or] at this
  unfold rewrite
  rw [this, loop]
  simp only [Option.map_some]
  unfold Pieces.union around
  cases hu : p.isUnion with
  | true => simp only [if_true]; rw [barsToCommas_half p h]; rfl
  | false => simp only [Bool.false_eq_true, if_false]; rw [half_of_not_union p hu]

/-- Text of plain characters before `rest`. -/
def plainText (s : List Char) (rest : Pieces) : Pieces := s.foldr Pieces.ch rest

/-- `Dict[str|int,T[int|B]|None]`. -/
example : rewrite (plainText "Dict".toList (.group '[' ']'
      (.cons (plainText "str".toList (.bar (plainText "int".toList .nil)))
        (.one (plainText "T".toList (.group '[' ']' (.one (plainText "int".toList (.bar (plainText "B".toList .nil))))
          (.bar (plainText "None".toList .nil)))))) .nil)).text
    = some "Dict[Union[str,int],Union[T[Union[int,B]],None]]".toList := by
  decide +kernel

example : (plainText "Dict".toList (.group '[' ']'
      (.cons (plainText "str".toList (.bar (plainText "int".toList .nil)))
        (.one (plainText "T".toList (.group '[' ']' (.one (plainText "int".toList (.bar (plainText "B".toList .nil))))
          (.bar (plainText "None".toList .nil)))))) .nil)).text = "Dict[str|int,T[int|B]|None]".toList ∧
    (plainText "int".toList (.bar (plainText "str".toList .nil))).Ok := by
  refine ⟨by decide +kernel, ?_⟩
  simp [plainText, Pieces.Ok, Plain]

/-- **C122.** Annotations without bars are left as they are. -/
theorem rewrite_same (p : Pieces) (h : p.Ok) (hb : '|' ∉ p.text) : rewrite p.text = some p.text := by
  rw [rewrite_union p h]
  have key : (∀ (p : Pieces), '|' ∉ p.text → p.isUnion = false ∧ p.alternatives = p.text) := by
    intro p
    refine Pieces.rec (motive_1 := fun p => '|' ∉ p.text → p.isUnion = false ∧ p.alternatives = p.text)
      (motive_2 := fun s => '|' ∉ s.text → s.union = s.text) ?_ ?_ ?_ ?_ ?_ ?_ p
    · intro _; exact ⟨rfl, rfl⟩
    · intro c rest ih h
      rw [Pieces.text] at h ⊢
      simp only [List.mem_cons, not_or] at h
      exact ⟨(ih h.2).1, by rw [Pieces.alternatives, (ih h.2).2]⟩
    · intro rest ih h
      rw [Pieces.text] at h
      simp at h
    · intro o c segs rest ih1 ih2 h
      rw [Pieces.text] at h ⊢
      simp only [List.mem_cons, List.mem_append, not_or] at h
      exact ⟨(ih2 h.2.2.2).1, by rw [Pieces.alternatives, ih1 h.2.1, (ih2 h.2.2.2).2]⟩
    · intro p ih h
      rw [Segs.text] at h ⊢
      rw [Segs.union, (ih h).1, (ih h).2]; rfl
    · intro p rest ih1 ih2 h
      rw [Segs.text] at h ⊢
      simp only [List.mem_cons, List.mem_append, not_or] at h
      rw [Segs.union, (ih1 h.1).1, (ih1 h.1).2, ih2 h.2.2]; rfl
  rw [Pieces.union, (key p hb).1, (key p hb).2]; rfl

example : '|' ∉ (plainText "List".toList (.group '[' ']' (.one (plainText "int".toList .nil)) .nil)).text := by decide +kernel

/-- **C122.** No bar outside quotes is left, so an older Python can evaluate the result. -/
theorem rewrite_noBar (p : Pieces) (h : p.Ok) : ∃ s, rewrite p.text = some s ∧ '|' ∉ s := by
  refine ⟨_, rewrite_union p h, ?_⟩
  have := noBar_segs (.one p) h
  exact this

/-- Disagreement: bars between quotes are rewritten too, so `Literal["r|w"]` - one string - becomes `Literal[Union["r,w"]]`, which names
another string and is no literal type. -/
theorem rewrite_literal : rewrite "Literal[\"r|w\"]".toList = some "Literal[Union[\"r,w\"]]".toList := by decide +kernel

/-- Disagreement: brackets between quotes count too; a string with a closing bracket makes the rewriting fail with an `IndexError`. -/
theorem rewrite_quoted_bracket : rewrite "Literal[\"]\"]".toList = none := by decide +kernel

/-! ### C123: the signatures found in stubs are the declared ones -/

/-- **C123.** Only signatures that the stub declares for the function are found: those of functions with its name in the class (or module)
that its qualified name gives, in the branches of conditions that hold. -/
theorem found_declared (stmts : Nodes) (steps : List Nat) (sig : Nat) (h : sig ∈ (sigFromAst stmts steps).1) : Declares stmts steps sig := by
  unfold sigFromAst at h
  by_cases he : steps.isEmpty = true
  · rw [if_pos he] at h; cases h
  · rw [if_neg he, join_mem] at h
    rcases h with h | h
    · exact first_sound stmts stmts steps sig (fun _ h => h) h
    · exact second_sound stmts stmts steps sig (fun _ h => h) h

/-- **C123.** If the signatures are said to be valid, all conditions of the stub can be evaluated and no function is `async`, then all
signatures that the stub declares for the function are found. -/
theorem declared_found_partial (stmts : Nodes) (steps : List Nat) (sig : Nat) (hs : stmts.Simple) (hv : (sigFromAst stmts steps).2 = true)
    (h : Declares stmts steps sig) : sig ∈ (sigFromAst stmts steps).1 := by
  have hne := declares_steps h
  have he : ¬ steps.isEmpty = true := by simpa using hne
  unfold sigFromAst at hv ⊢
  rw [if_neg he] at hv ⊢
  rw [join_valid] at hv
  exact complete stmts steps sig h hs hv.1 hv.2

/-- A class with two signatures of a method, one under `if sys.version_info >= …`. -/
def sample : Nodes := .cons (.cls 1 (.cons (.func 2 10 true true .nil) (.cons (.ifs true true false (.cons (.func 2 11 true true .nil) .nil)
    (.cons (.func 2 12 true true .nil) .nil)) .nil))) (.cons (.func 2 13 true true .nil) .nil)

example : sigFromAst sample [1, 2] = ([10, 12], true) ∧ sigFromAst sample [2] = ([13], true) := by decide +kernel

example : sample.Simple ∧ Declares sample [1, 2] 12 := by
  refine ⟨by simp [sample, Nodes.Simple, Node.Simple], ?_⟩
  refine .inCls (body := .cons (.func 2 10 true true .nil) (.cons (.ifs true true false (.cons (.func 2 11 true true .nil) .nil)
    (.cons (.func 2 12 true true .nil) .nil)) .nil)) (Or.inl rfl) (by simp) ?_
  refine .ifFalse (sys := true) (evals := true) (body := .cons (.func 2 11 true true .nil) .nil) (orelse := .cons (.func 2 12 true true .nil) .nil)
    (Or.inr (Or.inl rfl)) ?_
  exact .func (made := true) (valid := true) (body := .nil) (Or.inl rfl)

/-- **C123.** A signature that cannot be made (or is not valid) is reported: the result is then not valid. -/
theorem invalid_reported (stmts : Nodes) (name sig : Nat) (made valid : Bool) (body : Nodes)
    (hm : stmts.Mem (.func name sig made valid body)) (h : made = false ∨ valid = false) : (sigFromAst stmts [name]).2 = false := by
  cases hv : (sigFromAst stmts [name]).2 with
  | false => rfl
  | true =>
    exfalso
    unfold sigFromAst at hv
    rw [if_neg (by simp), join_valid] at hv
    have := (first_mem stmts _ [name] hm hv.1).1
    rw [named] at this
    simp only [List.head?_cons, List.length_singleton, if_true, Bool.and_eq_true] at this
    rcases h with h | h
    · rw [h] at this; simp at this
    · rw [h] at this; simp at this

example : sigFromAst (.cons (.func 2 10 true true .nil) (.cons (.func 2 11 false false .nil) .nil)) [2] = ([10], false) := by decide +kernel

/-- Disagreement: a branch whose condition does not mention `sys.` (`if TYPE_CHECKING`), or cannot be evaluated, is passed over, and so is
an `async` function; the signatures that remain are reported as valid although some are missing. -/
theorem skipped_valid :
    Declares (.cons (.func 2 10 true true .nil) (.cons (.ifs false true true (.cons (.func 2 11 true true .nil) .nil) .nil) .nil)) [2] 11 ∧
    sigFromAst (.cons (.func 2 10 true true .nil) (.cons (.ifs false true true (.cons (.func 2 11 true true .nil) .nil) .nil) .nil)) [2] = ([10], true) ∧
    Declares (.cons (.asyncFunc 2 10) .nil) [2] 10 ∧ sigFromAst (.cons (.asyncFunc 2 10) .nil) [2] = ([], true) := by
  refine ⟨?_, by decide +kernel, .asyncFunc (Or.inl rfl), by decide +kernel⟩
  refine .ifTrue (sys := false) (evals := true) (body := .cons (.func 2 11 true true .nil) .nil) (orelse := .nil) (Or.inr (Or.inl rfl)) ?_
  exact .func (made := true) (valid := true) (body := .nil) (Or.inl rfl)

end Verif.Stubs
