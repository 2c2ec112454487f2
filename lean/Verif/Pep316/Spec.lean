import Verif.Doc.Spec
import Verif.Pep316.Model
/-
Specification: what conditions, mutable arguments and exceptions a docstring declares.
-/
namespace Verif.Pep316

open Verif.Doc (Text Sect Complaint Trimmed)

variable {κ ε : Type}

/-- The condition written at `line` as `source`: decided by the compiled text, or reported. -/
def Written (compile : Text → Except ε κ) (kind : Kind) (line : Nat) (source : Text) (c : Cond κ ε) : Prop :=
  c.kind = kind ∧ c.line = line ∧ c.source = source ∧
  ((∃ k, compile source = .ok k ∧ c.evaluate = some (.code k) ∧ c.compileErr = none) ∨
    ∃ e, compile source = .error e ∧ c.evaluate = none ∧ c.compileErr = some (line, e))

/-- The conditions of section `s` among those found, in order: each as written. -/
inductive SectionOf (compile : Text → Except ε κ) (kind : Kind) (s : Sect) :
    List (Sect × Nat × Text) → List (Cond κ ε) → Prop where
  | nil : SectionOf compile kind s [] []
  | other {s' : Sect} {n : Nat} {t : Text} {fs : List (Sect × Nat × Text)} {cs : List (Cond κ ε)} :
      s' ≠ s → SectionOf compile kind s fs cs → SectionOf compile kind s ((s', n, t) :: fs) cs
  | this {n : Nat} {t : Text} {fs : List (Sect × Nat × Text)} {c : Cond κ ε} {cs : List (Cond κ ε)} :
      Written compile kind n t c → SectionOf compile kind s fs cs →
      SectionOf compile kind s ((s, n, t) :: fs) (c :: cs)

/-- `t` is the list of items, separated by `c`. -/
def Items (c : Char) (t : Text) (items : List Text) : Prop :=
  items ≠ [] ∧ (∀ i ∈ items, c ∉ i) ∧ t = [c].intercalate items

variable (sp word : Char → Bool)

/-- An identifier, as far as this parser is concerned: neither empty nor with dots, commas or blanks. -/
def Identifier (a : Text) : Prop := a ≠ [] ∧ ∀ c ∈ a, sp c = false ∧ c ≠ '.' ∧ c ≠ ','

/-- An entry of the brackets that is about the argument `a`: the argument or something in it. -/
def About (a e : Text) : Prop :=
  ∃ before between after, e = before ++ a ++ between ++ after ∧
    (∀ c ∈ before, sp c = true) ∧ (∀ c ∈ between, sp c = true) ∧ (after = [] ∨ after.head? = some '.')

/-- The argument `a` is declared mutable by the text in brackets. -/
def DeclaredMutable (b a : Text) : Prop :=
  ∃ items, Items ',' b items ∧ ∃ e ∈ items, About sp a e

/-- No blank before a dot. -/
def Tidy (b : Text) : Prop := ∀ x c y, b = x ++ [c, '.'] ++ y → sp c = false

/-- What a line declares to be raised, as texts of expressions: `:raises Name:` or `raises: …, …` (up to
a comment). -/
inductive Declares : Text → List Text → Prop where
  | sphinx {ws ws1 name rest : Text} :
      (∀ c ∈ ws, sp c = true) → ws1 ≠ [] → (∀ c ∈ ws1, sp c = true) →
      name ≠ [] → (∀ c ∈ name, word c = true ∨ c = '.') →
      Declares (ws ++ (":raises".toList ++ (ws1 ++ (name ++ ':' :: rest)))) [name]
  | pep {ws lead ws1 body tail : Text} {items : List Text} :
      (∀ c ∈ ws, sp c = true) → (lead = [] ∨ lead = [':']) → (∀ c ∈ ws1, sp c = true) →
      body ≠ [] → (∀ c ∈ body, c ≠ '\r' ∧ c ≠ '#') →
      (tail = [] ∨ tail.head? = some '\r' ∨ tail.head? = some '#') → Items ',' body items →
      Declares (ws ++ (lead ++ ("raises".toList ++ (ws1 ++ ':' :: (body ++ tail))))) items

/-- The line is nothing but the word `raises`, with or without a colon before it. -/
def Bare (l : Text) : Prop := Trimmed sp l "raises".toList ∨ Trimmed sp l ":raises".toList

end Verif.Pep316
