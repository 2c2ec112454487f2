import Verif.Doc.Model
/-
Specification: what a docstring with condition sections looks like.
-/
namespace Verif.Doc

/-- The keyword of a section. -/
def Sect.text : Sect → Text
  | .post => "post".toList
  | .pre => "pre".toList
  | .raises => "raises".toList
  | .inv => "inv".toList

variable (sp word : Char → Bool)

/-- `core` is `t` without the whitespace at both ends. -/
def Trimmed (t core : Text) : Prop :=
  ∃ a b, t = a ++ core ++ b ∧ (∀ c ∈ a, sp c = true) ∧ (∀ c ∈ b, sp c = true) ∧
    (∀ c, core.head? = some c → sp c = false) ∧ (∀ c, core.getLast? = some c → sp c = false)

/-- A line of whitespace only. -/
def Blank (t : Text) : Prop := ∀ c ∈ t, sp c = true

/-- The line starts with exactly `i` whitespace characters. -/
def Indented (t : Text) (i : Nat) : Prop :=
  ∃ a r, t = a ++ r ∧ a.length = i ∧ (∀ c ∈ a, sp c = true) ∧ (∀ c, r.head? = some c → sp c = false)

/-- Something that is not empty and not a comment. -/
def Expr (t : Text) : Prop := t ≠ [] ∧ t.head? ≠ some '#'

/-- A header line: indentation, an optional colon, the keyword, optional brackets, one or two colons,
and possibly something on the same line. -/
def IsHeader (t : Text) (h : Header) : Prop :=
  ∃ ind lead br colons rest,
    t = ind ++ lead ++ h.sect.text ++ br ++ colons ++ rest ∧
    ind.length = h.indent ∧ (∀ c ∈ ind, sp c = true) ∧
    (lead = [] ∨ lead = [':']) ∧
    ((h.bracketed = none ∧ br = []) ∨
      ∃ b, h.bracketed = some b ∧ br = ['['] ++ b ++ [']'] ∧
        ∀ c ∈ b, word c = true ∨ sp c = true ∨ c = ',' ∨ c = '.') ∧
    ((colons = [':'] ∧ rest.head? ≠ some ':') ∨ colons = [':', ':']) ∧
    Trimmed sp rest h.inline ∧ '\n' ∉ h.inline

/-- What is read from a docstring. -/
structure Reading where
  found : List (Sect × Nat × Text) := []
  complaints : List (Nat × Complaint) := []
  mutableExpr : Option Text := none

/-- Whether a line belongs to a section whose header is indented by `i`. -/
def Inside (i : Nat) (t : Text) : Prop :=
  Blank sp t ∨ ∃ j core, Indented sp t j ∧ i < j ∧ Trimmed sp t core ∧ '\n' ∉ core

/-- The conditions in the lines of a section: its lines that are neither blank nor comments. -/
inductive Conditions (s : Sect) : List (Nat × Text) → List (Sect × Nat × Text) → Prop where
  | nil : Conditions s [] []
  | skip {n : Nat} {t core : Text} {ls : List (Nat × Text)} {cs : List (Sect × Nat × Text)} :
      Trimmed sp t core → ¬ Expr core → Conditions s ls cs → Conditions s ((n, t) :: ls) cs
  | take {n : Nat} {t core : Text} {ls : List (Nat × Text)} {cs : List (Sect × Nat × Text)} :
      Trimmed sp t core → Expr core → Conditions s ls cs → Conditions s ((n, t) :: ls) ((s, n, core) :: cs)

/-- What a header does to the arguments declared mutable: brackets are for `post`, and once only. -/
inductive Opens : Option Text → Header → Option Text → Prop where
  | without {m : Option Text} {h : Header} : h.bracketed = none → Opens m h m
  | brackets {h : Header} {b : Text} : h.bracketed = some b → h.sect = .post → Opens none h (some b)

/-- `Doc wanted m ls r`: the lines `ls`, read when the arguments declared mutable so far are `m`, give
the reading `r`. -/
inductive Doc (wanted : List Sect) : Option Text → List (Nat × Text) → Reading → Prop where
  | nil {m : Option Text} : Doc wanted m [] ⟨[], [], m⟩
  | blank {m : Option Text} {n : Nat} {t : Text} {ls : List (Nat × Text)} {r : Reading} :
      Blank sp t → Doc wanted m ls r → Doc wanted m ((n, t) :: ls) r
  /-- Ordinary text. -/
  | text {m : Option Text} {n : Nat} {t : Text} {ls : List (Nat × Text)} {r : Reading} :
      ¬ Blank sp t → (∀ h, IsHeader sp word t h → h.sect ∉ wanted) → Doc wanted m ls r →
      Doc wanted m ((n, t) :: ls) r
  /-- Brackets where they are not allowed: reported, and the header does not count. -/
  | misplaced {m : Option Text} {n : Nat} {t b : Text} {h : Header} {ls : List (Nat × Text)} {r : Reading} :
      ¬ Blank sp t → IsHeader sp word t h → h.sect ∈ wanted → h.bracketed = some b → h.sect ≠ .post →
      Doc wanted m ls r →
      Doc wanted m ((n, t) :: ls) { r with complaints := (n, .brackets h.sect) :: r.complaints }
  /-- A second list of mutable arguments: reported, and the header does not count. -/
  | repeated {m : Text} {n : Nat} {t b : Text} {h : Header} {ls : List (Nat × Text)} {r : Reading} :
      ¬ Blank sp t → IsHeader sp word t h → h.sect ∈ wanted → h.bracketed = some b → h.sect = .post →
      Doc wanted (some m) ls r →
      Doc wanted (some m) ((n, t) :: ls) { r with complaints := (n, .duplicate) :: r.complaints }
  /-- A condition on the header line. -/
  | inline {m m' : Option Text} {n : Nat} {t : Text} {h : Header} {ls : List (Nat × Text)} {r : Reading} :
      ¬ Blank sp t → IsHeader sp word t h → h.sect ∈ wanted → Opens m h m' → Expr h.inline →
      Doc wanted m' ls r →
      Doc wanted m ((n, t) :: ls) { r with found := (h.sect, n, h.inline) :: r.found }
  /-- A section: the header, the lines indented more (and blank ones), up to the first line that is
  not. -/
  | block {m m' : Option Text} {n : Nat} {t : Text} {h : Header} {inside rest : List (Nat × Text)}
      {cs : List (Sect × Nat × Text)} {r : Reading} :
      ¬ Blank sp t → IsHeader sp word t h → h.sect ∈ wanted → Opens m h m' → ¬ Expr h.inline →
      (∀ l ∈ inside, Inside sp h.indent l.2) → (∀ l, rest.head? = some l → ¬ Inside sp h.indent l.2) →
      Conditions sp h.sect inside cs → Doc wanted m' rest r →
      Doc wanted m ((n, t) :: (inside ++ rest)) { r with found := cs ++ r.found }

/-- Three quotation marks of one kind. -/
def Quotes (q : Text) : Prop := q = ['\'', '\'', '\''] ∨ q = ['"', '"', '"']

/-- Nothing but whitespace, or whitespace and a comment to the end of the line. -/
def OnlyComment (t : Text) : Prop :=
  Blank sp t ∨ ∃ a c e, t = a ++ ['#'] ++ c ++ e ∧ (∀ x ∈ a, sp x = true) ∧ '\n' ∉ c ∧ (e = [] ∨ e = ['\n'])

/-- Quotation marks that end the line follow `body`. -/
def EndsAfter (t body : Text) : Prop := ∃ q tail, t = body ++ q ++ tail ∧ Quotes q ∧ OnlyComment sp tail

/-- The texts with their line numbers, from `n` on. -/
def number (n : Nat) : List Text → List (Nat × Text)
  | [] => []
  | t :: ts => (n, t) :: number (n + 1) ts

/-- Sections written out, one condition to a line: headers indented by `shallow`, conditions by `deep`. -/
def write (shallow deep : Text) : Nat → List (Sect × List Text) → List (Nat × Text)
  | _, [] => []
  | n, (s, es) :: rest =>
      (n, shallow ++ s.text ++ [':', '\n']) ::
        ((number (n + 1) es).map (fun l => (l.1, deep ++ l.2 ++ ['\n'])) ++
          write shallow deep (n + 1 + es.length) rest)

/-- The conditions that were written, with their sections and lines. -/
def written : Nat → List (Sect × List Text) → List (Sect × Nat × Text)
  | _, [] => []
  | n, (s, es) :: rest =>
      (number (n + 1) es).map (fun l => (s, l.1, l.2)) ++ written (n + 1 + es.length) rest

/-- The line opens a docstring in triple quotes, raw or not. -/
def OpensDoc (t : Text) : Prop :=
  ∃ ind raw q x, t = ind ++ raw ++ q ++ x ∧ (∀ c ∈ ind, sp c = true) ∧ (raw = [] ∨ raw = ['r']) ∧ Quotes q

end Verif.Doc
