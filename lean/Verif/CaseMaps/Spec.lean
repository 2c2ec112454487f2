import Verif.CaseMaps.Model

/-! What Python's functions of characters and strings are. -/
namespace Verif.CaseMaps

/-- Which characters have a property (of `str.isalnum` and so on), for each function with a mask: `n` is the number of
characters there are. -/
def Means (u : Unicode) (n : Nat) (c : Nat) : Fn → Prop
  | .ascii => c < 128
  | .alnum => c < n ∧ (u.category c ∈ ["Lm", "Lt", "Lu", "Ll", "Lo"] ∨ (u.numeric c).isSome)
  | .alpha => c < n ∧ u.category c ∈ ["Lm", "Lt", "Lu", "Ll", "Lo"]
  | .decimal => c < n ∧ u.category c = "Nd"
  | .digit => c < n ∧ (u.digit c).isSome
  | .numeric => c < n ∧ (u.numeric c).isSome
  | .lower => c < n ∧ u.isLower c
  | .printable => c < 0x110000 ∧ (c = 32 ∨ ¬(c < n ∧ u.category c ∈ ["Cc", "Cf", "Cs", "Co", "Cn", "Zl", "Zp", "Zs"]))
  | .space => c < n ∧ (u.category c = "Zs" ∨ u.bidirectional c ∈ ["WS", "B", "S"])
  | .newline => c ∈ [10, 11, 12, 13, 28, 29, 30, 133, 8232, 8233]
  | .upper => c < n ∧ u.isUpper c
  | .title => c < n ∧ u.isTitle c
  | .word => c < n ∧ u.isWord c
  | .exists1 m => c < n ∧ m.fn u c ≠ [c]
  | .exists2 m => c < n ∧ m.fn u c ≠ [c] ∧ 2 ≤ (m.fn u c).length
  | .exists3 m => c < n ∧ m.fn u c ≠ [c] ∧ 3 ≤ (m.fn u c).length
  | .digitExists => c < n ∧ (u.digit c).isSome
  | .decimalExists => c < n ∧ (u.decimal c).isSome
  | .numericExists => c < n ∧ (u.numeric c).isSome
  | _ => False

/-- What is asked of the data of Python: the character 0 is not a letter, and no category is called "word". -/
structure Unicode.Ok (u : Unicode) : Prop where
  zero : u.isWord 0 = false
  word : ∀ c, u.category c ≠ "word"

/-- What is asked of the case mappings: they are one to three characters long, and `lower` at most two. -/
structure Unicode.Short (u : Unicode) : Prop where
  some : ∀ (m : Mapping) c, m.fn u c ≠ []
  three : ∀ (m : Mapping) c, (m.fn u c).length ≤ 3
  two : ∀ c, (u.lower c).length ≤ 2

/-- The values of the solver obey what is said of these functions. -/
def Interp.Obeys (i : Interp) (u : Unicode) (n : Nat) (fs : List Fn) : Prop :=
  ∀ f ∈ fs, ∃ k, constraintOf u n f = some k ∧ i.Sat k

/-- The functions of a mapping. -/
def Mapping.fns (m : Mapping) : List Fn := [.exists1 m, .first m, .exists2 m, .second m, .exists3 m, .third m]

/-- A symbolic text of these characters. -/
def text (s : List Nat) : Str := s.map Int.ofNat

/-- What else Python knows of characters: `Cased` and `Case_Ignorable`. -/
structure Casing where
  cased : Nat → Bool
  ignorable : Nat → Bool

/-- Capital sigma is written as final sigma: behind a cased character and not in front of one, if ignorable characters
are left out (`handle_capital_sigma` of CPython). -/
def Casing.final (k : Casing) (before after : List Nat) : Bool :=
  (before.reverse.find? fun c => !k.ignorable c).any k.cased && !(after.find? fun c => !k.ignorable c).any k.cased

/-- A character of a text in lower case. -/
def lowerAt (u : Unicode) (k : Casing) (before : List Nat) (c : Nat) (after : List Nat) : List Nat :=
  if c = 0x3A3 then (if k.final before after then [0x3C2] else [0x3C3]) else u.lower c

/-- `str.lower` of the text behind `before`. -/
def pyLower (u : Unicode) (k : Casing) : List Nat → List Nat → List Nat
  | _, [] => []
  | before, c :: s => lowerAt u k before c s ++ pyLower u k (before ++ [c]) s

/-- `str.swapcase` of the text behind `before`. -/
def pySwapcase (u : Unicode) (k : Casing) : List Nat → List Nat → List Nat
  | _, [] => []
  | before, c :: s =>
    (if u.isUpper c then lowerAt u k before c s else if u.isLower c then u.upper c else [c]) ++ pySwapcase u k (before ++ [c]) s

/-- `str.title` of the text behind `before`, whose last character is cased or not. -/
def pyTitle (u : Unicode) (k : Casing) : Bool → List Nat → List Nat → List Nat
  | _, _, [] => []
  | cased, before, c :: s =>
    (if cased then lowerAt u k before c s else u.title c) ++ pyTitle u k (k.cased c) (before ++ [c]) s

/-- `str.capitalize`. -/
def pyCapitalize (u : Unicode) (k : Casing) : List Nat → List Nat
  | [] => []
  | c :: s => u.title c ++ pyLower u k [c] s

/-- What is asked of the data of Python for cased characters: the cased ones are those for which `islower` or
`istitle` holds, other characters are in no case, no character is in both, and small sigma is what capital sigma is as a single character. -/
structure Unicode.Cases (u : Unicode) (k : Casing) : Prop where
  cased : ∀ c, k.cased c = (u.isTitle c || u.isLower c)
  uncased : ∀ c, k.cased c = false → u.title c = [c] ∧ u.lower c = [c]
  either : ∀ c, ¬(u.isUpper c = true ∧ u.isLower c = true)
  sigma : u.lower 0x3A3 = [0x3C3]

/-- There is a capital sigma in the text that is written as final sigma. -/
def HasFinal (k : Casing) (before s : List Nat) : Prop :=
  ∃ pre post, s = pre ++ 0x3A3 :: post ∧ k.final (before ++ pre) post = true

/-- `str.translate`: characters that the table does not have stay, those with `None` are left out. -/
def pyTranslate (table : Int → Lookup) : Str → Except Error Str
  | [] => .ok []
  | c :: s =>
    let here : Except Error Str :=
      match table c with
      | .keyError | .indexError | .lookupError => .ok [c]
      | .failure => .error .failure
      | .int n => if 0 ≤ n ∧ n < 0x110000 then .ok [n] else .error .valueError
      | .str t => .ok t
      | .none => .ok []
      | .other => .error .typeError
    match here with
    | .error e => .error e
    | .ok a =>
      match pyTranslate table s with
      | .error e => .error e
      | .ok b => .ok (a ++ b)

end Verif.CaseMaps
