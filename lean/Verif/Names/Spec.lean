import Verif.Names.Model

/-! What names mean. -/
namespace Verif.Names

/-- Following attributes, none of which is "<locals>". -/
inductive Attrs (w : World) : Nat → List String → Nat → Prop
  | nil {o} : Attrs w o [] o
  | cons {o p o' ps t} : p ≠ "<locals>" → w.attr o p = some o' → Attrs w o' ps t → Attrs w o (p :: ps) t

/-- The longest prefix that is a module: there is none for any longer one. -/
structure LongestModule (w : World) (parts pre : List String) (m : Nat) : Prop where
  isPrefix : pre <+: parts
  nonempty : pre ≠ []
  found : w.find pre = .found
  load : w.load pre = some m
  longer : ∀ q, q <+: parts → pre.length < q.length → w.find q = .absent

/-- A name stands for a module, or for what is reached from a module through attributes, the last of which is in the
namespace of a class or module. -/
inductive Names (w : World) (parts : List String) : Found → Prop
  | module {m} : LongestModule w parts parts m → Names w parts (.module m)
  | cls {pre m ps o p d t} : LongestModule w parts pre m → parts = pre ++ ps ++ [p] → Attrs w m ps o →
      w.dict o = some d → d p = some t → (w.isClass o ∨ w.isModule o) → w.isClass t = true → Names w parts (.cls t)
  | function {pre m ps o p d t} : LongestModule w parts pre m → parts = pre ++ ps ++ [p] → Attrs w m ps o →
      w.dict o = some d → d p = some t → (w.isClass o ∨ w.isModule o) → w.isClass t = false → Names w parts (.function o p t)

/-- The things that some names stand for, in order. -/
inductive AllNames (w : World) : List (List String) → List Found → Prop
  | nil : AllNames w [] []
  | cons {n x ns xs} : Names w n x → AllNames w ns xs → AllNames w (n :: ns) (x :: xs)

/-- The functions that are found in a module and the classes in it. -/
inductive Seen : List Member → Nat → Bool → Nat → Nat → Prop
  | fn {id own start len ms} : Seen (.fn id true own start len :: ms) id own start len
  | cls {members id own start len ms} : Seen members id own start len → Seen (.cls true members :: ms) id own start len
  | tail {m ms id own start len} : Seen ms id own start len → Seen (m :: ms) id own start len

/-- There is a file at this path below a directory. -/
inductive FileAt : List (String × Tree) → List String → String → Prop
  | here {es n} : (n, Tree.file) ∈ es → FileAt es [] n
  | under {es d ds path n} : (d, Tree.dir ds) ∈ es → FileAt ds path n → FileAt es (d :: path) n

/-- A file name that can be analyzed. -/
def Analyzable (lead : Char → Bool) (name : String) : Prop :=
  (∃ stem, name.toList = stem ++ ['.', 'p', 'y']) ∧ (∃ c cs, name.toList = c :: cs ∧ lead c = true) ∧ name ≠ "setup.py"

end Verif.Names
