import Verif.SourceContext.Spec
/-
`format_src_context` (crosshair/main.py 570-582), without the heading and the colors.
-/
namespace Verif.SourceContext

/-- Python's `linecache.getline`: the line with its newline, or the empty string. -/
def getline (file : List String) (i : Nat) : String :=
  if i = 0 then "" else (file[i - 1]?).getD ""

/-- The loop (main.py 574-580). -/
def loop (file : List String) (line : Nat) : List Nat → List Shown
  | [] => []
  | i :: rest =>
    if getline file i = "" then loop file line rest
    else ⟨getline file i, decide (line = i)⟩ :: loop file line rest

/-- `format_src_context` (main.py 570-582); `range(max(1, lineno - amount), lineno + amount + 1)`. -/
def context (file : List String) (line : Nat) : List Shown :=
  loop file line (List.range' (max 1 (line - 3)) (line + 3 + 1 - max 1 (line - 3)))

end Verif.SourceContext
