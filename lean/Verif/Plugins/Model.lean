import Verif.Plugins.Spec
/-
The option `--extra_plugin`: `exec(Path(plugin).read_text())` in `unwalled_main` (crosshair/main.py 869-923, the loop over `args.extra_plugin`).
-/
namespace Verif.Plugins

/-- `exec` in a function: names are set in the locals, and looked up in the locals, the globals (of crosshair/main.py) and the built-in names; functions look names up in the globals and the built-in names only. (Plugins with `global` statements are left out.) -/
def exec (builtins globals : Scope) : List Stmt → Scope → List (Option Nat)
  | [], _ => []
  | .assign x ts :: p, locals => match total (fun y => (locals y).or ((globals y).or (builtins y))) ts with
    | some n => exec builtins globals p (locals.set x (.int n))
    | none => [none]
  | .define f b :: p, locals => exec builtins globals p (locals.set f (.fn b))
  | .call f :: p, locals => match (locals f).or ((globals f).or (builtins f)) with
    | some (.fn b) => match total (fun y => (globals y).or (builtins y)) b with
      | some n => some n :: exec builtins globals p locals
      | none => [none]
    | _ => [none]

end Verif.Plugins
