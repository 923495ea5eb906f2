import Verif.Model.Env
/-!
# Model of the completion of `cd` (pieshell/pipeline/builtins.py:34-43)

`dir(cd)`, `dir(cd.a.b)`, ... as used by the completion of the shell.  Simplification: python sorts the names that `__dir__` returns (and merges nothing else in); the model keeps the order
of `__dir__`, and all statements are about membership.
-/
namespace Pieshell.Envs
open Pieshell.Path Pieshell.Expand

/-- `os.listdir` (`none`: it raises) and `os.path.isdir` [builtins.py:40-41] -/
structure Folders where
  listdir : Str → Option (List Str)
  isdir : Str → Bool

/-- `CdBuiltin.__dir__`, builtins.py:34-43; `words` are those after `cd`. -/
def cdDir (cwd procCwd : Str) (homes : Homes) (fs : Folders) (words : List Str) : List Str :=
  let pth := match words with
    | [] => c!"."
    | _ :: _ => expandPath cwd procCwd homes (cdPath words)
  match fs.listdir pth with
  | none => [c!"PARENT", c!"ROOT"]
  | some names => names.filter (fun n => fs.isdir (join pth n)) ++ [c!"PARENT", c!"ROOT"]

end Pieshell.Envs
