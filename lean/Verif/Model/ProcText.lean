import Verif.Model.PyRepr
/-!
`cmdline2pieshell` (pieshell/ps.py:9-31): the text shown for a process when browsing (`ps.INIT`, `ps.CURRENT`, ...).

Parameters: `slug`, `slugify.slugify(item, separator="_")`; `printable`, see `Model/PyRepr`.
-/
namespace Pieshell.Cmd

/-- `item[2:].split("=", 1)` if `item` begins with `--` and contains a `=` (ps.py:19-20). -/
def keyVal : Str → Option (Str × Str)
  | '-' :: '-' :: s => if s.contains '=' then some (s.takeWhile (· ≠ '='), (s.dropWhile (· ≠ '=')).tail) else none
  | _ => none

/-- `item.startswith("-") and not item.startswith("--")` (ps.py:22). -/
def isShort : Str → Bool
  | '-' :: '-' :: _ => false
  | '-' :: _ => true
  | _ => false

/-- The locals of the loop. [ps.py:10-13] -/
structure Shown where
  param : Bool := false
  names : List Str := []
  args : List Str := []
  kwargs : Dict Str Str := []

/-- The body of the loop (ps.py:15-25). -/
def showWord (slug : Str → Str) (printable : Char → Bool) (t : Shown) (item : Str) : Shown :=
  let t := if slug item ≠ item then { t with param := true } else t
  if t.param = false then { t with names := t.names ++ [item] }
  else match keyVal item with
    | some (k, v) => { t with kwargs := t.kwargs.set k v }
    | none => if isShort item then { t with args := t.args ++ [item] } else { t with args := t.args ++ [reprStr printable item] }

/-- `cmdline2pieshell` [ps.py:9-31] -/
def cmdline2pieshell (slug : Str → Str) (printable : Char → Bool) (cmdline : List Str) : Str :=
  let t := cmdline.foldl (showWord slug printable) {}
  let names := if t.names = [] then [c!"_"] else t.names
  if t.args ≠ [] ∨ t.kwargs ≠ [] then
    joinWith c!"." names ++ c!"(" ++ joinWith c!", " (t.args ++ t.kwargs.map (fun x => x.1 ++ c!"=" ++ x.2)) ++ c!")"
  else joinWith c!"." names

end Pieshell.Cmd
