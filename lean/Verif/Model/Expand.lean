import Verif.Model.Path
/-!
# Model of argument expansion (`environ.py:71-94`)

`%` formatting follows CPython's `PyUnicode_Format` with a mapping on the right. Only the forms `%%`, `%(name)s` and
`%s` are modelled; any other conversion is reported as `Exn.other` (it may raise or format numbers in python).
-/
namespace Pieshell.Expand
open Pieshell.Path

/-- Read a mapping key up to the matching parenthesis; `depth` counts open ones.
[CPython Objects/unicodeobject.c, for environ.py:84] -/
def readKey : Nat → Str → Option (Str × Str)
  | _, [] => none
  | depth, c :: s =>
    if c = ')' then
      match depth with
      | 0 => some ([], s)
      | d + 1 => match readKey d s with
        | none => none
        | some (k, r) => some (c :: k, r)
    else
      match readKey (if c = '(' then depth + 1 else depth) s with
      | none => none
      | some (k, r) => some (c :: k, r)

/-- put text in front of a result [CPython Objects/unicodeobject.c, for environ.py:84] -/
def prepend (t : Str) : Except Exn Str → Except Exn Str
  | .ok s => .ok (t ++ s)
  | .error e => .error e

/-- `arg % scope`, environ.py:84: `lookup` is `str(scope[key])` (which may raise), `whole` is `str(scope)`, used by the
first conversion without a key (`used` says that it has been consumed). The fuel bounds the number of pieces. -/
def pctFormat (lookup : Str → Except Exn Str) (whole : Str) : Nat → Bool → Str → Except Exn Str
  | 0, _, _ => .error .other
  | _ + 1, _, [] => .ok []
  | f + 1, used, c :: s =>
    if c ≠ '%' then prepend [c] (pctFormat lookup whole f used s)
    else match s with
      | [] => .error .valueError
      | '%' :: s => prepend ['%'] (pctFormat lookup whole f used s)
      | 's' :: s => if used then .error .typeError else prepend whole (pctFormat lookup whole f true s)
      | '(' :: s => match readKey 0 s with
        | none => .error .valueError
        | some (key, r) => match lookup key with
          | .error e => .error e
          | .ok v => match r with
            | [] => .error .valueError
            | 's' :: r => prepend v (pctFormat lookup whole f used r)
            | '%' :: r => prepend ['%'] (pctFormat lookup whole f used r)
            | _ => .error .other
      | _ => .error .other

/-- Everything expansion depends on. [environ.py:83-92] -/
structure Ctx where
  /-- `env._cwd` -/
  cwd : Str
  /-- `os.getcwd()` -/
  procCwd : Str
  /-- `str((env._scope or env._exports)[name])` -/
  lookup : Str → Except Exn Str
  /-- `str(env._scope or env._exports)` -/
  scopeText : Str
  homes : Homes
  fs : Fs
  /-- `fnmatch.fnmatch(name, pattern)` -/
  fnm : Str → Str → Bool

/-- `Environment._expand_path`, environ.py:71-76. -/
def expandPath (cwd procCwd : Str) (homes : Homes) (pth : Str) : Str :=
  let pth := if !(pth.head? == some '/') && !(pth.head? == some '~') then join cwd pth else pth
  abspath procCwd (expanduser homes pth)

/-- the renaming loop, environ.py:91-93 -/
def relName (cwd r : Str) : Str :=
  if startsWith (cwd ++ c!"/") r then c!"./" ++ r.drop (cwd ++ c!"/").length else r

/-- `Environment._expand_argument` on a `str`, environ.py:77-94. -/
def expandArgument (x : Ctx) (arg : Str) : Except Exn (List Str) :=
  match pctFormat x.lookup x.scopeText (arg.length + 1) false arg with
  | .error e => .error e
  | .ok arg =>
    let arg := expanduser x.homes arg
    if !arg.contains '*' && !arg.contains '?' && !arg.contains '[' then .ok [arg]
    else
      let res := glob x.fnm x.fs (expandPath x.cwd x.procCwd x.homes arg)
      if res = [] then .ok [arg]
      else if x.cwd ≠ c!"/" then .ok (res.map (relName x.cwd))
      else .ok res

end Pieshell.Expand
