import Verif.Model.Base
/-!
# Model of the parts of python's `posixpath` and `glob` that pieshell uses

`posixpath.join`, `split`, `expanduser`, `normpath`, `abspath` and `glob.glob` (not recursive) of CPython 3.11,
lib/python3.11/posixpath.py and glob.py, called from environ.py:71-94, 165-176 and builtins.py:21-27. Simplifications:
text paths only; the file system does not change during one call; `fnmatch` on a single name is a parameter.
-/
namespace Pieshell.Path

/-- `s.startswith(p)` [Used at environ.py:72, 92, 171] -/
def startsWith (p s : Str) : Bool := p.isPrefixOf s

/-- `os.path.isabs(s)` / `s.startswith("/")` [Used at environ.py:72, 171] -/
def isAbs (s : Str) : Bool := s.head? == some '/'

/-- `posixpath.join(a, b)` [CPython Lib/posixpath.py, for environ.py:73, 172, builtins.py:27] -/
def join (a b : Str) : Str :=
  if isAbs b then b
  else if a = [] ∨ a.getLast? = some '/' then a ++ b
  else a ++ '/' :: b

/-- `s.split("/")` [CPython Lib/posixpath.py `normpath`, for environ.py:75] -/
def splitSlash : Str → List Str
  | [] => [[]]
  | c :: s => if c = '/' then [] :: splitSlash s
    else match splitSlash s with
      | [] => [[c]]
      | w :: ws => (c :: w) :: ws

/-- `"/".join(l)` [CPython Lib/posixpath.py `normpath`, for environ.py:75] -/
def joinSlash : List Str → Str
  | [] => []
  | [w] => w
  | w :: ws => w ++ '/' :: joinSlash ws

/-- the loop of `normpath`; `acc` is `new_comps` reversed
[CPython Lib/posixpath.py `normpath`, for environ.py:75] -/
def normComps (slashes : Nat) : List Str → List Str → List Str
  | acc, [] => acc.reverse
  | acc, comp :: rest =>
    if comp = [] ∨ comp = c!"." then normComps slashes acc rest
    else if comp ≠ c!".." ∨ (slashes = 0 ∧ acc = []) ∨ acc.head? = some c!".." then normComps slashes (comp :: acc) rest
    else normComps slashes acc.tail rest

/-- number of leading slashes kept by `normpath` [CPython Lib/posixpath.py `normpath`, for environ.py:75] -/
def initialSlashes : Str → Nat
  | '/' :: '/' :: '/' :: _ => 1
  | '/' :: '/' :: _ => 2
  | '/' :: _ => 1
  | _ => 0

/-- `posixpath.normpath` [CPython Lib/posixpath.py, for environ.py:75] -/
def normpath (p : Str) : Str :=
  if p = [] then c!"."
  else
    let q := List.replicate (initialSlashes p) '/' ++ joinSlash (normComps (initialSlashes p) [] (splitSlash p))
    if q = [] then c!"." else q

/-- `posixpath.abspath`; `procCwd` is `os.getcwd()` [CPython Lib/posixpath.py, for environ.py:75, 173] -/
def abspath (procCwd p : Str) : Str := normpath (if isAbs p then p else join procCwd p)

/-- `s.rstrip("/")` [CPython Lib/posixpath.py `expanduser`, `split`, for environ.py:74] -/
def rstripSlash (s : Str) : Str := (s.reverse.dropWhile (· = '/')).reverse

/-- home directories: of the current user (`$HOME`, or the password database), and of named users
[CPython Lib/posixpath.py `expanduser`, for environ.py:74, 85] -/
structure Homes where
  own : Option Str
  named : Str → Option Str

/-- `posixpath.expanduser` [CPython Lib/posixpath.py, for environ.py:74, 85] -/
def expanduser (homes : Homes) (p : Str) : Str :=
  match p with
  | '~' :: rest =>
    let name := rest.takeWhile (· ≠ '/')
    let tail := rest.dropWhile (· ≠ '/')
    match (if name = [] then homes.own else homes.named name) with
    | none => p
    | some h => let r := rstripSlash h ++ tail; if r = [] then c!"/" else r
  | _ => p

/-- `posixpath.split` [CPython Lib/posixpath.py, for glob at environ.py:88] -/
def split (p : Str) : Str × Str :=
  let head := (p.reverse.dropWhile (· ≠ '/')).reverse
  let tail := (p.reverse.takeWhile (· ≠ '/')).reverse
  (if head.all (· = '/') then head else rstripSlash head, tail)

/-! ## glob -/

/-- `glob.has_magic` [CPython Lib/glob.py, for environ.py:88] -/
def hasMagic (s : Str) : Bool := s.any (fun c => c = '*' || c = '?' || c = '[')

/-- What the operating system answers.
[os.scandir, os.lstat, as used by CPython Lib/glob.py for environ.py:88] -/
structure Fs where
  /-- `os.scandir(d)`: names with `is_dir()`; empty on errors -/
  listdir : Str → List (Str × Bool)
  /-- `os.path.lexists` -/
  lexists : Str → Bool
  /-- `os.path.isdir` -/
  isdir : Str → Bool

/-- `glob._ishidden` (of a non-empty name) [CPython Lib/glob.py, for environ.py:88] -/
def hidden (s : Str) : Bool := s.head? == some '.'

/-- `glob._join` (with an empty `root_dir` it returns its second argument)
[CPython Lib/glob.py, for environ.py:88] -/
def globJoin (a b : Str) : Str := if a = [] then b else if b = [] then a else join a b

/-- `glob._glob1`; `fnm name pattern` is `fnmatch` [CPython Lib/glob.py, for environ.py:88] -/
def glob1 (fnm : Str → Str → Bool) (fs : Fs) (dirname pattern : Str) (dironly : Bool) : List Str :=
  let names := ((fs.listdir (if dirname = [] then c!"." else dirname)).filter (fun e => !dironly || e.2)).map (·.1)
  let names := if hidden pattern then names else names.filter (fun x => !hidden x)
  names.filter (fun x => fnm x pattern)

/-- `glob._glob0` [CPython Lib/glob.py, for environ.py:88] -/
def glob0 (fs : Fs) (dirname basename : Str) : List Str :=
  if basename ≠ [] then (if fs.lexists (globJoin dirname basename) then [basename] else [])
  else (if fs.isdir dirname then [basename] else [])

/-- `glob._iglob` without `recursive`, `include_hidden`, `root_dir`, `dir_fd`; the fuel bounds the depth.
[CPython Lib/glob.py, for environ.py:88] -/
def iglob (fnm : Str → Str → Bool) (fs : Fs) : Nat → Str → Bool → List Str
  | 0, _, _ => []
  | f + 1, pathname, dironly =>
    let d := (split pathname).1
    let b := (split pathname).2
    if !hasMagic pathname then
      if b ≠ [] then (if fs.lexists pathname then [pathname] else [])
      else (if fs.isdir d then [pathname] else [])
    else if d = [] then glob1 fnm fs [] b dironly
    else
      let dirs := if d ≠ pathname ∧ hasMagic d then iglob fnm fs f d true else [d]
      dirs.flatMap (fun dir =>
        (if hasMagic b then glob1 fnm fs dir b dironly else glob0 fs dir b).map (fun name => join dir name))

/-- `glob.glob(pathname)` [CPython Lib/glob.py, for environ.py:88] -/
def glob (fnm : Str → Str → Bool) (fs : Fs) (pathname : Str) : List Str := iglob fnm fs (pathname.length + 1) pathname false

end Pieshell.Path
