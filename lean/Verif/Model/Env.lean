import Verif.Model.Expand
/-!
# Model of `Environment` objects (`environ.py:29-176`)

The world holds everything environments read or change: the process's working directory, `os.environ`, python dicts
used as exports (a heap, because they can be shared), the environment objects, and the file system. Simplifications:
exported values are strings; `os.getcwd()` does not fail; attributes not concerned with directories, exports and the
completion cache (`_redirects`, `_bashfunctions`, `_scope`, `running_pipelines`) are left out.
-/
namespace Pieshell.Envs
open Pieshell.Path Pieshell.Expand

/-- What the operating system answers about paths.
[os.path.exists (environ.py:97), os.chdir (101), os.listdir (173)] -/
structure Disk where
  /-- `os.path.exists` -/
  «exists» : Str → Bool
  /-- errno with which `os.chdir` fails -/
  chdirErr : Str → Option Nat
  /-- what `os.getcwd()` returns after `os.chdir(p)` -/
  real : Str → Str
  /-- `os.listdir`; `none`: raises `FileNotFoundError` -/
  listdir : Str → Option (List Str)

/-- An `Environment` object: `_cwd`, `_exports_value` (a reference into the heap of dicts), `_interactive`, `_dir_cache`.
[environ.py:44-61] -/
structure EnvObj where
  cwd : Str
  exports : Option Nat
  interactive : Bool
  dirCache : Option (List Str)

/-- The python process: its working directory, `os.environ` (environ.py:64), the environments and their dicts (environ.py:118). -/
structure World where
  procCwd : Str
  /-- `os.environ` -/
  environ : Dict Str Str
  dicts : List (Dict Str Str)
  envs : List EnvObj
  disk : Disk
  /-- home directory of the current user in the password database -/
  pwHome : Option Str
  users : Str → Option Str
  /-- names in `BuiltinRegistry.builtins` -/
  builtins : List Str
  /-- `list.sort` on strings -/
  sort : List Str → List Str

/-- what `os.path.expanduser` looks at: `$HOME` of the *process* first [environ.py:74] -/
def World.homes (w : World) : Homes :=
  { own := match Dict.get? w.environ c!"HOME" with | some h => some h | none => w.pwHome, named := w.users }

/-- `Environment._exports` (getter), environ.py:62-64: an empty dict is falsy, so `os.environ` is used. -/
def World.exportsOf (w : World) (e : EnvObj) : Dict Str Str :=
  match e.exports with
  | none => w.environ
  | some r => match w.dicts[r]? with
    | none => w.environ
    | some [] => w.environ
    | some d => d

/-- `Environment._cd`, environ.py:95-102, on environment number `i`. -/
def World.cd (w : World) (i : Nat) (path : Str) : World × Except Exn Unit :=
  match w.envs[i]? with
  | none => (w, .error .other)
  | some e =>
    let p := expandPath e.cwd w.procCwd w.homes path
    if !w.disk.exists p then (w, .error (.osError 0))
    else
      let w1 := { w with envs := w.envs.set i { e with cwd := p } }
      if e.interactive then
        match w.disk.chdirErr p with
        | some n => (w1, .error (.osError n))
        | none => ({ w1 with procCwd := w.disk.real p }, .ok ())
      else (w1, .ok ())

/-- drop the object that a failing constructor was building [environ.py:52-53] -/
def dropLast (n : Nat) (r : World × Except Exn Unit) : World × Except Exn Nat :=
  match r.2 with
  | .error e => ({ r.1 with envs := r.1.envs.take n }, .error e)
  | .ok _ => (r.1, .ok n)

/-- `Environment(cwd, exports, interactive)`, environ.py:44-61; the result is the number of the new environment. -/
def World.construct (w : World) (cwd : Option Str) (exports : Option Nat) (interactive : Bool) : World × Except Exn Nat :=
  let n := w.envs.length
  let w1 := { w with envs := w.envs ++ [{ cwd := w.procCwd, exports := exports, interactive := interactive, dirCache := none }] }
  match cwd with
  | none => (w1, .ok n)
  | some c => dropLast n (w1.cd n c)

/-- the last lines of `__call__`: change the directory of the new environment [environ.py:124-126] -/
def thenCd (cwd : Option Str) (r : World × Except Exn Nat) : World × Except Exn Nat :=
  match r.2 with
  | .error x => (r.1, .error x)
  | .ok n => match cwd with
    | none => (r.1, .ok n)
    | some c => dropLast n (r.1.cd n c)

/-- `Environment.__call__`, environ.py:103-126. `exports = none`: not given; `some d`: a new dict with content `d`. -/
def World.call (w : World) (i : Nat) (cwd : Option Str) (exports : Option (Dict Str Str)) (interactive : Option Bool) : World × Except Exn Nat :=
  match w.envs[i]? with
  | none => (w, .error .other)
  | some e =>
    thenCd cwd ({ w with dicts := w.dicts ++ [exports.getD (w.exportsOf e)] }.construct (some e.cwd) (some w.dicts.length)
      (interactive.getD e.interactive))

/-- `env._exports[k] = v`: changes the dict that the getter returns. [environ.py:62-64] -/
def World.setVar (w : World) (i : Nat) (k v : Str) : World :=
  match w.envs[i]? with
  | none => w
  | some e => match e.exports with
    | none => { w with environ := Dict.set w.environ k v }
    | some r => match w.dicts[r]? with
      | none => { w with environ := Dict.set w.environ k v }
      | some [] => { w with environ := Dict.set w.environ k v }
      | some d => { w with dicts := w.dicts.set r (Dict.set d k v) }

/-- `del env._exports[k]` [environ.py:62-64] -/
def World.delVar (w : World) (i : Nat) (k : Str) : World :=
  match w.envs[i]? with
  | none => w
  | some e => match e.exports with
    | none => { w with environ := Dict.erase w.environ k }
    | some r => match w.dicts[r]? with
      | none => { w with environ := Dict.erase w.environ k }
      | some [] => { w with environ := Dict.erase w.environ k }
      | some d => { w with dicts := w.dicts.set r (Dict.erase d k) }

/-- The environment variables handed to `execvpe` for a command of environment `i`, command.py:178. -/
def World.programEnviron (w : World) (i : Nat) : Option (Dict Str Str) := (w.envs[i]?).map w.exportsOf

/-- `s.split(":")` [environ.py:169] -/
def splitColon : Str → List Str
  | [] => [[]]
  | c :: s => if c = ':' then [] :: splitColon s
    else match splitColon s with
      | [] => [[c]]
      | w :: ws => (c :: w) :: ws

/-- the loop of `__dir__` over the directories in `PATH`: what has been collected, and whether an error was raised
[environ.py:170-173] -/
def listDirs (disk : Disk) (cwd procCwd : Str) : List Str → List Str × Bool
  | [] => ([], true)
  | p :: ps => match disk.listdir (abspath procCwd (if !isAbs p then join cwd p else p)) with
    | none => ([], false)
    | some names => (names ++ (listDirs disk cwd procCwd ps).1, (listDirs disk cwd procCwd ps).2)

/-- `Environment.__dir__`, environ.py:165-176. The cache is set to `[]` before `PATH` is looked up, and filled in place. -/
def World.dir (w : World) (i : Nat) : World × Except Exn (List Str) :=
  match w.envs[i]? with
  | none => (w, .error .other)
  | some e => match e.dirCache with
    | some l => (w, .ok l)
    | none => match Dict.get? (w.exportsOf e) c!"PATH" with
      | none => ({ w with envs := w.envs.set i { e with dirCache := some [] } }, .error .keyError)
      | some path =>
        let r := listDirs w.disk e.cwd w.procCwd (splitColon path)
        if r.2 then
          let l := w.sort (r.1 ++ w.builtins)
          ({ w with envs := w.envs.set i { e with dirCache := some l } }, .ok l)
        else ({ w with envs := w.envs.set i { e with dirCache := some r.1 } }, .error .fileNotFound)

/-- `Environment._clear_dir_cache`, environ.py:163-164. -/
def World.clearDirCache (w : World) (i : Nat) : World :=
  match w.envs[i]? with
  | none => w
  | some e => { w with envs := w.envs.set i { e with dirCache := none } }

/-- `ClearDirCacheBuiltin._run`, builtins.py:87-89: `self.env` is not the environment (that is `self._env`) but, by
`BaseCommand.__getattr__`, a command with one more word, and so are its attribute `_clear_dir_cache` and the result of
calling it (see `C35_builtin_builds_a_command`); nothing is executed. -/
def World.clearDirCacheBuiltin (w : World) (_i : Nat) : World := w

/-- `CdBuiltin._replacements` [builtins.py:21, 27] -/
def cdReplace (arg : Str) : Str := if arg = c!"PARENT" then c!".." else if arg = c!"ROOT" then c!"/" else arg

/-- `CdBuiltin._path`, builtins.py:23-28: the words after `cd`, joined. -/
def cdPath : List Str → Str
  | [] => c!"~"
  | a :: rest => (rest.map cdReplace).foldl join (cdReplace a)

/-- What can happen to environments. [environ.py:44, 62-70, 95, 103, 163, 165; builtins.py:30-32, 87-89] -/
inductive Op where
  | new (cwd : Option Str) (interactive : Bool)
  | call (i : Nat) (cwd : Option Str) (exports : Option (Dict Str Str)) (interactive : Option Bool)
  | cd (i : Nat) (path : Str)
  | cdBuiltin (i : Nat) (words : List Str)
  | setVar (i : Nat) (k v : Str)
  | delVar (i : Nat) (k : Str)
  | dir (i : Nat)
  | clear (i : Nat)
  | clearBuiltin (i : Nat)
  | disk (d : Disk)

/-- The world after an operation (whether or not it raises). [environ.py:44-126, 163-176] -/
def step (w : World) : Op → World
  | .new cwd b => (w.construct cwd none b).1
  | .call i cwd ex b => (w.call i cwd ex b).1
  | .cd i p => (w.cd i p).1
  | .cdBuiltin i ws => (w.cd i (cdPath ws)).1
  | .setVar i k v => w.setVar i k v
  | .delVar i k => w.delVar i k
  | .dir i => (w.dir i).1
  | .clear i => w.clearDirCache i
  | .clearBuiltin i => w.clearDirCacheBuiltin i
  | .disk d => { w with disk := d }

/-- A history of such operations (environ.py:44-126, 163-176). -/
def run (w : World) (ops : List Op) : World := ops.foldl step w

end Pieshell.Envs
