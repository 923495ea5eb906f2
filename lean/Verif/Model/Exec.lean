import Verif.Model.Env
import Verif.Model.Args
/-!
# Model of what the forked child does after its redirections: `Command._child` (`command.py:175-178`), the handler around
it (`command.py:224-233`), and python's `os.execvpe` (Lib/os.py:583-657 of CPython 3.11)

The kernel's `execve` and `chdir` are parameters: the error number for a path, or success. Redirections are
`Model/Redir` (they never raise); here they only matter in that writing the message to standard error may fail.

Simplifications: paths are text; names of exported variables are legal (no `=`, no NUL); an `OSError` has an error number.
-/
namespace Pieshell.Exec
open Pieshell.Path Pieshell.Envs

/-- An exception raised in the child: an `OSError`, another `Exception`, or something that is not an `Exception`
(KeyboardInterrupt, when CTRL-C is pressed before the program is executed). [command.py:229-231] -/
inductive Raised where
  | os (errno : Nat) | exception | interrupt
deriving DecidableEq, Repr

/-- An argument word: text, an object that is a path (`os.PathLike`), or another object.
[command.py:138-153] -/
inductive Word where
  | text (s : Str) | path (s : Str) | other
deriving DecidableEq, Repr

/-- The value of an exported variable: text, or another object. [environ.py:62-67] -/
inductive Value where
  | text (s : Str) | other
deriving DecidableEq, Repr

/-- What the child is given. [command.py:175-178] -/
structure Child where
  /-- the expanded arguments -/
  args : List Word
  /-- `env._exports` -/
  exports : Dict Str Value
  /-- `env._cwd` -/
  cwd : Str

/-- What becomes of it. [command.py:225-233] -/
inductive Fate where
  /-- program at this path, arguments, variables, working directory -/
  | runs (path : Str) (argv : List Str) (environ : Dict Str Str) (cwd : Str)
  /-- the child ends with this status -/
  | exits (status : Nat)
  /-- an exception leaves `_run` in the child, which then goes on running the program that called pieshell -/
  | escapes
deriving DecidableEq, Repr

/-- the kernel [chdir(2), execve(2); called at command.py:177-178] -/
structure Kernel where
  /-- error of `chdir` -/
  chdir : Str → Option Nat
  /-- error of `execve` on a path, in the given working directory -/
  execve : Str → Str → Option Nat

/-- Not in /repo: errno(3), used in CPython Lib/os.py `_execvpe`. -/
def ENOTDIR : Nat := 20

/-- `fsconvert`: text of an argument, no NUL inside [CPython Modules/posixmodule.c, for command.py:178] -/
def wordText : Word → Option Str
  | .text s => if s.contains '\x00' then none else some s
  | .path s => if s.contains '\x00' then none else some s
  | .other => none

/-- An environment variable's text (CPython Modules/posixmodule.c, for command.py:178). -/
def valueText : Value → Option Str
  | .text s => if s.contains '\x00' then none else some s
  | .other => none

/-- The words of an argument list (`Model/Args`) as objects: what is not text (a number, ...) stays what it is,
environ.py:82. -/
def wordOf : Cmd.Val → Word
  | .str s => .text s
  | .raw s => .text s
  | .bool _ => .other
  | .piped _ _ => .other
  | .obj _ => .other

/-- all of them, or none
[CPython Modules/posixmodule.c converts all words before execve(2), for command.py:178] -/
def allSome : List (Option α) → Option (List α)
  | [] => some []
  | none :: _ => none
  | some a :: l => match allSome l with
    | none => none
    | some as => some (a :: as)

/-- `argv` and `env` as `execve` converts them (posixmodule.c os_execve_impl): the first argument must not be empty, all
must be text. `none` is ValueError or TypeError. -/
def convert (c : Child) : Option (List Str × Dict Str Str) :=
  match allSome (c.args.map wordText) with
  | none => none
  | some [] => none
  | some ([] :: _) => none
  | some argv => match allSome (c.exports.map (fun p => (valueText p.2).map (fun v => (p.1, v)))) with
    | none => none
    | some environ => some (argv, environ)

/-- `os.path.dirname(file)` is not empty [CPython Lib/os.py `_execvpe`, for command.py:178] -/
def hasDir (file : Str) : Bool := file.contains '/'

/-- The loop of `_execvpe` over the directories: `saved` is the first error that is neither FileNotFoundError nor
NotADirectoryError, `last` the last one. The result is the path executed or the error raised.
[CPython Lib/os.py `_execvpe`, for command.py:178] -/
def search (execve : Str → Option Nat) (file : Str) : List Str → Option Nat → Option Nat → Except Raised Str
  | [], some e, _ => .error (.os e)
  | [], none, some e => .error (.os e)
  | [], none, none => .error .exception
  | dir :: dirs, saved, last =>
    match execve (join dir file) with
    | none => .ok (join dir file)
    | some e =>
      if e = ENOENT ∨ e = ENOTDIR then search execve file dirs saved (some e)
      else search execve file dirs (if saved = none then some e else saved) (some e)

/-- `os.get_exec_path(env)`; `defpath` is `/bin:/usr/bin`. `none`: `PATH` is not text.
[CPython Lib/os.py `get_exec_path`, for command.py:178] -/
def execPath (exports : Dict Str Value) : Option (List Str) :=
  match Dict.get? exports c!"PATH" with
  | none => some (splitColon c!"/bin:/usr/bin")
  | some (.text p) => some (splitColon p)
  | some .other => none

/-- `os.execvpe(args[0], args, exports)` in directory `cwd`. `args[0]` may raise IndexError; `os.path.dirname` raises
TypeError for objects that are not paths. [CPython Lib/os.py:583-657, called at command.py:178] -/
def execvpe (k : Kernel) (c : Child) : Except Raised Fate :=
  match c.args.head? with
  | some .other => .error .exception
  | none => .error .exception
  | some (.text file) => go file
  | some (.path file) => go file
where
  go (file : Str) : Except Raised Fate :=
    let exec (path : Str) : Option Nat := k.execve c.cwd path
    if hasDir file then
      match convert c with
      | none => .error .exception
      | some (argv, environ) => match exec file with
        | none => .ok (.runs file argv environ c.cwd)
        | some e => .error (.os e)
    else match execPath c.exports with
      | none => .error .exception
      | some dirs => match convert c with
        | none => .error .exception
        | some (argv, environ) => match search exec file dirs none none with
          | .error e => .error e
          | .ok path => .ok (.runs path argv environ c.cwd)

/-- `os._exit(code)` as seen by the parent [command.py:233] -/
def exitStatus (code : Int) : Nat := (code % 256).toNat

/-- The child after `redirects.perform()`, command.py:177-178 and 224-233. `interrupted`: CTRL-C arrives before the program
is executed; `message`: what writing the message to standard error raises, if anything. -/
def child (k : Kernel) (c : Child) (interrupted : Bool) (message : Option Raised) : Fate :=
  let body : Except Raised Fate :=
    if interrupted then .error .interrupt
    else match k.chdir c.cwd with
      | some e => .error (.os e)
      | none => execvpe k c
  match body with
  | .ok f => f
  | .error .interrupt => .escapes
  | .error r => match message with
    | some _ => .escapes
    | none => .exits (exitStatus (match r with
      | .os e => (e : Int)
      | _ => -1))

end Pieshell.Exec
