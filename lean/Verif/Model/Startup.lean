import Verif.Model.Scope
import Verif.Model.Path
/-!
# Model of starting the shell: names (`shell.py:66-71`, `environ.py:277-294`), the configuration file
(`environ.py:252-274, 295-304`), script files (`shell.py:78-80`) and the path in the prompt
(`resources/default_config.pysh:32-36`)

Simplifications: the configuration is a regular file or missing; files are text that can be decoded; `SystemExit` carries
a number; what the compiler says about a text is a parameter.
-/
namespace Pieshell.Shell
open Shell

/-! ## Names -/

/-- `scope[name] = value` for a list of names, until one raises an exception
[environ.py:279-294, shell.py:67-68] -/
def setAll (k : Nat) : List (Str × V) → Shell → Shell × Except Exn Unit
  | [], σ => (σ, .ok ())
  | (n, v) :: l, σ => match (σ.setItem k n v).2 with
    | .error e => ((σ.setItem k n v).1, .error e)
    | .ok _ => setAll k l (σ.setItem k n v).1

/-- shell.py:67-68: the arguments and options of the shell -/
def argNames : List (Str × V) := [(c!"args", .obj 0), (c!"kws", .obj 1)]

/-- environ.py:279-291 -/
def startupNames : List (Str × V) :=
  [(c!"INIT", .obj 2), (c!"CURRENT", .obj 3), (c!"USERS", .obj 4), (c!"PstreeProcess", .obj 5), (c!"R", .obj 6),
   (c!"Redirect", .obj 7), (c!"TMP", .obj 8), (c!"STRING", .obj 9), (c!"PIPE", .obj 10), (c!"PipelineError", .obj 11),
   (c!"PipelineInterrupted", .obj 12), (c!"PipelineSuspended", .obj 13), (c!"pieshell", .obj 14)]

/-- `EnvScope.execute_startup`, environ.py:277-294, up to the configuration file -/
def startupScope (k : Nat) (σ : Shell) : Shell × Except Exn Unit :=
  match σ.getItem k c!"env" with
  | .error e => (σ, .error e)
  | .ok env => match (setAll k startupNames σ).2 with
    | .error e => ((setAll k startupNames σ).1, .error e)
    | .ok _ => (setAll k startupNames σ).1.setItem k c!"env" env

/-- `main`, shell.py:66-71 -/
def mainScope (startup : Bool) (k : Nat) (σ : Shell) : Shell × Except Exn Unit :=
  match (setAll k argNames σ).2 with
  | .error e => ((setAll k argNames σ).1, .error e)
  | .ok _ => if startup then startupScope k (setAll k argNames σ).1 else ((setAll k argNames σ).1, .ok ())

end Pieshell.Shell

namespace Pieshell.Startup
open Pieshell.Path

/-! ## The configuration file -/

/-- Why a system call failed. [PermissionError is caught at environ.py:300, no other] -/
inductive Err where
  | permission | other
deriving DecidableEq, Repr

/-- `~/.config` exists; the contents of `~/.config/pieshell` [environ.py:295-304] -/
structure Disk where
  dir : Bool
  conf : Option Str
deriving DecidableEq, Repr

/-- What happens to the system calls of one start. [environ.py:266-274, 295-304] -/
structure Weather where
  makedirs : Option Err
  create : Option Err
  /-- error of writing, and how much was written before -/
  write : Option (Err × Nat)
  /-- error of opening the configuration for reading -/
  read : Option Err

/-- How a start goes on. [environ.py:295-304] -/
inductive Boot where
  /-- this text was given to the interpreter -/
  | executed (text : Str)
  /-- nothing to execute -/
  | nothing
  /-- an exception leaves `main` -/
  | raised
deriving DecidableEq, Repr

/-- `EnvScope._copy_resource`, environ.py:266-274: the states of the disk, in order, and the error if any. -/
def copyResource (default : Str) (w : Weather) (d : Disk) : List Disk × Option Err :=
  match (if d.dir then none else w.makedirs) with
  | some e => ([], some e)
  | none =>
    let d1 : Disk := { d with dir := true }
    match w.create with
    | some e => ([d1], some e)
    | none =>
      let d2 : Disk := { d1 with conf := some [] }
      match w.write with
      | some (e, n) => ([d1, d2, { d2 with conf := some (default.take n) }], some e)
      | none => ([d1, d2, { d2 with conf := some default }], none)

/-- `EnvScope.execute_file`, environ.py:252-261, of a resource: `resource_stream` gives bytes, and
`InteractiveConsole.runsource` (codeop.py:49) raises TypeError for bytes. -/
def executeResource : Boot := .raised

/-- `EnvScope.execute_file`, environ.py:252-261, of the configuration -/
def executeConf (w : Weather) (d : Disk) : Boot :=
  match d.conf with
  | none => .nothing
  | some c => match w.read with
    | some _ => .raised
    | none => .executed c

/-- the last of the states [environ.py:266-274] -/
def final (d : Disk) (l : List Disk) : Disk := (l.getLast?).getD d

/-- `EnvScope.execute_startup`, environ.py:295-304: the states of the disk that occur, and how it goes on. -/
def start (default : Str) (w : Weather) (d : Disk) : List Disk × Boot :=
  match d.conf with
  | some _ => ([], executeConf w d)
  | none => match (copyResource default w d).2 with
    | some .permission => ((copyResource default w d).1, executeResource)
    | some .other => ((copyResource default w d).1, .raised)
    | none => ((copyResource default w d).1, executeConf w (final d (copyResource default w d).1))

/-! ## Script files -/

/-- What becomes of the text of a script. [environ.py:259-261] -/
inductive Script where
  /-- there is no such file, or it cannot be read -/
  | missing
  | syntaxError
  /-- more input would be needed -/
  | incomplete
  | finishes
  | raises
  /-- calls `sys.exit` -/
  | exits (status : Nat)
deriving DecidableEq, Repr

/-- was some of it executed? [environ.py:261] -/
def Script.executed : Script → Bool
  | .finishes | .raises | .exits _ => true
  | _ => false

/-- does it print why it did not work? [environ.py:261] -/
def Script.reported : Script → Bool
  | .missing | .syntaxError | .raises => true
  | _ => false

/-- `for arg in args: envScope.execute_file(arg)`, shell.py:78-80: the scripts that were opened, and the exit status of the shell.
`runsource` (code.py:47-74) shows syntax errors and exceptions and returns; only `SystemExit` and a missing file leave it. -/
def runFiles (script : Str → Script) : List Str → List Str × Nat
  | [] => ([], 0)
  | f :: fs => match script f with
    | .missing => ([], 1)
    | .exits n => ([f], n)
    | _ => (f :: (runFiles script fs).1, (runFiles script fs).2)

/-! ## The prompt -/

/-- `compress_user`, resources/default_config.pysh:32-36 -/
def compressUser (homes : Homes) (path : Str) : Str :=
  let home := expanduser homes c!"~"
  if home.isPrefixOf path then '~' :: path.drop home.length else path

end Pieshell.Startup
