import Verif.Model.Base
/-!
# Model of the command line (`pieshell/shell.py:18-30, 32-123`) and of the module finder (`pieshell/module.py:29-45`)

The contents of the actions (running files, the prompt) are not modelled, only which action is taken.  An exception of the
startup file is not modelled.
-/
namespace Pieshell.Shell

/-- Value of an option: `True` or text. [shell.py:24-28] -/
inductive Val where
  | flag
  | text (s : Str)
deriving DecidableEq, Repr

/-- Truth value of an option (shell.py:32, 59, 70). -/
def Val.truth : Val → Bool
  | .flag => true
  | .text s => !s.isEmpty

/-- `arg.split("=", 1)` if there is a `=` (shell.py:23-24). -/
def splitEq : Str → Option (Str × Str)
  | [] => none
  | c :: s => if c = '=' then some ([], s) else (splitEq s).map (fun x => (c :: x.1, x.2))

/-- One turn of the loop (shell.py:21-30). -/
def addArg (st : List Str × Dict Str Val) (arg : Str) : List Str × Dict Str Val :=
  match arg with
  | '-' :: '-' :: arg => match splitEq arg with
    | some (name, value) => (st.1, st.2.set name (.text value))
    | none => (st.1, st.2.set arg .flag)
  | _ => (st.1 ++ [arg], st.2)

/-- `args, kws` (shell.py:18-30); `argv` is `sys.argv[1:]`. -/
def parse (argv : List Str) : List Str × Dict Str Val := argv.foldl addArg ([], [])

/-- What `main` does in the end (shell.py:32-123). -/
inductive Action where
  | cmd (expr : Str)
  | pcmd (pickled : Str)
  | files (names : List Str)
  | prompt (ptpython : Bool)
deriving DecidableEq, Repr

/-- What happens.  `crash` is an `AttributeError`, before (`false`) or after (`true`) the environment is set up.
[shell.py:62-64, 66-123] -/
inductive Outcome where
  | help
  | version
  | crash (late : Bool)
  | act (startup : Bool) (a : Action)
deriving DecidableEq, Repr

/-- `kws.get(name, False)` as a condition [shell.py:32, 59, 70, 87] -/
def given (kws : Dict Str Val) (name : Str) : Bool := ((kws.get? name).map Val.truth).getD false

/-- `main` (shell.py:32-123).  `log.debug` does not exist (log.py has no such name), so that every `--log` option ends with
an `AttributeError` (shell.py:62-64); `True` has neither `encode` nor `split` (shell.py:74, 76). -/
def main (argv : List Str) : Outcome :=
  let p := parse argv
  if given p.2 c!"help" then .help
  else if given p.2 c!"version" then .version
  else if (p.2.get? c!"log").isSome then .crash false
  else
    let startup := !given p.2 c!"no-startup"
    match p.2.get? c!"cmd" with
    | some (.text e) => .act startup (.cmd e)
    | some .flag => .crash true
    | none => match p.2.get? c!"pcmd" with
      | some (.text e) => .act startup (.pcmd e)
      | some .flag => .crash true
      | none => if p.1 ≠ [] then .act startup (.files p.1) else .act startup (.prompt (given p.2 c!"ptpython"))

/-! ### The module finder -/

/-- `fullname.split(".")[-1]` (module.py:30) -/
def lastPart : Str → Str
  | [] => []
  | c :: s => if c = '.' then lastPart s else if '.' ∈ s then lastPart s else c :: s

/-- The argument `path`: `None`, a list or tuple, or anything else (module.py:31-35). -/
inductive Where where
  | none
  | list (l : List Str)
  | one (s : Str)

/-- `paths` (module.py:31-35). -/
def Where.dirs (sysPath : List Str) : Where → List Str
  | .none => sysPath
  | .list l => l
  | .one s => [s]

/-- `os.path.join(a, b)` for a `b` that is not absolute. [module.py:39] -/
def joinName (a b : Str) : Str := if a = [] ∨ a.getLast? = some '/' then a ++ b else a ++ ['/'] ++ b

/-- `Finder.find_module` (module.py:29-45): the path given to the loader. -/
def findModule (exists_ : Str → Bool) (sysPath : List Str) (fullname : Str) (path : Where) : Option Str :=
  let filename := lastPart fullname ++ c!".pysh"
  ((path.dirs sysPath).map (fun d => joinName (if d = [] then c!"." else d) filename)).find? exists_

end Pieshell.Shell
