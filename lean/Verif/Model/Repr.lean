import Verif.Model.PyRepr
import Verif.Model.Expand
/-!
# Model of printing pipelines (`base.py:28-42`, `base.py:192-216` and the `_repr` methods)

`builtins.repr` is replaced by `pipeline_repr`, which counts how deep it is nested. Python's own C code (the prompt's
display hook, and the `__repr__` of lists, dicts, sets, ... and of `%r`) calls an object's `__repr__` directly and does
not touch the counter.

Simplifications:
* objects are finite trees (python prints `[...]` for a list that contains itself);
* the `__repr__` of a class that is not pieshell's either builds its text from C level representations of its parts,
  or calls `repr()` on its parts, or raises, or catches exceptions of its part; it does not start pipelines itself;
* `repr(type(obj))` in the handler of `pipeline_repr` does not raise, and its text is opaque;
* running a pipeline is an event together with an outcome that is a parameter (running is modelled in `Model/Run` and
  `Model/Job`); what runs inside of that run is not listed;
* one thread (`repr_state` and `_print_state` are thread local).
-/
namespace Pieshell.Repr
open Pieshell.Cmd

/-- How `run_interactive` ends: normally, with one of the exceptions `__repr__` catches (KeyboardInterrupt,
PipelineInterrupted, PipelineSuspended), or with another one (PipelineFailed, or a failure to start).
[base.py:199-207, running.py:87-104] -/
inductive Outcome where
  | finished | cancelled | failed
deriving DecidableEq, Repr

/-- What printing depends on. Environments are numbers. [base.py:192-216, environ.py:77-94, 155-156] -/
structure World where
  /-- `env._interactive` -/
  interactive : Nat → Bool
  /-- `repr(env)`, environ.py:155-156 -/
  envText : Nat → Str
  /-- What argument expansion in an environment depends on. -/
  ctx : Nat → Expand.Ctx
  /-- `%(name)s` in an argument of a command of this environment refers to a command, which `str` runs
  (environ.py:83-84, 233). -/
  runs : Nat → Str → Bool
  /-- How running the pipeline with this number ends. -/
  outcome : Nat → Outcome
  printable : Char → Bool

/-- How the parts of a pipeline other than a command are put together.
[pipe.py:35-36, group.py:34-35, pipeline/redirect.py:34-35, function.py:57-67] -/
inductive Form where
  /-- `Pipe`, pipe.py:35-36 -/
  | pipe
  /-- `Group`, group.py:34-35 -/
  | group
  /-- `CmdRedirect`, redirect.py:34-35 -/
  | redirect
  /-- `Function` of a python function, function.py:57-65; the keys are those of keyword arguments -/
  | call (name : Str) (keys : List (Option Str))
  /-- `Function` of an iterable, function.py:66-67 -/
  | iter
deriving Repr

/-- A python object, seen by what its `__repr__` does. [base.py:29-42, 192-216] -/
inductive Obj where
  /-- no pipelines inside -/
  | leaf (text : Str)
  /-- `__repr__` raises -/
  | broken
  /-- C level: list, tuple, dict, `%r`, ... -/
  | native (kids : List Obj)
  /-- a python class whose `__repr__` calls `repr()` for its parts, e.g. `utils.LineList` (utils/__init__.py:3-5) or
  `Redirects` (redir.py:246-248) -/
  | viaRepr (kids : List Obj)
  /-- a python class whose `__repr__` prints `text` if printing its part raises -/
  | catching (kid : Obj) (text : Str)
  /-- a command -/
  | command (id : Nat) (started : Bool) (env : Nat) (c : Command) (as : Str)
  /-- another pipeline and its parts -/
  | pipeline (id : Nat) (started : Bool) (env : Nat) (form : Form) (parts : List Obj)

/-- What happens that the user can observe. [base.py:199-207] -/
inductive Event where
  /-- pipeline `id` is run -/
  | start (id : Nat)
  /-- the command `name` is run by `%(name)s` -/
  | lookup (env : Nat) (name : Str)
deriving DecidableEq, Repr

/-- The thread local state and the events so far. [base.py:27, 83] -/
structure St where
  /-- `repr_state.in_repr` -/
  depth : Nat
  /-- `Pipeline._print_state.env` -/
  cur : Option Nat
  events : List Event
deriving DecidableEq, Repr

/-! ## Expanding the arguments of a command -/

/-- The names that `arg % scope` looks up (`Expand.pctFormat`), in order, until something raises.
[environ.py:84] -/
def pctNames (lookup : Str → Except Exn Str) : Nat → Bool → Str → List Str
  | 0, _, _ => []
  | _ + 1, _, [] => []
  | f + 1, used, c :: s =>
    if c ≠ '%' then pctNames lookup f used s
    else match s with
      | '%' :: s => pctNames lookup f used s
      | 's' :: s => if used then [] else pctNames lookup f true s
      | '(' :: s => match Expand.readKey 0 s with
        | none => []
        | some (key, r) => key :: (match lookup key with
          | .error _ => []
          | .ok _ => match r with
            | 's' :: r => pctNames lookup f used r
            | '%' :: r => pctNames lookup f used r
            | _ => [])
      | _ => []

/-- Expand one string: the names looked up and the result. [environ.py:81-94] -/
def expandNames (x : Expand.Ctx) (s : Str) : List Str := pctNames x.lookup (s.length + 1) false s

/-- The strings that `_arg_list()` expands, in order, command.py:139-152. (Other values are shown as `/dev/fd/X`, which
is expanded too but contains no `%`.) -/
def strings : List Elem → List Str
  | [] => []
  | .val (.str s) :: l => s :: strings l
  | .val _ :: l => strings l
  | .dict kvs :: l => kvs.filterMap (fun p => match p.2 with | .str s => some s | _ => none) ++ strings l

/-- The names looked up while these strings are expanded, until one raises. [command.py:139-153] -/
def allNames (x : Expand.Ctx) : List Str → List Str
  | [] => []
  | s :: l => expandNames x s ++ (match Expand.expandArgument x s with
    | .error _ => []
    | .ok _ => allNames x l)

/-- The commands that printing command `c` runs. [environ.py:83-84, 215-233] -/
def lookups (w : World) (env : Nat) (c : Command) : List Event :=
  ((allNames (w.ctx env) (strings c.args)).filter (w.runs env)).map (.lookup env)

/-! ## Printing -/

/-- `key=text` for a keyword argument [function.py:64] -/
def keyed : List (Option Str) → List Str → List Str
  | some k :: ks, t :: ts => (k ++ c!"=" ++ t) :: keyed ks ts
  | none :: ks, t :: ts => t :: keyed ks ts
  | [], ts => ts
  | _, [] => []

/-- The `_repr` methods once the parts are text.
[command.py:106-123, pipe.py:35-36, group.py:34-35, pipeline/redirect.py:34-35, function.py:57-67] -/
def glue : Form → List Str → Str
  | .pipe, ts => joinWith c!" | " ts
  | .group, ts => joinWith c!" + " ts
  | .redirect, ts => joinWith c!" with " ts
  | .call name keys, ts => name ++ c!"(" ++ joinWith c!"," (keyed keys ts) ++ c!")"
  | .iter, ts => joinWith [] ts

/-- the text of `pipeline_repr` when printing raises, base.py:38-39 -/
def failedText : Str := c!"<Failed to print>"

/-- `__repr__` runs the pipeline instead of printing it, base.py:198 -/
def shouldRun (w : World) (started : Bool) (env : Nat) (st : St) : Bool :=
  !started && w.interactive env && st.depth < 1

/-- base.py:199-207: run, log, print nothing -/
def runAndPrint (w : World) (id : Nat) (st : St) : Except Exn Str × St :=
  let st := { st with events := st.events ++ [.start id] }
  match w.outcome id with
  | .failed => (.error .other, st)
  | _ => (.ok [], st)

/-- base.py:209-214: ` in env` unless the enclosing pipeline is in the same environment -/
def inEnv (w : World) (cur : Option Nat) (env : Nat) : Except Exn Str → Except Exn Str
  | .error e => .error e
  | .ok t => if cur = some env then .ok t else .ok (t ++ c!" in " ++ w.envText env)

/-- the body of `pipeline_repr`, base.py:33-41, around what `standard_repr` does; it never raises -/
def counted (f : St → Except Exn Str × St) (st : St) : Str × St :=
  let r := f { st with depth := st.depth + 1 }
  let st' := { r.2 with depth := r.2.depth - 1 }
  match r.1 with
  | .ok t => (t, st')
  | .error _ => (failedText, st')

mutual
/-- `standard_repr(obj)`: `type(obj).__repr__(obj)`. [base.py:28, 37] -/
def standardRepr (w : World) : Obj → St → Except Exn Str × St
  | .leaf t, st => (.ok t, st)
  | .broken, st => (.error .other, st)
  | .native kids, st =>
    match nativeList w kids st with
    | (.error e, st) => (.error e, st)
    | (.ok ts, st) => (.ok (c!"[" ++ joinWith c!", " ts ++ c!"]"), st)
  | .viaRepr kids, st =>
    let r := reprList w kids st
    (.ok (c!"[" ++ joinWith c!",\n " r.1 ++ c!"]"), r.2)
  | .catching kid t, st =>
    match standardRepr w kid st with
    | (.error _, st) => (.ok t, st)
    | r => r
  | .command id started env c as, st =>
    if shouldRun w started env st then runAndPrint w id st
    else
      let st := { st with events := st.events ++ lookups w env c }
      (inEnv w st.cur env (match Command.repr (Expand.expandArgument (w.ctx env)) w.printable c with
        | .error e => .error e
        | .ok t => .ok (t ++ as)), st)
  | .pipeline id started env form parts, st =>
    if shouldRun w started env st then runAndPrint w id st
    else
      let r := reprList w parts { st with cur := some env }
      (inEnv w st.cur env (.ok (glue form r.1)), { r.2 with cur := st.cur })
/-- the C level representations of the parts of a container; the first exception ends it
[CPython's `list.__repr__` etc.; they call the C function, not base.py:29] -/
def nativeList (w : World) : List Obj → St → Except Exn (List Str) × St
  | [], st => (.ok [], st)
  | o :: os, st =>
    match standardRepr w o st with
    | (.error e, st) => (.error e, st)
    | (.ok t, st) =>
      match nativeList w os st with
      | (.error e, st) => (.error e, st)
      | (.ok ts, st) => (.ok (t :: ts), st)
/-- `[repr(x) for x in parts]`: `pipeline_repr` never raises [base.py:29-41] -/
def reprList (w : World) : List Obj → St → List Str × St
  | [], st => ([], st)
  | o :: os, st =>
    let r := counted (standardRepr w o) st
    let rest := reprList w os r.2
    (r.1 :: rest.1, rest.2)
end

/-- `repr(obj)`, base.py:29-41 -/
def repr (w : World) (o : Obj) (st : St) : Str × St := counted (standardRepr w o) st

/-- The interactive prompt shows the value of an expression: `sys.displayhook` (C code) or, with ptpython,
`standard_repr` (shell.py:99-104). The exception of a failed run is printed by the prompt. -/
def display (w : World) (o : Obj) (st : St) : Except Exn Str × St := standardRepr w o st

/-- A program that prints things with `repr()` and shows things at the prompt, one after the other.
[base.py:29-41; the prompt: shell.py:99-104, 123] -/
inductive Act where
  | repr (o : Obj) | show (o : Obj)

/-- One of these (base.py:29-41, shell.py:99-104). -/
def act (w : World) (st : St) : Act → St
  | .repr o => (Repr.repr w o st).2
  | .show o => (display w o st).2

/-- One after the other. -/
def session (w : World) (st : St) (acts : List Act) : St := acts.foldl (act w) st

end Pieshell.Repr
