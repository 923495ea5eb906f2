import Verif.Model.Run
import Verif.Model.Expand
import Verif.Model.Exec
/-!
# Model of pipelines whose commands belong to several environments

"You can also create multiple environments and use them simultaneously, even within the same pipeline" (README.md:462-466).

Every pipeline object has an environment, `_env` (base.py:84-85): that of the object that it was made from.  `Model/Run` leaves it out, and is given the words
that arguments expand to.  Here arguments are what the user wrote; they are expanded when the command is reached, in its environment (command.py:146-152), which may raise an exception
after other commands have been started.  The programs are executed in the directory and with the variables of that environment (command.py:177-178).

Simplifications: arguments are strings, `R(...)`, pipelines, iterators and functions (other objects: `Model/Args`, `Model/Exec`); expansion does not change anything
(a name that is looked up in a shell's scope may run a program, see `Model/Repr`); items of a running pipeline are as in `Model/Run`.
-/
namespace Pieshell.Several
open Pieshell.Path

mutual
/-- A pipeline object; `env` is (the number of) its environment. [base.py:80-86] -/
inductive Px where
  /-- `Command` -/
  | command (env id : Nat) (args : Ax)
  /-- `Function` holding a python function -/
  | func (env id : Nat)
  /-- `Function` holding an iterator -/
  | iter (env id : Nat)
  /-- `Pipe` -/
  | pipe (env : Nat) (a b : Px)
  /-- `Group` -/
  | group (env : Nat) (a b : Px)
  /-- `CmdRedirect` -/
  | redirect (env : Nat) (p : Px) (rs : Redirects)
/-- Arguments of a command: `pre` is empty, or `--name=` for a keyword argument. [command.py:139-153] -/
inductive Ax where
  | nil
  /-- a string -/
  | text (pre s : Str) (rest : Ax)
  /-- `R(s)` -/
  | raw (pre s : Str) (rest : Ax)
  /-- `name=True`: `--name` -/
  | flag (s : Str) (rest : Ax)
  /-- a pipeline or iterator -/
  | pipeArg (pre : Str) (p : Px) (rest : Ax)
  /-- a python function -/
  | funcArg (pre : Str) (id : Nat) (rest : Ax)
end

/-- `p._env` [base.py:85] -/
def Px.env : Px → Nat
  | .command env _ _ => env
  | .func env _ => env
  | .iter env _ => env
  | .pipe env _ _ => env
  | .group env _ _ => env
  | .redirect env _ _ => env

/-- `self | other` for two pipelines, base.py:115-126 -/
def orP (self other : Px) : Px := .pipe self.env self other
/-- `self | f` for a python function, base.py:98-101, 126 -/
def orFunc (self : Px) (id : Nat) : Px := .pipe self.env self (.func self.env id)
/-- `x | self` for an iterator, base.py:105-114 -/
def iterOr (self : Px) (id : Nat) : Px := .pipe self.env (.iter self.env id) self
/-- `self > ...`, `self < ...`, base.py:112, 124 -/
def redirectP (self : Px) (rs : Redirects) : Px := .redirect self.env self rs
/-- `self + other`, base.py:136-138 -/
def addP (self other : Px) : Px := .group self.env self other

/-- An `Environment`: `_cwd`, what names in arguments stand for (environ.py:84), `_exports`, `_redirects`, `running_pipelines` and `last_pipeline`
(numbers of pipelines). -/
structure Env where
  cwd : Str
  lookup : Str → Except Exn Str
  scopeText : Str
  exports : Dict Str Exec.Value
  redirects : Redirects
  jobs : List Nat
  last : Option Nat

/-- The process: its directory, homes, files, environments. [environ.py:44-61] -/
structure Shell where
  procCwd : Str
  homes : Homes
  fs : Fs
  fnm : Str → Str → Bool
  envs : Nat → Env

/-- what expansion in environment `i` depends on [environ.py:77-94] -/
def Shell.ctx (sh : Shell) (i : Nat) : Expand.Ctx :=
  { cwd := (sh.envs i).cwd, procCwd := sh.procCwd, lookup := (sh.envs i).lookup, scopeText := (sh.envs i).scopeText, homes := sh.homes, fs := sh.fs, fnm := sh.fnm }

/-- A started item, and the environment of its command or function.
[command.py:237-243, function.py:105-112] -/
structure Run where
  item : Item
  env : Nat

mutual
/-- `_run`, as in `runP` (`Model/Run`).
[command.py:213-245, function.py:69-116, pipe.py:37-53, group.py:36-50, pipeline/redirect.py:36-43] -/
def runX (sys : Sys) (sh : Shell) : Px → Redirects → RunM (List Run × Redirects)
  | .command env id args, rs => do
    let m ← rs.makePipes
    let (items, argv, rs2) ← runAx sys sh env args m.borrow m
    let t ← RunM.getFds
    RunM.start id
    RunM.onFds rs2.closeSourceFds
    pure (items ++ [⟨.proc id argv (execTable (rs2.perform sys sh.procCwd t)) rs2, env⟩], rs2)
  | .func env id, rs => do
    let (xs, r) ← runFunc sys sh.procCwd id true rs
    pure (xs.map (⟨·, env⟩), r)
  | .iter env id, rs => do
    let (xs, r) ← runFunc sys sh.procCwd id false rs
    pure (xs.map (⟨·, env⟩), r)
  | .pipe _ a b, rs => do
    let ta ← RunM.lift (rs.borrow.redirect (.name c!"stdout") .PIPE)
    let (xs, ra) ← runX sys sh a ta
    let so ← RunM.lift (ra.attr c!"stdout")
    let tb ← RunM.lift (rs.borrow.redirect (.name c!"stdin") so.pipe.toSource)
    let (ys, rb) ← runX sys sh b tb
    let m ← RunM.lift (ra.merge rb)
    let si ← RunM.lift (ra.attr c!"stdin")
    let m ← RunM.lift (m.register si)
    let so2 ← RunM.lift (rb.attr c!"stdout")
    let m ← RunM.lift (m.register so2)
    RunM.onFds rs.closeSourceFds
    pure (xs ++ ys, m)
  | .group _ a b, rs => do
    let (xs, ra) ← runX sys sh a rs.borrow
    let (ys, rb) ← runX sys sh b rs.borrow
    let m ← RunM.lift (ra.merge rb)
    RunM.onFds rs.closeSourceFds
    pure (xs ++ ys, m)
  | .redirect _ p crs, rs => do
    let m ← RunM.lift (rs.merge crs)
    runX sys sh p m
/-- `_arg_list`, command.py:133-153, in environment `env`; functions that are arguments get it, too (command.py:187-193). -/
def runAx (sys : Sys) (sh : Shell) (env : Nat) : Ax → Redirects → Redirects → RunM (List Run × List Word × Redirects)
  | .nil, _, rs => pure ([], [], rs)
  | .text pre s rest, orig, rs => do
    let ws ← RunM.lift (Expand.expandArgument (sh.ctx env) s)
    let (items, argv, rs') ← runAx sys sh env rest orig rs
    pure (items, ws.map (fun w => .lit (pre ++ w)) ++ argv, rs')
  | .raw pre s rest, orig, rs => do
    let (items, argv, rs') ← runAx sys sh env rest orig rs
    pure (items, .lit (pre ++ s) :: argv, rs')
  | .flag s rest, orig, rs => do
    let (items, argv, rs') ← runAx sys sh env rest orig rs
    pure (items, .lit s :: argv, rs')
  | .pipeArg pre p rest, orig, rs => do
    let ta ← RunM.lift (orig.redirect (.name c!"stdout") .PIPE)
    let (xs, ra) ← runX sys sh p ta
    let so ← RunM.lift (ra.attr c!"stdout")
    let rs1 ← RunM.lift (rs.redirect (.num rs.findFreeFd) so.pipe.toSource (some O_RDONLY))
    let (items, argv, rs') ← runAx sys sh env rest orig rs1
    pure (xs ++ items, .devfd pre rs.findFreeFd :: argv, rs')
  | .funcArg pre id rest, orig, rs => do
    let ta ← RunM.lift (orig.redirect (.name c!"stdin") .PIPE)
    let (xs, ra) ← runFunc sys sh.procCwd id true ta
    let si ← RunM.lift (ra.attr c!"stdin")
    let rs1 ← RunM.lift (rs.redirect (.num rs.findFreeFd) si.pipe.toSource (some O_WRONLY))
    let (items, argv, rs') ← runAx sys sh env rest orig rs1
    pure (xs.map (⟨·, env⟩) ++ items, .devfd pre rs.findFreeFd :: argv, rs')
end

/-- The text of a word, command.py:211. -/
def wordText : Word → Str
  | .lit s => s
  | .devfd pre n => pre ++ c!"/dev/fd/" ++ (toString n).toList

/-- What the child of a started command becomes, command.py:175-178 and 224-233 (`Model/Exec`). -/
def childOf (k : Exec.Kernel) (sh : Shell) (r : Run) : Option Exec.Fate :=
  match r.item with
  | .proc _ argv _ _ =>
    some (Exec.child k { args := argv.map fun w => .text (wordText w), exports := (sh.envs r.env).exports, cwd := (sh.envs r.env).cwd } false none)
  | .func .. => none

/-- `Pipeline.run(redirects)`, base.py:143-154: `n` is the new `RunningPipeline`. -/
def runTop (sys : Sys) (sh : Shell) (p : Px) (extra : List Redirect) (n : Nat) (w : World) : Except Exn (List Run) × Shell × World :=
  match (do
    let rs ← RunM.lift (Redirects.new (.table (sh.envs p.env).redirects :: extra.map .one))
    runX sys sh p rs : RunM (List Run × Redirects)) w with
  | (.error e, w') => (.error e, sh, w')
  | (.ok (xs, _), w') =>
    (.ok xs, { sh with envs := fun i => if i = p.env then { sh.envs i with jobs := (sh.envs i).jobs ++ [n], last := some n } else sh.envs i }, w')

end Pieshell.Several
