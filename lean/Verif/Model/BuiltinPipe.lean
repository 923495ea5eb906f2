import Verif.Model.Run
/-!
# Model of pipelines that contain builtins

`cd`, `bg`, `fg` and `clear_dir_cache` (pieshell/pipeline/builtins.py:16-100) do their work inside of `_run`, and return no processes (`fg` returns one item, which is not represented here).
Builtins made as in the manual return the processes of another pipeline.
(`bashsource`, `remote` and `subshell`, builtins.py:144-206, set `_redirects` and are like `plain` commands here.)
The others do not set the attribute `_redirects`, which `Pipe._run`, `Group._run` and `CmdRedirect._run` then ask them for: `BaseCommand.__getattr__`
(command.py:83-92) answers with a *command* with one more word, `cd(...)._redirects`, and its attributes `stdout`, `stdin`, `pipe` and what `merge(...)` returns are such commands, too.

Simplifications: what a builtin does is an action on the directory of the shell process (the identity for builtins that do not change it, and for `cd` in environments that are not
interactive), which may raise an exception; the directory of the environment (`_cwd`), in which the programs are executed, is not part of `Model/Run`.
The command used as the source of a redirection is represented like any object that `os.open` rejects.  In reality the text of a log message contains `str()` of that command, which runs
it (`cd` to `.../_redirects/stdout/pipe`); it is assumed that this raises an exception, which the handlers in base.py:39-40 and redir.py:210-213 swallow.
-/
namespace Pieshell.BP

/-- The shell's descriptors, and the working directory of the shell process.
[os.chdir at environ.py:101; descriptors: redir.py:89-134] -/
abbrev St := World × Str

/-- Code acting on it; the state is kept when an exception is raised.
[Python's exceptions, while builtins.py:30-32, pipe.py:37-53 run] -/
def M (α : Type) : Type := St → Except Exn α × St

namespace M
/-- Returning a value in such code (e.g. pipe.py:53). -/
def pure {α : Type} (a : α) : M α := fun s => (.ok a, s)
/-- Sequencing in such code (e.g. pipe.py:44-45): an exception skips the rest. -/
def bind {α β : Type} (x : M α) (f : α → M β) : M β := fun s =>
  match x s with
  | (.ok a, s') => f a s'
  | (.error e, s') => (.error e, s')
instance : Monad M where
  pure := pure
  bind := bind
/-- a computation that does not touch the state [e.g. pipe.py:47] -/
def lift {α : Type} (x : Except Exn α) : M α := fun s => (x, s)
/-- the code of `Model/Run`, in the current directory
[command.py:213-245, function.py:69-116, pipe.py:37-53] -/
def run {α : Type} (f : Str → RunM α) : M α := fun s => match f s.2 s.1 with
  | (r, w) => (r, (w, s.2))
end M

/-- Pipelines; `plain` are those without builtins.
[pipe.py:29-32, group.py:26-33, pipeline/redirect.py:27-33, builtins.py:16-89] -/
inductive Pipeline where
  | plain (p : Pieshell.Pipeline)
  /-- what it does to the working directory -/
  | builtin (act : Str → Except Exn Str)
  /-- a builtin as in the manual (README.md:549-571): `return self._cmd._run(redirects, sess, indentation)` -/
  | wrapper (cmd : Pieshell.Pipeline)
  | pipe (a b : Pipeline)
  | group (a b : Pipeline)
  | redirect (p : Pipeline) (rs : Redirects)

/-- The attribute `_redirects` of a pipeline that has been run: a table, or a command (command.py:92). -/
inductive Tab where
  | table (rs : Redirects)
  | command

/-- `p._redirects.stdout.pipe`, used as a source (pipe.py:45) -/
def Tab.stdoutPipe : Tab → Except Exn Source
  | .table rs => (rs.attr c!"stdout").map fun r => r.pipe.toSource
  | .command => .ok (.inst 0)

/-- `redir.Redirect(p._redirects.stdin)` (or `stdout`): for a command, redir.py:74-75 looks it up as the name of a descriptor -/
def Tab.redirect (name : Str) : Tab → Except Exn Redirect
  | .table rs => rs.attr name
  | .command => .error .keyError

/-- `a._redirects.merge(b._redirects)`: a command accepts every argument; `Redirects.merge` makes a `Redirect` of the command (redir.py:166), as above. -/
def Tab.merge : Tab → Tab → Except Exn Tab
  | .table a, .table b => (Redirects.merge a b).map .table
  | .table _, .command => .error .keyError
  | .command, _ => .ok .command

/-- `self._redirects.register(...)`, pipe.py:48-49 -/
def Tab.register (r : Redirect) : Tab → Except Exn Tab
  | .table rs => (Redirects.register rs r).map .table
  | .command => .ok .command

/-- `_run`: `Pipe._run` pipe.py:37-53, `Group._run` group.py:36-50, `CmdRedirect._run` redirect.py:36-43, that of the builtins builtins.py:30-32, 50-55, 76-80, 87-89. -/
def run (sys : Sys) : Pipeline → Redirects → M (List Item × Tab)
  | .plain p, rs => do
    let (xs, r) ← M.run fun cwd => runP sys cwd p rs
    pure (xs, .table r)
  | .builtin act, _ => fun s => match act s.2 with
    | .error e => (.error e, s)
    | .ok d => (.ok ([], .command), (s.1, d))
  | .wrapper cmd, rs => do
    let (xs, _) ← M.run fun cwd => runP sys cwd cmd rs
    pure (xs, .command)
  | .pipe a b, rs => do
    let ta ← M.lift (rs.borrow.redirect (.name c!"stdout") .PIPE)
    let (xs, ra) ← run sys a ta
    let so ← M.lift ra.stdoutPipe
    let tb ← M.lift (rs.borrow.redirect (.name c!"stdin") so)
    let (ys, rb) ← run sys b tb
    let m ← M.lift (ra.merge rb)
    let si ← M.lift (ra.redirect c!"stdin")
    let m ← M.lift (m.register si)
    let so2 ← M.lift (rb.redirect c!"stdout")
    let m ← M.lift (m.register so2)
    M.run fun _ => RunM.onFds rs.closeSourceFds
    pure (xs ++ ys, m)
  | .group a b, rs => do
    let (xs, ra) ← run sys a rs.borrow
    let (ys, rb) ← run sys b rs.borrow
    let m ← M.lift (ra.merge rb)
    M.run fun _ => RunM.onFds rs.closeSourceFds
    pure (xs ++ ys, m)
  | .redirect p crs, rs => do
    let m ← M.lift (rs.merge crs)
    run sys p m

/-- The starting part of `Pipeline.run(redirects)`, base.py:146-150. -/
def runTop (sys : Sys) (p : Pipeline) (envRs : Redirects) (extra : List Redirect) : M (List Item × Tab) := do
  let rs ← M.lift (Redirects.new (.table envRs :: extra.map .one))
  run sys p rs

/-- What iteration reads from (running.py:75-78): the descriptor; anything that is no descriptor is rejected by the event loop with ValueError. -/
def iterFd : Tab → Except Exn Nat
  | .table rs => match rs.attr c!"stdout" with
    | .error e => .error e
    | .ok r => match r.pipe with
      | .fd n => .ok n
      | _ => .error .valueError
  | .command => .error .valueError

end Pieshell.BP
