import Verif.Model.Redir
/-!
# Model of `_run`: starting a pipeline

Simplifications:
* builtins (`cd`, `bg`, ...) are not items of this model (they start nothing, see `Model/Env` and `Model/Job`);
* a command's non-pipeline arguments are given as the words they expand to (expansion is modelled in
  `Model/Expand`); the word made for a pipeline argument, `/dev/fd/N`, contains nothing that expansion changes;
* `fork` is modelled by computing what the child executes (`Command._child`, assuming that chdir and execvpe
  succeed, see `Model/Child` for the other case) from a copy of the shell's descriptor table;
* calling a user's python function, which happens while starting (function.py:88-90), is assumed to return
  without touching descriptors (it is normally a generator, whose body has not started);
* `log.log` calls, `_started`, `_pid` are dropped; `indentation`/`sess` are unused by the code.
-/
namespace Pieshell

/-! ## A state and exception monad -/

/-- Code acting on the shell's state; the state is kept when an exception is raised.
[Python's exceptions, while command.py:213-245, function.py:69-116 run] -/
def RunM (α : Type) : Type := World → Except Exn α × World

namespace RunM
/-- return [Python's `return`, e.g. command.py:245] -/
def pure {α : Type} (a : α) : RunM α := fun w => (.ok a, w)
/-- sequencing; an exception skips the rest [Python's statement sequences, e.g. command.py:216-245] -/
def bind {α β : Type} (x : RunM α) (f : α → RunM β) : RunM β := fun w =>
  match x w with
  | (.ok a, w') => f a w'
  | (.error e, w') => (.error e, w')
instance : Monad RunM where
  pure := pure
  bind := bind
/-- a computation that does not touch the state [e.g. command.py:216] -/
def lift {α : Type} (x : Except Exn α) : RunM α := fun w => (x, w)
/-- a computation on the descriptor table [redir.py:89-134, 225-227] -/
def onFds {α : Type} (f : FdTable → Except Exn α × FdTable) : RunM α := fun w =>
  match f w.fds with
  | (r, t) => (r, { w with fds := t })
/-- record that item `id` was started [command.py:237-238, function.py:105-111] -/
def start (id : Nat) : RunM Unit := fun w => (.ok (), { w with started := w.started ++ [id] })
/-- the descriptor table now [fork(2) copies it, command.py:224] -/
def getFds : RunM FdTable := fun w => (.ok w.fds, w)
end RunM

/-! ## Pipelines -/

mutual
/-- A pipeline object (pipe.py, group.py, redirect.py, command.py, function.py); `id` identifies leaves. -/
inductive Pipeline where
  /-- `Command` -/
  | command (id : Nat) (args : Args)
  /-- `Function` holding a python function or method -/
  | func (id : Nat)
  /-- `Function` holding an iterable/iterator -/
  | iter (id : Nat)
  /-- `Pipe(src, dst)` -/
  | pipe (a b : Pipeline)
  /-- `Group(a, b)` -/
  | group (a b : Pipeline)
  /-- `CmdRedirect(pipeline, redirects)` -/
  | redirect (p : Pipeline) (rs : Redirects)
/-- Arguments of a command (command.py:139-153). -/
inductive Args where
  | nil
  /-- an argument that is not a pipeline, and the words it expands to -/
  | word (ws : List Str) (rest : Args)
  /-- a pipeline or iterator as argument (direction "stdout"); `pre` is `--name=` or empty -/
  | pipeArg (pre : Str) (p : Pipeline) (rest : Args)
  /-- a python function as argument (direction "stdin") -/
  | funcArg (pre : Str) (id : Nat) (rest : Args)
end

/-- A word of a program's argument vector: a literal, or `pre ++ "/dev/fd/" ++ n` (command.py:211). -/
inductive Word where
  | lit (s : Str) | devfd (pre : Str) (n : Nat)
deriving DecidableEq, Repr

/-- A `RunningItem`: a process (`RunningProcess`) with its argument vector and the descriptors it starts
with, or a python function (`RunningFunction`) with the descriptors it reads from and writes to in the shell;
`rs` is the item's `redirects` attribute. [command.py:224-243, function.py:105-112] -/
inductive Item where
  | proc (id : Nat) (argv : List Word) (fds : Nat → Option Obj) (rs : Redirects)
  | func (id : Nat) (inFd : Option Nat) (outFd : Nat) (rs : Redirects)

/-- identity of the leaf an item was started for
[Not in /repo: names for the objects `cmd` (running.py:192)] -/
def Item.id : Item → Nat
  | .proc id .. => id
  | .func id .. => id

/-- Using the `pipe` attribute of a redirection as a source (pipe.py:45, command.py:204-207). -/
def PipeEnd.toSource : PipeEnd → Source
  | .none => .none
  | .fd n => .fd n
  | .tmp n => .inst n
  | .string n => .inst n

/-- `loop.add_reader(fd, ...)` / `add_writer`, called when an `IOHandler` is made (iterio.py:20-26, 39-48): PermissionError for regular files. -/
def RunM.poll (sys : Sys) (fd : Nat) : RunM Unit := fun w =>
  match w.fds.get fd with
  | none => (.error (.osError EBADF), w)
  | some e => if sys.polls e.obj then (.ok (), w) else (.error (.osError EPERM), w)

/-- `Function._run`, function.py:69-116; `takesInput` is line 87's test. -/
def runFunc (sys : Sys) (cwd : Str) (id : Nat) (takesInput : Bool) (rs : Redirects) :
    RunM (List Item × Redirects) := do
  let m ← rs.makePipes
  let inFd ← (if takesInput then do
      let r ← RunM.lift (m.attr c!"stdin")
      let fd ← RunM.onFds (r.open sys cwd false)
      RunM.poll sys fd
      pure (some fd)
    else pure none)
  let r ← RunM.lift (m.attr c!"stdout")
  let outFd ← RunM.onFds (r.open sys cwd false)
  RunM.poll sys outFd
  RunM.start id
  RunM.onFds m.closeSourceFds
  pure ([.func id inFd outFd m], m)

mutual
/-- `_run` of every pipeline class: returns the running items and the `_redirects` attribute.
`Command._run` command.py:213-245, `Pipe._run` pipe.py:37-53, `Group._run` group.py:36-50,
`CmdRedirect._run` redirect.py:36-43. -/
def runP (sys : Sys) (cwd : Str) : Pipeline → Redirects → RunM (List Item × Redirects)
  | .command id args, rs => do
    let m ← rs.makePipes
    let (items, argv, rs2) ← runArgs sys cwd args m.borrow m
    let t ← RunM.getFds
    RunM.start id
    RunM.onFds rs2.closeSourceFds
    pure (items ++ [.proc id argv (execTable (rs2.perform sys cwd t)) rs2], rs2)
  | .func id, rs => runFunc sys cwd id true rs
  | .iter id, rs => runFunc sys cwd id false rs
  | .pipe a b, rs => do
    let ta ← RunM.lift (rs.borrow.redirect (.name c!"stdout") .PIPE)
    let (xs, ra) ← runP sys cwd a ta
    let so ← RunM.lift (ra.attr c!"stdout")
    let tb ← RunM.lift (rs.borrow.redirect (.name c!"stdin") so.pipe.toSource)
    let (ys, rb) ← runP sys cwd b tb
    let m ← RunM.lift (ra.merge rb)
    let si ← RunM.lift (ra.attr c!"stdin")
    let m ← RunM.lift (m.register si)
    let so2 ← RunM.lift (rb.attr c!"stdout")
    let m ← RunM.lift (m.register so2)
    RunM.onFds rs.closeSourceFds
    pure (xs ++ ys, m)
  | .group a b, rs => do
    let (xs, ra) ← runP sys cwd a rs.borrow
    let (ys, rb) ← runP sys cwd b rs.borrow
    let m ← RunM.lift (ra.merge rb)
    RunM.onFds rs.closeSourceFds
    pure (xs ++ ys, m)
  | .redirect p crs, rs => do
    let m ← RunM.lift (rs.merge crs)
    runP sys cwd p m
/-- `_arg_list` with `_handle_arg_pipes`, command.py:133-153 and 180-211: `orig` is the borrowed copy of the
command's table, `rs` the table to which the argument pipes are added. -/
def runArgs (sys : Sys) (cwd : Str) : Args → Redirects → Redirects →
    RunM (List Item × List Word × Redirects)
  | .nil, _, rs => pure ([], [], rs)
  | .word ws rest, orig, rs => do
    let (items, argv, rs') ← runArgs sys cwd rest orig rs
    pure (items, ws.map .lit ++ argv, rs')
  | .pipeArg pre p rest, orig, rs => do
    let ta ← RunM.lift (orig.redirect (.name c!"stdout") .PIPE)
    let (xs, ra) ← runP sys cwd p ta
    let so ← RunM.lift (ra.attr c!"stdout")
    let rs1 ← RunM.lift (rs.redirect (.num rs.findFreeFd) so.pipe.toSource (some O_RDONLY))
    let (items, argv, rs') ← runArgs sys cwd rest orig rs1
    pure (xs ++ items, .devfd pre rs.findFreeFd :: argv, rs')
  | .funcArg pre id rest, orig, rs => do
    let ta ← RunM.lift (orig.redirect (.name c!"stdin") .PIPE)
    let (xs, ra) ← runFunc sys cwd id true ta
    let si ← RunM.lift (ra.attr c!"stdin")
    let rs1 ← RunM.lift (rs.redirect (.num rs.findFreeFd) si.pipe.toSource (some O_WRONLY))
    let (items, argv, rs') ← runArgs sys cwd rest orig rs1
    pure (xs ++ items, .devfd pre rs.findFreeFd :: argv, rs')
end

/-- The default redirections of an environment, environ.py:54-59. -/
def defaultRedirects : Redirects :=
  [(0, { fd := 0, source := .fd 0, flag := O_RDONLY, mode := defaultMode, pipe := .none, borrowed := true }),
   (1, { fd := 1, source := .fd 1, flag := O_WRONLY ||| O_CREAT, mode := defaultMode, pipe := .none, borrowed := true }),
   (2, { fd := 2, source := .STRING, flag := O_WRONLY ||| O_CREAT, mode := defaultMode, pipe := .none, borrowed := false })]

/-- `Redirect("stdout", PIPE)`, as passed to `run` by iteration and `bytes()`, base.py:172, 182. -/
def stdoutPipe : Redirect :=
  { fd := 1, source := .PIPE, flag := O_WRONLY ||| O_CREAT, mode := defaultMode, pipe := .none, borrowed := false }

/-- The starting part of `Pipeline.run(redirects)`, base.py:146-150. -/
def runTop (sys : Sys) (cwd : Str) (p : Pipeline) (envRs : Redirects) (extra : List Redirect) :
    RunM (List Item × Redirects) := do
  let rs ← RunM.lift (Redirects.new (.table envRs :: extra.map .one))
  runP sys cwd p rs

end Pieshell
