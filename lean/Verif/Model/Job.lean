import Verif.Model.Text

/-!
Running pipelines: `pieshell/pipeline/running.py` (RunningPipeline, RunningItem, StopSignalHandler), `Pipeline.run`
(pieshell/pipeline/base.py:143-154) and the builtins `bg`, `fg` (pieshell/pipeline/builtins.py:45-80).

A state holds all pipelines that were run in one environment, in the order of `run()`; a pipeline is named by its number.
A waiter is one call of `RunningPipeline.wait()`, that of a user or of the task of an `fg` item.  The event loop and the
child processes are represented by steps, which may happen in any order.

`KeyboardInterrupt` (CTRL-C) is raised by the event loop, not in `wait()`: it leaves `run_until_complete`, and the task of the `wait()` stays as it is; so
the waiter goes on, and nobody gets its result.

Simplifications: `KeyboardInterrupt` at the very moment when the code of a task is executed is not represented.  Cancelling a waiter leaves its future, now
cancelled, in `finish_future`, and setting it raises `InvalidStateError`; this is always the last action of a task or of a signal handler, so such a future is
represented by `none`.  The step `finish` is the
moment when the item's `done_future` is completed (for a process: in the signal manager, see `Model/Signal.lean`, so a
process killed by a signal never finishes; for a function: in the output handler, see `Model/Writer.lean`).  Futures are
named by the waiter that awaits them: a waiter awaits one future at a time, and a future that is set is forgotten at once.
A temporary file's name is never used again, by other pipelines or by other programs.
-/
namespace Pieshell.Job
open Pieshell.Io (Bytes)

/-- The path of a temporary file (redir.py:131-132). -/
abbrev Path := Str

/-- Items of a running pipeline: `RunningProcess`, `RunningFunction`, `RunnningFg` with the wrapped pipeline.
[running.py:190-336, builtins.py:57-69] -/
inductive Kind where
  | proc
  | func
  | fg (target : Nat)
deriving DecidableEq, Repr

/-- What became of a process or function. [running.py:199-201, 229-231, 276-281] -/
inductive State where
  | running
  | exited (code : Nat)
  | returned
  | raised
deriving DecidableEq, Repr

/-- The task `await_finish` of a process or function: waiting for the item, scheduled, ended.
[running.py:195-198, builtins.py:60, 67-69] -/
inductive Task where
  | waiting | queued | over
deriving DecidableEq, Repr

/-- `RunningItem` (running.py:190-220) or `RunnningFg` (builtins.py:57-69), with its files (running.py:202-220). -/
structure Item where
  kind : Kind
  state : State
  task : Task
  /-- stopped by `SIGSTOP` -/
  stopped : Bool
  /-- `STRING` redirections: descriptor and file -/
  strings : Dict Nat Path
  /-- `TMP` redirections -/
  tmps : Dict Nat Path
  /-- `output_content` -/
  output : Dict Nat Str
deriving DecidableEq, Repr

/-- `RunningPipeline` (running.py:63-74). -/
structure Pipe where
  items : List Item
  /-- `pipeline_suspended` -/
  suspended : Bool
  finished : Bool
  /-- `finish_future`: awaited by this waiter -/
  fut : Option Nat
  /-- ghost: collecting the output raised an exception -/
  crashed : Bool
  /-- ghost: the item that finished last -/
  lastEnd : Option Nat
  /-- ghost: nothing was running when the pipeline was started -/
  born : Bool
deriving DecidableEq, Repr

/-- How `wait()` ended: normally, `PipelineFailed` (with the numbers of the failed items), `PipelineSuspended`, `CancelledError`.
[running.py:87-104] -/
inductive Res where
  | ok
  | failed (items : List Nat)
  | suspended
  | cancelled
deriving DecidableEq, Repr

/-- Where a call of `wait()` is (running.py:87-104). -/
inductive WState where
  | fresh
  | awaiting
  | woken
  /-- `CancelledError` is going to be raised in it; whether it had begun -/
  | cancelled (began : Bool)
  | over (r : Res)
deriving DecidableEq, Repr

/-- A call of `wait()` (running.py:87-104), by a user's task or by the task of an `fg` item (builtins.py:67-69). -/
structure Waiter where
  pipe : Nat
  /-- the pipeline of the `fg` item whose task this is -/
  cont : Option Nat
  st : WState
  /-- ghost: another `wait()` of the same pipeline began to wait while this one was waiting -/
  shadowed : Bool
deriving DecidableEq, Repr

/-- All pipelines, calls of `wait()`, `stop_signal_handler.current_pipeline` (running.py:29-45), `env.running_pipelines` (environ.py:61), files (redir.py:131-132). -/
structure St where
  interactive : Bool
  pipes : List Pipe
  waiters : List Waiter
  /-- `stop_signal_handler.current_pipeline` -/
  current : Option Nat
  /-- `env.running_pipelines` -/
  running : List Nat
  /-- `env.last_pipeline` -/
  last : Option Nat
  /-- the temporary files -/
  fs : Dict Path Bytes
  /-- ghost: for every temporary file, the pipeline it was made for, and all that was written to it -/
  written : Dict Path (Nat × Bytes)
deriving DecidableEq, Repr

/-- Nothing has been started: environ.py:44-61, running.py:30-32. -/
def init (interactive : Bool) : St := ⟨interactive, [], [], none, [], none, [], []⟩

/-! ### State of items and pipelines -/

/-- `processes` (running.py:66). -/
def itemsOf (ps : List Pipe) (p : Nat) : List Item := (ps[p]?.map Pipe.items).getD []

/-- `is_running` of an item (running.py:199-201, builtins.py:61-63), given that of pipelines. -/
def itemRunning (rp : Nat → Bool) (it : Item) : Bool :=
  match it.kind with
  | .fg t => rp t
  | _ => decide (it.state = .running)

/-- `RunningPipeline.is_running` (running.py:128-137).  The number bounds the nesting of `fg`. -/
def runningN : Nat → List Pipe → Nat → Bool
  | 0, _, _ => false
  | n + 1, ps, p => (itemsOf ps p).any (itemRunning (runningN n ps))

/-- `RunningPipeline.is_running` (running.py:128-137). -/
def running (ps : List Pipe) (p : Nat) : Bool := runningN ps.length ps p

/-- `is_failed` of an item (running.py:229-231, 276-281, builtins.py:64-66). -/
def itemFailed (fp : Nat → Bool) (it : Item) : Bool :=
  match it.kind, it.state with
  | .fg t, _ => fp t
  | .proc, .exited c => decide (c ≠ 0)
  | .func, .raised => true
  | _, _ => false

/-- `RunningPipeline.is_failed` (running.py:138-140, 123-127). -/
def failedN : Nat → List Pipe → Nat → Bool
  | 0, _, _ => false
  | n + 1, ps, p => (itemsOf ps p).any (fun it => !itemRunning (runningN n ps) it && itemFailed (failedN n ps) it)

/-- `RunningPipeline.is_failed` (running.py:123-127, 138-140). -/
def isFailed (ps : List Pipe) (p : Nat) : Bool := failedN ps.length ps p

/-- `failed_processes` (running.py:123-127), as item numbers. -/
def failedItems (ps : List Pipe) (p : Nat) : List Nat :=
  (List.range (itemsOf ps p).length).filter (fun i =>
    ((itemsOf ps p)[i]?.map (fun it => !itemRunning (running ps) it && itemFailed (isFailed ps) it)).getD false)

/-! ### Elementary changes -/

/-- Assignments to attributes of a pipeline, e.g. running.py:80, 84, 109. -/
def St.modPipe (s : St) (p : Nat) (f : Pipe → Pipe) : St := { s with pipes := s.pipes.modify p f }
/-- Progress of a call of `wait()` (running.py:87-104). -/
def St.modWaiter (s : St) (w : Nat) (f : Waiter → Waiter) : St := { s with waiters := s.waiters.modify w f }

/-- `self.finish_future.set_result(None); self.finish_future = None` if it is not `None`
(running.py:116-118, 36-38). -/
def resolve (s : St) (p : Nat) : St :=
  match (s.pipes[p]?).bind Pipe.fut with
  | none => s
  | some w => (s.modWaiter w (fun W => { W with st := .woken })).modPipe p (fun P => { P with fut := none })

/-- `restart` of an item: `SIGCONT` to a process (running.py:263-267, 183-184). -/
def Item.cont (it : Item) : Item := if it.kind = .proc then { it with stopped := false } else it
/-- `suspend` of an item: `SIGSTOP` to a process that exists (running.py:268-272, 185-186). -/
def Item.stop (it : Item) : Item := if it.kind = .proc ∧ it.state = .running then { it with stopped := true } else it

/-- `RunningPipeline.restart` (running.py:79-82). -/
def restart (s : St) (p : Nat) : St :=
  s.modPipe p (fun P => { P with suspended := false, items := P.items.map Item.cont })

/-- `RunningPipeline.suspend` (running.py:83-86). -/
def suspend (s : St) (p : Nat) : St :=
  s.modPipe p (fun P => { P with suspended := true, items := P.items.map Item.stop })

/-! ### Collecting output -/

/-- Universal newlines, as done by a file opened in text mode.
[CPython's `io.TextIOWrapper`, for running.py:212-213] -/
def newlines : Str → Str
  | '\r' :: '\n' :: l => '\n' :: newlines l
  | '\r' :: l => '\n' :: newlines l
  | c :: l => c :: newlines l
  | [] => []

/-- `open(path).read()`: `none` if there is no such file or it cannot be decoded. [running.py:212-213] -/
def readFile (fs : Dict Path Bytes) (path : Path) : Option Str :=
  (fs.get? path).bind (fun b => (Io.decode b).map newlines)

/-- The loop of `RunningItem.handle_pipeline_finish` (running.py:207-213); `false`: an exception ended it. -/
def readStrings (fs : Dict Path Bytes) : Dict Nat Path → Dict Nat Str → Dict Nat Str × Bool
  | [], out => (out, true)
  | (fd, path) :: l, out => match readFile fs path with
    | none => (out, false)
    | some c => readStrings fs l (out.set fd c)

/-- The first loop over the processes (running.py:110-111). -/
def readItems (fs : Dict Path Bytes) : List Item → List Item × Bool
  | [] => ([], true)
  | it :: l =>
    let r := readStrings fs it.strings it.output
    if r.2 then (({ it with output := r.1 } : Item) :: (readItems fs l).1, (readItems fs l).2)
    else (({ it with output := r.1 } : Item) :: l, false)

/-- The second loop (running.py:112-113, 214-220): missing files are ignored. -/
def unlinkItems (fs : Dict Path Bytes) (items : List Item) : Dict Path Bytes :=
  items.foldl (fun fs it => it.strings.foldl (fun fs kv => fs.erase kv.2) fs) fs

/-- The body of the first `if` of `handle_finish` (running.py:109-115); the exception of a file that cannot be read or
decoded is in `crashed`. -/
def collect (s : St) (p : Nat) : St :=
  let items := itemsOf s.pipes p
  let r := readItems s.fs items
  if r.2 then
    { s.modPipe p (fun P => { P with finished := true, items := r.1 }) with
      fs := unlinkItems s.fs items, running := s.running.erase p }
  else s.modPipe p (fun P => { P with finished := true, items := r.1, crashed := true })

/-- An exception has left `handle_finish` (running.py:107-118; raised at 212-213). -/
def crashedOf (s : St) (p : Nat) : Bool := ((s.pipes[p]?).map Pipe.crashed).getD false
/-- `finished` (running.py:69, 109). -/
def finishedOf (s : St) (p : Nat) : Bool := ((s.pipes[p]?).map Pipe.finished).getD false
/-- `pipeline_suspended` (running.py:68, 80, 84). -/
def suspendedOf (s : St) (p : Nat) : Bool := ((s.pipes[p]?).map Pipe.suspended).getD false

/-- `RunningPipeline.handle_finish` (running.py:107-118). -/
def handleFinish (s : St) (p : Nat) : St :=
  if !running s.pipes p && !finishedOf s p then
    let t := collect s p
    if crashedOf t p then t else resolve t p
  else resolve s p

/-! ### Waiting -/

/-- `future = self.finish_future = ...create_future(); await future` (running.py:94-95). -/
def register (s : St) (w p : Nat) : St :=
  let s := match (s.pipes[p]?).bind Pipe.fut with
    | some w' => if w' = w then s else s.modWaiter w' (fun W => { W with shadowed := true })
    | none => s
  (s.modPipe p (fun P => { P with fut := some w })).modWaiter w (fun W => { W with st := .awaiting })

/-- How `wait()` ends (running.py:98-102). -/
def result (s : St) (p : Nat) : Res :=
  if suspendedOf s p then .suspended
  else match failedItems s.pipes p with
    | [] => .ok
    | l => .failed l

/-- The end of `wait()`; the task of an `fg` item then calls `handle_finish` of its own pipeline, unless an exception was
raised (running.py:98-104, builtins.py:67-69). -/
def finishWait (s : St) (w p : Nat) (cont : Option Nat) : St :=
  let r := result s p
  let s := if suspendedOf s p then suspend s p else s
  let s := { s.modWaiter w (fun W => { W with st := .over r }) with current := none }
  match r, cont with
  | .ok, some q => handleFinish s q
  | _, _ => s

/-- The loop condition of `wait()` (running.py:93). -/
def loopCheck (s : St) (w p : Nat) (cont : Option Nat) : St :=
  if !suspendedOf s p && running s.pipes p then register s w p else finishWait s w p cont

/-- A waiter runs until it awaits or ends (running.py:87-104). -/
def resume (s : St) (w : Nat) : St :=
  match s.waiters[w]? with
  | none => s
  | some W => match W.st with
    | .fresh =>
      let s := if s.interactive then { s with current := some W.pipe } else s
      loopCheck (restart s W.pipe) w W.pipe W.cont
    | .woken => loopCheck s w W.pipe W.cont
    | .cancelled began =>
      -- running.py:103-104; a coroutine that has not begun is not executed at all
      let s := s.modWaiter w (fun W => { W with st := .over .cancelled })
      if began then { s with current := none } else s
    | _ => s

/-- `CancelledError` will be raised in waiter `w` of pipeline `p`; if `finish_future` is the future it awaits, that is cancelled.
[running.py:94-95, 103-104] -/
def drop (s : St) (w p : Nat) (began : Bool) : St :=
  (s.modWaiter w (fun W => { W with st := .cancelled began })).modPipe p (fun P => { P with fut := if P.fut = some w then none else P.fut })

/-- `Task.cancel()` of the task that executes `wait()`, e.g. by `asyncio.wait_for` after its time has passed. -/
def cancel (s : St) (w : Nat) : St :=
  match s.waiters[w]? with
  | none => s
  | some W => match W.st with
    | .fresh => drop s w W.pipe false
    | .awaiting => drop s w W.pipe true
    | .woken => drop s w W.pipe true
    | _ => s

/-! ### Starting -/

/-- An item that `_run` returns (command.py:237-243, function.py:105-112, builtins.py:80), with its temporary files (redir.py:131-132). -/
structure Spec where
  kind : Kind
  strings : Dict Nat Path
  tmps : Dict Nat Path
deriving DecidableEq, Repr

/-- running.py:190-195. -/
def Spec.item (x : Spec) : Item := ⟨x.kind, .running, .waiting, false, x.strings, x.tmps, []⟩
/-- redir.py:131-132. -/
def Spec.paths (x : Spec) : List Path := x.strings.map Prod.snd ++ x.tmps.map Prod.snd
/-- builtins.py:59. -/
def Spec.target (x : Spec) : Option Nat := match x.kind with | .fg t => some t | _ => none

/-- Wrapped pipelines exist, file names are new, the file of a `STRING` is not that of a `TMP`; an `fg` item has no
redirections. [redir.py:131 (mkstemp gives new names), builtins.py:77-80] -/
def okSpecs (s : St) (xs : List Spec) : Bool :=
  xs.all (fun x => ((x.target.map (fun t => decide (t < s.pipes.length))).getD true) &&
    x.paths.all (fun path => (s.written.get? path).isNone && (s.fs.get? path).isNone) &&
    decide ((x.strings.map Prod.fst).Nodup) &&
    xs.all (fun y => x.strings.all (fun kv => !decide (kv.2 ∈ y.tmps.map Prod.snd))) && (x.target.isNone || x.paths.isEmpty))

/-- redir.py:131-132. -/
def addFiles (d : Dict Path α) (v : α) (xs : List Spec) : Dict Path α :=
  (xs.flatMap Spec.paths).foldl (fun d path => d.set path v) d

/-- `Pipeline.run` (base.py:143-154) with the items that `_run` returned; the constructor of `RunningPipeline`
(running.py:64-74); the constructor of `RunnningFg` starts its task (builtins.py:58-60). -/
def start (s : St) (xs : List Spec) : St :=
  if okSpecs s xs then
    let p := s.pipes.length
    let born := !(xs.map Spec.item).any (itemRunning (running s.pipes))
    let s := { s with
      pipes := s.pipes ++ [⟨xs.map Spec.item, false, false, none, false, none, born⟩]
      waiters := s.waiters ++ (xs.filterMap Spec.target).map (fun t => (⟨t, some p, .fresh, false⟩ : Waiter))
      fs := addFiles s.fs [] xs
      written := addFiles s.written (p, []) xs }
    let s := handleFinish s p
    { s with last := some p, running := s.running ++ [p] }
  else s

/-! ### Removing files -/

/-- `BaseRunningItem.remove_output_files` (running.py:178-182); `false`: `FileNotFoundError`. -/
def removeTmps (fs : Dict Path Bytes) : Dict Nat Path → Dict Path Bytes × Bool
  | [] => (fs, true)
  | (_, path) :: l => match fs.get? path with
    | none => (fs, false)
    | some _ => removeTmps (fs.erase path) l

/-- `RunningPipeline.remove_output_files` (running.py:120-122). -/
def removeItems (fs : Dict Path Bytes) : List Item → Dict Path Bytes × Bool
  | [] => (fs, true)
  | it :: l =>
    let r := removeTmps fs it.tmps
    if r.2 then removeItems r.1 l else r

/-! ### Exit codes -/

/-- `exit_code` of an item (running.py:279-281, and the attribute of the class, 172); `none`: an exception is raised, or the
process is still running. -/
def Item.exitCode (it : Item) : Option Nat :=
  match it.kind, it.state with
  | .proc, .exited c => some c
  | .proc, _ => none
  | _, _ => some 0

/-- `RunningPipeline.exit_code` (running.py:141-143). -/
def pipeExit (ps : List Pipe) (p : Nat) : Option Nat := ((itemsOf ps p).getLast?).bind Item.exitCode

/-- The exit status of a subshell (builtins.py:187-194) whose pipeline `p` was waited for with the given result.  An
exception raised by `exit_code` leaves `_child`, and `Command._run` exits with -1, that is 255 (command.py:225-233). -/
def subshellExit (ps : List Pipe) (p : Nat) : Res → Nat
  | .ok => 0
  | _ => ((pipeExit ps p).map (· % 256)).getD 255

/-! ### Steps -/

/-- What can happen: base.py:143-154, running.py:87-104, 120-122, 196-198, 29-39, builtins.py:50-55, and what programs do. -/
inductive Act where
  | start (xs : List Spec)
  /-- a task calls `wait()` of a pipeline -/
  | wait (p : Nat)
  | resume (w : Nat)
  | cancel (w : Nat)
  /-- a process or function ends -/
  | finish (p i : Nat) (o : State)
  /-- the loop runs the scheduled task `await_finish` of an item -/
  | task (p i : Nat)
  /-- CTRL-Z: the stop handler is called -/
  | tstp
  | write (p i : Nat) (path : Path) (data : Bytes)
  | restart (p : Nat)
  | suspend (p : Nat)
  | bg
  | fg
  | removeFiles (p : Nat)
deriving DecidableEq, Repr

/-- Possible ends of an item: a process exits with a code, a function returns or raises.
[running.py:229-231, 276-281] -/
def okEnd : Kind → State → Bool
  | .proc, .exited _ => true
  | .func, .returned => true
  | .func, .raised => true
  | _, _ => false

/-- `processes[i]` (running.py:66). -/
def itemAt (s : St) (p i : Nat) : Option Item := (itemsOf s.pipes p)[i]?

/-- Changes of an item's attributes, e.g. running.py:213. -/
def St.modItem (s : St) (p i : Nat) (f : Item → Item) : St :=
  s.modPipe p (fun P => { P with items := P.items.modify i f })

/-- One step; steps that are not possible do nothing. [running.py:29-39, 63-220, base.py:143-154] -/
def step (s : St) : Act → St
  | .start xs => start s xs
  | .wait p => if p < s.pipes.length then { s with waiters := s.waiters ++ [⟨p, none, .fresh, false⟩] } else s
  | .resume w => resume s w
  | .cancel w => cancel s w
  | .finish p i o => match itemAt s p i with
    | none => s
    | some it => if it.state = .running ∧ okEnd it.kind o = true then
        (s.modItem p i (fun it => { it with state := o, task := .queued })).modPipe p (fun P => { P with lastEnd := some i })
      else s
  | .task p i => match itemAt s p i with
    | none => s
    | some it => if it.task = .queued then
        let t := s.modItem p i (fun it => { it with task := .over })
        -- running.py:196-198: the exception of a function is raised by `wait()`, and ends the task
        if it.state = .raised then t else handleFinish t p
      else s
  | .tstp => match s.current with
    | none => s
    | some p => resolve (s.modPipe p (fun P => { P with suspended := true })) p
  | .write p i path data => match itemAt s p i with
    | none => s
    | some it => if it.state = .running ∧ (path ∈ it.strings.map Prod.snd ∨ path ∈ it.tmps.map Prod.snd) then
        match s.fs.get? path, s.written.get? path with
        | some old, some (o, all) => { s with fs := s.fs.set path (old ++ data), written := s.written.set path (o, all ++ data) }
        | _, _ => s
      else s
  | .restart p => restart s p
  | .suspend p => suspend s p
  | .bg => match s.last with
    | none => s
    | some t => start (restart s t) []
  | .fg => match s.last with
    | none => s
    | some t => start s [⟨.fg t, [], []⟩]
  | .removeFiles p => { s with fs := (removeItems s.fs (itemsOf s.pipes p)).1 }

/-- A history (running.py:63-220). -/
def run (s : St) (as : List Act) : St := as.foldl step s

/-- `bg(job)` (builtins.py:50-55): `job.restart()`, then a pipeline without processes is started.  The copy of the command made by `Pipeline.run` holds the
same job (`deepcopy` returns a `RunningPipeline` as it is: it has no `__deepcopy__`). -/
def bgOn (job : Nat) : List Act := [.restart job, .start []]

/-- `fg(job)` (builtins.py:76-80): a pipeline with one `RunnningFg` item is started. -/
def fgOn (job : Nat) : List Act := [.start [⟨.fg job, [], []⟩]]

end Pieshell.Job
