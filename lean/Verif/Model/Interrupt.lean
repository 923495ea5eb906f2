import Verif.Model.Idle
/-!
# CTRL-C while the shell waits for a pipeline

`Pipeline.run_interactive` (pieshell/pipeline/base.py:156-162), `RunningPipeline.wait` (pieshell/pipeline/running.py:87-104) and asyncio's
`run_until_complete`, `Task.__step` (CPython 3.8-3.12, Lib/asyncio/base_events.py, tasks.py).  Python raises `KeyboardInterrupt` between two
bytecodes of the main thread, wherever these are: in the loop (usually: in `epoll`), or in the code of a task.  In a task it is stored in the task and
raised by the loop as well; in either case it leaves `run_until_complete`, and the task the loop was run for stays as it is.

The state of all pipelines is that of `Model/Job.lean`; a call of `wait()` that was ended by the exception has the state `over cancelled` there
(ended without a result).

Simplifications: CTRL-C while the loop does not run (at the prompt, or while a pipeline is being started) is not represented.  Within `wait()`, the
exception is raised before or after `restart()`, before or after the inner `try`, not in the middle of the code of these.
-/
namespace Pieshell.Interrupt
open Pieshell.Job (Res Waiter)

/-- How a call of `run_until_complete(pipeline.wait())` ends. [base.py:161-162, running.py:87-104] -/
inductive Outcome where
  | returned (r : Res)
  | keyboardInterrupt
  | pipelineInterrupted (p : Nat)
deriving DecidableEq, Repr

/-- Where `KeyboardInterrupt` is raised.
[running.py:87-104, 196-198; the rest of the loop is CPython Lib/asyncio] -/
inductive Where where
  /-- in the code of the event loop, in particular in `epoll` -/
  | loop
  /-- in call `w` of `wait()`, before the inner `try` (running.py:88-90) -/
  | enter (w : Nat)
  /-- inside the inner `try` (running.py:91-95); `restarted`: after line 92 -/
  | trying (w : Nat) (restarted : Bool)
  /-- after the inner `try` (running.py:98-102) -/
  | leave (w : Nat)
  /-- in `await_finish` of an item, before `handle_finish` (running.py:196-198) -/
  | task (p i : Nat)
deriving DecidableEq, Repr

/-- The jobs and the call of `run_until_complete` (base.py:161-162) that is under way, with the results of the finished ones. -/
structure Sh where
  job : Job.St
  /-- the call of `wait()` for which the loop is run -/
  fore : Option Nat
  outcomes : List Outcome
deriving DecidableEq, Repr

/-- Nothing has been started (running.py:63-74). -/
def init (interactive : Bool) : Sh := ⟨Job.init interactive, none, []⟩

/-- Steps of the jobs (running.py:63-220), calls of `run_until_complete(p.wait())` (base.py:156-162), CTRL-C (running.py:96-97). -/
inductive Act where
  /-- a step of the loop, of processes, or of python code -/
  | job (a : Job.Act)
  /-- `run_until_complete(p.wait())` -/
  | call (p : Nat)
  /-- `run_until_complete` returns -/
  | ret
  | interrupt (x : Where)
deriving DecidableEq, Repr

/-- The state of a call of `wait()`. [running.py:87-104] -/
def stOf (s : Job.St) (w : Nat) : Option Job.WState := (s.waiters[w]?).map Waiter.st
/-- The pipeline whose `wait()` it is (running.py:87). -/
def pipeOf (s : Job.St) (w : Nat) : Nat := ((s.waiters[w]?).map Waiter.pipe).getD 0

/-- The exception can be raised there: the code is about to be executed by the loop.
[running.py:87-104, 196-198] -/
def possible (s : Job.St) : Where → Bool
  | .loop => true
  | .enter w => decide (stOf s w = some .fresh)
  | .trying w _ => decide (stOf s w = some .fresh) || decide (stOf s w = some .woken)
  | .leave w => (decide (stOf s w = some .fresh) && !Job.running s.pipes (pipeOf s w)) ||
      (decide (stOf s w = some .woken) && (Job.suspendedOf s (pipeOf s w) || !Job.running s.pipes (pipeOf s w)))
  | .task p i => decide ((Job.itemAt s p i).map Job.Item.task = some .queued)

/-- The call ends with the exception; line 104. [running.py:103-104] -/
def broken (s : Job.St) (w : Nat) : Job.St :=
  { s.modWaiter w (fun W => { W with st := .over .cancelled }) with current := none }

/-- What has been done when the exception is raised. [running.py:87-104, 196-198] -/
def after (s : Job.St) : Where → Job.St
  | .loop => s
  | .enter w => broken s w
  | .trying w restarted => broken (if restarted && decide (stOf s w = some .fresh) then Job.restart s (pipeOf s w) else s) w
  | .leave w => broken (if stOf s w = some .fresh then Job.restart s (pipeOf s w) else s) w
  | .task p i => s.modItem p i (fun it => { it with task := .over })

/-- The exception that leaves `run_until_complete` (running.py:96-97). -/
def raised (s : Job.St) : Where → Outcome
  | .trying w _ => .pipelineInterrupted (pipeOf s w)
  | _ => .keyboardInterrupt

/-- One step; steps that are not possible do nothing.  Steps of the loop happen only while it runs.
[base.py:156-162, running.py:87-104] -/
def step (s : Sh) : Act → Sh
  | .job a => if a.outside || s.fore.isSome then { s with job := Job.step s.job a } else s
  | .call p => if s.fore = none ∧ p < s.job.pipes.length then
      { s with job := Job.step s.job (.wait p), fore := some s.job.waiters.length } else s
  | .ret => match s.fore with
    | none => s
    | some w => match stOf s.job w with
      | some (.over r) => { s with fore := none, outcomes := s.outcomes ++ [.returned r] }
      | _ => s
  | .interrupt x => if s.fore.isSome && possible s.job x then
      ⟨after s.job x, none, s.outcomes ++ [raised s.job x]⟩ else s

/-- A history (base.py:156-162, running.py:87-104). -/
def run (s : Sh) (as : List Act) : Sh := as.foldl step s

end Pieshell.Interrupt
