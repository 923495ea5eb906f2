import Verif.Model.Reader
import Verif.Model.Job

/-!
Iterating over a pipeline: `Pipeline.__aiter__`, `__iter__`, `__bytes__` (pieshell/pipeline/base.py:170-182) make a reader of
the running pipeline's output pipe with `at_eof=self.wait` (`RunningPipeline.__aiter__`, `iterbytes`, running.py:75-78).  At the
end of the stream the reader calls and awaits `wait()` of the pipeline, and raises `StopAsyncIteration` only after that has
returned; its exceptions reach the consumer instead (iterio.py:169-171, 211-213).

The system is the product of a reader (`Model/Reader.lean`) and the jobs of the environment (`Model/Job.lean`).
`asyncitertoiter` (utils/asyncutils.py:4-12) runs the event loop until `__anext__` is done: for the system that is just one of
the schedules in which the loop has steps only while the consumer is inside `__anext__`.

Simplification: that the pipe is written to and closed by the processes of the pipeline is not represented; writes and the
closing of the pipe may happen at any time.
-/
namespace Pieshell.Iterate
open Pieshell.Io (RAct Cons)
open Pieshell

/-- A reader class: its initial state, its steps, its consumer. [iterio.py:144-217] -/
structure Reader (S : Type) where
  init : S
  step : S → RAct → S
  cons : S → Cons

/-- `LineInputHandler`. [iterio.py:187-217] -/
def lines : Reader Io.Line.St := ⟨Io.Line.init, Io.Line.step, Io.Line.St.cons⟩
/-- `InputHandler`. [iterio.py:144-177] -/
def chunks : Reader Io.Chunk.St := ⟨Io.Chunk.init, Io.Chunk.step, Io.Chunk.St.cons⟩

/-- The reader, the jobs, the pipeline iterated over, and the call of `wait()` made by the consumer's last `__anext__`, if
that has reached the end of the stream. [running.py:75-78, 87-104; iterio.py:144-217] -/
structure St (S : Type) where
  rd : S
  job : Job.St
  pipe : Nat
  call : Option Nat

/-- Steps of the reader (iterio.py:144-217) and of the jobs (running.py:63-220). -/
inductive Act where
  | io (a : RAct)
  | job (a : Job.Act)
deriving DecidableEq, Repr

/-- The consumer runs inside `__anext__` with this step, from its beginning or after its `await`.
[iterio.py:167-177, 206-217] -/
def runs (c : Cons) : RAct → Bool
  | .next => decide (c = .idle ∨ c = .stopped)
  | .resume => decide (c = .woken)
  | _ => false

/-- The call of `wait()` has ended (returned or raised an exception). [running.py:87-104] -/
def over (j : Job.St) (w : Nat) : Bool :=
  match j.waiters[w]? with
  | some W => match W.st with
    | .over _ => true
    | _ => false
  | none => false

/-- The consumer is awaiting `at_eof()`. [iterio.py:170, 212] -/
def atEof {S : Type} (s : St S) : Bool :=
  match s.call with
  | some w => !over s.job w
  | none => false

/-- One step.  While the consumer awaits `at_eof()` it can take no other steps; when it comes to the end of the stream, it
calls `wait()` (iterio.py:170, 212). -/
def step {S : Type} (R : Reader S) (s : St S) : Act → St S
  | .job a => { s with job := Job.step s.job a }
  | .io a =>
    if runs (R.cons s.rd) a then
      if atEof s then s
      else if R.cons (R.step s.rd a) = .stopped then
        { s with rd := R.step s.rd a, job := Job.step s.job (.wait s.pipe), call := some s.job.waiters.length }
      else { s with rd := R.step s.rd a, call := none }
    else { s with rd := R.step s.rd a }

/-- A history (iterio.py:144-217, running.py:63-220). -/
def run {S : Type} (R : Reader S) (s : St S) (as : List Act) : St S := as.foldl (step R) s

/-- Pipeline `p` has just been run, and a reader of its output has been made.
[base.py:170-182, running.py:75-78] -/
def start {S : Type} (R : Reader S) (j : Job.St) (p : Nat) : St S := ⟨R.init, j, p, none⟩

/-- How the iteration has ended: `ok` for `StopAsyncIteration`, otherwise the exception of `wait()`.
[iterio.py:170-171, 212-213] -/
def outcome {S : Type} (s : St S) : Option Job.Res :=
  match s.call with
  | none => none
  | some w => match s.job.waiters[w]? with
    | some W => match W.st with
      | .over r => some r
      | _ => none
    | none => none

end Pieshell.Iterate
