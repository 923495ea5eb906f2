import Verif.Model.Flow
import Verif.Model.Signal
import Verif.Model.Job
/-!
# A pipeline from its start to the end of `wait()`

The three parts that take part in waiting for a pipeline, put together: the items at work (`Model/Flow`, started by
`Model/Run`), the kernel's reports of ended children and the signal manager (`Model/Signal`), and the shell's jobs (`Model/Job`).

* A program that ends makes the kernel report it: `_exit(c)` gives the status `c & 255`; a failing write kills a program that has reset `SIGPIPE` (13), other programs go on (`Model/Flow`).
* When the signal manager completes the `done_future` of the `ProcessSignalHandler` of a program
  (signalio/__init__.py:52-62), the task `await_finish` of the item is scheduled (running.py:196-198): `Job.Act.finish`.
* A python function that returns, or fails (a write that fails raises an exception), completes the `done_future` of its output
  handler directly (iterio.py:88-94, 106-118).

Any number of other children, pipelines, calls of `wait()`, signals may be around.

Simplifications: those of the three models.  The items begin to work when all of them have been started (`run()` does not return
to the event loop in between).  A stopped program is represented by one that does nothing for a while.  The only signal that
ends a program of the pipeline is `SIGPIPE`.
-/
namespace Pieshell.Whole

/-- The items, the signal manager and the jobs, together (running.py:63-336, signalio/__init__.py:45-75). -/
structure St (σ : Type) where
  flow : Flow.St σ
  sig : Sig.St
  job : Job.St

/-- Which job the pipeline is, and the process numbers of its programs. [running.py:255-262] -/
structure Link where
  net : Flow.Net
  job : Nat
  pid : Nat → Nat

/-- Item `k` is a program (`RunningProcess`), not a function (`RunningFunction`). [running.py:228, 255] -/
def Link.isProg (L : Link) (k : Nat) : Bool :=
  match L.net.items[k]? with
  | some (.proc ..) => true
  | _ => false

/-- `processes` (running.py:66), by number. -/
def Link.numbers (L : Link) : List Nat := List.range L.net.items.length

/-- `SIGPIPE` [Linux, signal(7)] -/
def SIGPIPE : Nat := 13

/-- What the kernel reports of program `k` when the items go from `s` to `t`.
[wait(2), for signalutils.py:42] -/
def Link.report (L : Link) {σ : Type} (s t : Flow.St σ) (k : Nat) : Option Sig.Change :=
  if L.isProg k then
    match s.proc k, t.proc k with
    | .running _, .exited c => some (.exited (c % 256))
    | .running _, .killed => some (.killed SIGPIPE false)
    | _, _ => none
  else none

/-- How function `k` ends when the items go from `s` to `t` (iterio.py:88-94, 106-118). -/
def Link.returned (L : Link) {σ : Type} (s t : Flow.St σ) (k : Nat) : Option Job.State :=
  if L.isProg k then none
  else match s.proc k, t.proc k with
    | .running _, .exited _ => some .returned
    | .running _, .killed => some .raised
    | _, _ => none

/-- `done_future.set_result` in `ProcessSignalHandler.handle_event` (signalio/__init__.py:52-62), for program `k`, and the exit code that
`RunningProcess.exit_code` reads from the last event (running.py:279-281). -/
def Link.completed (L : Link) (g g' : Sig.St) (k : Nat) : Option Job.State :=
  if L.isProg k then
    match g.procs.get? (L.pid k), g'.procs.get? (L.pid k) with
    | some ⟨_, false⟩, some ⟨some i, true⟩ => some (.exited i.status)
    | _, _ => none
  else none

/-- The tasks of the items that have ended are scheduled. [running.py:196-198] -/
def Link.finishes (L : Link) (f : Nat → Option Job.State) : List Job.Act :=
  L.numbers.filterMap fun k => (f k).map (Job.Act.finish L.job k)

/-- The reports of the kernel. [wait(2), for signalutils.py:42] -/
def Link.changes (L : Link) (f : Nat → Option Sig.Change) : List Sig.Act :=
  L.numbers.filterMap fun k => (f k).map (Sig.Act.change (L.pid k))

/-- A step of the kernel, another process, or the signal manager, other than the end of a program of this pipeline (which comes from the program).
[signal(7), wait(2); manager_signalfd.py:44-73] -/
def Link.Foreign (L : Link) (a : Sig.Act) : Prop := ∀ k ch, L.isProg k = true → a = .change (L.pid k) ch → ch.final = false

/-- One step of the whole.
[Composition of the models of command.py, running.py, signalio and iterio.py named above] -/
inductive Step {σ : Type} (next : Flow.Prog σ) (L : Link) : St σ → St σ → Prop
  /-- an item works -/
  | flow {s : St σ} {t : Flow.St σ} : Flow.Step next L.net s.flow t →
      Step next L s ⟨t, Sig.run s.sig (L.changes (L.report s.flow t)), Job.run s.job (L.finishes (L.returned s.flow t))⟩
  /-- the signal manager, the kernel, other processes -/
  | sig {s : St σ} {a : Sig.Act} : L.Foreign a →
      Step next L s ⟨s.flow, Sig.step s.sig a, Job.run s.job (L.finishes (L.completed s.sig (Sig.step s.sig a)))⟩
  /-- the event loop, calls of `wait()`, other pipelines -/
  | job {s : St σ} {a : Job.Act} : (∀ i o, a ≠ .finish L.job i o) → Step next L s ⟨s.flow, s.sig, Job.step s.job a⟩

/-- `fork()` of the programs, with the registration of their handlers (command.py:224-239, running.py:256-262). -/
def Link.spawns (L : Link) : List Sig.Act :=
  L.numbers.filterMap fun k => if L.isProg k then some (.spawn (L.pid k) true) else none

/-- The pipeline has just been started, after any history of jobs and signals: the programs' process numbers are new and different, item `k` is in
state `init k`, `xs` are the items of the job (with any `STRING` and `TMP` redirections). [base.py:143-154] -/
inductive Start {σ : Type} (L : Link) (init : Nat → σ) (src : Nat → Flow.Bytes) : St σ → Prop
  | mk {b : Bool} {m : Sig.Mgr} {as : List Job.Act} {bs : List Sig.Act} {xs : List Job.Spec} :
      (∀ j k, L.isProg j = true → L.isProg k = true → L.pid j = L.pid k → j = k) →
      (∀ k, L.isProg k = true → (Sig.run (Sig.init m) bs).kids.get? (L.pid k) = none) →
      L.job = (Job.run (Job.init b) as).pipes.length →
      Job.okSpecs (Job.run (Job.init b) as) xs = true →
      xs.map Job.Spec.kind = L.numbers.map (fun k => if L.isProg k then .proc else .func) →
      Start L init src ⟨Flow.St.start init src, Sig.run (Sig.run (Sig.init m) bs) L.spawns, Job.step (Job.run (Job.init b) as) (.start xs)⟩

/-- Any number of steps. [Histories of `Step`] -/
inductive Steps {σ : Type} (next : Flow.Prog σ) (L : Link) : St σ → St σ → Prop
  | nil {s : St σ} : Steps next L s s
  | snoc {s t u : St σ} : Steps next L s t → Step next L t u → Steps next L s u

end Pieshell.Whole
