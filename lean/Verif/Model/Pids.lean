import Verif.Model.Base
/-!
Which processes pieshell sends signals to: `RunningPipeline.restart`, `suspend` and `wait` (pieshell/pipeline/running.py:79-104),
`RunningProcess.restart`, `suspend` (running.py:263-272), on a kernel that reuses process numbers.

A process number is taken until the process has ended and has been waited for; then the kernel may give it to any new process.  The shell
waits for all of its ended children whenever it handles SIGCHLD (signalio/signalutils.py:39-85, manager_signalfd.py:44-73).

Simplifications: python functions in a pipeline (which get no signals) are left out; what processes do besides stopping, continuing and
ending is left out; a process of somebody else disappears when it ends.
-/
namespace Pieshell.Pids

/-- Whose process it is. [command.py:224, running.py:262] -/
inductive Who where
  /-- started by this shell: job and item -/
  | ours (job item : Nat)
  /-- any other process; `may`: the shell is allowed to send it signals -/
  | other (id : Nat) (may : Bool)
deriving DecidableEq, Repr

/-- A process in the kernel's table, as seen by running.py:263-272. -/
structure Proc where
  who : Who
  stopped : Bool := false
  zombie : Bool := false
deriving DecidableEq, Repr

/-- The kernel's process table and the shell's jobs (environ.py:61, running.py:255-262). -/
structure St where
  /-- the kernel's table: process number ↦ process -/
  table : Nat → Option Proc := fun _ => none
  /-- the jobs: the process numbers (`iohandler.pid`) of their items -/
  jobs : List (List Nat) := []

/-- The kernel's table is changed (fork(2), wait(2)). -/
def St.put (s : St) (pid : Nat) (p : Option Proc) : St := { s with table := fun n => if n = pid then p else s.table n }

/-- The signals sent at running.py:265, 270. -/
inductive Sig where
  | cont | stop
deriving DecidableEq, Repr

/-- What a signal does to a process. [signal(7), for running.py:265, 270] -/
def Sig.on (g : Sig) (p : Proc) : Proc := if p.zombie then p else { p with stopped := g = .stop }

/-- `os.kill(pid, sig)` [kill(2), called at running.py:265, 270] -/
def kill (s : St) (pid : Nat) (g : Sig) : St × Except Exn Unit :=
  match s.table pid with
  | none => (s, .error (.osError 3))
  | some p => match p.who with
    | .other _ false => (s, .error (.osError 1))
    | _ => (s.put pid (some (g.on p)), .ok ())

/-- `RunningProcess.restart`/`suspend` (running.py:263-272): ESRCH (3) is ignored, EPERM (1) is not. -/
def signalItem (s : St) (g : Sig) (pid : Nat) : St × Except Exn Unit :=
  match kill s pid g with
  | (s', .error (.osError 3)) => (s', .ok ())
  | r => r

/-- The loops of `RunningPipeline.restart`/`suspend` (running.py:79-86). -/
def signalAll (g : Sig) : List Nat → St → St × Except Exn Unit
  | [], s => (s, .ok ())
  | pid :: l, s => match signalItem s g pid with
    | (s', .ok ()) => signalAll g l s'
    | r => r

/-- command.py:224, running.py:79-86, signalutils.py:39-85, and what other processes do. -/
inductive Op where
  /-- a job is started; the kernel gives its processes these numbers -/
  | start (pids : List Nat)
  /-- somebody else starts a process -/
  | fork (pid id : Nat) (may : Bool)
  /-- a process ends -/
  | exit (pid : Nat)
  /-- the shell handles SIGCHLD: it waits for all of its ended children -/
  | reap
  /-- `restart()`, called by `wait()`, `bg`, `fg` and at the end of an iteration -/
  | restart (job : Nat)
  /-- `suspend()`, called by `wait()` after CTRL-Z -/
  | suspend (job : Nat)

/-- The forks of one job. [command.py:224-238] -/
def startItems (job : Nat) : Nat → List Nat → St → St
  | _, [], s => s
  | i, pid :: l, s => startItems job (i + 1) l (s.put pid (some { who := .ours job i }))

/-- The kernel gives out free numbers, all different. [fork(2), called at command.py:224] -/
def Fresh (s : St) (pids : List Nat) : Prop := pids.Nodup ∧ ∀ p ∈ pids, s.table p = none

instance (s : St) (pids : List Nat) : Decidable (Fresh s pids) := by unfold Fresh; infer_instance

/-- Numbers that are not free are not given out: then nothing happens.
[command.py:224-238, running.py:79-86, signalutils.py:39-85] -/
def step (s : St) : Op → St
  | .start pids => if Fresh s pids then
      let s' := startItems s.jobs.length 0 pids s
      { s' with jobs := s'.jobs ++ [pids] } else s
  | .fork pid id may => if s.table pid = none then s.put pid (some { who := .other id may }) else s
  | .exit pid => match s.table pid with
    | none => s
    | some p => match p.who with
      | .ours _ _ => s.put pid (some { p with zombie := true })
      | .other _ _ => s.put pid none
  | .reap => { s with table := fun n => match s.table n with
      | some ⟨.ours _ _, _, true⟩ => none
      | x => x }
  | .restart j => (signalAll .cont ((s.jobs[j]?).getD []) s).1
  | .suspend j => (signalAll .stop ((s.jobs[j]?).getD []) s).1

/-- A history of such steps. -/
def run (s : St) (ops : List Op) : St := ops.foldl step s

end Pieshell.Pids
