import Verif.Model.Base

/-!
Signals: `pieshell/signalio/signalutils.py` (get_sigchlds), `pieshell/signalio/__init__.py` (handlers),
`manager_signalfd.py` and `manager_asyncio.py` (the two signal managers).

The kernel part: a child has at most one unreported state change (a later change replaces an unreported earlier one; a
termination is final); any change makes `SIGCHLD` pending, and a pending signal is not queued twice; `waitpid(-1, ...)`
returns the unreported change of any child that has one.  State changes may happen at any time, also between two
`waitpid` calls of one callback.

Simplifications: process ids are not reused; of the fields of a siginfo only `ssi_signo`, `ssi_code`, `ssi_pid` and
`ssi_status` are represented; `fork` and the registration of the child's handler are one step, because the loop does
not run in between (`BaseCommand._run` is not asynchronous).
-/
namespace Pieshell.Sig

/-- Linux, signal(7); used at signalutils.py:65, manager_signalfd.py:16, 59. -/
def SIGCHLD : Nat := 17
/-- Linux, signal(7); used at manager_signalfd.py:16, running.py:32. -/
def SIGTSTP : Nat := 20
-- signalutils.py:7-12
/-- signalutils.py:7. -/
def CLD_EXITED : Nat := 1
/-- signalutils.py:8. -/
def CLD_KILLED : Nat := 2
/-- signalutils.py:9. -/
def CLD_DUMPED : Nat := 3
/-- signalutils.py:11. -/
def CLD_STOPPED : Nat := 5
/-- signalutils.py:12. -/
def CLD_CONTINUED : Nat := 6

/-! ### Wait statuses (macros of `<sys/wait.h>`, Linux) -/
/-- glibc bits/waitstatus.h, for signalutils.py:68. -/
def WIFEXITED (s : Nat) : Bool := s % 128 == 0
/-- glibc bits/waitstatus.h, for signalutils.py:70. -/
def WEXITSTATUS (s : Nat) : Nat := s / 256 % 256
/-- glibc bits/waitstatus.h, for signalutils.py:73, 81. -/
def WTERMSIG (s : Nat) : Nat := s % 128
/-- glibc bits/waitstatus.h, for signalutils.py:71. -/
def WCOREDUMP (s : Nat) : Bool := s / 128 % 2 == 1
/-- glibc bits/waitstatus.h, for signalutils.py:74. -/
def WIFCONTINUED (s : Nat) : Bool := s == 65535
/-- glibc bits/waitstatus.h, for signalutils.py:76. -/
def WIFSTOPPED (s : Nat) : Bool := s % 256 == 127
/-- glibc bits/waitstatus.h, for signalutils.py:78. -/
def WSTOPSIG (s : Nat) : Nat := s / 256 % 256
/-- glibc bits/waitstatus.h, for signalutils.py:79. -/
def WIFSIGNALED (s : Nat) : Bool := decide (1 ≤ s % 128) && decide (s % 128 ≤ 126)

/-- `ssi_code` and `ssi_status` as set by `get_sigchlds` (signalutils.py:68-81). -/
def decode (s : Nat) : Nat × Nat :=
  if WIFEXITED s then (CLD_EXITED, WEXITSTATUS s)
  else if WCOREDUMP s then (CLD_DUMPED, WTERMSIG s)
  else if WIFCONTINUED s then (CLD_CONTINUED, 0)
  else if WIFSTOPPED s then (CLD_STOPPED, WSTOPSIG s)
  else if WIFSIGNALED s then (CLD_KILLED, WTERMSIG s)
  else (0, 0)

/-- A state change of a child. [wait(2), for signalutils.py:42] -/
inductive Change where
  | exited (code : Nat)
  | killed (sig : Nat) (core : Bool)
  | stopped (sig : Nat)
  | continued
deriving DecidableEq, Repr

/-- The wait status by which the kernel reports a change. [wait(2), for signalutils.py:42] -/
def Change.status : Change → Nat
  | .exited c => c * 256
  | .killed sig core => sig + (if core then 128 else 0)
  | .stopped sig => sig * 256 + 127
  | .continued => 65535

/-- The change ends the process. [wait(2), for signalutils.py:42] -/
def Change.final : Change → Bool
  | .exited _ => true
  | .killed _ _ => true
  | _ => false

/-- Changes that exist: exit codes are bytes, signals are 1 to 64. [wait(2), for signalutils.py:42] -/
def Change.valid : Change → Bool
  | .exited c => decide (c < 256)
  | .killed sig _ => decide (1 ≤ sig) && decide (sig ≤ 64)
  | .stopped sig => decide (1 ≤ sig) && decide (sig ≤ 64)
  | .continued => true

/-- The represented fields of a siginfo dictionary. [signalutils.py:46-66] -/
structure SigInfo where
  signo : Nat
  code : Nat
  pid : Nat
  status : Nat
deriving DecidableEq, Repr

/-- The keys of a siginfo dictionary (signalutils.py:46-63) that filters use. -/
inductive Field where
  | signo | code | pid | status
deriving DecidableEq, Repr

/-- `siginfo[key]` (manager_signalfd.py:40). -/
def SigInfo.get (i : SigInfo) : Field → Nat
  | .signo => i.signo
  | .code => i.code
  | .pid => i.pid
  | .status => i.status

/-- A filter dictionary, as sorted items: also the key under which a handler is registered
(`filter_to_key`, manager_signalfd.py:22-24). -/
abbrev Filter := List (Field × Nat)

/-- `match_signal` (manager_signalfd.py:38-42, manager_asyncio.py:33-37). -/
def matchSignal (i : SigInfo) (flt : Filter) : Bool := flt.all (fun kv => i.get kv.1 == kv.2)

/-- Handler objects: the `ProcessSignalHandler` of a child, the `StopSignalHandler`.
[signalio/__init__.py:45-50, running.py:29-32] -/
inductive HId where
  | proc (pid : Nat)
  | stop
deriving DecidableEq, Repr

/-- A `ProcessSignalHandler` (signalio/__init__.py:45-50): last event, and whether `done_future` is done. -/
structure ProcSt where
  last : Option SigInfo
  done : Bool
deriving DecidableEq, Repr

/-- `is_running` (signalio/__init__.py:64-66). -/
def ProcSt.isRunning (p : ProcSt) : Bool := !p.done

/-- A child as the kernel sees it: unreported change, terminated or not. [wait(2), for signalutils.py:42] -/
structure Kid where
  pending : Option Change
  ended : Bool
deriving DecidableEq, Repr

/-- signalio/__init__.py:7-13. -/
inductive Mgr where
  | signalfd | asyncio
deriving DecidableEq, Repr

/-- The manager's callback: not running; about to read a siginfo; inside `get_sigchlds`.
[manager_signalfd.py:44-73, manager_asyncio.py:39-77] -/
inductive Phase where
  | idle | reading | waiting
deriving DecidableEq, Repr

/-- The kernel's state, the manager's dict of handlers (manager_signalfd.py:18) and the handlers (signalio/__init__.py:45-50, running.py:29-32). -/
structure St where
  mgr : Mgr
  kids : Dict Nat Kid
  /-- `SIGCHLD` is pending -/
  sigchld : Bool
  /-- `SIGTSTP` is pending, with its sender -/
  tstp : Option Nat
  /-- callbacks scheduled by asyncio's signal handling, by the signal they were registered for -/
  inbox : List Nat
  phase : Phase
  /-- `signal_handlers` -/
  handlers : Dict Filter HId
  procs : Dict Nat ProcSt
  /-- ghost: all state changes, in order -/
  changes : List (Nat × Change)
  /-- ghost: all calls of `handle_event` of a handler, in order -/
  deliv : List (HId × SigInfo)
deriving DecidableEq, Repr

/-- `StopSignalHandler.__init__` (running.py:30-32). -/
def stopFilter : Filter := [(.signo, SIGTSTP)]

/-- `ProcessSignalHandler.__init__` (signalio/__init__.py:46-50). -/
def procFilter (pid : Nat) : Filter := [(.pid, pid)]

/-- `SignalManager.mask` (manager_signalfd.py:16, manager_asyncio.py:11). -/
def mask : List Nat := [SIGCHLD, SIGTSTP]

/-- After start-up: the stop handler is registered (running.py:41-45), no children. -/
def init (m : Mgr) : St :=
  { mgr := m, kids := [], sigchld := false, tstp := none, inbox := [], phase := .idle,
    handlers := [(stopFilter, .stop)], procs := [], changes := [], deliv := [] }

/-- `handle_event` of a handler (signalio/__init__.py:52-62, running.py:33-39): the process handler records the event,
and completes and deregisters itself only for `CLD_EXITED`.  (What the stop handler does is in `Model/Job.lean`.) -/
def handleEvent (s : St) (h : HId) (i : SigInfo) : St :=
  let s := { s with deliv := s.deliv ++ [(h, i)] }
  match h with
  | .stop => s
  | .proc p =>
    if i.code = CLD_EXITED then
      { s with procs := s.procs.set p ⟨some i, true⟩, handlers := s.handlers.erase (procFilter p) }
    else
      { s with procs := s.procs.set p ⟨some i, ((s.procs.get? p).map ProcSt.done).getD false⟩ }

/-- The loop over a snapshot of the registered handlers (manager_signalfd.py:71-73, manager_asyncio.py:75-77). -/
def dispatch (s : St) (i : SigInfo) : St :=
  s.handlers.foldl (fun s kv => if matchSignal i kv.1 then handleEvent s kv.2 i else s) s

/-- The siginfo that `get_sigchlds` yields for a change of child `p` (signalutils.py:42-83). -/
def chldInfo (p : Nat) (ch : Change) : SigInfo :=
  ⟨SIGCHLD, (decode ch.status).1, p, (decode ch.status).2⟩

/-- The siginfo of a `SIGTSTP` sent by process `q` (0: the terminal).
[signalfd(2), read at manager_signalfd.py:47] -/
def tstpInfo (q : Nat) : SigInfo := ⟨SIGTSTP, 0, q, 0⟩

/-- The argument with which an asyncio callback calls `handle_event` (manager_asyncio.py:14-15): the lambda refers to
the loop variable, which has its last value when it is called, whatever signal it was registered for. -/
def callbackArg (_registered : Nat) : Nat := mask.getLast?.getD 0

/-- Steps of the kernel, of the processes, and of the manager.
[signal(7), wait(2); manager_signalfd.py:44-73, manager_asyncio.py:39-77] -/
inductive Act where
  /-- `fork`; `reg`: by pieshell, which registers a handler (else by other code in the process) -/
  | spawn (p : Nat) (reg : Bool)
  | change (p : Nat) (ch : Change)
  | tstp (sender : Nat)
  /-- asyncio's low level handler runs and schedules the callback -/
  | catchChld
  | catchTstp
  /-- the loop runs the manager's callback -/
  | event
  | readChld
  | readStop
  | readNone
  | reap (p : Nat)
  | waitEnd
deriving DecidableEq, Repr

/-- No child has an unreported change: `waitpid` returns 0 or raises `ECHILD`.
[signalutils.py:42-44, 84-85] -/
def St.nothing (s : St) : Bool := s.kids.all (fun kv => kv.2.pending.isNone)

/-- The manager's callback begins (manager_signalfd.py:44-47, manager_asyncio.py:39-66). -/
def begin (s : St) : St :=
  match s.mgr with
  | .signalfd => if s.sigchld || s.tstp.isSome then { s with phase := .reading } else s
  | .asyncio => match s.inbox with
    | [] => s
    | sig :: rest =>
      let s := { s with inbox := rest }
      if callbackArg sig = SIGCHLD || callbackArg sig = SIGTSTP then { s with phase := .waiting }
      else dispatch s ⟨callbackArg sig, 0, 0, 0⟩

/-- What follows `get_sigchlds`: the next `read_siginfo`, or the end of the callback.
[manager_signalfd.py:45-62, manager_asyncio.py:62-66] -/
def afterWait : Mgr → Phase
  | .signalfd => .reading
  | .asyncio => .idle

/-- One step; steps that are not possible do nothing.
[manager_signalfd.py:44-73, manager_asyncio.py:39-77, signalutils.py:39-85, command.py:224-237] -/
def step (s : St) : Act → St
  | .spawn p reg => match s.kids.get? p with
    | some _ => s
    | none =>
      let s := { s with kids := s.kids.set p ⟨none, false⟩ }
      if reg then { s with procs := s.procs.set p ⟨none, false⟩, handlers := s.handlers.set (procFilter p) (.proc p) }
      else s
  | .change p ch => match s.kids.get? p with
    | none => s
    | some k => if k.ended || !ch.valid then s
      else { s with kids := s.kids.set p ⟨some ch, ch.final⟩, sigchld := true, changes := s.changes ++ [(p, ch)] }
  | .tstp q => match s.tstp with
    | some _ => s
    | none => { s with tstp := some q }
  | .catchChld => match s.mgr with
    | .signalfd => s
    | .asyncio => if s.sigchld then { s with sigchld := false, inbox := s.inbox ++ [SIGCHLD] } else s
  | .catchTstp => match s.mgr with
    | .signalfd => s
    | .asyncio => if s.tstp.isSome then { s with tstp := none, inbox := s.inbox ++ [SIGTSTP] } else s
  | .event => match s.phase with
    | .idle => begin s
    | _ => s
  | .readChld => match s.phase with
    | .reading => if s.sigchld then { s with sigchld := false, phase := .waiting } else s
    | _ => s
  | .readStop => match s.phase with
    | .reading => match s.tstp with
      | some q => dispatch { s with tstp := none } (tstpInfo q)
      | none => s
    | _ => s
  | .readNone => match s.phase with
    | .reading => if s.sigchld || s.tstp.isSome then s else { s with phase := .idle }
    | _ => s
  | .reap p => match s.phase with
    | .waiting => match (s.kids.get? p).bind Kid.pending with
      | some ch =>
        dispatch { s with kids := s.kids.set p ⟨none, ((s.kids.get? p).map Kid.ended).getD false⟩ } (chldInfo p ch)
      | none => s
    | _ => s
  | .waitEnd => match s.phase with
    | .waiting => if s.nothing then { s with phase := afterWait s.mgr } else s
    | _ => s

/-- A history of such steps. -/
def run (s : St) (as : List Act) : St := as.foldl step s

end Pieshell.Sig
