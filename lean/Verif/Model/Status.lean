import Verif.Model.Signal
import Verif.Model.Text

/-!
What can be asked of a running pipeline and its items: `exit_code`, `is_running`, `is_failed`, `failed_processes`, `running_processes`
(pieshell/pipeline/running.py:123-143, 169-172, 199-201, 229-231, 276-281, builtins.py:61-66), and the text shown for the process of a started command
(`RunningProcess._repr`, running.py:290-308).

The state of a program is that of its `ProcessSignalHandler` (`Model/Signal.lean`): the attributes can be read at any moment of any history of the kernel,
the programs and the signal manager.

Simplifications: the texts of the descriptors and files of `TMP` redirections are given.
-/
namespace Pieshell.Status
open Pieshell.Sig

/-- `done_future` of the output handler of a function (iterio.py:88-118): pending, done, with an exception. -/
inductive FState where
  | running | returned | raised
deriving DecidableEq, Repr

/-- Items of a running pipeline: `RunningProcess`, `RunningFunction`, `RunnningFg` with the items of the wrapped pipeline.
[running.py:190-336, builtins.py:57-69] -/
inductive Item where
  | proc (pid : Nat)
  | func (st : FState)
  | fg (wrapped : List Item)

/-- `ProcessSignalHandler.last_event` (signalio/__init__.py:47, 54). -/
def lastEvent (g : St) (p : Nat) : Option SigInfo := (g.procs.get? p).bind ProcSt.last

/-- `RunningProcess.is_running` (running.py:199-201, signalio/__init__.py:64-66). -/
def procRunning (g : St) (p : Nat) : Bool := ((g.procs.get? p).map ProcSt.isRunning).getD false

mutual
/-- `is_running` of an item (running.py:199-201, builtins.py:61-63). -/
def isRunning (g : St) : Item → Bool
  | .proc p => procRunning g p
  | .func st => decide (st = .running)
  | .fg l => anyRunning g l
/-- `RunningPipeline.is_running` (running.py:128-132, 135-137). -/
def anyRunning (g : St) : List Item → Bool
  | [] => false
  | it :: l => isRunning g it || anyRunning g l
end

/-- `running_processes` (running.py:128-132). -/
def runningItems (g : St) (l : List Item) : List Item := l.filter (isRunning g)

/-- `RunningProcess.exit_code` (running.py:279-281): `None["ssi_status"]` is a `TypeError`. -/
def procExit (g : St) (p : Nat) : Except Exn Nat :=
  match lastEvent g p with
  | none => .error .typeError
  | some i => .ok i.status

/-- `exit_code` of an item (running.py:279-281, and the attribute of the base class, 172). -/
def itemExit (g : St) : Item → Except Exn Nat
  | .proc p => procExit g p
  | _ => .ok 0

/-- `RunningPipeline.exit_code` (running.py:141-143): `self.processes[-1]`. -/
def exitCode (g : St) (l : List Item) : Except Exn Nat :=
  match l.getLast? with
  | none => .error .indexError
  | some it => itemExit g it

mutual
/-- `is_failed` of an item (running.py:276-278, 229-231, builtins.py:64-66). -/
def isFailed (g : St) : Item → Except Exn Bool
  | .proc p => (procExit g p).map (fun c => decide (c ≠ 0))
  | .func st => .ok (decide (st = .raised))
  | .fg l => (failedItems g l).map (fun r => !r.isEmpty)
/-- `failed_processes` (running.py:123-127): `is_failed` is asked only if the item is not running. -/
def failedItems (g : St) : List Item → Except Exn (List Item)
  | [] => .ok []
  | it :: l =>
    if isRunning g it then failedItems g l
    else match isFailed g it with
      | .error e => .error e
      | .ok b => (failedItems g l).map (fun r => if b then it :: r else r)
end

/-- `RunningPipeline.is_failed` (running.py:138-140). -/
def pipeFailed (g : St) (l : List Item) : Except Exn Bool := (failedItems g l).map (fun r => !r.isEmpty)

/-! ### The text of a process -/

/-- `"%s" % n` (running.py:297-308). -/
def num (n : Nat) : Str := Nat.toDigits 10 n

/-- `', '.join(...)` [running.py:305] -/
def commas : List Str → Str
  | [] => []
  | [x] => x
  | x :: l => x ++ c!", " ++ commas l

/-- The list `status` (running.py:291-303), with the texts of the `TMP` redirections.  `siginfo_to_names` (signalutils.py:20-38) changes a copy, and the
copy is only used to recognise `CLD_CONTINUED`. -/
def statusWords (g : St) (p : Nat) (files : List (Str × Str)) : Except Exn (List Str) :=
  if procRunning g p then
    match lastEvent g p with
    | none => .ok []
    | some i => if i.code ≠ CLD_CONTINUED then .ok [c!"status=" ++ num i.code, c!"signal=" ++ num i.status] else .ok []
  else match procExit g p with
    | .error e => .error e
    | .ok c => .ok ((c!"exit_code=" ++ num c) :: files.map (fun f => f.1 ++ c!"=" ++ f.2))

/-- `RunningProcess._repr` (running.py:290-308). -/
def procText (g : St) (p : Nat) (files : List (Str × Str)) : Except Exn Str :=
  (statusWords g p files).map (fun ws => num p ++ (if ws.isEmpty then [] else c!" (" ++ commas ws ++ c!")"))

end Pieshell.Status
