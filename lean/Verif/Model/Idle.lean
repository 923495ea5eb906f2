import Verif.Model.Whole
/-!
# What goes on while the shell is not in its event loop

The event loop runs only inside `run_until_complete`: `Pipeline.run_interactive` (base.py:161-162) and the iteration over the output of a pipeline
(utils/asyncutils.py:4-12).  The prompt is `code.InteractiveConsole.interact` (shell.py:123), which reads a line and executes it: while the user
is typing, and while python code is executed that neither waits for a pipeline nor reads its output, the loop does not run.  Then the programs
go on, which are processes of their own, the kernel reports what happens to them, and python code may start pipelines, and suspend and restart them;
but python functions in pipelines, their handlers, the readers of pipes, the signal manager's callbacks and the tasks that wait
do nothing.

The steps are those of `Model/Whole` that need no event loop.

Simplifications: those of `Model/Whole`.  Python's ptpython prompt (`--ptpython`, shell.py:87-106), which may run the loop, is not represented.
-/
namespace Pieshell.Flow

variable {σ : Type}

/-- A step of a program: the steps of `Flow.Step` in which the item is a process (`net.outFd k = none`).
[The programs started at command.py:178] -/
inductive ProgStep (next : Prog σ) (net : Net) : St σ → St σ → Prop
  | read {s : St σ} {k : Nat} {st : σ} {f : Option UInt8 → σ} {q : Nat} {b : UInt8} {rest : Bytes} : net.outFd k = none →
      k < net.items.length → s.proc k = .running st → next st = .read f → net.inFd k = none → net.inPipe k = some q → s.buf q = b :: rest →
      ProgStep next net s { s with proc := upd s.proc k (.running (f (some b))), buf := upd s.buf q rest }
  | eof {s : St σ} {k : Nat} {st : σ} {f : Option UInt8 → σ} {q : Nat} : net.outFd k = none →
      k < net.items.length → s.proc k = .running st → next st = .read f → net.inFd k = none → net.inPipe k = some q → s.buf q = [] →
      ¬ net.Open s (.pipeW q) → ProgStep next net s { s with proc := upd s.proc k (.running (f none)) }
  | readExt {s : St σ} {k : Nat} {st : σ} {f : Option UInt8 → σ} {b : UInt8} {rest : Bytes} : net.outFd k = none →
      k < net.items.length → s.proc k = .running st → next st = .read f → net.inFd k = none → net.inPipe k = none → s.src k = b :: rest →
      ProgStep next net s { s with proc := upd s.proc k (.running (f (some b))), src := upd s.src k rest }
  | eofExt {s : St σ} {k : Nat} {st : σ} {f : Option UInt8 → σ} : net.outFd k = none →
      k < net.items.length → s.proc k = .running st → next st = .read f → net.inFd k = none → net.inPipe k = none → s.src k = [] →
      ProgStep next net s { s with proc := upd s.proc k (.running (f none)) }
  | write {s : St σ} {k : Nat} {st st' : σ} {b : UInt8} {q : Nat} : net.outFd k = none →
      k < net.items.length → s.proc k = .running st → next st = .write b st' → net.outPipe k = some q →
      (s.buf q).length < net.cap q → net.Open s (.pipeR q) →
      ProgStep next net s { s with proc := upd s.proc k (.running st'), buf := upd s.buf q (s.buf q ++ [b]), out := upd s.out k (s.out k ++ [b]) }
  | sigpipe {s : St σ} {k : Nat} {st st' : σ} {b : UInt8} {q : Nat} : net.outFd k = none →
      k < net.items.length → s.proc k = .running st → next st = .write b st' → net.outPipe k = some q →
      ¬ net.Open s (.pipeR q) → next.epipe st = none →
      ProgStep next net s { s with proc := upd s.proc k .killed, cut := upd s.cut k true }
  | epipe {s : St σ} {k : Nat} {st st' st'' : σ} {b : UInt8} {q : Nat} : net.outFd k = none →
      k < net.items.length → s.proc k = .running st → next st = .write b st' → net.outPipe k = some q →
      ¬ net.Open s (.pipeR q) → next.epipe st = some st'' →
      ProgStep next net s { s with proc := upd s.proc k (.running st''), cut := upd s.cut k true }
  | writeExt {s : St σ} {k : Nat} {st st' : σ} {b : UInt8} : net.outFd k = none →
      k < net.items.length → s.proc k = .running st → next st = .write b st' → net.outPipe k = none →
      ProgStep next net s { s with proc := upd s.proc k (.running st'), out := upd s.out k (s.out k ++ [b]) }
  | exit {s : St σ} {k : Nat} {st : σ} {c : Nat} : net.outFd k = none →
      k < net.items.length → s.proc k = .running st → next st = .exit c →
      ProgStep next net s { s with proc := upd s.proc k (.exited c) }

end Pieshell.Flow

namespace Pieshell.Sig

/-- Done by the kernel and other processes; python's low level signal handler (a C function; it fills the pipe that the loop reads) may run, too.
[signal(7) and CPython Modules/signalmodule.c; compare manager_asyncio.py:15, manager_signalfd.py:19] -/
def Act.outside : Act → Bool
  | .spawn _ _ | .change _ _ | .tstp _ | .catchChld | .catchTstp => true
  | _ => false

end Pieshell.Sig

namespace Pieshell.Job

/-- Done by programs (`write`), or by python code outside of the event loop: starting pipelines, `wait()` (which makes a coroutine), cancelling a
task, `restart()`, `suspend()`, `bg`, `fg`, `remove_output_files()`. [running.py:63-168, base.py:143-162] -/
def Act.outside : Act → Bool
  | .start _ | .wait _ | .cancel _ | .write _ _ _ _ | .restart _ | .suspend _ | .bg | .fg | .removeFiles _ => true
  | _ => false

end Pieshell.Job

namespace Pieshell.Whole

/-- One step while the event loop does not run.
[shell.py:123: the prompt waits for input outside of the loop] -/
inductive Idle {σ : Type} (next : Flow.Prog σ) (L : Link) : St σ → St σ → Prop
  | prog {s : St σ} {t : Flow.St σ} : Flow.ProgStep next L.net s.flow t →
      Idle next L s ⟨t, Sig.run s.sig (L.changes (L.report s.flow t)), s.job⟩
  | kernel {s : St σ} {a : Sig.Act} : a.outside = true → L.Foreign a → Idle next L s ⟨s.flow, Sig.step s.sig a, s.job⟩
  | python {s : St σ} {a : Job.Act} : a.outside = true → Idle next L s ⟨s.flow, s.sig, Job.step s.job a⟩

/-- Any number of steps while the event loop does not run. [shell.py:123] -/
inductive Idles {σ : Type} (next : Flow.Prog σ) (L : Link) : St σ → St σ → Prop
  | nil {s : St σ} : Idles next L s s
  | snoc {s t u : St σ} : Idles next L s t → Idle next L t u → Idles next L s u

end Pieshell.Whole
