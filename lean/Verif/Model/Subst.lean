import Verif.Model.Flow
/-!
# Programs that read from pipelines among their arguments

`env.diff(env.sort("a"), env.sort("b"))` starts the pipelines among the arguments first, and gives the program `/dev/fd/N` words, behind which it
finds the read ends of their output pipes (`Command._handle_arg_pipes`, command.py:180-211; `Model/Run`).  `Model/Flow` says how the
items of a pipeline go on after they have been started, when each of them reads only its stdin.  This module does the same for programs that
read from several descriptors, in any order they like: what an item does next depends on what it has read so far, and says which of its inputs it wants to
read from.

Everything else is as in `Model/Flow` (see there): single bytes, arbitrary capacities of the pipes, descriptors from the tables that `runP` computes, the
handling of `SIGPIPE`.  A program can read `/dev/fd/N` only once, like a pipe (not like a file): opening `/dev/fd/N` gives another descriptor for the
same pipe, which is closed at the latest when the program ends.  (Simplification: programs close none of their inputs before they end.)

A python function in such a pipeline reads its only input through its handler, which works on its own, see `Model/Flow`.

What a function given as an argument gets from the program (which then has several outputs) is the subject of `Model/FuncArg`.
-/
namespace Pieshell.Subst
open Flow (Bytes Net Proc upd close)

/-- What an item does next: read a byte from its input `j` (`none`: end of file), write a byte to stdout, end.  Input 0 is stdin, input `j + 1` is
its `j`th `/dev/fd/N` argument. [The programs started at command.py:178 are arbitrary] -/
inductive Op (σ : Type) where
  | read (j : Nat) (k : Option UInt8 → σ)
  | write (b : UInt8) (k : σ)
  | exit (code : Nat)

/-- The behaviour of the items, see `Flow.Prog`. [The programs started at command.py:178 are arbitrary] -/
structure Prog (σ : Type) where
  next : σ → Op σ
  epipe : σ → Option σ

/-- The state of the running items, see `Flow.St`: `src k j` is what item `k` can still read from its input `j` if that is not a pipe of this
pipeline; `ahead k` are the bytes that the handler of function `k` has read (`self.buffer`), `heof k` is its `self.eof` (iterio.py:187-201).
[pipe(7) for the pipes made at redir.py:122] -/
structure St (σ : Type) where
  proc : Nat → Proc σ
  buf : Nat → Bytes
  src : Nat → Nat → Bytes
  out : Nat → Bytes
  got : Bytes
  ahead : Nat → Bytes
  heof : Nat → Bool
  shut : Nat → Bool
  cut : Nat → Bool

/-- What stands behind input `j` of an item: its stdin; the descriptor in its `j`th `/dev/fd/N` word (command.py:204-211). -/
def slotObj (w : World) : Item → Nat → Option Obj
  | it, 0 => it.stdin w
  | .proc _ argv fds _, j + 1 => ((devFds argv)[j]?).bind fds
  | .func .., _ + 1 => none

/-- The pipe of this pipeline that stands behind input `j` of item `k`. [command.py:196-211] -/
def slot (net : Net) (k j : Nat) : Option Nat :=
  match (net.items[k]?).bind (slotObj net.w · j) with
  | some (.pipeR q) => if net.made ≤ q then some q else none
  | _ => none

/-- The shell's descriptor that the handler of input `j` of item `k` reads from: functions read stdin through a handler. [function.py:89] -/
def handler (net : Net) (k : Nat) : Nat → Option Nat
  | 0 => net.inFd k
  | _ + 1 => none

/-- Some running program, or the shell, has `ob` open. (See `Flow.Net.Open`.) [pipe(7); redir.py:214-227] -/
def Open (net : Net) {σ : Type} (s : St σ) (ob : Obj) : Prop :=
  (∃ k id argv fds rs n st, net.items[k]? = some (.proc id argv fds rs) ∧ s.proc k = .running st ∧ fds n = some ob) ∨
  (∃ fd en, net.w.fds.get fd = some en ∧ en.obj = ob ∧ s.shut fd = false)

variable {σ : Type}

/-- One step of one item, or of the shell's reader (POSIX pipe(7)). -/
inductive Step (prog : Prog σ) (net : Net) : St σ → St σ → Prop
  /-- a program reads from a pipe -/
  | read {s : St σ} {k j : Nat} {st : σ} {f : Option UInt8 → σ} {q : Nat} {b : UInt8} {rest : Bytes} :
      k < net.items.length → s.proc k = .running st → prog.next st = .read j f → handler net k j = none → slot net k j = some q → s.buf q = b :: rest →
      Step prog net s { s with proc := upd s.proc k (.running (f (some b))), buf := upd s.buf q rest }
  /-- the pipe is empty and nobody can write to it any more: end of file -/
  | eof {s : St σ} {k j : Nat} {st : σ} {f : Option UInt8 → σ} {q : Nat} :
      k < net.items.length → s.proc k = .running st → prog.next st = .read j f → handler net k j = none → slot net k j = some q → s.buf q = [] →
      ¬ Open net s (.pipeW q) → Step prog net s { s with proc := upd s.proc k (.running (f none)) }
  /-- a program reads from elsewhere -/
  | readExt {s : St σ} {k j : Nat} {st : σ} {f : Option UInt8 → σ} {b : UInt8} {rest : Bytes} :
      k < net.items.length → s.proc k = .running st → prog.next st = .read j f → handler net k j = none → slot net k j = none → s.src k j = b :: rest →
      Step prog net s { s with proc := upd s.proc k (.running (f (some b))), src := upd s.src k (upd (s.src k) j rest) }
  | eofExt {s : St σ} {k j : Nat} {st : σ} {f : Option UInt8 → σ} :
      k < net.items.length → s.proc k = .running st → prog.next st = .read j f → handler net k j = none → slot net k j = none → s.src k j = [] →
      Step prog net s { s with proc := upd s.proc k (.running (f none)) }
  /-- the handler of a function reads from a pipe -/
  | fetch {s : St σ} {k fd : Nat} {q : Nat} {c rest : Bytes} :
      k < net.items.length → net.inFd k = some fd → s.heof k = false → 10 ∉ s.ahead k → slot net k 0 = some q → s.buf q = c ++ rest →
      c ≠ [] → c.length ≤ 1024 → Step prog net s { s with ahead := upd s.ahead k (s.ahead k ++ c), buf := upd s.buf q rest }
  | hup {s : St σ} {k fd : Nat} {q : Nat} :
      k < net.items.length → net.inFd k = some fd → s.heof k = false → 10 ∉ s.ahead k → slot net k 0 = some q → s.buf q = [] →
      ¬ Open net s (.pipeW q) → Step prog net s { s with heof := upd s.heof k true, shut := close s.shut (some fd) }
  /-- the handler of a function reads from elsewhere -/
  | fetchExt {s : St σ} {k fd : Nat} {c rest : Bytes} :
      k < net.items.length → net.inFd k = some fd → s.heof k = false → 10 ∉ s.ahead k → slot net k 0 = none → s.src k 0 = c ++ rest →
      c ≠ [] → c.length ≤ 1024 → Step prog net s { s with ahead := upd s.ahead k (s.ahead k ++ c), src := upd s.src k (upd (s.src k) 0 rest) }
  | hupExt {s : St σ} {k fd : Nat} :
      k < net.items.length → net.inFd k = some fd → s.heof k = false → 10 ∉ s.ahead k → slot net k 0 = none → s.src k 0 = [] →
      Step prog net s { s with heof := upd s.heof k true, shut := close s.shut (some fd) }
  /-- a function gets what its handler has read -/
  | take {s : St σ} {k j fd : Nat} {st : σ} {f : Option UInt8 → σ} {b : UInt8} {rest : Bytes} :
      k < net.items.length → s.proc k = .running st → prog.next st = .read j f → handler net k j = some fd → s.ahead k = b :: rest →
      Step prog net s { s with proc := upd s.proc k (.running (f (some b))), ahead := upd s.ahead k rest }
  | takeEof {s : St σ} {k j fd : Nat} {st : σ} {f : Option UInt8 → σ} :
      k < net.items.length → s.proc k = .running st → prog.next st = .read j f → handler net k j = some fd → s.ahead k = [] → s.heof k = true →
      Step prog net s { s with proc := upd s.proc k (.running (f none)) }
  /-- an item writes to a pipe that has room -/
  | write {s : St σ} {k : Nat} {st st' : σ} {b : UInt8} {q : Nat} :
      k < net.items.length → s.proc k = .running st → prog.next st = .write b st' → net.outPipe k = some q →
      (s.buf q).length < net.cap q → Open net s (.pipeR q) →
      Step prog net s { s with proc := upd s.proc k (.running st'), buf := upd s.buf q (s.buf q ++ [b]), out := upd s.out k (s.out k ++ [b]) }
  /-- nobody can read from the pipe any more: a function or iterator is given up (iterio.py:141-142), a program that has reset `SIGPIPE` is killed -/
  | sigpipe {s : St σ} {k : Nat} {st st' : σ} {b : UInt8} {q : Nat} :
      k < net.items.length → s.proc k = .running st → prog.next st = .write b st' → net.outPipe k = some q →
      ¬ Open net s (.pipeR q) → (net.outFd k = none → prog.epipe st = none) →
      Step prog net s { s with proc := upd s.proc k .killed, shut := close s.shut (net.outFd k), cut := upd s.cut k true }
  /-- other programs go on -/
  | epipe {s : St σ} {k : Nat} {st st' st'' : σ} {b : UInt8} {q : Nat} :
      k < net.items.length → s.proc k = .running st → prog.next st = .write b st' → net.outPipe k = some q →
      ¬ Open net s (.pipeR q) → net.outFd k = none → prog.epipe st = some st'' →
      Step prog net s { s with proc := upd s.proc k (.running st''), cut := upd s.cut k true }
  /-- an item writes elsewhere -/
  | writeExt {s : St σ} {k : Nat} {st st' : σ} {b : UInt8} :
      k < net.items.length → s.proc k = .running st → prog.next st = .write b st' → net.outPipe k = none →
      Step prog net s { s with proc := upd s.proc k (.running st'), out := upd s.out k (s.out k ++ [b]) }
  | exit {s : St σ} {k : Nat} {st : σ} {c : Nat} :
      k < net.items.length → s.proc k = .running st → prog.next st = .exit c →
      Step prog net s { s with proc := upd s.proc k (.exited c), shut := close s.shut (net.outFd k) }
  /-- the shell reads -/
  | user {s : St σ} {q : Nat} {b : UInt8} {rest : Bytes} :
      net.user = some q → s.buf q = b :: rest →
      Step prog net s { s with buf := upd s.buf q rest, got := s.got ++ [b] }

/-- A number of steps. [Histories of `Step`] -/
inductive Steps (prog : Prog σ) (net : Net) : Nat → St σ → St σ → Prop
  | nil {s : St σ} : Steps prog net 0 s s
  | snoc {n : Nat} {s t u : St σ} : Steps prog net n s t → Step prog net t u → Steps prog net (n + 1) s u

/-- All items have just been started, see `Flow.St.start`. [base.py:150, right after it] -/
def St.start (init : Nat → σ) (src : Nat → Nat → Bytes) : St σ :=
  { proc := fun k => .running (init k), buf := fun _ => [], src := src, out := fun _ => [], got := [], ahead := fun _ => [], heof := fun _ => false,
    shut := fun _ => false, cut := fun _ => false }

end Pieshell.Subst
