import Verif.Model.Subst
/-!
# Functions as arguments

`env.bash("script.sh", f)` gives the program a word `/dev/fd/N`, behind which it finds the write end of a pipe that the python function `f` reads from;
the output of `f` goes where the output of the program goes (`Command._handle_arg_pipes`, command.py:187-189, 196-211; tests/argpipe_pipeline.pysh).  So programs write
to several descriptors, and several items to the same pipe.  This module says how the items of a pipeline go on, once they have been started, when programs
write to whichever of their descriptors they like.

Everything else is as in `Model/Subst` and `Model/Flow` (see there): single bytes, arbitrary capacities of the pipes, descriptors from the tables that `runP`
computes, functions read through their handlers, the handling of `SIGPIPE`.
-/
namespace Pieshell.FuncArg
open Flow (Bytes Net Proc upd close)
open Subst (slot handler)

/-- What an item does next: read a byte from its input `j` (see `Subst.Op`), write a byte to its output `j`, end.  Output 0 is stdout, output `j + 1` is what its `j`th `/dev/fd/N`
argument names. [The programs started at command.py:178 are arbitrary] -/
inductive Op (σ : Type) where
  | read (j : Nat) (k : Option UInt8 → σ)
  | write (j : Nat) (b : UInt8) (k : σ)
  | exit (code : Nat)

/-- The behaviour of the items, see `Flow.Prog`. [The programs started at command.py:178 and functions started at function.py:88-98 are arbitrary] -/
structure Prog (σ : Type) where
  next : σ → Op σ
  epipe : σ → Option σ

/-- The state of the running items, see `Subst.St`; `out k j` is what item `k` has written to its output `j`. [pipe(7) for the pipes made at redir.py:122] -/
structure St (σ : Type) where
  proc : Nat → Proc σ
  buf : Nat → Bytes
  src : Nat → Nat → Bytes
  out : Nat → Nat → Bytes
  got : Bytes
  ahead : Nat → Bytes
  heof : Nat → Bool
  shut : Nat → Bool
  cut : Nat → Bool

/-- What stands behind output `j` of an item: its stdout; the descriptor in its `j`th `/dev/fd/N` word (command.py:204-211). -/
def outObj (w : World) : Item → Nat → Option Obj
  | it, 0 => it.stdout w
  | .proc _ argv fds _, j + 1 => ((devFds argv)[j]?).bind fds
  | .func .., _ + 1 => none

/-- The pipe of this pipeline that stands behind output `j` of item `k`. [command.py:196-211] -/
def outSlot (net : Net) (k j : Nat) : Option Nat :=
  match (net.items[k]?).bind (outObj net.w · j) with
  | some (.pipeW q) => if net.made ≤ q then some q else none
  | _ => none

/-- Some running program, or the shell, has `ob` open. (See `Flow.Net.Open`.) [pipe(7); redir.py:214-227] -/
def Open (net : Net) {σ : Type} (s : St σ) (ob : Obj) : Prop :=
  (∃ k id argv fds rs n st, net.items[k]? = some (.proc id argv fds rs) ∧ s.proc k = .running st ∧ fds n = some ob) ∨
  (∃ fd en, net.w.fds.get fd = some en ∧ en.obj = ob ∧ s.shut fd = false)

variable {σ : Type}

/-- One step of one item, of the handler of a function, or of the shell's reader (POSIX pipe(7); iterio.py:106-142, 187-217). -/
inductive Step (prog : Prog σ) (net : Net) : St σ → St σ → Prop
  /-- a program reads from a pipe -/
  | read {s : St σ} {k j : Nat} {st : σ} {f : Option UInt8 → σ} {q : Nat} {b : UInt8} {rest : Bytes} :
      k < net.items.length → s.proc k = .running st → prog.next st = .read j f → handler net k j = none → slot net k j = some q → s.buf q = b :: rest →
      Step prog net s { s with proc := upd s.proc k (.running (f (some b))), buf := upd s.buf q rest }
  /-- the pipe is empty and nobody can write to it any more: end of file -/
  | eof {s : St σ} {k j : Nat} {st : σ} {f : Option UInt8 → σ} {q : Nat} :
      k < net.items.length → s.proc k = .running st → prog.next st = .read j f → handler net k j = none → slot net k j = some q → s.buf q = [] →
      ¬ Open net s (.pipeW q) → Step prog net s { s with proc := upd s.proc k (.running (f none)) }
  /-- a program reads from elsewhere -/
  | readExt {s : St σ} {k j : Nat} {st : σ} {f : Option UInt8 → σ} {b : UInt8} {rest : Bytes} :
      k < net.items.length → s.proc k = .running st → prog.next st = .read j f → handler net k j = none → slot net k j = none → s.src k j = b :: rest →
      Step prog net s { s with proc := upd s.proc k (.running (f (some b))), src := upd s.src k (upd (s.src k) j rest) }
  | eofExt {s : St σ} {k j : Nat} {st : σ} {f : Option UInt8 → σ} :
      k < net.items.length → s.proc k = .running st → prog.next st = .read j f → handler net k j = none → slot net k j = none → s.src k j = [] →
      Step prog net s { s with proc := upd s.proc k (.running (f none)) }
  /-- the handler of a function reads from a pipe -/
  | fetch {s : St σ} {k fd : Nat} {q : Nat} {c rest : Bytes} :
      k < net.items.length → net.inFd k = some fd → s.heof k = false → 10 ∉ s.ahead k → slot net k 0 = some q → s.buf q = c ++ rest →
      c ≠ [] → c.length ≤ 1024 → Step prog net s { s with ahead := upd s.ahead k (s.ahead k ++ c), buf := upd s.buf q rest }
  | hup {s : St σ} {k fd : Nat} {q : Nat} :
      k < net.items.length → net.inFd k = some fd → s.heof k = false → 10 ∉ s.ahead k → slot net k 0 = some q → s.buf q = [] →
      ¬ Open net s (.pipeW q) → Step prog net s { s with heof := upd s.heof k true, shut := close s.shut (some fd) }
  /-- the handler of a function reads from elsewhere -/
  | fetchExt {s : St σ} {k fd : Nat} {c rest : Bytes} :
      k < net.items.length → net.inFd k = some fd → s.heof k = false → 10 ∉ s.ahead k → slot net k 0 = none → s.src k 0 = c ++ rest →
      c ≠ [] → c.length ≤ 1024 → Step prog net s { s with ahead := upd s.ahead k (s.ahead k ++ c), src := upd s.src k (upd (s.src k) 0 rest) }
  | hupExt {s : St σ} {k fd : Nat} :
      k < net.items.length → net.inFd k = some fd → s.heof k = false → 10 ∉ s.ahead k → slot net k 0 = none → s.src k 0 = [] →
      Step prog net s { s with heof := upd s.heof k true, shut := close s.shut (some fd) }
  /-- a function gets what its handler has read -/
  | take {s : St σ} {k j fd : Nat} {st : σ} {f : Option UInt8 → σ} {b : UInt8} {rest : Bytes} :
      k < net.items.length → s.proc k = .running st → prog.next st = .read j f → handler net k j = some fd → s.ahead k = b :: rest →
      Step prog net s { s with proc := upd s.proc k (.running (f (some b))), ahead := upd s.ahead k rest }
  | takeEof {s : St σ} {k j fd : Nat} {st : σ} {f : Option UInt8 → σ} :
      k < net.items.length → s.proc k = .running st → prog.next st = .read j f → handler net k j = some fd → s.ahead k = [] → s.heof k = true →
      Step prog net s { s with proc := upd s.proc k (.running (f none)) }
  /-- an item writes to a pipe that has room -/
  | write {s : St σ} {k j : Nat} {st st' : σ} {b : UInt8} {q : Nat} :
      k < net.items.length → s.proc k = .running st → prog.next st = .write j b st' → outSlot net k j = some q →
      (s.buf q).length < net.cap q → Open net s (.pipeR q) →
      Step prog net s { s with proc := upd s.proc k (.running st'), buf := upd s.buf q (s.buf q ++ [b]), out := upd s.out k (upd (s.out k) j (s.out k j ++ [b])) }
  /-- nobody can read from the pipe any more: a function or iterator is given up (iterio.py:141-142), a program that has reset `SIGPIPE` is killed -/
  | sigpipe {s : St σ} {k j : Nat} {st st' : σ} {b : UInt8} {q : Nat} :
      k < net.items.length → s.proc k = .running st → prog.next st = .write j b st' → outSlot net k j = some q →
      ¬ Open net s (.pipeR q) → (net.outFd k = none → prog.epipe st = none) →
      Step prog net s { s with proc := upd s.proc k .killed, shut := close s.shut (net.outFd k), cut := upd s.cut k true }
  /-- other programs go on -/
  | epipe {s : St σ} {k j : Nat} {st st' st'' : σ} {b : UInt8} {q : Nat} :
      k < net.items.length → s.proc k = .running st → prog.next st = .write j b st' → outSlot net k j = some q →
      ¬ Open net s (.pipeR q) → net.outFd k = none → prog.epipe st = some st'' →
      Step prog net s { s with proc := upd s.proc k (.running st''), cut := upd s.cut k true }
  /-- an item writes elsewhere -/
  | writeExt {s : St σ} {k j : Nat} {st st' : σ} {b : UInt8} :
      k < net.items.length → s.proc k = .running st → prog.next st = .write j b st' → outSlot net k j = none →
      Step prog net s { s with proc := upd s.proc k (.running st'), out := upd s.out k (upd (s.out k) j (s.out k j ++ [b])) }
  | exit {s : St σ} {k : Nat} {st : σ} {c : Nat} :
      k < net.items.length → s.proc k = .running st → prog.next st = .exit c →
      Step prog net s { s with proc := upd s.proc k (.exited c), shut := close s.shut (net.outFd k) }
  /-- the shell reads -/
  | user {s : St σ} {q : Nat} {b : UInt8} {rest : Bytes} :
      net.user = some q → s.buf q = b :: rest →
      Step prog net s { s with buf := upd s.buf q rest, got := s.got ++ [b] }

/-- A number of steps. [Histories of `Step`] -/
inductive Steps (prog : Prog σ) (net : Net) : Nat → St σ → St σ → Prop
  | nil {s : St σ} : Steps prog net 0 s s
  | snoc {n : Nat} {s t u : St σ} : Steps prog net n s t → Step prog net t u → Steps prog net (n + 1) s u

/-- All items have just been started, see `Flow.St.start`. [base.py:150, right after it] -/
def St.start (init : Nat → σ) (src : Nat → Nat → Bytes) : St σ :=
  { proc := fun k => .running (init k), buf := fun _ => [], src := src, out := fun _ _ => [], got := [], ahead := fun _ => [], heof := fun _ => false,
    shut := fun _ => false, cut := fun _ => false }

end Pieshell.FuncArg
