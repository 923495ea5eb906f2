import Verif.Spec.Run
/-!
# The items of a started pipeline at work

`Pipeline.run` (base.py:143-154) starts the items (`Model/Run`); from then on the operating system executes the programs,
the shell's event loop executes the python functions (iterio.py), and pieshell reads the pipe at the end of the pipeline
(`RunningPipeline.__aiter__`, running.py:75-78).  This module says how the started items go on: which bytes flow through the
pipes, when an item sees the end of its input, when it is stopped because nobody reads its output, under every
schedule and with any capacity of the pipes.

An item is deterministic: what it does next depends on what it has read so far.  It reads and writes single bytes (a
`read(2)` or `write(2)` of many bytes is a sequence of such steps; the steps of others may come in between, so this
allows all schedules that larger units allow).

Who holds which end of a pipe is taken from the descriptor tables that `runP` computes for the programs, and from the
shell's own table after it has started them.

A python function reads from a handler (`LineInputHandler`, iterio.py:187-217), which works on its own: whenever no newline is among the bytes
that it has read ahead, it reads up to 1024 more, also when the function has ended; when it reads the end of file, it closes the
shell's descriptor (iterio.py:193-201), and it closes it at no other time. The function gets the bytes that have been read ahead.  (It
gets lines; that is, it goes on reading until it has got a newline or the end of file. See `Model/Reader` for the handler in
detail.)  The handler of the output closes its descriptor when the iterator has ended or failed, or a write has
failed (`OutputHandler.destroy`, iterio.py:88-94, 115-118, 138-142).

The python interpreter ignores `SIGPIPE`, and `Command._child` does not change that before `exec` (command.py:175-178; unlike `subprocess`), so
that programs are started with `SIGPIPE` ignored (`Model/Terminal`): a write to a pipe that nobody can read from fails with `EPIPE`, and it is up to
the program what it does then (`Prog.epipe`).  Only a program that has reset `SIGPIPE` itself is killed.

Simplifications: programs use only their stdin and stdout, and close neither before they end.  The
writes of python functions do not block the shell (see C42 for when this is so).  The shell's other
descriptors stay open (`Model/Reader`: the reader at the end of the pipeline closes its descriptor only at the end of the stream, when
nobody has the pipe open for writing any more).
-/
namespace Pieshell.Flow

/-- Not in /repo: python's `bytes`, iterio.py:114, 156. -/
abbrev Bytes := List UInt8

/-- What an item does next: read a byte (`none`: end of file), write a byte, end.
[The programs started at command.py:178 and functions started at function.py:88-98 are arbitrary] -/
inductive Op (σ : Type) where
  | read (k : Option UInt8 → σ)
  | write (b : UInt8) (k : σ)
  | exit (code : Nat)

/-- The behaviour of the items: `next s` is what an item in state `s` does next, `epipe s` is the state of a program in which the write that it
makes in state `s` has failed with `EPIPE`; `none`: the program has set `SIGPIPE` to its default action, and is killed by it.
[The programs started at command.py:178 and functions started at function.py:88-98 are arbitrary] -/
structure Prog (σ : Type) where
  next : σ → Op σ
  epipe : σ → Option σ

instance {σ : Type} : CoeFun (Prog σ) (fun _ => σ → Op σ) := ⟨Prog.next⟩

/-- A process, or a python function at work. [running.py:228-336] -/
inductive Proc (σ : Type) where
  | running (s : σ)
  | exited (code : Nat)
  /-- a program: by `SIGPIPE`; a function: by the exception (`EPIPE`) that writing raised -/
  | killed

/-- What `runP` has left behind: the items, the state of the shell; `made` is the number of the first pipe made for this
pipeline, `cap` the capacities of the pipes, `user` the pipe that the shell reads from, if any.
[base.py:146-151] -/
structure Net where
  items : List Item
  w : World
  made : Nat
  cap : Nat → Nat
  user : Option Nat

/-- The state of the running items: `src k` is what item `k` can still read from something that is not a pipe of this
pipeline, `out k` all that it has written, `got` what the shell has read; `ahead k` are the bytes that the handler of function `k` has
read (`self.buffer`), `heof k` is its `self.eof`, `shut` the shell's descriptors that handlers have closed; `cut k`: a write of item `k` has
failed because nobody could read from the pipe any more. [pipe(7) for the pipes made at redir.py:122] -/
structure St (σ : Type) where
  proc : Nat → Proc σ
  buf : Nat → Bytes
  src : Nat → Bytes
  out : Nat → Bytes
  got : Bytes
  ahead : Nat → Bytes
  heof : Nat → Bool
  shut : Nat → Bool
  cut : Nat → Bool

/-- The pipe of this pipeline that item `k` reads from. [redir.py:120-127, pipe.py:44-45] -/
def Net.inPipe (net : Net) (k : Nat) : Option Nat :=
  match (net.items[k]?).bind (Item.stdin net.w) with
  | some (.pipeR q) => if net.made ≤ q then some q else none
  | _ => none

/-- The pipe of this pipeline that item `k` writes to. [redir.py:120-127, pipe.py:44-45] -/
def Net.outPipe (net : Net) (k : Nat) : Option Nat :=
  match (net.items[k]?).bind (Item.stdout net.w) with
  | some (.pipeW q) => if net.made ≤ q then some q else none
  | _ => none

/-- The shell's descriptor that python function `k` reads from. [function.py:89] -/
def Net.inFd (net : Net) (k : Nat) : Option Nat :=
  match net.items[k]? with
  | some (.func _ inFd _ _) => inFd
  | _ => none

/-- The shell's descriptor that python function `k` writes to. [function.py:107-110] -/
def Net.outFd (net : Net) (k : Nat) : Option Nat :=
  match net.items[k]? with
  | some (.func _ _ outFd _) => some outFd
  | _ => none

/-- Some running program, or the shell, has `ob` open.
[pipe(7); the descriptors left open by command.py:240 and redir.py:214-224] -/
def Net.Open (net : Net) {σ : Type} (s : St σ) (ob : Obj) : Prop :=
  (∃ k id argv fds rs n st, net.items[k]? = some (.proc id argv fds rs) ∧ s.proc k = .running st ∧ fds n = some ob) ∨
  (∃ fd en, net.w.fds.get fd = some en ∧ en.obj = ob ∧ s.shut fd = false)

/-- `fd`, if any, is closed. [iterio.py:29-38, 198] -/
def close (shut : Nat → Bool) (fd : Option Nat) : Nat → Bool := fun n => shut n || fd == some n

/-- `f` changed at `k`. [Not in /repo: vocabulary] -/
def upd {α : Type} (f : Nat → α) (k : Nat) (v : α) : Nat → α := fun j => if j = k then v else f j

variable {σ : Type}

/-- One step of one item, or of the shell's reader (POSIX pipe(7)). -/
inductive Step (next : Prog σ) (net : Net) : St σ → St σ → Prop
  /-- a program reads from a pipe -/
  | read {s : St σ} {k : Nat} {st : σ} {f : Option UInt8 → σ} {q : Nat} {b : UInt8} {rest : Bytes} :
      k < net.items.length → s.proc k = .running st → next st = .read f → net.inFd k = none → net.inPipe k = some q → s.buf q = b :: rest →
      Step next net s { s with proc := upd s.proc k (.running (f (some b))), buf := upd s.buf q rest }
  /-- the pipe is empty and nobody can write to it any more: end of file -/
  | eof {s : St σ} {k : Nat} {st : σ} {f : Option UInt8 → σ} {q : Nat} :
      k < net.items.length → s.proc k = .running st → next st = .read f → net.inFd k = none → net.inPipe k = some q → s.buf q = [] →
      ¬ net.Open s (.pipeW q) → Step next net s { s with proc := upd s.proc k (.running (f none)) }
  /-- a program reads from elsewhere -/
  | readExt {s : St σ} {k : Nat} {st : σ} {f : Option UInt8 → σ} {b : UInt8} {rest : Bytes} :
      k < net.items.length → s.proc k = .running st → next st = .read f → net.inFd k = none → net.inPipe k = none → s.src k = b :: rest →
      Step next net s { s with proc := upd s.proc k (.running (f (some b))), src := upd s.src k rest }
  | eofExt {s : St σ} {k : Nat} {st : σ} {f : Option UInt8 → σ} :
      k < net.items.length → s.proc k = .running st → next st = .read f → net.inFd k = none → net.inPipe k = none → s.src k = [] →
      Step next net s { s with proc := upd s.proc k (.running (f none)) }
  /-- the handler of a function reads from a pipe -/
  | fetch {s : St σ} {k fd : Nat} {q : Nat} {c rest : Bytes} :
      k < net.items.length → net.inFd k = some fd → s.heof k = false → 10 ∉ s.ahead k → net.inPipe k = some q → s.buf q = c ++ rest →
      c ≠ [] → c.length ≤ 1024 → Step next net s { s with ahead := upd s.ahead k (s.ahead k ++ c), buf := upd s.buf q rest }
  | hup {s : St σ} {k fd : Nat} {q : Nat} :
      k < net.items.length → net.inFd k = some fd → s.heof k = false → 10 ∉ s.ahead k → net.inPipe k = some q → s.buf q = [] →
      ¬ net.Open s (.pipeW q) → Step next net s { s with heof := upd s.heof k true, shut := close s.shut (some fd) }
  /-- the handler of a function reads from elsewhere -/
  | fetchExt {s : St σ} {k fd : Nat} {c rest : Bytes} :
      k < net.items.length → net.inFd k = some fd → s.heof k = false → 10 ∉ s.ahead k → net.inPipe k = none → s.src k = c ++ rest →
      c ≠ [] → c.length ≤ 1024 → Step next net s { s with ahead := upd s.ahead k (s.ahead k ++ c), src := upd s.src k rest }
  | hupExt {s : St σ} {k fd : Nat} :
      k < net.items.length → net.inFd k = some fd → s.heof k = false → 10 ∉ s.ahead k → net.inPipe k = none → s.src k = [] →
      Step next net s { s with heof := upd s.heof k true, shut := close s.shut (some fd) }
  /-- a function gets what its handler has read -/
  | take {s : St σ} {k fd : Nat} {st : σ} {f : Option UInt8 → σ} {b : UInt8} {rest : Bytes} :
      k < net.items.length → s.proc k = .running st → next st = .read f → net.inFd k = some fd → s.ahead k = b :: rest →
      Step next net s { s with proc := upd s.proc k (.running (f (some b))), ahead := upd s.ahead k rest }
  | takeEof {s : St σ} {k fd : Nat} {st : σ} {f : Option UInt8 → σ} :
      k < net.items.length → s.proc k = .running st → next st = .read f → net.inFd k = some fd → s.ahead k = [] → s.heof k = true →
      Step next net s { s with proc := upd s.proc k (.running (f none)) }
  /-- an item writes to a pipe that has room -/
  | write {s : St σ} {k : Nat} {st st' : σ} {b : UInt8} {q : Nat} :
      k < net.items.length → s.proc k = .running st → next st = .write b st' → net.outPipe k = some q →
      (s.buf q).length < net.cap q → net.Open s (.pipeR q) →
      Step next net s { s with proc := upd s.proc k (.running st'), buf := upd s.buf q (s.buf q ++ [b]), out := upd s.out k (s.out k ++ [b]) }
  /-- nobody can read from the pipe any more: a function ends (the exception is `BrokenPipeError`, iterio.py:141-142), as does a program that has
  reset `SIGPIPE` -/
  | sigpipe {s : St σ} {k : Nat} {st st' : σ} {b : UInt8} {q : Nat} :
      k < net.items.length → s.proc k = .running st → next st = .write b st' → net.outPipe k = some q →
      ¬ net.Open s (.pipeR q) → (net.outFd k = none → next.epipe st = none) →
      Step next net s { s with proc := upd s.proc k .killed, shut := close s.shut (net.outFd k), cut := upd s.cut k true }
  /-- other programs go on -/
  | epipe {s : St σ} {k : Nat} {st st' st'' : σ} {b : UInt8} {q : Nat} :
      k < net.items.length → s.proc k = .running st → next st = .write b st' → net.outPipe k = some q →
      ¬ net.Open s (.pipeR q) → net.outFd k = none → next.epipe st = some st'' →
      Step next net s { s with proc := upd s.proc k (.running st''), cut := upd s.cut k true }
  /-- an item writes elsewhere -/
  | writeExt {s : St σ} {k : Nat} {st st' : σ} {b : UInt8} :
      k < net.items.length → s.proc k = .running st → next st = .write b st' → net.outPipe k = none →
      Step next net s { s with proc := upd s.proc k (.running st'), out := upd s.out k (s.out k ++ [b]) }
  | exit {s : St σ} {k : Nat} {st : σ} {c : Nat} :
      k < net.items.length → s.proc k = .running st → next st = .exit c →
      Step next net s { s with proc := upd s.proc k (.exited c), shut := close s.shut (net.outFd k) }
  /-- the shell reads -/
  | user {s : St σ} {q : Nat} {b : UInt8} {rest : Bytes} :
      net.user = some q → s.buf q = b :: rest →
      Step next net s { s with buf := upd s.buf q rest, got := s.got ++ [b] }

/-- A number of steps. [Histories of `Step`] -/
inductive Steps (next : Prog σ) (net : Net) : Nat → St σ → St σ → Prop
  | nil {s : St σ} : Steps next net 0 s s
  | snoc {n : Nat} {s t u : St σ} : Steps next net n s t → Step next net t u → Steps next net (n + 1) s u

/-- All items have just been started: item `k` is in state `init k`, the pipes are empty; `inp k` is what item `k`
can read if its stdin is not a pipe of this pipeline. [base.py:150, right after it] -/
def St.start (init : Nat → σ) (inp : Nat → Bytes) : St σ :=
  { proc := fun k => .running (init k), buf := fun _ => [], src := inp, out := fun _ => [], got := [],
    ahead := fun _ => [], heof := fun _ => false, shut := fun _ => false, cut := fun _ => false }

/-- The pipe the shell reads from: the one behind `pipe` of the table's stdout. [running.py:75-78] -/
def userPipe (w : World) (rs : Redirects) : Option Nat :=
  match Dict.get? rs 1 with
  | none => none
  | some r => match r.pipe with
    | .fd u => match (w.fds.get u).map Entry.obj with
      | some (.pipeR q) => some q
      | _ => none
    | _ => none

/-- What `runP` has left behind after starting `p` in `w` with output `o`. (`RunningPipeline.__aiter__`, running.py:75-78, reads from
`pipe` of the table's stdout, when the output is a pipe.) -/
def started (cwd : Str) (w : World) (p : Pipeline) (o : Want) (items : List Item) (rs' : Redirects) (w' : World) (cap : Nat → Nat) : Net :=
  { items := items, w := w', made := w.nextPipe, cap := cap, user := if p.outWant cwd o = .pipeOut then userPipe w' rs' else none }

/-! ### python functions that work on lines -/

/-- What a python function of the form `async def f(inp): ...` does next: ask for the next line of its input (`none`: there are no
more), yield a value, return.  (`LineInputHandler.__anext__`, iterio.py:206-217; the decoding of the line is left out; `yield None`
writes nothing and is left out.) -/
inductive LOp (τ : Type) where
  | next (k : Option Bytes → τ)
  | yield (v : Bytes) (k : τ)
  | ret

/-- State of a python function and its handlers: its own state; waiting for the rest of a line; writing the rest of a value.
[iterio.py:106-118, 187-217] -/
inductive LSt (τ : Type) where
  | run (t : τ)
  | line (acc : Bytes) (k : Option Bytes → τ)
  | put (rest : Bytes) (t : τ)

/-- A byte, or the end of file, arrives while `acc` of a line is there (iterio.py:193-201, 206-217: at the end of file, what is left is a
line, too). -/
def LSt.got {τ : Type} (acc : Bytes) (k : Option Bytes → τ) : Option UInt8 → LSt τ
  | none => if acc = [] then .run (k none) else .run (k (some acc))
  | some b => if b = 10 then .run (k (some acc)) else .line (acc ++ [b]) k

/-- A python function as an item: it reads lines and writes each value followed by a newline (`LineOutputHandler.send_output`,
iterio.py:113-118, 135-142). -/
def lineOp {τ : Type} (lnext : τ → LOp τ) : LSt τ → Op (LSt τ)
  | .run t => match lnext t with
    | .next k => .read (LSt.got [] k)
    | .yield [] t' => .write 10 (.run t')
    | .yield (b :: v) t' => .write b (.put v t')
    | .ret => .exit 0
  | .line acc k => .read (LSt.got acc k)
  | .put [] t => .write 10 (.run t)
  | .put (b :: v) t => .write b (.put v t)

/-- ... its write having failed, it ends (see `Step.sigpipe`). [iterio.py:115-118, 138-142] -/
def lineNext {τ : Type} (lnext : τ → LOp τ) : Prog (LSt τ) := ⟨lineOp lnext, fun _ => none⟩

/-- The operation with the state embedded in a bigger type. [Not in /repo: vocabulary] -/
def Op.map {σ ρ : Type} (g : σ → ρ) : Op σ → Op ρ
  | .read k => .read fun x => g (k x)
  | .write b k => .write b (g k)
  | .exit c => .exit c

/-- Programs and functions in one pipeline (functions end when a write fails, see `Step.sigpipe`).
[running.py:228-336] -/
def bothNext {ρ τ : Type} (pnext : Prog ρ) (lnext : τ → LOp τ) : Prog (ρ ⊕ LSt τ) where
  next
    | .inl s => (pnext s).map .inl
    | .inr s => (lineNext lnext s).map .inr
  epipe
    | .inl s => (pnext.epipe s).map .inl
    | .inr _ => none

end Pieshell.Flow
