import Verif.Model.Base

/-!
Readers of `pieshell/iterio.py`: `LineInputHandler` (line 187-217) and `InputHandler` (line 129-180).

The system consists of the reader object, the pipe it reads from, the task that consumes it, and whoever writes
to the pipe.  A schedule is a list of actions, in any order; an action that is not enabled does nothing.
`add_reader` is level triggered: the event callback runs, any number of times, as long as the descriptor is
registered and readable (data available, or all writers gone).

Simplifications: one consumer at a time (as with `async for`, `iter()`, `bytes()`); `at_eof` is not part of
these systems (it is called exactly when the consumer is told that the stream has ended); `os.read` returns any
non-empty prefix of the available data of at most 1024 bytes, and the empty string only at end of file; the
text decoding of a finished line is a separate function (`Model/Text.lean`).
-/
namespace Pieshell.Io

/-- Not in /repo: an element of python's `bytes` (iterio.py:156, 194). -/
abbrev Byte := UInt8
/-- Not in /repo: python's `bytes` (iterio.py:156, 194). -/
abbrev Bytes := List Byte

/-- `b"\n"`. [iterio.py:193, 207, 216] -/
def NL : Byte := 10

/-- The pipe a reader reads: data not yet read, whether all writers are gone, and (ghost) everything that was
ever written to it. -/
structure Pipe where
  pending : Bytes
  closed : Bool
  written : Bytes
deriving DecidableEq, Repr

/-- `self.future`: none, a pending future, or a future whose waiting task was cancelled.
[iterio.py:150, 172, 208] -/
inductive Fut where
  | none | live | cancelled
deriving DecidableEq, Repr

/-- The consuming task: not inside `__anext__`; suspended in `await future`; its future has a result and the
task will be resumed; it has received `StopAsyncIteration`. [iterio.py:167-177, 206-217] -/
inductive Cons where
  | idle | waiting | woken | stopped
deriving DecidableEq, Repr

/-- A step of the system.  `event n`: the loop runs the reader callback, the kernel hands out up to `n` bytes;
`next`: the consumer calls `__anext__`; `resume`: the loop resumes the woken consumer; `cancel`: the consumer
is cancelled inside `__anext__`. [iterio.py:154-177, 192-217] -/
inductive RAct where
  | write (bs : Bytes)
  | close
  | event (n : Nat)
  | next
  | resume
  | cancel
deriving DecidableEq, Repr

/-- How many bytes `os.read(fd, 1024)` returns when the kernel is inclined to return `n`.
[read(2), called at iterio.py:156, 194] -/
def readSize (n : Nat) : Nat := max 1 (min n 1024)

/-- Registered descriptors are readable when data is available or all writers are gone.
[poll(2), for the registration at iterio.py:45] -/
def Pipe.readable (p : Pipe) : Bool := !p.pending.isEmpty || p.closed

/-- A write of the other side; nobody can write after the last writer has closed.
[pipe(7); the writers are programs and functions] -/
def Pipe.write (p : Pipe) (bs : Bytes) : Pipe :=
  if p.closed then p else { p with pending := p.pending ++ bs, written := p.written ++ bs }

namespace Line

/-- `LineInputHandler` object (iterio.py:187-190, 147-152) together with its pipe and its consumer.
`destroyed` is `IOHandler.destroyed` (not watched any more, descriptor closed, iterio.py:29-38).
`out` (ghost) lists what the consumer received, before decoding. -/
structure St where
  pipe : Pipe
  buffer : Bytes
  eof : Bool
  fut : Fut
  destroyed : Bool
  cons : Cons
  out : List Bytes
deriving DecidableEq, Repr

/-- `LineInputHandler.__init__` (iterio.py:188-190) on a pipe into which nothing was written yet. -/
def init : St :=
  { pipe := ⟨[], false, []⟩, buffer := [], eof := false, fut := .none, destroyed := false, cons := .idle, out := [] }

/-- `future.set_result(None); self.future = None` (iterio.py:199-201): a pending future wakes the consumer; on
a cancelled one `set_result` raises `InvalidStateError`, which ends the callback before `self.future = None`. -/
def wake (s : St) : St :=
  match s.fut with
  | .none => s
  | .live => { s with fut := .none, cons := .woken }
  | .cancelled => s

/-- `LineInputHandler.handle_event` (iterio.py:192-201). -/
def handleEvent (s : St) (n : Nat) : St :=
  if NL ∈ s.buffer then s
  else
    let data := s.pipe.pending.take (readSize n)
    let s := { s with pipe := { s.pipe with pending := s.pipe.pending.drop (readSize n) },
                      buffer := s.buffer ++ data }
    let s := if data.isEmpty then { s with eof := true, destroyed := true } else s
    wake s

/-- `self.buffer.split(b"\n", 1)` for a buffer with a newline: before and after the first newline.
[iterio.py:216] -/
def splitNL : Bytes → Bytes × Bytes
  | [] => ([], [])
  | b :: bs => if b = NL then ([], bs) else ((b :: (splitNL bs).1), (splitNL bs).2)

/-- `LineInputHandler.__anext__` from the head of its while loop (iterio.py:206-217). -/
def anext (s : St) : St :=
  if !s.eof && !(decide (NL ∈ s.buffer)) then { s with fut := .live, cons := .waiting }
  else if s.buffer.isEmpty then { s with cons := .stopped }
  else
    let b := if NL ∈ s.buffer then s.buffer else s.buffer ++ [NL]
    { s with buffer := (splitNL b).2, out := s.out ++ [(splitNL b).1], cons := .idle }

/-- One step. [iterio.py:187-217] -/
def step (s : St) : RAct → St
  | .write bs => { s with pipe := s.pipe.write bs }
  | .close => { s with pipe := { s.pipe with closed := true } }
  | .event n => if !s.destroyed && s.pipe.readable then handleEvent s n else s
  | .next => match s.cons with
    | .idle => anext s
    | .stopped => anext s
    | _ => s
  | .resume => match s.cons with
    | .woken => anext s
    | _ => s
  | .cancel => match s.cons with
    | .waiting => { s with cons := .idle, fut := .cancelled }
    | .woken => { s with cons := .idle }
    | _ => s

/-- A history (iterio.py:187-217). -/
def run (s : St) (as : List RAct) : St := as.foldl step s

end Line

namespace Chunk

/-- `InputHandler` object (iterio.py:147-152); `buffer` is `None` or a chunk. -/
structure St where
  pipe : Pipe
  buffer : Option Bytes
  eof : Bool
  fut : Fut
  destroyed : Bool
  cons : Cons
  out : List Bytes
deriving DecidableEq, Repr

/-- `InputHandler.__init__` (iterio.py:147-152). -/
def init : St :=
  { pipe := ⟨[], false, []⟩, buffer := none, eof := false, fut := .none, destroyed := false, cons := .idle, out := [] }

/-- iterio.py:160-162, as for lines. -/
def wake (s : St) : St :=
  match s.fut with
  | .none => s
  | .live => { s with fut := .none, cons := .woken }
  | .cancelled => s

/-- `InputHandler.handle_event` (iterio.py:154-162). -/
def handleEvent (s : St) (n : Nat) : St :=
  match s.buffer with
  | some _ => wake s
  | none =>
    let data := s.pipe.pending.take (readSize n)
    let s := { s with pipe := { s.pipe with pending := s.pipe.pending.drop (readSize n) }, buffer := some data }
    let s := if data.isEmpty then { s with eof := true, destroyed := true } else s
    wake s

/-- `return self.buffer` with `finally: self.buffer = None` (iterio.py:174-177).  (A resumed consumer always
finds a chunk; were there none, `None` would be returned: modelled as nothing received.) -/
def take (s : St) : St :=
  match s.buffer with
  | some b => { s with buffer := none, out := s.out ++ [b], cons := .idle }
  | none => { s with cons := .idle }

/-- `InputHandler.__anext__` when called (iterio.py:167-177). -/
def anext (s : St) : St :=
  match s.buffer with
  | some _ => take s
  | none => if s.eof then { s with cons := .stopped } else { s with fut := .live, cons := .waiting }

/-- One step; a resumed consumer continues after its `await` (iterio.py:173). -/
def step (s : St) : RAct → St
  | .write bs => { s with pipe := s.pipe.write bs }
  | .close => { s with pipe := { s.pipe with closed := true } }
  | .event n => if !s.destroyed && s.pipe.readable then handleEvent s n else s
  | .next => match s.cons with
    | .idle => anext s
    | .stopped => anext s
    | _ => s
  | .resume => match s.cons with
    | .woken => take s
    | _ => s
  | .cancel => match s.cons with
    | .waiting => { s with cons := .idle, fut := .cancelled }
    | .woken => { s with cons := .idle }
    | _ => s

/-- A history (iterio.py:144-177). -/
def run (s : St) (as : List RAct) : St := as.foldl step s

end Chunk
end Pieshell.Io
