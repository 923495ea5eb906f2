import Verif.Model.Reader

/-!
Writers of `pieshell/iterio.py`: `OutputHandler` (67-112) and `LineOutputHandler` (115-130), driven by the asyncio
event loop.

The event loop (asyncio/base_events.py `_run_once`): an iteration first polls the descriptors and appends the
handles of the ready ones to the handles scheduled so far, then runs exactly the handles that are in the queue
now; whatever these schedule is run in the next iteration.  Here `cur` are the handles still to be run in the
current iteration and `nxt` those scheduled for the next one.  Only the handles that concern this writer are
represented; other handles run between them without touching it.

Simplifications: the pipe is a byte counter (`fill` of `cap` bytes); a descriptor polls as writable when
`PIPE_BUF` bytes fit or the reader is gone; a write that does not fit blocks the process until others have read
enough - modelled as a write that completes and sets `blocked` (short writes after an interrupting signal, whose
result the code ignores, are not modelled); this writer is the only one of the pipe; the iterator's
`__anext__` either returns at once or is suspended, any number of times, at the scheduler's choice; exceptions that are
not `Exception` (cancellation, `KeyboardInterrupt`) are not modelled.
-/
namespace Pieshell.Io.Writer

/-- `select.PIPE_BUF` on Linux. [pipe(7)] -/
def PIPE_BUF : Nat := 4096

/-- What the (converted) iterator does when asked: a value, `None`, or an exception.  After the last one it
raises `StopAsyncIteration`; after an exception too (generators). [iterio.py:111, 133] -/
inductive Prod where
  | item (b : Bytes)
  | skip
  | fail
deriving DecidableEq, Repr

/-- Handles in the loop's queue: the writer callback of this descriptor; the first step of a `send_output` task;
the step of a suspended `send_output` task whose awaited future is done.
[iterio.py:42-47, 96-97; the queue is CPython Lib/asyncio/base_events.py] -/
inductive H where
  | E | T | W
deriving DecidableEq, Repr

/-- The task inside `await iter.__anext__()`: none; suspended; suspended with a wake-up in the queue.
[iterio.py:111, 133] -/
inductive Susp where
  | no | yes | queued
deriving DecidableEq, Repr

/-- `done_future`. [iterio.py:73, 88-94] -/
inductive Done where
  | running | ok | exc
deriving DecidableEq, Repr

/-- Observable events (ghost): the iterator is asked, it answers (`none` = `StopAsyncIteration`), bytes are written,
a write fails with `EPIPE`, bytes are written to a descriptor number that this writer has closed already, the
descriptor is closed. -/
inductive Ev where
  | request
  | response (p : Option Prod)
  | write (b : Bytes)
  | epipe (b : Bytes)
  | badWrite (b : Bytes)
  | close
deriving DecidableEq, Repr

/-- The handler object, the loop's queue and the pipe.  `suffix` is what is added to each item: a newline for
`LineOutputHandler`, nothing for `OutputHandler`.  `polled` says whether the descriptor is registered
(`add_writer`), which is until `destroy`. [iterio.py:67-142] -/
structure St where
  suffix : Bytes
  items : List Prod
  lock : Bool
  susp : Susp
  destroyed : Bool
  done : Done
  cur : List H
  nxt : List H
  fill : Nat
  cap : Nat
  readerGone : Bool
  written : Bytes
  blocked : Bool
  trace : List Ev
deriving DecidableEq, Repr

/-- `OutputHandler.__init__` (iterio.py:70-74): nothing requested, descriptor registered. -/
def init (suffix : Bytes) (items : List Prod) (cap fill : Nat) : St :=
  { suffix, items, lock := false, susp := .no, destroyed := false, done := .running, cur := [], nxt := [], fill, cap,
    readerGone := false, written := [], blocked := false, trace := [] }

/-- Ghost state: what has happened, for the statements of theorems. -/
def St.log (s : St) (e : Ev) : St := { s with trace := s.trace ++ [e] }

/-- `OutputHandler.destroy` (iterio.py:88-94), `IOHandler.destroy` (29-38) and `disable` (49-55):
`remove_writer` cancels the callback handle, also one that is in the queue already. -/
def destroy (s : St) (d : Done) : St :=
  let s := if s.done = .running then { s with done := d } else s
  if s.destroyed then s
  else { s with destroyed := true, cur := s.cur.filter (· ≠ .E), trace := s.trace ++ [.close] }

/-- `os.write(self.fd, val + suffix)` (iterio.py:113-114, 135-136); the exceptions of `os.write` are caught by
`except Exception`. -/
def write (s : St) (b : Bytes) : St :=
  if s.destroyed then destroy (s.log (.badWrite b)) .exc
  else if s.readerGone then destroy (s.log (.epipe b)) .exc
  else { s with written := s.written ++ b, fill := s.fill + b.length,
                blocked := s.blocked || decide (s.cap < s.fill + b.length), trace := s.trace ++ [.write b] }

/-- The rest of `send_output` after the iterator has answered (iterio.py:111-118, 133-142): the recursion lock
is released only after a normal answer. -/
def complete (s : St) : St :=
  let s := { s with susp := .no }
  match s.items with
  | [] => destroy (s.log (.response none)) .ok
  | .fail :: _ => destroy ({ s with items := [] }.log (.response (some .fail))) .exc
  | .skip :: ps => { s with items := ps, lock := false }.log (.response (some .skip))
  | .item b :: ps => write ({ s with items := ps, lock := false }.log (.response (some (.item b)))) (b ++ s.suffix)

/-- `send_output` from its beginning (iterio.py:106-111, 128-133); `sus`: whether the iterator suspends. -/
def sendOutput (s : St) (sus : Bool) : St :=
  if s.lock then s
  else
    let s := { s with lock := true }.log .request
    if sus then { s with susp := .yes } else complete s

/-- Run one handle: `handle_event` creates a task (iterio.py:96-97), whose first step is scheduled. -/
def runHandle (s : St) (sus : Bool) : H → St
  | .E => { s with nxt := s.nxt ++ [.T] }
  | .T => sendOutput s sus
  | .W => if sus then { s with susp := .yes } else complete s

/-- The descriptor is registered and polls as writable. [iterio.py:47; poll(2)] -/
def St.ready (s : St) : Bool := !s.destroyed && (decide (s.fill + PIPE_BUF ≤ s.cap) || s.readerGone)

/-- Steps of the loop (CPython Lib/asyncio/base_events.py), of the iterator (iterio.py:111) and of the reader at the other end of the pipe. -/
inductive Act where
  | poll
  | run (sus : Bool)
  | wake
  | drain (n : Nat)
  | readerGone
deriving DecidableEq, Repr

/-- One step: the loop begins an iteration, runs the next handle, the future on which the iterator waits gets a
result, the reader reads, the reader goes away. [iterio.py:96-142; CPython Lib/asyncio/base_events.py] -/
def step (s : St) : Act → St
  | .poll => match s.cur with
    | [] => { s with cur := s.nxt ++ (if s.ready then [.E] else []), nxt := [] }
    | _ :: _ => s
  | .run sus => match s.cur with
    | [] => s
    | h :: hs => runHandle { s with cur := hs } sus h
  | .wake => match s.susp with
    | .yes => { s with susp := .queued, nxt := s.nxt ++ [.W] }
    | _ => s
  | .drain n => { s with fill := s.fill - n }
  | .readerGone => { s with readerGone := true }

/-- A history (iterio.py:96-142). -/
def run (s : St) (as : List Act) : St := as.foldl step s

end Pieshell.Io.Writer
