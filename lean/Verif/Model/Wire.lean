import Verif.Model.Reader
import Verif.Model.Writer
import Verif.Model.Text

/-!
A python function or iterator whose output is piped into a python function: a `LineOutputHandler` and a
`LineInputHandler` on the two ends of one pipe (function.py:69-116), driven by the same event loop.

The reader's pipe is the pipe; the writer sees its fill level.  The pipe has no other ends (C15), so the reader
sees the end of the stream exactly when the writer has closed its end.
-/
namespace Pieshell.Io.Wire

/-- The writer (iterio.py:67-142) and the reader (iterio.py:187-217) at the two ends of one pipe. -/
structure St where
  w : Writer.St
  r : Line.St
deriving DecidableEq, Repr

/-- A fresh pipe of `cap` bytes with both handlers. [function.py:88-110, redir.py:122] -/
def init (items : List Writer.Prod) (cap : Nat) : St := ⟨Writer.init [NL] items cap 0, Line.init⟩

/-- Steps: of the writer (and its iterator), or of the reader (and its consumer).
[iterio.py:96-142, 187-217] -/
inductive Act where
  | poll | run (sus : Bool) | wake
  | event (n : Nat) | next | resume | cancel
deriving DecidableEq, Repr

/-- A step of the writer: what it wrote is now in the pipe, and if it has closed its end the pipe is closed.
[iterio.py:96-142] -/
def stepW (s : St) (a : Writer.Act) : St :=
  let w := Writer.step s.w a
  let new := w.written.drop s.w.written.length
  let r := Line.step s.r (.write new)
  ⟨w, if w.destroyed then Line.step r .close else r⟩

/-- A step of the reader: what it read is no longer in the pipe. [iterio.py:187-217] -/
def stepR (s : St) (a : RAct) : St :=
  let r := Line.step s.r a
  ⟨{ s.w with fill := r.pipe.pending.length }, r⟩

/-- One step of either side (iterio.py:96-142, 187-217). -/
def step (s : St) : Act → St
  | .poll => stepW s .poll
  | .run sus => stepW s (.run sus)
  | .wake => stepW s .wake
  | .event n => stepR s (.event n)
  | .next => stepR s .next
  | .resume => stepR s .resume
  | .cancel => stepR s .cancel

/-- A history (iterio.py:96-142, 187-217). -/
def run (s : St) (as : List Act) : St := as.foldl step s

/-- `convert` of `Function._run` for text items (function.py:76-84). -/
def textItems (ss : List Str) : List Writer.Prod := ss.map (fun s => .item (encode s))

end Pieshell.Io.Wire
