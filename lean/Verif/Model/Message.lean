import Verif.Model.Job
import Verif.Model.PyRepr

/-!
The message of `PipelineFailed`, `PipelineSuspended` and `PipelineInterrupted`: `PipelineError.__str__`
(pieshell/pipeline/running.py:47-61) and `__repr__` of the items (running.py:232-244, 282-289).

The exception refers to the running pipeline, so the text is made from the state at the time when it is asked for.
`repr(...)` of pipelines and commands, and what is shown of a function (name, handler, traceback) are parameters; see `Model/Repr.lean` for the former.
-/
namespace Pieshell.Job
open Pieshell.Cmd (joinWith)

/-- Texts of other modules: of pipeline `p`; of item `i` of pipeline `p` (`repr(self.cmd)` for a process, lines 233-243 for a function).
[running.py:232-244, 282-283] -/
structure Texts where
  pipe : Nat → Str
  item : Nat → Nat → Str

/-- `Redirect.names_to_fd.get(fd, fd)`, formatted with `%s` (redir.py:64-65, running.py:287). -/
def fdText (fd : Nat) : Str :=
  if fd = 0 then c!"stdin" else if fd = 1 then c!"stdout" else if fd = 2 then c!"stderr" else (toString fd).toList

/-- The loop of `RunningProcess.__repr__` (running.py:286-288). -/
def contents : Dict Nat Str → Str → Str
  | [], res => res
  | (fd, value) :: l, res => contents l (res ++ (fdText fd ++ c!" content:\n" ++ value ++ c!"\n"))

/-- `proc.__repr__(display_output=True)`: `RunningProcess` (running.py:282-289), `RunningFunction` (232-244); `RunnningFg` (builtins.py:57-69) inherits
`object.__repr__`, which has no such argument. -/
def itemText (t : Str) (it : Item) : Except Exn Str :=
  match it.kind with
  | .proc => .ok (contents it.output (t ++ c!"\n"))
  | .func => .ok t
  | .fg _ => .error .typeError

/-- The list comprehension of `__str__` (running.py:55-57). -/
def itemTexts (T : Texts) (ps : List Pipe) (p : Nat) : List Nat → Except Exn (List Str)
  | [] => .ok []
  | i :: l => match (itemsOf ps p)[i]? with
    | none => .error .other
    | some it => match itemText (T.item p i) it with
      | .error e => .error e
      | .ok x => match itemTexts T ps p l with
        | .error e => .error e
        | .ok xs => .ok (x :: xs)

/-- `PipelineError.__str__` (running.py:48-57), with the class's `description`. -/
def message (T : Texts) (description : Str) (s : St) (p : Nat) : Except Exn Str :=
  match itemTexts T s.pipes p (failedItems s.pipes p) with
  | .error e => .error e
  | .ok xs => .ok (description ++ c!": " ++ T.pipe p ++ c!":\n\n" ++ joinWith c!"\n\n================================\n\n" xs)

/-- `PipelineFailed.description` (running.py:59). -/
def failedText : Str := c!"Pipeline failed"

end Pieshell.Job
