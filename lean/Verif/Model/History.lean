import Verif.Model.Base
/-!
# The history of the shell

An interactive shell reads `~/.config/pieshell.history` when it starts (if the file exists), and writes all of its history to it when it ends.
Several shells can run at the same time.

Simplifications: entries are lines (the console reads one line at a time); the file can always be read and written if its directory exists; what other programs do to the file is left out.
-/
namespace Pieshell.History

/-- What happens: shell `k` starts, a line is typed in it, it ends (by `exit()`, CTRL-D or an exception), or it is killed; the directory is made (by the start of a shell without `--no-startup`).
[shell.py:79-116] -/
inductive Act where
  | start (k : Nat)
  | line (k : Nat) (l : Str)
  | exit (k : Nat)
  | kill (k : Nat)
  | mkdir

/-- The file, whether its directory exists, and the histories of the shells that run. [shell.py:79-82] -/
structure St where
  file : Option (List Str)
  dir : Bool
  mem : Nat → Option (List Str)

/-- A line is added to the history, unless it is empty or the same as the one before. [Not in /repo: python's readline module, used by code.InteractiveConsole at shell.py:116] -/
def add (h : List Str) (l : Str) : List Str := if l = [] ∨ h.getLast? = some l then h else h ++ [l]

/-- One of them. [shell.py:79-82 (start: reads the file if it exists; exit: `atexit` writes it), environ.py:267-270 (mkdir)] -/
def St.step (s : St) : Act → St
  | .start k => { s with mem := fun j => if j = k then some (s.file.getD []) else s.mem j }
  | .line k l => { s with mem := fun j => if j = k then (s.mem k).map (fun h => add h l) else s.mem j }
  | .exit k => match s.mem k with
    | none => s
    | some h => { s with file := if s.dir then some h else s.file, mem := fun j => if j = k then none else s.mem j }
  | .kill k => { s with mem := fun j => if j = k then none else s.mem j }
  | .mkdir => { s with dir := true }

/-- A history of all of them. [shell.py:79-116] -/
def St.run (s : St) (as : List Act) : St := as.foldl St.step s

end Pieshell.History
