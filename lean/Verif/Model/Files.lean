import Verif.Model.Child
/-!
# Several writers of one regular file

`Redirect.open` (redir.py:89-98) is called in every child (`Redirect.perform`, redir.py:104-110) and for every python
function (function.py:108), so every item that is redirected to a file by name has an *open file description* of its own,
with its own offset. This module models one regular file, its open file descriptions and the writes made to it by
concurrently running programs (POSIX `open(2)`, `write(2)`).

Simplifications: writes are atomic and complete (`write(2)` on regular files), no program seeks or truncates.
-/
namespace Pieshell


/-- An open file description: the flags it was opened with and its offset. [open(2), called at redir.py:93] -/
structure OpenFile where
  flag : Nat
  off : Nat
deriving DecidableEq, Repr

/-- A regular file: its content and who has it open. [open(2), called at redir.py:93] -/
structure FileState where
  content : List UInt8
  opened : Nat → Option OpenFile

/-- What happens to a file: writer `i` opens it (`os.open` in `Redirect.open`, redir.py:89-98, with the flags of the
redirection), or writes some bytes through its own open file description. -/
inductive FileEv where
  | opens (i : Nat) (flag : Nat)
  | writes (i : Nat) (data : List UInt8)
deriving DecidableEq, Repr

/-- Content after writing `data` at position `pos` (a gap is filled with zeros).
[write(2), by the items; iterio.py:114, 136] -/
def putAt (content : List UInt8) (pos : Nat) (data : List UInt8) : List UInt8 :=
  (content ++ List.replicate (pos - content.length) 0).take pos ++ data ++ content.drop (pos + data.length)

/-- `open(2)` (truncating if O_TRUNC is given) and `write(2)` (at the end if O_APPEND was given). Writing without having
the file open changes nothing. -/
def FileState.step (s : FileState) : FileEv → FileState
  | .opens i flag =>
    { content := openContent flag s.content, opened := fun j => if j = i then some ⟨flag, 0⟩ else s.opened j }
  | .writes i data =>
    match s.opened i with
    | none => s
    | some f =>
      let pos := if (f.flag &&& O_APPEND) ≠ 0 then s.content.length else f.off
      { content := putAt s.content pos data,
        opened := fun j => if j = i then some { f with off := pos + data.length } else s.opened j }

/-- The file after a history. [Histories of open(2) (redir.py:93) and write(2)] -/
def FileState.run (s : FileState) (evs : List FileEv) : FileState := evs.foldl FileState.step s

/-- A file with content `old` that nobody has open. [Before the first open(2) of redir.py:93] -/
def FileState.closed (old : List UInt8) : FileState := { content := old, opened := fun _ => none }

end Pieshell
