import Verif.Model.Redir
/-!
# Model of the child side of `Command._run` (command.py:175-178, 225-233) and of output files
-/
namespace Pieshell

/-- What becomes of the forked child. [command.py:225-233] -/
inductive ChildOutcome where
  /-- the program is executed with these descriptors and this working directory -/
  | exec (fds : Nat → Option Obj) (cwd : Str)
  /-- `os._exit(ecode)`, command.py:233 -/
  | exit (ecode : Int)

/-- `Command._child` under the `try` of `Command._run`, command.py:175-178 and 225-233.
`procCwd`: working directory of the shell process (inherited by the child); `envCwd`: `self._env._cwd`;
`chdirErr`/`execErr`: errno with which `os.chdir(envCwd)`/`os.execvpe` fail, if they do.
The message written to stderr on failure is not modelled. -/
def childRun (sys : Sys) (procCwd envCwd : Str) (chdirErr execErr : Option Nat) (rs : Redirects)
    (t : FdTable) : ChildOutcome :=
  let t1 := rs.perform sys procCwd t
  match chdirErr with
  | some e => .exit e
  | none => match execErr with
    | some e => .exit e
    | none => .exec (execTable t1) envCwd

/-! ## Files -/

/-- Content of a regular file after `open(2)` with the given flags, given its content before
(empty if it did not exist). -/
def openContent (flag : Nat) (old : List UInt8) : List UInt8 :=
  if (flag &&& O_TRUNC) ≠ 0 then [] else old

/-- `write(2)` of `data` on a descriptor without O_APPEND at offset `off`. (Offsets never lie beyond the end
of the file here.) -/
def writeAt (s : List UInt8 × Nat) (data : List UInt8) : List UInt8 × Nat :=
  (s.1.take s.2 ++ data ++ s.1.drop (s.2 + data.length), s.2 + data.length)

/-- Content of the file after a program has written `chunks` to it through a descriptor opened with `flag`.
[The operating system's part; the flags are those of redir.py:66-70, 93] -/
def fileAfter (flag : Nat) (old : List UInt8) (chunks : List (List UInt8)) : List UInt8 :=
  (chunks.foldl writeAt (openContent flag old, 0)).1

end Pieshell
