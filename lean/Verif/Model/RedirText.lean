import Verif.Model.Redir
import Verif.Model.PyRepr
/-!
# Model of the texts of redirections: `flags_to_string`, `Redirect.__repr__`, `Redirects.__repr__`

Platform: the table below lists the `O_*` names of Python's `os` module on Linux x86-64, in the order of
`dir(os)` (alphabetical). The name generated for temporary file number `n` is a parameter `tmpName`.
-/
namespace Pieshell

/-- The `O_*` names in `dir(os)` with their values, names without the leading "O_" (redir.py:46-48; Linux). -/
def openFlags : List (Str × Nat) :=
  [(c!"APPEND", 1024), (c!"ASYNC", 8192), (c!"CLOEXEC", 524288), (c!"CREAT", 64), (c!"DIRECT", 16384),
   (c!"DIRECTORY", 65536), (c!"DSYNC", 4096), (c!"EXCL", 128), (c!"LARGEFILE", 0), (c!"NDELAY", 2048),
   (c!"NOATIME", 262144), (c!"NOCTTY", 256), (c!"NOFOLLOW", 131072), (c!"NONBLOCK", 2048), (c!"PATH", 2097152),
   (c!"RDONLY", 0), (c!"RDWR", 2), (c!"RSYNC", 1052672), (c!"SYNC", 1052672), (c!"TMPFILE", 4259840),
   (c!"TRUNC", 512), (c!"WRONLY", 1)]

/-- The names selected by the comprehension in `flags_to_string`, redir.py:46-48. -/
def flagNames (flags : Nat) : List Str := (openFlags.filter (fun p => flags &&& p.2 != 0)).map Prod.fst

/-- `flags_to_string`, redir.py:45-48. -/
def flagsToString (flags : Nat) : Str := Cmd.joinWith c!"," (flagNames flags)

/-- `str(self.source)` (redir.py:150). The Python 2 `__metaclass__` (redir.py:20-24) has no effect in Python 3, so a
class is shown by `type.__repr__`; an instance by `SpecialRedirect.__repr__` (redir.py:35-39).
Simplification: which of TMP and STRING an instance used as a source belongs to is not recorded by the model's
`Source.inst`; TMP is shown. -/
def Source.text (tmpName : Nat → Str) : Source → Str
  | .none => c!"None"
  | .fd n => Nat.toDigits 10 n
  | .path p => p
  | .PIPE => c!"<class 'pieshell.redir.PIPE'>"
  | .TMP => c!"<class 'pieshell.redir.TMP'>"
  | .STRING => c!"<class 'pieshell.redir.STRING'>"
  | .inst n => c!"<class 'pieshell.redir.TMP'>(path=" ++ tmpName n ++ c!")"

/-- `str(self.pipe)` (redir.py:155) when it is not None. -/
def PipeEnd.text (tmpName : Nat → Str) : PipeEnd → Option Str
  | .none => Option.none
  | .fd n => some (Nat.toDigits 10 n)
  | .tmp n => some (c!"<class 'pieshell.redir.TMP'>(path=" ++ tmpName n ++ c!")")
  | .string n => some (c!"<class 'pieshell.redir.STRING'>(path=" ++ tmpName n ++ c!")")

/-- The list `flagmode`, redir.py:137-141. -/
def Redirect.flagmode (r : Redirect) : List Str :=
  (if some r.flag ≠ fdFlags.get? r.fd then [flagsToString r.flag] else []) ++
  (if r.mode ≠ defaultMode then [c!"m=" ++ Nat.toDigits 10 r.mode] else [])

/-- The text `flagmode`, redir.py:142-145. -/
def Redirect.flagmodeText (r : Redirect) : Str :=
  if r.flagmode ≠ [] then c!"[" ++ Cmd.joinWith c!"," r.flagmode ++ c!"]" else []

/-- `Redirect.__repr__`, redir.py:136-156. -/
def Redirect.text (tmpName : Nat → Str) (r : Redirect) : Str :=
  let arrow := if r.flag &&& O_WRONLY ≠ 0 then c!"-" ++ r.flagmodeText ++ c!"->" else c!"<-" ++ r.flagmodeText ++ c!"-"
  let arrow := Nat.toDigits 10 r.fd ++ c!" " ++ arrow ++ c!" " ++ r.source.text tmpName
  let arrow := if r.borrowed then c!"(" ++ arrow ++ c!")" else arrow
  match r.pipe.text tmpName with
  | none => arrow
  | some p => arrow ++ c!" " ++ c!"pipe=" ++ p

/-- `Redirects.__repr__`, redir.py:246-248: `sorted` by descriptor (stable). -/
def Redirects.text (tmpName : Nat → Str) (rs : Redirects) : Str :=
  Cmd.joinWith c!", " (((Dict.values rs).mergeSort (fun a b => decide (a.fd ≤ b.fd))).map (Redirect.text tmpName))

end Pieshell
