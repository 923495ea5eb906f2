import Verif.Model.Args
/-!
# Model of `repr(str)` and of `BaseCommand._repr` (`pipeline/command.py:94-123`)

`repr` of a `str` as in CPython (Objects/unicodeobject.c, unicode_repr); `printable` says which non-ASCII characters
are printable. The part about the running process (command.py:116-118) is left out: commands not yet started.
-/
namespace Pieshell.Cmd

/-- lower case hexadecimal digit [CPython Objects/unicodeobject.c, for command.py:114] -/
def hexDigit (d : Nat) : Char := if d < 10 then Char.ofNat (48 + d) else Char.ofNat (87 + d)

/-- `n` with exactly `k` hexadecimal digits [CPython Objects/unicodeobject.c, for command.py:114] -/
def hexFixed : Nat → Nat → Str
  | 0, _ => []
  | k + 1, n => hexDigit (n / 16 ^ k % 16) :: hexFixed k n

/-- the quote chosen by `repr` [CPython Objects/unicodeobject.c, for command.py:114] -/
def quoteFor (s : Str) : Char := if s.contains '\'' && !s.contains '"' then '"' else '\''

/-- one character inside quotes `q` [CPython Objects/unicodeobject.c, for command.py:114] -/
def escapeChar (printable : Char → Bool) (q c : Char) : Str :=
  if c = q then ['\\', c]
  else if c = '\\' then ['\\', '\\']
  else if c = '\t' then ['\\', 't']
  else if c = '\n' then ['\\', 'n']
  else if c = '\r' then ['\\', 'r']
  else if c.toNat < 32 ∨ c.toNat = 127 then '\\' :: 'x' :: hexFixed 2 c.toNat
  else if c.toNat < 127 then [c]
  else if printable c then [c]
  else if c.toNat < 256 then '\\' :: 'x' :: hexFixed 2 c.toNat
  else if c.toNat < 65536 then '\\' :: 'u' :: hexFixed 4 c.toNat
  else '\\' :: 'U' :: hexFixed 8 c.toNat

/-- `repr(s)` [CPython Objects/unicodeobject.c, for command.py:114] -/
def reprStr (printable : Char → Bool) (s : Str) : Str :=
  quoteFor s :: (s.flatMap (escapeChar printable (quoteFor s)) ++ [quoteFor s])

/-- `re.match(r"^[a-zA-Z]*$", s)` at one character: a letter [command.py:101] -/
def isLetter (c : Char) : Bool := (65 ≤ c.toNat && c.toNat ≤ 90) || (97 ≤ c.toNat && c.toNat ≤ 122)

/-- `re.match(r"^[a-zA-Z]*$", s)`, command.py:101: `$` also matches before a final newline. -/
def matchesWord : Str → Bool
  | [] => true
  | ['\n'] => true
  | c :: s => isLetter c && matchesWord s

/-- `_split_args` on a list of strings, command.py:94-104: the loop stops at the first word that does not match. -/
def splitIdx : List Str → Nat
  | [] => 0
  | w :: ws => if matchesWord w then splitIdx ws + 1 else 0

/-- `sep.join(l)` [command.py:110, 121] -/
def joinWith (sep : Str) : List Str → Str
  | [] => []
  | [w] => w
  | w :: ws => w ++ sep ++ joinWith sep ws

/-- `BaseCommand._repr`, command.py:106-123, for an argument list of strings. -/
def reprArgs (printable : Char → Bool) (args : List Str) : Str :=
  let pre := args.take (splitIdx args)
  let suf := args.drop (splitIdx args)
  let prefix' := if pre = [] then c!"_" else joinWith c!"." pre
  if suf = [] then prefix'
  else prefix' ++ c!"(" ++ joinWith c!", " (suf.map (reprStr printable)) ++ c!")"

/-- all strings, or none [command.py:101, 110] -/
def allStr : List Val → Option (List Str)
  | [] => some []
  | .str s :: l => match allStr l with
    | none => none
    | some ss => some (s :: ss)
  | _ :: _ => none

/-- `c._repr()`; `none` if an argument is not a string (an `R` of something else), which cannot happen here.
[command.py:106-123] -/
def Command.repr (expand : Str → Except Exn (List Str)) (printable : Char → Bool) (c : Command) : Except Exn Str :=
  match argListShown expand c.args with
  | .error e => .error e
  | .ok ws => match allStr ws with
    | none => .error .other
    | some ss => .ok (reprArgs printable ss)

end Pieshell.Cmd
