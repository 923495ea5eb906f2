import Verif.Model.Base
/-!
# How a POSIX shell reads a simple command line

Words, single quotes and `;`.  Everything else that is special to a shell is either rejected (`none`) or, for the few
characters listed in `plain`, kept in the word as it is written.
-/
namespace Pieshell.Sh

/-- Characters of unquoted words. -/
def plain (c : Char) : Bool :=
  c.isAlphanum || c = '-' || c = '=' || c = '+' || c = '/' || c = '.' || c = '_' || c = ':' ||
  c = '{' || c = '}' || c = '>' || c = '$'

/-- End of a word: a started word is added to the command. -/
def flush (cur : Option Str) (cmd : List Str) : List Str :=
  match cur with
  | none => cmd
  | some w => cmd ++ [w]

/-- `quoted`: inside single quotes; `cur`: the word begun; `cmd`: the words of the current command. -/
def commands : Bool → Option Str → List Str → Str → Option (List (List Str))
  | false, cur, cmd, [] => some [flush cur cmd]
  | true, _, _, [] => none
  | true, cur, cmd, c :: s =>
    if c = '\'' then commands false cur cmd s else commands true (some (cur.getD [] ++ [c])) cmd s
  | false, cur, cmd, c :: s =>
    if c = '\'' then commands true (some (cur.getD [])) cmd s
    else if c = ' ' then commands false none (flush cur cmd) s
    else if c = ';' then (commands false none [] s).map (flush cur cmd :: ·)
    else if plain c then commands false (some (cur.getD [] ++ [c])) cmd s
    else none

/-- The commands of a script, each a list of words. -/
def read (s : Str) : Option (List (List Str)) := commands false none [] s

end Pieshell.Sh
