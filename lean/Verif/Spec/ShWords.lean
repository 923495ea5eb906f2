import Verif.Model.Base
/-!
# How a shell splits a line into words

As `Spec/Remote`, but with both kinds of quotes and backslashes, and without any exception: `none` as soon as there is anything
that makes a shell do more than pass on words (running commands, variables, patterns, redirections, comments, ...).
-/
namespace Pieshell.Sh

/-- Outside quotes, after a backslash, inside single quotes, inside double quotes, after a backslash in double quotes. -/
inductive Mode where
  | bare | escaped | single | double | doubleEscaped
deriving DecidableEq, Repr

/-- Characters that mean something to a shell (somewhere) outside quotes; line ends are among them. -/
def special (c : Char) : Bool :=
  c ∈ c!";&|<>()$`*?[]{}~#!^" || c = '\n' || c = Char.ofNat 0

/-- Characters that simply belong to a word. -/
def ordinary (c : Char) : Bool := !special c && c ≠ ' ' && c ≠ '\t' && c ≠ '\'' && c ≠ '"' && c ≠ '\\'

/-- `cur`: the word that has been begun. -/
def split : Mode → Option Str → Str → Option (List Str)
  | .bare, cur, [] => some cur.toList
  | .bare, cur, c :: s =>
    if c = ' ' || c = '\t' then (split .bare none s).map (cur.toList ++ ·)
    else if c = '\'' then split .single (some (cur.getD [])) s
    else if c = '"' then split .double (some (cur.getD [])) s
    else if c = '\\' then split .escaped (some (cur.getD [])) s
    else if special c then none
    else split .bare (some (cur.getD [] ++ [c])) s
  | .escaped, cur, c :: s => if c = '\n' then none else split .bare (some (cur.getD [] ++ [c])) s
  | .single, cur, c :: s => if c = '\'' then split .bare cur s else split .single (some (cur.getD [] ++ [c])) s
  | .double, cur, c :: s =>
    if c = '"' then split .bare cur s
    else if c = '$' || c = '`' then none
    else if c = '\\' then split .doubleEscaped cur s
    else split .double (some (cur.getD [] ++ [c])) s
  | .doubleEscaped, cur, c :: s =>
    if c = '\n' then none
    else if c ∈ c!"$`\"\\" then split .double (some (cur.getD [] ++ [c])) s
    else split .double (some (cur.getD [] ++ ['\\', c])) s
  | _, _, [] => none

/-- The words of a line. -/
def words (line : Str) : Option (List Str) := split .bare none line

example : words c!"ls -l 'a b' \"it's $\"" = none := by decide
example : words c!"ls -l 'a b' \"it's\" x\\ y" = some [c!"ls", c!"-l", c!"a b", c!"it's", c!"x y"] := by decide

end Pieshell.Sh
