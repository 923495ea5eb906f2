import Verif.Model.Bash
/-! # What bash prints, and what is to be read -/
namespace Pieshell.Bash

/-- A value in double quotes: bash puts a backslash before these four characters (`sh_double_quote`). -/
def bashQuote (v : Str) : Str :=
  c!"\"" ++ v.flatMap (fun c => if c = '"' ∨ c = '\\' ∨ c = '$' ∨ c = '`' then ['\\', c] else [c]) ++ c!"\""

/-- A line of `declare -x` (without its newline): an exported variable, with or without a value. -/
def declared : Str × Option Str → Str
  | (name, some v) => c!"declare -x " ++ name ++ c!"=" ++ bashQuote v
  | (name, none) => c!"declare -x " ++ name

/-- The output of `declare -x`. -/
def printed (vars : List (Str × Option Str)) : Str := vars.flatMap (fun v => declared v ++ c!"\n")

/-- Names of shell variables. -/
def IsName (s : Str) : Prop := s ≠ [] ∧ ∀ c ∈ s, c.isAlphanum = true ∨ c = '_'

/-- Text in double quotes: a backslash takes the next character with it, and there is no other double quote. -/
inductive InDouble : Str → Prop
  | nil : InDouble []
  | plain (c : Char) (s : Str) : c ≠ '"' → c ≠ '\\' → InDouble s → InDouble (c :: s)
  | escaped (c : Char) (s : Str) : InDouble s → InDouble ('\\' :: c :: s)

/-- Text in which every quote is closed and every backslash is followed by a character; a `#` hides the rest of its line. -/
inductive Closed : Str → Prop
  | nil : Closed []
  | plain (c : Char) (s : Str) : c ∉ c!"'\"\\#" → Closed s → Closed (c :: s)
  | single (q s : Str) : '\'' ∉ q → Closed s → Closed ('\'' :: (q ++ '\'' :: s))
  | double (q s : Str) : InDouble q → Closed s → Closed ('"' :: (q ++ '"' :: s))
  | escaped (c : Char) (s : Str) : Closed s → Closed ('\\' :: c :: s)
  | comment (t s : Str) : '\n' ∉ t → Closed s → Closed ('#' :: (t ++ '\n' :: s))
  | commentEnd (t : Str) : '\n' ∉ t → Closed ('#' :: t)

/-- The text without its quotes and backslashes. -/
def bare (s : Str) : Str := s.filter (fun c => !(c = '\'' || c = '"' || c = '\\'))

/-- The word `declare` does not occur, not even with quotes or backslashes in it. -/
def NoDeclare (s : Str) : Prop := ∀ a b, bare s ≠ a ++ c!"declare" ++ b

/-- What shlex makes of a quoted value: the backslashes before `$` and backquotes stay. -/
def misread (v : Str) : Str := v.flatMap (fun c => if c = '$' ∨ c = '`' then ['\\', c] else [c])

end Pieshell.Bash
