import Verif.Model.PyRepr
import Verif.Model.Expand
import Verif.Model.Prompt
import Verif.Spec.ShWords
/-!
# Model of the completion of a command's arguments (pieshell/pipeline/command.py:155-161, 247-249, 304-309, and the script resources/get_completions)

`dir(env.git.log)`: the command so far is written as one line of text, the line becomes the argument of the program `get_completions`, which reads it
as a line of bash, and asks bash's completion.  What the completion functions of bash answer is a parameter.
-/
namespace Pieshell.ArgC
open Pieshell.Expand

/-- `quote_arg`, command.py:156-160 -/
def quoteArg (printable : Char → Bool) (arg : Str) : Str :=
  if arg.contains ' ' then Cmd.reprStr printable arg else arg

/-- `_arg_list_sh`, command.py:155-161; `args` are the words the command would be run with (`_arg_list()`). -/
def argListSh (printable : Char → Bool) (args : List Str) : Str :=
  Cmd.joinWith c!" " (args.map (quoteArg printable))

/-- The line made by `_complete`, command.py:248. -/
def line (printable : Char → Bool) (args : List Str) : Str := argListSh printable args ++ c!" "

/-- The words that the completion is asked about, `COMP_WORDS` (get_completions:20-26): `eval set -- "$@"`, and one more, empty, word if the line ends with a space.
`none`: the line is more than words to bash. -/
def compWords (l : Str) : Option (List Str) :=
  match Sh.words (c!"set -- " ++ l) with
  | some (_ :: _ :: ws) => some (if l.getLast? = some ' ' then ws ++ [[]] else ws)
  | _ => none

/-- `Command.__dir__`, command.py:304-309, with `_complete` (command.py:247-249): `get_completions` is the program, its first argument to the lines it prints, or the
exception of a failed pipeline; `shown` is what an exception is shown as. -/
def commandDir (x : Ctx) (printable : Char → Bool) (get_completions : List Str → Except Exn (List Str)) (shown : Exn → Str) (args : List Str) : List Str :=
  match expandArgument x (line printable args) with
  | .error e => [c!"<" ++ shown e ++ c!">"]
  | .ok ws => match get_completions ws with
    | .error e => [c!"<" ++ shown e ++ c!">"]
    | .ok lines => lines.map Prompt.strip

end Pieshell.ArgC
