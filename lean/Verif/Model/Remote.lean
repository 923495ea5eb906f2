import Verif.Model.Expand
import Verif.Model.Reader
import Verif.Model.Shell
/-!
# Model of `remote` and of the script of `bashsource` (`pieshell/pipeline/builtins.py:151-164, 196-206`)

`pickle.dumps` and `pickle.loads` are not modelled: the theorems are about the bytes between them.
-/
namespace Pieshell.Remote
open Pieshell.Expand Pieshell.Io

/-- The base64 alphabet. [CPython Modules/binascii.c, for builtins.py:200] -/
def enc6 (n : Nat) : Char :=
  if n < 26 then Char.ofNat (65 + n)
  else if n < 52 then Char.ofNat (97 + (n - 26))
  else if n < 62 then Char.ofNat (48 + (n - 52))
  else if n = 62 then '+' else '/'

/-- `binascii`'s table: `none` for characters that are not in the alphabet.
[CPython Modules/binascii.c, for shell.py:76] -/
def dec6 (c : Char) : Option Nat :=
  let n := c.toNat
  if 65 ≤ n ∧ n ≤ 90 then some (n - 65)
  else if 97 ≤ n ∧ n ≤ 122 then some (n - 97 + 26)
  else if 48 ≤ n ∧ n ≤ 57 then some (n - 48 + 52)
  else if c = '+' then some 62
  else if c = '/' then some 63
  else none

/-- `base64.b64encode(...).decode("ascii")` (builtins.py:200) -/
def b64encode : Bytes → Str
  | [] => []
  | [a] => [enc6 (a.toNat / 4), enc6 (a.toNat % 4 * 16), '=', '=']
  | [a, b] => [enc6 (a.toNat / 4), enc6 (a.toNat % 4 * 16 + b.toNat / 16), enc6 (b.toNat % 16 * 4), '=']
  | a :: b :: c :: r =>
    enc6 (a.toNat / 4) :: enc6 (a.toNat % 4 * 16 + b.toNat / 16) :: enc6 (b.toNat % 16 * 4 + c.toNat / 64) ::
      enc6 (c.toNat % 64) :: b64encode r

/-- `binascii.a2b_base64` (CPython 3.11, not strict), the loop: `quad` is the position in the group of four, `left` the bits
left over, `pads` the number of padding characters seen.  `none` is `binascii.Error`. -/
def a2b (quad left pads : Nat) : Str → Option Bytes
  | [] => if quad = 0 then some [] else none
  | c :: s =>
    if c = '=' then
      if quad ≥ 2 ∧ quad + (pads + 1) ≥ 4 then some []
      else a2b quad left (if quad ≥ 2 then pads + 1 else pads) s
    else match dec6 c with
      | none => a2b quad left pads s
      | some d => match quad with
        | 0 => a2b 1 d 0 s
        | 1 => (a2b 2 (d % 16) 0 s).map (UInt8.ofNat (left * 4 + d / 16) :: ·)
        | 2 => (a2b 3 (d % 4) 0 s).map (UInt8.ofNat (left * 16 + d / 4) :: ·)
        | _ => (a2b 0 0 0 s).map (UInt8.ofNat (left * 64 + d) :: ·)

/-- `base64.b64decode(text.encode("ascii"))` (shell.py:76) -/
def b64decode (s : Str) : Option Bytes := a2b 0 0 0 s

/-- The command given to `ssh` (builtins.py:200-203). -/
def sshcmd (pickled : Bytes) : Str := c!"pieshell --pcmd='" ++ b64encode pickled ++ c!"'"

/-- What the remote pieshell hands to `pickle.loads`, given its arguments (shell.py:76). -/
def received (argv : List Str) : Option Bytes :=
  match Shell.main argv with
  | .act _ (.pcmd text) => b64decode text
  | _ => none

/-! ### bashsource -/

/-- An argument of `bashsource`: text, or `R(text)` which is not expanded (environ.py:81-82). -/
inductive Arg where
  | text (s : Str)
  | raw (s : Str)

/-- `_expand_argument` (environ.py:77-94) of one argument (builtins.py:154). -/
def expandArg (x : Ctx) : Arg → Except Exn (List Str)
  | .text s => expandArgument x s
  | .raw s => .ok [s]

/-- The loop over the arguments (builtins.py:153-155): the file names. -/
def fileNames (x : Ctx) : List Arg → Except Exn (List Str)
  | [] => .ok []
  | a :: l => match expandArg x a with
    | .error e => .error e
    | .ok names => match fileNames x l with
      | .error e => .error e
      | .ok rest => .ok (names ++ rest)

/-- `"; ".join(args)` with the last command (builtins.py:155-159) -/
def script : List Str → Str
  | [] => c!"{ declare -x; declare -f; } > $0"
  | n :: l => c!"source '" ++ n ++ c!"'; " ++ script l

/-- What bash gets after `-c`: the script is an argument of the command `bash` and expanded like all arguments
(builtins.py:156-161, command.py:133-153). -/
def bashArgument (x : Ctx) (args : List Arg) : Except Exn (List Str) :=
  match fileNames x args with
  | .error e => .error e
  | .ok names => expandArgument x (script names)

end Pieshell.Remote
