import Verif.Model.PyRepr

/-!
`Command.__signature__` (pieshell/pipeline/command.py:252-302): the keyword parameters of a command, found in what the command prints
when it is run with `--help`.

Parameters: `upper`, `str.upper`; `order`, the order in which the elements of a set are met; `ws`, which characters `\s` matches; `refused`, the names `inspect.Parameter` refuses (python keywords); `enumFails`,
the names of members with which making an `enum.Enum` raises an exception (`_NAME_`).

Simplifications: running `--help` is not part of this (see C37, C78 for `str(pipeline)`): its output is given; `typing.Union[...]` is represented by the
set of the types, as a list.
-/
namespace Pieshell.Sgn
open Pieshell.Cmd (isLetter)

/-- `[-a-zA-Z]` [command.py:257] -/
def isNameChar (c : Char) : Bool := c == '-' || isLetter c

/-- `(--[a-zA-Z][-a-zA-Z]+)` at the beginning of the text: the match without the two dashes, and the rest.
[command.py:257] -/
def matchName : Str → Option (Str × Str)
  | '-' :: '-' :: c :: s =>
    if isLetter c && (s.head?.map isNameChar).getD false then some (c :: s.takeWhile isNameChar, s.dropWhile isNameChar) else none
  | _ => none

/-- `([\[]?=[^\s\n]*)?` [command.py:257] -/
def matchValue (ws : Char → Bool) : Str → Str × Str
  | '[' :: '=' :: s => ('[' :: '=' :: s.takeWhile (fun c => !ws c), s.dropWhile (fun c => !ws c))
  | '=' :: s => ('=' :: s.takeWhile (fun c => !ws c), s.dropWhile (fun c => !ws c))
  | s => ([], s)

/-- The regular expression of command.py:257 at the beginning of the text: both groups and the rest.  (Taking fewer characters for `\s+` or for the
name never helps: a dash is no white space, and the rest is optional.) -/
def matchAt (ws : Char → Bool) (s : Str) : Option ((Str × Str) × Str) :=
  match s with
  | [] => none
  | c :: t =>
    if ws c then
      match matchName (t.dropWhile ws) with
      | none => none
      | some (n, r) => some ((n, (matchValue ws r).1), (matchValue ws r).2)
    else none

/-- `re.findall`: after a match it goes on behind it, otherwise one character further.  The number bounds the steps.
[CPython Lib/re, for command.py:257] -/
def findallN (ws : Char → Bool) : Nat → Str → List (Str × Str)
  | 0, _ => []
  | _ + 1, [] => []
  | f + 1, c :: t => match matchAt ws (c :: t) with
    | some (x, r) => x :: findallN ws f r
    | none => findallN ws f t

/-- `re.findall` (command.py:257). -/
def findall (ws : Char → Bool) (s : Str) : List (Str × Str) := findallN ws s.length s

/-- `param[2:].replace("-", "_")` (command.py:258). -/
def underscores (n : Str) : Str := n.map (fun c => if c = '-' then '_' else c)

/-- `value.strip(" .")` [command.py:264] -/
def strip (s : Str) : Str := ((s.dropWhile (fun c => c == ' ' || c == '.')).reverse.dropWhile (fun c => c == ' ' || c == '.')).reverse

/-- command.py:261-266: the values added to the set for one match. -/
def valuesOf (v : Str) : List Str :=
  if v.head? = some '[' then [[], (strip v.tail.dropLast).dropWhile (· == '=')]
  else [(strip v).dropWhile (· == '=')]

/-- `set.add` [command.py:263, 266] -/
def addTo (l : List Str) (v : Str) : List Str := if l.contains v then l else l ++ [v]

/-- The first loop (command.py:257-266). -/
def collect (ms : List (Str × Str)) : Dict Str (List Str) :=
  ms.foldl (fun d m => d.set (underscores m.1) ((valuesOf m.2).foldl addTo ((d.get? (underscores m.1)).getD []))) []

/-- The annotations (command.py:275-290, 298). -/
inductive Ty where
  | bool | int | str
  /-- an enumeration with these values -/
  | enum (values : List Str)
deriving DecidableEq, Repr

/-- `inspect.Parameter` (command.py:294-298). -/
structure Param where
  name : Str
  /-- `default=False`; otherwise there is no default -/
  default : Bool
  types : List Ty
deriving DecidableEq, Repr

/-- command.py:273-283: the types of the values that are no enumeration, and the others. -/
def isEnum (v : Str) : Bool := v ≠ [] && v.head? ≠ some '<'
/-- command.py:273-281. -/
def plainTypes (vs : List Str) : List Ty :=
  (if vs.contains [] then [.bool] else []) ++ (if vs.contains c!"<number>" then [.int] else []) ++
  (if vs.any (fun v => v.head? = some '<' && v ≠ c!"<number>") then [.str] else [])

/-- `{value.upper(): value for value in enumvalues}` (command.py:285): of values that differ in case only, the last one met is kept.  The result is the
members: names and values. -/
def members (upper : Str → Str) (es : List Str) : Dict Str Str := es.foldl (fun d v => d.set (upper v) v) []

/-- What the environment provides: see above. [command.py:285, 290, 294] -/
structure Py where
  upper : Str → Str
  order : List Str → List Str
  ws : Char → Bool
  refused : Str → Bool
  enumFails : List Str → Bool

/-- The body of the second loop (command.py:268-298).  If making the enumeration raises an exception, that is swallowed, `types` is still a set, and
`types[0]` raises TypeError. -/
def param (py : Py) (name : Str) (vs : List Str) : Except Exn Param :=
  let es := members py.upper (py.order (vs.filter isEnum))
  if es ≠ [] ∧ py.enumFails es.keys = true then .error .typeError
  else if py.refused name then .error .valueError
  else .ok ⟨name, vs.contains [], plainTypes vs ++ (if es = [] then [] else [.enum (es.map Prod.snd)])⟩

/-- The second loop (command.py:268-298). -/
def params (py : Py) : Dict Str (List Str) → Except Exn (List Param)
  | [] => .ok []
  | (n, vs) :: d => match param py n vs with
    | .error e => .error e
    | .ok p => match params py d with
      | .error e => .error e
      | .ok l => .ok (p :: l)

/-- `__signature__`, given the text printed by `--help`. [command.py:251-302] -/
def signature (py : Py) (help : Str) : Except Exn (List Param) := params py (collect (findall py.ws help))

end Pieshell.Sgn
