import Verif.Model.PyRepr
/-! # Vocabulary for C22, C23, C28 -/
namespace Pieshell.Cmd

/-- One step of writing a command: `.name`, `(pos, ..., name=value, ...)`, or `-name`. -/
inductive Step where
  | attr (name : Str) | call (pos : List Elem) (kw : List (Str × Val)) | dash (name : Str)

/-- The words a step adds. -/
def Step.words : Step → List Elem
  | .attr name => [.val (.str name)]
  | .call pos kw => pos ++ (if kw = [] then [] else [.dict kw])
  | .dash name => [.val (.str ('-' :: name))]

/-- Evaluate the steps one after the other, starting with a command object. `none`: the expression is not a command
(an attribute of the python object was hit). -/
def build (registered : Str → Bool) (c : Command) : List Step → Except Exn (Option Command)
  | [] => .ok (some c)
  | .attr name :: rest => match getAttr registered c name with
    | .error e => .error e
    | .ok .member => .ok none
    | .ok (.command c') => build registered c' rest
  | .call pos kw :: rest => match call registered c pos kw with
    | .error e => .error e
    | .ok c' => build registered c' rest
  | .dash name :: rest => match envAttr registered name with
    | .error e => .error e
    | .ok d => match sub registered c d with
      | .error e => .error e
      | .ok c' => build registered c' rest

/-- `_`, the root command without words -/
def root : Command := { kind := .base, args := [] }

/-- The class of the command with given words: decided by the first one. -/
def kindOf (registered : Str → Bool) : List Elem → Kind
  | [] => .base
  | .val (.str s) :: _ => if registered s then .builtin s else .external
  | _ => .external

/-- The first word can be looked up in a dict. -/
def FirstHashable : List Elem → Prop
  | .dict _ :: _ => False
  | .val (.piped _ h) :: _ => h = true
  | _ => True

/-- An attribute name that no command object has as a python attribute; a dashed name that is not `_`. -/
def Step.Plain : Step → Prop
  | .attr name => ∀ k, isMember k name = false
  | .call _ _ => True
  | .dash name => name ≠ c!"_"

/-! ## reading a command's representation back -/

/-- value of a hexadecimal digit -/
def hexVal (c : Char) : Option Nat :=
  if 48 ≤ c.toNat ∧ c.toNat ≤ 57 then some (c.toNat - 48)
  else if 97 ≤ c.toNat ∧ c.toNat ≤ 102 then some (c.toNat - 87)
  else none

/-- read `k` hexadecimal digits -/
def readHex : Nat → Nat → Str → Option (Nat × Str)
  | 0, acc, s => some (acc, s)
  | _ + 1, _, [] => none
  | k + 1, acc, c :: s => match hexVal c with
    | none => none
    | some d => readHex k (acc * 16 + d) s

/-- put a character in front of what was read -/
def push (x : Char) : Option (Str × Str) → Option (Str × Str)
  | none => none
  | some (t, r) => some (x :: t, r)

/-- Read a python string literal body up to the closing quote `q` (fuel bounds the number of characters). -/
def readBody (q : Char) : Nat → Str → Option (Str × Str)
  | 0, _ => none
  | _ + 1, [] => none
  | f + 1, c :: s =>
    let more (x : Char) (s : Str) : Option (Str × Str) := push x (readBody q f s)
    let hex (k : Nat) (s : Str) : Option (Str × Str) := match readHex k 0 s with
      | none => none
      | some (n, s) => more (Char.ofNat n) s
    if c = q then some ([], s)
    else if c = '\\' then
      match s with
      | [] => none
      | e :: s =>
        if e = 'n' then more '\n' s
        else if e = 't' then more '\t' s
        else if e = 'r' then more '\r' s
        else if e = 'x' then hex 2 s
        else if e = 'u' then hex 4 s
        else if e = 'U' then hex 8 s
        else if e = '\\' ∨ e = '\'' ∨ e = '"' then more e s
        else none
    else more c s

/-- Read a python string literal (in either kind of quotes). -/
def readLiteral : Str → Option (Str × Str)
  | [] => none
  | c :: s => if c = '\'' ∨ c = '"' then readBody c (s.length + 1) s else none

/-- Read `lit, lit, lit)` and nothing after it. -/
def readArgs : Nat → Str → Option (List Str)
  | 0, _ => none
  | f + 1, s => match readLiteral s with
    | none => none
    | some (t, r) =>
      if r = [')'] then some [t]
      else match r with
        | ',' :: ' ' :: r => match readArgs f r with
          | none => none
          | some ts => some (t :: ts)
        | _ => none

/-- split at every `.`; the empty text is one empty piece -/
def splitDots : Str → List Str
  | [] => [[]]
  | c :: s => if c = '.' then [] :: splitDots s
    else match splitDots s with
      | [] => [[c]]
      | w :: ws => (c :: w) :: ws

/-- Read the representation of a command: dotted words (`_` for none), then optionally literals in parentheses. -/
def readCommand (s : Str) : Option (List Str) :=
  let pre := s.takeWhile (· ≠ '(')
  let words := if pre = c!"_" then [] else splitDots pre
  match s.dropWhile (· ≠ '(') with
  | [] => some words
  | _ :: r => match readArgs (r.length + 1) r with
    | none => none
    | some ts => some (words ++ ts)

/-- ASCII letters only, at least one. -/
def Alphabetic (w : Str) : Prop :=
  w ≠ [] ∧ ∀ c ∈ w, ('a' ≤ c ∧ c ≤ 'z') ∨ ('A' ≤ c ∧ c ≤ 'Z')

end Pieshell.Cmd
