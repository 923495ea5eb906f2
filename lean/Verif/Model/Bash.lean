import Verif.Model.Shell
/-!
# Model of the reader of bash's declarations (`pieshell/pipeline/builtins.py:102-142, 166-174`)

`shlex.shlex(..., posix=True)` with `whitespace_split = True` is modelled after CPython 3.11 (Lib/shlex.py:129-262).
-/
namespace Pieshell.Bash

/-- The states of the lexer.  `esc back`: after a backslash, with the state to return to (`none`: the word state, `some q`:
inside quotes).  `comment w`: inside `instream.readline()` (shlex.py:156, 226), begun in a word (`w`) or not. -/
inductive St where
  | ws
  | word
  | quote (q : Char)
  | esc (back : Option Char)
  | comment (inWord : Bool)
deriving DecidableEq, Repr

/-- `nextchar in self.whitespace` [Not in /repo: CPython Lib/shlex.py:156, reached from builtins.py:115] -/
def isWs (c : Char) : Bool := c = ' ' || c = '\t' || c = '\r' || c = '\n'

/-- The end of `read_token` (shlex.py:252-256): token, remaining input, line number.  `none` is the end of the file. -/
def emit (tok : Str) (quoted : Bool) (rest : Str) (lineno : Nat) : Except Exn (Option Str × Str × Nat) :=
  .ok (if tok = [] && !quoted then none else some tok, rest, lineno)

/-- `self.lineno += 1` on a newline (shlex.py:136-137) -/
def bump (lineno : Nat) (c : Char) : Nat := if c = '\n' then lineno + 1 else lineno

/-- `shlex.read_token` (shlex.py:129-256). -/
def readToken : St → Str → Bool → Nat → Str → Except Exn (Option Str × Str × Nat)
  | .ws, tok, quoted, n, [] => emit tok quoted [] n
  | .ws, tok, quoted, n, c :: s =>
    let n := bump n c
    if isWs c then (if tok ≠ [] || quoted then emit tok quoted s n else readToken .ws tok quoted n s)
    else if c = '#' then readToken (.comment false) tok quoted n s
    else if c = '\\' then readToken (.esc none) tok quoted n s
    else if c = '\'' || c = '"' then readToken (.quote c) tok quoted n s
    else readToken .word [c] quoted n s
  | .word, tok, quoted, n, [] => emit tok quoted [] n
  | .word, tok, quoted, n, c :: s =>
    let n := bump n c
    if isWs c then (if tok ≠ [] || quoted then emit tok quoted s n else readToken .ws tok quoted n s)
    else if c = '#' then readToken (.comment true) tok quoted n s
    else if c = '\'' || c = '"' then readToken (.quote c) tok quoted n s
    else if c = '\\' then readToken (.esc none) tok quoted n s
    else readToken .word (tok ++ [c]) quoted n s
  | .quote _, _, _, _, [] => .error .valueError
  | .quote q, tok, _, n, c :: s =>
    let n := bump n c
    if c = q then readToken .word tok true n s
    else if c = '\\' && q = '"' then readToken (.esc (some q)) tok true n s
    else readToken (.quote q) (tok ++ [c]) true n s
  | .esc _, _, _, _, [] => .error .valueError
  | .esc back, tok, quoted, n, c :: s =>
    let n := bump n c
    match back with
    | none => readToken .word (tok ++ [c]) quoted n s
    | some q => readToken (.quote q) ((if c ≠ '\\' && c ≠ q then tok ++ ['\\'] else tok) ++ [c]) quoted n s
  | .comment _, tok, quoted, n, [] => emit tok quoted [] (n + 1)
  | .comment w, tok, quoted, n, c :: s =>
    if c = '\n' then
      (if w && (tok ≠ [] || quoted) then emit tok quoted s (n + 1) else readToken .ws tok quoted (n + 1) s)
    else readToken (.comment w) tok quoted n s

/-- The loop that groups tokens into lines (builtins.py:107-118).  The first argument bounds the number of tokens. -/
def lexLines : Nat → Str → Nat → Nat → List Str → List (Nat × List Str) → Except Exn (List (Nat × List Str))
  | 0, _, _, _, _, _ => .error .other
  | f + 1, s, lineno, last, line, lines =>
    let lines' := if lineno ≠ last then lines ++ [(last, line)] else lines
    let line' := if lineno ≠ last then [] else line
    match readToken .ws [] false lineno s with
    | .error e => .error e
    | .ok (none, _, _) => .ok lines'
    | .ok (some t, rest, n) => lexLines f rest n lineno (line' ++ [t]) lines'

/-- One turn of the loop over the lines (builtins.py:122-131): variables and starts of functions. -/
def addLine (st : Dict Str Str × List (Nat × Str)) (l : Nat × List Str) : Except Exn (Dict Str Str × List (Nat × Str)) :=
  match l.2 with
  | [] => .error .indexError
  | w :: ws =>
    if w = c!"declare" then
      match l.2[2]? with
      | none => .error .indexError
      | some name => match Shell.splitEq name with
        | some (name, value) => .ok (st.1.set name value, st.2)
        | none => .ok (st.1.set name [], st.2)
    else if l.2.length = 3 && ws.head? = some c!"()" && l.2[2]? = some c!"{" then .ok (st.1, st.2 ++ [(l.1, w)])
    else .ok st

/-- The loop over the lines (builtins.py:122-131). -/
def addLines : Dict Str Str × List (Nat × Str) → List (Nat × List Str) → Except Exn (Dict Str Str × List (Nat × Str))
  | st, [] => .ok st
  | st, l :: ls => match addLine st l with
    | .error e => .error e
    | .ok st => addLines st ls

/-- `data.split("\n")` [builtins.py:133] -/
def splitLines : Str → List Str
  | [] => [[]]
  | c :: s => if c = '\n' then [] :: splitLines s else
    match splitLines s with
    | [] => [[c]]
    | l :: ls => (c :: l) :: ls

/-- `"\n".join(lines)` [builtins.py:140, 171] -/
def joinLines : List Str → Str
  | [] => []
  | [l] => l
  | l :: ls => l ++ '\n' :: joinLines ls

/-- The texts of the functions (builtins.py:133-140). -/
def functions (lines : List Str) : List (Nat × Str) → Dict Str Str → Dict Str Str
  | [], d => d
  | [(n, name)], d => d.set name (joinLines (lines.drop (n - 1)))
  | (n, name) :: (m, name') :: r, d =>
    functions lines ((m, name') :: r) (d.set name (joinLines ((lines.drop (n - 1)).take (m - 1 - (n - 1)))))

/-- `parse_declares` (builtins.py:102-142) -/
def parseDeclares (data : Str) : Except Exn (Dict Str Str × Dict Str Str) :=
  match lexLines (data.length + 2) data 1 1 [] [] with
  | .error e => .error e
  | .ok lines => match addLines ([], []) lines with
    | .error e => .error e
    | .ok (vars, starts) => .ok (vars, functions (splitLines data) starts [])

/-- `BashSource.parse_decls` (builtins.py:166-174): the lines read from bash, the exports and the functions of the
environment. -/
def parseDecls (lines : List Str) (exports funcs : Dict Str Str) : Except Exn (Dict Str Str × Dict Str Str) :=
  match parseDeclares (joinLines lines) with
  | .error e => .error e
  | .ok (vars, fs) => .ok (exports.update vars, funcs.update fs)

end Pieshell.Bash
