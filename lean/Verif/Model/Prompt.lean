import Verif.Model.Scope
import Verif.Model.Path
import Verif.Model.Startup
/-!
# Model of the prompt of the default configuration (resources/default_config.pysh)

`parse_git_branch` and `prompt` (`compress_user` is in `Model/Startup`), which is installed as `Environment.__str__`, and which the configuration file defines in the
shell's scope, so that it looks up its names there.  Simplifications: what `getpass`, `socket` and `git` answer are parameters;
`int` knows decimal digits and surrounding white space only (what `wc -l` prints); white space is ASCII white space; one thread.
-/
namespace Pieshell.Prompt

open Path (Homes expanduser startsWith)
open Startup (compressUser)

/-! ## The state of the git repository -/

/-- How `str(pipeline)` ends: it raises `PipelineFailed` if a program of the pipeline has ended with a status other than zero (running.py:77-78, 101-102), or another exception. -/
inductive Ans where
  | text (s : Str)
  | failed
  | raises (e : Exn)
deriving DecidableEq, Repr

/-- `c.isspace()` (ASCII) [Not in /repo: python's `str.isspace`, for default_config.pysh:15] -/
def isSpace (c : Char) : Bool := c == ' ' || (9 ≤ c.toNat && c.toNat ≤ 13) || (28 ≤ c.toNat && c.toNat ≤ 31)

/-- `s.strip()` [Not in /repo: python's `str.strip`, used at default_config.pysh:15, 17] -/
def strip (s : Str) : Str := ((s.dropWhile isSpace).reverse.dropWhile isSpace).reverse

/-- `int(s)`; `none`: ValueError [Not in /repo: python's `int`, used at default_config.pysh:20] -/
def int? (s : Str) : Option Nat :=
  let t := strip s
  if t ≠ [] ∧ t.all Char.isDigit then some (Nat.ofDigitChars 10 t 0) else none

/-- default_config.pysh:23-29 -/
def shown (ref : Str) (changes : Nat) : Str :=
  let changes := if 0 < changes then c!" +" ++ Nat.toDigits 10 changes else []
  let ref := if startsWith c!"refs/heads/" ref then ref.drop c!"refs/heads/".length else ref
  c!"[" ++ ref ++ changes ++ c!"]"

/-- `parse_git_branch()`, default_config.pysh:13-29; `symref` is the answer of `git symbolic-ref HEAD`, `rev` that of `git rev-parse HEAD | sed ..`, `status`
that of `git status --porcelain | wc -l`. -/
def parseGitBranch (symref rev status : Ans) : Except Exn Str :=
  match symref with
  | .failed => .ok []
  | .raises e => .error e
  | .text t =>
    if strip t = [] then
      -- `rev` is not used afterwards
      match rev with
      | .failed => .ok []
      | .raises e => .error e
      | .text _ => .ok []
    else
      match status with
      | .failed => .ok []
      | .raises e => .error e
      | .text n => match int? n with
        | none => .error .valueError
        | some n => .ok (shown (strip t) n)

/-- default_config.pysh:54 -/
def promptText (user host : Str) (homes : Homes) (cwd git : Str) : Str :=
  user ++ c!"@" ++ host ++ c!":" ++ compressUser homes cwd ++ git ++ c!" >>> "

/-! ## What the prompt leaves behind -/

open Shell (V EnvRec ScopeRec)

/-- The value of `env.last_pipeline`. [base.py:152, environ.py:130-138] -/
inductive Last where
  | pipeline (n : Nat)
  /-- there is no such attribute: `Environment.__getattr__` makes a command (environ.py:130-138) -/
  | command (i : Nat)
deriving DecidableEq, Repr

/-- The shell; `last i` is the attribute `last_pipeline` of environment `i`, if it has been set; `inPrompt` is `prompt_state.in_prompt`.
[environ.py:29-61, default_config.pysh:44-59] -/
structure St where
  sh : Shell.Shell
  last : Nat → Option Last
  inPrompt : Bool

/-- `env.last_pipeline` [default_config.pysh:52] -/
def St.lastPipeline (s : St) (i : Nat) : Last := (s.last i).getD (.command i)

/-- `env.last_pipeline = v` [base.py:152, default_config.pysh:57] -/
def St.setLast (s : St) (i : Nat) (v : Last) : St := { s with last := fun j => if j = i then some v else s.last j }

/-- What happens while the text of the prompt is made. [default_config.pysh:13-29, 54] -/
inductive Ev where
  /-- command `name` is run (as pipeline number `n`): the name is looked up in the scope; base.py:152 sets `last_pipeline` of its environment -/
  | run (name : Str) (n : Nat)
  /-- something makes `str(env)` of an environment (`log` with a pipeline in the text, say) -/
  | str (y : Nat)
  | raise (e : Exn)
deriving DecidableEq, Repr

/-- One event; `nested` is `Environment.__str__`. [default_config.pysh:13-29, 54, base.py:143-154] -/
def event (k : Nat) (nested : Nat → St → St × Except Exn Str) (s : St) : Ev → St × Except Exn Unit
  | .run name n => match s.sh.getItem k name with
    | .error e => (s, .error e)
    | .ok (.command i _) => (s.setLast i (.pipeline n), .ok ())
    | .ok _ => (s, .error .typeError)
  | .str y => match nested y s with
    | (s, .error e) => (s, .error e)
    | (s, .ok _) => (s, .ok ())
  | .raise e => (s, .error e)

/-- What happens while line 54 of default_config.pysh is evaluated, one after the other. -/
def events (k : Nat) (nested : Nat → St → St × Except Exn Str) : List Ev → St → St × Except Exn Unit
  | [], s => (s, .ok ())
  | ev :: evs, s => match event k nested s ev with
    | (s, .error e) => (s, .error e)
    | (s, .ok _) => events k nested evs s

/-- default_config.pysh:49-57, without the `with` statement; the text is made by `evs`, and is `text` if they raise no exception. -/
def body (k : Nat) (nested : Nat → St → St × Except Exn Str) (old : Nat → Str) (evs : List Ev) (text : Str) (y : Nat) (s : St) : St × Except Exn Str :=
  if s.inPrompt then (s, .ok (old y))
  else
    let s1 := { s with inPrompt := true }
    let last := s1.lastPipeline y
    let r := events k nested evs s1
    let s2 := { r.1 with inPrompt := false }
    (s2.setLast y last, match r.2 with | .ok _ => .ok text | .error e => .error e)

/-- `prompt(self)` of environment `y`, default_config.pysh:47-57, in scope `k`, at most `depth` calls being nested: `with temporary_env(self)`, where
`temporary_env` is looked up in the scope: the method (environ.py:177-183) of the current environment, unless there is a variable of that name. -/
def str (k : Nat) (old : Nat → Str) (evs : List Ev) (text : Str) : (depth : Nat) → Nat → St → St × Except Exn Str
  | 0, _, s => (s, .error .other)
  | depth + 1, y, s =>
    match s.sh.getItem k c!"temporary_env" with
    | .error e => (s, .error e)
    | .ok (.attribute x _) =>
      match s.sh.rebind x (.env y) with
      | (σ, .error e) => ({ s with sh := σ }, .error e)
      | (σ, .ok _) =>
        let r := body k (str k old evs text depth) old evs text y { s with sh := σ }
        match r.1.sh.rebind x (.env x) with
        | (σ, .error e) => ({ r.1 with sh := σ }, .error e)
        | (σ, .ok _) => ({ r.1 with sh := σ }, r.2)
    | .ok _ => (s, .error .typeError)

/-- `EnvScope.__str__`, environ.py:245-250: what the interactive console prints as the prompt; `shownExn` is `'<%s>' % e`. -/
def scopeStr (k : Nat) (old : Nat → Str) (evs : List Ev) (text : Str) (depth : Nat) (shownExn : Exn → Str) (s : St) : St × Str :=
  match s.sh.current k with
  | none => (s, shownExn .keyError)
  | some i => match str k old evs text depth i s with
    | (s, .ok t) => (s, t)
    | (s, .error e) => (s, shownExn e)

end Pieshell.Prompt
