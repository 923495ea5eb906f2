import Verif.Model.Base
/-!
# Model of completion at the prompt (pieshell/jedi_completion.py:6-24)

`jedi` is a parameter: one answer per request, which may be an exception, and which may change `sys.path` (completing can run code).
`readline` is modelled by the loop of `rl_completion_matches` together with python's `on_completion`: it calls the completer with the states 0, 1, 2, ...
until the answer is `None` or an exception (which python drops).  Left out: the fallback `rlcompleter` (standard library), key bindings.
-/
namespace Pieshell.Compl

/-- what is used of a `jedi.api.classes.Completion`: `_like_name_length` and `name_with_symbols`
[jedi_completion.py:14-17] -/
structure Completion where
  like : Nat
  name : Str
deriving DecidableEq, Repr

/-- One press of the completion key: the text of the line, `os.getcwd()`, and what `jedi.Interpreter(text, scopes).complete()` does with the present `sys.path`:
its result, and the `sys.path` it leaves. [jedi_completion.py:8-14] -/
structure Request where
  text : Str
  getcwd : Except Exn Str
  jedi : List Str → Except Exn (List Completion) × List Str

/-- `sys.path`, and the attribute `matches` of the completer (`none`: not yet assigned)
[jedi_completion.py:10, 15, 20] -/
structure World where
  path : List Str
  found : Option (List Str)
deriving DecidableEq, Repr

/-- `text[:len(text) - n]`, jedi_completion.py:16; a negative end counts from the end of the text. -/
def cut (text : Str) (n : Nat) : Str :=
  if n ≤ text.length then text.take (text.length - n) else text.take (text.length - (n - text.length))

/-- jedi_completion.py:21-24: `self.matches[state]`, or `None` -/
def pick (w : World) (state : Nat) : Except Exn (Option Str) × World :=
  match w.found with
  | none => (.error .attributeError, w)
  | some l => (.ok l[state]?, w)

/-- `JediRL.complete`, jedi_completion.py:8-24; `sys.path.pop(0)` is in a `finally` clause, and raises an exception of its own for an empty list. -/
def complete (r : Request) (w : World) (state : Nat) : Except Exn (Option Str) × World :=
  if state = 0 then
    match r.getcwd with
    | .error e => (.error e, w)
    | .ok d =>
      match r.jedi (d :: w.path) with
      | (.error _, []) => (.error .indexError, { w with path := [] })
      | (.error e, _ :: p) => (.error e, { w with path := p })
      | (.ok cs, []) => (.error .indexError, { path := [], found := some (cs.map (fun c => cut r.text c.like ++ c.name)) })
      | (.ok cs, _ :: p) => pick { path := p, found := some (cs.map (fun c => cut r.text c.like ++ c.name)) } state
  else pick w state

/-- The loop of readline from a state on: `Collect r w n l w'`: starting with state `n`, the list `l` is gathered.
[Not in /repo: GNU readline's use of the function registered at jedi_completion.py:28] -/
inductive Collect (r : Request) : World → Nat → List Str → World → Prop
  | stop {w n w'} : complete r w n = (.ok none, w') → Collect r w n [] w'
  | fail {w n e w'} : complete r w n = (.error e, w') → Collect r w n [] w'
  | more {w n s w' l w''} : complete r w n = (.ok (some s), w') → Collect r w' (n + 1) l w'' → Collect r w n (s :: l) w''

/-- A session at the prompt: one request after the other, with what is offered for each.
[The prompt, shell.py:120-123] -/
inductive Session : World → List Request → List (List Str) → World → Prop
  | nil {w} : Session w [] [] w
  | cons {w r l w' rs ls w''} : Collect r w 0 l w' → Session w' rs ls w'' → Session w (r :: rs) (l :: ls) w''

end Pieshell.Compl
