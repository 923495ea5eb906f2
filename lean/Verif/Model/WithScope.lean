import Verif.Model.Base
/-!
# `with scope:` - the prompt of a scope

`EnvScope.__enter__` and `__exit__` (environ.py:306-311) make the scope the prompt (`sys.ps1`) for a block, as `main` does for the whole session (shell.py:66).

A statement (`Stmt`) is what is executed of a program, with loops unrolled and calls expanded, as far as it concerns `sys.ps1` and scopes. Simplifications: generators and threads, by which blocks can overlap without being nested,
are left out; nobody but `__enter__` sets the attribute `ps1` of a scope.
-/
namespace Pieshell.WithScope

/-- What `sys.ps1` can be: `None`, a text, or a scope, which is shown as `str(scope)` (environ.py:245-250). -/
inductive Ps1 where
  | pyNone
  | text (s : Str)
  | scope (k : Nat)
deriving DecidableEq, Repr

/-- `sys.ps1`, if there is one, and the attribute `ps1` of each scope, if it has one. [environ.py:306-311] -/
structure St where
  ps1 : Option Ps1
  saved : Nat → Option Ps1

/-- `scope.__enter__()`. [environ.py:306-308] -/
def enter (k : Nat) (s : St) : St :=
  { ps1 := some (.scope k), saved := fun j => if j = k then some (s.ps1.getD .pyNone) else s.saved j }

/-- `scope.__exit__(...)`, and whether it raises (`AttributeError`, if the scope was never entered). [environ.py:310-311] -/
def leave (k : Nat) (s : St) : St × Bool :=
  match s.saved k with
  | some v => ({ s with ps1 := some v }, false)
  | none => (s, true)

/-- What is executed. [Not in /repo: the code that uses environ.py:306-311, such as shell.py:66] -/
inductive Stmt where
  | nop
  /-- `sys.ps1 = v` -/
  | set (v : Ps1)
  /-- `del sys.ps1` -/
  | del
  | raise
  | seq (a b : Stmt)
  /-- `try: a  except: pass` -/
  | attempt (a : Stmt)
  /-- `with scope: a` -/
  | within (k : Nat) (a : Stmt)

/-- The state afterwards, and whether an exception was raised. `__exit__` returns None, so that exceptions go on. [environ.py:306-311; python's `with`] -/
def run : Stmt → St → St × Bool
  | .nop, s => (s, false)
  | .set v, s => ({ s with ps1 := some v }, false)
  | .del, s => match s.ps1 with
    | some _ => ({ s with ps1 := none }, false)
    | none => (s, true)
  | .raise, s => (s, true)
  | .seq a b, s => match run a s with
    | (s', true) => (s', true)
    | (s', false) => run b s'
  | .attempt a, s => ((run a s).1, false)
  | .within k a, s =>
    let r := run a (enter k s)
    let l := leave k r.1
    (l.1, r.2 || l.2)

end Pieshell.WithScope
