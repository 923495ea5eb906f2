import Verif.Model.Args
/-!
# Model of the shell's variables: `EnvScope` (`environ.py:200-240`), `temporary_env` and `pyshfunction` (176-190)

`EnvScope` objects, environments and dicts of exported variables live in lists and are named by their index. Dict
number 0 is `os.environ`. Simplifications:
* the value assigned to `env` must be an environment (for anything else the model raises AttributeError, as
  `value._scope = self` does for `str`, numbers and builtins);
* deleting a variable is python's own `dict.__delitem__`; whether two scopes share a parent is not looked at;
* a function's globals are given as a scope with or without an `env` of its own.
-/
namespace Pieshell.Shell

/-- Values of variables. [The values seen by environ.py:204-233] -/
inductive V where
  /-- an environment -/
  | env (i : Nat)
  | str (s : Str)
  /-- any other object -/
  | obj (n : Nat)
  /-- the dict of exported variables with this number -/
  | exports (r : Nat)
  /-- python builtin -/
  | builtin (name : Str)
  /-- `BaseCommand(env, [name])`, or `BaseCommand(env)` -/
  | command (i : Nat) (name : Option Str)
  /-- attribute `name` of the environment object -/
  | attribute (i : Nat) (name : Str)
deriving DecidableEq, Repr

/-- `Environment`: `_exports_value` (0: None), `_scope`. [environ.py:47, 50] -/
structure EnvRec where
  exports : Nat
  scope : Option Nat
deriving DecidableEq, Repr

/-- `EnvScope` (or a plain dict of globals): its own entries, and the entry `_parent_scope`.
[environ.py:200-233] -/
structure ScopeRec where
  vars : Dict Str V
  parent : Option Nat
deriving DecidableEq, Repr

/-- All dicts of exported variables (environ.py:62-70), environments (environ.py:29) and scopes (environ.py:200). -/
structure Shell where
  dicts : List (Dict Str V)
  envs : List EnvRec
  scopes : List ScopeRec
  /-- `hasattr(builtins, name)` -/
  isBuiltin : Str → Bool

/-- dict number `r` [environ.py:62-64] -/
def Shell.dict (σ : Shell) (r : Nat) : Dict Str V := (σ.dicts[r]?).getD []

/-- `Environment._exports_value` [environ.py:62-67] -/
def Shell.rawRef (σ : Shell) (i : Nat) : Nat := ((σ.envs[i]?).map EnvRec.exports).getD 0

/-- `Environment._exports` (getter), environ.py:62-64: the number of the dict; an empty dict is falsy. -/
def Shell.exportsRef (σ : Shell) (i : Nat) : Nat := if (σ.dict (σ.rawRef i)).isEmpty then 0 else σ.rawRef i

/-- the entries of scope `k` [environ.py:214, 217] -/
def Shell.vars (σ : Shell) (k : Nat) : Dict Str V := ((σ.scopes[k]?).map ScopeRec.vars).getD []

/-- the entries of the parent of scope `k`, if it has one [environ.py:221-223] -/
def Shell.parentVars (σ : Shell) (k : Nat) : Option (Dict Str V) :=
  ((σ.scopes[k]?).bind ScopeRec.parent).map σ.vars

/-- the environment of scope `k`: `dict.__getitem__(self, 'env')` [environ.py:210, 220] -/
def Shell.current (σ : Shell) (k : Nat) : Option Nat :=
  match Dict.get? (σ.vars k) c!"env" with
  | some (.env i) => some i
  | _ => none

/-- `dict.__setitem__(self, name, value)` [environ.py:214] -/
def Shell.setLocal (σ : Shell) (k : Nat) (name : Str) (v : V) : Shell :=
  match σ.scopes[k]? with
  | none => σ
  | some s => { σ with scopes := σ.scopes.set k { s with vars := Dict.set s.vars name v } }

/-- `dict.__delitem__(self, name)` [Not overridden by environ.py:200-240: `del name` reaches `dict`] -/
def Shell.delLocal (σ : Shell) (k : Nat) (name : Str) : Shell × Except Exn Unit :=
  if Dict.mem (σ.vars k) name then
    match σ.scopes[k]? with
    | none => (σ, .error .keyError)
    | some s => ({ σ with scopes := σ.scopes.set k { s with vars := Dict.erase s.vars name } }, .ok ())
  else (σ, .error .keyError)

/-- may `v` be stored in dict `r`? `os.environ` accepts `str` only.
[CPython Lib/os.py `_Environ.__setitem__`, for environ.py:212] -/
def storable (r : Nat) (v : V) : Bool :=
  r ≠ 0 || (match v with | .str _ => true | _ => false)

/-- `d[name] = v` for dict number `r` [environ.py:212] -/
def Shell.setDict (σ : Shell) (r : Nat) (name : Str) (v : V) : Shell × Except Exn Unit :=
  if storable r v then ({ σ with dicts := σ.dicts.set r (Dict.set (σ.dict r) name v) }, .ok ())
  else (σ, .error .typeError)

/-- `del d[name]` for dict number `r` [`del exports[name]` for the dict returned at environ.py:226] -/
def Shell.delDict (σ : Shell) (r : Nat) (name : Str) : Shell × Except Exn Unit :=
  if Dict.mem (σ.dict r) name then ({ σ with dicts := σ.dicts.set r (Dict.erase (σ.dict r) name) }, .ok ())
  else (σ, .error .keyError)

/-- `value._scope = self`, environ.py:209 -/
def Shell.adopt (σ : Shell) (k : Nat) : V → Option Shell
  | .env j => some { σ with envs := match σ.envs[j]? with
      | none => σ.envs
      | some e => σ.envs.set j { e with scope := some k } }
  | _ => none

/-- `EnvScope.__setitem__`, environ.py:204-214, from line 210 on -/
def Shell.store (σ : Shell) (k : Nat) (name : Str) (v : V) : Shell × Except Exn Unit :=
  match σ.current k with
  | none => (σ, .error .keyError)
  | some i =>
    if Dict.mem (σ.dict (σ.exportsRef i)) name then σ.setDict (σ.exportsRef i) name v
    else (σ.setLocal k name v, .ok ())

/-- The name a value is stored under, environ.py:206-207. -/
def storedName (name : Str) : Str := if name = c!"_" then c!"last_statement" else name

/-- `scope[name] = v`: `EnvScope.__setitem__`, environ.py:204-214. -/
def Shell.setItem (σ : Shell) (k : Nat) (name : Str) (v : V) : Shell × Except Exn Unit :=
  if storedName name = c!"env" then
    match σ.adopt k v with
    | none => (σ, .error .attributeError)
    | some σ1 => σ1.store k (storedName name) v
  else σ.store k (storedName name) v

/-- `getattr(env, name)`, environ.py:130-138 -/
def envGetattr (i : Nat) (name : Str) : V :=
  if name = c!"_" then .command i none
  else if Cmd.isEnvMember name then .attribute i name
  else .command i (some name)

/-- `EnvScope.__getitem__`, environ.py:215-233. -/
def Shell.getItem (σ : Shell) (k : Nat) (name : Str) : Except Exn V :=
  match Dict.get? (σ.vars k) name with
  | some v => .ok v
  | none =>
    match σ.current k with
    | none => .error .keyError
    | some i =>
      if name ≠ c!"_" then
        if name = c!"exports" then .ok (.exports (σ.exportsRef i))
        else match Dict.get? (σ.dict (σ.exportsRef i)) name with
          | some v => .ok v
          | none => match Dict.get? ((σ.parentVars k).getD []) name with
            | some v => .ok v
            | none => if σ.isBuiltin name then .ok (.builtin name) else .ok (envGetattr i name)
      else .ok (envGetattr i name)

/-- `env()` on environment `i`, environ.py:103-126: a new environment with a copy of the exported variables and no
scope. -/
def Shell.copyEnv (σ : Shell) (i : Nat) : Shell :=
  { σ with dicts := σ.dicts ++ [σ.dict (σ.exportsRef i)], envs := σ.envs ++ [{ exports := σ.dicts.length, scope := none }] }

/-- What `%(name)s` in an argument of a command of environment `i` refers to, environ.py:83-84:
`(self._scope or self._exports)[name]`. (A scope always has an entry, so it is truthy.) -/
def Shell.template (σ : Shell) (i : Nat) (name : Str) : Except Exn V :=
  match (σ.envs[i]?).bind EnvRec.scope with
  | some k => σ.getItem k name
  | none => match Dict.get? (σ.dict (σ.exportsRef i)) name with
    | some v => .ok v
    | none => .error .keyError

/-- `env.pyshfunction(fn)`, environ.py:184-189: the new scope, whose parent is `fn.__globals__`. -/
def Shell.pyshfunction (σ : Shell) (i globals : Nat) : Shell :=
  { σ with scopes := σ.scopes ++ [{ vars := [(c!"env", .env i)], parent := some globals }] }

/-- `global name; name = v` in a function whose globals are scope `k`: python stores into the dict itself (`STORE_GLOBAL` uses
`PyDict_SetItem`), `EnvScope.__setitem__` (environ.py:204-214) is not called. -/
def Shell.storeGlobal (σ : Shell) (k : Nat) (name : Str) (v : V) : Shell := σ.setLocal k name v

/-- What a user does at the prompt of scope `k`. [environ.py:178-189, 204-233] -/
inductive Op where
  /-- `name = v` -/
  | assign (name : Str) (v : V)
  /-- `del name` -/
  | delete (name : Str)
  /-- `env._exports[name] = v` -/
  | «export» (name : Str) (v : V)
  /-- `del env._exports[name]` -/
  | unexport (name : Str)

/-- the dict of exported variables of the current environment [environ.py:62-64, 226] -/
def Shell.exportsOf (σ : Shell) (k : Nat) : Nat := σ.exportsRef ((σ.current k).getD 0)

/-- One statement at the prompt of scope `k` (environ.py:178-189, 204-233). -/
def exec (k : Nat) (σ : Shell) : Op → Shell × Except Exn Unit
  | .assign n v => σ.setItem k n v
  | .delete n => σ.delLocal k n
  | .export n v => σ.setDict (σ.exportsOf k) n v
  | .unexport n => σ.delDict (σ.exportsOf k) n

/-- the state after a sequence of statements (a statement that raises an exception changes what it changed before)
[environ.py:178-189, 204-233] -/
def run (k : Nat) (σ : Shell) (ops : List Op) : Shell := ops.foldl (fun σ op => (exec k σ op).1) σ

/-! ## `with env.temporary_env(e): ...` -/

/-- Programs: statements that may raise an exception, and `with` statements. [environ.py:177-183, 204-233] -/
inductive Prog where
  | op (o : Op)
  | raise
  | seq (a b : Prog)
  /-- `with x.temporary_env(y): body`, `x` and `y` being environments -/
  | temporary (x y : Nat) (body : Prog)
  /-- `with env.temporary_env(y): body` -/
  | temporaryHere (y : Nat) (body : Prog)

/-- `self._scope["env"] = v`, environ.py:179 and 183. (`None["env"] = v` raises TypeError.) -/
def Shell.rebind (σ : Shell) (x : Nat) (v : V) : Shell × Except Exn Unit :=
  match (σ.envs[x]?).bind EnvRec.scope with
  | none => (σ, .error .typeError)
  | some k => σ.setItem k c!"env" v

/-- `x.temporary_env(y)` around a block, environ.py:177-183. -/
def withTemporary (body : Shell → Shell × Except Exn Unit) (x y : Nat) (σ : Shell) : Shell × Except Exn Unit :=
  match (σ.rebind x (.env y)).2 with
  | .error e => ((σ.rebind x (.env y)).1, .error e)
  | .ok _ =>
    let r := body (σ.rebind x (.env y)).1
    let t := r.1.rebind x (.env x)
    match t.2 with
    | .error e => (t.1, .error e)
    | .ok _ => (t.1, r.2)

/-- Run a program in scope `k`. [environ.py:177-183, 204-233] -/
def Prog.exec (k : Nat) : Prog → Shell → Shell × Except Exn Unit
  | .op o, σ => Shell.exec k σ o
  | .raise, σ => (σ, .error .other)
  | .seq a b, σ => match (a.exec k σ).2 with
    | .error e => ((a.exec k σ).1, .error e)
    | .ok _ => b.exec k (a.exec k σ).1
  | .temporary x y body, σ => withTemporary (body.exec k) x y σ
  | .temporaryHere y body, σ => match σ.current k with
    | none => (σ, .error .attributeError)
    | some x => withTemporary (body.exec k) x y σ

end Pieshell.Shell
