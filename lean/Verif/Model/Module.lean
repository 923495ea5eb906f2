import Verif.Model.Scope
/-!
# Model of importing `.pysh` modules: `Loader` and `Module` (`pieshell/module.py:6-26`)

Which file is loaded is `findModule` (`Model/Shell`).  `sys.modules` maps names to modules, and a module is named by its scope.
A file is a list of statements; `InteractiveConsole.runsource` (environ.py:261) shows exceptions and goes on as if nothing had happened, only
`SystemExit` leaves it.

Simplifications: nothing but what is modelled here touches `sys.modules`; statements are those of `Model/Scope`; modules found by
python's own finders are not represented; `importlib` calls `load_module` (up to python 3.11) and, if that raises an
exception, passes it on and leaves `sys.modules` as it is; the variables `__loader__`, `__package__` and `__spec__` that `importlib` assigns to the
module afterwards (they go to its scope) are left out.
-/
namespace Pieshell.Shell

/-- A statement of a module. [Executed by environ.py:261] -/
inductive Stmt where
  | op (o : Op)
  /-- raises an exception -/
  | raise
  /-- `sys.exit()` -/
  | exit

/-- What is found when the file is read. [environ.py:252-261] -/
inductive File where
  /-- cannot be opened or decoded -/
  | unreadable
  /-- syntax error, or incomplete -/
  | invalid
  | stmts (l : List Stmt)

/-- Execute statements in scope `k` (environ.py:261; code.py `runsource`, `runcode`). -/
def execStmts (k : Nat) : List Stmt → Shell → Shell × Except Exn Unit
  | [], σ => (σ, .ok ())
  | .op o :: l, σ => match (exec k σ o).2 with
    | .ok _ => execStmts k l (exec k σ o).1
    | .error _ => ((exec k σ o).1, .ok ())
  | .raise :: _, σ => (σ, .ok ())
  | .exit :: _, σ => (σ, .error .other)

/-- `EnvScope.execute_file` (environ.py:252-261) -/
def executeFile (k : Nat) : File → Shell → Shell × Except Exn Unit
  | .unreadable, σ => (σ, .error .other)
  | .invalid, σ => (σ, .ok ())
  | .stmts l, σ => execStmts k l σ

/-- The interpreter: the shell, `sys.modules`, the number of `environ.envScope`. [module.py:17-26] -/
structure Interp where
  sh : Shell
  modules : Dict Str Nat
  main : Nat

/-- `environ.envScope["env"]()` and `EnvScope(env=env)` (module.py:22-23): the new environment and the new scope.  (The constructor of `dict` does not call
`__setitem__`, so the environment does not learn about its scope.) -/
def Interp.fresh (w : Interp) (i : Nat) : Shell :=
  let σ := w.sh.copyEnv i
  { σ with scopes := σ.scopes ++ [{ vars := [(c!"env", .env w.sh.envs.length)], parent := none }] }

/-- `Loader.load_module` (module.py:20-26): the module (its scope), or an exception. -/
def Interp.load (w : Interp) (name : Str) (file : File) : Interp × Except Exn Nat :=
  match w.modules.get? name with
  | some k => match executeFile k file w.sh with
    | (σ, .ok _) => ({ w with sh := σ }, .ok k)
    | (σ, .error e) => ({ w with sh := σ }, .error e)
  | none => match w.sh.getItem w.main c!"env" with
    | .ok (.env i) =>
      let k := w.sh.scopes.length
      match executeFile k file (w.fresh i) with
      | (σ, .ok _) => ({ w with sh := σ, modules := w.modules.set name k }, .ok k)
      | (σ, .error e) => ({ w with sh := σ, modules := w.modules.set name k }, .error e)
    | _ => (w, .error .other)

/-- `import name`: python looks into `sys.modules` first.
[module.py:20-26 (python's `importlib` looks into `sys.modules` first)] -/
def Interp.import (w : Interp) (name : Str) (file : File) : Interp × Except Exn Nat :=
  match w.modules.get? name with
  | some k => (w, .ok k)
  | none => w.load name file

/-- `module.name` (module.py:10-11); `own`: the attributes that the module object itself has (`__name__`, `__doc__`, `_scope`, ...). -/
def Interp.getAttr (w : Interp) (own : Str → Option V) (k : Nat) (name : Str) : Except Exn V :=
  match own name with
  | some v => .ok v
  | none => w.sh.getItem k name

/-- `module.name = v` (module.py:12-13) -/
def Interp.setAttr (w : Interp) (k : Nat) (name : Str) (v : V) : Interp × Except Exn Unit :=
  ({ w with sh := (w.sh.setItem k name v).1 }, (w.sh.setItem k name v).2)

end Pieshell.Shell
