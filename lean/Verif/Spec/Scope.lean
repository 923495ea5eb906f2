import Verif.Model.Scope
/-! # Vocabulary for C33, C34, C64-C66 -/
namespace Pieshell.Shell

/-- `name` is a local variable of scope `k` -/
def Shell.IsLocal (σ : Shell) (k : Nat) (name : Str) : Prop := ∃ v, Dict.get? (σ.vars k) name = some v

/-- `name` is an exported variable of the current environment -/
def Shell.IsExported (σ : Shell) (k : Nat) (name : Str) : Prop := ∃ v, Dict.get? (σ.dict (σ.exportsOf k)) name = some v

/-- What a running shell satisfies: the scope has an environment, `os.environ` exists, dicts have no key twice, and a
scope is not its own parent. -/
structure Shell.Proper (σ : Shell) (k : Nat) : Prop where
  env : σ.current k ≠ none
  environ : σ.dicts ≠ []
  uniq : Dict.Uniq (σ.vars k) ∧ ∀ d ∈ σ.dicts, Dict.Uniq d
  parent : (σ.scopes[k]?).bind ScopeRec.parent ≠ some k

/-- No name is both a local and an exported variable. -/
def Shell.Unambiguous (σ : Shell) (k : Nat) : Prop := ∀ n, ¬ (σ.IsLocal k n ∧ σ.IsExported k n)

/-- What a statement writes to variable `n`: nothing (`none`), a value, or its removal. -/
def Op.writes (n : Str) : Op → Option (Option V)
  | .assign m v => if m = n then some (some v) else none
  | .delete m => if m = n then some none else none
  | .export m v => if m = n then some (some v) else none
  | .unexport m => if m = n then some none else none

/-- What was last written to `n`. -/
def lastWrite (n : Str) : List Op → Option (Option V)
  | [] => none
  | op :: ops => match lastWrite n ops with
    | some w => some w
    | none => op.writes n

/-- The statement is ordinary: no special name, it does not raise an exception, it exports no name that is a local
variable, and does not remove the last exported variable of an environment. -/
def Op.Ordinary (k : Nat) (σ : Shell) (op : Op) : Prop :=
  (Shell.exec k σ op).2 = .ok () ∧
  match op with
  | .assign n _ => n ≠ c!"_" ∧ n ≠ c!"env" ∧ n ≠ c!"exports"
  | .delete n => n ≠ c!"env"
  | .export n _ => n ≠ c!"_" ∧ n ≠ c!"exports" ∧ ¬ σ.IsLocal k n
  | .unexport n => Dict.erase (σ.dict (σ.exportsOf k)) n ≠ [] ∨ σ.exportsOf k = 0

def AllOrdinary (k : Nat) : Shell → List Op → Prop
  | _, [] => True
  | σ, op :: ops => op.Ordinary k σ ∧ AllOrdinary k (Shell.exec k σ op).1 ops

/-- the first value found -/
def firstOf : List (Option V) → V → V
  | [], d => d
  | some v :: _, _ => v
  | none :: l, d => firstOf l d

/-- what a name means when it is no variable of this scope: variable of the enclosing scope, builtin, or command -/
def Shell.beneath (σ : Shell) (k i : Nat) (name : Str) : V :=
  firstOf [Dict.get? ((σ.parentVars k).getD []) name, if σ.isBuiltin name then some (.builtin name) else none] (envGetattr i name)

/-- A program that neither deletes nor exports the variable `env`. -/
def Prog.LeavesEnv : Prog → Prop
  | .op (.delete n) => n ≠ c!"env"
  | .op (.export n _) => n ≠ c!"env"
  | .op _ => True
  | .raise => True
  | .seq a b => a.LeavesEnv ∧ b.LeavesEnv
  | .temporary _ _ b => b.LeavesEnv
  | .temporaryHere _ b => b.LeavesEnv

/-- A shell with one scope `k`: environments belong to it or to no scope, and no exported variable is called `env`. -/
structure Shell.OneScope (σ : Shell) (k : Nat) : Prop where
  scopes : ∀ (i : Nat) (e : EnvRec), σ.envs[i]? = some e → e.scope = none ∨ e.scope = some k
  noEnv : ∀ d ∈ σ.dicts, Dict.get? d c!"env" = none
  uniq : Dict.Uniq (σ.vars k)
  current : σ.current k ≠ none

end Pieshell.Shell
