import Verif.Model.Module
import Verif.Spec.Scope
/-! # Vocabulary for C86 -/
namespace Pieshell.Shell

/-- What is there is unchanged; there may be more. -/
structure Shell.Extends (τ σ : Shell) : Prop where
  dicts : σ.dicts <+: τ.dicts
  envs : σ.envs <+: τ.envs
  scopes : σ.scopes <+: τ.scopes

/-- The statement leaves the variable `env` alone and does not remove the last exported variable. -/
def Op.Modest (k : Nat) (σ : Shell) : Op → Prop
  | .assign n _ => n ≠ c!"env"
  | .delete n => n ≠ c!"env"
  | .export _ _ => True
  | .unexport n => Dict.erase (σ.dict (σ.exportsOf k)) n ≠ []

/-- So do all statements that are executed. -/
def Modest (k : Nat) : List Stmt → Shell → Prop
  | .op o :: l, σ => o.Modest k σ ∧ ((exec k σ o).2 = .ok () → Modest k l (exec k σ o).1)
  | _, _ => True

/-- The interpreter's shell scope has an environment, which has an exported variable; none is called `env`. -/
structure Interp.Proper (w : Interp) : Prop where
  env : ∃ i, w.sh.current w.main = some i ∧ w.sh.dict (w.sh.exportsRef i) ≠ [] ∧
    Dict.get? (w.sh.dict (w.sh.exportsRef i)) c!"env" = none
  environ : w.sh.dicts ≠ []
  uniq : ∀ d ∈ w.sh.dicts, Dict.Uniq d

/-- the environment of the shell -/
def Interp.env (w : Interp) : Nat := (w.sh.current w.main).getD 0

end Pieshell.Shell
