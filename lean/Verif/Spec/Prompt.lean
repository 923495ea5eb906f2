import Verif.Model.Prompt
import Verif.Spec.Scope
/-! Vocabulary for C110. -/
namespace Pieshell.Prompt

/-- Nothing in the shell is called `name`: no variable, no exported variable of any environment, no python builtin. -/
def Free (σ : Shell.Shell) (name : Str) : Prop :=
  (∀ d ∈ σ.dicts, Dict.get? d name = none) ∧ (∀ k, Dict.get? (σ.vars k) name = none) ∧ σ.isBuiltin name = false

/-- A name that stands for a command, if nothing else has it. -/
def CommandName (name : Str) : Prop := name ≠ c!"_" ∧ name ≠ c!"exports" ∧ name ≠ c!"env" ∧ Cmd.isEnvMember name = false

/-- While the text is made, only commands are run of which nothing else has the name. -/
def FreeCommands (σ : Shell.Shell) (evs : List Ev) : Prop := ∀ name n, Ev.run name n ∈ evs → Free σ name ∧ CommandName name

/-- the environments whose `str()` is asked for -/
def shownEnvs : List Ev → List Nat
  | [] => []
  | .str y :: evs => y :: shownEnvs evs
  | _ :: evs => shownEnvs evs

end Pieshell.Prompt
