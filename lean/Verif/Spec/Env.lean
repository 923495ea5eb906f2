import Verif.Model.Env
import Verif.Spec.Path
/-! # Vocabulary for C29-C32, C35 -/
namespace Pieshell.Envs
open Pieshell.Path

/-- exactly two slashes in front -/
def TwoSlashes (p : Str) : Prop := ∃ t, p = '/' :: '/' :: t ∧ t.head? ≠ some '/'

/-- the paths that occur in an operation -/
def Op.paths : Op → List Str
  | .new c _ => c.toList
  | .call _ c _ _ => c.toList
  | .cd _ p => [p]
  | .cdBuiltin _ ws => [cdPath ws]
  | _ => []

/-- when the operation replaces the file system: the new one names directories with paths satisfying `P` -/
def Op.diskOk (P : Str → Prop) : Op → Prop
  | .disk d => ∀ q, P (d.real q)
  | _ => True

/-- the environment an operation is applied to and may change -/
def Op.target : Op → Option Nat
  | .cd i _ => some i
  | .cdBuiltin i _ => some i
  | .setVar i _ _ => some i
  | .delVar i _ => some i
  | .dir i => some i
  | .clear i => some i
  | .clearBuiltin i => some i
  | _ => none

/-- does the operation create an interactive environment (or may copy one)? -/
def Op.makesInteractive : Op → Bool
  | .new _ b => b
  | .call _ _ _ b => b == some true
  | _ => false

/-- What a user sees of environment `j`: its directory and its exported variables. -/
def view (w : World) (j : Nat) : Option (Str × Dict Str Str) := (w.envs[j]?).map (fun e => (e.cwd, w.exportsOf e))

/-- No environment has an empty set of exported variables, and no two environments were given the same dict (in
particular, at most one, like the one every pieshell session starts with, uses the process's variables). -/
structure Apart (w : World) : Prop where
  environ : w.environ ≠ []
  nonempty : ∀ e ∈ w.envs, ∀ r, e.exports = some r → ∃ d, w.dicts[r]? = some d ∧ d ≠ []
  distinct : (w.envs.map (·.exports)).Nodup

/-- The operation does not ask for an environment without variables or for the process's variables. -/
def Op.Keeps (w : World) : Op → Prop
  | .new _ _ => False
  | .call _ _ ex _ => ex ≠ some []
  | .delVar i k => ∀ e, w.envs[i]? = some e → Dict.erase (w.exportsOf e) k ≠ []
  | _ => True

/-- Every operation of the sequence is of this kind at its time. -/
def KeepsAll : World → List Op → Prop
  | _, [] => True
  | w, op :: ops => op.Keeps w ∧ KeepsAll (Envs.step w op) ops

end Pieshell.Envs
