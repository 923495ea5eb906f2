import Verif.Spec.Signal
import Verif.Model.Status

/-! Vocabulary for what is asked of running pipelines. -/
namespace Pieshell.Status
open Pieshell.Sig

/-- The events that pieshell has been told of process `p`, in order. -/
def told (g : St) (p : Nat) : List SigInfo := (g.deliv.filter (fun d => d.1 == HId.proc p)).map Prod.snd

/-- Pieshell has been told that `p` has exited with code `c`. -/
def ToldExit (g : St) (p c : Nat) : Prop := (⟨SIGCHLD, CLD_EXITED, p, c⟩ : SigInfo) ∈ told g p

mutual
/-- All programs among the items were started by pieshell. -/
def Known (g : St) : Item → Prop
  | .proc p => Registered g p
  | .func _ => True
  | .fg l => AllKnown g l
def AllKnown (g : St) : List Item → Prop
  | [] => True
  | it :: l => Known g it ∧ AllKnown g l
end

mutual
/-- The item has not ended, as far as pieshell has been told. -/
def Active (g : St) : Item → Prop
  | .proc p => ¬ ∃ c, ToldExit g p c
  | .func st => st = .running
  | .fg l => SomeActive g l
def SomeActive (g : St) : List Item → Prop
  | [] => False
  | it :: l => Active g it ∨ SomeActive g l
end

mutual
/-- The item has ended, and not well: a program with an exit code other than 0, a function with an exception, `fg` when the whole wrapped pipeline has
ended, and one of its items not well. -/
def Bad (g : St) : Item → Prop
  | .proc p => ∃ c, c ≠ 0 ∧ ToldExit g p c
  | .func st => st = .raised
  | .fg l => ¬ SomeActive g l ∧ SomeBad g l
def SomeBad (g : St) : List Item → Prop
  | [] => False
  | it :: l => Bad g it ∨ SomeBad g l
end

end Pieshell.Status
