import Verif.Model.Terminal
/-!
# Vocabulary of C102, C103 and C104
-/
namespace Pieshell.Term

/-- Process `p` does not change its signals or its group in this step, and nobody else changes its group. -/
def LeavesAlone (p : Nat) : Act → Prop
  | .disp q _ _ | .block q _ | .unblock q _ | .exec q | .setpgid q _ => q ≠ p
  | _ => True

/-- The terminal's foreground group is not changed in this step. -/
def KeepsTerminal : Act → Prop
  | .tcsetpgrp _ => False
  | _ => True

/-- The program with number `p` is started by the shell for job `j` in the course of history `as`: there was no such process before, afterwards there is. -/
def StartedIn (s : St) (as : List Act) (p j : Nat) (before after : List Act) : Prop :=
  as = before ++ .start p j :: after ∧ (run s before).procs p = none ∧ (step (run s before) (.start p j)).procs p ≠ none

/-- The signal environment of a program started by a shell that was itself started in `e`: signals that were ignored stay ignored, all others have their default action; and
the same ones are blocked. -/
def usual (e : Env) : Env where
  disp n := if e.disp n = .ignored then .ignored else .default
  blocked := e.blocked

/-- An interactive shell's usual environment: nothing is ignored, nothing is blocked. -/
def Plain (e : Env) : Prop := ∀ n, e.disp n ≠ .ignored ∧ e.blocked n = false

end Pieshell.Term
