import Verif.Spec.Run
/-!
# Pipelines in which no pipe is left behind

`a | b` leaves the read end of its pipe behind in the shell if `b` is redirected from elsewhere, and `a + b` that of the pipe of `a`, if `a` writes to a pipe (C14, C15); nobody ever reads from
these.  Here are the pipelines in which that does not happen, given where their output goes.
-/
namespace Pieshell

mutual
/-- Nothing is left behind when the pipeline is started with stdout as `o` says. -/
def Tidy (cwd : Str) : Pipeline → Want → Prop
  | .command _ args, _ => TidyArgs cwd args
  | .func _, _ => True
  | .iter _, _ => True
  | .pipe a b, o => Tidy cwd a .pipeOut ∧ Tidy cwd b o ∧ b.takes 0 = false
  | .group a b, o => Tidy cwd a o ∧ Tidy cwd b o ∧ a.outWant cwd o ≠ .pipeOut
  | .redirect p crs, o => Tidy cwd p (crs.over cwd 1 o)
/-- ... and the same for all pipelines among the arguments of a command. -/
def TidyArgs (cwd : Str) : Args → Prop
  | .nil => True
  | .word _ rest => TidyArgs cwd rest
  | .pipeArg _ p rest => Tidy cwd p .pipeOut ∧ TidyArgs cwd rest
  | .funcArg _ _ rest => TidyArgs cwd rest
end

end Pieshell
