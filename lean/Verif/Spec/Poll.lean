import Verif.Spec.Run
/-!
# Functions redirected from and to files: vocabulary for C119
-/
namespace Pieshell

/-- As `Startable`, without the condition on what python functions are connected to. -/
structure Prepared (sys : Sys) (cwd : Str) (w : World) (rs : Redirects) (p : Pipeline) (i : Obj) (o e : Want) : Prop where
  room : ∃ H L, Room sys w H L ∧ H + p.cost ≤ L ∧ Std sys cwd rs w.fds H (.obj i) o e
  out : o.Out
  err : e.Plain
  shape : p.Redirectable sys cwd
  low : (p.Regular ∧ rs.NoFiles) ∨ rs.Low w.fds

/-- The last item of the pipeline is a python function or an iterator, and its output is not redirected inside the pipeline. -/
def Pipeline.endsInPython : Pipeline → Bool
  | .pipe _ b => b.endsInPython
  | .group _ b => b.endsInPython
  | .redirect p crs => p.endsInPython && (Dict.get? crs 1).isNone
  | .command _ _ => false
  | .func _ => true
  | .iter _ => true

/-- The first item of the pipeline is a python function, and its input is not redirected inside the pipeline. -/
def Pipeline.beginsWithFunction : Pipeline → Bool
  | .pipe a _ => a.beginsWithFunction
  | .group a _ => a.beginsWithFunction
  | .redirect p crs => p.beginsWithFunction && (Dict.get? crs 0).isNone
  | .command _ _ => false
  | .func _ => true
  | .iter _ => false

mutual
/-- No python function or iterator anywhere in the pipeline. -/
def Pipeline.onlyPrograms : Pipeline → Bool
  | .pipe a b => a.onlyPrograms && b.onlyPrograms
  | .group a b => a.onlyPrograms && b.onlyPrograms
  | .redirect p _ => p.onlyPrograms
  | .command _ args => args.onlyPrograms
  | .func _ => false
  | .iter _ => false
/-- No python function or iterator in the arguments. -/
def Args.onlyPrograms : Args → Bool
  | .nil => true
  | .word _ rest => rest.onlyPrograms
  | .pipeArg _ p rest => p.onlyPrograms && rest.onlyPrograms
  | .funcArg .. => false
end

/-- The redirection leads to something `epoll` cannot wait for: a regular file or `/dev/null`, or a temporary file. -/
def Redirect.Unwaitable (sys : Sys) (cwd : Str) (r : Redirect) : Prop :=
  (∃ path, r.source = .path path ∧ sys.special cwd path = false) ∨ r.source = .TMP ∨ r.source = .STRING

end Pieshell
