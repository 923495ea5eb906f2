import Verif.Model.Idle
import Verif.Spec.Whole
/-! Specification for C107: what a user can see of pipelines while the event loop does not run. -/
namespace Pieshell.Job

/-- What the attributes of pipeline `p` say: `is_running`, `failed_processes`, `exit_code`, whether it is listed in `env.running_pipelines`, the captured output. -/
structure Seen where
  isRunning : Bool
  failed : List Nat
  exitCode : Option Nat
  listed : Bool
  output : List (Dict Nat Str)

def seen (s : St) (p : Nat) : Seen :=
  ⟨running s.pipes p, failedItems s.pipes p, pipeExit s.pipes p, s.running.contains p, (itemsOf s.pipes p).map Item.output⟩

/-- The call `w` of `wait()` has ended, somehow. -/
def Over (s : St) (w : Nat) : Prop := ∃ r, Ended s w r

end Pieshell.Job
