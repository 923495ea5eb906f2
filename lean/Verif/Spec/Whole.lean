import Verif.Spec.Flow
import Verif.Spec.Signal
import Verif.Spec.Job
import Verif.Model.Whole
/-! Specification for `wait()` of a pipeline at work. -/
namespace Pieshell.Whole

export Pieshell.Flow (IsProgram)

/-- The call `w` of `wait()` for job `j` has ended like this. -/
def Result {σ : Type} (s : St σ) (j w : Nat) (r : Job.Res) : Prop := Job.WaitsFor s.job w j ∧ Job.Ended s.job w r

/-- Nothing happens any more by itself: no item of the pipeline can go on, no signal is pending, the event loop has nothing to do. -/
def AtRest {σ : Type} (next : Flow.Prog σ) (L : Link) (s : St σ) : Prop :=
  (∀ t, ¬ Flow.Step next L.net s.flow t) ∧ Sig.Quiet s.sig ∧ Job.Quiet s.job

/-- The shell runs pipeline `p` as job `job`, its programs having the process numbers `pid`; the pipes' capacities are `cap`. -/
def theJob (cwd : Str) (w : World) (p : Pipeline) (o : Want) (items : List Item) (rs' : Redirects) (w' : World) (cap : Nat → Nat)
    (job : Nat) (pid : Nat → Nat) : Link := ⟨Flow.started cwd w p o items rs' w' cap, job, pid⟩

end Pieshell.Whole
