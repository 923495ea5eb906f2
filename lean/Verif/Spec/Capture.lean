import Verif.Spec.Whole
import Verif.Model.Capture
/-! Specification for the captured output of a pipeline. -/
namespace Pieshell

/-- The redirection of stdout that applies to the last item of a pipeline which is started with `r`. -/
def Pipeline.lastOut : Pipeline → Redirect → Redirect
  | .pipe _ b, r => b.lastOut r
  | .group _ b, r => b.lastOut r
  | .redirect p crs, r => p.lastOut ((Dict.get? crs 1).getD r)
  | .command _ _, r => r
  | .func _, r => r
  | .iter _, r => r

/-- `output_content[1]` of the `k`th item of a job. -/
def Whole.captured {σ : Type} (s : Whole.St σ) (job k : Nat) : Option Str := (Job.itemAt s.job job k).bind fun it => Dict.get? it.output 1

end Pieshell
