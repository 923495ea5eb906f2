import Verif.Model.Startup
import Verif.Model.Exec
import Verif.Spec.Scope
/-!
# Vocabulary for C73-C76
-/
namespace Pieshell.Shell.Spec
open Shell

/-- What the shell defines: its arguments and options, process lists, redirections, exceptions, the module. The objects
themselves are numbered. -/
def defined : List (Str × V) :=
  [(c!"args", .obj 0), (c!"kws", .obj 1), (c!"INIT", .obj 2), (c!"CURRENT", .obj 3), (c!"USERS", .obj 4),
   (c!"PstreeProcess", .obj 5), (c!"R", .obj 6), (c!"Redirect", .obj 7), (c!"TMP", .obj 8), (c!"STRING", .obj 9),
   (c!"PIPE", .obj 10), (c!"PipelineError", .obj 11), (c!"PipelineInterrupted", .obj 12), (c!"PipelineSuspended", .obj 13),
   (c!"pieshell", .obj 14)]

/-- exported variables as a command gets them -/
def exported (d : Dict Str V) : Dict Str Exec.Value :=
  d.map (fun p => (p.1, match p.2 with
    | .str s => Exec.Value.text s
    | _ => Exec.Value.other))

end Pieshell.Shell.Spec

namespace Pieshell.Startup.Spec
open Pieshell.Startup

/-- Any number of starts of the shell, each with any errors and ended (`kill -9`, power failure) at any moment. -/
inductive History (default : Str) : Disk → Disk → Prop
  | refl (d) : History default d d
  | step {d d1 d2} (w : Weather) : History default d d1 → d2 ∈ d1 :: (start default w d1).1 → History default d d2

/-- no errors -/
def Weather.fine : Weather := ⟨none, none, none, none⟩

end Pieshell.Startup.Spec
