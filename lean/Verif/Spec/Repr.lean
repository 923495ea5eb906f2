import Verif.Model.Repr
/-!
# Specification for C60 and C69: what printing may do and what it says

Written over the objects only, without the counter, the thread local environment or the list of events.
-/
namespace Pieshell.Repr.Spec
open Pieshell.Repr Pieshell.Cmd

mutual
/-- No command inside contains a string with a `%`. -/
def NoTemplates : Obj → Prop
  | .leaf _ => True
  | .broken => True
  | .native kids => NoTemplatesL kids
  | .viaRepr kids => NoTemplatesL kids
  | .catching kid _ => NoTemplates kid
  | .command _ _ _ c _ => ∀ s, (.val (.str s) ∈ c.args ∨ ∃ kvs k, .dict kvs ∈ c.args ∧ (k, .str s) ∈ kvs) → '%' ∉ s
  | .pipeline _ _ _ _ parts => NoTemplatesL parts
def NoTemplatesL : List Obj → Prop
  | [] => True
  | o :: os => NoTemplates o ∧ NoTemplatesL os
end

mutual
/-- Showing an object at the prompt: the pipelines that run, in order, and whether showing gets to the end. A pipeline
that has not been started and whose environment is interactive runs; containers show their elements one by one; what
is inside of a pipeline, or inside of an object that prints its parts with `repr()`, is never run. -/
def shown (interactive : Nat → Bool) (outcome : Nat → Outcome) (printsOk : Obj → Bool) : Obj → List Nat × Bool
  | .leaf _ => ([], true)
  | .broken => ([], false)
  | .native kids => shownL interactive outcome printsOk kids
  | .viaRepr _ => ([], true)
  | .catching kid _ => ((shown interactive outcome printsOk kid).1, true)
  | .command id started env c as =>
    if started = false ∧ interactive env = true then ([id], outcome id != .failed)
    else ([], printsOk (.command id started env c as))
  | .pipeline id started env _ _ =>
    if started = false ∧ interactive env = true then ([id], outcome id != .failed) else ([], true)
def shownL (interactive : Nat → Bool) (outcome : Nat → Outcome) (printsOk : Obj → Bool) : List Obj → List Nat × Bool
  | [] => ([], true)
  | o :: os =>
    match shown interactive outcome printsOk o with
    | (ids, false) => (ids, false)
    | (ids, true) => (ids ++ (shownL interactive outcome printsOk os).1, (shownL interactive outcome printsOk os).2)
end

/-- The command can be printed: its arguments expand. -/
def printable (w : World) : Obj → Bool
  | .command _ _ env c _ => match Command.repr (Expand.expandArgument (w.ctx env)) w.printable c with
    | .ok _ => true
    | .error _ => false
  | _ => true

/-- The numbers of the pipelines run, in order. -/
def starts : List Event → List Nat
  | [] => []
  | .start id :: es => id :: starts es
  | .lookup _ _ :: es => starts es

/-- What a session of printing and showing runs: nothing for a `repr()`, and what is shown otherwise. -/
def sessionStarts (w : World) : List Act → List Nat
  | [] => []
  | .repr _ :: l => sessionStarts w l
  | .show o :: l => (shown w.interactive w.outcome (printable w) o).1 ++ sessionStarts w l

mutual
/-- The object and all pipelines inside it belong to environment `e`, and all its commands can be printed. -/
def Within (w : World) (e : Nat) : Obj → Prop
  | .leaf _ => True
  | .broken => False
  | .native kids => WithinL w e kids
  | .viaRepr kids => WithinL w e kids
  | .catching kid _ => Within w e kid
  | .command _ _ env c _ =>
    env = e ∧ ∃ t, Command.repr (Expand.expandArgument (w.ctx env)) w.printable c = .ok t
  | .pipeline _ _ env _ parts => env = e ∧ WithinL w e parts
def WithinL (w : World) (e : Nat) : List Obj → Prop
  | [] => True
  | o :: os => Within w e o ∧ WithinL w e os
end

/-- An argument of a call and its position, as python writes it: `key=text` if the key at that position is a name. -/
def argument (keys : List (Option Str)) (p : Str × Nat) : Str :=
  match keys[p.2]? with
  | some (some k) => k ++ c!"=" ++ p.1
  | _ => p.1

/-- The arguments of a call. -/
def arguments (keys : List (Option Str)) (texts : List Str) : List Str := texts.zipIdx.map (argument keys)

mutual
/-- The text of an object, without environments. -/
def plain (w : World) : Obj → Str
  | .leaf t => t
  | .broken => []
  | .native kids => c!"[" ++ joinWith c!", " (plainL w kids) ++ c!"]"
  | .viaRepr kids => c!"[" ++ joinWith c!",\n " (plainL w kids) ++ c!"]"
  | .catching kid _ => plain w kid
  | .command _ _ env c as => (match Command.repr (Expand.expandArgument (w.ctx env)) w.printable c with
    | .ok t => t
    | .error _ => []) ++ as
  | .pipeline _ _ _ .pipe parts => joinWith c!" | " (plainL w parts)
  | .pipeline _ _ _ .group parts => joinWith c!" + " (plainL w parts)
  | .pipeline _ _ _ .redirect parts => joinWith c!" with " (plainL w parts)
  | .pipeline _ _ _ (.call name keys) parts => name ++ c!"(" ++ joinWith c!"," (arguments keys (plainL w parts)) ++ c!")"
  | .pipeline _ _ _ .iter parts => joinWith [] (plainL w parts)
def plainL (w : World) : List Obj → List Str
  | [] => []
  | o :: os => plain w o :: plainL w os
end

mutual
/-- Everything inside can be printed. -/
def Prints (w : World) : Obj → Prop
  | .leaf _ => True
  | .broken => False
  | .native kids => PrintsL w kids
  | .viaRepr kids => PrintsL w kids
  | .catching kid _ => Prints w kid
  | .command _ _ env c _ => ∃ t, Command.repr (Expand.expandArgument (w.ctx env)) w.printable c = .ok t
  | .pipeline _ _ _ _ parts => PrintsL w parts
def PrintsL (w : World) : List Obj → Prop
  | [] => True
  | o :: os => Prints w o ∧ PrintsL w os
end

/-- ` in env` where a pipeline's environment is not that of the pipeline around it -/
def naming (w : World) (around : Option Nat) (env : Nat) : Str :=
  if around = some env then [] else c!" in " ++ w.envText env

mutual
/-- The text of an object inside of a pipeline of environment `around` (or of none): every pipeline is followed by its
environment unless it is that of the pipeline around it. -/
def described (w : World) (around : Option Nat) : Obj → Str
  | .leaf t => t
  | .broken => []
  | .native kids => c!"[" ++ joinWith c!", " (describedL w around kids) ++ c!"]"
  | .viaRepr kids => c!"[" ++ joinWith c!",\n " (describedL w around kids) ++ c!"]"
  | .catching kid _ => described w around kid
  | .command _ _ env c as => ((match Command.repr (Expand.expandArgument (w.ctx env)) w.printable c with
    | .ok t => t
    | .error _ => []) ++ as) ++ naming w around env
  | .pipeline _ _ env .pipe parts => joinWith c!" | " (describedL w (some env) parts) ++ naming w around env
  | .pipeline _ _ env .group parts => joinWith c!" + " (describedL w (some env) parts) ++ naming w around env
  | .pipeline _ _ env .redirect parts => joinWith c!" with " (describedL w (some env) parts) ++ naming w around env
  | .pipeline _ _ env (.call name keys) parts =>
    (name ++ c!"(" ++ joinWith c!"," (arguments keys (describedL w (some env) parts)) ++ c!")") ++ naming w around env
  | .pipeline _ _ env .iter parts => joinWith [] (describedL w (some env) parts) ++ naming w around env
def describedL (w : World) (around : Option Nat) : List Obj → List Str
  | [] => []
  | o :: os => described w around o :: describedL w around os
end

end Pieshell.Repr.Spec
