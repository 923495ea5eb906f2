import Verif.Model.Complete
/-! Vocabulary for C113. -/
namespace Pieshell.Compl

/-- `s` is the text with its last `c.like` characters (those of the name being typed) replaced by the name that was found. -/
def Completes (text : Str) (c : Completion) (s : Str) : Prop :=
  ∃ before typed, text = before ++ typed ∧ typed.length = c.like ∧ s = before ++ c.name

/-- What is offered for one request, when the import path is `path`: one text for each completion found, in the order of `jedi`; nothing when the directory
of the process is gone, or the search raises an exception. -/
def Answer (r : Request) (path : List Str) (l : List Str) : Prop :=
  match r.getcwd with
  | .error _ => l = []
  | .ok d =>
    match (r.jedi (d :: path)).1 with
    | .error _ => l = []
    | .ok cs => Pointwise (Completes r.text) cs l

/-- `jedi` does not count more characters as typed than there are. -/
def Sane (r : Request) (path : List Str) : Prop :=
  ∀ d cs, r.getcwd = .ok d → (r.jedi (d :: path)).1 = .ok cs → ∀ c ∈ cs, c.like ≤ r.text.length

/-- Searching leaves the import path as it finds it. -/
def Quiet (r : Request) : Prop := ∀ p, (r.jedi p).2 = p

end Pieshell.Compl
