import Verif.Model.BuiltinPipe
/-! Vocabulary for C111. -/
namespace Pieshell.BP

/-- A pipeline without builtins, taken apart. -/
def embed : Pieshell.Pipeline → Pipeline
  | .pipe a b => .pipe (embed a) (embed b)
  | .group a b => .group (embed a) (embed b)
  | .redirect p rs => .redirect (embed p) rs
  | p => .plain p

/-- `first + q1 + q2 + ...` (python's `+` groups to the left) -/
def chain (first : Pipeline) (rest : List Pipeline) : Pipeline := rest.foldl .group first

/-- One pipeline is started after the other, each by itself, with the same redirections; all items together. -/
def inTurn (sys : Sys) (rs : Redirects) : List Pipeline → M (List Item)
  | [] => fun s => (.ok [], s)
  | p :: ps => fun s => match run sys p rs s with
    | (.error e, s) => (.error e, s)
    | (.ok (xs, _), s) => match inTurn sys rs ps s with
      | (.error e, s) => (.error e, s)
      | (.ok ys, s) => (.ok (xs ++ ys), s)

/-- The redirections do not belong to the pipeline: the descriptors are borrowed, as are those of an environment (environ.py:53-57). -/
def Lent (rs : Redirects) : Prop := ∀ p ∈ rs, p.2.borrowed = true ∨ p.2.source = .PIPE ∨ p.2.source = .TMP ∨ p.2.source = .STRING

/-- The leftmost item of its group is no builtin. -/
def isPlain : Pipeline → Bool
  | .plain _ => true
  | .builtin _ => false
  | .wrapper _ => false
  | .pipe _ _ => true
  | .group a _ => isPlain a
  | .redirect p _ => isPlain p

/-- Builtins occur only at the left end of groups (and redirected), and in groups that begin so; nothing is piped from or into such a group. -/
def builtinsFirst : Pipeline → Bool
  | .plain _ => true
  | .builtin _ => true
  | .wrapper _ => true
  | .pipe a b => builtinsFirst a && builtinsFirst b && isPlain a && isPlain b
  | .group a b => builtinsFirst a && builtinsFirst b && (!isPlain a || isPlain b)
  | .redirect p _ => builtinsFirst p

end Pieshell.BP
