import Verif.Model.Several
import Verif.Spec.Run
/-!
# What a pipeline with commands of several environments should start
-/
namespace Pieshell.Several

/-- A command or function of a pipeline: its environment, number and arguments. -/
inductive Leaf where
  | program (env id : Nat) (args : Ax)
  | python (env id : Nat)

mutual
/-- The commands and functions of a pipeline in the order in which they are started: those in arguments before the command. -/
def Px.leaves : Px → List Leaf
  | .command env id args => args.leaves env ++ [.program env id args]
  | .func env id => [.python env id]
  | .iter env id => [.python env id]
  | .pipe _ a b => a.leaves ++ b.leaves
  | .group _ a b => a.leaves ++ b.leaves
  | .redirect _ p _ => p.leaves
/-- see `Px.leaves`; `env` is the environment of the command -/
def Ax.leaves (env : Nat) : Ax → List Leaf
  | .nil => []
  | .text _ _ rest => rest.leaves env
  | .raw _ _ rest => rest.leaves env
  | .flag _ rest => rest.leaves env
  | .pipeArg _ p rest => p.leaves ++ rest.leaves env
  | .funcArg _ id rest => .python env id :: rest.leaves env
end

/-- `argv` are the words of the arguments, expanded in environment `env`; pipelines and functions are named by some `/dev/fd/n`. -/
inductive WordsIn (sh : Shell) (env : Nat) : Ax → List Word → Prop
  | nil : WordsIn sh env .nil []
  | text {pre s : Str} {rest : Ax} {ws : List Str} {argv : List Word} : Expand.expandArgument (sh.ctx env) s = .ok ws → WordsIn sh env rest argv →
      WordsIn sh env (.text pre s rest) (ws.map (fun w => .lit (pre ++ w)) ++ argv)
  | raw {pre s : Str} {rest : Ax} {argv : List Word} : WordsIn sh env rest argv → WordsIn sh env (.raw pre s rest) (.lit (pre ++ s) :: argv)
  | flag {s : Str} {rest : Ax} {argv : List Word} : WordsIn sh env rest argv → WordsIn sh env (.flag s rest) (.lit s :: argv)
  | pipeArg {pre : Str} {p : Px} {rest : Ax} {argv : List Word} (n : Nat) : WordsIn sh env rest argv → WordsIn sh env (.pipeArg pre p rest) (.devfd pre n :: argv)
  | funcArg {pre : Str} {id : Nat} {rest : Ax} {argv : List Word} (n : Nat) : WordsIn sh env rest argv → WordsIn sh env (.funcArg pre id rest) (.devfd pre n :: argv)

/-- The words of arguments that are strings, `R(...)` and flags only, in environment `env`. -/
inductive Texts (sh : Shell) (env : Nat) : Ax → List Str → Prop
  | nil : Texts sh env .nil []
  | text {pre s : Str} {rest : Ax} {ws argv : List Str} : Expand.expandArgument (sh.ctx env) s = .ok ws → Texts sh env rest argv →
      Texts sh env (.text pre s rest) (ws.map (pre ++ ·) ++ argv)
  | raw {pre s : Str} {rest : Ax} {argv : List Str} : Texts sh env rest argv → Texts sh env (.raw pre s rest) ((pre ++ s) :: argv)
  | flag {s : Str} {rest : Ax} {argv : List Str} : Texts sh env rest argv → Texts sh env (.flag s rest) (s :: argv)

/-- How a word is given to the program: `n` as a decimal number. -/
inductive Spells : Word → Str → Prop
  | lit (s : Str) : Spells (.lit s) s
  | dev (pre : Str) (n : Nat) : Spells (.devfd pre n) (pre ++ (c!"/dev/fd/" ++ (Nat.repr n).toList))

/-- A started item for a leaf: the process becomes what a child becomes that is given the words of the arguments, expanded in the environment of the command, the variables of
this environment, and its directory. -/
def StartedFor (k : Exec.Kernel) (sh : Shell) (r : Run) : Leaf → Prop
  | .program env id args => r.item.id = id ∧ ∃ argv texts, WordsIn sh env args argv ∧ Pointwise Spells argv texts ∧
      childOf k sh r = some (Exec.child k { args := texts.map .text, exports := (sh.envs env).exports, cwd := (sh.envs env).cwd } false none)
  | .python _ id => r.item.id = id ∧ childOf k sh r = none

/-- What happens when a pipeline is started: all items are started, or some, and then an exception is raised. -/
inductive Outcome where
  | all (ids : List Nat)
  | stops (ids : List Nat) (e : Exn)

/-- one after the other -/
def Outcome.andThen : Outcome → Outcome → Outcome
  | .all l, .all m => .all (l ++ m)
  | .all l, .stops m e => .stops (l ++ m) e
  | .stops l e, _ => .stops l e

mutual
/-- The arguments are expanded from left to right, each command is started when its arguments have been expanded and the pipelines among them started, and everything ends with the first
argument that cannot be expanded. -/
def outcome (sh : Shell) : Px → Outcome
  | .command env id args => (outcomeA sh env args).andThen (.all [id])
  | .func _ id => .all [id]
  | .iter _ id => .all [id]
  | .pipe _ a b => (outcome sh a).andThen (outcome sh b)
  | .group _ a b => (outcome sh a).andThen (outcome sh b)
  | .redirect _ p _ => outcome sh p
/-- see `outcome` -/
def outcomeA (sh : Shell) (env : Nat) : Ax → Outcome
  | .nil => .all []
  | .text _ s rest => match Expand.expandArgument (sh.ctx env) s with
    | .ok _ => outcomeA sh env rest
    | .error e => .stops [] e
  | .raw _ _ rest => outcomeA sh env rest
  | .flag _ rest => outcomeA sh env rest
  | .pipeArg _ p rest => (outcome sh p).andThen (outcomeA sh env rest)
  | .funcArg _ id rest => (Outcome.all [id]).andThen (outcomeA sh env rest)
end

mutual
/-- The pipeline with its arguments expanded (what cannot be expanded is left out), as in `Model/Run`. -/
def plain (sh : Shell) : Px → Pipeline
  | .command env id args => .command id (plainA sh env args)
  | .func _ id => .func id
  | .iter _ id => .iter id
  | .pipe _ a b => .pipe (plain sh a) (plain sh b)
  | .group _ a b => .group (plain sh a) (plain sh b)
  | .redirect _ p rs => .redirect (plain sh p) rs
/-- see `plain` -/
def plainA (sh : Shell) (env : Nat) : Ax → Args
  | .nil => .nil
  | .text pre s rest => match Expand.expandArgument (sh.ctx env) s with
    | .ok ws => .word (ws.map (pre ++ ·)) (plainA sh env rest)
    | .error _ => plainA sh env rest
  | .raw pre s rest => .word [pre ++ s] (plainA sh env rest)
  | .flag s rest => .word [s] (plainA sh env rest)
  | .pipeArg pre p rest => .pipeArg pre (plain sh p) (plainA sh env rest)
  | .funcArg pre id rest => .funcArg pre id (plainA sh env rest)
end

/-- Pipelines as the operators make them; the environment of the result is that of the operand on the left (for an iterator on the left: on the right). -/
inductive Made : Px → Prop
  | command {env id : Nat} {args : Ax} : Made (.command env id args)
  | orP {a b : Px} : Made a → Made b → Made (orP a b)
  | orFunc {a : Px} {id : Nat} : Made a → Made (orFunc a id)
  | iterOr {a : Px} {id : Nat} : Made a → Made (iterOr a id)
  | redirect {a : Px} {rs : Redirects} : Made a → Made (redirectP a rs)
  | add {a b : Px} : Made a → Made b → Made (addP a b)

/-- The environments of the commands of a pipeline, from left to right, without those in arguments. -/
def Px.envs : Px → List Nat
  | .command env _ _ => [env]
  | .func _ _ => []
  | .iter _ _ => []
  | .pipe _ a b => a.envs ++ b.envs
  | .group _ a b => a.envs ++ b.envs
  | .redirect _ p _ => p.envs

end Pieshell.Several
