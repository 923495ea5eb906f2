import Verif.Model.Coerce
/-!
# Whole expressions: python's precedences, and operators applied to running pipelines

README "Job control" (363-366): "A pipeline can be started in the background by appending `&True`", 449-457: `~(a | b)`, `+(a | b)`.
An expression is given as it is written: operands with prefix operators, separated by binary operators; python's grammar decides what belongs together. The value of `~p`, `+p` and `p & x` is a
`RunningPipeline`, which has operators of its own (running.py:154-167).

Simplifications: the operators `-` (C22), `>>`, `<=`, ... and numbers are left out; objects of other classes have no operators of their own; operations marked `unmodelled` are those of numbers, of other
objects, and `p + x` for something that is no pipeline. `+p` returns unless waiting for the pipeline raises an exception (`wait`, a parameter).
-/
namespace Pieshell.Ops
open Coerce

/-- binary operators [base.py:105-138] -/
inductive Op where | plus | amp | bar | lt | gt
deriving DecidableEq, Repr

/-- prefix operators [base.py:164-165, 189-191] -/
inductive Prefix where | pos | inv
deriving DecidableEq, Repr

/-- A value: one of those of `Model/Coerce`, or a `RunningPipeline` for the pipeline `p`.
[base.py:80, running.py:63] -/
inductive V where
  | py (v : PyVal)
  | running (p : Pipeline)

/-- A parsed expression; `cmp a l` is the comparison chain `a op b op c ...`.
[Python's grammar; the operators are those of base.py:105-191] -/
inductive Ex where
  | val (v : V)
  | un (o : Prefix) (e : Ex)
  | bin (o : Op) (a b : Ex)
  | cmp (a : Ex) (l : List (Op × Ex))

mutual
/-- An operand as it is written: a name or constant, or an expression in parentheses. [Python's grammar] -/
inductive Operand where
  | val (v : V)
  | paren (s : Src)
/-- An expression as it is written: prefix operators and an operand, followed by more of them with binary operators in between.
[Python's grammar; the operators are those of base.py:105-191] -/
inductive Src where
  | mk (pre : List Prefix) (x : Operand) (rest : Rest)
/-- see `Src` [Python's grammar] -/
inductive Rest where
  | nil
  | cons (o : Op) (pre : List Prefix) (x : Operand) (rest : Rest)
end

/-- `a & s`, where `a` may be missing [Python's grammar; `&` is base.py:127-129] -/
def joinAnd : Option Ex → Ex → Ex
  | none, s => s
  | some a, s => .bin .amp a s

/-- `o | s`, where `o` may be missing [Python's grammar; `|` is base.py:105-126] -/
def joinOr : Option Ex → Ex → Ex
  | none, s => s
  | some o, s => .bin .bar o s

/-- a comparison chain, `c` being what stands before, with the operator that follows it
[Python's grammar; comparisons are base.py:130-135] -/
def joinCmp : Option (Ex × List (Op × Ex) × Op) → Ex → Ex
  | none, s => s
  | some (a, l, o), s => .cmp a (l ++ [(o, s)])

/-- python's grammar (language reference 6.17): prefix operators bind strongest, then `+`, `&`, `|`, and the comparisons; all but these associate to the left. `c`, `o`, `a`, `s` are the operands of
comparisons, `|`, `&` and `+` that have been read and not been used yet. [Not in /repo] -/
def climb (c : Option (Ex × List (Op × Ex) × Op)) (o a : Option Ex) (s : Ex) : List (Op × Ex) → Ex
  | [] => joinCmp c (joinOr o (joinAnd a s))
  | (.plus, y) :: r => climb c o a (.bin .plus s y) r
  | (.amp, y) :: r => climb c o (some (joinAnd a s)) y r
  | (.bar, y) :: r => climb c (some (joinOr o (joinAnd a s))) none y r
  | (op, y) :: r =>
    climb (some (match c with
      | none => (joinOr o (joinAnd a s), [], op)
      | some (b, l, o') => (b, l ++ [(o', joinOr o (joinAnd a s))], op))) none none y r

/-- python's grammar for one expression [Not in /repo: the Python language reference, 6.17] -/
def parse (x : Ex) (l : List (Op × Ex)) : Ex := climb none none none x l

/-- prefix operators apply to the operand only, from the inside
[Python's grammar; base.py:164-165, 189-191] -/
def prefixed : List Prefix → Ex → Ex
  | [], e => e
  | o :: l, e => .un o (prefixed l e)

mutual
/-- see `parse` [Python's grammar] -/
def Operand.ex : Operand → Ex
  | .val v => .val v
  | .paren s => s.ex
/-- see `parse` [Python's grammar] -/
def Src.ex : Src → Ex
  | .mk pre x rest => parse (prefixed pre x.ex) rest.exs
/-- see `parse` [Python's grammar] -/
def Rest.exs : Rest → List (Op × Ex)
  | .nil => []
  | .cons o pre x rest => (o, prefixed pre x.ex) :: rest.exs
end

/-- How evaluating may end otherwise. [base.py:102-103, running.py:101-102] -/
inductive Fail where
  | exn (e : Exn)
  | unmodelled
deriving DecidableEq, Repr

/-- What has been run. [base.py:143-162] -/
inductive Ran where
  /-- `run()`, base.py:143-154 -/
  | started (p : Pipeline)
  /-- `run_interactive()`, base.py:156-162 -/
  | waited (p : Pipeline)

/-- Operations that do not run anything. [base.py:105-138] -/
def ofPipeline : Except Exn Pipeline → Except Fail V
  | .ok p => .ok (.py (.pipeline p))
  | .error e => .error (.exn e)

/-- `RunningPipeline.__or__` and `__ror__` (running.py:154-167): the other operand is converted, and then nothing is done: the value is None. A `RunningPipeline` cannot be converted (base.py:102-103). -/
def runningOr (v : V) (direction : Str) : Except Fail V :=
  match v with
  | .running _ => .error (.exn .valueError)
  | .py x => match coerce x direction with
    | .error e => .error (.exn e)
    | .ok _ => .ok (.py .none)

/-- `x | y`: the left operand's `__or__`, or else the right one's `__ror__` (base.py:105-126, running.py:154-167). -/
def vOr : V → V → Except Fail V
  | .py (.pipeline _), .running _ => .error (.exn .valueError)
  | .py (.pipeline p), .py y => ofPipeline (opOr p y)
  | .running _, y => runningOr y c!"stdout"
  | x, .running _ => runningOr x c!"stdin"
  | .py x, .py (.pipeline p) => ofPipeline (opRor p x)
  | .py (.bool a), .py (.bool b) => .ok (.py (.bool (a || b)))
  | .py (.obj ..), _ => .error .unmodelled
  | _, .py (.obj ..) => .error .unmodelled
  | _, _ => .error (.exn .typeError)

/-- `p + q`, base.py:136-138; `+` of file names is python's. -/
def vAdd : V → V → Except Fail V
  | .py (.pipeline p), .py (.pipeline q) => .ok (.py (.pipeline (.group p q)))
  | .py (.pipeline _), _ => .error .unmodelled
  | .py (.str s), .py (.str t) => .ok (.py (.str (s ++ t)))
  | .py (.bytes s), .py (.bytes t) => .ok (.py (.bytes (s ++ t)))
  | .py (.bool _), .py (.bool _) => .error .unmodelled
  | .py (.obj ..), _ => .error .unmodelled
  | _, .py (.obj ..) => .error .unmodelled
  | _, _ => .error (.exn .typeError)

/-- `x > y`: `__gt__` of a pipeline, or else `__lt__` of the other one (base.py:130-135). -/
def vGt : V → V → Except Fail V
  | .py (.pipeline p), y => vOr (.py (.pipeline p)) y
  | x, .py (.pipeline p) => vOr x (.py (.pipeline p))
  | .py (.str s), .py (.str t) => .ok (.py (.bool (strLt t s)))
  | .py (.bytes _), .py (.bytes _) => .error .unmodelled
  | .py (.path _), .py (.path _) => .error .unmodelled
  | .py (.bool _), .py (.bool _) => .error .unmodelled
  | .py (.obj ..), _ => .error .unmodelled
  | _, .py (.obj ..) => .error .unmodelled
  | _, _ => .error (.exn .typeError)

/-- `x < y`: `y > x` with the operands' methods swapped: `__lt__` of a pipeline, or else `__gt__` of the other one (base.py:130-135). -/
def vLt : V → V → Except Fail V
  | .py (.pipeline p), y => vOr y (.py (.pipeline p))
  | x, .py (.pipeline p) => vOr (.py (.pipeline p)) x
  | x, y => vGt y x

/-- `bool(x)`: pipelines and running pipelines have neither `__bool__` nor `__len__`.
[base.py:80-240, running.py:63-168 (neither defines them)] -/
def truth : V → Option Bool
  | .running _ => some true
  | .py .none => some false
  | .py (.bool b) => some b
  | .py (.str s) => some (!s.isEmpty)
  | .py (.bytes s) => some (!s.isEmpty)
  | .py (.obj ..) => none
  | .py _ => some true

/-- The state: what has been run. [base.py:143-162] -/
abbrev M (α : Type) := List Ran → Except Fail α × List Ran

/-- `x & y`, base.py:127-129. -/
def vAnd (x y : V) : M V := fun log =>
  match x with
  | .py (.pipeline p) => match vOr (.py (.pipeline p)) y with
    | .ok (.py (.pipeline q)) => (.ok (.running q), log ++ [.started q])
    | .ok _ => (.error .unmodelled, log)
    | .error e => (.error e, log)
  | .py (.bool a) => match y with
    | .py (.bool b) => (.ok (.py (.bool (a && b))), log)
    | .py (.obj ..) => (.error .unmodelled, log)
    | _ => (.error (.exn .typeError), log)
  | .py (.obj ..) => (.error .unmodelled, log)
  | _ => match y with
    | .py (.obj ..) => (.error .unmodelled, log)
    | _ => (.error (.exn .typeError), log)

/-- `+x` (base.py:164-165) and `~x` (base.py:189-191). -/
def vPrefix (wait : Pipeline → Option Exn) (o : Prefix) (x : V) : M V := fun log =>
  match x with
  | .py (.pipeline p) => match o with
    | .inv => (.ok (.running p), log ++ [.started p])
    | .pos => match wait p with
      | none => (.ok (.running p), log ++ [.waited p])
      | some e => (.error (.exn e), log ++ [.waited p])
  | .py (.bool _) => (.error .unmodelled, log)
  | .py (.obj ..) => (.error .unmodelled, log)
  | _ => (.error (.exn .typeError), log)

/-- a binary operator that is no comparison [base.py:105-138, running.py:154-167] -/
def vBin (o : Op) (x y : V) : M V := fun log =>
  match o with
  | .plus => (vAdd x y, log)
  | .amp => vAnd x y log
  | .bar => (vOr x y, log)
  | .lt => (vLt x y, log)
  | .gt => (vGt x y, log)

mutual
/-- Evaluating an expression: operands from left to right, then the operator; a comparison chain `a op b op c` is `a op b and b op c`, every operand evaluated once.
[Python's evaluation order; the operators are base.py:105-191, running.py:154-167] -/
def eval (wait : Pipeline → Option Exn) : Ex → M V
  | .val v, log => (.ok v, log)
  | .un o e, log => match eval wait e log with
    | (.error f, log) => (.error f, log)
    | (.ok v, log) => vPrefix wait o v log
  | .bin o a b, log => match eval wait a log with
    | (.error f, log) => (.error f, log)
    | (.ok x, log) => match eval wait b log with
      | (.error f, log) => (.error f, log)
      | (.ok y, log) => vBin o x y log
  | .cmp a l, log => match eval wait a log with
    | (.error f, log) => (.error f, log)
    | (.ok x, log) => evalCmp wait x l log
/-- see `eval` [Python's comparison chains; base.py:130-135] -/
def evalCmp (wait : Pipeline → Option Exn) : V → List (Op × Ex) → M V
  | x, [], log => (.ok x, log)
  | x, (o, e) :: l, log => match eval wait e log with
    | (.error f, log) => (.error f, log)
    | (.ok y, log) => match vBin o x y log with
      | (.error f, log) => (.error f, log)
      | (.ok v, log) => match l with
        | [] => (.ok v, log)
        | _ :: _ => match truth v with
          | none => (.error .unmodelled, log)
          | some false => (.ok v, log)
          | some true => evalCmp wait y l log
end

/-- Evaluating an expression as it is written, when nothing has been run yet. [base.py:105-191] -/
def Src.run (wait : Pipeline → Option Exn) (s : Src) : Except Fail V × List Ran := eval wait s.ex []

end Pieshell.Ops
