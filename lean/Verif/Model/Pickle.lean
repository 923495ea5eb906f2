import Verif.Model.Base
/-!
# Model of pickling pipelines for `remote`

`describable_object_reduce`, `DescribableObject.__setstate__` (`pieshell/pipeline/base.py:49-78`), `Environment.__getstate__`
(`pieshell/environ.py:191-196`), and what `pickle` makes of them: `pickle.dumps(self._arg[-1])` (builtins.py:200) and `pickle.loads` (shell.py:76).

Objects live in a heap and have attributes; the elements of lists and dicts are attributes, too.  `pickle` writes each object
that it meets once, and refers to it when it meets it again (its memo).

Simplifications: the bytes that are written are not modelled (they are transported unchanged, C57): what is written is the list of objects, in the order in
which they are met; dictionary keys are strings; an object that `pickle` refuses raises `TypeError` (some raise `PicklingError`); classes and functions
that can be imported by name at both ends are written by name.
-/
namespace Pieshell.Pickle

/-- A value: immutable (None, numbers, text), or an object. [What is met when pickling at builtins.py:200] -/
inductive Ref where
  | imm (text : Str)
  | obj (n : Nat)
deriving DecidableEq, Repr

/-- What is relevant about the class of an object. [base.py:49-78, environ.py:191-196] -/
inductive Kind where
  /-- a `Pipeline` of class `cls` -/
  | pipeline (cls : Str)
  /-- an `Environment` -/
  | env
  /-- lists, dicts, `R`, `Redirect`, `RunningPipeline`, ...: pickled attribute by attribute -/
  | plain (cls : Str)
  /-- functions and classes that are found by name -/
  | global (name : Str)
  /-- futures, generators, open files, functions defined at the prompt, ...: pickle refuses them -/
  | refused
deriving DecidableEq, Repr

/-- An object with its attributes (`__dict__`, base.py:54, environ.py:196). -/
structure Obj where
  kind : Kind
  attrs : Dict Str Ref
deriving DecidableEq, Repr

/-- Python's memory, as met when pickling at builtins.py:200. -/
abbrev Heap := List Obj

/-- `None` [environ.py:193] -/
def none_ : Ref := .imm c!"None"

/-- The attributes left out (base.py:54-56). -/
def hidden (name : Str) : Bool :=
  (name.take 2 == c!"__") || name == c!"_running_process" || name == c!"_running_processes"

/-- `describable_object_reduce` (base.py:49-60).  `py311`: python 3.11 or later, where `type` has an attribute `__getstate__`; found on an object that
is itself a class, it is not bound to the object, and calling it is a TypeError. -/
def reduce (py311 : Bool) (o : Obj) : Except Exn (Dict Str Ref) :=
  if py311 then .error .typeError else .ok (o.attrs.filter fun p => !hidden p.1)

/-- `v.pipeline` (environ.py:194) -/
def pipelineOf (h : Heap) : Ref → Except Exn Ref
  | .imm _ => .error .attributeError
  | .obj n => match (h[n]?).bind fun o => o.attrs.get? c!"pipeline" with
    | some r => .ok r
    | none => .error .attributeError

/-- `mangle` (environ.py:192-195) -/
def mangle (h : Heap) (name : Str) (v : Ref) : Except Exn Ref :=
  if name = c!"_scope" then .ok none_
  else if name = c!"last_pipeline" then pipelineOf h v
  else .ok v

/-- `Environment.__getstate__` (environ.py:191-196) -/
def getstate (h : Heap) : Dict Str Ref → Except Exn (Dict Str Ref)
  | [] => .ok []
  | (k, v) :: d => match mangle h k v with
    | .error e => .error e
    | .ok v' => match getstate h d with
      | .error e => .error e
      | .ok d' => .ok ((k, v') :: d')

/-- What pickle writes for an object.
[base.py:49-60, environ.py:191-196; other classes by CPython Lib/copyreg.py] -/
def state (py311 : Bool) (h : Heap) (o : Obj) : Except Exn (Dict Str Ref) :=
  match o.kind with
  | .pipeline _ => reduce py311 o
  | .env => getstate h o.attrs
  | .plain _ => .ok o.attrs
  | .global _ => .ok []
  | .refused => .error .typeError

/-- The objects among the values. [CPython Lib/pickle.py] -/
def refs (d : Dict Str Ref) : List Nat := d.filterMap fun p => match p.2 with | .obj n => some n | .imm _ => none

/-- `Pickler.save` and the memo: `left` are the objects not yet written, `todo` those to be written.
[CPython Lib/pickle.py, for builtins.py:200] -/
def collect (py311 : Bool) (h : Heap) (left todo : List Nat) (acc : List (Nat × Obj)) : Except Exn (List (Nat × Obj)) :=
  match todo with
  | [] => .ok acc
  | n :: todo =>
    if hn : n ∈ left then
      match h[n]? with
      | none => .error .other
      | some o => match state py311 h o with
        | .error e => .error e
        | .ok st => collect py311 h (left.erase n) (refs st ++ todo) (acc ++ [(n, { kind := o.kind, attrs := st })])
    else collect py311 h left todo acc
termination_by (left.length, todo.length)
decreasing_by
  · have := List.length_erase_of_mem hn
    have := List.length_pos_of_mem hn
    exact Prod.Lex.left _ _ (by omega)
  · exact Prod.Lex.right _ (by simp)

/-- `pickle.dumps` of object `n`: the objects written. [CPython Lib/pickle.py, for builtins.py:200] -/
def dumps (py311 : Bool) (h : Heap) (n : Nat) : Except Exn (List (Nat × Obj)) := collect py311 h (List.range h.length) [n] []

/-- Where an object comes in what was written. [CPython Lib/pickle.py (the memo)] -/
def position (l : List (Nat × Obj)) (n : Nat) : Nat := l.findIdx fun p => p.1 == n

/-- A value at the other end. [CPython Lib/pickle.py `loads`, for shell.py:76] -/
def there (l : List (Nat × Obj)) : Ref → Ref
  | .imm s => .imm s
  | .obj n => .obj (position l n)

/-- `pickle.loads`: every object that was written is made anew, and `__setstate__` (base.py:76-78) or `__dict__.update` sets its attributes.
The pipeline is object 0. -/
def loads (l : List (Nat × Obj)) : Heap := l.map fun p => { p.2 with attrs := p.2.attrs.map fun q => (q.1, there l q.2) }

end Pieshell.Pickle
