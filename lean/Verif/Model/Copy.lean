import Verif.Model.Base
/-!
# Model of `utils/copy.py` and of running a copy (`Pipeline.run`)

Python objects live in a heap. An object is a kind with a list of children (addresses). Simplifications:
* dict: children are keys and values alternately; `Command._arg` is part of the command object (in Python a list of
  its own, made afresh by `BaseCommand.__init__`, command.py:56); `Function.function` is in the kind because it is
  not copied (function.py:40-41); keyword arguments of `Function` are children;
* objects that `deepcopy` returns as they are (`str`, `bytes`, `R`, numbers, functions, environments, `Redirects` -
  which has no `__deepcopy__` -, copy.py:28-35) are `atom`s; `Redirect` objects inside arguments are not modelled;
* `deepcopy` takes fuel; running out of it is Python's RecursionError;
* an object is identified by its address (a natural number), and `id()` is that address.
-/
namespace Pieshell.Copy

/-- Kinds of objects. `started` is `Pipeline._started` (base.py:86, 141). -/
inductive Kind where
  | atom (n : Nat)
  /-- a one-shot iterator (generator, file, ...) with the items it has not produced yet -/
  | iter (rest : List Nat)
  | list | dict
  | command (started : Bool) | func (fn : Nat) (started : Bool)
  | pipe (started : Bool) | group (started : Bool) | redirect (started : Bool)
deriving DecidableEq, Repr

/-- Returned as it is by deepcopy, copy.py:34-35 (and 28-31). -/
def Kind.shared : Kind → Bool
  | .atom _ => true
  | .iter _ => true
  | _ => false

/-- The kind of a new object made by `__deepcopy__`/`list`/`dict`: `_started` is False (base.py:85). -/
def Kind.fresh : Kind → Kind
  | .command _ => .command false
  | .func f _ => .func f false
  | .pipe _ => .pipe false
  | .group _ => .group false
  | .redirect _ => .redirect false
  | k => k

/-- The kind after `_run` has set `_started` (base.py:141). -/
def Kind.start : Kind → Kind
  | .command _ => .command true
  | .func f _ => .func f true
  | .pipe _ => .pipe true
  | .group _ => .group true
  | .redirect _ => .redirect true
  | k => k

/-- An object. [The objects met by utils/copy.py:20-36] -/
structure Node where
  kind : Kind
  children : List Nat
deriving DecidableEq, Repr

/-- The heap; `next` is the next address to be allocated.
[Not in /repo: python's memory; `id(obj)` at utils/copy.py:22 is an address] -/
structure Heap where
  get : Nat → Option Node
  next : Nat

/-- allocate an object [Object creation, e.g. utils/copy.py:25-27, command.py:60, pipe.py:34] -/
def Heap.alloc (h : Heap) (n : Node) : Nat × Heap :=
  (h.next, { get := fun a => if a = h.next then some n else h.get a, next := h.next + 1 })

/-- overwrite an object [Attribute assignment, e.g. base.py:141] -/
def Heap.put (h : Heap) (a : Nat) (n : Node) : Heap := { h with get := fun b => if b = a then some n else h.get b }

/-- `copy_state.memo` (a dict from `id` to copy), copy.py:6; `None` is represented by the empty one (line 14). -/
abbrev Memo := Dict Nat Nat

/-- Copy the children one after the other (the generator/comprehension copy.py:25-27 and the `__deepcopy__`
methods). -/
def copyList (f : Memo → Nat → Heap → Option (Nat × Memo × Heap)) : Memo → List Nat → Heap → Option (List Nat × Memo × Heap)
  | m, [], h => some ([], m, h)
  | m, a :: l, h =>
    match f m a h with
    | none => none
    | some (b, m1, h1) =>
      match copyList f m1 l h1 with
      | none => none
      | some (bs, m2, h2) => some (b :: bs, m2, h2)

/-- `deepcopy(obj)` under `copy_session()`, copy.py:8-36. `m` is the memo of the enclosing session. The inner session
uses the same dict object if that is non-empty (`old_memo or {}`, line 14), so its updates are visible outside only
in that case. -/
def deepcopy : Nat → Memo → Nat → Heap → Option (Nat × Memo × Heap)
  | 0, _, _, _ => none
  | f + 1, m, a, h =>
    let outer (m' : Memo) : Memo := if m = [] then m else m'
    match Dict.get? m a with
    | some c => some (c, outer m, h)
    | none =>
      match h.get a with
      | none => none
      | some n =>
        if n.kind.shared then some (a, outer (Dict.set m a a), h)
        else
          match copyList (deepcopy f) m n.children h with
          | none => none
          | some (cs, m1, h1) =>
            let r := h1.alloc { kind := n.kind.fresh, children := cs }
            some (r.1, outer (Dict.set m1 a r.1), r.2)

/-- run `f` on every child [The loops at command.py:140-152 and pipe.py:44-45, group.py:43-44] -/
def forEach (f : Nat → Heap → Option Heap) : List Nat → Heap → Option Heap
  | [], h => some h
  | a :: l, h => match f a h with
    | none => none
    | some h1 => forEach f l h1

/-- Effect of `_run` on objects when it and the event loop have run to the end: every pipeline object reached is
marked as started (and gets run-time attributes, not modelled); iterators are consumed (function.py:87-116,
command.py:139-153 and 180-196; pipe.py:44-45, group.py:43-44, redirect.py:41). Lists given as arguments are
iterated over but not changed. -/
def runObj : Nat → Nat → Heap → Option Heap
  | 0, _, _ => none
  | f + 1, a, h =>
    match h.get a with
    | none => none
    | some n =>
      match n.kind with
      | .atom _ => some h
      | .list => some h
      | .iter _ => some (h.put a { n with kind := .iter [] })
      | .dict => forEach (runObj f) n.children h
      | .func fn _ =>
        let h1 := h.put a { n with kind := n.kind.start }
        match h1.get fn with
        | some ⟨.iter _, cs⟩ => some (h1.put fn ⟨.iter [], cs⟩)
        | _ => some h1
      | _ => forEach (runObj f) n.children (h.put a { n with kind := n.kind.start })

/-- `Pipeline.run`, base.py:146-150: copy in a new session, then run the copy. -/
def run (fuel : Nat) (p : Nat) (h : Heap) : Option (Nat × Heap) :=
  match deepcopy fuel [] p h with
  | none => none
  | some (c, _, h1) =>
    match runObj fuel c h1 with
    | none => none
    | some h2 => some (c, h2)

end Pieshell.Copy
