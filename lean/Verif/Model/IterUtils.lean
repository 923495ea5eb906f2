import Verif.Model.Base
/-!
`map`, `filter` (pieshell/utils/jsonutils.py:3-21) and `asyncitertoiter` (pieshell/utils/asyncutils.py:4-12).

An iterator is a machine: a state, and what the next call of `next()` (`__anext__()`) does in it.  Functions called for an item either
return something or raise an exception.  Simplification: calls have no effects beyond the state of the iterator they are made on.
-/
namespace Pieshell.Itu

/-- What `next()` does. [Python's iterator protocol; jsonutils.py:4-9, 14-18, asyncutils.py:5-11] -/
inductive Res (σ α : Type) where
  | item (a : α) (s : σ)
  /-- `StopIteration`, `StopAsyncIteration` -/
  | stop
  | raises (e : Exn)

/-- The states of a generator: it is about to go on, or it has ended (by returning or raising).
[Python's generators; jsonutils.py:4-9, 14-18, asyncutils.py:5-11] -/
inductive Gen (σ : Type) where
  | at (s : σ)
  | over

/-- `apply_map` of `map(func)` (jsonutils.py:4-9); `none` is the item `None`. -/
def mapNext {σ α β : Type} (f : α → Except Exn (Option β)) (next : σ → Res σ (Option α)) : Gen σ → Res (Gen σ) (Option β)
  | .over => .stop
  | .at s => match next s with
    | .stop => .stop
    | .raises e => .raises e
    | .item none s' => .item none (.at s')
    | .item (some a) s' => match f a with
      | .ok b => .item b (.at s')
      | .error e => .raises e

/-- `filter(func)` (jsonutils.py:13-21): the assignment to `apply_map.__name__`, a name that is not defined there. -/
def mkFilter {σ α : Type} (_f : α → Except Exn Bool) (_next : σ → Res σ (Option α)) : Except Exn (Gen σ → Res (Gen σ) (Option α)) :=
  .error .nameError

/-- `iter(handler)` for the input of a python function in a pipeline (iterio.py:144-217: there is `__aiter__`, but no `__iter__`): the
first `next()` of `apply_map` raises TypeError. -/
def mapNextOfHandler {β : Type} : Gen Unit → Res (Gen Unit) (Option β)
  | .over => .stop
  | .at _ => .raises .typeError

/-- `asyncitertoiter` (asyncutils.py:4-12).  `run_until_complete` raises RuntimeError (here `Exn.other`) if an event loop is running in this thread;
StopAsyncIteration ends the generator, every other exception leaves it. -/
def syncNext {σ α : Type} (running : Bool) (anext : σ → Res σ α) : Gen σ → Res (Gen σ) α
  | .over => .stop
  | .at s => if running then .raises .other
    else match anext s with
      | .stop => .stop
      | .raises e => .raises e
      | .item a s' => .item a (.at s')

/-- `n` calls of `next()`: the items, and what ended them, if anything.  After `stop` or an exception nothing more is asked for.
[Python's iterator protocol] -/
def take {σ α : Type} (next : σ → Res σ α) : Nat → σ → List α × Option (Option Exn)
  | 0, _ => ([], none)
  | n + 1, s => match next s with
    | .stop => ([], some none)
    | .raises e => ([], some (some e))
    | .item a s' => let r := take next n s'; (a :: r.1, r.2)

end Pieshell.Itu
