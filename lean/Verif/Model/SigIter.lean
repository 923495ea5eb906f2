import Verif.Model.Signal
/-!
`SignalIteratorHandler` (`pieshell/signalio/__init__.py:26-43`): signal events as an asynchronous iterator.

`__anext__` is called any number of times, one call after the other or at the same time; a call that finds no event creates a
future, stores it in `self.future` and waits.  The future of a call is pending exactly while the call is `waiting`.

Simplifications: `async for` is not modelled (`__aiter__` is a coroutine function, so python raises `TypeError`): the calls
of `__anext__` are made explicitly.
-/
namespace Pieshell.Sig

/-- A call of `__anext__`: waiting for its future; its future is done and it will be resumed; it has returned an event; it has failed
(`pop` from an empty list); it was cancelled. [signalio/__init__.py:39-43] -/
inductive Call (α : Type) where
  | waiting
  | ready
  | got (e : α)
  | indexError
  | cancelled
deriving DecidableEq, Repr

/-- The handler: `buffer` (newest event first), `future` (that of the `k`th call), the calls so far.
[signalio/__init__.py:26-43] -/
structure It (α : Type) where
  buffer : List α
  future : Option Nat
  calls : List (Call α)
  /-- ghost: the events, in the order of arrival -/
  events : List α
  /-- ghost: what the calls have returned, in the order of returning -/
  out : List α

/-- `SignalIteratorHandler.__init__` (signalio/__init__.py:27-30). -/
def It.init (α : Type) : It α := { buffer := [], future := none, calls := [], events := [], out := [] }

/-- `handle_event` (signalio/__init__.py:31-34); `true`: `set_result` raises `InvalidStateError`, as the future is done or
cancelled already. -/
def It.handle {α : Type} (s : It α) (e : α) : It α × Bool :=
  let s := { s with buffer := e :: s.buffer, events := s.events ++ [e] }
  match s.future with
  | none => (s, false)
  | some k => match s.calls[k]? with
    | some .waiting => ({ s with calls := s.calls.set k .ready }, false)
    | _ => (s, true)

/-- `self.buffer.pop()` by the `k`th call (signalio/__init__.py:43). -/
def It.pop {α : Type} (s : It α) (k : Nat) : It α :=
  match s.buffer.getLast? with
  | none => { s with calls := s.calls.set k .indexError }
  | some e => { s with buffer := s.buffer.dropLast, calls := s.calls.set k (.got e), out := s.out ++ [e] }

/-- Events, calls, resumed calls, cancellations. [signalio/__init__.py:31-43] -/
inductive IAct (α : Type) where
  | event (e : α)
  | call
  | resume (k : Nat)
  | cancel (k : Nat)

/-- One step; steps that are not possible do nothing (`__anext__`: signalio/__init__.py:39-43). -/
def It.step {α : Type} (s : It α) : IAct α → It α
  | .event e => (s.handle e).1
  | .call => match s.buffer with
    | [] => { s with calls := s.calls ++ [.waiting], future := some s.calls.length }
    | _ :: _ => { s with calls := s.calls ++ [Call.ready] }.pop s.calls.length
  | .resume k => match s.calls[k]? with
    | some .ready => s.pop k
    | _ => s
  | .cancel k => match s.calls[k]? with
    | some .waiting => { s with calls := s.calls.set k .cancelled }
    | some .ready => { s with calls := s.calls.set k .cancelled }
    | _ => s

/-- A history (signalio/__init__.py:31-43). -/
def It.run {α : Type} (s : It α) (as : List (IAct α)) : It α := as.foldl It.step s

/-- The loop over the handlers (manager_signalfd.py:71-73, manager_asyncio.py:75-77) when one of them is a signal iterator (`none`): an
exception of a handler ends the loop and leaves the callback. `true`: an exception was raised. -/
def dispatchWith (s : St) (it : It SigInfo) (i : SigInfo) : List (Filter × Option HId) → (St × It SigInfo) × Bool
  | [] => ((s, it), false)
  | (flt, h) :: rest =>
    if matchSignal i flt then
      match h with
      | some h => dispatchWith (handleEvent s h i) it i rest
      | none => match it.handle i with
        | (it, true) => ((s, it), true)
        | (it, false) => dispatchWith s it i rest
    else dispatchWith s it i rest

end Pieshell.Sig
