import Verif.Model.Base
/-!
# Signal handlers and their filters

`signalio.SignalHandler(filter)` registers an object with the signal manager (`manager_signalfd.py`, `manager_asyncio.py`; what is modelled here is the same in both): it should get the events whose fields have the values that are in `filter`,
until its `destroy()` is called.  pieshell makes one for each process (`{"ssi_pid": pid}`) and one for CTRL-Z (`{"ssi_signo": SIGTSTP}`).

Simplifications: the values of fields are numbers; what `handle_event` of a handler does to the manager is either nothing, or its own `destroy()`, or raising an exception. Logging (which prints the fields) is left out.
-/
namespace Pieshell.Registry

/-- A filter: a python dictionary, in its order. [signalio/__init__.py:17-18] -/
abbrev Flt := Dict Str Int

/-- An event, as a dictionary. [manager_signalfd.py:53, manager_asyncio.py:40-57] -/
abbrev Info := Str → Option Int

/-- `a <= b` for strings: lexicographic. [Not in /repo: python's comparison of strings, used at manager_signalfd.py:23] -/
def leStr : Str → Str → Bool
  | [], _ => true
  | _ :: _, [] => false
  | a :: as, b :: bs => if a.toNat < b.toNat then true else if b.toNat < a.toNat then false else leStr as bs

/-- Puts an item into a sorted list. [Not in /repo: python's `sorted`, used at manager_signalfd.py:23] -/
def insertItem (x : Str × Int) : List (Str × Int) → List (Str × Int)
  | [] => [x]
  | y :: l => if leStr x.1 y.1 then x :: y :: l else y :: insertItem x l

/-- `filter_to_key`: the items, sorted by name. [manager_signalfd.py:22-24, manager_asyncio.py:17-19] -/
def key : Flt → List (Str × Int)
  | [] => []
  | x :: l => insertItem x (key l)

/-- `match_signal`; `none`: `KeyError`, there is no such field. [manager_signalfd.py:38-42, manager_asyncio.py:33-37] -/
def matchSignal (i : Info) : Flt → Option Bool
  | [] => some true
  | (k, v) :: rest => match i k with
    | none => none
    | some x => if x ≠ v then some false else matchSignal i rest

/-- What the `handle_event` of a handler does to the manager. [signalio/__init__.py:20-21, 52-63] -/
inductive Reaction where
  | keep
  | quit
  | raise
deriving DecidableEq, Repr

/-- `signal_handlers`, the filters of all handlers that there have been (the `n`th one made has number `n`), and the events that each of them has got. [manager_signalfd.py:18, signalio/__init__.py:17-18] -/
structure St where
  reg : Dict (List (Str × Int)) Nat
  flts : List Flt
  got : Nat → List Info

/-- No handlers. [manager_signalfd.py:16-20] -/
def St.init : St := { reg := [], flts := [], got := fun _ => [] }

/-- `SignalHandler.__init__`, `register`. [signalio/__init__.py:17-19, manager_signalfd.py:26-31] -/
def St.create (s : St) (f : Flt) : St := { s with reg := s.reg.set (key f) s.flts.length, flts := s.flts ++ [f] }

/-- The filter of a handler. [signalio/__init__.py:18] -/
def St.flt (s : St) (h : Nat) : Flt := (s.flts[h]?).getD []

/-- `destroy`, `deregister`; `true`: `KeyError`. [signalio/__init__.py:22-24, manager_signalfd.py:33-36] -/
def St.destroy (s : St) (h : Nat) : St × Bool :=
  if s.reg.mem (key (s.flt h)) then ({ s with reg := s.reg.erase (key (s.flt h)) }, false) else (s, true)

/-- A handler gets an event. [signalio/__init__.py:20-21] -/
def St.give (s : St) (h : Nat) (i : Info) : St := { s with got := fun k => if k = h then s.got k ++ [i] else s.got k }

/-- The loop over the handlers, for one event; `true`: an exception has ended it. [manager_signalfd.py:71-73, manager_asyncio.py:75-77] -/
def dispatch (react : Nat → Info → Reaction) (i : Info) : List (List (Str × Int) × Nat) → St → St × Bool
  | [], s => (s, false)
  | (_, h) :: rest, s => match matchSignal i (s.flt h) with
    | none => (s, true)
    | some false => dispatch react i rest s
    | some true => match react h i with
      | .raise => (s.give h i, true)
      | .keep => dispatch react i rest (s.give h i)
      | .quit => match (s.give h i).destroy h with
        | (s, true) => (s, true)
        | (s, false) => dispatch react i rest s

/-- The loop over the events that have been found when the manager was called; the handlers are looked up for each of them. [manager_signalfd.py:62-73, manager_asyncio.py:66-77] -/
def batch (react : Nat → Info → Reaction) : List Info → St → St × Bool
  | [], s => (s, false)
  | i :: is, s => match dispatch react i s.reg s with
    | (s, true) => (s, true)
    | (s, false) => batch react is s

/-- What happens: a handler is made, a handler is destroyed, the manager is called with some events. [signalio/__init__.py:16-24, manager_signalfd.py:44-73] -/
inductive Act where
  | create (f : Flt)
  | destroy (h : Nat)
  | events (is : List Info)

/-- One of them. `h` is the number of a handler that has been made. [signalio/__init__.py:16-24] -/
def St.step (react : Nat → Info → Reaction) (s : St) : Act → St
  | .create f => s.create f
  | .destroy h => if h < s.flts.length then (s.destroy h).1 else s
  | .events is => (batch react is s).1

/-- A history. [signalio/__init__.py:16-24] -/
def St.run (react : Nat → Info → Reaction) (s : St) (as : List Act) : St := as.foldl (St.step react) s

end Pieshell.Registry
