import Verif.Model.Registry
/-!
# What a signal handler should get
-/
namespace Pieshell.Registry

/-- Two filters ask for the same: the same values of the same fields, in whichever order. -/
def Flt.Same (f g : Flt) : Prop := ∀ x, x ∈ f ↔ x ∈ g

/-- An event has all the values that the filter asks for. -/
def Fits (i : Info) (f : Flt) : Prop := ∀ x ∈ f, i x.1 = some x.2

/-- All fields that the filter names exist. -/
def Names (i : Info) (f : Flt) : Prop := ∀ x ∈ f, (i x.1).isSome = true

open Classical in
/-- What handler `h`, with filter `f`, should get of some events; `true`: it has destroyed itself. -/
noncomputable def dueOf (react : Nat → Info → Reaction) (h : Nat) (f : Flt) : List Info → List Info × Bool
  | [] => ([], false)
  | i :: is => if Fits i f then (if react h i = .quit then ([i], true) else (i :: (dueOf react h f is).1, (dueOf react h f is).2)) else dueOf react h f is

/-- ... of what happens after it has been made: the events that it asks for, until it is destroyed. -/
noncomputable def due (react : Nat → Info → Reaction) (h : Nat) (f : Flt) : List Act → List Info
  | [] => []
  | .create _ :: as => due react h f as
  | .destroy h' :: as => if h' = h then [] else due react h f as
  | .events is :: as => if (dueOf react h f is).2 then (dueOf react h f is).1 else (dueOf react h f is).1 ++ due react h f as

open Classical in
/-- Those of the handlers `live` (number, filter) that some events leave: the others have destroyed themselves. -/
noncomputable def stay (react : Nat → Info → Reaction) (live : List (Nat × Flt)) (is : List Info) : List (Nat × Flt) :=
  live.filter (fun p => decide ((dueOf react p.1 p.2 is).2 = false))

/-- A history in which nothing is wrong. `live`: the handlers that have been made and not been destroyed; `n`: how many have been made.
Filters are dictionaries and name fields that all events have; no `handle_event` raises an exception; only handlers that have not been destroyed are; and no handler is made with a filter
that asks for the same as that of a handler that has not been destroyed. -/
def Good (react : Nat → Info → Reaction) : List (Nat × Flt) → Nat → List Act → Prop
  | _, _, [] => True
  | live, n, .create f :: as => f.Uniq ∧ (∀ p ∈ live, ¬ Flt.Same f p.2) ∧ Good react (live ++ [(n, f)]) (n + 1) as
  | live, n, .destroy h :: as => (∃ f, (h, f) ∈ live) ∧ Good react (live.filter (fun p => p.1 ≠ h)) n as
  | live, n, .events is :: as => (∀ i ∈ is, (∀ p ∈ live, Names i p.2) ∧ ∀ h, react h i ≠ .raise) ∧ Good react (stay react live is) n as

/-- The handlers that have been made and not been destroyed, at the end of a history. -/
noncomputable def after (react : Nat → Info → Reaction) : List (Nat × Flt) → Nat → List Act → List (Nat × Flt)
  | live, _, [] => live
  | live, n, .create f :: as => after react (live ++ [(n, f)]) (n + 1) as
  | live, n, .destroy h :: as => after react (live.filter (fun p => p.1 ≠ h)) n as
  | live, n, .events is :: as => after react (stay react live is) n as

/-- An event makes the manager raise an exception when it comes to handler `h` with filter `f`: the filter names a field that the event does not have and does not ask for another value of one it names before that,
or the event is one that it asks for, and its `handle_event` raises an exception. -/
def Raises (react : Nat → Info → Reaction) (i : Info) (h : Nat) (f : Flt) : Prop :=
  (∃ a k v b, f = a ++ (k, v) :: b ∧ Fits i a ∧ i k = none) ∨ (Fits i f ∧ react h i = .raise)

open Classical in
/-- All events that a filter `f` of handler `h` asks for, up to the first time that `destroy()` is called for `h`. -/
noncomputable def asked (h : Nat) (f : Flt) : List Act → List Info
  | [] => []
  | .create _ :: as => asked h f as
  | .destroy h' :: as => if h' = h then [] else asked h f as
  | .events is :: as => is.filter (fun i => decide (Fits i f)) ++ asked h f as

/-- How many handlers are made. -/
def creates : List Act → Nat
  | [] => 0
  | .create _ :: as => creates as + 1
  | _ :: as => creates as

end Pieshell.Registry
