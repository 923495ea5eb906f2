import Verif.Model.SigIter
/-!
# Signals as an iterator
-/
namespace Pieshell.Sig

/-- The call has ended. -/
def Call.ended {α : Type} : Call α → Prop
  | .waiting => False
  | .ready => False
  | _ => True

/-- `__anext__` is only called when all earlier calls have ended (as `async for` would do). -/
def OneAtATime {α : Type} (s : It α) : List (IAct α) → Prop
  | [] => True
  | a :: as => (match a with | .call => ∀ c ∈ s.calls, c.ended | _ => True) ∧ OneAtATime (s.step a) as

/-- The handlers other than the iterator, each told about the event if it matches. -/
def deliverAll (s : St) (i : SigInfo) (hs : List (Filter × Option HId)) : St :=
  hs.foldl (fun s kv => match kv.2 with | some h => if matchSignal i kv.1 then handleEvent s h i else s | none => s) s

end Pieshell.Sig
