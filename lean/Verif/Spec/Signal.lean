import Verif.Model.Signal

/-! Specification vocabulary for signals. -/
namespace Pieshell.Sig

/-- The code and status a user expects to be reported for a change (`siginfo` documentation: exit code, or signal; the codes are those of Linux, `CLD_EXITED` 1, `CLD_KILLED` 2,
`CLD_DUMPED` 3, `CLD_STOPPED` 5, `CLD_CONTINUED` 6). -/
def expected : Change → Nat × Nat
  | .exited c => (1, c)
  | .killed sig core => (if core then 3 else 2, sig)
  | .stopped sig => (5, sig)
  | .continued => (6, 0)

/-- The changes of child `p`, in order. -/
def changesOf (s : St) (p : Nat) : List Change := (s.changes.filter (fun c => c.1 == p)).map Prod.snd

/-- The child events delivered to the handler of child `p`, in order. -/
def receivedBy (s : St) (p : Nat) : List SigInfo :=
  (s.deliv.filter (fun d => d.1 == HId.proc p && d.2.signo == SIGCHLD)).map Prod.snd

/-- How often the stop handler was called. -/
def stops (s : St) : Nat := (s.deliv.filter (fun d => d.1 == HId.stop)).length

/-- No signal is pending and the manager's callback is not running and not scheduled. -/
def Quiet (s : St) : Prop := s.sigchld = false ∧ s.tstp = none ∧ s.inbox = [] ∧ s.phase = .idle

/-- Child `p` was started by pieshell. -/
def Registered (s : St) (p : Nat) : Prop := (s.procs.get? p).isSome = true

end Pieshell.Sig

namespace Pieshell.Sig
/-- The steps of the event loop and of the manager (the others are done by the kernel or other processes). -/
def Act.own : Act → Bool
  | .spawn _ _ => false
  | .change _ _ => false
  | .tstp _ => false
  | _ => true

/-- The given steps are all the manager's, and each of them does something. -/
def OwnWork (s : St) : List Act → Prop
  | [] => True
  | a :: as => a.own = true ∧ step s a ≠ s ∧ OwnWork (step s a) as

/-- How many stop signals were sent. -/
def tstpsIn (as : List Act) : Nat := (as.filter (fun a => match a with | .tstp _ => true | _ => false)).length
end Pieshell.Sig
