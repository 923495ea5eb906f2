import Verif.Model.Job
/-! Specification of running pipelines. -/
namespace Pieshell.Job
open Pieshell.Io (Bytes)

mutual
/-- Some process or function of the pipeline has not ended (for `fg`: of the pipeline brought to the foreground). -/
inductive Alive (ps : List Pipe) : Nat → Prop
  | mk {p : Nat} {it : Item} : it ∈ itemsOf ps p → ItemAlive ps it → Alive ps p
inductive ItemAlive (ps : List Pipe) : Item → Prop
  | own {it : Item} : (it.kind = .proc ∨ it.kind = .func) → it.state = .running → ItemAlive ps it
  | fg {it : Item} {t : Nat} : it.kind = .fg t → Alive ps t → ItemAlive ps it
end

mutual
/-- Some process exited with a status other than zero, or some function raised an exception. -/
inductive Broken (ps : List Pipe) : Nat → Prop
  | mk {p : Nat} {it : Item} : it ∈ itemsOf ps p → ItemBroken ps it → Broken ps p
inductive ItemBroken (ps : List Pipe) : Item → Prop
  | exit {it : Item} {c : Nat} : it.kind = .proc → it.state = .exited c → c ≠ 0 → ItemBroken ps it
  | raise {it : Item} : it.kind = .func → it.state = .raised → ItemBroken ps it
  | fg {it : Item} {t : Nat} : it.kind = .fg t → Broken ps t → ItemBroken ps it
end

/-- The event loop could run this step. -/
def Ready (s : St) : Act → Prop
  | .task p i => ∃ it, itemAt s p i = some it ∧ it.task = .queued
  | .resume w => ∃ W : Waiter, s.waiters[w]? = some W ∧ (W.st = .fresh ∨ W.st = .woken ∨ ∃ began, W.st = .cancelled began)
  | _ => False

/-- The event loop has nothing to do: all tasks are waiting or have ended. -/
def Quiet (s : St) : Prop := ∀ a, ¬ Ready s a

/-- Steps of the event loop, one after the other. -/
def LoopRun (s : St) : List Act → Prop
  | [] => True
  | a :: as => Ready s a ∧ LoopRun (step s a) as

/-- The call `w` of `wait()` has ended with this result. -/
def Ended (s : St) (w : Nat) (r : Res) : Prop := ∃ W : Waiter, s.waiters[w]? = some W ∧ W.st = .over r

/-- The call `w` waits for pipeline `p`. -/
def WaitsFor (s : St) (w p : Nat) : Prop := ∃ W : Waiter, s.waiters[w]? = some W ∧ W.pipe = p

/-- While the call `w` was waiting, another call of `wait()` of the same pipeline began to wait. -/
def Overtaken (s : St) (w : Nat) : Prop := ∃ W : Waiter, s.waiters[w]? = some W ∧ W.shadowed = true

/-- The call `w` is made by an `fg` item of pipeline `q`. -/
def FgOf (s : St) (w q : Nat) : Prop := ∃ W : Waiter, s.waiters[w]? = some W ∧ W.cont = some q

/-- The call `w` waits for a process of pipeline `p` to end. -/
def Waiting (s : St) (w p : Nat) : Prop := ∃ W : Waiter, s.waiters[w]? = some W ∧ W.pipe = p ∧ W.st = .awaiting

/-- The item of `p` that ended last raised an exception, or the `wait()` of an `fg` item of `p` ended with an exception. -/
def Stuck (s : St) (p : Nat) : Prop :=
  (∃ (P : Pipe) (i : Nat) (it : Item), s.pipes[p]? = some P ∧ P.lastEnd = some i ∧ P.items[i]? = some it ∧ it.state = .raised) ∨
  (∃ (w : Nat) (W : Waiter) (r : Res), s.waiters[w]? = some W ∧ W.cont = some p ∧ W.st = .over r ∧ r ≠ .ok)

/-- All bytes written to the file. -/
def bytesOf (s : St) (path : Path) : Bytes := ((s.written.get? path).map Prod.snd).getD []

/-- The `STRING` files of the pipeline hold text. -/
def Decodable (s : St) (p : Nat) : Prop :=
  ∀ it ∈ itemsOf s.pipes p, ∀ path ∈ it.strings.map Prod.snd, ∃ c, Io.decode (bytesOf s path) = some c

/-- `q` is `p`, or a pipeline brought to the foreground by `p`. -/
inductive Brings (ps : List Pipe) : Nat → Nat → Prop
  | refl {p : Nat} : Brings ps p p
  | fg {p q t : Nat} {it : Item} : it ∈ itemsOf ps p → it.kind = .fg t → Brings ps t q → Brings ps p q

/-- None of the known ways to lose the end of the pipeline applies: output that is not text, a failing function that ends
last, a call of `wait()` by an `fg` that is overtaken by another one; for `fg`, also of the pipelines brought to the foreground. -/
def Smooth (s : St) (p : Nat) : Prop := ∀ q, Brings s.pipes p q → Decodable s q ∧ ¬ Stuck s q ∧ ∀ w, FgOf s w q → ¬ Overtaken s w

/-- Steps of processes, functions, the loop, and the terminal: nobody calls the pipelines' methods. -/
def Passive : Act → Bool
  | .resume _ => true
  | .finish _ _ _ => true
  | .task _ _ => true
  | .write _ _ _ _ => true
  | .tstp => true
  | _ => false

/-- Steps that do not continue pipeline `p`: no `restart()`, no new call of `wait()`, no `bg` and no `fg`. -/
def StaysStopped (p : Nat) : Act → Bool
  | .wait q => decide (q ≠ p)
  | .restart q => decide (q ≠ p)
  | .bg => false
  | .fg => false
  | .start xs => decide (some p ∉ xs.map Spec.target)
  | _ => true

/-- All processes of the pipeline that still run are stopped. -/
def AllStopped (s : St) (p : Nat) : Prop :=
  ∀ it ∈ itemsOf s.pipes p, it.kind = .proc → it.state = .running → it.stopped = true

/-- No process of the pipeline is stopped. -/
def NoneStopped (s : St) (p : Nat) : Prop := ∀ it ∈ itemsOf s.pipes p, it.kind = .proc → it.stopped = false

end Pieshell.Job
