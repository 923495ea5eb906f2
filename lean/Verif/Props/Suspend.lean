import Verif.Lemmas.Suspend
import Verif.Props.Job
/-! # C99: suspending a pipeline from the program -/
namespace Pieshell.Job

/-- **C99**: `suspend()` stops every process of the pipeline that still runs, at any moment of any history; `restart()`
continues them all. -/
theorem C99_stops (b : Bool) (as : List Act) (p : Nat) :
    AllStopped (run (init b) (as ++ [.suspend p])) p ∧ NoneStopped (run (init b) (as ++ [.suspend p, .restart p])) p := by
  refine ⟨?_, ?_⟩
  · rw [run_append]
    exact suspend_allStopped _ p
  · rw [show as ++ [Act.suspend p, .restart p] = (as ++ [.suspend p]) ++ [.restart p] by simp, run_append]
    exact restart_noneStopped _ p

/-- **C99, the part about `wait()` that holds**: if `wait()` of the pipeline is under way when `suspend()` is called, then
as long as nobody continues the pipeline, its processes stay stopped and that call of `wait()` reports neither success nor
failure: if it ends, it raises `PipelineSuspended` (or was cancelled). `cs` are any other steps: ends of processes, other
pipelines, signals, the loop. -/
theorem C99_wait_partial (b : Bool) (as cs : List Act) (p w : Nat) (hp : p < (run (init b) as).pipes.length)
    (hw : WaitsFor (run (init b) as) w p) (ho : ∀ r, ¬ Ended (run (init b) as) w r)
    (hf : ∀ (v : Nat) (V : Waiter), (run (init b) as).waiters[v]? = some V → V.pipe = p → V.st ≠ .fresh)
    (hcs : ∀ c ∈ cs, StaysStopped p c = true) :
    AllStopped (run (init b) (as ++ .suspend p :: cs)) p ∧
    ∀ r, Ended (run (init b) (as ++ .suspend p :: cs)) w r → r = .suspended ∨ r = .cancelled := by
  obtain ⟨W, hW, hWp⟩ := hw
  have hlen : w < (run (init b) as).waiters.length := lt_of_get hW
  have h0 : Sus (suspend (run (init b) as) p) w p := by
    refine ⟨?_, suspend_allStopped _ p, hf, ?_⟩
    · simp only [suspendedOf, suspend, get_modPipe, if_true]
      rw [List.getElem?_eq_getElem hp]
      rfl
    · intro W' hW'
      have hW' : (run (init b) as).waiters[w]? = some W' := hW'
      rw [hW] at hW'; cases hW'
      exact ⟨hWp, fun r hr => absurd ⟨W, hW, hr⟩ (ho r)⟩
  have key : ∀ (cs : List Act) (s : St), Inv s none → Sus s w p → w < s.waiters.length → (∀ c ∈ cs, StaysStopped p c = true) → Sus (run s cs) w p := by
    intro cs
    induction cs with
    | nil => intro s _ h _ _; exact h
    | cons c cs ih =>
      intro s hi h hl hc
      refine ih (step s c) (inv_step hi c) (sus_step hi h hl c (hc c (by simp))) ?_ (fun d hd => hc d (by simp [hd]))
      obtain ⟨V, hV⟩ : ∃ V, s.waiters[w]? = some V := ⟨_, List.getElem?_eq_getElem hl⟩
      obtain ⟨V', hV', _⟩ := (ext_step hi c).waiter w V hV
      exact lt_of_get hV'
  rw [run_append]
  have hi : Inv (suspend (run (init b) as) p) none := inv_step (inv_run b as) (.suspend p)
  have := key cs _ hi h0 hlen hcs
  refine ⟨this.stop, ?_⟩
  rintro r ⟨W', hW', hr⟩
  exact (this.me W' hW').2 r hr

/-- One of two processes ends after `suspend()`: `wait()` raises `PipelineSuspended`. -/
example : WaitsFor (run (init false) [.start [proc, proc], .wait 0, .resume 0]) 0 0 ∧
    Ended (run (init false) ([.start [proc, proc], .wait 0, .resume 0] ++ .suspend 0 :: [.finish 0 0 (.exited 0), .task 0 0, .resume 0])) 0 .suspended :=
  ⟨⟨_, rfl, rfl⟩, _, rfl, rfl⟩

/-- **C99 is false** of `wait()`: when the event loop is at rest with a call of `wait()` under way, `suspend()` leaves it
at rest and the call goes on waiting; nobody wakes it. (CTRL-Z does, C51.) -/
theorem C99_refuted (b : Bool) (as : List Act) (p w : Nat) (hq : Quiet (run (init b) as)) (hw : Waiting (run (init b) as) w p) :
    Quiet (run (init b) (as ++ [.suspend p])) ∧ Waiting (run (init b) (as ++ [.suspend p])) w p ∧
    AllStopped (run (init b) (as ++ [.suspend p])) p := by
  refine ⟨?_, ?_, (C99_stops b as p).1⟩
  · rw [run_append]
    intro a ha
    apply hq a
    cases a with
    | task q i =>
      obtain ⟨it, h1, h2⟩ := ha
      have h1 : (itemsOf (suspend (run (init b) as) p).pipes q)[i]? = some it := h1
      simp only [itemsOf, suspend, get_modPipe] at h1
      split at h1
      · rename_i e
        cases e2 : (run (init b) as).pipes[q]? with
        | none => simp [e2] at h1
        | some P =>
          simp only [e2, Option.map_some, Option.getD_some, List.getElem?_map] at h1
          cases e3 : P.items[i]? with
          | none => simp [e3] at h1
          | some jt =>
            simp only [e3, Option.map_some, Option.some.injEq] at h1
            refine ⟨jt, by simp [itemAt, itemsOf, e2, e3], ?_⟩
            rw [← h2, ← h1]
            simp only [Item.stop]
            split <;> rfl
      · exact ⟨it, h1, h2⟩
    | resume v => exact ha
    | _ => exact ha
  · rw [run_append]
    exact hw

example : Quiet (run (init false) [.start [proc, proc], .wait 0, .resume 0]) ∧ Waiting (run (init false) [.start [proc, proc], .wait 0, .resume 0]) 0 0 :=
  ⟨quiet_of_idle (by decide), ⟨_, rfl, rfl, rfl⟩⟩

end Pieshell.Job
