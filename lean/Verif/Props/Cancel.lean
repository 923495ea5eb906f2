import Verif.Props.Job
import Verif.Lemmas.Job14
/-!
C88: a call of `wait()` that is cancelled or timed out, or abandoned after CTRL-C; and calls of `wait()` one after the other (C47).
-/
namespace Pieshell.Job

/-! ### Specification -/

/-- At no time of the history do two calls of `wait()` wait for pipeline `p`. -/
def OneAtATime (b : Bool) (as : List Act) (p : Nat) : Prop := ∀ l, l <+: as → ∀ v w,
  Waiting (run (init b) l) v p → Waiting (run (init b) l) w p → v = w

/-- All jobs are the same in both states: processes and what became of them, whether they are stopped, captured output,
files, the lists of the environment. -/
structure SameJobs (s s' : St) : Prop where
  items : ∀ p, itemsOf s'.pipes p = itemsOf s.pipes p
  suspended : ∀ p, suspendedOf s' p = suspendedOf s p
  finished : ∀ p, finishedOf s' p = finishedOf s p
  count : s'.pipes.length = s.pipes.length
  running : s'.running = s.running
  last : s'.last = s.last
  fs : s'.fs = s.fs

/-- All calls but `w` are the same in both states. -/
def SameCalls (s s' : St) (w : Nat) : Prop := s'.waiters.length = s.waiters.length ∧ ∀ v, v ≠ w → s'.waiters[v]? = s.waiters[v]?

/-! ### C47: one call after the other -/

/-- C47: calls of `wait()` for one pipeline, one after the other, do not disturb each other. -/
theorem C47_sequential (b : Bool) (as : List Act) (p : Nat) (h : OneAtATime b as p) (w : Nat) (hw : WaitsFor (run (init b) as) w p) :
    ¬ Overtaken (run (init b) as) w := by
  have key : ∀ (l : List Act), l.reverse <+: as → ∀ w, WaitsFor (run (init b) l.reverse) w p → ¬ Overtaken (run (init b) l.reverse) w := by
    intro l
    induction l with
    | nil =>
      rintro - w ⟨W, hW, -⟩ -
      simp [run, init] at hW
    | cons a l ih =>
      intro hpre w hw ho
      obtain ⟨W', h1, h2⟩ := hw
      obtain ⟨W2, h3, h4⟩ := ho
      rw [h1] at h3; cases h3
      have hpre2 : l.reverse <+: as := by
        rw [List.reverse_cons] at hpre
        exact List.IsPrefix.trans (List.prefix_append _ _) hpre
      have hone := h _ hpre
      rw [List.reverse_cons, run_append] at h1 hone
      rcases over2_step (inv_run b l.reverse) a w W' h1 h4 with ⟨W, h5, h6, h7⟩ | ⟨v, h5, h6, h7⟩
      · exact ih hpre2 w ⟨W, h5, h7.trans h2⟩ ⟨W, h5, h6⟩
      · rw [h2] at h6 h7
        exact h5 (hone v w h6 h7)
  have := key as.reverse (by rw [List.reverse_reverse]; exact List.prefix_refl _)
  rw [List.reverse_reverse] at this
  exact this w hw

/-- C47: if the calls of `wait()` for a pipeline are made one after the other, every one has ended once no item is running and
the loop is at rest.  Missing: a failing function that ends last, output that is not text. -/
theorem C47_sequential_completes_partial (b : Bool) (as : List Act) (p : Nat) (h : OneAtATime b as p) (w : Nat)
    (hw : WaitsFor (run (init b) as) w p) (hq : Quiet (run (init b) as)) (ha : ¬ Alive (run (init b) as).pipes p)
    (hs : Smooth (run (init b) as) p) : ∃ r, Ended (run (init b) as) w r :=
  C47_completes_partial b as w p hw hq ha hs (C47_sequential b as p h w hw)

def oneWaiting (s : St) (p : Nat) : Bool := ((s.waiters.filter (fun W => decide (W.pipe = p ∧ W.st = .awaiting))).length ≤ 1)

theorem waiting_unique {s : St} {p v w : Nat} (h : oneWaiting s p = true) (h1 : Waiting s v p) (h2 : Waiting s w p) : v = w := by
  obtain ⟨V, a, a2, a3⟩ := h1
  obtain ⟨W, c, c2, c3⟩ := h2
  simp only [oneWaiting, decide_eq_true_eq] at h
  generalize s.waiters = l at a c h
  induction l generalizing v w with
  | nil => cases a
  | cons X l ih =>
    cases v with
    | zero =>
      cases w with
      | zero => rfl
      | succ w =>
        simp only [List.getElem?_cons_zero, Option.some.injEq] at a
        simp only [List.getElem?_cons_succ] at c
        subst a
        simp [a2, a3] at h
        exact absurd c3 (h W (List.mem_of_getElem? c) c2)
    | succ v =>
      simp only [List.getElem?_cons_succ] at a
      cases w with
      | zero =>
        simp only [List.getElem?_cons_zero, Option.some.injEq] at c
        subst c
        simp [c2, c3] at h
        exact absurd a3 (h V (List.mem_of_getElem? a) a2)
      | succ w =>
        simp only [List.getElem?_cons_succ] at c
        have := ih a c (by
          refine Nat.le_trans ?_ h
          rw [List.filter_cons]; split <;> simp)
        rw [this]

/-- Two calls, one after the other: the first is timed out, the second gets the result. -/
def exTwice : List Act := [.start [proc, proc], .wait 0, .resume 0, .finish 0 1 (.exited 0), .task 0 1, .resume 0, .cancel 0, .resume 0,
  .wait 0, .resume 1, .finish 0 0 (.exited 3), .task 0 0, .resume 1]

example : OneAtATime true exTwice 0 ∧ Ended (run (init true) exTwice) 0 .cancelled ∧ Ended (run (init true) exTwice) 1 (.failed [0]) ∧
    Quiet (run (init true) exTwice) ∧ ¬ Alive (run (init true) exTwice).pipes 0 := by
  refine ⟨?_, ⟨_, rfl, rfl⟩, ⟨_, rfl, rfl⟩, quiet_of_idle (by decide), dead_of (by decide)⟩
  intro l hl v w
  have : ∀ n < exTwice.length + 1, oneWaiting (run (init true) (exTwice.take n)) 0 = true := by decide
  rw [List.prefix_iff_eq_take.1 hl]
  exact waiting_unique (this _ (Nat.lt_succ_of_le hl.length_le))

/-! ### C88 -/

/-- C88: cancelling a call of `wait()` (e.g. by `asyncio.wait_for`) changes no job, no other call, and not which pipeline CTRL-Z
acts upon. -/
theorem C88_cancel (b : Bool) (as : List Act) (w : Nat) :
    SameJobs (run (init b) as) (run (init b) (as ++ [.cancel w])) ∧ SameCalls (run (init b) as) (run (init b) (as ++ [.cancel w])) w ∧
    (run (init b) (as ++ [.cancel w])).current = (run (init b) as).current := by
  rw [run_append]
  generalize run (init b) as = s
  show SameJobs s (cancel s w) ∧ SameCalls s (cancel s w) w ∧ (cancel s w).current = s.current
  rcases cancel_cases s w with h | ⟨W, c, -, -, -, -, h⟩
  · rw [h]
    exact ⟨⟨fun _ => rfl, fun _ => rfl, fun _ => rfl, rfl, rfl, rfl, rfl⟩, ⟨rfl, fun _ _ => rfl⟩, rfl⟩
  · rw [h]
    have get := get_drop s w W.pipe c
    refine ⟨⟨?_, ?_, ?_, ?_, rfl, rfl, rfl⟩, ⟨by simp [drop, St.modPipe, St.modWaiter], ?_⟩, rfl⟩
    · intro p
      simp only [itemsOf, get]
      split
      · cases s.pipes[p]? <;> rfl
      · rfl
    · intro p
      simp only [suspendedOf, get]
      split
      · cases s.pipes[p]? <;> rfl
      · rfl
    · intro p
      simp only [finishedOf, get]
      split
      · cases s.pipes[p]? <;> rfl
      · rfl
    · simp [drop, St.modPipe, St.modWaiter]
    · intro v hv
      show (s.modWaiter w _).waiters[v]? = _
      rw [get_modWaiter, if_neg (fun e => hv e.symm)]

/-- C88: the next step of the cancelled call changes no job and no other call either.  What it may change is the pipeline CTRL-Z
acts upon, see `C88_foreground_refuted`. -/
theorem C88_step (b : Bool) (as : List Act) (w : Nat) (W : Waiter) (c : Bool) (hw : (run (init b) as).waiters[w]? = some W)
    (hc : W.st = .cancelled c) :
    SameJobs (run (init b) as) (run (init b) (as ++ [.resume w])) ∧ SameCalls (run (init b) as) (run (init b) (as ++ [.resume w])) w ∧
    Ended (run (init b) (as ++ [.resume w])) w .cancelled := by
  rw [run_append]
  generalize run (init b) as = s at *
  show SameJobs s (resume s w) ∧ SameCalls s (resume s w) w ∧ Ended (resume s w) w .cancelled
  rw [resume_cancelled hw hc]
  refine ⟨⟨fun _ => rfl, fun _ => rfl, fun _ => rfl, rfl, rfl, rfl, rfl⟩, ⟨by simp [endCancel, St.modWaiter], ?_⟩, ?_⟩
  · intro v hv
    show (s.modWaiter w _).waiters[v]? = _
    rw [get_modWaiter, if_neg (fun e => hv e.symm)]
  · refine ⟨{ W with st := .over .cancelled }, ?_, rfl⟩
    show (s.modWaiter w _).waiters[w]? = _
    rw [get_modWaiter, if_pos rfl, hw]; rfl

/-- C88: whatever happens after a call of `wait()` that is under way has been cancelled: it has ended with `CancelledError` once
the loop is at rest. -/
theorem C88_ends (b : Bool) (as bs : List Act) (w p : Nat) (hw : WaitsFor (run (init b) as) w p) (hn : ∀ r, ¬ Ended (run (init b) as) w r)
    (hq : Quiet (run (init b) (as ++ .cancel w :: bs))) : Ended (run (init b) (as ++ .cancel w :: bs)) w .cancelled := by
  obtain ⟨W, h1, -⟩ := hw
  have h2 : Cz (step (run (init b) as) (.cancel w)) w :=
    (cz_cancel h1).2 (fun r e => absurd ⟨W, h1, e⟩ (hn r))
  have h3 : ∀ (l : List Act) (s : St), Inv s none → Cz s w → Cz (run s l) w := by
    intro l
    induction l with
    | nil => exact fun s _ h => h
    | cons a l ih =>
      intro s hi h
      refine ih (step s a) (inv_step hi a) ?_
      by_cases e : a = .cancel w
      · subst e
        obtain ⟨V, hV, hz⟩ := h
        refine (cz_cancel hV).2 (fun r e => ?_)
        rw [cz, e] at hz
        cases r <;> first | rfl | cases hz
      · exact (cz_step_iff hi a w e).2 h
  have h4 : run (init b) (as ++ .cancel w :: bs) = run (step (run (init b) as) (.cancel w)) bs := by
    rw [run_append]; rfl
  rw [h4] at hq ⊢
  obtain ⟨V, hV, hz⟩ := h3 bs _ (inv_step (inv_run b as) _) h2
  cases e : V.st with
  | cancelled c => exact absurd ⟨V, hV, .inr (.inr ⟨c, e⟩)⟩ (hq (.resume w))
  | over r =>
    rw [cz, e] at hz
    cases r <;> first | exact ⟨V, hV, e⟩ | cases hz
  | _ => rw [cz, e] at hz; cases hz

/-- C88: only calls that were cancelled end with `CancelledError`. -/
theorem C88_only_if_cancelled (b : Bool) (as : List Act) (w : Nat) (he : Ended (run (init b) as) w .cancelled) : .cancel w ∈ as := by
  have key : ∀ (l : List Act), Cz (run (init b) l.reverse) w → .cancel w ∈ l := by
    intro l
    induction l with
    | nil => rintro ⟨W, hW, -⟩; simp [run, init] at hW
    | cons a l ih =>
      intro h
      rw [List.reverse_cons, run_append] at h
      by_cases e : a = .cancel w
      · subst e; simp
      · exact List.mem_cons_of_mem _ (ih ((cz_step_iff (inv_run b l.reverse) a w e).1 h))
  obtain ⟨W, hW, hs⟩ := he
  have := key as.reverse (by rw [List.reverse_reverse]; exact ⟨W, hW, by simp [cz, hs]⟩)
  simpa using this

/-- C88: the calls made after that get the result of the job: once no item is running and the loop is at rest, a call that was neither
cancelled nor overtaken has returned if all items succeeded, and has raised `PipelineFailed` with the failed items otherwise,
or the pipeline was suspended.  Missing: as for C47. -/
theorem C88_later_wait_partial (b : Bool) (as : List Act) (w p : Nat) (hw : WaitsFor (run (init b) as) w p) (hc : .cancel w ∉ as)
    (ho : ¬ Overtaken (run (init b) as) w) (hq : Quiet (run (init b) as)) (ha : ¬ Alive (run (init b) as).pipes p)
    (hs : Smooth (run (init b) as) p) :
    (Ended (run (init b) as) w .ok ∧ ¬ Broken (run (init b) as).pipes p) ∨
    (∃ l, Ended (run (init b) as) w (.failed l) ∧
      ∀ i, i ∈ l ↔ ∃ it, itemAt (run (init b) as) p i = some it ∧ ItemBroken (run (init b) as).pipes it) ∨
    Ended (run (init b) as) w .suspended := by
  obtain ⟨r, hr⟩ := C47_completes_partial b as w p hw hq ha hs ho
  have h48 := C48_exact b as w p r hw hr
  cases r with
  | ok => exact .inl ⟨hr, h48.1 rfl⟩
  | failed l => exact .inr (.inl ⟨l, hr, (h48.2 l rfl).2.2⟩)
  | suspended => exact .inr (.inr hr)
  | cancelled => exact absurd (C88_only_if_cancelled b as w hr) hc

/-- CTRL-C leaves the event loop while call 0 is waiting, and nobody gets its result; call 1 then gets that of the job. -/
example : Ended (run (init true) [.start [proc], .wait 0, .resume 0, .wait 0, .resume 1, .finish 0 0 (.exited 2), .task 0 0, .resume 1]) 1 (.failed [0]) ∧
    ¬ Overtaken (run (init true) [.start [proc], .wait 0, .resume 0, .wait 0, .resume 1, .finish 0 0 (.exited 2), .task 0 0, .resume 1]) 1 := by
  refine ⟨⟨_, rfl, rfl⟩, ?_⟩
  rintro ⟨W, h1, h2⟩
  cases h1; cases h2

example : (∀ r, ¬ Ended (run (init true) (exTwice.take 6)) 0 r) ∧ exTwice = exTwice.take 6 ++ .cancel 0 :: exTwice.drop 7 ∧
    (run (init true) (exTwice.take 7)).waiters[0]? = some ⟨0, none, .cancelled true, false⟩ :=
  ⟨not_ended (W := ⟨0, none, .awaiting, false⟩) rfl rfl, rfl, rfl⟩

/-- C88: the job goes on, its output is captured and it leaves the list, though nobody waits any more (C49, C52 hold for all
histories, also with cancelled calls). -/
example : (itemsOf (run (init true) [.start [⟨.proc, [(1, "/tmp/a".toList)], []⟩], .wait 0, .resume 0, .cancel 0, .resume 0,
      .write 0 0 "/tmp/a".toList [104], .finish 0 0 (.exited 0), .task 0 0]).pipes 0).map Item.output = [[(1, "h".toList)]] ∧
    (run (init true) [.start [⟨.proc, [(1, "/tmp/a".toList)], []⟩], .wait 0, .resume 0, .cancel 0, .resume 0,
      .write 0 0 "/tmp/a".toList [104], .finish 0 0 (.exited 0), .task 0 0]).running = [] := by decide +kernel

/-- C88 is false: after a call of `wait()` for one pipeline has been timed out, CTRL-Z no longer suspends the other pipeline that is
waited for. -/
theorem C88_foreground_refuted : ∃ as, Waiting (run (init true) as) 1 1 ∧ Quiet (run (init true) as) ∧
    Alive (run (init true) as).pipes 1 ∧ Ended (run (init true) as) 0 .cancelled ∧
    run (init true) (as ++ [.tstp]) = run (init true) as ∧
    (∃ bs cs, as = bs ++ .cancel 0 :: cs ∧ (run (init true) bs).current = some 1) :=
  ⟨[.start [proc], .start [proc], .wait 0, .resume 0, .wait 1, .resume 1, .cancel 0, .resume 0],
    ⟨_, rfl, rfl, rfl⟩, quiet_of_idle (by decide), (running_iff (inv_run true _).ranked 1).1 (by decide),
    ⟨_, rfl, rfl⟩, by decide, ⟨[.start [proc], .start [proc], .wait 0, .resume 0, .wait 1, .resume 1], [.resume 0], rfl, by decide⟩⟩

end Pieshell.Job
