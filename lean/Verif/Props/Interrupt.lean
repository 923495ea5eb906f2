import Verif.Model.Interrupt
import Verif.Props.Job
/-! # C139: CTRL-C while the shell waits for a pipeline -/
namespace Pieshell.Interrupt
open Pieshell.Job (Res Waiter Quiet Ready Waiting WaitsFor Ended Alive)

/-- The shell has been told that the pipeline it waited for was interrupted: the last call ended with `PipelineInterrupted` of `p`. -/
def Told (s : Sh) (p : Nat) : Prop := s.outcomes.getLast? = some (.pipelineInterrupted p)

/-- The steps of the jobs in a history. -/
def jobActs : Sh → List Act → List Job.Act
  | _, [] => []
  | s, .job a :: l => (if a.outside || s.fore.isSome then [a] else []) ++ jobActs (step s (.job a)) l
  | s, .call p :: l => (if s.fore = none ∧ p < s.job.pipes.length then [.wait p] else []) ++ jobActs (step s (.call p)) l
  | s, a :: l => jobActs (step s a) l

/-- Every CTRL-C of the history came while python was in the event loop's own code. -/
def InLoop (as : List Act) : Prop := ∀ x, .interrupt x ∈ as → x = .loop

theorem stOf_ready {s : Job.St} {w : Nat} {st : Job.WState} (h : stOf s w = some st) (hs : st = .fresh ∨ st = .woken) : Ready s (.resume w) := by
  unfold stOf at h
  cases hw : s.waiters[w]? with
  | none => rw [hw] at h; cases h
  | some W =>
    rw [hw] at h
    simp only [Option.map_some, Option.some.injEq] at h
    refine ⟨W, hw, ?_⟩
    rcases hs with rfl | rfl
    · exact .inl h
    · exact .inr (.inl h)

theorem quiet_only_loop {s : Job.St} (hq : Quiet s) {x : Where} (hx : possible s x = true) : x = .loop := by
  cases x with
  | loop => rfl
  | enter w =>
    simp only [possible, decide_eq_true_eq] at hx
    exact absurd (stOf_ready hx (.inl rfl)) (hq _)
  | trying w b =>
    simp only [possible, Bool.or_eq_true, decide_eq_true_eq] at hx
    rcases hx with hx | hx
    · exact absurd (stOf_ready hx (.inl rfl)) (hq _)
    · exact absurd (stOf_ready hx (.inr rfl)) (hq _)
  | leave w =>
    simp only [possible, Bool.or_eq_true, Bool.and_eq_true, decide_eq_true_eq] at hx
    rcases hx with ⟨hx, -⟩ | ⟨hx, -⟩
    · exact absurd (stOf_ready hx (.inl rfl)) (hq _)
    · exact absurd (stOf_ready hx (.inr rfl)) (hq _)
  | task p i =>
    simp only [possible, decide_eq_true_eq] at hx
    cases h : Job.itemAt s p i with
    | none => rw [h] at hx; cases hx
    | some it =>
      rw [h] at hx
      simp only [Option.map_some, Option.some.injEq] at hx
      exact (hq (.task p i) ⟨it, h, hx⟩).elim

/-- **C139** is false in the usual case: whenever CTRL-C comes while the shell waits for a pipeline and all tasks are waiting (the loop sleeps in `epoll`), the
call ends with a plain `KeyboardInterrupt`, which does not tell the pipeline; the call of `wait()` has not ended, and CTRL-Z still acts upon its pipeline. -/
theorem C139_refuted (b : Bool) (as : List Act) (w : Nat) (hf : (run (init b) as).fore = some w) (hq : Quiet (run (init b) as).job)
    (x : Where) (hx : possible (run (init b) as).job x = true) :
    ∃ t, run (init b) (as ++ [.interrupt x]) = t ∧ t.outcomes.getLast? = some .keyboardInterrupt ∧ (∀ p, ¬ Told t p) ∧ t.fore = none ∧
      t.job = (run (init b) as).job := by
  refine ⟨_, rfl, ?_⟩
  have e : run (init b) (as ++ [.interrupt x]) = step (run (init b) as) (.interrupt x) := by simp [run]
  obtain rfl := quiet_only_loop hq hx
  rw [e]
  have : step (run (init b) as) (.interrupt .loop) = ⟨(run (init b) as).job, none, (run (init b) as).outcomes ++ [.keyboardInterrupt]⟩ := by
    simp only [step, hf, hx, Option.isSome_some, Bool.and_self, if_true]
    rfl
  rw [this]
  refine ⟨by simp, ?_, rfl, rfl⟩
  intro p h
  simp [Told] at h

/-- `PipelineInterrupted` is raised only if CTRL-C comes while the code of `wait()` itself is executed: the exception is about the pipeline of that call,
which has ended then; and CTRL-Z acts upon no pipeline. -/
theorem C139_told_partial (b : Bool) (as : List Act) (x : Where) (hf : (run (init b) as).fore.isSome = true) (hx : possible (run (init b) as).job x = true) (p : Nat) :
    (Told (run (init b) (as ++ [.interrupt x])) p ↔ ∃ w r, x = .trying w r ∧ WaitsFor (run (init b) as).job w p) ∧
    (Told (run (init b) (as ++ [.interrupt x])) p → ∀ w r, x = .trying w r → Ended (run (init b) (as ++ [.interrupt x])).job w .cancelled ∧
      (run (init b) (as ++ [.interrupt x])).job.current = none) := by
  have e : run (init b) (as ++ [.interrupt x]) =
      ⟨after (run (init b) as).job x, none, (run (init b) as).outcomes ++ [raised (run (init b) as).job x]⟩ := by
    have : run (init b) (as ++ [.interrupt x]) = step (run (init b) as) (.interrupt x) := by simp [run]
    rw [this]
    simp only [step, hf, hx, Bool.and_self, if_true]
  rw [e]
  simp only [Told, List.getLast?_append, List.getLast?_singleton, Option.some_or, Option.some.injEq]
  have key : ∀ w, (∃ st, stOf (run (init b) as).job w = some st) → (pipeOf (run (init b) as).job w = p ↔ WaitsFor (run (init b) as).job w p) := by
    rintro w ⟨st, hst⟩
    unfold stOf at hst
    unfold pipeOf WaitsFor
    cases hw : (run (init b) as).job.waiters[w]? with
    | none => rw [hw] at hst; cases hst
    | some W => simp
  constructor
  · cases x with
    | trying w r =>
      have hst : ∃ st, stOf (run (init b) as).job w = some st := by
        simp only [possible, Bool.or_eq_true, decide_eq_true_eq] at hx
        rcases hx with h | h
        · exact ⟨_, h⟩
        · exact ⟨_, h⟩
      simp only [raised, Outcome.pipelineInterrupted.injEq]
      rw [key w hst]
      constructor
      · intro h; exact ⟨w, r, rfl, h⟩
      · rintro ⟨w', r', h, h2⟩
        simp only [Where.trying.injEq] at h
        rw [h.1]; exact h2
    | _ => simp [raised]
  · rintro h w r rfl
    have hst : ∃ W : Waiter, (run (init b) as).job.waiters[w]? = some W := by
      simp only [possible, Bool.or_eq_true, decide_eq_true_eq] at hx
      unfold stOf at hx
      cases hw : (run (init b) as).job.waiters[w]? with
      | none => rw [hw] at hx; simp at hx
      | some W => exact ⟨W, rfl⟩
    obtain ⟨W, hW⟩ := hst
    refine ⟨⟨{ W with st := .over .cancelled }, ?_, rfl⟩, rfl⟩
    simp only [after, broken, Job.St.modWaiter]
    rw [List.getElem?_modify]
    simp only [if_true]
    split
    · simp only [Job.restart, Job.St.modPipe]; rw [hW]; rfl
    · rw [hW]; rfl

/-- If every CTRL-C comes in the loop's own code, the jobs do not notice it at all: their state is one that they could have without it (so that all that is proved of
jobs holds: C47-C53, C88, C93, C99). -/
theorem jobs_run (as : List Act) (s : Sh) (hl : InLoop as) : (run s as).job = Job.run s.job (jobActs s as) := by
  induction as generalizing s with
  | nil => rfl
  | cons a as ih =>
    have hl' : InLoop as := fun x hx => hl x (by simp [hx])
    have e : run s (a :: as) = run (step s a) as := rfl
    rw [e, ih _ hl']
    have app : ∀ (l r : List Job.Act) (j : Job.St), Job.run j (l ++ r) = Job.run (Job.run j l) r := fun l r j => by simp [Job.run]
    cases a with
    | job a =>
      simp only [jobActs, app]
      congr 1
      simp only [step]
      split <;> rfl
    | call p =>
      simp only [jobActs, app]
      congr 1
      simp only [step]
      split <;> rfl
    | ret =>
      simp only [jobActs]
      congr 1
      simp only [step]
      split
      · rfl
      · split <;> rfl
    | interrupt x =>
      obtain rfl : x = .loop := hl x (by simp)
      simp only [jobActs]
      congr 1
      simp only [step]
      split <;> rfl

/-- No CTRL-C of the history hit the code that handles the end of an item. -/
def NoTask (as : List Act) : Prop := ∀ p i, .interrupt (.task p i) ∉ as

theorem inv_broken {s : Job.St} (hi : Job.Inv s none) {w : Nat} {W : Waiter} (hw : s.waiters[w]? = some W) (hs : W.st = .fresh ∨ W.st = .woken) :
    Job.Inv (broken s w) none := by
  have := Job.inv_over hi hw (by rcases hs with h | h <;> rw [h] <;> rfl) (by rcases hs with h | h <;> rw [h] <;> simp) .cancelled
    (fun h => by cases h) (fun l h => by cases h)
  exact Job.inv_congr this rfl rfl rfl

theorem stOf_some {s : Job.St} {w : Nat} {st : Job.WState} (h : stOf s w = some st) : ∃ W : Waiter, s.waiters[w]? = some W ∧ W.st = st := by
  unfold stOf at h
  cases hw : s.waiters[w]? with
  | none => rw [hw] at h; cases h
  | some W => rw [hw] at h; exact ⟨W, rfl, by simpa using h⟩

theorem inv_after {s : Job.St} (hi : Job.Inv s none) {x : Where} (hx : possible s x = true) (hn : ∀ p i, x ≠ .task p i) : Job.Inv (after s x) none := by
  have br : ∀ (w : Nat) (W : Waiter) (c : Prop) [Decidable c], s.waiters[w]? = some W → W.st = .fresh ∨ W.st = .woken →
      Job.Inv (broken (if c then Job.restart s (pipeOf s w) else s) w) none := by
    intro w W c _ hw hs
    split
    · exact inv_broken (Job.inv_restart hi _) hw hs
    · exact inv_broken hi hw hs
  cases x with
  | loop => exact hi
  | task p i => exact absurd rfl (hn p i)
  | enter w =>
    simp only [possible, decide_eq_true_eq] at hx
    obtain ⟨W, hw, hs⟩ := stOf_some hx
    exact inv_broken hi hw (.inl hs)
  | trying w b =>
    simp only [possible, Bool.or_eq_true, decide_eq_true_eq] at hx
    rcases hx with hx | hx
    · obtain ⟨W, hw, hs⟩ := stOf_some hx; exact br w W _ hw (.inl hs)
    · obtain ⟨W, hw, hs⟩ := stOf_some hx; exact br w W _ hw (.inr hs)
  | leave w =>
    simp only [possible, Bool.or_eq_true, Bool.and_eq_true, decide_eq_true_eq] at hx
    rcases hx with ⟨hx, -⟩ | ⟨hx, -⟩
    · obtain ⟨W, hw, hs⟩ := stOf_some hx; exact br w W _ hw (.inl hs)
    · obtain ⟨W, hw, hs⟩ := stOf_some hx; exact br w W _ hw (.inr hs)

theorem inv_shell (b : Bool) (as : List Act) (hn : NoTask as) : Job.Inv (run (init b) as).job none := by
  have gen : ∀ (as : List Act) (s : Sh), NoTask as → Job.Inv s.job none → Job.Inv (run s as).job none := by
    intro as
    induction as with
    | nil => exact fun s _ h => h
    | cons a as ih =>
      intro s hn hi
      refine ih (step s a) (fun p i h => hn p i (by simp [h])) ?_
      cases a with
      | job a =>
        simp only [step]
        split
        · exact Job.inv_step hi a
        · exact hi
      | call p =>
        simp only [step]
        split
        · exact Job.inv_step hi (.wait p)
        · exact hi
      | ret =>
        simp only [step]
        split
        · exact hi
        · split <;> exact hi
      | interrupt x =>
        simp only [step]
        split
        · rename_i h
          simp only [Bool.and_eq_true] at h
          exact inv_after hi h.2 (fun p i e => hn p i (by simp [e]))
        · exact hi
  exact gen as _ hn (Job.inv_init b)

/-- The result of a call of `wait()` after any number of interrupted ones: when the call returns, or says that the pipeline has failed, nothing of that pipeline runs, and
it returns exactly if no item has failed. -/
theorem C139_later_wait_partial (b : Bool) (as : List Act) (hn : NoTask as) (w p : Nat) (hw : WaitsFor (run (init b) as).job w p) (r : Res)
    (he : Ended (run (init b) as).job w r) (hr : r ≠ .suspended) (hc : r ≠ .cancelled) : ¬ Alive (run (init b) as).job.pipes p ∧
      (r = .ok ↔ ¬ Job.Broken (run (init b) as).job.pipes p) := by
  have hi := inv_shell b as hn
  obtain ⟨W, h1, rfl⟩ := hw
  obtain ⟨V, h2, h3⟩ := he
  rw [h1] at h2; cases h2
  have ho := hi.over w W r h1 h3
  have hna : ¬ Alive (run (init b) as).job.pipes W.pipe := by
    have : Job.running (run (init b) as).job.pipes W.pipe = false := by
      cases r with
      | ok => exact (ho.1 rfl).1
      | failed l => exact (ho.2 l rfl).1
      | suspended => exact absurd rfl hr
      | cancelled => exact absurd rfl hc
    intro h
    rw [(Job.running_iff hi.ranked _).2 h] at this
    cases this
  refine ⟨hna, ?_, ?_⟩
  · rintro rfl hb
    cases hb with
    | mk hit hbr =>
      obtain ⟨i, hii⟩ := List.getElem?_of_mem hit
      have : i ∈ Job.failedItems (run (init b) as).job.pipes W.pipe :=
        (Job.mem_failedItems hi.ranked W.pipe i).2 ⟨_, hii, Job.not_alive_items hna _ hit, hbr⟩
      rw [(ho.1 rfl).2] at this
      cases this
  · intro hb
    cases r with
    | ok => rfl
    | failed l =>
      obtain ⟨-, h4, h5⟩ := ho.2 l rfl
      cases l with
      | nil => exact absurd rfl h5
      | cons i l =>
        obtain ⟨it, a, -, c⟩ := (Job.mem_failedItems hi.ranked W.pipe i).1 (by rw [h4]; simp)
        exact absurd (.mk (List.mem_of_getElem? a) c) hb
    | suspended => exact absurd rfl hr
    | cancelled => exact absurd rfl hc

/-- A pipeline that was interrupted (in the loop) can be waited for again: that call ends when the pipeline has ended. -/
theorem C139_again_partial (b : Bool) (as : List Act) (hl : InLoop as) (w p : Nat) (hw : WaitsFor (run (init b) as).job w p)
    (hq : Quiet (run (init b) as).job) (ha : ¬ Alive (run (init b) as).job.pipes p) (hs : Job.Smooth (run (init b) as).job p)
    (ho : ¬ Job.Overtaken (run (init b) as).job w) : ∃ r, Ended (run (init b) as).job w r := by
  rw [jobs_run as _ hl] at hw hq ha hs ho ⊢
  exact Job.C47_completes_partial b _ w p hw hq ha hs ho

/-- The last pipeline for which `run_until_complete` was called. -/
def lastCall (s : Sh) (q : Option Nat) : List Act → Option Nat
  | [] => q
  | .call p :: l => lastCall (step s (.call p)) (if s.fore = none ∧ p < s.job.pipes.length then some p else q) l
  | a :: l => lastCall (step s a) q l

/-- The calls of `wait()` are about the same pipelines forever. -/
def Same (s t : Job.St) : Prop := ∃ l, t.waiters.map Waiter.pipe = s.waiters.map Waiter.pipe ++ l

theorem Same.refl (s : Job.St) : Same s s := ⟨[], by simp⟩
theorem Same.of_eq {s t : Job.St} (h : t.waiters = s.waiters) : Same s t := ⟨[], by simp [h]⟩
theorem Same.trans {s t u : Job.St} (h : Same s t) (h2 : Same t u) : Same s u := by
  obtain ⟨l, hl⟩ := h; obtain ⟨m, hm⟩ := h2
  exact ⟨l ++ m, by rw [hm, hl, List.append_assoc]⟩
theorem same_mod (s : Job.St) {t : Job.St} {w : Nat} {f : Waiter → Waiter} (h : t.waiters = s.waiters.modify w f) (hf : ∀ W, (f W).pipe = W.pipe) : Same s t := by
  refine ⟨[], ?_⟩
  rw [h, List.append_nil]
  apply List.ext_getElem?
  intro i
  simp only [List.getElem?_map, List.getElem?_modify]
  split
  · cases s.waiters[i]? with
    | none => rfl
    | some W => simp [hf]
  · cases s.waiters[i]? <;> rfl
theorem Same.waitsFor {s t : Job.St} (h : Same s t) {w p : Nat} (hw : WaitsFor s w p) : WaitsFor t w p := by
  obtain ⟨l, hl⟩ := h
  obtain ⟨W, hW, rfl⟩ := hw
  have h1 : (s.waiters.map Waiter.pipe)[w]? = some W.pipe := by rw [List.getElem?_map, hW]; rfl
  have h2 : (t.waiters.map Waiter.pipe)[w]? = some W.pipe := by
    rw [hl, List.getElem?_append_left, h1]
    rw [List.getElem?_eq_some_iff] at h1; exact h1.1
  rw [List.getElem?_map] at h2
  cases ht : t.waiters[w]? with
  | none => rw [ht] at h2; cases h2
  | some V => rw [ht] at h2; exact ⟨V, ht, by simpa using h2⟩

theorem same_resolve (s : Job.St) (p : Nat) : Same s (Job.resolve s p) := by
  unfold Job.resolve
  split
  · exact .refl s
  · exact same_mod s rfl (fun _ => rfl)

theorem same_handleFinish (s : Job.St) (p : Nat) : Same s (Job.handleFinish s p) := by
  unfold Job.handleFinish
  have hc : Same s (Job.collect s p) := by
    unfold Job.collect
    simp only
    split <;> exact .of_eq rfl
  simp only
  split
  · split
    · exact hc
    · exact hc.trans (same_resolve _ _)
  · exact same_resolve _ _

theorem same_finishWait (s : Job.St) (w p : Nat) (c : Option Nat) : Same s (Job.finishWait s w p c) := by
  unfold Job.finishWait
  simp only
  have h : Same s { (if Job.suspendedOf s p = true then Job.suspend s p else s).modWaiter w (fun W => { W with st := .over (Job.result s p) }) with current := none } := by
    have h1 : Same s (if Job.suspendedOf s p = true then Job.suspend s p else s) := by
      split
      · exact .of_eq rfl
      · exact .refl s
    exact h1.trans (same_mod _ rfl (fun _ => rfl))
  split
  · exact h.trans (same_handleFinish _ _)
  · exact h

theorem same_loopCheck (s : Job.St) (w p : Nat) (c : Option Nat) : Same s (Job.loopCheck s w p c) := by
  unfold Job.loopCheck
  split
  · unfold Job.register
    simp only
    refine Same.trans ?_ (same_mod _ rfl (fun _ => rfl))
    split
    · split
      · exact .refl s
      · exact same_mod _ rfl (fun _ => rfl)
    · exact .refl s
  · exact same_finishWait s w p c

theorem same_start (s : Job.St) (xs : List Job.Spec) : Same s (Job.start s xs) := by
  unfold Job.start
  simp only
  split
  · refine Same.trans (t := Job.handleFinish _ s.pipes.length) ?_ (.of_eq rfl)
    refine Same.trans ?_ (same_handleFinish _ _)
    exact ⟨_, List.map_append⟩
  · exact .refl s

theorem same_step (s : Job.St) (a : Job.Act) : Same s (Job.step s a) := by
  cases a with
  | start xs => exact same_start s xs
  | wait p =>
    simp only [Job.step]
    split
    · exact ⟨[p], by simp⟩
    · exact .refl s
  | resume w =>
    simp only [Job.step, Job.resume]
    split
    · exact .refl s
    · split
      · refine Same.trans ?_ (same_loopCheck _ _ _ _)
        split <;> exact .of_eq rfl
      · exact same_loopCheck _ _ _ _
      · split
        · exact same_mod s rfl (fun _ => rfl)
        · exact same_mod s rfl (fun _ => rfl)
      · exact .refl s
  | cancel w =>
    simp only [Job.step, Job.cancel]
    have hd : ∀ p b, Same s (Job.drop s w p b) := fun p b => same_mod s rfl (fun _ => rfl)
    split
    · exact .refl s
    · split
      · exact hd _ _
      · exact hd _ _
      · exact hd _ _
      · exact .refl s
  | finish p i o =>
    simp only [Job.step]
    split
    · exact .refl s
    · split
      · exact .of_eq rfl
      · exact .refl s
  | task p i =>
    simp only [Job.step]
    split
    · exact .refl s
    · split
      · split
        · exact .of_eq rfl
        · exact Same.trans (.of_eq rfl) (same_handleFinish _ _)
      · exact .refl s
  | tstp =>
    simp only [Job.step]
    split
    · exact .refl s
    · exact Same.trans (.of_eq rfl) (same_resolve _ _)
  | write p i path data =>
    simp only [Job.step]
    split
    · exact .refl s
    · split
      · split
        · exact .of_eq rfl
        · exact .refl s
      · exact .refl s
  | restart p => exact .of_eq rfl
  | suspend p => exact .of_eq rfl
  | bg =>
    simp only [Job.step]
    split
    · exact .refl s
    · exact Same.trans (.of_eq rfl) (same_start _ _)
  | fg =>
    simp only [Job.step]
    split
    · exact .refl s
    · exact same_start _ _
  | removeFiles p => exact .of_eq rfl

theorem same_after (s : Job.St) (x : Where) : Same s (after s x) := by
  have br : ∀ (w : Nat) (c : Prop) [Decidable c], Same s (broken (if c then Job.restart s (pipeOf s w) else s) w) := by
    intro w c _
    refine Same.trans ?_ (same_mod _ rfl (fun _ => rfl))
    split
    · exact .of_eq rfl
    · exact .refl s
  cases x with
  | loop => exact .refl s
  | enter w => exact same_mod s rfl (fun _ => rfl)
  | trying w b => exact br w _
  | leave w => exact br w _
  | task p i => exact .of_eq rfl

theorem fore_inv (as : List Act) (s : Sh) (q : Option Nat) (hs : ∀ w, s.fore = some w → ∃ p, q = some p ∧ WaitsFor s.job w p) :
    ∀ w, (run s as).fore = some w → ∃ p, lastCall s q as = some p ∧ WaitsFor (run s as).job w p := by
  induction as generalizing s q with
  | nil => exact hs
  | cons a as ih =>
    cases a with
    | job a =>
      refine ih (step s (.job a)) q ?_
      intro w h
      simp only [step] at h ⊢
      split at h
      · rename_i hc
        rw [if_pos hc]
        obtain ⟨p, h1, h2⟩ := hs w h
        exact ⟨p, h1, (same_step s.job a).waitsFor h2⟩
      · rename_i hc
        rw [if_neg hc]
        exact hs w h
    | call p =>
      refine ih (step s (.call p)) _ ?_
      intro w h
      by_cases hc : s.fore = none ∧ p < s.job.pipes.length
      · simp only [step, if_pos hc, Option.some.injEq] at h ⊢
        subst h
        refine ⟨p, rfl, ⟨⟨p, none, .fresh, false⟩, ?_, rfl⟩⟩
        simp [Job.step, hc.2]
      · simp only [step, if_neg hc] at h ⊢
        exact hs w h
    | ret =>
      refine ih (step s .ret) q ?_
      intro w h
      simp only [step] at h ⊢
      cases hf : s.fore with
      | none => rw [hf] at h; simp only [hf] at h; cases h
      | some v =>
        simp only [hf] at h ⊢
        split at h
        · cases h
        · rename_i hc
          rw [hf] at h
          cases h
          exact hs w hf
    | interrupt x =>
      refine ih (step s (.interrupt x)) q ?_
      intro w h
      simp only [step] at h ⊢
      split at h
      · cases h
      · rename_i hc
        rw [if_neg hc]
        exact hs w h

/-- Whenever `run_until_complete` returns, it returns the result of a call of `wait()` of the pipeline it was called for. -/
theorem C139_returned_partial (b : Bool) (as : List Act) (w : Nat) (hf : (run (init b) as).fore = some w)
    (hr : (run (init b) (as ++ [.ret])).fore = none) :
    ∃ p r, lastCall (init b) none as = some p ∧ WaitsFor (run (init b) as).job w p ∧ Ended (run (init b) as).job w r ∧
      (run (init b) (as ++ [.ret])).outcomes = (run (init b) as).outcomes ++ [.returned r] := by
  obtain ⟨p, h1, h2⟩ := fore_inv as (init b) none (fun w h => by cases h) w hf
  have e : run (init b) (as ++ [.ret]) = step (run (init b) as) .ret := by simp [run]
  rw [e] at hr ⊢
  simp only [step, hf] at hr ⊢
  split at hr
  · rename_i r hst
    obtain ⟨W, hW, hs⟩ := stOf_some hst
    exact ⟨p, r, h1, h2, ⟨W, hW, hs⟩, rfl⟩
  · rw [hf] at hr; cases hr

/-! ### Examples -/

def aProgram : List Job.Spec := [⟨.proc, [], []⟩]

/-- `+sleep(100)` in the interactive shell, waiting. -/
def waiting : List Act := [.job (.start aProgram), .call 0, .job (.resume 0)]

theorem quiet_of {s : Job.St} (h1 : ∀ w : Nat, w < s.waiters.length → ∀ W : Waiter, s.waiters[w]? = some W → W.st = .awaiting ∨ ∃ r, W.st = .over r)
    (h2 : ∀ p i it, Job.itemAt s p i = some it → it.task ≠ .queued) : Quiet s := by
  intro a ha
  cases a with
  | task p i => obtain ⟨it, hi, ht⟩ := ha; exact h2 p i it hi ht
  | resume w =>
    obtain ⟨W, hW, hs⟩ := ha
    have hlt : w < s.waiters.length := by
      rw [List.getElem?_eq_some_iff] at hW; exact hW.1
    rcases h1 w hlt W hW with h | ⟨r, h⟩ <;> rcases hs with h' | h' | ⟨c, h'⟩ <;> rw [h] at h' <;> cases h'
  | _ => exact ha

/-- The hypotheses of `C139_refuted` hold there. -/
example : (run (init true) waiting).fore = some 0 ∧ Quiet (run (init true) waiting).job ∧ Waiting (run (init true) waiting).job 0 0 ∧
    possible (run (init true) waiting).job .loop = true ∧ (run (init true) waiting).job.current = some 0 := by
  refine ⟨rfl, quiet_of ?_ ?_, ⟨⟨0, none, .awaiting, false⟩, rfl, rfl, rfl⟩, rfl, rfl⟩
  · intro w hw W h
    have : w = 0 := by
      have : (run (init true) waiting).job.waiters.length = 1 := rfl
      omega
    subst this
    have : W = ⟨0, none, .awaiting, false⟩ := (Option.some.inj h).symm
    left; rw [this]
  · intro p i it h
    cases p with
    | zero =>
      cases i with
      | zero =>
        have : it = ⟨.proc, .running, .waiting, false, [], [], []⟩ := (Option.some.inj h).symm
        rw [this]; decide
      | succ i => cases h
    | succ p => cases h

/-- Those of `C139_told_partial`: CTRL-C just when the call has been woken. -/
def woken : List Act := waiting ++ [.job (.finish 0 0 (.exited 0)), .job (.task 0 0)]

example : (run (init true) woken).fore.isSome = true ∧ possible (run (init true) woken).job (.trying 0 false) = true ∧
    WaitsFor (run (init true) woken).job 0 0 ∧ Told (run (init true) (woken ++ [.interrupt (.trying 0 false)])) 0 :=
  ⟨rfl, rfl, ⟨⟨0, none, .woken, false⟩, rfl, rfl⟩, rfl⟩

/-- Those of `C139_later_wait_partial`, `C139_again_partial` and `C139_returned_partial`: the pipeline is interrupted twice, then waited for again, and returns. -/
def again : List Act := waiting ++ [.interrupt .loop, .call 0, .interrupt (.enter 1), .call 0, .job (.resume 2), .job (.finish 0 0 (.exited 3)), .job (.task 0 0), .job (.resume 2)]

example : NoTask again ∧ WaitsFor (run (init true) again).job 2 0 ∧ Ended (run (init true) again).job 2 (.failed [0]) ∧ (run (init true) again).fore = some 2 ∧
    (run (init true) (again ++ [.ret])).fore = none ∧
    (run (init true) (again ++ [.ret])).outcomes = [.keyboardInterrupt, .keyboardInterrupt, .returned (.failed [0])] ∧
    lastCall (init true) none again = some 0 :=
  ⟨by intro p i h; simp [again, waiting] at h, ⟨⟨0, none, .over (.failed [0]), false⟩, rfl, rfl⟩, ⟨⟨0, none, .over (.failed [0]), false⟩, rfl, rfl⟩, rfl, rfl, rfl, rfl⟩

/-- All hypotheses of `C139_again_partial`. -/
def second : List Act := waiting ++ [.interrupt .loop, .call 0, .job (.resume 1), .job (.finish 0 0 (.exited 3)), .job (.task 0 0), .job (.resume 1)]

example : InLoop second ∧ WaitsFor (run (init true) second).job 1 0 ∧ Quiet (run (init true) second).job ∧ ¬ Alive (run (init true) second).job.pipes 0 ∧
    Job.Smooth (run (init true) second).job 0 ∧ ¬ Job.Overtaken (run (init true) second).job 1 := by
  refine ⟨?_, ⟨⟨0, none, .over (.failed [0]), false⟩, rfl, rfl⟩, Job.quiet_of_idle (by decide +kernel), ?_, ?_, ?_⟩
  · intro x hx
    simpa [second, waiting] using hx
  · intro h
    have := (Job.running_iff (inv_shell true second (by intro p i h; simp [second, waiting] at h)).ranked 0).2 h
    revert this
    decide +kernel
  · intro q hb
    cases hb with
    | fg hit hk _ =>
      exfalso
      have : ∀ it ∈ Job.itemsOf (run (init true) second).job.pipes 0, it.kind = .proc := by decide +kernel
      rw [this _ hit] at hk; cases hk
    | refl =>
      refine ⟨?_, ?_, ?_⟩
      · intro it hit path hp
        have : ∀ it ∈ Job.itemsOf (run (init true) second).job.pipes 0, it.strings = [] := by decide +kernel
        rw [this _ hit] at hp; cases hp
      · rintro (⟨P, i, it, h1, h2, h3, h4⟩ | ⟨w, W, r, h1, h2, -, -⟩)
        · cases h1; cases h2; cases h3; cases h4
        · match w, h1 with
          | 0, h1 => cases h1; cases h2
          | 1, h1 => cases h1; cases h2
          | n + 2, h1 => cases h1
      · rintro v ⟨V, h1, h2⟩
        match v, h1 with
        | 0, h1 => cases h1; cases h2
        | 1, h1 => cases h1; cases h2
        | n + 2, h1 => cases h1
  · rintro ⟨W, h1, h2⟩
    cases h1; cases h2

/-- Before and after the inner `try`, it is a plain `KeyboardInterrupt` as well. -/
example : (run (init true) (woken ++ [.interrupt (.leave 0)])).outcomes = [.keyboardInterrupt] ∧
    (run (init true) [.job (.start aProgram), .call 0, .interrupt (.enter 0)]).outcomes = [.keyboardInterrupt] ∧
    (run (init true) (woken ++ [.job (.resume 0), .ret])).outcomes = [.returned .ok] := ⟨rfl, rfl, rfl⟩

/-- C139 is false: CTRL-C in the foreground can raise `PipelineInterrupted` of another pipeline, while the one in the foreground goes on.  (Pipeline 0 is waited for by another task;
it ends just when CTRL-C is pressed.) -/
theorem C139_other_refuted : ∃ as x, (run (init true) as).fore = some 1 ∧ WaitsFor (run (init true) as).job 1 1 ∧
    possible (run (init true) as).job x = true ∧ Told (run (init true) (as ++ [.interrupt x])) 0 :=
  ⟨[.job (.start aProgram), .job (.start aProgram), .job (.wait 0), .call 1, .job (.resume 0), .job (.resume 1), .job (.finish 0 0 (.exited 0)), .job (.task 0 0)],
    .trying 0 false, rfl, ⟨⟨1, none, .awaiting, false⟩, rfl, rfl⟩, rfl, rfl⟩

/-- After CTRL-C the next job cannot be suspended: the first program handles `SIGINT` and exits a moment later, while another pipeline is in the foreground; the call of `wait()` that was
left behind ends, and CTRL-Z then acts upon nothing, although the shell waits for pipeline 1. -/
theorem C139_ctrlz_refuted : ∃ as, InLoop as ∧ Job.itemAt (run (init true) as).job 0 0 = some ⟨.proc, .exited 130, .over, false, [], [], []⟩ ∧
    (run (init true) as).fore = some 1 ∧ Waiting (run (init true) as).job 1 1 ∧ (run (init true) as).job.current = none ∧
    (run (init true) (as ++ [.job .tstp])).job = (run (init true) as).job := by
  refine ⟨waiting ++ [.interrupt .loop, .job (.start aProgram), .call 1, .job (.resume 1), .job (.finish 0 0 (.exited 130)), .job (.task 0 0), .job (.resume 0)],
    ?_, rfl, rfl, ⟨⟨1, none, .awaiting, false⟩, rfl, rfl, rfl⟩, rfl, rfl⟩
  intro x hx
  simp only [waiting, List.mem_append, List.mem_cons, List.not_mem_nil, or_false, reduceCtorEq, false_or, Act.interrupt.injEq, or_self] at hx
  exact hx

/-- Without the CTRL-C, the same CTRL-Z suspends pipeline 1. -/
example : (run (init true) [.job (.start aProgram), .call 0, .job (.resume 0), .job (.finish 0 0 (.exited 130)), .job (.task 0 0), .job (.resume 0), .ret,
    .job (.start aProgram), .call 1, .job (.resume 1), .job .tstp, .job (.resume 1), .ret]).outcomes = [.returned (.failed [0]), .returned .suspended] := rfl

/-- Only the task that was hit ends. -/
example : (run (init true) [.job (.start (aProgram ++ aProgram)), .call 0, .job (.resume 0), .job (.finish 0 0 (.exited 0)), .job (.finish 0 1 (.exited 0)), .interrupt (.task 0 1)]).job.pipes.map
    (fun P => P.items.map Job.Item.task) = [[.queued, .over]] := rfl

/-- CTRL-C while the end of the last item is handled: the pipeline has ended, and it is listed in `running_pipelines` although the loop has nothing more to do. -/
theorem C139_listed_refuted : ∃ as x, possible (run (init true) as).job x = true ∧
    ¬ Job.running (run (init true) (as ++ [.interrupt x])).job.pipes 0 ∧ (run (init true) (as ++ [.interrupt x])).job.running = [0] ∧
    Quiet (run (init true) (as ++ [.interrupt x])).job ∧ (run (init true) (as ++ [.interrupt x])).outcomes = [.keyboardInterrupt] := by
  refine ⟨waiting ++ [.job (.finish 0 0 (.exited 0))], .task 0 0, rfl, by decide, rfl, quiet_of ?_ ?_, rfl⟩
  · intro w hw W h
    have : w = 0 := by
      have : (run (init true) (waiting ++ [.job (.finish 0 0 (.exited 0))] ++ [.interrupt (.task 0 0)])).job.waiters.length = 1 := rfl
      omega
    subst this
    have : W = ⟨0, none, .awaiting, false⟩ := (Option.some.inj h).symm
    left; rw [this]
  · intro p i it h
    cases p with
    | zero =>
      cases i with
      | zero =>
        have : it = ⟨.proc, .exited 0, .over, false, [], [], []⟩ := (Option.some.inj h).symm
        rw [this]; decide
      | succ i => cases h
    | succ p => cases h

end Pieshell.Interrupt
