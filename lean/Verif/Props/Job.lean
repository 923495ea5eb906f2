import Verif.Lemmas.Job13
/-!
C47-C54: running pipelines.  `as` is any history of one environment: pipelines started, calls of `wait()`, ends of processes
and functions, steps of the event loop in any order, CTRL-Z, writes to files, builtins.
-/
namespace Pieshell.Job
open Pieshell.Io (Bytes decode)

/-! ### Helpers for the examples -/

def proc : Spec := ⟨.proc, [], []⟩
def func : Spec := ⟨.func, [], []⟩

def idle (s : St) : Bool := s.pipes.all (fun P => P.items.all (fun it => decide (it.task ≠ .queued))) &&
  s.waiters.all (fun W => match W.st with | .awaiting => true | .over _ => true | _ => false)

theorem quiet_of_idle {s : St} (h : idle s = true) : Quiet s := by
  simp only [idle, Bool.and_eq_true, List.all_eq_true, decide_eq_true_eq] at h
  intro a ha
  cases a with
  | task p i =>
    obtain ⟨it, hit, hq⟩ := ha
    simp only [itemAt, itemsOf] at hit
    cases e : s.pipes[p]? with
    | none => simp [e] at hit
    | some P =>
      simp only [e, Option.map_some, Option.getD_some] at hit
      exact h.1 P (List.mem_of_getElem? e) it (List.mem_of_getElem? hit) hq
  | resume w =>
    obtain ⟨W, hw, ho⟩ := ha
    have := h.2 W (List.mem_of_getElem? hw)
    rcases ho with ho | ho | ⟨began, ho⟩ <;> rw [ho] at this <;> cases this
  | _ => exact ha

theorem dead_of {b : Bool} {as : List Act} {p : Nat} (h : running (run (init b) as).pipes p = false) :
    ¬ Alive (run (init b) as).pipes p := by
  intro ha
  rw [(running_iff (inv_run b as).ranked p).2 ha] at h
  cases h

theorem not_running {b : Bool} {as : List Act} {p : Nat} (h : ¬ Alive (run (init b) as).pipes p) :
    running (run (init b) as).pipes p = false := by
  cases e : running (run (init b) as).pipes p with
  | false => rfl
  | true => exact absurd ((running_iff (inv_run b as).ranked p).1 e) h

theorem not_ended {s : St} {w : Nat} {W : Waiter} (h : s.waiters[w]? = some W) (ho : W.st.isOver = false) (r : Res) :
    ¬ Ended s w r := by
  rintro ⟨V, hV, hr⟩
  rw [h] at hV; cases hV
  rw [hr] at ho; cases ho

/-! ### C47 -/

/-- C47: `wait()` returns, or raises `PipelineFailed`, only if no item of the pipeline is running; the other ways in which it ends are
`PipelineSuspended` and `CancelledError`. -/
theorem C47_only_when_done (b : Bool) (as : List Act) (w p : Nat) (r : Res) (hw : WaitsFor (run (init b) as) w p)
    (he : Ended (run (init b) as) w r) (hr : r ≠ .suspended) (hc : r ≠ .cancelled) : ¬ Alive (run (init b) as).pipes p := by
  obtain ⟨W, h1, rfl⟩ := hw
  obtain ⟨V, h2, h3⟩ := he
  rw [h1] at h2; cases h2
  have := (inv_run b as).over w W r h1 h3
  apply dead_of
  cases r with
  | ok => exact (this.1 rfl).1
  | failed l => exact (this.2 l rfl).1
  | suspended => exact absurd rfl hr
  | cancelled => exact absurd rfl hc

example : WaitsFor (run (init true) [.start [proc, func], .wait 0, .resume 0, .finish 0 0 (.exited 0), .task 0 0,
      .resume 0, .finish 0 1 .returned, .task 0 1, .resume 0]) 0 0 ∧
    Ended (run (init true) [.start [proc, func], .wait 0, .resume 0, .finish 0 0 (.exited 0), .task 0 0,
      .resume 0, .finish 0 1 .returned, .task 0 1, .resume 0]) 0 .ok :=
  ⟨⟨_, rfl, rfl⟩, ⟨_, rfl, rfl⟩⟩

/-- C47: from any reachable state, whatever the order of the steps, the event loop comes to rest after a bounded number of
steps. -/
theorem C47_loop_ends (b : Bool) (as : List Act) :
    (∃ n, ∀ bs, LoopRun (run (init b) as) bs → bs.length ≤ n) ∧
    (∃ bs, LoopRun (run (init b) as) bs ∧ Quiet (run (run (init b) as) bs)) :=
  ⟨⟨_, fun _ h => loopRun_bound (inv_run b as) h⟩, reaches_quiet (inv_run b as)⟩

example : LoopRun (run (init true) [.start [proc], .wait 0, .resume 0, .finish 0 0 (.exited 3)]) [.task 0 0, .resume 0] :=
  ⟨⟨_, rfl, rfl⟩, ⟨_, rfl, .inr (.inl rfl)⟩, trivial⟩

/-- C47: once no item is running and the loop is at rest, a call of `wait()` has ended, unless another call for the same pipeline began
to wait while it was waiting.  Missing: such calls, a failing function that ends last, output that is not text; they are refuted below. -/
theorem C47_completes_partial (b : Bool) (as : List Act) (w p : Nat) (hw : WaitsFor (run (init b) as) w p)
    (hq : Quiet (run (init b) as)) (ha : ¬ Alive (run (init b) as).pipes p) (hs : Smooth (run (init b) as) p)
    (ho : ¬ Overtaken (run (init b) as) w) : ∃ r, Ended (run (init b) as) w r := by
  have hg := good_run b as
  obtain ⟨W, h1, rfl⟩ := hw
  obtain ⟨hd, hst, hov⟩ := hs _ .refl
  have hf := settled hg hq W.pipe (hg.inv.wp w W h1).1 ha hst hov (fun it hit t hk q hb => hs q (.fg hit hk hb))
  cases e : W.st with
  | fresh => exact absurd ⟨W, h1, .inl e⟩ (hq (.resume w))
  | woken => exact absurd ⟨W, h1, .inr (.inl e)⟩ (hq (.resume w))
  | cancelled began => exact absurd ⟨W, h1, .inr (.inr ⟨began, e⟩)⟩ (hq (.resume w))
  | awaiting => exact absurd e (finished_not_awaiting hg hf hd ho h1 rfl)
  | over r => exact ⟨r, W, h1, e⟩

/-- Two processes end in the opposite order; the call ends with the failure of the first. -/
example : Quiet (run (init true) [.start [proc, proc], .wait 0, .resume 0, .finish 0 1 (.exited 0), .task 0 1, .resume 0,
      .finish 0 0 (.exited 2), .task 0 0, .resume 0]) ∧
    ¬ Alive (run (init true) [.start [proc, proc], .wait 0, .resume 0, .finish 0 1 (.exited 0), .task 0 1, .resume 0,
      .finish 0 0 (.exited 2), .task 0 0, .resume 0]).pipes 0 ∧
    Smooth (run (init true) [.start [proc, proc], .wait 0, .resume 0, .finish 0 1 (.exited 0), .task 0 1, .resume 0,
      .finish 0 0 (.exited 2), .task 0 0, .resume 0]) 0 := by
  refine ⟨quiet_of_idle (by decide), dead_of (by decide), ?_⟩
  intro q hb
  cases hb with
  | fg hit hk _ =>
    exfalso
    have : ∀ it ∈ itemsOf (run (init true) [.start [proc, proc], .wait 0, .resume 0, .finish 0 1 (.exited 0), .task 0 1, .resume 0,
      .finish 0 0 (.exited 2), .task 0 0, .resume 0]).pipes 0, it.kind = .proc := by decide
    rw [this _ hit] at hk; cases hk
  | refl =>
    refine ⟨?_, ?_, ?_⟩
    · intro it hit path hp
      have : ∀ it ∈ itemsOf (run (init true) [.start [proc, proc], .wait 0, .resume 0, .finish 0 1 (.exited 0), .task 0 1, .resume 0,
        .finish 0 0 (.exited 2), .task 0 0, .resume 0]).pipes 0, it.strings = [] := by decide
      rw [this _ hit] at hp; cases hp
    · rintro (⟨P, i, it, h1, h2, h3, h4⟩ | ⟨w, W, r, h1, h2, -, -⟩)
      · cases h1; cases h2; cases h3; cases h4
      · match w, h1 with
        | 0, h1 => cases h1; cases h2
        | n + 1, h1 => cases h1
    · rintro v ⟨V, h1, h2⟩
      match v, h1 with
      | 0, h1 => cases h1; cases h2
      | n + 1, h1 => cases h1

/-- C47 is false: if the function of a pipeline fails and ends last, `wait()` never ends. -/
theorem C47_function_refuted : ∃ as, WaitsFor (run (init false) as) 0 0 ∧ ¬ Alive (run (init false) as).pipes 0 ∧
    Quiet (run (init false) as) ∧ ∀ r, ¬ Ended (run (init false) as) 0 r :=
  ⟨[.start [proc, func], .wait 0, .resume 0, .finish 0 0 (.exited 0), .task 0 0, .resume 0, .finish 0 1 .raised, .task 0 1],
    ⟨_, rfl, rfl⟩, dead_of (by decide), quiet_of_idle (by decide), not_ended (W := ⟨0, none, .awaiting, false⟩) rfl rfl⟩

/-- C47 is false: of two concurrent calls of `wait()` of one pipeline, the first never ends. -/
theorem C47_two_waits_refuted : ∃ as, WaitsFor (run (init false) as) 0 0 ∧ ¬ Alive (run (init false) as).pipes 0 ∧
    Quiet (run (init false) as) ∧ ∀ r, ¬ Ended (run (init false) as) 0 r :=
  ⟨[.start [proc], .wait 0, .resume 0, .wait 0, .resume 1, .finish 0 0 (.exited 0), .task 0 0, .resume 1],
    ⟨_, rfl, rfl⟩, dead_of (by decide), quiet_of_idle (by decide), not_ended (W := ⟨0, none, .awaiting, true⟩) rfl rfl⟩

/-- C47 is false: if the output redirected to `STRING` is not UTF-8, `wait()` never ends. -/
theorem C47_undecodable_refuted : ∃ as, WaitsFor (run (init false) as) 0 0 ∧ ¬ Alive (run (init false) as).pipes 0 ∧
    Quiet (run (init false) as) ∧ ∀ r, ¬ Ended (run (init false) as) 0 r :=
  ⟨[.start [⟨.proc, [(1, "/tmp/a".toList)], []⟩], .wait 0, .resume 0, .write 0 0 "/tmp/a".toList [0xff],
      .finish 0 0 (.exited 0), .task 0 0],
    ⟨_, rfl, rfl⟩, dead_of (by decide +kernel), quiet_of_idle (by decide +kernel),
    not_ended (W := ⟨0, none, .awaiting, false⟩) (by decide +kernel) rfl⟩

/-- C47 is false for `fg`: if the job brought to the foreground fails, the `wait()` of `fg` never ends. -/
theorem C47_fg_refuted : ∃ as, WaitsFor (run (init true) as) 1 1 ∧ ¬ Alive (run (init true) as).pipes 1 ∧
    Quiet (run (init true) as) ∧ ∀ r, ¬ Ended (run (init true) as) 1 r :=
  ⟨[.start [proc], .fg, .wait 1, .resume 1, .resume 0, .finish 0 0 (.exited 1), .task 0 0, .resume 0],
    ⟨_, rfl, rfl⟩, dead_of (by decide), quiet_of_idle (by decide), not_ended (W := ⟨1, none, .awaiting, false⟩) rfl rfl⟩

/-! ### C48 -/

/-- C48: `wait()` that returns or raises `PipelineFailed` raises exactly if some process exited with a status other than zero
or some function raised an exception, and lists exactly those items, in the order of the pipeline. -/
theorem C48_exact (b : Bool) (as : List Act) (w p : Nat) (r : Res) (hw : WaitsFor (run (init b) as) w p)
    (he : Ended (run (init b) as) w r) :
    (r = .ok → ¬ Broken (run (init b) as).pipes p) ∧
    (∀ l : List Nat, r = .failed l → Broken (run (init b) as).pipes p ∧ l.Pairwise (· < ·) ∧
      ∀ i, i ∈ l ↔ ∃ it, itemAt (run (init b) as) p i = some it ∧ ItemBroken (run (init b) as).pipes it) := by
  have hi := inv_run b as
  have hna : r ≠ .suspended → r ≠ .cancelled → ¬ Alive (run (init b) as).pipes p := C47_only_when_done b as w p r hw he
  obtain ⟨W, h1, rfl⟩ := hw
  obtain ⟨V, h2, h3⟩ := he
  rw [h1] at h2; cases h2
  have := hi.over w W r h1 h3
  constructor
  · rintro rfl hb
    have hna := hna (by simp) (by simp)
    cases hb with
    | mk hit hbr =>
      obtain ⟨i, hii⟩ := List.getElem?_of_mem hit
      have : i ∈ failedItems (run (init b) as).pipes W.pipe :=
        (mem_failedItems hi.ranked W.pipe i).2 ⟨_, hii, not_alive_items hna _ hit, hbr⟩
      rw [((hi.over w W .ok h1 h3).1 rfl).2] at this
      cases this
  · rintro l rfl
    have hna := hna (by simp) (by simp)
    obtain ⟨-, h4, h5⟩ := this.2 l rfl
    have key : ∀ i, i ∈ l ↔ ∃ it, itemAt (run (init b) as) W.pipe i = some it ∧ ItemBroken (run (init b) as).pipes it := by
      intro i
      rw [← h4, mem_failedItems hi.ranked]
      constructor
      · rintro ⟨it, a, -, c⟩; exact ⟨it, a, c⟩
      · rintro ⟨it, a, c⟩; exact ⟨it, a, not_alive_items hna _ (List.mem_of_getElem? a), c⟩
    refine ⟨?_, ?_, key⟩
    · cases l with
      | nil => exact absurd rfl h5
      | cons i l =>
        obtain ⟨it, a, c⟩ := (key i).1 (by simp)
        exact .mk (List.mem_of_getElem? a) c
    · rw [← h4]; exact failedItems_sorted _ _

example : Ended (run (init true) [.start [proc, func, proc], .finish 0 2 (.exited 3), .finish 0 1 .raised, .task 0 1,
    .finish 0 0 (.exited 0), .task 0 2, .wait 0, .resume 0]) 0 (.failed [1, 2]) := ⟨_, rfl, rfl⟩

/-- C48: `failed_processes` lists, at any time, exactly the items that have ended and failed, in order. -/
theorem C48_failed_processes (b : Bool) (as : List Act) (p : Nat) :
    (failedItems (run (init b) as).pipes p).Pairwise (· < ·) ∧
    ∀ i, i ∈ failedItems (run (init b) as).pipes p ↔ ∃ it, itemAt (run (init b) as) p i = some it ∧
      ¬ ItemAlive (run (init b) as).pipes it ∧ ItemBroken (run (init b) as).pipes it :=
  ⟨failedItems_sorted _ _, fun i => mem_failedItems (inv_run b as).ranked p i⟩

example : failedItems (run (init true) [.start [proc, proc], .finish 0 1 (.exited 3)]).pipes 0 = [1] := by decide

/-! ### C49 -/

/-- The text of a file, with universal newlines. -/
def fileText (s : St) (path : Path) : Str := newlines ((decode (bytesOf s path)).getD [])

theorem textOf_eq (s : St) (path : Path) {o : Nat} {b : Bytes} (h : s.written.get? path = some (o, b)) :
    textOf s.written path = fileText s path := by
  simp only [textOf, fileText, bytesOf, h, Option.bind_some, Option.map_some, Option.getD_some]
  cases decode b <;> rfl

/-- C49: once a pipeline has ended and the loop is at rest, `output_content` of every item holds, for each `STRING`
redirection, all that was written to its file, and the file is gone.  Missing: files that are not text, a failing function
that ends last. -/
theorem C49_captured_partial (b : Bool) (as : List Act) (p : Nat) (hp : p < (run (init b) as).pipes.length)
    (hq : Quiet (run (init b) as)) (ha : ¬ Alive (run (init b) as).pipes p) (hs : Smooth (run (init b) as) p) :
    ∀ it ∈ itemsOf (run (init b) as).pipes p,
      it.output = it.strings.map (fun kv => (kv.1, fileText (run (init b) as) kv.2)) ∧
      ∀ kv ∈ it.strings, (run (init b) as).fs.get? kv.2 = none := by
  have hg := good_run b as
  intro it hit
  obtain ⟨hd, hst, hov⟩ := hs _ .refl
  obtain ⟨h1, h2⟩ := hg.files.done p it hit
    (settled hg hq p hp ha hst hov (fun it hit t hk q hb => hs q (.fg hit hk hb))) (decodable_not_crashed hg hd)
  refine ⟨?_, fun kv hkv => (h2 kv.2 (List.mem_map_of_mem hkv)).1⟩
  rw [h1]
  refine List.map_congr_left (fun kv hkv => ?_)
  obtain ⟨-, c, d, h3, -⟩ := h2 kv.2 (List.mem_map_of_mem hkv)
  rw [textOf_eq _ _ h3]

/-- Two items share a file; the captured text is that of both. -/
example : (itemsOf (run (init true) [.start [⟨.proc, [(1, "/tmp/a".toList)], []⟩, ⟨.proc, [(2, "/tmp/a".toList)], []⟩],
      .write 0 1 "/tmp/a".toList [104], .write 0 0 "/tmp/a".toList [105], .finish 0 0 (.exited 0), .task 0 0,
      .finish 0 1 (.exited 0), .task 0 1]).pipes 0).map Item.output = [[(1, "hi".toList)], [(2, "hi".toList)]] := by
  decide +kernel

/-- C49: while an item of the pipeline is running, nothing is captured, and all files are there with all that was written. -/
theorem C49_not_before (b : Bool) (as : List Act) (p : Nat) (ha : Alive (run (init b) as).pipes p) :
    ∀ it ∈ itemsOf (run (init b) as).pipes p, it.output = [] ∧
      ∀ kv ∈ it.strings, (run (init b) as).fs.get? kv.2 = some (bytesOf (run (init b) as) kv.2) := by
  have hg := good_run b as
  have hfin : finishedOf (run (init b) as) p = false := by
    cases e : (run (init b) as).pipes[p]? with
    | none => simp [finishedOf, e]
    | some P =>
      rw [finishedOf_get e]
      cases ef : P.finished with
      | false => rfl
      | true =>
        have := hg.inv.fin p P e ef
        rw [(running_iff hg.inv.ranked p).2 ha] at this; cases this
  intro it hit
  refine ⟨hg.files.out0 p it hit hfin, fun kv hkv => ?_⟩
  have h1 := hg.files.pres p it kv.2 hit (.inl hfin) (List.mem_map_of_mem hkv)
  cases e : (run (init b) as).fs.get? kv.2 with
  | none => exact absurd e h1
  | some c =>
    obtain ⟨o, ho⟩ := hg.files.cont kv.2 c e
    simp [bytesOf, ho]

example : Alive (run (init true) [.start [⟨.proc, [(1, "/tmp/a".toList)], []⟩, proc], .write 0 0 "/tmp/a".toList [104],
    .finish 0 0 (.exited 0), .task 0 0]).pipes 0 := by
  refine (running_iff (inv_run true _).ranked 0).1 ?_
  decide +kernel

/-- C49: what has been captured never changes. -/
theorem C49_once (b : Bool) (as bs : List Act) (p i : Nat) (it : Item) (hit : itemAt (run (init b) as) p i = some it)
    (ho : it.output ≠ []) : ∃ it', itemAt (run (init b) (as ++ bs)) p i = some it' ∧ it'.output = it.output := by
  have hg := good_run b as
  rw [run_append]
  simp only [itemAt] at hit ⊢
  cases e : (run (init b) as).pipes[p]? with
  | none => simp [itemsOf, e] at hit
  | some P =>
    rw [itemsOf_of_get e] at hit
    obtain ⟨P', hP', -, -, hout⟩ := (ext_run hg.inv bs).pipe p P e
    have hfin : P.finished = true := by
      cases ef : P.finished with
      | true => rfl
      | false =>
        exact absurd (hg.files.out0 p it (by rw [itemsOf_of_get e]; exact List.mem_of_getElem? hit) (by rw [finishedOf_get e]; exact ef)) ho
    obtain ⟨-, -, h3⟩ := hout hfin
    rw [itemsOf_of_get hP']
    have h4 := congrArg (fun l => l[i]?) h3
    simp only [List.getElem?_map, hit, Option.map_some] at h4
    cases e5 : P'.items[i]? with
    | none => rw [e5] at h4; cases h4
    | some it' =>
      rw [e5] at h4
      exact ⟨it', rfl, by simpa using h4⟩

example : ((itemAt (run (init true) [.start [⟨.proc, [(1, "/tmp/a".toList)], []⟩],
      .write 0 0 "/tmp/a".toList [104], .finish 0 0 (.exited 0), .task 0 0]) 0 0).map Item.output) = some [(1, "h".toList)] := by
  decide +kernel

/-- C49: files of `TMP` redirections are kept, with all that was written to them, until `remove_output_files()` is called. -/
theorem C49_tmp_kept (b : Bool) (as : List Act) (p : Nat) (h : .removeFiles p ∉ as) :
    ∀ it ∈ itemsOf (run (init b) as).pipes p, ∀ kv ∈ it.tmps,
      (run (init b) as).fs.get? kv.2 = some (bytesOf (run (init b) as) kv.2) := by
  intro it hit kv hkv
  have h1 := tmpOk_run b as p h it hit kv.2 (List.mem_map_of_mem hkv)
  cases e : (run (init b) as).fs.get? kv.2 with
  | none => exact absurd e h1
  | some c =>
    obtain ⟨o, ho⟩ := (good_run b as).files.cont kv.2 c e
    simp [bytesOf, ho]

example : (run (init true) [.start [⟨.proc, [(2, "/tmp/b".toList)], [(1, "/tmp/a".toList)]⟩],
      .write 0 0 "/tmp/a".toList [104], .write 0 0 "/tmp/b".toList [105], .finish 0 0 (.exited 0), .task 0 0]).fs =
    [("/tmp/a".toList, [104])] := by
  decide +kernel

/-- C49 is false: a file that is not UTF-8 is not captured, and neither are the files of the items after it; all files stay. -/
theorem C49_undecodable_refuted : ∃ as, ¬ Alive (run (init false) as).pipes 0 ∧ Quiet (run (init false) as) ∧
    (itemsOf (run (init false) as).pipes 0).map Item.output = [[], []] ∧
    (run (init false) as).fs = [("/tmp/a".toList, [0xff]), ("/tmp/b".toList, [104])] :=
  ⟨[.start [⟨.proc, [(1, "/tmp/a".toList)], []⟩, ⟨.proc, [(1, "/tmp/b".toList)], []⟩], .write 0 0 "/tmp/a".toList [0xff],
      .write 0 1 "/tmp/b".toList [104], .finish 0 0 (.exited 0), .finish 0 1 (.exited 0), .task 0 0, .task 0 1],
    dead_of (by decide +kernel), quiet_of_idle (by decide +kernel), by decide +kernel, by decide +kernel⟩

/-- C49 is false byte for byte: a carriage return is lost. -/
theorem C49_newline_refuted : ∃ as, ¬ Alive (run (init false) as).pipes 0 ∧ Quiet (run (init false) as) ∧
    bytesOf (run (init false) as) "/tmp/a".toList = [104, 13, 10] ∧
    (itemsOf (run (init false) as).pipes 0).map Item.output = [[(1, "h\n".toList)]] :=
  ⟨[.start [⟨.proc, [(1, "/tmp/a".toList)], []⟩], .write 0 0 "/tmp/a".toList [104, 13, 10], .finish 0 0 (.exited 0), .task 0 0],
    dead_of (by decide +kernel), quiet_of_idle (by decide +kernel), by decide +kernel, by decide +kernel⟩

/-- `wait()` may return before the output has been captured: a function ends between the end of another item and the next
step of the waiting task. -/
theorem C49_wait_refuted : ∃ as, Ended (run (init false) as) 0 .ok ∧
    (itemsOf (run (init false) as).pipes 0).map Item.output = [[], []] ∧
    bytesOf (run (init false) as) "/tmp/a".toList = [104] ∧
    (itemsOf (run (init false) as).pipes 0).map Item.strings = [[(1, "/tmp/a".toList)], []] :=
  ⟨[.start [⟨.proc, [(1, "/tmp/a".toList)], []⟩, func], .wait 0, .resume 0, .write 0 0 "/tmp/a".toList [104],
      .finish 0 0 (.exited 0), .task 0 0, .finish 0 1 .returned, .resume 0],
    ⟨⟨0, none, .over .ok, false⟩, by decide +kernel, rfl⟩, by decide +kernel, by decide +kernel, by decide +kernel⟩

/-! ### C50 -/

/-- C50: if no two items share a `TMP` file, the first call of `remove_output_files()` removes all `TMP` files of the pipeline,
without error, and no other file.  Missing: shared files. -/
theorem C50_partial (b : Bool) (as : List Act) (p : Nat) (h : .removeFiles p ∉ as)
    (hn : ((itemsOf (run (init b) as).pipes p).flatMap (fun it => it.tmps.map Prod.snd)).Nodup) :
    (removeItems (run (init b) as).fs (itemsOf (run (init b) as).pipes p)).2 = true ∧
    ∀ path, (run (init b) (as ++ [.removeFiles p])).fs.get? path =
      if ∃ it ∈ itemsOf (run (init b) as).pipes p, path ∈ it.tmps.map Prod.snd then none else (run (init b) as).fs.get? path := by
  have := removeItems_ok (good_run b as).files.uniq hn (tmpOk_run b as p h)
  rw [run_append]
  exact this

example : ((itemsOf (run (init true) [.start [⟨.proc, [], [(1, "/tmp/a".toList)]⟩, ⟨.proc, [], [(1, "/tmp/b".toList)]⟩]]).pipes 0).flatMap
    (fun it => it.tmps.map Prod.snd)).Nodup := by decide +kernel

/-- C50 is false: if two items share a `TMP` file, an exception is raised, and later files stay. -/
theorem C50_shared_refuted : ∃ as, ¬ Alive (run (init false) as).pipes 0 ∧ .removeFiles 0 ∉ as ∧
    (removeItems (run (init false) as).fs (itemsOf (run (init false) as).pipes 0)).2 = false ∧
    (run (init false) (as ++ [.removeFiles 0])).fs = [("/tmp/b".toList, [])] :=
  ⟨[.start [⟨.proc, [], [(1, "/tmp/a".toList)]⟩, ⟨.proc, [], [(1, "/tmp/a".toList)]⟩, ⟨.proc, [], [(1, "/tmp/b".toList)]⟩],
      .finish 0 0 (.exited 0), .finish 0 1 (.exited 0), .finish 0 2 (.exited 0), .task 0 0, .task 0 1, .task 0 2],
    dead_of (by decide +kernel), by decide +kernel, by decide +kernel, by decide +kernel⟩

/-! ### C51 -/

/-- C51: CTRL-Z at any time while the call of `wait()` of the foreground pipeline is under way: once the loop is at rest, the
call has raised `PipelineSuspended` and all processes of the pipeline that still run are stopped.  `bs` and `cs` are any steps
of processes, functions, loop and terminal before and after the signal.  Missing: other calls of `wait()`. -/
theorem C51_suspend_partial (as bs cs : List Act) (p w : Nat) (hp : p < (run (init true) as).pipes.length)
    (hw : w = (run (init true) as).waiters.length)
    (ho : ∀ (v : Nat) (V : Waiter), (run (init true) as).waiters[v]? = some V → ∃ r, V.st = .over r)
    (hbs : ∀ a ∈ bs, Passive a = true) (hcs : ∀ a ∈ cs, Passive a = true)
    (hr : ∀ r, ¬ Ended (run (init true) (as ++ [.wait p, .resume w] ++ bs)) w r)
    (hq : Quiet (run (init true) (as ++ [.wait p, .resume w] ++ bs ++ .tstp :: cs))) :
    Ended (run (init true) (as ++ [.wait p, .resume w] ++ bs ++ .tstp :: cs)) w .suspended ∧
    AllStopped (run (init true) (as ++ [.wait p, .resume w] ++ bs ++ .tstp :: cs)) p := by
  have hint : (run (init true) as).interactive = true := by
    have : ∀ (l : List Act) (s : St), (run s l).interactive = s.interactive := by
      intro l
      induction l with
      | nil => intro s; rfl
      | cons a l ih => intro s; exact (ih _).trans (interactive_step s a)
    exact this as _
  subst hw
  have h1 := ph1_begin (inv_run true as) hint hp (fun v V hv => by obtain ⟨r, e⟩ := ho v V hv; rw [e]; rfl)
  have h2 := ph1_run h1 bs hbs
  simp only [run_append] at hr hq ⊢
  have h3 := ph2_of_ph1 h2 hr
  have h4 := ph2_run h3 cs hcs
  obtain ⟨W, hW, -, -, h5⟩ := h4.me
  rcases h5 with ⟨h5, -⟩ | ⟨h5, -, h6⟩
  · exact absurd ⟨W, hW, .inr (.inl h5)⟩ (hq (.resume _))
  · exact ⟨⟨W, hW, h5⟩, h6⟩

example : (∀ r, ¬ Ended (run (init true) ([.start [proc, proc]] ++ [.wait 0, .resume 0] ++ [.finish 0 0 (.exited 0), .task 0 0])) 0 r) ∧
    Quiet (run (init true) ([.start [proc, proc]] ++ [.wait 0, .resume 0] ++ [.finish 0 0 (.exited 0), .task 0 0] ++
      .tstp :: [.resume 0])) ∧
    (itemsOf (run (init true) ([.start [proc, proc]] ++ [.wait 0, .resume 0] ++ [.finish 0 0 (.exited 0), .task 0 0] ++
      .tstp :: [.resume 0])).pipes 0).map Item.stopped = [false, true] :=
  ⟨not_ended (W := ⟨0, none, .woken, false⟩) rfl rfl, quiet_of_idle (by decide), by decide⟩

/-- C51: `restart()` and `wait()` continue every process of the pipeline. -/
theorem C51_resume (b : Bool) (as : List Act) (p w : Nat) (W : Waiter) (hw : (run (init b) as).waiters[w]? = some W)
    (hf : W.st = .fresh) : NoneStopped (run (init b) (as ++ [.restart p])) p ∧
    NoneStopped (run (init b) (as ++ [.resume w])) W.pipe := by
  simp only [run_append]
  exact ⟨restart_noneStopped _ p, resume_noneStopped hw hf⟩

/-- Suspended, then waited for again. -/
example : (itemsOf (run (init true) [.start [proc, proc], .wait 0, .resume 0, .tstp, .resume 0]).pipes 0).map Item.stopped = [true, true] ∧
    (itemsOf (run (init true) [.start [proc, proc], .wait 0, .resume 0, .tstp, .resume 0, .wait 0, .resume 1]).pipes 0).map Item.stopped =
      [false, false] := by decide

/-- C51 is false: if another pipeline's `wait()` ends meanwhile, CTRL-Z is lost. -/
theorem C51_other_wait_refuted : ∃ as, WaitsFor (run (init true) as) 1 1 ∧ Quiet (run (init true) as) ∧
    Alive (run (init true) as).pipes 1 ∧ (∀ r, ¬ Ended (run (init true) as) 1 r) ∧
    run (init true) (as ++ [.tstp]) = run (init true) as :=
  ⟨[.start [proc], .start [proc], .wait 0, .resume 0, .wait 1, .resume 1, .finish 0 0 (.exited 0), .task 0 0, .resume 0],
    ⟨_, rfl, rfl⟩, quiet_of_idle (by decide), (running_iff (inv_run true _).ranked 1).1 (by decide),
    not_ended (W := ⟨1, none, .awaiting, false⟩) rfl rfl, by decide⟩

/-- C51 is false for `fg`: after CTRL-Z the `wait()` of the `fg` command never ends. -/
theorem C51_fg_refuted : ∃ as, WaitsFor (run (init true) as) 1 1 ∧ Quiet (run (init true) as) ∧
    Ended (run (init true) as) 0 .suspended ∧ ∀ r, ¬ Ended (run (init true) as) 1 r :=
  ⟨[.start [proc], .fg, .wait 1, .resume 1, .resume 0, .tstp, .resume 0],
    ⟨_, rfl, rfl⟩, quiet_of_idle (by decide), ⟨_, rfl, rfl⟩, not_ended (W := ⟨1, none, .awaiting, false⟩) rfl rfl⟩

/-! ### C52 -/

/-- C52: `env.running_pipelines` lists every pipeline that is running, and none twice. -/
theorem C52_listed (b : Bool) (as : List Act) : (run (init b) as).running.Nodup ∧
    ∀ p, Alive (run (init b) as).pipes p → p ∈ (run (init b) as).running := by
  have hi := inv_run b as
  refine ⟨hi.nodup, fun p ha => ?_⟩
  cases e : (run (init b) as).pipes[p]? with
  | none =>
    cases ha with
    | mk hit _ => simp [itemsOf, e] at hit
  | some P =>
    refine (hi.runl p).2 ⟨P, e, .inl ?_⟩
    cases ef : P.finished with
    | false => rfl
    | true =>
      have := hi.fin p P e ef
      rw [(running_iff hi.ranked p).2 ha] at this; cases this

/-- C52: once the loop is at rest, `env.running_pipelines` lists a pipeline with a process or function exactly if it is
running.  Missing: builtins without processes, a failing function that ends last, output that is not text. -/
theorem C52_exact_partial (b : Bool) (as : List Act) (p : Nat) (hq : Quiet (run (init b) as))
    (hk : ∃ it ∈ itemsOf (run (init b) as).pipes p, it.kind = .proc ∨ it.kind = .func)
    (hs : Smooth (run (init b) as) p) : p ∈ (run (init b) as).running ↔ Alive (run (init b) as).pipes p := by
  have hg := good_run b as
  refine ⟨fun hm => ?_, (C52_listed b as).2 p⟩
  obtain ⟨P, hP, h⟩ := (hg.inv.runl p).1 hm
  apply Classical.byContradiction
  intro hna
  obtain ⟨hd, hst, hov⟩ := hs _ .refl
  have hfin := settled hg hq p (lt_of_get hP) hna hst hov (fun it hit t hk q hb => hs q (.fg hit hk hb))
  have hcr := decodable_not_crashed hg hd
  rw [finishedOf_get hP] at hfin
  rw [crashedOf_get hP] at hcr
  rcases h with h | h | h
  · rw [hfin] at h; cases h
  · rw [hcr] at h; cases h
  · obtain ⟨it, hit, hk⟩ := hk
    rw [itemsOf_of_get hP] at hit
    obtain ⟨t, ht⟩ := hg.bf p P hP h it hit
    rcases hk with hk | hk <;> rw [hk] at ht <;> cases ht

example : (run (init true) [.start [proc], .start [proc, func], .finish 0 0 (.exited 1), .task 0 0]).running = [1] := by decide

/-- C52 is false for `cd` and other builtins without processes: they are listed for ever. -/
theorem C52_builtin_refuted (b : Bool) (as bs : List Act) :
    (run (init b) as).pipes.length ∈ (run (init b) (as ++ [.start []] ++ bs)).running ∧
    ¬ Alive (run (init b) (as ++ [.start []] ++ bs)).pipes (run (init b) as).pipes.length := by
  have hi := inv_run b as
  have hok : okSpecs (run (init b) as) [] = true := rfl
  have e1 : run (init b) (as ++ [.start []]) = started (run (init b) as) [] := by
    rw [run_append]; exact start_eq hi hok
  have h2 : (run (init b) (as ++ [.start []])).pipes[(run (init b) as).pipes.length]? = some (newPipe (run (init b) as) []) := by
    rw [e1]; exact started_get_new
  rw [run_append]
  obtain ⟨P', hP', hkf, hborn, -⟩ := (ext_run (inv_run b (as ++ [.start []])) bs).pipe _ _ h2
  have hi' := inv_run_from (inv_run b (as ++ [.start []])) bs
  refine ⟨(hi'.runl _).2 ⟨P', hP', .inr (.inr (hborn.trans rfl))⟩, ?_⟩
  intro ha
  cases ha with
  | mk hit _ =>
    rw [itemsOf_of_get hP'] at hit
    have : P'.items = [] := by
      have := congrArg List.length hkf
      simpa [newPipe] using this
    rw [this] at hit; cases hit

/-- C52 is false: a pipeline whose function fails and ends last stays in the list. -/
theorem C52_function_refuted : ∃ as, ¬ Alive (run (init false) as).pipes 0 ∧ Quiet (run (init false) as) ∧
    0 ∈ (run (init false) as).running :=
  ⟨[.start [proc, func], .finish 0 0 (.exited 0), .task 0 0, .finish 0 1 .raised, .task 0 1],
    dead_of (by decide), quiet_of_idle (by decide), by decide⟩

/-! ### C53 -/

/-- C53: `bg` continues every process of the pipeline that was started last, which is then no longer suspended; `fg` starts a
pipeline that runs exactly as long as that pipeline, and a task that waits for it.  Missing: `fg` after `bg`. -/
theorem C53_partial (b : Bool) (as : List Act) (t : Nat) (hl : (run (init b) as).last = some t) :
    NoneStopped (run (init b) (as ++ [.bg])) t ∧ suspendedOf (run (init b) (as ++ [.bg])) t = false ∧
    WaitsFor (run (init b) (as ++ [.fg])) (run (init b) as).waiters.length t ∧
    (Alive (run (init b) (as ++ [.fg])).pipes (run (init b) as).pipes.length ↔ Alive (run (init b) as).pipes t) := by
  have hi := inv_run b as
  have ht := last_lt b as t hl
  simp only [run_append]
  have hbg : run (run (init b) as) [.bg] = started (restart (run (init b) as) t) [] := by
    show step _ .bg = _
    simp only [step, hl]
    exact start_eq (inv_restart hi t) rfl
  have hok : okSpecs (run (init b) as) [⟨.fg t, [], []⟩] = true := by
    simp [okSpecs, Spec.target, Spec.paths, ht]
  have hfg : run (run (init b) as) [.fg] = started (run (init b) as) [⟨.fg t, [], []⟩] := by
    show step _ .fg = _
    simp only [step, hl]
    exact start_eq hi hok
  rw [hbg, hfg]
  have hlt : t < (restart (run (init b) as) t).pipes.length := by rw [length_restart]; exact ht
  refine ⟨?_, ?_, ?_, ?_⟩
  · have := restart_noneStopped (run (init b) as) t
    intro it hit
    refine this it ?_
    simp only [itemsOf, started_get_old hlt] at hit
    exact hit
  · have := suspended_restart (run (init b) as) t
    simp only [suspendedOf, started_get_old hlt]
    exact this
  · refine ⟨⟨t, some (run (init b) as).pipes.length, .fresh, false⟩, ?_, rfl⟩
    simp [started, Spec.target]
  · rw [← running_iff (inv_started hi hok).ranked, ← running_iff hi.ranked]
    have := running_new hi.ranked hok (newPipe (run (init b) as) [⟨.fg t, [], []⟩]) rfl
    show running ((run (init b) as).pipes ++ [newPipe (run (init b) as) [⟨.fg t, [], []⟩]]) _ = true ↔ _
    rw [this]
    simp [bornOf, Spec.item, itemRunning]

example : (run (init true) [.start [proc], .wait 0, .resume 0, .tstp, .resume 0]).last = some 0 ∧
    (itemsOf (run (init true) [.start [proc], .wait 0, .resume 0, .tstp, .resume 0]).pipes 0).map Item.stopped = [true] ∧
    (itemsOf (run (init true) [.start [proc], .wait 0, .resume 0, .tstp, .resume 0, .bg]).pipes 0).map Item.stopped = [false] := by
  decide

/-- C53 is false: after `bg` of any job, `fg` refers to the `bg` command itself, so that it does not wait for the job. -/
theorem C53_bg_fg_refuted (b : Bool) (as : List Act) (t : Nat) (hl : (run (init b) as).last = some t) :
    (itemsOf (run (init b) (as ++ [.bg, .fg])).pipes ((run (init b) as).pipes.length + 1)).map Item.kind =
      [.fg (run (init b) as).pipes.length] ∧ (run (init b) as).pipes.length ≠ t ∧
    ¬ Alive (run (init b) (as ++ [.bg, .fg])).pipes ((run (init b) as).pipes.length + 1) := by
  have hi := inv_run b as
  have ht := last_lt b as t hl
  have hbg : run (init b) (as ++ [.bg]) = started (restart (run (init b) as) t) [] := by
    rw [run_append]
    show step _ .bg = _
    simp only [step, hl]
    exact start_eq (inv_restart hi t) rfl
  have hlen : (run (init b) (as ++ [.bg])).pipes.length = (run (init b) as).pipes.length + 1 := by
    rw [hbg]; simp [started, length_restart]
  have hlast : (run (init b) (as ++ [.bg])).last = some (run (init b) as).pipes.length := by
    rw [hbg]; simp [started, length_restart]
  have hsplit : as ++ [.bg, .fg] = (as ++ [.bg]) ++ [.fg] := by simp
  have hal := (C53_partial b (as ++ [.bg]) _ hlast).2.2.2
  rw [hlen] at hal
  refine ⟨?_, Nat.ne_of_gt ht, ?_⟩
  · have hok : okSpecs (run (init b) (as ++ [.bg])) [⟨.fg (run (init b) as).pipes.length, [], []⟩] = true := by
      simp [okSpecs, Spec.target, Spec.paths, hlen]
    have hfg : run (init b) (as ++ [.bg, .fg]) = started (run (init b) (as ++ [.bg])) [⟨.fg (run (init b) as).pipes.length, [], []⟩] := by
      rw [hsplit, run_append (init b) (as ++ [Act.bg])]
      show step _ .fg = _
      simp only [step, hlast]
      exact start_eq (inv_run b (as ++ [.bg])) hok
    rw [hfg, ← hlen, itemsOf_of_get started_get_new]
    rfl
  · rw [hsplit, hal, hbg]
    intro ha
    have e : (started (restart (run (init b) as) t) []).pipes[(run (init b) as).pipes.length]? =
        some (newPipe (restart (run (init b) as) t) []) := by
      have := started_get_new (s := restart (run (init b) as) t) (xs := [])
      rwa [length_restart] at this
    cases ha with
    | mk hit _ => rw [itemsOf_of_get e] at hit; cases hit

/-- C53 for jobs named explicitly, after every history (so also after `bg(job)` and other commands): `bg(job)` continues every process of that job, which is then
no longer suspended, whatever job was started last, and leaves the processes of all other jobs as they are; `fg(job)` starts a pipeline that runs exactly as long as
that job, and a task that waits for it. -/
theorem C53_explicit (b : Bool) (as : List Act) (t : Nat) (ht : t < (run (init b) as).pipes.length) :
    NoneStopped (run (init b) (as ++ bgOn t)) t ∧ suspendedOf (run (init b) (as ++ bgOn t)) t = false ∧
    (∀ q, q ≠ t → q < (run (init b) as).pipes.length → (run (init b) (as ++ bgOn t)).pipes[q]? = (run (init b) as).pipes[q]?) ∧
    WaitsFor (run (init b) (as ++ fgOn t)) (run (init b) as).waiters.length t ∧
    (Alive (run (init b) (as ++ fgOn t)).pipes (run (init b) as).pipes.length ↔ Alive (run (init b) as).pipes t) := by
  have hi := inv_run b as
  simp only [run_append]
  have hbg : run (run (init b) as) (bgOn t) = started (restart (run (init b) as) t) [] := by
    show start (restart _ t) [] = _
    exact start_eq (inv_restart hi t) rfl
  have hok : okSpecs (run (init b) as) [⟨.fg t, [], []⟩] = true := by
    simp [okSpecs, Spec.target, Spec.paths, ht]
  have hfg : run (run (init b) as) (fgOn t) = started (run (init b) as) [⟨.fg t, [], []⟩] := by
    show start _ _ = _
    exact start_eq hi hok
  rw [hbg, hfg]
  have hlt : t < (restart (run (init b) as) t).pipes.length := by rw [length_restart]; exact ht
  refine ⟨?_, ?_, ?_, ?_, ?_⟩
  · have := restart_noneStopped (run (init b) as) t
    intro it hit
    refine this it ?_
    simp only [itemsOf, started_get_old hlt] at hit
    exact hit
  · have := suspended_restart (run (init b) as) t
    simp only [suspendedOf, started_get_old hlt]
    exact this
  · intro q hq hl
    rw [started_get_old (by rw [length_restart]; exact hl)]
    simp only [restart, get_modPipe, if_neg (Ne.symm hq)]
  · refine ⟨⟨t, some (run (init b) as).pipes.length, .fresh, false⟩, ?_, rfl⟩
    simp [started, Spec.target]
  · rw [← running_iff (inv_started hi hok).ranked, ← running_iff hi.ranked]
    have := running_new hi.ranked hok (newPipe (run (init b) as) [⟨.fg t, [], []⟩]) rfl
    show running ((run (init b) as).pipes ++ [newPipe (run (init b) as) [⟨.fg t, [], []⟩]]) _ = true ↔ _
    rw [this]
    simp [bornOf, Spec.item, itemRunning]

/-- Two jobs are suspended, the first one is continued with `bg(job)` although the second one was started last, and then brought to the foreground. -/
example : (itemsOf (run (init true) ([.start [proc], .start [proc], .suspend 0, .suspend 1] ++ bgOn 0)).pipes 0).map Item.stopped = [false] ∧
    (itemsOf (run (init true) ([.start [proc], .start [proc], .suspend 0, .suspend 1] ++ bgOn 0)).pipes 1).map Item.stopped = [true] ∧
    running (run (init true) ([.start [proc], .start [proc], .suspend 0, .suspend 1] ++ bgOn 0 ++ fgOn 0)).pipes 3 = true := by
  decide

/-! ### C54 -/

/-- C54: a subshell exits with status zero if its pipeline succeeded; if the last item is a process that failed, with the
status of that process.  Missing: failures of other items. -/
theorem C54_partial (b : Bool) (as : List Act) (w p : Nat) (r : Res) (hw : WaitsFor (run (init b) as) w p)
    (he : Ended (run (init b) as) w r) (hr : r ≠ .suspended) (hc : r ≠ .cancelled) :
    (r = .ok → subshellExit (run (init b) as).pipes p r = 0) ∧
    (∀ it c, (itemsOf (run (init b) as).pipes p).getLast? = some it → it.kind = .proc → it.state = .exited c → 0 < c → c < 256 →
      (∃ l, r = .failed l) ∧ subshellExit (run (init b) as).pipes p r = c) := by
  refine ⟨fun e => by rw [e]; rfl, ?_⟩
  intro it c hl hk hst h0 h1
  cases r with
  | suspended => exact absurd rfl hr
  | cancelled => exact absurd rfl hc
  | ok =>
    exfalso
    refine (C48_exact b as w p .ok hw he).1 rfl ?_
    exact .mk (List.mem_of_getLast? hl) (.exit hk hst (by omega))
  | failed l =>
    refine ⟨⟨l, rfl⟩, ?_⟩
    simp only [subshellExit, pipeExit, hl, Option.bind_some, Item.exitCode, hk, hst, Option.map_some, Option.getD_some]
    exact Nat.mod_eq_of_lt h1

example : subshellExit (run (init true) [.start [proc, proc], .wait 0, .resume 0, .finish 0 1 (.exited 2), .finish 0 0 (.exited 0),
    .task 0 1, .resume 0]).pipes 0 (.failed [1]) = 2 ∧
    Ended (run (init true) [.start [proc, proc], .wait 0, .resume 0, .finish 0 1 (.exited 2), .finish 0 0 (.exited 0),
    .task 0 1, .resume 0]) 0 (.failed [1]) := ⟨by decide, ⟨_, rfl, rfl⟩⟩

/-- C54 is false: a subshell whose first process fails exits with status zero; so does one whose last item is a function that
raised an exception. -/
theorem C54_refuted : (∃ as l, Ended (run (init true) as) 0 (.failed l) ∧ WaitsFor (run (init true) as) 0 0 ∧
      (itemsOf (run (init true) as).pipes 0).map Item.kind = [.proc, .proc] ∧
      subshellExit (run (init true) as).pipes 0 (.failed l) = 0) ∧
    (∃ as l, Ended (run (init true) as) 0 (.failed l) ∧ WaitsFor (run (init true) as) 0 0 ∧
      (itemsOf (run (init true) as).pipes 0).map Item.kind = [.proc, .func] ∧
      subshellExit (run (init true) as).pipes 0 (.failed l) = 0) :=
  ⟨⟨[.start [proc, proc], .wait 0, .resume 0, .finish 0 0 (.exited 1), .finish 0 1 (.exited 0), .task 0 0, .resume 0], [0],
      ⟨_, rfl, rfl⟩, ⟨_, rfl, rfl⟩, by decide, by decide⟩,
    ⟨[.start [proc, func], .wait 0, .resume 0, .finish 0 1 .raised, .finish 0 0 (.exited 0), .task 0 0, .resume 0], [1],
      ⟨_, rfl, rfl⟩, ⟨_, rfl, rfl⟩, by decide, by decide⟩⟩

end Pieshell.Job
