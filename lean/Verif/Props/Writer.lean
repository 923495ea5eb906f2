import Verif.Lemmas.Io
import Verif.Lemmas.Writer3
import Verif.Model.Wire
import Verif.Props.Io

/-!
C39-C42: functions and iterators writing into a pipe.
`R suffix ps cap fill as` is the state after the schedule `as`, for an iterator that produces `ps`.
-/
namespace Pieshell.Io.Writer

/-- The state after a schedule. -/
abbrev R (suffix : Bytes) (ps : List Prod) (cap fill : Nat) (as : List Act) : St :=
  run (init suffix ps cap fill) as

/-- C39: the iterator is never asked for an item while a request is outstanding. -/
theorem C39_one_request (suffix : Bytes) (ps : List Prod) (cap fill : Nat) (as : List Act) :
    pend (some false) (R suffix ps cap fill as).trace ≠ none := by
  obtain ⟨h, _⟩ := inv_q_run as (inv_init suffix ps cap fill) (q_init suffix ps cap fill)
  rw [h.pend]; simp

/-- C39: what is handed to `os.write` are the values among the answers so far, in order, each once and each followed
by the suffix; and the answers are a beginning of what the iterator produces. -/
theorem C39_in_order (suffix : Bytes) (ps : List Prod) (cap fill : Nat) (as : List Act) :
    attempted (R suffix ps cap fill as).trace =
      (values (answers (R suffix ps cap fill as).trace)).map (· ++ suffix) ∧
    answers (R suffix ps cap fill as).trace <+: ps := by
  obtain ⟨h, _⟩ := inv_q_run as (inv_init suffix ps cap fill) (q_init suffix ps cap fill)
  refine ⟨?_, ?_⟩
  · rw [h.att, run_suffix]; rfl
  · have h1 : answers (R suffix ps cap fill as).trace <+: upToFail ps := ⟨_, h.ans⟩
    refine h1.trans ?_
    clear h h1
    rename_i qq; clear qq
    induction ps with
    | nil => exact List.prefix_refl _
    | cons p ps ih =>
      cases p with
      | fail => exact ⟨ps, rfl⟩
      | _ => exact (List.prefix_cons_inj _).2 ih

/-- C39: while the reader is there every write succeeds, and the pipe has received exactly the values answered so
far. -/
theorem C39_written (suffix : Bytes) (ps : List Prod) (cap fill : Nat) (as : List Act)
    (hr : (R suffix ps cap fill as).readerGone = false) :
    (R suffix ps cap fill as).written =
      (values (answers (R suffix ps cap fill as).trace)).flatMap (· ++ suffix) := by
  obtain ⟨h, _⟩ := inv_q_run as (inv_init suffix ps cap fill) (q_init suffix ps cap fill)
  rw [h.wr, ← h.noReader hr, h.att, run_suffix, List.flatMap]; rfl

/-- C39: if the writer finishes without an error, every item was written: the pipe has received exactly the values
produced, in order, each followed by the suffix; and the iterator did not fail. -/
theorem C39_complete (suffix : Bytes) (ps : List Prod) (cap fill : Nat) (as : List Act)
    (hd : (R suffix ps cap fill as).done = .ok) :
    (R suffix ps cap fill as).written = (values ps).flatMap (· ++ suffix) ∧ Prod.fail ∉ ps := by
  obtain ⟨h, _⟩ := inv_q_run as (inv_init suffix ps cap fill) (q_init suffix ps cap fill)
  have hne : (R suffix ps cap fill as).done ≠ .exc := by rw [hd]; simp
  have hnf : Prod.fail ∉ ps := by
    intro e
    have e2 : Prod.fail ∈ upToFail ps := fail_mem_upToFail.2 e
    rw [← h.ans, (h.ok hd).2.2] at e2
    exact hne (h.failed (by simpa [upToFail] using e2))
  refine ⟨?_, hnf⟩
  have ha := h.ans
  rw [(h.ok hd).2.2, upToFail_id hnf] at ha
  have ha' : answers (R suffix ps cap fill as).trace = ps := by simpa [upToFail] using ha
  rw [h.wr, ← h.good hne, h.att, run_suffix, ha', List.flatMap]; rfl

/-- C39: if the writer ends with an error although the reader is there, the iterator has failed, and everything it
produced before was written. -/
theorem C39_failed (suffix : Bytes) (ps : List Prod) (cap fill : Nat) (as : List Act)
    (hd : (R suffix ps cap fill as).done = .exc) (hr : (R suffix ps cap fill as).readerGone = false) :
    (R suffix ps cap fill as).written = (values (upToFail ps)).flatMap (· ++ suffix) := by
  obtain ⟨h, _⟩ := inv_q_run as (inv_init suffix ps cap fill) (q_init suffix ps cap fill)
  have hds : (R suffix ps cap fill as).destroyed = true := by
    cases e : (R suffix ps cap fill as).destroyed with
    | true => rfl
    | false => have := h.live.2 e; rw [hd] at this; cases this
  have hi : (R suffix ps cap fill as).items = [] := by
    rcases h.rest hds with e | e
    · rw [hr] at e; cases e
    · exact e
  have ha := h.ans
  rw [hi] at ha
  have ha' : answers (R suffix ps cap fill as).trace = upToFail ps := by simpa [upToFail] using ha
  rw [C39_written suffix ps cap fill as hr, ha']

/-- C39: the writer cannot get stuck: the recursion lock is held only while a task is inside the iterator, as
long as the descriptor is open; and an open, writable descriptor with nothing scheduled gets a new task. -/
theorem C39_not_stuck (suffix : Bytes) (ps : List Prod) (cap fill : Nat) (as : List Act)
    (hd : (R suffix ps cap fill as).destroyed = false) :
    ((R suffix ps cap fill as).lock = true → (R suffix ps cap fill as).susp ≠ .no) ∧
    ((R suffix ps cap fill as).lock = false → (R suffix ps cap fill as).ready = true →
      (R suffix ps cap fill as).cur = [] → (R suffix ps cap fill as).nxt = [] →
      answers (R suffix ps cap fill (as ++ [.poll, .run false, .poll, .run false])).trace =
        answers (R suffix ps cap fill as).trace ++ ((R suffix ps cap fill as).items.take 1)) := by
  obtain ⟨h, q⟩ := inv_q_run as (inv_init suffix ps cap fill) (q_init suffix ps cap fill)
  refine ⟨fun hl => h.lockLive hl hd, ?_⟩
  intro hl hr hc hn
  have e : R suffix ps cap fill (as ++ [.poll, .run false, .poll, .run false]) =
      run (R suffix ps cap fill as) [.poll, .run false, .poll, .run false] := by
    unfold R run; rw [List.foldl_append]
  rw [e]
  generalize R suffix ps cap fill as = s at *
  obtain ⟨sf, it, lk, su, de, dn, cu, nx, fi, ca, rg, wr, bl, tr⟩ := s
  simp only at hd hl hc hn hr
  subst hd hl hc hn
  have hr' : (decide (fi + PIPE_BUF ≤ ca) || rg) = true := by simpa [St.ready] using hr
  cases it with
  | nil =>
    simp [run, step, St.ready, hr', runHandle, sendOutput, complete, destroy, St.log]
    split <;> simp [answers_append, answers]
  | cons p ps =>
    cases p with
    | item b =>
      simp [run, step, St.ready, hr', runHandle, sendOutput, complete, destroy, St.log, write]
      split
      · split <;> simp [answers_append, answers]
      · simp [answers_append, answers]
    | skip =>
      simp [run, step, St.ready, hr', runHandle, sendOutput, complete, destroy, St.log]
      simp [answers_append, answers]
    | fail =>
      simp [run, step, St.ready, hr', runHandle, sendOutput, complete, destroy, St.log]
      split <;> simp [answers_append, answers]

-- two items and a None, the first request suspended for a while: all written, once
example : (R [NL] [.item [97], .skip, .item [98]] 65536 0
    [.poll, .run false, .poll, .run true, .wake, .run false, .poll, .run false, .run false, .run false,
     .poll, .run false, .run false, .poll, .run false, .run false, .poll, .run false, .run false]).done = .ok ∧
  (R [NL] [.item [97], .skip, .item [98]] 65536 0
    [.poll, .run false, .poll, .run true, .wake, .run false, .poll, .run false, .run false, .run false,
     .poll, .run false, .run false, .poll, .run false, .run false, .poll, .run false, .run false]).written
    = [97, 10, 98, 10] := by decide

/-- C40 refuted: with an iterator that suspends, a reader that goes away and a task that is in the queue already, the
iterator is asked again and its item is written to the closed descriptor number. -/
theorem C40_refuted : ∃ (ps : List Prod) (as : List Act),
    quietAfterClose (R [NL] ps 65536 0 as).trace = false ∧
    (R [NL] ps 65536 0 as).trace = [.request, .response (some (.item [97])), .epipe [97, 10], .close,
      .request, .response (some (.item [98])), .badWrite [98, 10]] :=
  ⟨[.item [97], .item [98]],
   [.poll, .run false, .poll, .run true, .wake, .run false, .readerGone, .poll, .run false, .run false], by decide, by decide⟩

/-- C40, in all cases: after the descriptor is closed, the iterator is asked at most once more, and at most one item is written (to whatever the number
stands for by then). `C40_refuted` shows that this does happen. -/
theorem C40_at_most_one_partial (suffix : Bytes) (ps : List Prod) (cap fill : Nat) (as : List Act) :
    (afterClose (R suffix ps cap fill as).trace).count .request ≤ 1 ∧ (attempted (afterClose (R suffix ps cap fill as).trace)).length ≤ 1 ∧
    Ev.close ∉ afterClose (R suffix ps cap fill as).trace := by
  have h := run_late as (inv_init suffix ps cap fill) (q_init suffix ps cap fill) (shape_late_init suffix ps cap fill).1 (shape_late_init suffix ps cap fill).2
  cases hd : (R suffix ps cap fill as).destroyed with
  | true =>
    have h1 := h.req hd
    have h2 := h.wr hd
    unfold reqs at h1 h2
    unfold late at h2
    unfold R
    exact ⟨by omega, by omega, h.once⟩
  | false =>
    have hno : Ev.close ∉ (R suffix ps cap fill as).trace := fun e => by have := h.close.2 e; unfold R at hd; rw [hd] at this; cases this
    have e := afterClose_append_open hno []
    simp only [List.append_nil] at e
    rw [e]
    simp [afterClose, attempted]

/-- C40, partial: it holds if the reader does not go away before the writer has finished, or if the iterator never
suspends. Missing: suspending iterators with a reader that goes away (`C40_refuted`). -/
theorem C40_quiet_partial (suffix : Bytes) (ps : List Prod) (cap fill : Nat) (as : List Act)
    (h : Act.readerGone ∉ as ∨ Act.run true ∉ as) :
    quietAfterClose (R suffix ps cap fill as).trace = true := by
  rcases h with h | h
  · exact quiet_reader as (inv_init suffix ps cap fill) (q_init suffix ps cap fill) rfl rfl h
  · apply NS.quiet
    exact ns_run as ⟨rfl, Or.inl rfl, Or.inl rfl, (fun e => by cases e), rfl,
      ⟨(fun e => by cases e), (fun e => by cases e)⟩⟩ h

-- a reader that goes away in the middle, iterator not suspending: the descriptor is closed and nothing follows
example : (R [NL] [.item [97], .item [98], .item [99]] 65536 0
    [.poll, .run false, .poll, .run false, .run false, .readerGone, .poll, .run false, .run false, .poll, .run false]).trace =
    [.request, .response (some (.item [97])), .write [97, 10], .request, .response (some (.item [98])), .epipe [98, 10],
     .close] := by decide

/-- C42 refuted: an item larger than what a writable pipe guarantees blocks the event loop. -/
theorem C42_refuted_big : (R [NL] [.item (List.replicate 5000 97)] 65536 61440
    [.poll, .run false, .poll, .run false]).blocked = true := by decide +kernel

/-- C42 refuted even for items that fit into a writable pipe (at most `PIPE_BUF` bytes), as soon as two of them do not: the second task is
started by a poll that was made before the first item was written. (Iterators that never suspend.) -/
theorem C42_refuted_stale (suffix b1 b2 : Bytes) (cap : Nat) (hc : PIPE_BUF ≤ cap)
    (hb : PIPE_BUF < (b1 ++ suffix).length + (b2 ++ suffix).length) :
    (R suffix [.item b1, .item b2] cap (cap - PIPE_BUF)
      [.poll, .run false, .poll, .run false, .run false, .poll, .run false]).blocked = true := by
  rw [List.length_append, List.length_append] at hb
  have hc' : cap - PIPE_BUF + PIPE_BUF ≤ cap := by omega
  have h2 : cap < cap - PIPE_BUF + (b1.length + suffix.length) + (b2.length + suffix.length) := by omega
  simp [R, run, step, init, St.ready, hc', runHandle, sendOutput, complete, write, St.log]
  exact .inr h2

/-- C42 refuted if three items do not fit into a writable pipe: an iterator that suspends can have three items written between two
polls. -/
theorem C42_refuted_suspended (suffix b1 b2 b3 : Bytes) (cap : Nat) (hc : PIPE_BUF ≤ cap)
    (hb : PIPE_BUF < (b1 ++ suffix).length + (b2 ++ suffix).length + (b3 ++ suffix).length) :
    (R suffix [.item b1, .item b2, .item b3] cap (cap - PIPE_BUF)
      [.poll, .run false, .poll, .run true, .wake, .run false, .poll, .run false, .run false, .run false, .poll, .run false]).blocked = true := by
  rw [List.length_append, List.length_append, List.length_append] at hb
  have hc' : cap - PIPE_BUF + PIPE_BUF ≤ cap := by omega
  have h2 : cap < cap - PIPE_BUF + (b1.length + suffix.length) + (b2.length + suffix.length) + (b3.length + suffix.length) := by omega
  simp [R, run, step, init, St.ready, hc', runHandle, sendOutput, complete, write, St.log]
  exact .inr h2

/-- C42, partial: items of at most a third of `PIPE_BUF` (1365 bytes including the newline) never block.
Missing: larger items (`C42_refuted_big`, `C42_refuted_stale`, `C42_refuted_suspended`: the bound is exact). -/
theorem C42_small_items_partial (suffix : Bytes) (ps : List Prod) (cap fill : Nat) (as : List Act)
    (hs : ∀ b, Prod.item b ∈ ps → 3 * (b.length + suffix.length) ≤ PIPE_BUF) (hf : fill ≤ cap) :
    (R suffix ps cap fill as).blocked = false := by
  refine (nb_run (k := 3) (m := 1365) as (inv_init suffix ps cap fill) (q_init suffix ps cap fill) ?_ (.inl (by omega))).nb
  refine ⟨?_, by decide, by simp [init], by simp [init], by simp [init], Or.inl ?_, rfl⟩
  · intro b hb
    have := hs b hb
    show b.length + suffix.length ≤ 1365
    unfold PIPE_BUF at this
    omega
  · show fill + 1365 * pot (init suffix ps cap fill) ≤ cap
    have : pot (init suffix ps cap fill) = 0 := rfl
    rw [this]; simpa using hf

/-- C42, partial: items of at most half of `PIPE_BUF` never block if the iterator never suspends.
Missing: larger items (`C42_refuted_stale`: the bound is exact). -/
theorem C42_synchronous_partial (suffix : Bytes) (ps : List Prod) (cap fill : Nat) (as : List Act) (ha : Act.run true ∉ as)
    (hs : ∀ b, Prod.item b ∈ ps → 2 * (b.length + suffix.length) ≤ PIPE_BUF) (hf : fill ≤ cap) :
    (R suffix ps cap fill as).blocked = false := by
  refine (nb_run (k := 2) (m := 2048) as (inv_init suffix ps cap fill) (q_init suffix ps cap fill) ?_ (.inr ⟨by omega, rfl, ha⟩)).nb
  refine ⟨?_, by decide, by simp [init], by simp [init], by simp [init], Or.inl ?_, rfl⟩
  · intro b hb
    have := hs b hb
    show b.length + suffix.length ≤ 2048
    unfold PIPE_BUF at this
    omega
  · show fill + 2048 * pot (init suffix ps cap fill) ≤ cap
    have : pot (init suffix ps cap fill) = 0 := rfl
    rw [this]; simpa using hf

/-- Two items of 2048 bytes with their newlines, which do not fit; and of 2047 bytes, which do. -/
example : PIPE_BUF < (List.replicate 2048 97 ++ [NL]).length + (List.replicate 2048 98 ++ [NL]).length ∧ PIPE_BUF ≤ 65536 ∧
    2 * ((List.replicate 2047 97).length + [NL].length) ≤ PIPE_BUF := by decide +kernel

example : (R [NL] [.item (List.replicate 1365 97), .item (List.replicate 1365 97), .item (List.replicate 1365 97)] 65536 61440
    [.poll, .run false, .poll, .run true, .wake, .run false, .poll, .run false, .run false, .run false, .poll, .run false]).blocked = true :=
  C42_refuted_suspended _ _ _ _ 65536 (by decide) (by decide +kernel)

example : ∀ b, Prod.item b ∈ [Prod.item [97], .skip, .item [98, 99]] →
    3 * (b.length + ([NL] : Bytes).length) ≤ PIPE_BUF := by
  intro b hb
  simp at hb
  rcases hb with e | e <;> subst e <;> decide

end Pieshell.Io.Writer

namespace Pieshell.Io.Wire
open Writer (Prod)

/-- The invariant of writer and reader together. -/
structure Inv (ps : List Prod) (s : St) : Prop where
  w : Writer.Inv ps s.w
  q : Writer.Q s.w
  r : Line.Inv s.r
  same : s.r.pipe.written = s.w.written
  closed : s.r.pipe.closed = s.w.destroyed
  gone : s.w.readerGone = false
  suf : s.w.suffix = [NL]

/-- The bytes written only grow, and after the descriptor is closed nothing reaches the pipe. -/
theorem step_written (s : Writer.St) (a : Writer.Act) :
    s.written <+: (Writer.step s a).written ∧ (s.destroyed = true → (Writer.step s a).written = s.written) := by
  have hd : ∀ (t : Writer.St) (d : Writer.Done), (Writer.destroy t d).written = t.written := by
    intro t d; unfold Writer.destroy; dsimp only; split <;> split <;> rfl
  have hw : ∀ (t : Writer.St) (b : Bytes), t.written <+: (Writer.write t b).written ∧
      (t.destroyed = true → (Writer.write t b).written = t.written) := by
    intro t b; unfold Writer.write
    split
    · rw [hd]; exact ⟨List.prefix_refl _, fun _ => rfl⟩
    · rename_i hne
      split
      · rw [hd]; exact ⟨List.prefix_refl _, fun _ => rfl⟩
      · exact ⟨List.prefix_append _ _, fun e => absurd e hne⟩
  have hc : ∀ (t : Writer.St), t.written <+: (Writer.complete t).written ∧
      (t.destroyed = true → (Writer.complete t).written = t.written) := by
    intro t; unfold Writer.complete; dsimp only
    split
    · rw [hd]; exact ⟨List.prefix_refl _, fun _ => rfl⟩
    · rw [hd]; exact ⟨List.prefix_refl _, fun _ => rfl⟩
    · exact ⟨List.prefix_refl _, fun _ => rfl⟩
    · exact hw (Writer.St.log { t with susp := .no, items := _, lock := false } _) _
  cases a <;> unfold Writer.step <;> dsimp only
  · split <;> exact ⟨List.prefix_refl _, fun _ => rfl⟩
  · split
    · exact ⟨List.prefix_refl _, fun _ => rfl⟩
    · rename_i h hs _
      cases h <;> unfold Writer.runHandle <;> dsimp only
      · exact ⟨List.prefix_refl _, fun _ => rfl⟩
      · unfold Writer.sendOutput
        split
        · exact ⟨List.prefix_refl _, fun _ => rfl⟩
        · split
          · exact ⟨List.prefix_refl _, fun _ => rfl⟩
          · exact hc (Writer.St.log { s with cur := hs, lock := true } .request)
      · split
        · exact ⟨List.prefix_refl _, fun _ => rfl⟩
        · exact hc { s with cur := hs }
  · split <;> exact ⟨List.prefix_refl _, fun _ => rfl⟩
  · exact ⟨List.prefix_refl _, fun _ => rfl⟩
  · exact ⟨List.prefix_refl _, fun _ => rfl⟩

theorem step_destroyed (s : Writer.St) (a : Writer.Act) (h : s.destroyed = true) :
    (Writer.step s a).destroyed = true := by
  have hd := Writer.destroy_destroyed
  have hw : ∀ (t : Writer.St) (b : Bytes), t.destroyed = true → (Writer.write t b).destroyed = true := by
    intro t b ht; unfold Writer.write; rw [if_pos ht]; exact hd _ _
  have hc : ∀ (t : Writer.St), t.destroyed = true → (Writer.complete t).destroyed = true := by
    intro t ht; unfold Writer.complete; dsimp only
    split
    · exact hd _ _
    · exact hd _ _
    · exact ht
    · exact hw _ _ ht
  cases a <;> unfold Writer.step <;> dsimp only
  · split <;> exact h
  · split
    · exact h
    · rename_i x hs _
      cases x <;> unfold Writer.runHandle <;> dsimp only
      · exact h
      · unfold Writer.sendOutput
        split
        · exact h
        · split
          · exact h
          · exact hc _ h
      · split
        · exact h
        · exact hc _ h
  · split <;> exact h
  · exact h
  · exact h

theorem inv_stepW {ps : List Prod} {s : St} (h : Inv ps s) (a : Writer.Act) (ha : a ≠ .readerGone) :
    Inv ps (stepW s a) := by
  obtain ⟨hw, hq⟩ := Writer.inv_q_step h.w h.q a
  obtain ⟨h1, h2⟩ := step_written s.w a
  have hr1 := Line.inv_step h.r (.write ((Writer.step s.w a).written.drop s.w.written.length))
  have hsame : (Line.step s.r (.write ((Writer.step s.w a).written.drop s.w.written.length))).pipe.written =
      (Writer.step s.w a).written := by
    unfold Line.step Pipe.write
    dsimp only
    split
    · rename_i hc
      rw [h.same, h2 (h.closed ▸ hc)]
    · show s.r.pipe.written ++ _ = _
      obtain ⟨u, hu⟩ := h1
      rw [h.same, ← hu]; simp
  have hcl : (Line.step s.r (.write ((Writer.step s.w a).written.drop s.w.written.length))).pipe.closed =
      s.w.destroyed := by
    rw [← h.closed]
    unfold Line.step Pipe.write
    dsimp only
    split <;> rfl
  have hg := (Writer.step_readerGone s.w a ha).trans h.gone
  have hs := (Writer.step_suffix s.w a).trans h.suf
  unfold stepW
  dsimp only
  cases hd : (Writer.step s.w a).destroyed with
  | true =>
    rw [if_pos rfl]
    exact ⟨hw, hq, Line.inv_step hr1 .close, hsame, hd.symm, hg, hs⟩
  | false =>
    rw [if_neg (by simp)]
    refine ⟨hw, hq, hr1, hsame, ?_, hg, hs⟩
    show _ = (Writer.step s.w a).destroyed
    rw [hcl, hd]
    cases hd2 : s.w.destroyed with
    | false => rfl
    | true => rw [step_destroyed s.w a hd2] at hd; cases hd

theorem inv_stepR {ps : List Prod} {s : St} (h : Inv ps s) (a : RAct)
    (hw : (Line.step s.r a).pipe.written = s.r.pipe.written)
    (hc : (Line.step s.r a).pipe.closed = s.r.pipe.closed) : Inv ps (stepR s a) := by
  unfold stepR
  dsimp only
  have := h.w
  refine ⟨⟨this.pend, this.ans, this.att, this.wr, this.lockSusp, this.lockLive, this.good, this.ok, this.failed,
    this.live, this.dead, this.noReader, this.closed, this.queue, this.rest⟩, ⟨h.q.w, h.q.nxtE⟩, Line.inv_step h.r a, ?_, ?_,
    h.gone, h.suf⟩
  · exact hw.trans h.same
  · exact hc.trans h.closed

theorem anext_pipe (s : Line.St) : (Line.anext s).pipe = s.pipe := by
  unfold Line.anext; split
  · rfl
  · split <;> rfl

theorem event_pipe (s : Line.St) (n : Nat) : (Line.step s (.event n)).pipe.written = s.pipe.written ∧
    (Line.step s (.event n)).pipe.closed = s.pipe.closed := by
  have hw : ∀ t : Line.St, (Line.wake t).pipe = t.pipe := by
    intro t; unfold Line.wake; split <;> rfl
  unfold Line.step; dsimp only
  split
  · unfold Line.handleEvent
    split
    · exact ⟨rfl, rfl⟩
    · dsimp only; rw [hw]; split <;> exact ⟨rfl, rfl⟩
  · exact ⟨rfl, rfl⟩

theorem inv_step {ps : List Prod} {s : St} (h : Inv ps s) (a : Act) : Inv ps (step s a) := by
  have hp : ∀ a, (Line.step s.r a).pipe = s.r.pipe → Inv ps (stepR s a) := by
    intro a e; exact inv_stepR h a (by rw [e]) (by rw [e])
  cases a with
  | poll => exact inv_stepW h .poll (by simp)
  | run sus => exact inv_stepW h (.run sus) (by simp)
  | wake => exact inv_stepW h .wake (by simp)
  | event n => exact inv_stepR h _ (event_pipe _ n).1 (event_pipe _ n).2
  | next =>
    apply hp
    unfold Line.step; dsimp only
    split
    · exact anext_pipe _
    · exact anext_pipe _
    · rfl
  | resume =>
    apply hp
    unfold Line.step; dsimp only
    split
    · exact anext_pipe _
    · rfl
  | cancel =>
    apply hp
    unfold Line.step; dsimp only
    split <;> rfl

theorem inv_run {ps : List Prod} (as : List Act) : ∀ {s : St}, Inv ps s → Inv ps (run s as) := by
  induction as with
  | nil => intro s h; exact h
  | cons a as ih => intro s h; exact ih (inv_step h a)

theorem inv_init (ps : List Prod) (cap : Nat) : Inv ps (init ps cap) :=
  ⟨Writer.inv_init _ _ _ _, Writer.q_init _ _ _ _, Line.inv_init, rfl, rfl, rfl, rfl⟩

/-- C41, in general: when the reader's iteration has ended, the writer has closed its end, and the reader has received
the lines of the values that were produced (up to an exception of the iterator), each with a newline added. -/
theorem C41_lines (ps : List Prod) (cap : Nat) (as : List Act) (h : (run (init ps cap) as).r.cons = .stopped) :
    IsLines (joined (Writer.values (Writer.upToFail ps))) (run (init ps cap) as).r.out := by
  have hI := inv_run as (inv_init ps cap)
  generalize run (init ps cap) as = s at *
  obtain ⟨he, hb⟩ := hI.r.stopped h
  have hd : s.w.destroyed = true := by rw [← hI.closed]; exact (hI.r.eof he).2
  have hwr : s.w.written = joined (Writer.values (Writer.answers s.w.trace)) := by
    rw [hI.w.wr, ← hI.w.noReader hI.gone, hI.w.att, hI.suf]; rfl
  have hans : Writer.answers s.w.trace = Writer.upToFail ps := by
    have ha := hI.w.ans
    have h3 : s.w.items = [] := by
      rcases hI.w.rest hd with e | e
      · rw [hI.gone] at e; cases e
      · exact e
    rw [h3] at ha; simpa [Writer.upToFail] using ha
  have h1 : IsLines s.r.pipe.written s.r.out := by
    refine ⟨hI.r.lines, ?_⟩
    rcases hI.r.data with d | d
    · left; rw [hb, (hI.r.eof he).1] at d; simpa using d
    · right; exact ⟨d.2.2.2.1, d.2.2.2.2.1, d.2.2.2.2.2⟩
  rw [hI.same, hwr, hans] at h1
  exact h1

/-- C41: items without newlines arrive unchanged, one by one, whatever the schedule of writer, reader, iterator and
consumer. -/
theorem C41_items (bs : List Bytes) (cap : Nat) (as : List Act) (hn : ∀ b ∈ bs, NL ∉ b)
    (h : (run (init (bs.map .item) cap) as).r.cons = .stopped) :
    (run (init (bs.map .item) cap) as).r.out = bs := by
  have h1 := C41_lines _ cap as h
  have hv : Writer.values (Writer.upToFail (bs.map Prod.item)) = bs := by
    clear h h1 hn
    induction bs with
    | nil => rfl
    | cons b bs ih => simp [Writer.upToFail, Writer.values, ih]
  rw [hv] at h1
  exact IsLines_unique _ _ _ h1 ⟨hn, Or.inl rfl⟩

/-- C41 for text: strings without newlines arrive unchanged. -/
theorem C41_texts (ss : List Str) (cap : Nat) (as : List Act) (hn : ∀ s ∈ ss, '\n' ∉ s)
    (h : (run (init (textItems ss) cap) as).r.cons = .stopped) :
    texts (run (init (textItems ss) cap) as).r.out = ss.map some := by
  have e : textItems ss = (ss.map encode).map .item := by unfold textItems; rw [List.map_map]; rfl
  have := C41_items (ss.map encode) cap as (by
    intro b hb
    obtain ⟨s, hs, e⟩ := List.mem_map.1 hb
    rw [← e, nl_encode]; exact hn s hs) (e ▸ h)
  rw [e, this]
  unfold texts
  rw [List.map_map]
  exact List.map_congr_left (fun s _ => decode_encode s)

-- two items, the reader reading in between, in small pieces
example : (run (init (textItems [['a', 'b'], []]) 65536)
    [.next, .poll, .run false, .poll, .run false, .event 1, .resume, .run false, .poll, .run false, .event 9,
     .resume, .next, .run false, .event 5, .resume, .poll, .run false, .event 3, .next, .event 1, .resume]).r.cons = .stopped
  ∧ (run (init (textItems [['a', 'b'], []]) 65536)
    [.next, .poll, .run false, .poll, .run false, .event 1, .resume, .run false, .poll, .run false, .event 9,
     .resume, .next, .run false, .event 5, .resume, .poll, .run false, .event 3, .next, .event 1, .resume]).r.out =
    [[97, 98], []] := by decide

end Pieshell.Io.Wire
