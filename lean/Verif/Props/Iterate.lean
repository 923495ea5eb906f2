import Verif.Model.Iterate
import Verif.Props.Io
import Verif.Props.Job
/-!
C78-C80: the end of an iteration over a pipeline, leaving an iteration early, CTRL-Z during an iteration.
-/
namespace Pieshell.Iterate
open Pieshell.Io (RAct Cons IsLines NL)

/-! ### The parts of a history -/

/-- What is known of every reachable state. -/
structure Parts {S : Type} (R : Reader S) (b : Bool) (as : List Job.Act) (p : Nat) (s : St S) : Prop where
  pipe : s.pipe = p
  rd : ∃ l : List RAct, s.rd = l.foldl R.step R.init
  job : ∃ l, s.job = Job.run (Job.init b) (as ++ l)
  call : ∀ w, s.call = some w → R.cons s.rd = .stopped ∧ Job.WaitsFor s.job w p

theorem waitsFor_step {b : Bool} {as : List Job.Act} {a : Job.Act} {w p : Nat} (h : Job.WaitsFor (Job.run (Job.init b) as) w p) :
    Job.WaitsFor (Job.step (Job.run (Job.init b) as) a) w p := by
  obtain ⟨W, h1, h2⟩ := h
  obtain ⟨W', h3, h4, -⟩ := (Job.ext_run (Job.inv_run b as) [a]).waiter w W h1
  exact ⟨W', h3, h4.trans h2⟩

/-- The readers' consumer stays stopped unless it calls `__anext__` again. -/
def Stays {S : Type} (R : Reader S) : Prop :=
  ∀ (l : List RAct) a, R.cons (l.foldl R.step R.init) = .stopped → runs .stopped a = false → R.cons (R.step (l.foldl R.step R.init) a) = .stopped

theorem stays_lines : Stays lines := by
  intro l a h hr
  have hI := Io.Line.inv_run l Io.Line.inv_init
  change Io.Line.St.cons (Io.Line.run Io.Line.init l) = _ at h
  change Io.Line.St.cons (Io.Line.step (Io.Line.run Io.Line.init l) a) = _
  cases a with
  | write bs => exact h
  | close => exact h
  | next => simp [runs] at hr
  | resume => simp [Io.Line.step, h]
  | cancel => simp [Io.Line.step, h]
  | event n =>
    have hd := hI.destroyed.trans (hI.stopped h).1
    simp [Io.Line.step, hd, h]

theorem stays_chunks : Stays chunks := by
  intro l a h hr
  have hI := Io.Chunk.inv_run l Io.Chunk.inv_init
  change Io.Chunk.St.cons (Io.Chunk.run Io.Chunk.init l) = _ at h
  change Io.Chunk.St.cons (Io.Chunk.step (Io.Chunk.run Io.Chunk.init l) a) = _
  cases a with
  | write bs => exact h
  | close => exact h
  | next => simp [runs] at hr
  | resume => simp [Io.Chunk.step, h]
  | cancel => simp [Io.Chunk.step, h]
  | event n =>
    have hd := hI.destroyed.trans (hI.stopped h).1
    simp [Io.Chunk.step, hd, h]

theorem parts_run {S : Type} {R : Reader S} (hR : Stays R) {b : Bool} {as : List Job.Act} {p : Nat}
    (hp : p < (Job.run (Job.init b) as).pipes.length) (h : List Act) :
    Parts R b as p (run R (start R (Job.run (Job.init b) as) p) h) := by
  have key : ∀ (h : List Act) (s : St S), Parts R b as p s → Parts R b as p (run R s h) := by
    intro h
    induction h with
    | nil => intro s hs; exact hs
    | cons a h ih =>
      intro s hs
      refine ih (step R s a) ?_
      obtain ⟨l, hl⟩ := hs.rd
      obtain ⟨m, hm⟩ := hs.job
      have hrd : ∀ a, ∃ l : List RAct, R.step s.rd a = l.foldl R.step R.init := fun a => ⟨l ++ [a], by rw [List.foldl_append, ← hl]; rfl⟩
      have hjob : ∀ a, ∃ m, Job.step s.job a = Job.run (Job.init b) (as ++ m) :=
        fun a => ⟨m ++ [a], by rw [← List.append_assoc, Job.run_append, ← hm]; rfl⟩
      cases a with
      | job a =>
        refine ⟨hs.pipe, hs.rd, hjob a, fun w hw => ⟨(hs.call w hw).1, ?_⟩⟩
        have := (hs.call w hw).2
        rw [hm] at this
        show Job.WaitsFor (Job.step s.job a) w p
        rw [hm]
        exact waitsFor_step this
      | io a =>
        simp only [step]
        split
        · split
          · exact hs
          · split
            · rename_i hst
              refine ⟨hs.pipe, hrd a, hjob (.wait s.pipe), fun w hw => ⟨hst, ?_⟩⟩
              cases hw
              have hlen : p < s.job.pipes.length := by
                rw [hm, Job.run_append]
                have hlt : (Job.run (Job.init b) as).pipes[p]? = some (Job.run (Job.init b) as).pipes[p] :=
                  List.getElem?_eq_getElem hp
                obtain ⟨P', hP', -⟩ := (Job.ext_run (Job.inv_run b as) m).pipe p _ hlt
                exact (List.getElem?_eq_some_iff.1 hP').1
              refine ⟨⟨p, none, .fresh, false⟩, ?_, rfl⟩
              simp [Job.step, hs.pipe, hlen]
            · exact ⟨hs.pipe, hrd a, hs.job, fun w hw => by cases hw⟩
        · rename_i hr
          refine ⟨hs.pipe, hrd a, hs.job, fun w hw => ⟨?_, (hs.call w hw).2⟩⟩
          have hst := (hs.call w hw).1
          show R.cons (R.step s.rd a) = _
          rw [hst] at hr
          rw [hl] at hst ⊢
          exact hR l a hst (by simpa using hr)
  exact key h _ ⟨rfl, ⟨[], rfl⟩, ⟨[], by simp [start]⟩, fun w hw => by cases hw⟩

theorem outcome_ended {S : Type} {s : St S} {r : Job.Res} (h : outcome s = some r) : ∃ w, s.call = some w ∧ Job.Ended s.job w r := by
  unfold outcome at h
  split at h
  · cases h
  · rename_i w hw
    refine ⟨w, hw, ?_⟩
    split at h
    · rename_i W hW
      split at h
      · rename_i r' hr; cases h; exact ⟨W, hW, hr⟩
      · cases h
    · cases h

/-! ### C78 -/

/-- **C78** for `for line in pipeline`, for every history: any times and sizes of writes and reads, any order in which the
items end, any other jobs, any steps of the event loop.  If the iteration ends normally, the lines received are all lines of
the output, no item is running any more, and none has failed.  If it ends with `PipelineFailed`, all lines have been received
before, some item has failed, and the exception lists exactly the failed items. -/
theorem C78_lines (b : Bool) (as : List Job.Act) (p : Nat) (hp : p < (Job.run (Job.init b) as).pipes.length) (h : List Act) :
    let s := run lines (start lines (Job.run (Job.init b) as) p) h
    (outcome s = some .ok → IsLines s.rd.pipe.written s.rd.out ∧ ¬ Job.Alive s.job.pipes p ∧ ¬ Job.Broken s.job.pipes p) ∧
    (∀ l, outcome s = some (.failed l) → IsLines s.rd.pipe.written s.rd.out ∧ ¬ Job.Alive s.job.pipes p ∧
      Job.Broken s.job.pipes p ∧ ∀ i, i ∈ l ↔ ∃ it, Job.itemAt s.job p i = some it ∧ Job.ItemBroken s.job.pipes it) := by
  intro s
  have P := parts_run stays_lines hp h
  change Parts lines b as p s at P
  obtain ⟨l, hl⟩ := P.rd
  obtain ⟨m, hm⟩ := P.job
  have hlines : lines.cons s.rd = .stopped → IsLines s.rd.pipe.written s.rd.out := by
    intro hs
    rw [hl] at hs ⊢
    exact Io.C36_lines l hs
  constructor
  · intro ho
    obtain ⟨w, hw, he⟩ := outcome_ended ho
    obtain ⟨h1, h2⟩ := P.call w hw
    rw [hm] at h2 he ⊢
    exact ⟨hlines h1, Job.C47_only_when_done b _ w p _ h2 he (by simp) (by simp), (Job.C48_exact b _ w p _ h2 he).1 rfl⟩
  · intro l ho
    obtain ⟨w, hw, he⟩ := outcome_ended ho
    obtain ⟨h1, h2⟩ := P.call w hw
    rw [hm] at h2 he ⊢
    obtain ⟨h3, -, h4⟩ := (Job.C48_exact b _ w p _ h2 he).2 l rfl
    exact ⟨hlines h1, Job.C47_only_when_done b _ w p _ h2 he (by simp) (by simp), h3, h4⟩

/-- **C78** for `bytes(pipeline)` and `iterbytes()`: the same with the bytes of the output. -/
theorem C78_bytes (b : Bool) (as : List Job.Act) (p : Nat) (hp : p < (Job.run (Job.init b) as).pipes.length) (h : List Act) :
    let s := run chunks (start chunks (Job.run (Job.init b) as) p) h
    (outcome s = some .ok → s.rd.out.flatten = s.rd.pipe.written ∧ ¬ Job.Alive s.job.pipes p ∧ ¬ Job.Broken s.job.pipes p) ∧
    (∀ l, outcome s = some (.failed l) → s.rd.out.flatten = s.rd.pipe.written ∧ ¬ Job.Alive s.job.pipes p ∧
      Job.Broken s.job.pipes p ∧ ∀ i, i ∈ l ↔ ∃ it, Job.itemAt s.job p i = some it ∧ Job.ItemBroken s.job.pipes it) := by
  intro s
  have P := parts_run stays_chunks hp h
  change Parts chunks b as p s at P
  obtain ⟨l, hl⟩ := P.rd
  obtain ⟨m, hm⟩ := P.job
  have hlines : chunks.cons s.rd = .stopped → s.rd.out.flatten = s.rd.pipe.written := by
    intro hs
    rw [hl] at hs ⊢
    exact Io.C37_bytes l hs
  constructor
  · intro ho
    obtain ⟨w, hw, he⟩ := outcome_ended ho
    obtain ⟨h1, h2⟩ := P.call w hw
    rw [hm] at h2 he ⊢
    exact ⟨hlines h1, Job.C47_only_when_done b _ w p _ h2 he (by simp) (by simp), (Job.C48_exact b _ w p _ h2 he).1 rfl⟩
  · intro l ho
    obtain ⟨w, hw, he⟩ := outcome_ended ho
    obtain ⟨h1, h2⟩ := P.call w hw
    rw [hm] at h2 he ⊢
    obtain ⟨h3, -, h4⟩ := (Job.C48_exact b _ w p _ h2 he).2 l rfl
    exact ⟨hlines h1, Job.C47_only_when_done b _ w p _ h2 he (by simp) (by simp), h3, h4⟩

/-- one process writes "hi\n" and fails with status 3: the line is received, then the failure -/
def exHist (code : Nat) : List Act :=
  [.io .next, .io (.write [104, 105, 10]), .io (.event 9), .io .resume, .io .next, .io .close, .io (.event 9), .io .resume,
   .job (.resume 0), .job (.finish 0 0 (.exited code)), .job (.task 0 0), .job (.resume 0)]
example : outcome (run lines (start lines (Job.run (Job.init false) [.start [Job.proc]]) 0) (exHist 3)) = some (.failed [0]) ∧
    (run lines (start lines (Job.run (Job.init false) [.start [Job.proc]]) 0) (exHist 3)).rd.out = [[104, 105]] := by decide +kernel
example : outcome (run lines (start lines (Job.run (Job.init false) [.start [Job.proc]]) 0) (exHist 0)) = some .ok := by decide +kernel
example : outcome (run chunks (start chunks (Job.run (Job.init false) [.start [Job.proc]]) 0)
    [.io .next, .io (.write [104, 105, 10]), .io (.event 9), .io .resume, .io .next, .io .close, .io (.event 9), .io .resume, .io .next,
     .job (.resume 0), .job (.finish 0 0 (.exited 1)), .job (.task 0 0), .job (.resume 0)]) = some (.failed [0]) := by decide +kernel

/-- What the programs write to the pipe in a history, until all of them have closed it. -/
def ioWrites : List Act → Io.Bytes
  | [] => []
  | .io (.write bs) :: h => bs ++ ioWrites h
  | .io .close :: _ => []
  | _ :: h => ioWrites h

/-- the pipe of a reader: whether it is closed, and what has been written to it -/
def pipeOf (closed : Bool) (written : Io.Bytes) : RAct → Bool × Io.Bytes
  | .write bs => (closed, if closed then written else written ++ bs)
  | .close => (true, written)
  | _ => (closed, written)

theorem line_pipe (s : Io.Line.St) (a : RAct) :
    ((Io.Line.step s a).pipe.closed, (Io.Line.step s a).pipe.written) = pipeOf s.pipe.closed s.pipe.written a := by
  have hw : ∀ s, (Io.Line.wake s).pipe = s.pipe := by intro s; unfold Io.Line.wake; split <;> rfl
  have ha : ∀ s, (Io.Line.anext s).pipe = s.pipe := by intro s; unfold Io.Line.anext; split <;> (try split) <;> rfl
  cases a with
  | write bs => simp only [Io.Line.step, Io.Pipe.write, pipeOf]; split <;> simp_all
  | close => rfl
  | event n =>
    simp only [Io.Line.step, pipeOf]
    split
    · unfold Io.Line.handleEvent; split
      · rfl
      · simp only [hw]; split <;> rfl
    · rfl
  | next => simp only [Io.Line.step, pipeOf]; split <;> simp only [ha]
  | resume => simp only [Io.Line.step, pipeOf]; split <;> simp only [ha]
  | cancel => simp only [Io.Line.step, pipeOf]; split <;> rfl

theorem chunk_pipe (s : Io.Chunk.St) (a : RAct) :
    ((Io.Chunk.step s a).pipe.closed, (Io.Chunk.step s a).pipe.written) = pipeOf s.pipe.closed s.pipe.written a := by
  have hw : ∀ s, (Io.Chunk.wake s).pipe = s.pipe := by intro s; unfold Io.Chunk.wake; split <;> rfl
  have ht : ∀ s, (Io.Chunk.take s).pipe = s.pipe := by intro s; unfold Io.Chunk.take; split <;> rfl
  have ha : ∀ s, (Io.Chunk.anext s).pipe = s.pipe := by
    intro s; unfold Io.Chunk.anext; split
    · exact ht s
    · split <;> rfl
  cases a with
  | write bs => simp only [Io.Chunk.step, Io.Pipe.write, pipeOf]; split <;> simp_all
  | close => rfl
  | event n =>
    simp only [Io.Chunk.step, pipeOf]
    split
    · unfold Io.Chunk.handleEvent; split
      · simp only [hw]
      · simp only [hw]; split <;> rfl
    · rfl
  | next => simp only [Io.Chunk.step, pipeOf]; split <;> simp only [ha]
  | resume => simp only [Io.Chunk.step, pipeOf]; split <;> simp only [ht]
  | cancel => simp only [Io.Chunk.step, pipeOf]; split <;> rfl

/-- the reader part of a step -/
theorem step_rd {S : Type} (R : Reader S) (s : St S) (a : RAct) :
    (step R s (.io a)).rd = R.step s.rd a ∨ (a = .next ∨ a = .resume) ∧ (step R s (.io a)).rd = s.rd := by
  simp only [step]
  split
  · rename_i hr
    split
    · refine .inr ⟨?_, rfl⟩
      cases a <;> simp [runs] at hr ⊢
    · split <;> exact .inl rfl
  · exact .inl rfl

theorem written_run {S : Type} (R : Reader S) (pipe : S → Io.Pipe)
    (hR : ∀ s a, ((pipe (R.step s a)).closed, (pipe (R.step s a)).written) = pipeOf (pipe s).closed (pipe s).written a) (h : List Act) (s : St S) :
    (pipe (run R s h).rd).written = (pipe s.rd).written ++ (if (pipe s.rd).closed then [] else ioWrites h) := by
  induction h generalizing s with
  | nil => simp [run, ioWrites]
  | cons a h ih =>
    show (pipe (run R (step R s a) h).rd).written = _
    rw [ih]
    cases a with
    | job a => rfl
    | io a =>
      have e : ((pipe (step R s (.io a)).rd).closed, (pipe (step R s (.io a)).rd).written) = pipeOf (pipe s.rd).closed (pipe s.rd).written a := by
        rcases step_rd R s a with h | ⟨h1, h2⟩
        · rw [h]; exact hR _ _
        · rw [h2]; rcases h1 with rfl | rfl <;> rfl
      have e1 := congrArg Prod.fst e
      have e2 := congrArg Prod.snd e
      simp only at e1 e2
      rw [e1, e2]
      cases a <;> cases (pipe s.rd).closed <;> simp [pipeOf, ioWrites]

/-- **C78.** "The output" is what the programs have written: whatever the consumer is doing, also while it waits for them to end. -/
theorem C78_output (b : Bool) (as : List Job.Act) (p : Nat) (h : List Act) :
    (run lines (start lines (Job.run (Job.init b) as) p) h).rd.pipe.written = ioWrites h ∧
    (run chunks (start chunks (Job.run (Job.init b) as) p) h).rd.pipe.written = ioWrites h :=
  ⟨written_run lines Io.Line.St.pipe line_pipe h _, written_run chunks Io.Chunk.St.pipe chunk_pipe h _⟩

/-- The consumer comes to the end of the stream only by a step of its own. -/
def Only {S : Type} (R : Reader S) : Prop := ∀ s a, runs (R.cons s) a = false → R.cons (R.step s a) = .stopped → R.cons s = .stopped

theorem only_lines : Only lines := by
  intro s a hr h
  have hw : ∀ s, (Io.Line.wake s).cons = .stopped → s.cons = .stopped := by
    intro s; unfold Io.Line.wake; split <;> simp
  change (Io.Line.step s a).cons = _ at h
  change s.cons = _
  change runs s.cons a = false at hr
  cases a with
  | write bs => exact h
  | close => exact h
  | event n =>
    simp only [Io.Line.step] at h
    split at h
    · unfold Io.Line.handleEvent at h; split at h
      · exact h
      · have := hw _ h
        split at this <;> exact this
    · exact h
  | next => simp only [Io.Line.step] at h; simp [runs] at hr; split at h <;> simp_all
  | resume => simp only [Io.Line.step] at h; simp [runs] at hr; split at h <;> simp_all
  | cancel => simp only [Io.Line.step] at h; split at h <;> simp_all

theorem only_chunks : Only chunks := by
  intro s a hr h
  have hw : ∀ s, (Io.Chunk.wake s).cons = .stopped → s.cons = .stopped := by
    intro s; unfold Io.Chunk.wake; split <;> simp
  change (Io.Chunk.step s a).cons = _ at h
  change s.cons = _
  change runs s.cons a = false at hr
  cases a with
  | write bs => exact h
  | close => exact h
  | event n =>
    simp only [Io.Chunk.step] at h
    split at h
    · unfold Io.Chunk.handleEvent at h; split at h
      · exact hw _ h
      · have := hw _ h
        split at this <;> exact this
    · exact h
  | next => simp only [Io.Chunk.step] at h; simp [runs] at hr; split at h <;> simp_all
  | resume => simp only [Io.Chunk.step] at h; simp [runs] at hr; split at h <;> simp_all
  | cancel => simp only [Io.Chunk.step] at h; split at h <;> simp_all

theorem stopped_called {S : Type} {R : Reader S} (hR : Only R) (h0 : R.cons R.init ≠ .stopped) (j : Job.St) (p : Nat) (h : List Act) :
    R.cons (run R (start R j p) h).rd = .stopped → (run R (start R j p) h).call ≠ none := by
  have key : ∀ (h : List Act) (s : St S), (R.cons s.rd = .stopped → s.call ≠ none) → (R.cons (run R s h).rd = .stopped → (run R s h).call ≠ none) := by
    intro h
    induction h with
    | nil => exact fun s hs => hs
    | cons a h ih =>
      intro s hs
      refine ih (step R s a) ?_
      cases a with
      | job a => exact hs
      | io a =>
        simp only [step]
        split
        · split
          · exact hs
          · split
            · exact fun _ => by simp
            · rename_i hn; exact fun hh => absurd hh hn
        · rename_i hr
          exact fun hh => hs (hR _ _ (by simpa using hr) hh)
  exact key h _ (fun hh => absurd hh h0)

theorem outcome_over {S : Type} {s : St S} {w : Nat} (hw : s.call = some w) : outcome s = none → over s.job w = false := by
  unfold outcome over
  rw [hw]
  simp only
  intro h
  split
  · rename_i W hW
    rw [hW] at h
    simp only at h
    split
    · rename_i r hr; rw [hr] at h; cases h
    · rfl
  · rfl

theorem waits_of {S : Type} {R : Reader S} (hS : Stays R) (hR : Only R) (h0 : R.cons R.init ≠ .stopped) (b : Bool) (as : List Job.Act) (p : Nat)
    (hp : p < (Job.run (Job.init b) as).pipes.length) (h : List Act) (s : St S) (hs : s = run R (start R (Job.run (Job.init b) as) p) h)
    (hst : R.cons s.rd = .stopped) : (∃ w, s.call = some w ∧ Job.WaitsFor s.job w p) ∧ (outcome s = none → step R s (.io .next) = s) := by
  subst hs
  have P := parts_run hS hp h
  cases hc : (run R (start R (Job.run (Job.init b) as) p) h).call with
  | none => exact absurd hc (stopped_called hR h0 _ p h hst)
  | some w =>
    refine ⟨⟨w, rfl, (P.call w hc).2⟩, fun ho => ?_⟩
    have hov := outcome_over hc ho
    have hat : atEof (run R (start R (Job.run (Job.init b) as) p) h) = true := by simp [atEof, hc, hov]
    simp only [step, hat, ↓reduceIte, hst, runs]
    rfl

/-- **C78.** At the end of the output, `wait()` of this pipeline has been called, and until that has ended the iteration goes on waiting: it cannot be continued, and no second `wait()` is called. -/
theorem C78_waits (b : Bool) (as : List Job.Act) (p : Nat) (hp : p < (Job.run (Job.init b) as).pipes.length) (h : List Act) :
    (∀ s, s = run lines (start lines (Job.run (Job.init b) as) p) h → s.rd.cons = .stopped →
      (∃ w, s.call = some w ∧ Job.WaitsFor s.job w p) ∧ (outcome s = none → step lines s (.io .next) = s)) ∧
    (∀ s, s = run chunks (start chunks (Job.run (Job.init b) as) p) h → s.rd.cons = .stopped →
      (∃ w, s.call = some w ∧ Job.WaitsFor s.job w p) ∧ (outcome s = none → step chunks s (.io .next) = s)) :=
  ⟨fun s hs => waits_of stays_lines only_lines (by decide) b as p hp h s hs, fun s hs => waits_of stays_chunks only_chunks (by decide) b as p hp h s hs⟩

/-- the stream has ended, the process has not -/
example : (run lines (start lines (Job.run (Job.init false) [.start [Job.proc]]) 0) ((exHist 3).take 8)).rd.cons = .stopped ∧
    outcome (run lines (start lines (Job.run (Job.init false) [.start [Job.proc]]) 0) ((exHist 3).take 8)) = none ∧
    ioWrites ((exHist 3).take 8) = [104, 105, 10] := by decide +kernel

/-! ### C79 -/

/-- Nobody asks the reader for more: the loop over the pipeline was left. -/
def Left : RAct → Bool
  | .next => false
  | .resume => false
  | _ => true

/-- What is written to the pipe by these steps, if it has not been closed. -/
def writes : List RAct → Io.Bytes
  | [] => []
  | .write bs :: l => bs ++ writes l
  | .close :: _ => []
  | _ :: l => writes l

/-- A reader with a complete line in its buffer has not come to the end of the stream. -/
theorem line_buffered (as : List RAct) : NL ∈ (Io.Line.run Io.Line.init as).buffer → (Io.Line.run Io.Line.init as).eof = false := by
  have key : ∀ (as : List RAct) (s : Io.Line.St), Io.Line.Inv s → (s.eof = true → NL ∉ s.buffer) →
      ((Io.Line.run s as).eof = true → NL ∉ (Io.Line.run s as).buffer) := by
    intro as
    induction as with
    | nil => intro s _ h; exact h
    | cons a as ih =>
      intro s hI h
      refine ih (Io.Line.step s a) (Io.Line.inv_step hI a) ?_
      have hnext : (Io.Line.anext s).eof = true → NL ∉ (Io.Line.anext s).buffer := by
        unfold Io.Line.anext
        split
        · exact h
        · split
          · exact h
          · intro he
            have hn := h he
            simp only [hn, if_false]
            rw [Io.splitNL_append _ hn]
            simp
      cases a with
      | write bs => exact h
      | close => exact h
      | next => simp only [Io.Line.step]; split <;> first | exact hnext | exact h
      | resume => simp only [Io.Line.step]; split <;> first | exact hnext | exact h
      | cancel => simp only [Io.Line.step]; split <;> exact h
      | event n =>
        simp only [Io.Line.step]
        split
        · rename_i hd
          simp only [Io.Line.handleEvent]
          split
          · exact h
          · rename_i hnl
            have hw : ∀ t : Io.Line.St, (Io.Line.wake t).eof = t.eof ∧ (Io.Line.wake t).buffer = t.buffer := by
              intro t; unfold Io.Line.wake; split <;> exact ⟨rfl, rfl⟩
            rw [(hw _).1, (hw _).2]
            split
            · rename_i he
              rw [List.isEmpty_iff] at he
              simp only [he, List.append_nil]
              exact fun _ => hnl
            · intro he
              simp only [Bool.and_eq_true, Bool.not_eq_true'] at hd
              have := hI.destroyed
              rw [hd.1] at this
              rw [← this] at he
              cases he
        · exact h
  intro h
  cases e : (Io.Line.run Io.Line.init as).eof with
  | false => rfl
  | true => exact absurd h (key as Io.Line.init Io.Line.inv_init (by simp [Io.Line.init]) e)

theorem pipe_write_pending (p : Io.Pipe) (bs : Io.Bytes) : (p.write bs).pending = p.pending ++ (if p.closed then [] else bs) := by
  unfold Io.Pipe.write; split <;> simp

theorem left_line (bs : List RAct) : ∀ s : Io.Line.St, (∀ b ∈ bs, Left b = true) → NL ∈ s.buffer → s.destroyed = false →
    (Io.Line.run s bs).destroyed = false ∧ (Io.Line.run s bs).buffer = s.buffer ∧
    (Io.Line.run s bs).pipe.pending = s.pipe.pending ++ (if s.pipe.closed then [] else writes bs) := by
  induction bs with
  | nil => intro s _ _ hd; exact ⟨hd, rfl, by simp [Io.Line.run, writes]⟩
  | cons a bs ih =>
    intro s hl hn hd
    have hl' : ∀ b ∈ bs, Left b = true := fun b hb => hl b (List.mem_cons_of_mem _ hb)
    have ha := hl a List.mem_cons_self
    have hrun : Io.Line.run s (a :: bs) = Io.Line.run (Io.Line.step s a) bs := rfl
    rw [hrun]
    cases a with
    | next => cases ha
    | resume => cases ha
    | write x =>
      obtain ⟨h1, h2, h3⟩ := ih (Io.Line.step s (.write x)) hl' hn hd
      refine ⟨h1, h2, ?_⟩
      rw [h3]
      have hc : (Io.Line.step s (.write x)).pipe.closed = s.pipe.closed := by
        simp only [Io.Line.step, Io.Pipe.write]; split <;> rfl
      rw [hc]
      show (s.pipe.write x).pending ++ _ = _
      rw [pipe_write_pending]
      cases s.pipe.closed <;> simp [writes]
    | close =>
      obtain ⟨h1, h2, h3⟩ := ih (Io.Line.step s .close) hl' hn hd
      refine ⟨h1, h2, ?_⟩
      rw [h3]
      simp [Io.Line.step, writes]
    | cancel =>
      have hs : (Io.Line.step s .cancel).buffer = s.buffer ∧ (Io.Line.step s .cancel).destroyed = s.destroyed ∧
          (Io.Line.step s .cancel).pipe = s.pipe := by
        simp only [Io.Line.step]; split <;> exact ⟨rfl, rfl, rfl⟩
      obtain ⟨h1, h2, h3⟩ := ih (Io.Line.step s .cancel) hl' (by rw [hs.1]; exact hn) (by rw [hs.2.1]; exact hd)
      exact ⟨h1, h2.trans hs.1, by rw [h3, hs.2.2]; rfl⟩
    | event n =>
      have hs : Io.Line.step s (.event n) = s := by
        simp only [Io.Line.step, Io.Line.handleEvent, hn, if_true]; split <;> rfl
      rw [hs]
      exact ih s hl' hn hd

/-- **C79 is false** for `for line in pipeline`: if the loop is left (by `break`, an exception, cancellation) while the reader
has another complete line in its buffer, then - whatever happens later, even if all programs have ended - the descriptor is
never closed and nothing is ever read from it again: what the programs go on writing stays in the pipe, until they block. -/
theorem C79_lines_refuted (as bs : List RAct) (hb : ∀ b ∈ bs, Left b = true) (hn : NL ∈ (Io.Line.run Io.Line.init as).buffer) :
    (Io.Line.run Io.Line.init (as ++ bs)).destroyed = false ∧
    (Io.Line.run Io.Line.init (as ++ bs)).pipe.pending =
      (Io.Line.run Io.Line.init as).pipe.pending ++ (if (Io.Line.run Io.Line.init as).pipe.closed then [] else writes bs) := by
  have hI := Io.Line.inv_run as Io.Line.inv_init
  have hd := hI.destroyed.trans (line_buffered as hn)
  have e : Io.Line.run Io.Line.init (as ++ bs) = Io.Line.run (Io.Line.run Io.Line.init as) bs := by
    unfold Io.Line.run; rw [List.foldl_append]
  rw [e]
  obtain ⟨h1, -, h3⟩ := left_line bs _ hb hn hd
  exact ⟨h1, h3⟩

-- "a\nb\n" is read at once; the loop is left after the first line
example : NL ∈ (Io.Line.run Io.Line.init [.next, .write [97, 10, 98, 10], .event 9, .resume]).buffer ∧
    (Io.Line.run Io.Line.init [.next, .write [97, 10, 98, 10], .event 9, .resume]).out = [[97]] ∧
    ∀ b ∈ ([.write [99, 10], .event 9, .close, .event 9] : List RAct), Left b = true := by decide

/-- C79, lines and chunks: as long as some program has the pipe open for writing, the reader does not close it, so that no
program is ever stopped by `SIGPIPE`. -/
theorem C79_never_closed_while_written (as : List RAct) :
    ((Io.Line.run Io.Line.init as).pipe.closed = false → (Io.Line.run Io.Line.init as).destroyed = false) ∧
    ((Io.Chunk.run Io.Chunk.init as).pipe.closed = false → (Io.Chunk.run Io.Chunk.init as).destroyed = false) := by
  have h1 := Io.Line.inv_run as Io.Line.inv_init
  have h2 := Io.Chunk.inv_run as Io.Chunk.inv_init
  constructor
  · intro hc
    cases hd : (Io.Line.run Io.Line.init as).destroyed with
    | false => rfl
    | true => have := (h1.eof (h1.destroyed.symm.trans hd)).2; rw [hc] at this; cases this
  · intro hc
    cases hd : (Io.Chunk.run Io.Chunk.init as).destroyed with
    | false => rfl
    | true => have := (h2.eof (h2.destroyed.symm.trans hd)).2; rw [hc] at this; cases this

example : (Io.Line.run Io.Line.init [.next, .write [97, 10], .event 9, .resume]).pipe.closed = false := by decide

/-- C79, the part that holds: an iteration that is continued until its end closes the descriptor. -/
theorem C79_end_closes_partial (as : List RAct) :
    ((Io.Line.run Io.Line.init as).cons = .stopped → (Io.Line.run Io.Line.init as).destroyed = true) ∧
    ((Io.Chunk.run Io.Chunk.init as).cons = .stopped → (Io.Chunk.run Io.Chunk.init as).destroyed = true) := by
  have h1 := Io.Line.inv_run as Io.Line.inv_init
  have h2 := Io.Chunk.inv_run as Io.Chunk.inv_init
  exact ⟨fun h => h1.destroyed.trans (h1.stopped h).1, fun h => h2.destroyed.trans (h2.stopped h).1⟩

example : (Io.Line.run Io.Line.init [.next, .write [97, 10], .event 9, .resume, .next, .close, .event 1, .resume]).cons = .stopped := by
  decide

/-! ### C80 -/

theorem current_resolve (s : Job.St) (p : Nat) : (Job.resolve s p).current = s.current := by
  unfold Job.resolve; split <;> rfl

theorem current_collect (s : Job.St) (p : Nat) : (Job.collect s p).current = s.current := by
  unfold Job.collect; simp only []; split <;> rfl

theorem current_handleFinish (s : Job.St) (p : Nat) : (Job.handleFinish s p).current = s.current := by
  unfold Job.handleFinish
  simp only []
  split
  · split
    · exact current_collect s p
    · rw [current_resolve, current_collect]
  · exact current_resolve s p

theorem current_register (s : Job.St) (w p : Nat) : (Job.register s w p).current = s.current := by
  unfold Job.register
  simp only []
  split
  · split <;> rfl
  · rfl

theorem current_finishWait (s : Job.St) (w p : Nat) (c : Option Nat) : (Job.finishWait s w p c).current = none := by
  unfold Job.finishWait
  simp only []
  split
  · rw [current_handleFinish]
  · rfl

theorem current_loopCheck (s : Job.St) (w p : Nat) (c : Option Nat) :
    (Job.loopCheck s w p c).current = s.current ∨ (Job.loopCheck s w p c).current = none := by
  unfold Job.loopCheck
  split
  · exact .inl (current_register s w p)
  · exact .inr (current_finishWait s w p c)

theorem current_start (s : Job.St) (xs : List Job.Spec) : (Job.start s xs).current = s.current := by
  unfold Job.start
  simp only []
  split
  · show (Job.handleFinish _ _).current = _
    rw [current_handleFinish]
  · rfl

/-- The pipeline CTRL-Z acts upon changes only when `wait()` of a pipeline begins or ends. -/
theorem current_step (s : Job.St) (a : Job.Act) : (Job.step s a).current = s.current ∨ (Job.step s a).current = none ∨
    ∃ w p, Job.WaitsFor s w p ∧ (Job.step s a).current = some p := by
  cases a with
  | start xs => exact .inl (current_start s xs)
  | wait p => simp only [Job.step]; split <;> exact .inl rfl
  | resume w =>
    simp only [Job.step, Job.resume]
    split
    · exact .inl rfl
    · rename_i W hW
      split
      · rcases current_loopCheck (Job.restart (if s.interactive then { s with current := some W.pipe } else s) W.pipe) w W.pipe W.cont with h | h
        · rw [h]
          show (if s.interactive then { s with current := some W.pipe } else s).current = _ ∨ (if s.interactive then { s with current := some W.pipe } else s).current = _ ∨ _
          split
          · exact .inr (.inr ⟨w, W.pipe, ⟨W, hW, rfl⟩, rfl⟩)
          · exact .inl rfl
        · exact .inr (.inl h)
      · rcases current_loopCheck s w W.pipe W.cont with h | h
        · exact .inl h
        · exact .inr (.inl h)
      · split
        · exact .inr (.inl rfl)
        · exact .inl rfl
      · exact .inl rfl
  | cancel w =>
    simp only [Job.step, Job.cancel]
    split
    · exact .inl rfl
    · split <;> exact .inl rfl
  | finish p i o =>
    simp only [Job.step]
    split
    · exact .inl rfl
    · split <;> exact .inl rfl
  | task p i =>
    simp only [Job.step]
    split
    · exact .inl rfl
    · split
      · split
        · exact .inl rfl
        · exact .inl (current_handleFinish _ _)
      · exact .inl rfl
  | tstp =>
    simp only [Job.step]
    split
    · exact .inl rfl
    · exact .inl (current_resolve _ _)
  | write p i path data =>
    simp only [Job.step]
    split
    · exact .inl rfl
    · split
      · split <;> exact .inl rfl
      · exact .inl rfl
  | restart p => exact .inl rfl
  | suspend p => exact .inl rfl
  | bg =>
    simp only [Job.step]
    split
    · exact .inl rfl
    · exact .inl (current_start _ _)
  | fg =>
    simp only [Job.step]
    split
    · exact .inl rfl
    · exact .inl (current_start _ _)
  | removeFiles p => exact .inl rfl

/-- The pipeline CTRL-Z acts upon has been waited for. -/
theorem current_waited (b : Bool) (as : List Job.Act) {p : Nat} (h : (Job.run (Job.init b) as).current = some p) :
    ∃ w, Job.WaitsFor (Job.run (Job.init b) as) w p := by
  have key : ∀ (l : List Job.Act), (∀ q, (Job.run (Job.init b) l.reverse).current = some q → ∃ w, Job.WaitsFor (Job.run (Job.init b) l.reverse) w q) := by
    intro l
    induction l with
    | nil => intro q h; cases h
    | cons a l ih =>
      intro q h
      rw [List.reverse_cons, Job.run_append] at h ⊢
      change (Job.step (Job.run (Job.init b) l.reverse) a).current = some q at h
      change ∃ w, Job.WaitsFor (Job.step (Job.run (Job.init b) l.reverse) a) w q
      rcases current_step (Job.run (Job.init b) l.reverse) a with h1 | h1 | ⟨w, r, h1, h2⟩
      · obtain ⟨w, hw⟩ := ih q (h1.symm.trans h)
        exact ⟨w, waitsFor_step hw⟩
      · rw [h1] at h; cases h
      · rw [h2] at h; cases h
        exact ⟨w, waitsFor_step h1⟩
  have := key as.reverse p
  rw [List.reverse_reverse] at this
  exact this h

/-- **C80 is false**: as long as no `wait()` has been called for a pipeline - in particular, while a program iterates over its
output and has not come to the end of it - CTRL-Z does nothing to it, whatever has happened before: its items are not stopped,
and it is not marked as suspended. -/
theorem C80_refuted (R : Reader S) (hR : Stays R) (b : Bool) (as : List Job.Act) (p : Nat)
    (hp : p < (Job.run (Job.init b) as).pipes.length) (h : List Act)
    (hno : ∀ w, ¬ Job.WaitsFor (run R (start R (Job.run (Job.init b) as) p) h).job w p) :
    (step R (run R (start R (Job.run (Job.init b) as) p) h) (.job .tstp)).job.pipes[p]? =
      (run R (start R (Job.run (Job.init b) as) p) h).job.pipes[p]? := by
  have P := parts_run hR hp h
  revert P hno
  generalize run R (start R (Job.run (Job.init b) as) p) h = s
  intro hno P
  obtain ⟨m, hm⟩ := P.job
  show (Job.step s.job .tstp).pipes[p]? = _
  have hc : s.job.current ≠ some p := by
    intro hc
    rw [hm] at hc
    obtain ⟨w, hw⟩ := current_waited b _ hc
    exact hno w (hm ▸ hw)
  simp only [Job.step]
  split
  · rfl
  · rename_i q hq
    have hne : q ≠ p := by rintro rfl; exact hc hq
    have h1 : ∀ (t : Job.St) (f : Job.Pipe → Job.Pipe), (t.modPipe q f).pipes[p]? = t.pipes[p]? := by
      intro t f
      simp [Job.St.modPipe, List.getElem?_modify, hne]
    unfold Job.resolve
    split
    · exact h1 _ _
    · rw [h1]
      exact h1 s.job _

/-- the line "a" has been received, the program is running, nobody waits for it -/
example : (∀ w, ¬ Job.WaitsFor (run lines (start lines (Job.run (Job.init true) [.start [Job.proc]]) 0)
      [.io .next, .io (.write [97, 10]), .io (.event 9), .io .resume, .io .next]).job w 0) ∧
    (Job.itemAt (step lines (run lines (start lines (Job.run (Job.init true) [.start [Job.proc]]) 0)
      [.io .next, .io (.write [97, 10]), .io (.event 9), .io .resume, .io .next]) (.job .tstp)).job 0 0).map Job.Item.stopped = some false := by
  refine ⟨?_, by decide +kernel⟩
  rintro w ⟨W, hW, -⟩
  have : (run lines (start lines (Job.run (Job.init true) [.start [Job.proc]]) 0)
      [.io .next, .io (.write [97, 10]), .io (.event 9), .io .resume, .io .next]).job.waiters = [] := by decide +kernel
  rw [this] at hW
  cases hW

end Pieshell.Iterate
