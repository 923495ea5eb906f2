import Verif.Lemmas.Status
import Verif.Props.Signal

/-! C100, C101: what can be asked of a running pipeline, and what is shown of its programs. -/
namespace Pieshell.Status
open Pieshell.Sig

/-- What pieshell has been told and what has happened: only exits that have happened, at most one, and all of them once the signals have been handled. -/
theorem C100_told (m : Mgr) (as : List Act) (p c : Nat) (hr : Registered (run (init m) as) p) :
    (ToldExit (run (init m) as) p c → Change.exited c ∈ changesOf (run (init m) as) p) ∧
    (Quiet (run (init m) as) → Change.exited c ∈ changesOf (run (init m) as) p → ToldExit (run (init m) as) p c) := by
  refine ⟨toldExit_changes (inv_run m as), fun hq hm => ?_⟩
  obtain ⟨ps, h1, h2, h3⟩ := C46_exited_partial m as p c hq hr hm
  have hl : lastEvent (run (init m) as) p = some ⟨SIGCHLD, CLD_EXITED, p, c⟩ := by simp [lastEvent, h1, h3]
  rw [((rec_run m as) p).2] at hl
  exact List.mem_of_getLast? hl

open Classical in
/-- C100: at every moment of every history, `failed_processes` are exactly the items that have ended badly and `running_processes` those that have not ended,
in the order of the pipeline; `is_failed` and `is_running` say whether there are any; none of these raises an exception. -/
theorem C100_failed_processes (m : Mgr) (as : List Act) (l : List Item) (h : AllKnown (run (init m) as) l) :
    failedItems (run (init m) as) l = .ok (l.filter (fun it => decide (Bad (run (init m) as) it))) ∧
    runningItems (run (init m) as) l = l.filter (fun it => decide (Active (run (init m) as) it)) ∧
    pipeFailed (run (init m) as) l = .ok (decide (SomeBad (run (init m) as) l)) ∧
    anyRunning (run (init m) as) l = decide (SomeActive (run (init m) as) l) := by
  have hi := inv_run m as
  have hr := rec_run m as
  have h1 := failedItems_spec hi hr l h
  refine ⟨h1, ?_, ?_, ?_⟩
  · have key : ∀ l : List Item, AllKnown (run (init m) as) l →
        runningItems (run (init m) as) l = l.filter (fun it => decide (Active (run (init m) as) it)) := by
      intro l
      induction l with
      | nil => intro _; rfl
      | cons it l ih =>
        intro hk
        have := ih hk.2
        simp only [runningItems] at this ⊢
        rw [List.filter_cons, List.filter_cons, this]
        have := isRunning_iff hi hr it hk.1
        by_cases ha : Active (run (init m) as) it
        · simp [ha, this.2 ha]
        · have : isRunning (run (init m) as) it = false := (not_isRunning_iff hi hr it hk.1).2 ha
          simp [ha, this]
    exact key l h
  · rw [pipeFailed, h1]
    simp only [Except.map, Except.ok.injEq]
    have := filter_ne_nil (g := run (init m) as) l
    by_cases hb : SomeBad (run (init m) as) l
    · have h2 := this.2 hb
      simp only [hb, decide_true]
      cases he : l.filter (fun it => decide (Bad (run (init m) as) it)) with
      | nil => exact absurd he h2
      | cons a b => rfl
    · simp only [hb, decide_false]
      cases he : l.filter (fun it => decide (Bad (run (init m) as) it)) with
      | nil => rfl
      | cons a b => exact absurd (this.1 (by rw [he]; simp)) hb
  · have := anyRunning_iff hi hr l h
    by_cases ha : SomeActive (run (init m) as) l
    · simp [ha, this.2 ha]
    · cases hb : anyRunning (run (init m) as) l with
      | true => exact absurd (this.1 hb) ha
      | false => simp [ha]

/-- C100, the exit code of a pipeline, exactly: that of the last item only, for a program whatever the last event was about, for anything else 0. -/
theorem C100_exit_code (m : Mgr) (as : List Act) (l : List Item) (p : Nat) :
    exitCode (run (init m) as) [] = .error .indexError ∧
    (∀ st, exitCode (run (init m) as) (l ++ [.func st]) = .ok 0) ∧
    (∀ w, exitCode (run (init m) as) (l ++ [.fg w]) = .ok 0) ∧
    (told (run (init m) as) p = [] → exitCode (run (init m) as) (l ++ [.proc p]) = .error .typeError) ∧
    (∀ i, (told (run (init m) as) p).getLast? = some i → exitCode (run (init m) as) (l ++ [.proc p]) = .ok i.status) := by
  have hl := ((rec_run m as) p).2
  refine ⟨rfl, fun st => by simp [exitCode, itemExit], fun w => by simp [exitCode, itemExit], fun h => ?_, fun i h => ?_⟩
  · rw [h] at hl
    simp [exitCode, itemExit, procExit, hl]
  · rw [h] at hl
    simp [exitCode, itemExit, procExit, hl]

/-- C100, once the last program has ended: `exit_code` is its exit code; and an exit code other than 0 always comes with `is_failed`. -/
theorem C100_ended_partial (m : Mgr) (as : List Act) (l : List Item) (p c : Nat) (h : AllKnown (run (init m) as) (l ++ [.proc p]))
    (ht : ToldExit (run (init m) as) p c) :
    exitCode (run (init m) as) (l ++ [.proc p]) = .ok c ∧
    (c ≠ 0 → pipeFailed (run (init m) as) (l ++ [.proc p]) = .ok true) ∧
    (l = [] → pipeFailed (run (init m) as) (l ++ [.proc p]) = .ok (decide (c ≠ 0))) := by
  have hk : ∀ l : List Item, AllKnown (run (init m) as) (l ++ [.proc p]) → Registered (run (init m) as) p := by
    intro l
    induction l with
    | nil => intro h; exact h.1
    | cons a l ih => intro h; exact ih h.2
  have hb : ∀ l : List Item, c ≠ 0 → SomeBad (run (init m) as) (l ++ [.proc p]) := by
    intro l hc
    induction l with
    | nil => exact .inl (by simp only [Bad]; exact ⟨c, hc, ht⟩)
    | cons a l ih => exact .inr ih
  have he := exit_of_told (inv_run m as) (rec_run m as) (hk l h) ht
  refine ⟨by simp [exitCode, itemExit, he], fun hc => ?_, ?_⟩
  · rw [(C100_failed_processes m as _ h).2.2.1]
    simp [hb l hc]
  · rintro rfl
    rw [(C100_failed_processes m as _ h).2.2.1]
    congr 1
    by_cases hc : c = 0
    · subst hc
      have : ¬ SomeBad (run (init m) as) ([] ++ [.proc p]) := by
        simp only [List.nil_append, SomeBad, Bad, or_false]
        rintro ⟨c', h1, h2⟩
        exact h1 (toldExit_unique (inv_run m as) h2 ht)
      exact @decide_eq_false _ (_) this
    · rw [@decide_eq_true _ (_) (hb [] hc), decide_eq_true hc]

/-- `grep` (5) and `wc` (6) have been started; 5 exits with 1, 6 is stopped by CTRL-Z and reported. -/
def history : List Act :=
  [.spawn 5 true, .spawn 6 true, .change 5 (.exited 1), .catchChld, .event, .readChld, .reap 5, .waitEnd, .readNone,
   .change 6 (.stopped 20), .catchChld, .event, .readChld, .reap 6, .waitEnd, .readNone]
/-- 6 then goes on and exits with 0. -/
def later : List Act := history ++ [.change 6 .continued, .catchChld, .event, .readChld, .reap 6, .waitEnd, .readNone,
  .change 6 (.exited 0), .catchChld, .event, .readChld, .reap 6, .waitEnd, .readNone]

example : ∀ m, AllKnown (run (init m) later) [.proc 5, .func .returned, .fg [.proc 5], .proc 6] ∧
    ToldExit (run (init m) later) 6 0 ∧ ToldExit (run (init m) later) 5 1 := by
  intro m
  have h5 : Registered (run (init m) later) 5 := by simp only [Registered]; cases m <;> decide
  have h6 : Registered (run (init m) later) 6 := by simp only [Registered]; cases m <;> decide
  refine ⟨⟨h5, trivial, ⟨h5, trivial⟩, h6, trivial⟩, ?_, ?_⟩ <;> simp only [ToldExit] <;> cases m <;> decide

/-- C100 is false before the first event: asking for the exit code raises `TypeError`. -/
theorem C100_refuted_early (m : Mgr) (l : List Item) : exitCode (run (init m) [.spawn 5 true]) (l ++ [.proc 5]) = .error .typeError :=
  (C100_exit_code m _ l 5).2.2.2.1 (by cases m <;> rfl)

/-- C100 is false for a program that has not exited: after any stop signal, or death by a signal, the exit code is the number of the signal, as if the
program had exited with that number. -/
theorem C100_refuted_signals (m : Mgr) (as : List Act) (l : List Item) (p : Nat) (ch : Change) (sig : Nat)
    (hc : ch = .stopped sig ∨ ∃ core, ch = .killed sig core) (hv : ch.valid = true)
    (ht : (told (run (init m) as) p).getLast? = some (chldInfo p ch)) :
    exitCode (run (init m) as) (l ++ [.proc p]) = .ok sig ∧ (Registered (run (init m) as) p → procRunning (run (init m) as) p = true) := by
  have hne : ch ≠ .continued := by rcases hc with rfl | ⟨_, rfl⟩ <;> simp
  constructor
  · rw [(C100_exit_code m as l p).2.2.2.2 _ ht]
    congr 1
    simp only [chldInfo, decode_of_valid ch hv hne]
    rcases hc with rfl | ⟨core, rfl⟩ <;> rfl
  · intro hr
    cases h : procRunning (run (init m) as) p with
    | true => rfl
    | false =>
      obtain ⟨c, h1, h2⟩ := not_running (inv_run m as) (rec_run m as) hr h
      rw [((rec_run m as) p).2, ht] at h2
      have : (decode ch.status).1 = CLD_EXITED := congrArg SigInfo.code (Option.some.inj h2)
      obtain ⟨c', rfl⟩ := (decode_exited ch hv).1 this
      rcases hc with h | ⟨_, h⟩ <;> cases h

example : ∀ m, (told (run (init m) history) 6).getLast? = some (chldInfo 6 (.stopped 20)) ∧ Registered (run (init m) history) 6 := by
  intro m; simp only [Registered]; cases m <;> decide

/-- C100 is false for functions: one that fails at the end of a pipeline makes it fail with exit code 0; so does a failing program followed by one that
succeeds. -/
theorem C100_refuted_zero (m : Mgr) (as : List Act) (l : List Item) (p q : Nat) :
    (AllKnown (run (init m) as) (l ++ [.func .raised]) →
      exitCode (run (init m) as) (l ++ [.func .raised]) = .ok 0 ∧ pipeFailed (run (init m) as) (l ++ [.func .raised]) = .ok true) ∧
    (Registered (run (init m) as) p → Registered (run (init m) as) q → (∃ c, c ≠ 0 ∧ ToldExit (run (init m) as) p c) → ToldExit (run (init m) as) q 0 →
      exitCode (run (init m) as) [.proc p, .proc q] = .ok 0 ∧ pipeFailed (run (init m) as) [.proc p, .proc q] = .ok true) := by
  constructor
  · intro hk
    refine ⟨(C100_exit_code m as l p).2.1 _, ?_⟩
    rw [(C100_failed_processes m as _ hk).2.2.1]
    have : ∀ l : List Item, SomeBad (run (init m) as) (l ++ [.func .raised]) := by
      intro l
      induction l with
      | nil => exact .inl (by simp only [Bad])
      | cons a l ih => exact .inr ih
    simp [this l]
  · rintro hp hq ⟨c, hc, h1⟩ h2
    have hk : AllKnown (run (init m) as) [.proc p, .proc q] := ⟨hp, hq, trivial⟩
    refine ⟨(C100_ended_partial m as [.proc p] q 0 hk h2).1, ?_⟩
    rw [(C100_failed_processes m as _ hk).2.2.1]
    have : SomeBad (run (init m) as) [.proc p, .proc q] := .inl (by simp only [Bad]; exact ⟨c, hc, h1⟩)
    simp [this]

example (m : Mgr) : exitCode (run (init m) later) [.proc 5, .proc 6] = .ok 0 ∧ pipeFailed (run (init m) later) [.proc 5, .proc 6] = .ok true := by
  refine (C100_refuted_zero m later [] 5 6).2 ?_ ?_ ⟨1, by decide, ?_⟩ ?_ <;> simp only [Registered, ToldExit] <;> cases m <;> decide

/-! ### C101 -/

/-- The text for a process in the state reached by its last change; `files`: descriptors and names of its `TMP` files. -/
def shown (p : Nat) (files : List (Str × Str)) : Option Change → Str
  | none => num p
  | some (.exited c) => num p ++ c!" (exit_code=" ++ num c ++ files.flatMap (fun f => c!", " ++ f.1 ++ c!"=" ++ f.2) ++ c!")"
  | some (.killed sig core) => num p ++ c!" (status=" ++ num (if core then CLD_DUMPED else CLD_KILLED) ++ c!", signal=" ++ num sig ++ c!")"
  | some (.stopped sig) => num p ++ c!" (status=" ++ num CLD_STOPPED ++ c!", signal=" ++ num sig ++ c!")"
  | some .continued => num p

theorem commas_cons (x : Str) : ∀ l : List Str, commas (x :: l) = x ++ l.flatMap (fun w => c!", " ++ w)
  | [] => by simp [commas]
  | y :: l => by rw [commas, commas_cons y l]; simp; intro h; cases h

/-- C101: what is shown of a process never raises, and once all signals have been handled it shows the process number and, by its last change: nothing
while it is running, stop or death with the number of the signal, or exit code and temporary files.  Except for a process that was continued (see below), and
for one that sends `SIGTSTP` to the shell itself. -/
theorem C101_shown_partial (m : Mgr) (as : List Act) (p : Nat) (files : List (Str × Str)) (hr : Registered (run (init m) as) p) :
    (∃ t, procText (run (init m) as) p files = .ok t) ∧
    (Quiet (run (init m) as) → Act.tstp p ∉ as → (changesOf (run (init m) as) p).getLast? ≠ some .continued →
      procText (run (init m) as) p files = .ok (shown p files (changesOf (run (init m) as) p).getLast?)) := by
  have hi := inv_run m as
  have hre := rec_run m as
  constructor
  · simp only [procText, statusWords]
    cases h : procRunning (run (init m) as) p with
    | true =>
      simp only [if_true]
      cases lastEvent (run (init m) as) p with
      | none => exact ⟨_, rfl⟩
      | some i => dsimp only; split <;> exact ⟨_, rfl⟩
    | false =>
      obtain ⟨c, h1, h2⟩ := not_running hi hre hr h
      rw [exit_of_told hi hre hr h1]
      exact ⟨_, rfl⟩
  · intro hq hn hc
    have hl : lastEvent (run (init m) as) p = ((changesOf (run (init m) as) p).getLast?).map (chldInfo p) := by
      rw [(hre p).2, told_eq_received (noStops_run m as hn), C45_latest m as p hq hr]
    have hv : ∀ ch, (changesOf (run (init m) as) p).getLast? = some ch → ch.valid = true :=
      fun ch h => (hi.pi p).valid ch (List.mem_of_getLast? h)
    cases hlast : (changesOf (run (init m) as) p).getLast? with
    | none =>
      rw [hlast] at hl
      have : procRunning (run (init m) as) p = true := by
        rw [running_iff hi hre hr]
        rintro ⟨c, hc⟩
        have := toldExit_changes hi hc
        rw [List.getLast?_eq_none_iff] at hlast
        rw [hlast] at this; cases this
      simp [procText, statusWords, this, hl, shown, Except.map]
    | some ch =>
      rw [hlast] at hl hc
      have hne : ch ≠ .continued := fun e => hc (by rw [e])
      have hd := decode_of_valid ch (hv ch hlast) hne
      simp only [Option.map_some, chldInfo, hd] at hl
      have hrun : procRunning (run (init m) as) p = true ↔ ∀ c, ch ≠ .exited c := by
        rw [running_iff hi hre hr]
        constructor
        · rintro h c rfl
          exact h ⟨c, (C100_told m as p c hr).2 hq (List.mem_of_getLast? hlast)⟩
        · rintro h ⟨c, h1⟩
          obtain ⟨c', h2, h3⟩ := not_running hi hre hr (toldExit_not_running hi hr h1)
          rw [hl] at h3
          have : (expected ch).1 = CLD_EXITED := congrArg SigInfo.code (Option.some.inj h3)
          rw [← hd] at this
          obtain ⟨c'', h4⟩ := (decode_exited ch (hv ch hlast)).1 this
          exact h c'' h4
      cases ch with
      | continued => exact absurd rfl hne
      | exited c =>
        have : procRunning (run (init m) as) p = false := by
          cases h : procRunning (run (init m) as) p with
          | false => rfl
          | true => exact absurd rfl (hrun.1 h c)
        simp only [procText, statusWords, this, procExit, hl, expected, Except.map, shown]
        simp only [Bool.false_eq_true, if_false, commas_cons, List.flatMap_map, List.append_assoc]
        rfl
      | killed sig core =>
        have := hrun.2 (by intro c h; cases h)
        cases core <;>
          simp [procText, statusWords, this, hl, expected, shown, Except.map, commas, CLD_KILLED, CLD_DUMPED, CLD_CONTINUED]
      | stopped sig =>
        have := hrun.2 (by intro c h; cases h)
        simp [procText, statusWords, this, hl, expected, shown, Except.map, commas, CLD_STOPPED, CLD_CONTINUED]

example : ∀ m, Registered (run (init m) later) 5 ∧ Act.tstp 5 ∉ later ∧ (changesOf (run (init m) later) 5).getLast? = some (.exited 1) := by
  intro m; simp only [Registered]; cases m <;> decide
example : Quiet (run (init .signalfd) later) := by unfold Quiet; decide
example : procText (run (init .signalfd) later) 5 [(c!"1", c!"/tmp/x")] = .ok c!"5 (exit_code=1, 1=/tmp/x)" := by rfl
example : procText (run (init .signalfd) history) 6 [] = .ok c!"6 (status=5, signal=20)" := by rfl

/-- C101 is false for a process that was continued (by `fg`, say): although it is running it is shown with `status=3, signal=127`, as if it had died with a core
dump. -/
theorem C101_continued_refuted (m : Mgr) (as : List Act) (p : Nat) (files : List (Str × Str)) (hr : Registered (run (init m) as) p)
    (hq : Quiet (run (init m) as)) (hn : Act.tstp p ∉ as) (hc : (changesOf (run (init m) as) p).getLast? = some .continued) :
    procText (run (init m) as) p files = .ok (num p ++ c!" (status=3, signal=127)") := by
  have hi := inv_run m as
  have hre := rec_run m as
  have hl : lastEvent (run (init m) as) p = some (chldInfo p .continued) := by
    rw [(hre p).2, told_eq_received (noStops_run m as hn), C45_latest m as p hq hr, hc]; rfl
  have hrun : procRunning (run (init m) as) p = true := by
    cases h : procRunning (run (init m) as) p with
    | true => rfl
    | false =>
      obtain ⟨c, _, h2⟩ := not_running hi hre hr h
      rw [hl] at h2
      have : (chldInfo p .continued).code = CLD_EXITED := congrArg SigInfo.code (Option.some.inj h2)
      revert this; simp only [chldInfo]; decide
  have hcode : (chldInfo p .continued).code = 3 := rfl
  have hstat : (chldInfo p .continued).status = 127 := rfl
  simp only [procText, statusWords, hrun, hl, hcode, hstat, if_true, CLD_CONTINUED]
  rfl

/-- stopped and continued -/
def resumed : List Act := [.spawn 6 true, .change 6 (.stopped 20), .catchChld, .event, .readChld, .reap 6, .waitEnd, .readNone,
  .change 6 .continued, .catchChld, .event, .readChld, .reap 6, .waitEnd, .readNone]

example : Registered (run (init .signalfd) resumed) 6 ∧ Quiet (run (init .signalfd) resumed) ∧ Act.tstp 6 ∉ resumed ∧
    (changesOf (run (init .signalfd) resumed) 6).getLast? = some .continued := by unfold Registered Quiet; decide

end Pieshell.Status
