import Verif.Lemmas.Signal3
/-!
C44, C45, C46, C61: child state changes and stop signals.  All statements hold for every schedule `as` of kernel steps,
other processes, loop and manager, and (unless one is named) for both signal managers.
-/
namespace Pieshell.Sig
open Dict

/-- C44: every exit, kill, core dump and stop is reported with the right code and the exit code or signal. -/
theorem C44_decode_partial (ch : Change) (hv : ch.valid = true) (hc : ch ≠ .continued) : decode ch.status = expected ch :=
  decode_of_valid ch hv hc

example : decode (Change.exited 3).status = (CLD_EXITED, 3) ∧ decode (Change.killed 11 true).status = (CLD_DUMPED, 11) ∧
    decode (Change.killed 15 false).status = (CLD_KILLED, 15) ∧ decode (Change.stopped 20).status = (CLD_STOPPED, 20) := by
  decide

/-- C44 is false for a resumed child: it is reported as terminated with a core dump by signal 127. -/
theorem C44_continued_refuted : decode Change.continued.status = (CLD_DUMPED, 127) ∧
    decode Change.continued.status ≠ expected .continued := by decide

/-- C44: reports of different changes are different, so none is mistaken for another one's. -/
theorem C44_injective (p : Nat) (a b : Change) (ha : a.valid = true) (hb : b.valid = true)
    (h : chldInfo p a = chldInfo p b) : a = b := chldInfo_inj p a b ha hb h

example : (Change.stopped 20).valid = true ∧ (Change.killed 20 false).valid = true ∧
    chldInfo 7 (.stopped 20) ≠ chldInfo 7 (.killed 20 false) := by decide

/-- C45: at any time a child's handler has received reports of that child's changes only, in the order of the changes,
and none more than once. -/
theorem C45_order (m : Mgr) (as : List Act) (p : Nat) :
    (receivedBy (run (init m) as) p).Sublist ((changesOf (run (init m) as) p).map (chldInfo p)) :=
  sublist_of_append_left ((inv_run m as).pi p).sub

/-- C45: once nothing is pending, the latest change of every child started by pieshell has been delivered to its handler,
and nothing after it. -/
theorem C45_latest (m : Mgr) (as : List Act) (p : Nat) (hq : Quiet (run (init m) as)) (hr : Registered (run (init m) as) p) :
    (receivedBy (run (init m) as) p).getLast? = ((changesOf (run (init m) as) p).getLast?).map (chldInfo p) := by
  refine ((inv_run m as).pi p).last ?_ ?_
  · intro h; simp [Registered, h] at hr
  · simp [pend, quiet_pending (inv_run m as) hq p]

/-- C45: once nothing is pending, the termination of every child has been delivered exactly once. -/
theorem C45_exit_once (m : Mgr) (as : List Act) (p : Nat) (hq : Quiet (run (init m) as))
    (hr : Registered (run (init m) as) p) (ch : Change) (hm : ch ∈ changesOf (run (init m) as) p) (hf : ch.final = true) :
    ((receivedBy (run (init m) as) p).filter (fun i => i == chldInfo p ch)).length = 1 := by
  have hi := (inv_run m as).pi p
  have hl := C45_latest m as p hq hr
  have hsub := C45_order m as p
  have hend : ((run (init m) as).kids.get? p).map Kid.ended = some true := by
    cases hk : (run (init m) as).kids.get? p with
    | none => rw [(hi.known hk).2.1] at hm; cases hm
    | some k =>
      cases he : k.ended with
      | true => simp [he]
      | false => have := hi.alive (by rw [hk]; simp [he]) ch hm; rw [hf] at this; cases this
  obtain ⟨l, c, e, hc, hl'⟩ := hi.ended hend
  have : ch = c := by
    rw [e] at hm
    rcases List.mem_append.1 hm with h | h
    · have := hl' ch h; rw [hf] at this; cases this
    · simpa using h
  subst this
  rw [e] at hl
  simp only [List.getLast?_append, List.getLast?_singleton, Option.some_or, Option.map_some] at hl
  have hge : 1 ≤ ((receivedBy (run (init m) as) p).filter (fun i => i == chldInfo p ch)).length := by
    have : chldInfo p ch ∈ (receivedBy (run (init m) as) p).filter (fun i => i == chldInfo p ch) := by
      simp [List.mem_of_getLast? hl]
    exact List.length_pos_of_mem this
  have hle := (hsub.filter (fun i => i == chldInfo p ch)).length_le
  have hone : (((changesOf (run (init m) as) p).map (chldInfo p)).filter (fun i => i == chldInfo p ch)).length = 1 := by
    rw [e, List.map_append, List.filter_append]
    have : (l.map (chldInfo p)).filter (fun i => i == chldInfo p ch) = [] := by
      rw [List.filter_eq_nil_iff]
      intro i hi' heq
      simp only [List.mem_map] at hi'
      obtain ⟨a, ha, rfl⟩ := hi'
      have := chldInfo_inj p a ch (hi.valid a (by rw [e]; simp [ha])) (hi.valid ch (by rw [e]; simp)) (by simpa using heq)
      subst this
      have := hl' a ha
      rw [hf] at this
      cases this
    rw [this]
    simp
  omega

/-- C45: a child's report reaches no other handler. -/
theorem C45_not_others (m : Mgr) (as : List Act) (h : HId) (i : SigInfo) (hm : (h, i) ∈ (run (init m) as).deliv)
    (hs : i.signo = SIGCHLD) : h = .proc i.pid := by
  rcases deliv_run m as _ hm with h1 | ⟨p, ch, h1⟩
  · simp only at h1; rw [hs] at h1; simp [SIGCHLD, SIGTSTP] at h1
  · cases h1; rfl

/-- C45, for any table of handlers: an event is passed, once, to exactly those registered handlers whose filter agrees with
it in every field the filter names. -/
theorem C45_dispatch (s : St) (i : SigInfo) : ∃ hs : Dict Filter HId, hs.Sublist s.handlers ∧
    (dispatch s i).deliv = s.deliv ++ hs.map (fun kv => (kv.2, i)) ∧
    (∀ kv ∈ s.handlers, (∀ k v, (k, v) ∈ kv.1 → i.get k = v) → kv ∈ hs) ∧
    (∀ kv ∈ hs, ∀ k v, (k, v) ∈ kv.1 → i.get k = v) := by
  refine ⟨s.handlers.filter (fun kv => matchSignal i kv.1), List.filter_sublist, deliv_foldl i s.handlers s, ?_, ?_⟩
  · intro kv hm h
    simp only [List.mem_filter, hm, true_and, matchSignal, List.all_eq_true, beq_iff_eq]
    exact fun x hx => h x.1 x.2 hx
  · intro kv hm k v hkv
    simp only [List.mem_filter, matchSignal, List.all_eq_true, beq_iff_eq] at hm
    exact hm.2 (k, v) hkv

example : (dispatch { init .signalfd with
      procs := [(5, ⟨none, false⟩)],
      handlers := [([(.pid, 5), (.code, CLD_STOPPED)], .proc 5), (stopFilter, .stop), ([(.pid, 5)], .proc 5)] }
    (chldInfo 5 (.exited 0))).deliv =
    [(.proc 5, chldInfo 5 (.exited 0))] := by decide

/-- C45: the work of loop and manager ends, and ends only when nothing is pending: from every reachable state the number of
their steps is bounded, and unless everything is quiet they can make one. -/
theorem C45_reaches_quiet (m : Mgr) (as : List Act) :
    (∃ n, ∀ bs, OwnWork (run (init m) as) bs → bs.length ≤ n) ∧
    (¬ Quiet (run (init m) as) → ∃ a : Act, a.own = true ∧ step (run (init m) as) a ≠ run (init m) as) := by
  refine ⟨⟨work (run (init m) as), fun bs h => ?_⟩, not_stuck (inv_run m as) ?_⟩
  · have := ownWork_bound _ bs h
    omega
  · intro hm
    have := mgr_run (inv_init m) as
    rw [this] at hm
    have e : m = .signalfd := hm
    subst e
    exact inbox_run as

/-- Two children whose changes are merged into one signal, the second one's first change being superseded. -/
def sample : List Act :=
  [.spawn 5 true, .spawn 6 true, .spawn 7 false, .change 5 (.exited 3), .change 6 (.stopped 20), .change 6 .continued,
    .change 7 (.exited 1), .catchChld, .event, .readChld, .reap 6, .change 6 (.killed 9 false), .reap 7, .reap 6, .reap 5,
    .waitEnd, .readChld, .waitEnd, .readNone, .catchChld, .event, .waitEnd]

example : ∀ m, Quiet (run (init m) sample) ∧ Registered (run (init m) sample) 6 ∧
    changesOf (run (init m) sample) 6 = [.stopped 20, .continued, .killed 9 false] ∧
    receivedBy (run (init m) sample) 6 = [chldInfo 6 .continued, chldInfo 6 (.killed 9 false)] ∧
    receivedBy (run (init m) sample) 5 = [chldInfo 5 (.exited 3)] ∧
    receivedBy (run (init m) sample) 7 = [] := by
  intro m; cases m <;> unfold Quiet Registered <;> decide

/-- C46: a child that has exited is reported as not running, with its exit status, once nothing is pending. -/
theorem C46_exited_partial (m : Mgr) (as : List Act) (p c : Nat) (hq : Quiet (run (init m) as))
    (hr : Registered (run (init m) as) p) (hm : Change.exited c ∈ changesOf (run (init m) as) p) :
    ∃ ps, (run (init m) as).procs.get? p = some ps ∧ ps.isRunning = false ∧ ps.last = some ⟨SIGCHLD, CLD_EXITED, p, c⟩ := by
  have hi := (inv_run m as).pi p
  have hl := C45_latest m as p hq hr
  have hv := hi.valid _ hm
  have hex : chldInfo p (.exited c) = ⟨SIGCHLD, CLD_EXITED, p, c⟩ := by
    simp only [chldInfo, decode_of_valid _ hv (fun e => by cases e), expected, CLD_EXITED]
  have hlast : (changesOf (run (init m) as) p).getLast? = some (.exited c) := by
    cases hk : (run (init m) as).kids.get? p with
    | none => rw [(hi.known hk).2.1] at hm; cases hm
    | some k =>
      cases he : k.ended with
      | false => have := hi.alive (by rw [hk]; simp [he]) _ hm; cases this
      | true =>
        obtain ⟨l, x, e, hx, hl'⟩ := hi.ended (by rw [hk]; simp [he])
        rw [e] at hm ⊢
        rcases List.mem_append.1 hm with h | h
        · have := hl' _ h; cases this
        · simp at h; simp [h]
  cases hps : (run (init m) as).procs.get? p with
  | none => simp [Registered, hps] at hr
  | some ps =>
    refine ⟨ps, rfl, ?_⟩
    cases hd : ps.done with
    | false =>
      rw [hlast] at hl
      have := hi.notdone ps hps hd _ (List.mem_of_getLast? hl)
      rw [hex] at this
      exact absurd rfl this
    | true =>
      obtain ⟨_, c', h1, h2⟩ := hi.done ps hps hd
      rw [hlast] at h1
      cases h1
      exact ⟨by simp [ProcSt.isRunning, hd], by rw [h2, hex]⟩

example : ∃ ps, (run (init .signalfd) sample).procs.get? 5 = some ps ∧ ps.isRunning = false ∧
    Change.exited 3 ∈ changesOf (run (init .signalfd) sample) 5 ∧ Registered (run (init .signalfd) sample) 5 :=
  ⟨⟨some ⟨17, 1, 5, 3⟩, true⟩, by decide, by decide, by decide, by unfold Registered; decide⟩

/-- C46: at any time, a process reported as not running has exited, and its last event is the exit. -/
theorem C46_sound (m : Mgr) (as : List Act) (p : Nat) (ps : ProcSt) (h : (run (init m) as).procs.get? p = some ps)
    (hd : ps.isRunning = false) : ∃ c, (changesOf (run (init m) as) p).getLast? = some (.exited c) ∧
      ps.last = some ⟨SIGCHLD, CLD_EXITED, p, c⟩ := by
  have hi := (inv_run m as).pi p
  obtain ⟨_, c, h1, h2⟩ := hi.done ps h (by simpa [ProcSt.isRunning] using hd)
  refine ⟨c, h1, ?_⟩
  rw [h2]
  simp only [chldInfo, decode_of_valid _ (hi.valid _ (List.mem_of_getLast? h1)) (fun e => by cases e), expected, CLD_EXITED]

/-- C46 is false: a child that was killed by a signal is reported as running, for ever. -/
theorem C46_killed_refuted (m : Mgr) (as : List Act) (p sig : Nat) (core : Bool)
    (hm : Change.killed sig core ∈ changesOf (run (init m) as) p) (ps : ProcSt)
    (h : (run (init m) as).procs.get? p = some ps) : ps.isRunning = true := by
  cases hd : ps.isRunning with
  | true => rfl
  | false =>
    have hi := (inv_run m as).pi p
    obtain ⟨c, h1, _⟩ := C46_sound m as p ps h hd
    have hex := List.mem_of_getLast? h1
    cases hk : (run (init m) as).kids.get? p with
    | none => rw [(hi.known hk).2.1] at hm; cases hm
    | some k =>
      cases he : k.ended with
      | false => have := hi.alive (by rw [hk]; simp [he]) _ hm; cases this
      | true =>
        obtain ⟨l, x, e, hx, hl'⟩ := hi.ended (by rw [hk]; simp [he])
        rw [e] at hm h1
        simp at h1
        subst h1
        rcases List.mem_append.1 hm with h | h
        · have := hl' _ h; cases this
        · simp at h

example : ∃ ps, (run (init .signalfd) sample).procs.get? 6 = some ps ∧ ps.isRunning = true ∧
    Change.killed 9 false ∈ changesOf (run (init .signalfd) sample) 6 ∧ Quiet (run (init .signalfd) sample) :=
  ⟨⟨some (chldInfo 6 (.killed 9 false)), false⟩, by decide, by decide, by decide, by unfold Quiet; decide⟩

/-- C61 is false: with the asyncio based manager the stop handler is never called. -/
theorem C61_asyncio_refuted (as : List Act) : stops (run (init .asyncio) as) = 0 := by
  rw [asyncio_stops (inv_init _) rfl (by simp [init]) as]
  rfl

example : tstpsIn [.spawn 5 true, .tstp 0, .catchTstp, .event, .waitEnd] = 1 ∧
    Quiet (run (init .asyncio) [.spawn 5 true, .tstp 0, .catchTstp, .event, .waitEnd]) := by unfold Quiet; decide

/-- C61 with signalfd: a stop signal is delivered to the stop handler before everything is quiet again, and the handler is
called at most once for each signal. -/
theorem C61_signalfd_partial (as bs : List Act) (q : Nat) (hq : Quiet (run (init .signalfd) (as ++ .tstp q :: bs))) :
    stops (run (init .signalfd) as) < stops (run (init .signalfd) (as ++ .tstp q :: bs)) ∧
    stops (run (init .signalfd) (as ++ .tstp q :: bs)) ≤ tstpsIn (as ++ .tstp q :: bs) := by
  have e : run (init .signalfd) (as ++ .tstp q :: bs) = run (step (run (init .signalfd) as) (.tstp q)) bs := by
    simp [run, List.foldl_append]
  have hi := inv_run .signalfd as
  have hmgr : (run (init .signalfd) as).mgr = .signalfd := mgr_run (inv_init _) as
  have h2 := stopsDue_run (inv_step hi (.tstp q)) ((step_stop hi (.tstp q)).1.trans hmgr) bs
  have h3 := stopsDue_run (inv_init .signalfd) rfl (as ++ .tstp q :: bs)
  have h4 : stopsDue (step (run (init .signalfd) as) (.tstp q)) = stops (run (init .signalfd) as) + 1 := by
    cases h : (run (init .signalfd) as).tstp <;> simp [step, h, stopsDue, stops]
  have h5 : stopsDue (run (init .signalfd) (as ++ .tstp q :: bs)) = stops (run (init .signalfd) (as ++ .tstp q :: bs)) := by
    simp [stopsDue, hq.2.1]
  have h6 : stopsDue (init .signalfd) = 0 := rfl
  rw [← e] at h2
  omega

example : Quiet (run (init .signalfd) ([.spawn 5 true] ++ .tstp 0 :: [.change 5 (.stopped 20), .event, .readStop, .readChld,
      .reap 5, .waitEnd, .readNone])) ∧
    stops (run (init .signalfd) ([.spawn 5 true] ++ .tstp 0 :: [.change 5 (.stopped 20), .event, .readStop, .readChld,
      .reap 5, .waitEnd, .readNone])) = 1 := by unfold Quiet; decide

end Pieshell.Sig
