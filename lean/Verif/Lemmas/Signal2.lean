import Verif.Lemmas.Signal
/-! The invariant is kept by every step; progress. -/
namespace Pieshell.Sig
open Dict

theorem changesOf_append (s t : St) (q : Nat) (ch : Change) (h : t.changes = s.changes ++ [(q, ch)]) (p : Nat) :
    changesOf t p = changesOf s p ++ (if q = p then [ch] else []) := by
  simp only [changesOf, h, List.filter_append, List.map_append]
  by_cases e : q = p
  · simp [e]
  · simp [e]

theorem receivedBy_append (s t : St) (q : Nat) (i : SigInfo) (hs : i.signo = SIGCHLD)
    (h : t.deliv = s.deliv ++ [(.proc q, i)]) (p : Nat) :
    receivedBy t p = receivedBy s p ++ (if q = p then [i] else []) := by
  simp only [receivedBy, h, List.filter_append, List.map_append]
  by_cases e : q = p
  · simp [e, hs]
  · simp [e]

theorem receivedBy_tstp (s t : St) (d : List (HId × SigInfo)) (h : t.deliv = s.deliv ++ d)
    (hd : ∀ x ∈ d, x.2.signo = SIGTSTP) (p : Nat) : receivedBy t p = receivedBy s p := by
  simp only [receivedBy, h, List.filter_append, List.map_append]
  have : d.filter (fun d => d.1 == HId.proc p && d.2.signo == SIGCHLD) = [] := by
    rw [List.filter_eq_nil_iff]
    intro x hx
    simp [hd x hx, SIGCHLD, SIGTSTP]
  simp [this]

theorem inv_tstp {s t : St} (hi : Inv s) (h : TstpRel s t) : Inv t := by
  obtain ⟨d, hd, hd'⟩ := h.deliv
  refine ⟨h.handlers ▸ hi.wf, h.handlers ▸ hi.uniq, h.kids ▸ hi.kuniq, by rw [h.handlers]; exact hi.stop, ?_,
    by rw [h.kids, h.sigchld, h.phase, h.inbox]; exact hi.wake⟩
  intro p
  have hp := hi.pi p
  have hr := receivedBy_tstp s t d hd hd' p
  have hc : changesOf t p = changesOf s p := by simp [changesOf, h.changes]
  rw [hr, hc, h.handlers, h.kids]
  have hpr := h.procs p
  have hnone : t.procs.get? p = none ↔ s.procs.get? p = none := by
    cases h1 : t.procs.get? p <;> cases h2 : s.procs.get? p <;> rw [h1, h2] at hpr <;> simp at hpr ⊢
  refine ⟨by rw [hpr]; exact hp.reg, fun hk => ⟨hnone.2 (hp.known hk).1, (hp.known hk).2⟩, hp.sub, hp.pl,
    fun hn => hp.last (fun h => hn (hnone.2 h)), fun hn => hp.unreg (hnone.1 hn), hp.alive, hp.ended, hp.valid, ?_, ?_⟩
  · intro q hq hdone
    rw [hq] at hpr
    cases h2 : s.procs.get? p with
    | none => rw [h2] at hpr; cases hpr
    | some q' =>
      rw [h2] at hpr
      simp at hpr
      have := h.procsDone p q' h2 (by rw [← hpr]; exact hdone)
      rw [hq] at this
      cases this
      exact hp.done _ h2 hdone
  · intro q hq hdone
    rw [hq] at hpr
    cases h2 : s.procs.get? p with
    | none => rw [h2] at hpr; cases hpr
    | some q' =>
      rw [h2] at hpr
      simp at hpr
      exact hp.notdone q' h2 (by rw [← hpr]; exact hdone)

theorem handlers_reg {s : St} (hi : Inv s) (f : Filter) (p : Nat) (hm : (f, HId.proc p) ∈ s.handlers) :
    ∃ ps, s.procs.get? p = some ps ∧ ps.done = false := by
  rcases hi.wf _ _ hm with ⟨_, h⟩ | ⟨q, rfl, h⟩
  · cases h
  · cases h
    have := (hi.pi p).reg.1 (get?_of_mem _ hi.uniq hm)
    cases e : s.procs.get? p with
    | none => rw [e] at this; cases this
    | some ps => rw [e] at this; simp at this; exact ⟨ps, rfl, this⟩

theorem dispatch_tstp {s : St} (hi : Inv s) (q : Nat) : TstpRel s (dispatch s (tstpInfo q)) :=
  foldl_tstp q _ s (fun f p hm => handlers_reg hi f p hm)

theorem inv_spawn {s : St} (hi : Inv s) (p : Nat) (reg : Bool) : Inv (step s (.spawn p reg)) := by
  cases hk : s.kids.get? p with
  | some k => simp only [step, hk]; exact hi
  | none =>
    have hwake : (∃ q, ((s.kids.set p ⟨none, false⟩).get? q).bind Kid.pending ≠ none) →
        s.sigchld = true ∨ s.phase = .waiting ∨ s.inbox ≠ [] := by
      rintro ⟨q, hq⟩
      rw [get?_set] at hq
      split at hq
      · exact absurd rfl hq
      · exact hi.wake ⟨q, hq⟩
    obtain ⟨h1, h2, h3⟩ := (hi.pi p).known hk
    cases reg with
    | false =>
      simp only [step, hk, Bool.false_eq_true, if_false]
      refine ⟨hi.wf, hi.uniq, uniq_set _ hi.kuniq _ _, hi.stop, ?_, hwake⟩
      intro q
      have hq := hi.pi q
      simp only [get?_set]
      by_cases e : p = q
      · subst e
        have e1 : changesOf s p = [] := h2
        have e2 : receivedBy s p = [] := h3
        refine ⟨hq.reg, by simp, ?_, by simp, ?_, fun _ => h3, ?_, by simp, hq.valid, ?_, ?_⟩
        · show ((receivedBy s p) ++ _).Sublist ((changesOf s p).map _); simp [e2, pend]
        · intro hn; exact absurd h1 hn
        · intro _; show ∀ c ∈ changesOf s p, _; simp [e1]
        · intro q' hq'; rw [h1] at hq'; cases hq'
        · intro q' hq'; rw [h1] at hq'; cases hq'
      · simp only [e, if_false]; exact hq
    | true =>
      simp only [step, hk, if_true]
      refine ⟨wf_set hi.wf p, uniq_set _ hi.uniq _ _, uniq_set _ hi.kuniq _ _, ?_, ?_, hwake⟩
      · simp only [get?_set, Ne.symm stop_ne_proc, if_false]; exact hi.stop
      · intro q
        have hq := hi.pi q
        simp only [get?_set, procFilter_inj]
        by_cases e : p = q
        · subst e
          have e1 : changesOf s p = [] := h2
          have e2 : receivedBy s p = [] := h3
          simp only [if_true]
          refine ⟨by simp, by simp, ?_, by simp, ?_, by simp, ?_, by simp, hq.valid, by simp, ?_⟩
          · show ((receivedBy s p) ++ _).Sublist ((changesOf s p).map _); simp [e2, pend]
          · intro _ _; show (receivedBy s p).getLast? = ((changesOf s p).getLast?).map _; simp [e1, e2]
          · intro _; show ∀ c ∈ changesOf s p, _; simp [e1]
          · intro _ _ _; show ∀ i ∈ receivedBy s p, _; simp [e2]
        · simp only [e, if_false]; exact hq

theorem sublist_of_append_left {α : Type} {a b c : List α} (h : (a ++ b).Sublist c) : a.Sublist c :=
  (List.sublist_append_left a b).trans h

theorem inv_change {s : St} (hi : Inv s) (p : Nat) (ch : Change) : Inv (step s (.change p ch)) := by
  cases hk : s.kids.get? p with
  | none => simp only [step, hk]; exact hi
  | some k =>
    by_cases hc : (k.ended || !ch.valid) = true
    · simp only [step, hk, hc, if_true]; exact hi
    · have hc' := hc
      simp at hc'
      obtain ⟨hend, hval⟩ := hc'
      simp only [step, hk, hc]
      refine ⟨hi.wf, hi.uniq, uniq_set _ hi.kuniq _ _, hi.stop, ?_, fun _ => Or.inl rfl⟩
      intro q
      have hq := hi.pi q
      rw [changesOf_append s _ p ch rfl q]
      have er : ∀ t : St, t.deliv = s.deliv → receivedBy t q = receivedBy s q := by
        intro t ht; simp [receivedBy, ht]
      simp only [Bool.false_eq_true, if_false]
      rw [er]
      rotate_left
      · rfl
      simp only [get?_set]
      by_cases e : p = q
      · subst e
        rw [hk] at hq
        simp only [if_true]
        have halive := hq.alive (by simp [hend])
        refine ⟨hq.reg, by simp, ?_, by simp, ?_, hq.unreg, ?_, ?_, ?_, ?_, hq.notdone⟩
        · simp only [pend, Option.bind_some, Option.map_some, Option.getD_some, List.map_append]
          exact List.Sublist.append (sublist_of_append_left hq.sub) (List.Sublist.refl _)
        · intro _ h; simp [pend] at h
        · intro h c hcm
          simp at h
          rcases List.mem_append.1 hcm with h1 | h1
          · exact halive c h1
          · simp at h1; subst h1; exact h
        · intro h
          simp at h
          exact ⟨_, _, rfl, h, halive⟩
        · intro c hcm
          rcases List.mem_append.1 hcm with h1 | h1
          · exact hq.valid c h1
          · simp at h1; subst h1; exact hval
        · intro q' hq' hd
          obtain ⟨_, c, hl, _⟩ := hq.done q' hq' hd
          have := halive _ (List.mem_of_getLast? hl)
          simp [Change.final] at this
      · simp only [e, if_false, List.append_nil]; exact hq

theorem inv_reap {s : St} (hi : Inv s) (p : Nat) : Inv (step s (.reap p)) := by
  have hcase : s.phase = .waiting ∨ step s (.reap p) = s := by
    cases e : s.phase with
    | waiting => exact Or.inl rfl
    | idle => exact Or.inr (by simp only [step, e])
    | reading => exact Or.inr (by simp only [step, e])
  rcases hcase with hph | h
  rotate_left
  · rw [h]; exact hi
  cases hpd : (s.kids.get? p).bind Kid.pending with
  | none => simp only [step, hph, hpd]; exact hi
  | some ch =>
    cases hk : s.kids.get? p with
    | none => rw [hk] at hpd; cases hpd
    | some k =>
      rw [hk] at hpd
      simp only [Option.bind_some] at hpd
      have hstep : step s (.reap p) = dispatch { s with kids := s.kids.set p ⟨none, k.ended⟩ } (chldInfo p ch) := by
        simp only [step, hph, hk, Option.bind_some, hpd, Option.map_some, Option.getD_some]
      rw [hstep, dispatch_chld { s with kids := s.kids.set p ⟨none, k.ended⟩ } hi.wf hi.uniq]
      have hp := hi.pi p
      rw [hk] at hp
      have hlast := hp.pl ch (by simp [hpd])
      have hpend : pend (some k) = [ch] := by simp [pend, hpd]
      have hpend' : ∀ b, pend (some ⟨none, b⟩) = [] := by intro b; simp [pend]
      have hchv := hp.valid ch (List.mem_of_getLast? hlast)
      have hsub := hp.sub
      rw [hpend] at hsub
      have hrun : (changesOf s p).getLast? = some ch := hlast
      by_cases hr : s.handlers.get? (procFilter p) = some (.proc p)
      · simp only [hr, if_true]
        have hps := hp.reg.1 hr
        obtain ⟨ps, hps1, hps2⟩ : ∃ ps, s.procs.get? p = some ps ∧ ps.done = false := by
          cases e : s.procs.get? p with
          | none => rw [e] at hps; cases hps
          | some ps => rw [e] at hps; simp at hps; exact ⟨ps, rfl, hps⟩
        by_cases hx : (chldInfo p ch).code = CLD_EXITED
        · obtain ⟨c, rfl⟩ := (decode_exited ch hchv).1 hx
          simp only [handleEvent, hx, if_true]
          refine ⟨wf_erase hi.wf _, uniq_erase _ hi.uniq _, uniq_set _ hi.kuniq _ _, ?_, ?_, fun _ => Or.inr (Or.inl hph)⟩
          · simp only [get?_erase _ hi.uniq, Ne.symm stop_ne_proc, if_false]; exact hi.stop
          · intro q
            have hq := hi.pi q
            rw [receivedBy_append s _ p (chldInfo p (.exited c)) rfl rfl q]
            have ec : ∀ t : St, t.changes = s.changes → changesOf t q = changesOf s q := by
              intro t ht; simp [changesOf, ht]
            rw [ec]
            rotate_left
            · rfl
            simp only [get?_set, get?_erase _ hi.uniq, procFilter_inj]
            by_cases e : p = q
            · subst e
              simp only [if_true]
              refine ⟨by simp, by simp, ?_, by simp, ?_, by simp, ?_, ?_, hq.valid, ?_, by simp⟩
              · rw [hpend']; simpa using hsub
              · intro _ _; rw [hrun]; simp
              · intro h; exact hp.alive (by simpa using h)
              · intro h; exact hp.ended (by simpa using h)
              · intro q' hq' _
                cases hq'
                exact ⟨hpend' _, c, hrun, rfl⟩
            · simp only [e, if_false, List.append_nil]; exact hq
        · simp only [handleEvent, hx, if_false]
          refine ⟨hi.wf, hi.uniq, uniq_set _ hi.kuniq _ _, hi.stop, ?_, fun _ => Or.inr (Or.inl hph)⟩
          intro q
          have hq := hi.pi q
          rw [receivedBy_append s _ p (chldInfo p ch) rfl rfl q]
          have ec : ∀ t : St, t.changes = s.changes → changesOf t q = changesOf s q := by
            intro t ht; simp [changesOf, ht]
          rw [ec]
          rotate_left
          · rfl
          simp only [get?_set]
          by_cases e : p = q
          · subst e
            simp only [if_true, hps1, Option.map_some, Option.getD_some, hps2]
            refine ⟨by simp [hr], by simp, ?_, by simp, ?_, by simp, ?_, ?_, hq.valid, by simp, ?_⟩
            · rw [hpend']; simpa using hsub
            · intro _ _; rw [hrun]; simp
            · intro h; exact hp.alive (by simpa using h)
            · intro h; exact hp.ended (by simpa using h)
            · intro q' hq' hd i hm
              rcases List.mem_append.1 hm with h1 | h1
              · exact hp.notdone ps hps1 hps2 i h1
              · simp at h1; subst h1; exact hx
          · simp only [e, if_false, List.append_nil]; exact hq
      · simp only [hr, if_false]
        refine ⟨hi.wf, hi.uniq, uniq_set _ hi.kuniq _ _, hi.stop, ?_, fun _ => Or.inr (Or.inl hph)⟩
        intro q
        have hq := hi.pi q
        have ec : ∀ t : St, t.changes = s.changes → changesOf t q = changesOf s q := by
          intro t ht; simp [changesOf, ht]
        have er : ∀ t : St, t.deliv = s.deliv → receivedBy t q = receivedBy s q := by
          intro t ht; simp [receivedBy, ht]
        rw [ec, er]
        rotate_left
        · rfl
        · rfl
        simp only [get?_set]
        by_cases e : p = q
        · subst e
          simp only [if_true]
          have hnone : s.procs.get? p = none := by
            cases e : s.procs.get? p with
            | none => rfl
            | some ps =>
              cases hd : ps.done with
              | false => exact absurd (hp.reg.2 (by rw [e]; simp [hd])) hr
              | true => have := (hp.done ps e hd).1; rw [hpend] at this; cases this
          have hrc := hp.unreg hnone
          refine ⟨hp.reg, by simp, ?_, by simp, ?_, fun _ => hrc, ?_, ?_, hq.valid, ?_, ?_⟩
          · rw [hrc]; simp [hpend']
          · intro hn; exact absurd hnone hn
          · intro h; exact hp.alive (by simpa using h)
          · intro h; exact hp.ended (by simpa using h)
          · intro q' hq'; rw [hnone] at hq'; cases hq'
          · intro q' hq'; rw [hnone] at hq'; cases hq'
        · simp only [e, if_false]; exact hq

theorem begin_asyncio (s : St) (hm : s.mgr = .asyncio) :
    begin s = match s.inbox with
      | [] => s
      | _ :: rest => { s with inbox := rest, phase := .waiting } := by
  simp only [begin, hm]
  cases hib : s.inbox with
  | nil => rfl
  | cons a rest => simp [callbackArg, mask]

theorem begin_signalfd (s : St) (hm : s.mgr = .signalfd) :
    begin s = if s.sigchld || s.tstp.isSome then { s with phase := .reading } else s := by
  simp only [begin, hm]

theorem inv_step {s : St} (hi : Inv s) (a : Act) : Inv (step s a) := by
  cases a with
  | spawn p reg => exact inv_spawn hi p reg
  | change p ch => exact inv_change hi p ch
  | reap p => exact inv_reap hi p
  | tstp q =>
    cases h : s.tstp with
    | some _ => simp only [step, h]; exact hi
    | none => simp only [step, h]; exact inv_frame hi rfl rfl rfl rfl rfl hi.wake
  | catchChld =>
    cases h : s.mgr with
    | signalfd => simp only [step, h]; exact hi
    | asyncio =>
      simp only [step, h]
      split
      · exact inv_frame hi rfl rfl rfl rfl rfl (fun _ => Or.inr (Or.inr (by simp)))
      · exact hi
  | catchTstp =>
    cases h : s.mgr with
    | signalfd => simp only [step, h]; exact hi
    | asyncio =>
      simp only [step, h]
      split
      · exact inv_frame hi rfl rfl rfl rfl rfl (fun _ => Or.inr (Or.inr (by simp)))
      · exact hi
  | event =>
    cases h : s.phase with
    | reading => simp only [step, h]; exact hi
    | waiting => simp only [step, h]; exact hi
    | idle =>
      simp only [step, h]
      cases hm : s.mgr with
      | signalfd =>
        rw [begin_signalfd s hm]
        split
        · refine inv_frame hi rfl rfl rfl rfl rfl (fun hp => ?_)
          rcases hi.wake hp with h1 | h1 | h1
          · exact Or.inl h1
          · rw [h] at h1; cases h1
          · exact Or.inr (Or.inr h1)
        · exact hi
      | asyncio =>
        rw [begin_asyncio s hm]
        cases hib : s.inbox with
        | nil => exact hi
        | cons a rest => exact inv_frame hi rfl rfl rfl rfl rfl (fun _ => Or.inr (Or.inl rfl))
  | readChld =>
    cases h : s.phase with
    | idle => simp only [step, h]; exact hi
    | waiting => simp only [step, h]; exact hi
    | reading =>
      simp only [step, h]
      split
      · exact inv_frame hi rfl rfl rfl rfl rfl (fun _ => Or.inr (Or.inl rfl))
      · exact hi
  | readStop =>
    cases h : s.phase with
    | idle => simp only [step, h]; exact hi
    | waiting => simp only [step, h]; exact hi
    | reading =>
      cases ht : s.tstp with
      | none => simp only [step, h, ht]; exact hi
      | some q =>
        have hstep : step s .readStop = dispatch { s with tstp := none } (tstpInfo q) := by
          simp only [step, h, ht]
        rw [hstep]
        have h1 : Inv { s with tstp := none } := inv_frame hi rfl rfl rfl rfl rfl hi.wake
        have h2 := inv_tstp h1 (dispatch_tstp h1 q)
        exact h2
  | readNone =>
    cases h : s.phase with
    | idle => simp only [step, h]; exact hi
    | waiting => simp only [step, h]; exact hi
    | reading =>
      simp only [step, h]
      split
      · exact hi
      · refine inv_frame hi rfl rfl rfl rfl rfl (fun hp => ?_)
        rcases hi.wake hp with h1 | h1 | h1
        · exact Or.inl h1
        · rw [h] at h1; cases h1
        · exact Or.inr (Or.inr h1)
  | waitEnd =>
    cases h : s.phase with
    | idle => simp only [step, h]; exact hi
    | reading => simp only [step, h]; exact hi
    | waiting =>
      simp only [step, h]
      split
      · rename_i hn
        refine inv_frame hi rfl rfl rfl rfl rfl ?_
        rintro ⟨p, hp⟩
        exact absurd ((nothing_iff s hi.kuniq).1 hn p) hp
      · exact hi

theorem inv_foldl {s : St} (hi : Inv s) (as : List Act) : Inv (run s as) := by
  induction as generalizing s with
  | nil => exact hi
  | cons a as ih => exact ih (inv_step hi a)

theorem inv_run (m : Mgr) (as : List Act) : Inv (run (init m) as) := inv_foldl (inv_init m) as

/-- When the manager has nothing to do, no child has an unreported change. -/
theorem quiet_pending {s : St} (hi : Inv s) (hq : Quiet s) (p : Nat) : (s.kids.get? p).bind Kid.pending = none := by
  obtain ⟨h1, _, h3, h4⟩ := hq
  cases e : (s.kids.get? p).bind Kid.pending with
  | none => rfl
  | some c =>
    rcases hi.wake ⟨p, by rw [e]; simp⟩ with h | h | h
    · rw [h1] at h; cases h
    · rw [h4] at h; cases h
    · exact absurd h3 h

end Pieshell.Sig
