import Verif.Lemmas.Signal3
/-! How one step changes the ghost list of changes and the table of processes. -/
namespace Pieshell.Sig
open Dict

theorem handleEvent_changes (s : St) (h : HId) (i : SigInfo) : (handleEvent s h i).changes = s.changes ∧
    ∀ p, (s.procs.get? p).isSome = true → ((handleEvent s h i).procs.get? p).isSome = true := by
  cases h with
  | stop => exact ⟨rfl, fun _ h => h⟩
  | proc q =>
    simp only [handleEvent]
    split
    · refine ⟨rfl, fun p hp => ?_⟩
      show ((s.procs.set q _).get? p).isSome = true
      rw [Dict.get?_set]; split <;> simp [hp]
    · refine ⟨rfl, fun p hp => ?_⟩
      show ((s.procs.set q _).get? p).isSome = true
      rw [Dict.get?_set]; split <;> simp [hp]

theorem dispatch_changes (s : St) (i : SigInfo) : (dispatch s i).changes = s.changes ∧
    ∀ p, (s.procs.get? p).isSome = true → ((dispatch s i).procs.get? p).isSome = true := by
  have : ∀ (l : Dict Filter HId) (s : St), let t := l.foldl (fun s kv => if matchSignal i kv.1 then handleEvent s kv.2 i else s) s
      t.changes = s.changes ∧ ∀ p, (s.procs.get? p).isSome = true → (t.procs.get? p).isSome = true := by
    intro l
    induction l with
    | nil => intro s; exact ⟨rfl, fun _ h => h⟩
    | cons kv l ih =>
      intro s
      simp only [List.foldl_cons]
      obtain ⟨a, b⟩ := ih (if matchSignal i kv.1 then handleEvent s kv.2 i else s)
      obtain ⟨c, d⟩ := handleEvent_changes s kv.2 i
      split at a
      · rw [if_pos (by assumption)] at *
        exact ⟨a.trans c, fun p hp => b p (d p hp)⟩
      · rw [if_neg (by assumption)] at *
        exact ⟨a, b⟩
  exact this s.handlers s

theorem begin_changes (s : St) : (begin s).changes = s.changes ∧ ∀ p, (s.procs.get? p).isSome = true → ((begin s).procs.get? p).isSome = true := by
  unfold begin
  split
  · split
    · exact ⟨rfl, fun _ h => h⟩
    · exact ⟨rfl, fun _ h => h⟩
  · split
    · exact ⟨rfl, fun _ h => h⟩
    · dsimp only
      split
      · exact ⟨rfl, fun _ h => h⟩
      · exact dispatch_changes _ _

theorem step_changes (s : St) (a : Act) :
    ((step s a).changes = s.changes ∨ ∃ p ch, a = .change p ch ∧ (step s a).changes = s.changes ++ [(p, ch)]) ∧
    ∀ p, (s.procs.get? p).isSome = true → ((step s a).procs.get? p).isSome = true := by
  have same : (step s a) = s → ((step s a).changes = s.changes ∨ ∃ p ch, a = .change p ch ∧ (step s a).changes = s.changes ++ [(p, ch)]) ∧
      ∀ p, (s.procs.get? p).isSome = true → ((step s a).procs.get? p).isSome = true := fun h => by rw [h]; exact ⟨.inl rfl, fun _ h => h⟩
  cases a with
  | spawn p reg =>
    cases h : s.kids.get? p with
    | some k => exact same (by simp only [step, h])
    | none =>
      cases reg with
      | false => simp only [step, h]; exact ⟨.inl rfl, fun _ h => h⟩
      | true =>
        simp only [step, h]
        refine ⟨.inl rfl, fun q hq => ?_⟩
        show ((s.procs.set p _).get? q).isSome = true
        rw [Dict.get?_set]; split <;> simp [hq]
  | change p ch =>
    cases h : s.kids.get? p with
    | none => exact same (by simp only [step, h])
    | some k =>
      simp only [step, h]
      split
      · exact ⟨.inl rfl, fun _ h => h⟩
      · exact ⟨.inr ⟨p, ch, rfl, rfl⟩, fun _ h => h⟩
  | tstp q => cases h : s.tstp <;> simp only [step, h] <;> first | exact ⟨.inl rfl, fun _ h => h⟩ | exact ⟨.inl trivial, fun _ h => h⟩
  | catchChld => cases h : s.mgr <;> simp only [step, h] <;> (try split) <;> first | exact ⟨.inl rfl, fun _ h => h⟩ | exact ⟨.inl trivial, fun _ h => h⟩
  | catchTstp => cases h : s.mgr <;> simp only [step, h] <;> (try split) <;> first | exact ⟨.inl rfl, fun _ h => h⟩ | exact ⟨.inl trivial, fun _ h => h⟩
  | event =>
    cases h : s.phase with
    | idle => simp only [step, h]; exact ⟨.inl (begin_changes s).1, (begin_changes s).2⟩
    | reading => exact same (by simp only [step, h])
    | waiting => exact same (by simp only [step, h])
  | readChld => cases h : s.phase <;> simp only [step, h] <;> (try split) <;> first | exact ⟨.inl rfl, fun _ h => h⟩ | exact ⟨.inl trivial, fun _ h => h⟩
  | readNone => cases h : s.phase <;> simp only [step, h] <;> (try split) <;> first | exact ⟨.inl rfl, fun _ h => h⟩ | exact ⟨.inl trivial, fun _ h => h⟩
  | waitEnd => cases h : s.phase <;> simp only [step, h] <;> (try split) <;> first | exact ⟨.inl rfl, fun _ h => h⟩ | exact ⟨.inl trivial, fun _ h => h⟩
  | reap p =>
    rcases reap_cases s p with h | ⟨ch, k, h1, h2, h3, h4⟩
    · exact same h
    · rw [h4]
      have := dispatch_changes { s with kids := s.kids.set p ⟨none, k.ended⟩ } (chldInfo p ch)
      exact ⟨.inl this.1, this.2⟩
  | readStop =>
    rcases readStop_cases s with h | ⟨q, h1, h2, h4⟩
    · exact same h
    · rw [h4]
      have := dispatch_changes { s with tstp := none } (tstpInfo q)
      exact ⟨.inl this.1, this.2⟩

/-- A process without a final change can change. -/
theorem change_takes {s : St} (hi : Inv s) {p : Nat} (hr : (s.procs.get? p).isSome = true)
    (hf : ∀ ch ∈ changesOf s p, ch.final = false) {ch : Change} (hv : ch.valid = true) :
    (step s (.change p ch)).changes = s.changes ++ [(p, ch)] := by
  have hp := hi.pi p
  cases hk : s.kids.get? p with
  | none => rw [(hp.known hk).1] at hr; cases hr
  | some k =>
    cases he : k.ended with
    | true =>
      obtain ⟨l, c, h1, h2, -⟩ := hp.ended (by rw [hk]; simp [he])
      have := hf c (by rw [h1]; simp)
      rw [h2] at this; cases this
    | false => simp [step, hk, he, hv]

/-- Only one change is final. -/
theorem final_unique {s : St} (hi : Inv s) {p : Nat} {a b : Change} (ha : a ∈ changesOf s p) (hb : b ∈ changesOf s p)
    (fa : a.final = true) (fb : b.final = true) : a = b := by
  have hp := hi.pi p
  cases hk : s.kids.get? p with
  | none => rw [(hp.known hk).2.1] at ha; cases ha
  | some k =>
    cases he : k.ended with
    | false =>
      have := hp.alive (by rw [hk]; simp [he]) a ha
      rw [fa] at this; cases this
    | true =>
      obtain ⟨l, c, h1, h2, h3⟩ := hp.ended (by rw [hk]; simp [he])
      rw [h1] at ha hb
      have key : ∀ x ∈ l ++ [c], x.final = true → x = c := by
        intro x hx fx
        rcases List.mem_append.1 hx with h | h
        · have := h3 x h; rw [fx] at this; cases this
        · simpa using h
      rw [key a ha fa, key b hb fb]

/-- A process whose handler is done has exited with the status of its last event. -/
theorem done_exited {s : St} (hi : Inv s) {p : Nat} {ps : ProcSt} (h : s.procs.get? p = some ps) (hd : ps.done = true) :
    ∃ c, .exited c ∈ changesOf s p ∧ ps.last = some ⟨SIGCHLD, CLD_EXITED, p, c⟩ := by
  have hp := hi.pi p
  obtain ⟨_, c, h1, h2⟩ := hp.done ps h hd
  have hm := List.mem_of_getLast? h1
  refine ⟨c, hm, ?_⟩
  rw [h2]
  simp only [chldInfo, decode_of_valid _ (hp.valid _ hm) (fun e => by cases e), expected, CLD_EXITED]

/-- A handler that is done is not changed any more. -/
theorem done_stays {s : St} (hi : Inv s) (a : Act) {p : Nat} {ps : ProcSt} (h : s.procs.get? p = some ps) (hd : ps.done = true) :
    (step s a).procs.get? p = some ps := by
  have hnr : s.handlers.get? (procFilter p) ≠ some (.proc p) := by
    intro h1
    have := (hi.pi p).reg.1 h1
    rw [h] at this
    simp [hd] at this
  cases a with
  | spawn q reg =>
    cases hk : s.kids.get? q with
    | some k => simp only [step, hk]; exact h
    | none =>
      have hqp : q ≠ p := by
        rintro rfl
        rw [((hi.pi q).known hk).1] at h; cases h
      cases reg with
      | false => simp only [step, hk]; exact h
      | true =>
        simp only [step, hk]
        show (s.procs.set q _).get? p = _
        rw [Dict.get?_set, if_neg hqp]; exact h
  | change q ch =>
    simp only [step]
    split
    · exact h
    · split <;> exact h
  | tstp q => simp only [step]; split <;> exact h
  | catchChld => simp only [step]; split <;> (try split) <;> exact h
  | catchTstp => simp only [step]; split <;> (try split) <;> exact h
  | event =>
    cases hp : s.phase with
    | idle =>
      simp only [step, hp]
      cases hm : s.mgr with
      | signalfd => rw [begin_signalfd s hm]; split <;> exact h
      | asyncio => rw [begin_asyncio s hm]; split <;> exact h
    | reading => simp only [step, hp]; exact h
    | waiting => simp only [step, hp]; exact h
  | readChld => simp only [step]; split <;> (try split) <;> exact h
  | readNone => simp only [step]; split <;> (try split) <;> exact h
  | waitEnd => simp only [step]; split <;> (try split) <;> exact h
  | reap q =>
    rcases reap_cases s q with h1 | ⟨ch, k, h1, h2, h3, h4⟩
    · rw [h1]; exact h
    · rw [h4, dispatch_chld { s with kids := s.kids.set q ⟨none, k.ended⟩ } hi.wf hi.uniq]
      split
      · rename_i hr
        have hqp : q ≠ p := by
          rintro rfl
          exact hnr hr
        simp only [handleEvent]
        split
        · show (s.procs.set q _).get? p = _
          rw [Dict.get?_set, if_neg hqp]; exact h
        · show (s.procs.set q _).get? p = _
          rw [Dict.get?_set, if_neg hqp]; exact h
      · exact h
  | readStop =>
    rcases readStop_cases s with h1 | ⟨q, h1, h2, h4⟩
    · rw [h1]; exact h
    · rw [h4]
      have hi' : Inv { s with tstp := none } := inv_frame hi rfl rfl rfl rfl rfl hi.wake
      exact (dispatch_tstp hi' q).procsDone p ps h hd

end Pieshell.Sig
