import Verif.Lemmas.Job12
/-! The method `suspend()`. -/
namespace Pieshell.Job

/-- Pipeline `p` is suspended, and call `w` of its `wait()` can only end with `PipelineSuspended` or by being cancelled. -/
structure Sus (s : St) (w p : Nat) : Prop where
  sus : suspendedOf s p = true
  stop : AllStopped s p
  nofresh : ∀ (v : Nat) (V : Waiter), s.waiters[v]? = some V → V.pipe = p → V.st ≠ .fresh
  me : ∀ W : Waiter, s.waiters[w]? = some W → W.pipe = p ∧ ∀ r, W.st = .over r → r = .suspended ∨ r = .cancelled

theorem Sus.lt {s : St} {w p : Nat} (h : Sus s w p) : p < s.pipes.length := by
  have := h.sus
  cases e : s.pipes[p]? with
  | none => simp [suspendedOf, e] at this
  | some P => exact lt_of_get e

theorem sus_frame {s s' : St} {w p : Nat} (h : Sus s w p) (hs : suspendedOf s' p = true)
    (ha : AllStopped s p → AllStopped s' p)
    (hw : ∀ (v : Nat) (V' : Waiter), s'.waiters[v]? = some V' → ∃ V : Waiter, s.waiters[v]? = some V ∧ V'.pipe = V.pipe ∧
      (V'.st = .fresh → V.st = .fresh) ∧ (V'.pipe = p → ∀ r, V'.st = .over r → V.st = .over r ∨ r = .suspended ∨ r = .cancelled)) : Sus s' w p := by
  refine ⟨hs, ha h.stop, ?_, ?_⟩
  · intro v V' hv hp hf
    obtain ⟨V, h1, h2, h3, _⟩ := hw v V' hv
    exact h.nofresh v V h1 (h2 ▸ hp) (h3 hf)
  · intro W' hW'
    obtain ⟨W, h1, h2, _, h4⟩ := hw w W' hW'
    obtain ⟨h5, h6⟩ := h.me W h1
    refine ⟨h2.trans h5, fun r hr => ?_⟩
    rcases h4 (h2.trans h5) r hr with h | h
    · exact h6 r h
    · exact h

theorem sus_waiters {s s' : St} {w p : Nat} (h : Sus s w p) (hs : suspendedOf s' p = suspendedOf s p)
    (hk : (itemsOf s'.pipes p).map kss = (itemsOf s.pipes p).map kss) (hw : s'.waiters = s.waiters) : Sus s' w p :=
  sus_frame h (hs.trans h.sus) (allStopped_kss hk) (fun v V' hv => ⟨V', hw ▸ hv, rfl, id, fun _ _ => .inl⟩)

theorem sus_resolve {s : St} {w p : Nat} (h : Sus s w p) (q : Nat) : Sus (resolve s q) w p := by
  refine sus_frame h ((suspended_resolve s q p).trans h.sus) (allStopped_kss (kss_resolve s q p)) ?_
  intro v V' hv
  rw [get_resolve] at hv
  split at hv
  · cases e : s.waiters[v]? with
    | none => rw [e] at hv; cases hv
    | some V =>
      rw [e] at hv
      simp only [Option.map_some, Option.some.injEq] at hv
      subst hv
      exact ⟨V, rfl, rfl, (fun h => nomatch h), fun _ r h => by cases h⟩
  · exact ⟨V', hv, rfl, id, fun _ _ => .inl⟩

theorem sus_collect {s : St} {w p : Nat} (h : Sus s w p) (q : Nat) : Sus (collect s q) w p := by
  refine sus_waiters h ?_ ?_ (collect_waiters s q)
  · simp only [suspendedOf, collect_get]
    split
    · cases s.pipes[p]? <;> rfl
    · rfl
  · rw [collect_itemsOf]
    split
    · rename_i e; subst e; rw [if_pos h.lt]; exact readItems_kss _ _
    · rfl

theorem sus_handleFinish {s : St} {w p : Nat} (h : Sus s w p) (q : Nat) : Sus (handleFinish s q) w p := by
  simp only [handleFinish]
  split
  · split
    · exact sus_collect h q
    · exact sus_resolve (sus_collect h q) q
  · exact sus_resolve h q

theorem sus_modWaiter {s : St} {w p : Nat} (h : Sus s w p) (v : Nat) (f : Waiter → Waiter)
    (hf : ∀ V : Waiter, s.waiters[v]? = some V → (f V).pipe = V.pipe ∧ ((f V).st = .fresh → V.st = .fresh) ∧
      (V.pipe = p → ∀ r, (f V).st = .over r → V.st = .over r ∨ r = .suspended ∨ r = .cancelled)) : Sus (s.modWaiter v f) w p := by
  refine sus_frame h h.sus id ?_
  intro u U' hu
  rw [get_modWaiter] at hu
  split at hu
  · rename_i e; subst e
    cases e : s.waiters[v]? with
    | none => rw [e] at hu; cases hu
    | some V =>
      rw [e] at hu
      simp only [Option.map_some, Option.some.injEq] at hu
      subst hu
      obtain ⟨h1, h2, h3⟩ := hf V e
      exact ⟨V, rfl, h1, h2, fun hp => h3 (h1 ▸ hp)⟩
  · exact ⟨U', hu, rfl, id, fun _ _ => .inl⟩

theorem sus_modPipe {s : St} {w p : Nat} (h : Sus s w p) (q : Nat) (f : Pipe → Pipe)
    (hf : ∀ P : Pipe, s.pipes[q]? = some P → q = p → (f P).suspended = P.suspended ∧ (f P).items.map kss = P.items.map kss) : Sus (s.modPipe q f) w p := by
  refine sus_waiters h ?_ ?_ rfl
  · simp only [suspendedOf, get_modPipe]
    split
    · rename_i e
      cases e2 : s.pipes[p]? with
      | none => rfl
      | some P => simp [(hf P (e ▸ e2) e).1]
    · rfl
  · simp only [itemsOf, get_modPipe]
    split
    · rename_i e
      cases e2 : s.pipes[p]? with
      | none => rfl
      | some P => simpa using (hf P (e ▸ e2) e).2
    · rfl

theorem sus_suspend {s : St} {w p : Nat} (h : Sus s w p) (q : Nat) : Sus (suspend s q) w p := by
  refine sus_frame h ?_ ?_ (fun v V' hv => ⟨V', hv, rfl, id, fun _ _ => .inl⟩)
  · simp only [suspendedOf, suspend, get_modPipe]
    split
    · rename_i e; subst e
      rw [List.getElem?_eq_getElem h.lt]
      rfl
    · exact h.sus
  · intro ha
    by_cases e : q = p
    · subst e; exact suspend_allStopped s q
    · intro it hit
      simp only [itemsOf, suspend, get_modPipe, if_neg e] at hit
      exact ha it hit

theorem sus_register {s : St} {w p : Nat} (h : Sus s w p) (v q : Nat) : Sus (register s v q) w p := by
  simp only [register]
  refine sus_modWaiter (f := fun W => { W with st := .awaiting }) (sus_modPipe (f := fun P => { P with fut := some v }) ?_ q (fun P _ _ => ⟨rfl, rfl⟩)) v
    (fun V _ => ⟨rfl, (fun h => nomatch h), fun _ r h => nomatch h⟩)
  split
  · split
    · exact h
    · exact sus_modWaiter h _ _ (fun V _ => ⟨rfl, id, fun _ _ => .inl⟩)
  · exact h

theorem sus_endWait {s : St} {w p : Nat} (h : Sus s w p) {v : Nat} {V : Waiter} (hv : s.waiters[v]? = some V) : Sus (endWait s v V.pipe) w p := by
  have h1 : Sus (if suspendedOf s V.pipe then suspend s V.pipe else s) w p := by
    split
    · exact sus_suspend h _
    · exact h
  have hw : (if suspendedOf s V.pipe then suspend s V.pipe else s).waiters = s.waiters := by split <;> rfl
  have h2 : Sus ((if suspendedOf s V.pipe then suspend s V.pipe else s).modWaiter v (fun W => { W with st := .over (result s V.pipe) })) w p := by
    refine sus_modWaiter h1 v _ (fun U hU => ⟨rfl, (fun h => nomatch h), fun hp r hr => ?_⟩)
    rw [hw, hv] at hU; cases hU
    simp only [WState.over.injEq] at hr
    subst hr
    exact .inr (.inl (result_suspended.2 (hp ▸ h.sus)))
  exact sus_waiters h2 rfl rfl rfl

theorem sus_loopCheck {s : St} {w p : Nat} (h : Sus s w p) {v : Nat} {V : Waiter} (hv : s.waiters[v]? = some V) (c : Option Nat) :
    Sus (loopCheck s v V.pipe c) w p := by
  simp only [loopCheck]
  split
  · exact sus_register h v V.pipe
  · rw [finishWait_eq]
    split
    · cases c with
      | none => exact sus_endWait h hv
      | some q => exact sus_handleFinish (sus_endWait h hv) q
    · exact sus_endWait h hv

theorem sus_restart {s : St} {w p : Nat} (h : Sus s w p) {q : Nat} (hq : q ≠ p) : Sus (restart s q) w p :=
  sus_modPipe h q _ (fun _ _ e => absurd e hq)

theorem sus_resume {s : St} {w p : Nat} (h : Sus s w p) (v : Nat) : Sus (resume s v) w p := by
  cases e : s.waiters[v]? with
  | none => rw [resume_none e]; exact h
  | some V =>
    cases hst : V.st with
    | fresh =>
      have hp : V.pipe ≠ p := fun hp => h.nofresh v V e hp hst
      rw [resume_fresh e hst]
      have h1 : Sus (enter s V.pipe) w p := by
        unfold enter
        refine sus_restart ?_ hp
        split
        · exact sus_waiters h rfl rfl rfl
        · exact h
      refine sus_loopCheck h1 (V := V) ?_ _
      unfold enter
      split <;> exact e
    | woken => rw [resume_woken e hst]; exact sus_loopCheck h e _
    | cancelled b =>
      rw [resume_cancelled e hst]
      have : Sus (s.modWaiter v (fun W => { W with st := .over .cancelled })) w p :=
        sus_modWaiter h v _ (fun U _ => ⟨rfl, (fun h => nomatch h), fun _ r hr => by cases hr; exact .inr (.inr rfl)⟩)
      exact sus_waiters this rfl rfl rfl
    | awaiting => rw [resume_other e (by simp [hst]) (by simp [hst]) (by simp [hst])]; exact h
    | over r => rw [resume_other e (by simp [hst]) (by simp [hst]) (by simp [hst])]; exact h

theorem sus_drop {s : St} {w p : Nat} (h : Sus s w p) (v q : Nat) (b : Bool) : Sus (drop s v q b) w p :=
  sus_modPipe (f := fun P => { P with fut := if P.fut = some v then none else P.fut })
    (sus_modWaiter (f := fun W => { W with st := .cancelled b }) h v (fun _ _ => ⟨rfl, (fun h => nomatch h), fun _ r h => nomatch h⟩)) q (fun _ _ _ => ⟨rfl, rfl⟩)

theorem sus_step {s : St} {w p : Nat} (hi : Inv s none) (h : Sus s w p) (hw : w < s.waiters.length) (a : Act) (ha : StaysStopped p a = true) : Sus (step s a) w p := by
  cases a with
  | start xs =>
    show Sus (start s xs) w p
    cases hok : okSpecs s xs with
    | false => rw [start_no hok]; exact h
    | true =>
      rw [start_eq hi hok]
      have hlt := h.lt
      refine ⟨?_, ?_, ?_, ?_⟩
      · have := h.sus
        simpa only [suspendedOf, started_get_old hlt] using this
      · intro it hit
        simp only [itemsOf, started_get_old hlt] at hit
        exact h.stop it hit
      · intro v V hv hp
        simp only [started] at hv
        rw [List.getElem?_append] at hv
        split at hv
        · exact h.nofresh v V hv hp
        · have hm := List.mem_of_getElem? hv
          obtain ⟨t, ht, rfl⟩ := List.mem_map.1 hm
          obtain ⟨x, hx, hxt⟩ := List.mem_filterMap.1 ht
          have : t = p := hp
          subst this
          simp only [StaysStopped, decide_eq_true_eq] at ha
          exact absurd (List.mem_map.2 ⟨x, hx, hxt⟩) ha
      · intro W hW
        simp only [started] at hW
        rw [List.getElem?_append_left hw] at hW
        exact h.me W hW
  | wait q =>
    simp only [step]
    split
    · refine ⟨h.sus, h.stop, ?_, ?_⟩
      · intro v V hv hp
        have hv : (s.waiters ++ [⟨q, none, .fresh, false⟩])[v]? = some V := hv
        rw [List.getElem?_append] at hv
        split at hv
        · exact h.nofresh v V hv hp
        · have hm := List.mem_of_getElem? hv
          rw [List.mem_singleton] at hm
          subst hm
          simp [StaysStopped] at ha
          exact absurd hp ha
      · intro W hW
        have hW : (s.waiters ++ [⟨q, none, .fresh, false⟩])[w]? = some W := hW
        rw [List.getElem?_append_left hw] at hW
        exact h.me W hW
    · exact h
  | resume v => exact sus_resume h v
  | cancel v =>
    show Sus (cancel s v) w p
    simp only [cancel]
    split
    · exact h
    · split
      · exact sus_drop h _ _ _
      · exact sus_drop h _ _ _
      · exact sus_drop h _ _ _
      · exact h
  | finish q i o =>
    simp only [step]
    split
    · exact h
    · rename_i it hit
      split
      · rename_i hc
        refine sus_modPipe ?_ q _ (fun _ _ _ => ⟨rfl, rfl⟩)
        refine sus_frame h ?_ ?_ (fun v V' hv => ⟨V', hv, rfl, id, fun _ _ => .inl⟩)
        · have := h.sus
          simp only [suspendedOf, get_modItem]
          split
          · cases e : s.pipes[p]? with
            | none => simp [suspendedOf, e] at this
            | some P => simpa [suspendedOf, e] using this
          · exact this
        · intro hst jt hjt hk hr
          rw [itemsOf_modItem] at hjt
          split at hjt
          · rename_i e; subst e
            obtain ⟨j, hj⟩ := List.getElem?_of_mem hjt
            rw [List.getElem?_modify] at hj
            cases e2 : (itemsOf s.pipes q)[j]? with
            | none => rw [e2] at hj; cases hj
            | some kt =>
              rw [e2] at hj
              simp only [Option.map_eq_map, Option.map_some, Option.some.injEq] at hj
              have hkt := List.mem_of_getElem? e2
              by_cases e3 : i = j
              · subst e3
                rw [if_pos rfl] at hj
                subst hj
                have e4 : some it = some kt := hit.symm.trans e2
                cases e4
                have := hc.2
                simp only at hk hr
                rw [hk, hr] at this; cases this
              · rw [if_neg e3] at hj
                subst hj
                exact hst _ hkt hk hr
          · exact hst jt hjt hk hr
      · exact h
  | task q i =>
    simp only [step]
    split
    · exact h
    · rename_i it hit
      split
      · have h1 : Sus (s.modItem q i overItem) w p := by
          refine sus_modPipe h q _ (fun P _ _ => ⟨rfl, map_modify_same kss overItem (fun _ => rfl) _ _⟩)
        split
        · exact h1
        · exact sus_handleFinish h1 q
      · exact h
  | tstp =>
    simp only [step]
    split
    · exact h
    · rename_i q _
      refine sus_resolve ?_ q
      refine sus_frame h ?_ (allStopped_kss ?_) (fun v V' hv => ⟨V', hv, rfl, id, fun _ _ => .inl⟩)
      · have := h.sus
        simp only [suspendedOf, get_modPipe]
        split
        · rw [List.getElem?_eq_getElem h.lt]; rfl
        · exact this
      · simp only [itemsOf, get_modPipe]
        split
        · cases s.pipes[p]? <;> rfl
        · rfl
  | write q i path data =>
    simp only [step]
    split
    · exact h
    · split
      · split
        · exact sus_waiters h rfl rfl rfl
        · exact h
      · exact h
  | restart q => exact sus_restart h (by simpa [StaysStopped] using ha)
  | suspend q => exact sus_suspend h q
  | bg => cases ha
  | fg => cases ha
  | removeFiles q => exact sus_waiters h rfl rfl rfl

end Pieshell.Job
