import Verif.Lemmas.Job11
/-! CTRL-Z. -/
namespace Pieshell.Job

/-- Waiters change by being woken only. -/
def WakeOnly (s s' : St) : Prop := s'.current = s.current ∧ ∀ v : Nat, s'.waiters[v]? = s.waiters[v]? ∨
  ∃ V : Waiter, s.waiters[v]? = some V ∧ V.st = .awaiting ∧ s'.waiters[v]? = some { V with st := .woken }

theorem wake_same {s s' : St} (hc : s'.current = s.current) (hw : s'.waiters = s.waiters) : WakeOnly s s' :=
  ⟨hc, fun v => .inl (by rw [hw])⟩

theorem wake_resolve {s : St} (hf : ∀ (p : Nat) (P : Pipe) (w : Nat), s.pipes[p]? = some P → P.fut = some w →
    ∃ W : Waiter, s.waiters[w]? = some W ∧ W.pipe = p ∧ W.st = .awaiting) (p : Nat) : WakeOnly s (resolve s p) := by
  refine ⟨(resolve_frame s p).2.2.2.1, fun v => ?_⟩
  rw [get_resolve]
  split
  · rename_i h
    obtain ⟨P, hP, hfut⟩ := bind_fut_some h
    obtain ⟨W, hW, -, ha⟩ := hf p P v hP hfut
    exact .inr ⟨W, hW, ha, by rw [hW]; rfl⟩
  · exact .inl rfl

theorem collect_current (s : St) (p : Nat) : (collect s p).current = s.current := by
  simp only [collect]; split <;> rfl

theorem wake_handleFinish {s : St} (hf : ∀ (p : Nat) (P : Pipe) (w : Nat), s.pipes[p]? = some P → P.fut = some w →
    ∃ W : Waiter, s.waiters[w]? = some W ∧ W.pipe = p ∧ W.st = .awaiting) (p : Nat) : WakeOnly s (handleFinish s p) := by
  simp only [handleFinish]
  split
  · split
    · exact wake_same (collect_current s p) (collect_waiters s p)
    · have h2 : WakeOnly (collect s p) (resolve (collect s p) p) := by
        refine wake_resolve ?_ p
        intro q Q w hQ hw
        rw [collect_get] at hQ
        rw [collect_waiters]
        split at hQ
        · rename_i e; subst e
          cases e2 : s.pipes[p]? with
          | none => rw [e2] at hQ; cases hQ
          | some P =>
            rw [e2] at hQ
            simp only [Option.map_some, Option.some.injEq] at hQ
            subst hQ
            exact hf p P w e2 hw
        · exact hf q Q w hQ hw
      refine ⟨h2.1.trans (collect_current s p), fun v => ?_⟩
      have := h2.2 v
      rw [collect_waiters] at this
      exact this
  · exact wake_resolve hf p

/-- What `waitStopped` needs of items. -/
def kss (it : Item) : Kind × State × Bool := (it.kind, it.state, it.stopped)

theorem readItems_kss (fs : Dict Path Io.Bytes) (l : List Item) : (readItems fs l).1.map kss = l.map kss := by
  induction l with
  | nil => rfl
  | cons it l ih =>
    simp only [readItems]
    split
    · simp only [List.map_cons, ih]; rfl
    · rfl

theorem kss_resolve (s : St) (p q : Nat) : (itemsOf (resolve s p).pipes q).map kss = (itemsOf s.pipes q).map kss := by
  simp only [itemsOf, resolve_get]
  split
  · cases s.pipes[q]? <;> rfl
  · rfl

theorem kss_handleFinish (s : St) (p q : Nat) : (itemsOf (handleFinish s p).pipes q).map kss = (itemsOf s.pipes q).map kss := by
  have hc : (itemsOf (collect s p).pipes q).map kss = (itemsOf s.pipes q).map kss := by
    rw [collect_itemsOf]
    split
    · rename_i e; subst e
      split
      · exact readItems_kss _ _
      · rename_i h
        have : s.pipes[p]? = none := List.getElem?_eq_none (Nat.le_of_not_lt h)
        simp [itemsOf, this]
    · rfl
  simp only [handleFinish]
  split
  · split
    · exact hc
    · rw [kss_resolve, hc]
  · exact kss_resolve s p q

theorem allStopped_kss {s s' : St} {p : Nat} (h : (itemsOf s'.pipes p).map kss = (itemsOf s.pipes p).map kss)
    (ha : AllStopped s p) : AllStopped s' p := by
  intro it hit hk hr
  have : kss it ∈ (itemsOf s.pipes p).map kss := by rw [← h]; exact List.mem_map_of_mem hit
  obtain ⟨jt, hjt, e⟩ := List.mem_map.1 this
  simp only [kss, Prod.mk.injEq] at e
  rw [← e.2.2]
  exact ha jt hjt (e.1.trans hk) (e.2.1.trans hr)

theorem suspended_resolve (s : St) (p q : Nat) : suspendedOf (resolve s p) q = suspendedOf s q := by
  simp only [suspendedOf, resolve_get]
  split
  · cases s.pipes[q]? <;> rfl
  · rfl

theorem suspended_handleFinish (s : St) (p q : Nat) : suspendedOf (handleFinish s p) q = suspendedOf s q := by
  have hc : suspendedOf (collect s p) q = suspendedOf s q := by
    simp only [suspendedOf, collect_get]
    split
    · cases s.pipes[q]? <;> rfl
    · rfl
  simp only [handleFinish]
  split
  · split
    · exact hc
    · rw [suspended_resolve, hc]
  · exact suspended_resolve s p q

/-- Only call `w`, of `wait()` of `p`, is under way. -/
structure Ph1 (s : St) (w p : Nat) : Prop where
  inv : Inv s none
  oth : ∀ (v : Nat) (V : Waiter), s.waiters[v]? = some V → v ≠ w → V.st.isOver = true
  me : ∃ W : Waiter, s.waiters[w]? = some W ∧ W.pipe = p ∧ W.cont = none ∧ W.shadowed = false ∧
    (W.st.isOver = true ∨ ((W.st = .awaiting ∨ W.st = .woken) ∧ s.current = some p))

theorem ph1_wake {s s' : St} {w p : Nat} (h : Ph1 s w p) (hi : Inv s' none) (hw : WakeOnly s s') : Ph1 s' w p := by
  refine ⟨hi, ?_, ?_⟩
  · intro v V' hv hne
    rcases hw.2 v with e | ⟨V, e1, e2, e3⟩
    · rw [e] at hv; exact h.oth v V' hv hne
    · have := h.oth v V e1 hne
      rw [e2] at this; cases this
  · obtain ⟨W, h1, h2, h3, h4, h5⟩ := h.me
    rcases hw.2 w with e | ⟨V, e1, e2, e3⟩
    · exact ⟨W, by rw [e]; exact h1, h2, h3, h4, by rw [hw.1]; exact h5⟩
    · rw [h1] at e1; cases e1
      refine ⟨_, e3, h2, h3, h4, .inr ⟨.inr rfl, ?_⟩⟩
      rcases h5 with h5 | h5
      · rw [e2] at h5; cases h5
      · rw [hw.1]; exact h5.2

/-- The state after a call of `wait()` ended has no foreground pipeline. -/
theorem endWait_get (s : St) (w p v : Nat) : (endWait s w p).waiters[v]? =
    if w = v then (s.waiters[v]?).map (fun W => { W with st := .over (result s p) }) else s.waiters[v]? := by
  rw [endWait_waiters, List.getElem?_modify]
  split <;> simp

theorem ph1_loopCheck {s : St} {w p : Nat} {W : Waiter} (hi : Inv (loopCheck s w p none) none) (his : Inv s none)
    (hoth : ∀ (v : Nat) (V : Waiter), s.waiters[v]? = some V → v ≠ w → V.st.isOver = true)
    (hw : s.waiters[w]? = some W) (hp : W.pipe = p) (hc : W.cont = none) (hsh : W.shadowed = false)
    (hcur : s.current = some p) : Ph1 (loopCheck s w p none) w p := by
  refine ⟨hi, ?_, ?_⟩
  · intro v V' hv hne
    simp only [loopCheck] at hv
    split at hv
    · rw [get_register, if_neg (fun e => hne e.symm)] at hv
      split at hv
      · cases e : s.waiters[v]? with
        | none => rw [e] at hv; cases hv
        | some V =>
          rw [e] at hv
          simp only [Option.map_some, Option.some.injEq] at hv
          subst hv
          exact hoth v V e hne
      · exact hoth v V' hv hne
    · rw [finishWait_eq] at hv
      have : (endWait s w p).waiters[v]? = some V' := by
        split at hv <;> exact hv
      rw [endWait_get, if_neg (fun e => hne e.symm)] at this
      exact hoth v V' this hne
  · simp only [loopCheck]
    split
    · refine ⟨{ W with st := .awaiting }, ?_, hp, hc, hsh, .inr ⟨.inl rfl, ?_⟩⟩
      · rw [get_register, if_pos rfl, hw]; rfl
      · show (shadow s w p).current = _
        rw [(shadow_frame s w p).2.1]; exact hcur
    · refine ⟨{ W with st := .over (result s p) }, ?_, hp, hc, hsh, .inl rfl⟩
      rw [finishWait_eq]
      have : (endWait s w p).waiters[w]? = some { W with st := .over (result s p) } := by
        rw [endWait_get, if_pos rfl, hw]; rfl
      split <;> exact this

theorem ph1_step {s : St} {w p : Nat} (h : Ph1 s w p) (a : Act) (ha : Passive a = true) : Ph1 (step s a) w p := by
  have hi := inv_step h.inv a
  cases a with
  | start xs => cases ha
  | bg => cases ha
  | fg => cases ha
  | wait p => cases ha
  | restart p => cases ha
  | suspend p => cases ha
  | removeFiles p => cases ha
  | cancel v => cases ha
  | resume v =>
    by_cases hv : v = w
    · subst hv
      obtain ⟨W, h1, h2, h3, h4, h5⟩ := h.me
      show Ph1 (resume s v) v p
      replace hi : Inv (resume s v) none := hi
      rcases h5 with h5 | ⟨h5 | h5, h6⟩
      · rw [resume_other h1 (by intro e; rw [e] at h5; cases h5) (by intro e; rw [e] at h5; cases h5) (by intro b e; rw [e] at h5; cases h5)]
        exact h
      · rw [resume_other h1 (by simp [h5]) (by simp [h5]) (by simp [h5])]
        exact h
      · rw [resume_woken h1 h5, h2, h3] at hi ⊢
        exact ph1_loopCheck hi h.inv h.oth h1 h2 h3 h4 h6
    · show Ph1 (resume s v) w p
      cases e : s.waiters[v]? with
      | none => rw [resume_none e]; exact h
      | some V =>
        have := h.oth v V e hv
        rw [resume_other e (by intro e; rw [e] at this; cases this) (by intro e; rw [e] at this; cases this) (by intro b e; rw [e] at this; cases this)]
        exact h
  | finish q i o =>
    refine ph1_wake h hi ?_
    simp only [step]
    split
    · exact wake_same rfl rfl
    · split <;> exact wake_same rfl rfl
  | task q i =>
    refine ph1_wake h hi ?_
    simp only [step]
    split
    · exact wake_same rfl rfl
    · split
      · split
        · exact wake_same rfl rfl
        · refine wake_handleFinish (s := s.modItem q i overItem) ?_ q
          intro r R v hR hv
          rw [get_modItem] at hR
          split at hR
          · cases e : s.pipes[r]? with
            | none => rw [e] at hR; cases hR
            | some P =>
              rw [e] at hR
              simp only [Option.map_some, Option.some.injEq] at hR
              subst hR
              exact h.inv.futW r P v e hv
          · exact h.inv.futW r R v hR hv
      · exact wake_same rfl rfl
  | tstp =>
    refine ph1_wake h hi ?_
    simp only [step]
    split
    · exact wake_same rfl rfl
    · rename_i q _
      refine wake_resolve (s := s.modPipe q (fun P => { P with suspended := true })) ?_ q
      intro r R v hR hv
      rw [get_modPipe] at hR
      split at hR
      · cases e : s.pipes[r]? with
        | none => rw [e] at hR; cases hR
        | some P =>
          rw [e] at hR
          simp only [Option.map_some, Option.some.injEq] at hR
          subst hR
          exact h.inv.futW r P v e hv
      · exact h.inv.futW r R v hR hv
  | write q i path data =>
    refine ph1_wake h hi ?_
    simp only [step]
    split
    · exact wake_same rfl rfl
    · split
      · split <;> exact wake_same rfl rfl
      · exact wake_same rfl rfl

theorem ph1_run {s : St} {w p : Nat} (h : Ph1 s w p) (as : List Act) (ha : ∀ a ∈ as, Passive a = true) : Ph1 (run s as) w p := by
  induction as generalizing s with
  | nil => exact h
  | cons a as ih => exact ih (ph1_step h a (ha a (by simp))) (fun b hb => ha b (by simp [hb]))

/-- `wait()` is called and begins, while nobody else waits. -/
theorem ph1_begin {s : St} (hi : Inv s none) (hint : s.interactive = true) {p : Nat} (hp : p < s.pipes.length)
    (ho : ∀ (v : Nat) (V : Waiter), s.waiters[v]? = some V → V.st.isOver = true) :
    Ph1 (run s [.wait p, .resume s.waiters.length]) s.waiters.length p := by
  have e1 : step s (.wait p) = { s with waiters := s.waiters ++ [⟨p, none, .fresh, false⟩] } := by
    simp only [step, if_pos hp]
  have hi1 := inv_step hi (.wait p)
  have hi2 := inv_step hi1 (.resume s.waiters.length)
  show Ph1 (resume (step s (.wait p)) s.waiters.length) _ _
  replace hi2 : Inv (resume (step s (.wait p)) s.waiters.length) none := hi2
  have hw : (step s (.wait p)).waiters[s.waiters.length]? = some ⟨p, none, .fresh, false⟩ := by
    rw [e1]; simp
  have hoth : ∀ (v : Nat) (V : Waiter), (step s (.wait p)).waiters[v]? = some V → v ≠ s.waiters.length → V.st.isOver = true := by
    intro v V hv hne
    rw [e1] at hv
    by_cases hl : v < s.waiters.length
    · simp only [List.getElem?_append_left hl] at hv
      exact ho v V hv
    · simp only [List.getElem?_append_right (Nat.le_of_not_lt hl)] at hv
      have : v - s.waiters.length = (v - s.waiters.length - 1) + 1 := by omega
      rw [this] at hv; simp at hv
  rw [resume_fresh hw rfl] at hi2 ⊢
  refine ph1_loopCheck hi2 (inv_enter hi1 p) (by rw [enter_waiters]; exact hoth) (by rw [enter_waiters]; exact hw) rfl rfl rfl ?_
  show (enter (step s (.wait p)) p).current = some p
  have : (step s (.wait p)).interactive = true := by rw [e1]; exact hint
  simp only [enter, this, if_true, restart, St.modPipe]

/-- After CTRL-Z. -/
structure Ph2 (s : St) (w p : Nat) : Prop where
  inv : Inv s none
  oth : ∀ (v : Nat) (V : Waiter), s.waiters[v]? = some V → v ≠ w → V.st.isOver = true
  me : ∃ W : Waiter, s.waiters[w]? = some W ∧ W.pipe = p ∧ W.cont = none ∧
    ((W.st = .woken ∧ suspendedOf s p = true) ∨ (W.st = .over .suspended ∧ s.current = none ∧ AllStopped s p))

theorem ph2_of_ph1 {s : St} {w p : Nat} (h : Ph1 s w p) (ho : ∀ r, ¬ Ended s w r) : Ph2 (step s .tstp) w p := by
  have h1 := ph1_step h .tstp rfl
  refine ⟨h1.inv, h1.oth, ?_⟩
  obtain ⟨W, hW, h2, h3, h4, h5⟩ := h.me
  rcases h5 with h5 | ⟨h5, hc⟩
  · cases hst : W.st with
    | over r => exact absurd ⟨W, hW, hst⟩ (ho r)
    | _ => rw [hst] at h5; cases h5
  · have hlt := (h.inv.wp w W hW).1
    rw [h2] at hlt
    obtain ⟨P, hP⟩ : ∃ P, s.pipes[p]? = some P := ⟨_, List.getElem?_eq_getElem hlt⟩
    have hsus : suspendedOf (step s .tstp) p = true := by
      simp only [step, hc]
      rw [suspended_resolve]
      simp only [suspendedOf, get_modPipe, if_true, hP]
      rfl
    rcases h5 with h5 | h5
    · obtain ⟨P', hP', hfut⟩ := h.inv.awF w W hW h5 h4
      rw [h2, hP] at hP'; cases hP'
      refine ⟨{ W with st := .woken }, ?_, h2, h3, .inl ⟨rfl, hsus⟩⟩
      simp only [step, hc]
      rw [get_resolve, if_pos, ]
      · show Option.map _ s.waiters[w]? = _
        rw [hW]; rfl
      · rw [get_modPipe, if_pos rfl, hP]; exact hfut
    · refine ⟨W, ?_, h2, h3, .inl ⟨h5, hsus⟩⟩
      simp only [step, hc]
      rw [get_resolve, if_neg]
      · exact hW
      · rw [get_modPipe, if_pos rfl, hP]
        intro e
        obtain ⟨V, hV, -, ha⟩ := h.inv.futW p P w hP e
        rw [hW] at hV; cases hV
        rw [h5] at ha; cases ha

theorem ph2_frame {s s' : St} {w p : Nat} (h : Ph2 s w p) (hi : Inv s' none) (hw : WakeOnly s s')
    (hs : suspendedOf s' p = true ∨ suspendedOf s' p = suspendedOf s p) (ha : AllStopped s p → AllStopped s' p) : Ph2 s' w p := by
  refine ⟨hi, ?_, ?_⟩
  · intro v V' hv hne
    rcases hw.2 v with e | ⟨V, e1, e2, e3⟩
    · rw [e] at hv; exact h.oth v V' hv hne
    · have := h.oth v V e1 hne
      rw [e2] at this; cases this
  · obtain ⟨W, h1, h2, h3, h4⟩ := h.me
    rcases hw.2 w with e | ⟨V, e1, e2, e3⟩
    · refine ⟨W, by rw [e]; exact h1, h2, h3, ?_⟩
      rcases h4 with ⟨h4, h5⟩ | ⟨h4, h5, h6⟩
      · refine .inl ⟨h4, ?_⟩
        rcases hs with hs | hs
        · exact hs
        · rw [hs]; exact h5
      · exact .inr ⟨h4, by rw [hw.1]; exact h5, ha h6⟩
    · rw [h1] at e1; cases e1
      rcases h4 with ⟨h4, -⟩ | ⟨h4, -⟩ <;> rw [e2] at h4 <;> cases h4

theorem suspend_allStopped (s : St) (p : Nat) : AllStopped (suspend s p) p := by
  intro it hit hk hr
  simp only [itemsOf, suspend, get_modPipe, if_true] at hit
  cases e : s.pipes[p]? with
  | none => simp [e] at hit
  | some P =>
    simp only [e, Option.map_some, Option.getD_some] at hit
    obtain ⟨jt, -, rfl⟩ := List.mem_map.1 hit
    simp only [Item.stop] at hk hr ⊢
    split
    · rfl
    · rename_i hn
      rw [if_neg hn] at hk hr
      exact absurd ⟨hk, hr⟩ hn

theorem ph2_step {s : St} {w p : Nat} (h : Ph2 s w p) (a : Act) (ha : Passive a = true) : Ph2 (step s a) w p := by
  have hi := inv_step h.inv a
  cases a with
  | start xs => cases ha
  | bg => cases ha
  | fg => cases ha
  | wait p => cases ha
  | restart p => cases ha
  | suspend p => cases ha
  | removeFiles p => cases ha
  | cancel v => cases ha
  | resume v =>
    by_cases hv : v = w
    · subst hv
      obtain ⟨W, h1, h2, h3, h4⟩ := h.me
      show Ph2 (resume s v) v p
      replace hi : Inv (resume s v) none := hi
      rcases h4 with ⟨h4, h5⟩ | ⟨h4, h5⟩
      · rw [resume_woken h1 h4, h2, h3] at hi ⊢
        have hf : loopCheck s v p none = endWait s v p := by
          simp only [loopCheck, h5, Bool.not_true, Bool.false_and, Bool.false_eq_true, if_false]
          rw [finishWait_eq]
          split <;> rfl
        have hres : result s p = .suspended := result_suspended.2 h5
        refine ⟨hi, ?_, ?_⟩
        · intro u U hu hne
          rw [hf, endWait_get, if_neg (fun e => hne e.symm)] at hu
          exact h.oth u U hu hne
        · refine ⟨{ W with st := .over .suspended }, ?_, h2, h3, .inr ⟨rfl, ?_, ?_⟩⟩
          · rw [hf, endWait_get, if_pos rfl, h1, hres]; rfl
          · rw [hf]; rfl
          · rw [hf]
            have := suspend_allStopped s p
            intro it hit
            rw [endWait_pipes, if_pos h5] at hit
            exact this it hit
      · rw [resume_other h1 (by simp [h4]) (by simp [h4]) (by simp [h4])]
        exact h
    · show Ph2 (resume s v) w p
      cases e : s.waiters[v]? with
      | none => rw [resume_none e]; exact h
      | some V =>
        have := h.oth v V e hv
        rw [resume_other e (by intro e; rw [e] at this; cases this) (by intro e; rw [e] at this; cases this) (by intro b e; rw [e] at this; cases this)]
        exact h
  | finish q i o =>
    simp only [step] at hi ⊢
    split
    · exact h
    · rename_i it hit
      split
      · rename_i hc
        simp only [hit, if_pos hc] at hi
        refine ph2_frame h hi (wake_same rfl rfl) (.inr ?_) ?_
        · simp only [suspendedOf, get_modPipe, get_modItem]
          split
          · cases s.pipes[p]? <;> rfl
          · rfl
        · intro hst jt hjt hk hr
          have hjt' : jt ∈ itemsOf (s.modItem q i (fun it => { it with state := o, task := .queued })).pipes p := by
            simp only [itemsOf, get_modPipe] at hjt ⊢
            split at hjt
            · cases e : (s.modItem q i (fun it => { it with state := o, task := .queued })).pipes[p]? <;> rw [e] at hjt <;> exact hjt
            · exact hjt
          rw [itemsOf_modItem] at hjt'
          split at hjt'
          · rename_i e; subst e
            obtain ⟨j, hj⟩ := List.getElem?_of_mem hjt'
            rw [List.getElem?_modify] at hj
            cases e2 : (itemsOf s.pipes q)[j]? with
            | none => rw [e2] at hj; cases hj
            | some kt =>
              rw [e2] at hj
              simp only [Option.map_eq_map, Option.map_some, Option.some.injEq] at hj
              have hkt := List.mem_of_getElem? e2
              by_cases e3 : i = j
              · subst e3
                rw [if_pos rfl] at hj
                subst hj
                have e4 : some it = some kt := hit.symm.trans e2
                cases e4
                have := hc.2
                simp only at hk hr
                rw [hk, hr] at this; cases this
              · rw [if_neg e3] at hj
                subst hj
                exact hst _ hkt hk hr
          · exact hst jt hjt' hk hr
      · exact h
  | task q i =>
    have hfut : ∀ (r : Nat) (R : Pipe) (v : Nat), (s.modItem q i overItem).pipes[r]? = some R → R.fut = some v →
        ∃ W : Waiter, s.waiters[v]? = some W ∧ W.pipe = r ∧ W.st = .awaiting := by
      intro r R v hR hv
      rw [get_modItem] at hR
      split at hR
      · cases e : s.pipes[r]? with
        | none => rw [e] at hR; cases hR
        | some P =>
          rw [e] at hR
          simp only [Option.map_some, Option.some.injEq] at hR
          subst hR
          exact h.inv.futW r P v e hv
      · exact h.inv.futW r R v hR hv
    have hk1 : (itemsOf (s.modItem q i overItem).pipes p).map kss = (itemsOf s.pipes p).map kss := by
      rw [itemsOf_modItem]
      split
      · exact map_modify_same kss overItem (fun _ => rfl) _ _
      · rfl
    have hs1 : suspendedOf (s.modItem q i overItem) p = suspendedOf s p := by
      simp only [suspendedOf, get_modItem]
      split
      · cases s.pipes[p]? <;> rfl
      · rfl
    simp only [step] at hi ⊢
    split
    · exact h
    · rename_i it hit
      split
      · rename_i hq
        simp only [hit, if_pos hq] at hi
        split
        · rename_i hr
          simp only [if_pos hr] at hi
          exact ph2_frame h hi (wake_same rfl rfl) (.inr hs1) (allStopped_kss hk1)
        · rename_i hr
          simp only [if_neg hr] at hi
          refine ph2_frame h hi ?_ (.inr ?_) (allStopped_kss ?_)
          · have := wake_handleFinish (s := s.modItem q i overItem) hfut q
            exact this
          · exact (suspended_handleFinish _ q p).trans hs1
          · exact (kss_handleFinish _ q p).trans hk1
      · exact h
  | tstp =>
    refine ph2_frame h hi ?_ ?_ ?_
    · simp only [step]
      split
      · exact wake_same rfl rfl
      · rename_i q _
        refine wake_resolve (s := s.modPipe q (fun P => { P with suspended := true })) ?_ q
        intro r R v hR hv
        rw [get_modPipe] at hR
        split at hR
        · cases e : s.pipes[r]? with
          | none => rw [e] at hR; cases hR
          | some P =>
            rw [e] at hR
            simp only [Option.map_some, Option.some.injEq] at hR
            subst hR
            exact h.inv.futW r P v e hv
        · exact h.inv.futW r R v hR hv
    · simp only [step]
      split
      · exact .inr rfl
      · rename_i q _
        rw [suspended_resolve]
        simp only [suspendedOf, get_modPipe]
        split
        · cases e : s.pipes[p]? with
          | none => exact .inr rfl
          | some P => exact .inl rfl
        · exact .inr rfl
    · refine allStopped_kss ?_
      simp only [step]
      split
      · rfl
      · rename_i q _
        rw [kss_resolve]
        simp only [itemsOf, get_modPipe]
        split
        · cases s.pipes[p]? <;> rfl
        · rfl
  | write q i path data =>
    have key : step s (.write q i path data) = s ∨ ∃ f g, step s (.write q i path data) = { s with fs := f, written := g } := by
      simp only [step]
      split
      · exact .inl rfl
      · split
        · split
          · exact .inr ⟨_, _, rfl⟩
          · exact .inl rfl
        · exact .inl rfl
    rcases key with e | ⟨f, g, e⟩
    · rw [e]; exact h
    · rw [e] at hi ⊢
      exact ph2_frame h hi (wake_same rfl rfl) (.inr rfl) (fun ha => ha)

theorem ph2_run {s : St} {w p : Nat} (h : Ph2 s w p) (as : List Act) (ha : ∀ a ∈ as, Passive a = true) : Ph2 (run s as) w p := by
  induction as generalizing s with
  | nil => exact h
  | cons a as ih => exact ih (ph2_step h a (ha a (by simp))) (fun b hb => ha b (by simp [hb]))

theorem restart_noneStopped (s : St) (p : Nat) : NoneStopped (restart s p) p := by
  intro it hit hk
  simp only [itemsOf, restart, get_modPipe, if_true] at hit
  cases e : s.pipes[p]? with
  | none => simp [e] at hit
  | some P =>
    simp only [e, Option.map_some, Option.getD_some] at hit
    obtain ⟨jt, -, rfl⟩ := List.mem_map.1 hit
    simp only [Item.cont] at hk ⊢
    split
    · rfl
    · rename_i hn
      rw [if_neg hn] at hk
      exact absurd hk hn

theorem noneStopped_kss {s s' : St} {p : Nat} (h : (itemsOf s'.pipes p).map kss = (itemsOf s.pipes p).map kss)
    (ha : NoneStopped s p) : NoneStopped s' p := by
  intro it hit hk
  have : kss it ∈ (itemsOf s.pipes p).map kss := by rw [← h]; exact List.mem_map_of_mem hit
  obtain ⟨jt, hjt, e⟩ := List.mem_map.1 this
  simp only [kss, Prod.mk.injEq] at e
  rw [← e.2.2]
  exact ha jt hjt (e.1.trans hk)

theorem suspended_restart (s : St) (p : Nat) : suspendedOf (restart s p) p = false := by
  simp only [suspendedOf, restart, get_modPipe, if_true]
  cases s.pipes[p]? <;> rfl

theorem resume_noneStopped {s : St} {w : Nat} {W : Waiter} (hw : s.waiters[w]? = some W) (hf : W.st = .fresh) :
    NoneStopped (resume s w) W.pipe := by
  rw [resume_fresh hw hf]
  have h1 : NoneStopped (enter s W.pipe) W.pipe := restart_noneStopped _ _
  have hs : suspendedOf (enter s W.pipe) W.pipe = false := suspended_restart _ _
  refine noneStopped_kss ?_ h1
  simp only [loopCheck]
  split
  · simp only [itemsOf, register_get, if_true]
    cases (enter s W.pipe).pipes[W.pipe]? <;> rfl
  · rw [finishWait_eq]
    have he : (itemsOf (endWait (enter s W.pipe) w W.pipe).pipes W.pipe).map kss = (itemsOf (enter s W.pipe).pipes W.pipe).map kss := by
      rw [endWait_pipes, hs]; rfl
    split
    · split
      · rw [kss_handleFinish, he]
      · exact he
    · exact he

end Pieshell.Job
