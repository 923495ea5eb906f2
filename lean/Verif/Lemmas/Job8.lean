import Verif.Lemmas.Job7
/-! What never changes: kinds and files of items, results of finished pipelines, whom a waiter waits for. -/
namespace Pieshell.Job
open Pieshell.Io (Bytes)

structure Ext (s s' : St) : Prop where
  pipe : ∀ (p : Nat) (P : Pipe), s.pipes[p]? = some P → ∃ P' : Pipe, s'.pipes[p]? = some P' ∧
    P'.items.map kf = P.items.map kf ∧ P'.born = P.born ∧
    (P.finished = true → P'.finished = true ∧ P'.crashed = P.crashed ∧ P'.items.map Item.output = P.items.map Item.output)
  waiter : ∀ (w : Nat) (W : Waiter), s.waiters[w]? = some W → ∃ W' : Waiter, s'.waiters[w]? = some W' ∧
    W'.pipe = W.pipe ∧ W'.cont = W.cont

theorem Ext.refl (s : St) : Ext s s :=
  ⟨fun p P h => ⟨P, h, rfl, rfl, fun h => ⟨h, rfl, rfl⟩⟩, fun w W h => ⟨W, h, rfl, rfl⟩⟩

theorem Ext.trans {s t u : St} (h1 : Ext s t) (h2 : Ext t u) : Ext s u := by
  constructor
  · intro p P h
    obtain ⟨Q, a, b, c, d⟩ := h1.pipe p P h
    obtain ⟨R, a', b', c', d'⟩ := h2.pipe p Q a
    refine ⟨R, a', by rw [b', b], by rw [c', c], fun hf => ?_⟩
    obtain ⟨x, y, z⟩ := d hf
    obtain ⟨x', y', z'⟩ := d' x
    exact ⟨x', by rw [y', y], by rw [z', z]⟩
  · intro w W h
    obtain ⟨V, a, b, c⟩ := h1.waiter w W h
    obtain ⟨U, a', b', c'⟩ := h2.waiter w V a
    exact ⟨U, a', by rw [b', b], by rw [c', c]⟩

theorem ext_of_eq {s s' : St} (hp : s'.pipes = s.pipes) (hw : s'.waiters = s.waiters) : Ext s s' :=
  ⟨fun p P h => ⟨P, by rw [hp]; exact h, rfl, rfl, fun h => ⟨h, rfl, rfl⟩⟩, fun w W h => ⟨W, by rw [hw]; exact h, rfl, rfl⟩⟩

theorem ext_modPipe (s : St) (p : Nat) (f : Pipe → Pipe) (h : ∀ P : Pipe, s.pipes[p]? = some P → (f P).items.map kf = P.items.map kf ∧
    (f P).born = P.born ∧ (P.finished = true → (f P).finished = true ∧ (f P).crashed = P.crashed ∧
      (f P).items.map Item.output = P.items.map Item.output)) : Ext s (s.modPipe p f) := by
  constructor
  · intro q P hq
    rw [get_modPipe, hq]
    split
    · rename_i e; subst e
      exact ⟨f P, rfl, h P hq⟩
    · exact ⟨P, rfl, rfl, rfl, fun h => ⟨h, rfl, rfl⟩⟩
  · intro w W hw
    exact ⟨W, hw, rfl, rfl⟩

theorem ext_modWaiter (s : St) (w : Nat) (f : Waiter → Waiter) (h : ∀ W, (f W).pipe = W.pipe ∧ (f W).cont = W.cont) :
    Ext s (s.modWaiter w f) := by
  constructor
  · intro q P hq
    exact ⟨P, hq, rfl, rfl, fun h => ⟨h, rfl, rfl⟩⟩
  · intro v W hv
    rw [get_modWaiter, hv]
    split
    · exact ⟨f W, rfl, h W⟩
    · exact ⟨W, rfl, rfl, rfl⟩

theorem ext_simple (s : St) (p : Nat) (f : Pipe → Pipe) (h : ∀ P : Pipe, (f P).items = P.items ∧ (f P).born = P.born ∧
    (f P).finished = P.finished ∧ (f P).crashed = P.crashed) : Ext s (s.modPipe p f) :=
  ext_modPipe s p f (fun P _ => by
    obtain ⟨a, b, c, d⟩ := h P
    exact ⟨by rw [a], b, fun e => ⟨by rw [c]; exact e, d, by rw [a]⟩⟩)

theorem ext_resolve (s : St) (p : Nat) : Ext s (resolve s p) := by
  cases h : (s.pipes[p]?).bind Pipe.fut with
  | none => rw [resolve_none h]; exact Ext.refl s
  | some w =>
    rw [resolve_some h]
    refine Ext.trans (t := s.modWaiter w (fun W => { W with st := .woken })) ?_ ?_
    · exact ext_modWaiter s w _ (fun W => ⟨rfl, rfl⟩)
    · exact ext_simple _ p _ (fun P => ⟨rfl, rfl, rfl, rfl⟩)

theorem output_cont (it : Item) : it.cont.output = it.output := by simp only [Item.cont]; split <;> rfl
theorem output_stop (it : Item) : it.stop.output = it.output := by simp only [Item.stop]; split <;> rfl

theorem ext_restart (s : St) (p : Nat) : Ext s (restart s p) :=
  ext_modPipe s p _ (fun P _ => ⟨by simp [List.map_map, Function.comp_def, kf_cont], rfl,
    fun h => ⟨h, rfl, by simp [List.map_map, Function.comp_def, output_cont]⟩⟩)

theorem ext_suspend (s : St) (p : Nat) : Ext s (suspend s p) :=
  ext_modPipe s p _ (fun P _ => ⟨by simp [List.map_map, Function.comp_def, kf_stop], rfl,
    fun h => ⟨h, rfl, by simp [List.map_map, Function.comp_def, output_stop]⟩⟩)

theorem ext_register (s : St) (w p : Nat) : Ext s (register s w p) := by
  rw [register_eq]
  refine Ext.trans (t := (shadow s w p).modPipe p (fun P => { P with fut := some w })) ?_ ?_
  rotate_left
  · exact ext_modWaiter _ w _ (fun W => ⟨rfl, rfl⟩)
  refine Ext.trans (t := shadow s w p) ?_ ?_
  rotate_left
  · exact ext_simple _ p _ (fun P => ⟨rfl, rfl, rfl, rfl⟩)
  simp only [shadow]
  split
  · split
    · exact Ext.refl s
    · exact ext_modWaiter s _ _ (fun W => ⟨rfl, rfl⟩)
  · exact Ext.refl s

theorem ext_collect (s : St) (p : Nat) (h : finishedOf s p = false) : Ext s (collect s p) := by
  constructor
  · intro q P hq
    rw [collect_get, hq]
    split
    · rename_i e; subst e
      refine ⟨_, rfl, ?_, rfl, ?_⟩
      · simp only [readItems_kf, itemsOf_of_get hq]
      · intro hf
        rw [finishedOf_get hq, hf] at h; cases h
    · exact ⟨P, rfl, rfl, rfl, fun h => ⟨h, rfl, rfl⟩⟩
  · intro w W hw
    rw [collect_waiters]
    exact ⟨W, hw, rfl, rfl⟩

theorem ext_handleFinish (s : St) (p : Nat) : Ext s (handleFinish s p) := by
  simp only [handleFinish]
  split
  · rename_i h
    simp only [Bool.and_eq_true, Bool.not_eq_true'] at h
    split
    · exact ext_collect s p h.2
    · exact (ext_collect s p h.2).trans (ext_resolve _ p)
  · exact ext_resolve s p

theorem ext_endWait (s : St) (w p : Nat) : Ext s (endWait s w p) := by
  have h : Ext s (if suspendedOf s p then suspend s p else s) := by
    split
    · exact ext_suspend s p
    · exact Ext.refl s
  exact (h.trans (ext_modWaiter _ w (fun W => { W with st := .over (result s p) }) (fun W => ⟨rfl, rfl⟩))).trans (ext_of_eq rfl rfl)

theorem ext_loopCheck (s : St) (w p : Nat) (c : Option Nat) : Ext s (loopCheck s w p c) := by
  simp only [loopCheck]
  split
  · exact ext_register s w p
  · rw [finishWait_eq]
    split
    · split
      · exact (ext_endWait s w p).trans (ext_handleFinish _ _)
      · exact ext_endWait s w p
    · exact ext_endWait s w p

theorem ext_enter (s : St) (p : Nat) : Ext s (enter s p) := by
  refine Ext.trans ?_ (ext_restart _ p)
  split
  · exact ext_of_eq rfl rfl
  · exact Ext.refl s

theorem ext_endCancel (s : St) (w : Nat) (b : Bool) : Ext s (endCancel s w b) :=
  (ext_modWaiter s w (fun W => { W with st := .over .cancelled }) (fun _ => ⟨rfl, rfl⟩)).trans (ext_of_eq rfl rfl)

theorem ext_resume (s : St) (w : Nat) : Ext s (resume s w) := by
  cases hw : s.waiters[w]? with
  | none => rw [resume_none hw]; exact Ext.refl s
  | some W =>
    by_cases h1 : W.st = .fresh
    · rw [resume_fresh hw h1]; exact (ext_enter s _).trans (ext_loopCheck _ _ _ _)
    · by_cases h2 : W.st = .woken
      · rw [resume_woken hw h2]; exact ext_loopCheck _ _ _ _
      · rcases resume_cases hw with h | h | ⟨b, -, h⟩ | h
        · exact absurd h.1 h1
        · exact absurd h.1 h2
        · rw [h]; exact ext_endCancel s w b
        · rw [h.2]; exact Ext.refl s

theorem ext_cancel (s : St) (w : Nat) : Ext s (cancel s w) := by
  rcases cancel_cases s w with h | ⟨W, b, -, -, -, -, h3⟩
  · rw [h]; exact Ext.refl s
  · rw [h3]
    refine Ext.trans (t := s.modWaiter w (fun W => { W with st := .cancelled b })) (ext_modWaiter s w _ (fun W => ⟨rfl, rfl⟩)) ?_
    exact ext_simple _ _ _ (fun P => ⟨rfl, rfl, rfl, rfl⟩)

theorem ext_modItem (s : St) (p i : Nat) (f : Item → Item) (h : ∀ it, kf (f it) = kf it ∧ (f it).output = it.output) :
    Ext s (s.modItem p i f) :=
  ext_modPipe s p _ (fun P _ => ⟨map_modify_same kf f (fun it => (h it).1) _ _, rfl,
    fun hf => ⟨hf, rfl, map_modify_same Item.output f (fun it => (h it).2) _ _⟩⟩)

theorem ext_started (s : St) (xs : List Spec) : Ext s (started s xs) := by
  constructor
  · intro p P h
    exact ⟨P, by rw [started_get_old (lt_of_get h)]; exact h, rfl, rfl, fun h => ⟨h, rfl, rfl⟩⟩
  · intro w W h
    exact ⟨W, started_wget_old h, rfl, rfl⟩

theorem ext_start {s : St} (hi : Inv s none) (xs : List Spec) : Ext s (start s xs) := by
  cases h : okSpecs s xs with
  | false => rw [start_no h]; exact Ext.refl s
  | true => rw [start_eq hi h]; exact ext_started s xs

theorem ext_step {s : St} (hi : Inv s none) (a : Act) : Ext s (step s a) := by
  cases a with
  | start xs => exact ext_start hi xs
  | wait p =>
    simp only [step]
    split
    · constructor
      · intro p P h
        exact ⟨P, h, rfl, rfl, fun h => ⟨h, rfl, rfl⟩⟩
      · intro w W h
        refine ⟨W, ?_, rfl, rfl⟩
        show (s.waiters ++ _)[w]? = _
        rw [List.getElem?_append_left (lt_of_get h)]; exact h
    · exact Ext.refl s
  | resume w => exact ext_resume s w
  | cancel w => exact ext_cancel s w
  | finish p i o =>
    by_cases h : ∃ it, itemAt s p i = some it ∧ it.state = .running ∧ okEnd it.kind o = true
    · obtain ⟨it, h1, h2, h3⟩ := h
      rw [step_finish h1 h2 h3]
      exact (ext_modItem s p i (endItem o) (fun it => ⟨rfl, rfl⟩)).trans (ext_simple _ p _ (fun P => ⟨rfl, rfl, rfl, rfl⟩))
    · rw [step_finish_other (fun it h1 h2 => h ⟨it, h1, h2⟩)]
      exact Ext.refl s
  | task p i =>
    by_cases h : ∃ it, itemAt s p i = some it ∧ it.task = .queued
    · obtain ⟨it, h1, h2⟩ := h
      have h3 := ext_modItem s p i overItem (fun it => ⟨rfl, rfl⟩)
      rw [step_task h1 h2]
      split
      · exact h3
      · exact h3.trans (ext_handleFinish _ p)
    · rw [step_task_other (fun it h1 h2 => h ⟨it, h1, h2⟩)]
      exact Ext.refl s
  | tstp =>
    simp only [step]
    split
    · exact Ext.refl s
    · rename_i p _
      exact (ext_simple s p (fun P => { P with suspended := true }) (fun P => ⟨rfl, rfl, rfl, rfl⟩)).trans (ext_resolve _ p)
  | write p i path data =>
    simp only [step]
    split
    · exact Ext.refl s
    · split
      · split
        · exact ext_of_eq rfl rfl
        · exact Ext.refl s
      · exact Ext.refl s
  | restart p => exact ext_restart s p
  | suspend p => exact ext_suspend s p
  | bg =>
    simp only [step]
    split
    · exact Ext.refl s
    · exact (ext_restart s _).trans (ext_start (inv_restart hi _) [])
  | fg =>
    simp only [step]
    split
    · exact Ext.refl s
    · exact ext_start hi _
  | removeFiles p => exact ext_of_eq rfl rfl

theorem ext_run {s : St} (hi : Inv s none) (as : List Act) : Ext s (run s as) := by
  induction as generalizing s with
  | nil => exact Ext.refl s
  | cons a as ih => exact (ext_step hi a).trans (ih (inv_step hi a))

theorem run_append (s : St) (as bs : List Act) : run s (as ++ bs) = run (run s as) bs := by
  simp [run, List.foldl_append]

/-! ### Born pipelines -/

/-- A pipeline in which nothing was running when it was started has no processes or functions. -/
def BornFg (s : St) : Prop := ∀ (p : Nat) (P : Pipe), s.pipes[p]? = some P → P.born = true → ∀ it ∈ P.items, ∃ t, it.kind = .fg t

theorem kf_mem {l l' : List Item} (h : l'.map kf = l.map kf) {it : Item} (hm : it ∈ l') : ∃ jt ∈ l, kf jt = kf it := by
  have : kf it ∈ l.map kf := by rw [← h]; exact List.mem_map.2 ⟨it, hm, rfl⟩
  obtain ⟨jt, a, b⟩ := List.mem_map.1 this
  exact ⟨jt, a, b⟩

theorem started_bornFg {s : St} (h : BornFg s) {xs : List Spec} (hok : okSpecs s xs = true) : BornFg (started s xs) := by
  intro p P hp hb it hit
  rcases started_get hp with h' | ⟨_, e⟩
  · exact h p P h' hb it hit
  · subst e
    simp only [newPipe] at hb hit
    obtain ⟨x, hx, e⟩ := List.mem_map.1 hit
    subst e
    exact (born_items hok hb x hx).1

theorem bornFg_same {s s' : St} (h : BornFg s) (he : Ext s s') (hl : s'.pipes.length = s.pipes.length) : BornFg s' := by
  intro p P' hp hb it hit
  have hlt := lt_of_get hp
  rw [hl] at hlt
  obtain ⟨Q, a, b, c, _⟩ := he.pipe p _ (List.getElem?_eq_getElem hlt)
  rw [hp] at a; cases a
  obtain ⟨jt, d, e⟩ := kf_mem b hit
  obtain ⟨t, ht⟩ := h p _ (List.getElem?_eq_getElem hlt) (by rw [← c]; exact hb) jt d
  simp only [kf, Prod.mk.injEq] at e
  exact ⟨t, by rw [← e.1]; exact ht⟩

theorem bornFg_start {s : St} (hi : Inv s none) (h : BornFg s) (xs : List Spec) : BornFg (start s xs) := by
  cases hok : okSpecs s xs with
  | false => rw [start_no hok]; exact h
  | true => rw [start_eq hi hok]; exact started_bornFg h hok

theorem length_restart (s : St) (p : Nat) : (restart s p).pipes.length = s.pipes.length := by simp [restart, St.modPipe]
theorem length_suspend (s : St) (p : Nat) : (suspend s p).pipes.length = s.pipes.length := by simp [suspend, St.modPipe]

theorem length_handleFinish (s : St) (p : Nat) : (handleFinish s p).pipes.length = s.pipes.length := by
  simp only [handleFinish]
  split
  · split
    · exact collect_length s p
    · rw [resolve_pipes_length, collect_length]
  · exact resolve_pipes_length s p

theorem length_endWait (s : St) (w p : Nat) : (endWait s w p).pipes.length = s.pipes.length := by
  rw [endWait_pipes]; split
  · exact length_suspend s p
  · rfl

theorem length_loopCheck (s : St) (w p : Nat) (c : Option Nat) : (loopCheck s w p c).pipes.length = s.pipes.length := by
  simp only [loopCheck]
  split
  · rw [register_eq]; simp [St.modWaiter, St.modPipe, shadow_pipes]
  · rw [finishWait_eq]
    split
    · split
      · rw [length_handleFinish, length_endWait]
      · exact length_endWait s w p
    · exact length_endWait s w p

theorem length_enter (s : St) (p : Nat) : (enter s p).pipes.length = s.pipes.length := by
  rw [enter, length_restart]; split <;> rfl

theorem length_resume (s : St) (w : Nat) : (resume s w).pipes.length = s.pipes.length := by
  cases hw : s.waiters[w]? with
  | none => rw [resume_none hw]
  | some W =>
    by_cases h1 : W.st = .fresh
    · rw [resume_fresh hw h1, length_loopCheck, length_enter]
    · by_cases h2 : W.st = .woken
      · rw [resume_woken hw h2, length_loopCheck]
      · rcases resume_cases hw with h | h | ⟨b, -, h⟩ | h
        · exact absurd h.1 h1
        · exact absurd h.1 h2
        · rw [h]; rfl
        · rw [h.2]

theorem length_cancel (s : St) (w : Nat) : (cancel s w).pipes.length = s.pipes.length := by
  rcases cancel_cases s w with h | ⟨W, b, h1, h2, -, -, h3⟩
  · rw [h]
  · rw [h3, (rewire_drop h1 h2 b).len]

/-- Only starting adds pipelines. -/
def Act.starts : Act → Bool
  | .start _ => true
  | .bg => true
  | .fg => true
  | _ => false

theorem length_step (s : St) (a : Act) (h : a.starts = false) : (step s a).pipes.length = s.pipes.length := by
  cases a with
  | start xs => cases h
  | bg => cases h
  | fg => cases h
  | wait p => simp only [step]; split <;> rfl
  | resume w => exact length_resume s w
  | cancel w => exact length_cancel s w
  | finish p i o =>
    simp only [step]
    split
    · rfl
    · split
      · simp [St.modPipe, length_modItem]
      · rfl
  | task p i =>
    simp only [step]
    split
    · rfl
    · split
      · split
        · exact length_modItem s p i _
        · rw [length_handleFinish, length_modItem]
      · rfl
  | tstp =>
    simp only [step]
    split
    · rfl
    · rw [resolve_pipes_length]; simp [St.modPipe]
  | write p i path data =>
    simp only [step]
    split
    · rfl
    · split
      · split <;> rfl
      · rfl
  | restart p => exact length_restart s p
  | suspend p => exact length_suspend s p
  | removeFiles p => rfl

theorem bornFg_step {s : St} (hi : Inv s none) (h : BornFg s) (a : Act) : BornFg (step s a) := by
  cases ha : a.starts with
  | false => exact bornFg_same h (ext_step hi a) (length_step s a ha)
  | true =>
    cases a with
    | start xs => exact bornFg_start hi h xs
    | bg =>
      simp only [step]
      split
      · exact h
      · exact bornFg_start (inv_restart hi _) (bornFg_same h (ext_restart s _) (length_restart s _)) []
    | fg =>
      simp only [step]
      split
      · exact h
      · exact bornFg_start hi h _
    | _ => cases ha

theorem bornFg_run (b : Bool) (as : List Act) : BornFg (run (init b) as) := by
  suffices ∀ s, Inv s none → BornFg s → BornFg (run s as) from this _ (inv_init b) (by intro p P h; simp [init] at h)
  induction as with
  | nil => exact fun s _ h => h
  | cons a as ih => exact fun s hi h => ih _ (inv_step hi a) (bornFg_step hi h a)

end Pieshell.Job
