import Verif.Lemmas.Job14
/-! Kind and state of an item change only when the item ends. -/
namespace Pieshell.Job

/-- Kinds and states of the items are the same. -/
def Same (s s' : St) : Prop := ∀ (q : Nat) (P : Pipe), s.pipes[q]? = some P → ∃ P' : Pipe, s'.pipes[q]? = some P' ∧ P'.items.map ks = P.items.map ks

theorem Same.refl (s : St) : Same s s := fun _ P h => ⟨P, h, rfl⟩

theorem Same.trans {s t u : St} (h1 : Same s t) (h2 : Same t u) : Same s u := by
  intro q P h
  obtain ⟨Q, a, b⟩ := h1 q P h
  obtain ⟨R, c, d⟩ := h2 q Q a
  exact ⟨R, c, by rw [d, b]⟩

theorem same_of_eq {s s' : St} (hp : s'.pipes = s.pipes) : Same s s' := fun q P h => ⟨P, by rw [hp]; exact h, rfl⟩

theorem same_modPipe (s : St) (p : Nat) (f : Pipe → Pipe) (h : ∀ P : Pipe, (f P).items.map ks = P.items.map ks) : Same s (s.modPipe p f) := by
  intro q P hq
  rw [get_modPipe, hq]
  split
  · exact ⟨f P, rfl, h P⟩
  · exact ⟨P, rfl, rfl⟩

theorem same_resolve (s : St) (p : Nat) : Same s (resolve s p) := by
  cases h : (s.pipes[p]?).bind Pipe.fut with
  | none => rw [resolve_none h]; exact Same.refl s
  | some w =>
    rw [resolve_some h]
    exact Same.trans (t := s.modWaiter w (fun W => { W with st := .woken })) (same_of_eq rfl) (same_modPipe _ p _ (fun _ => rfl))

theorem ks_of (it it' : Item) (h : kst it' = kst it) : ks it' = ks it := by
  have h1 := congrArg Prod.fst h
  have h2 := congrArg (fun x => x.2.1) h
  exact Prod.ext h1 h2

theorem same_restart (s : St) (p : Nat) : Same s (restart s p) :=
  same_modPipe s p _ (fun P => by
    simp only [List.map_map]
    exact List.map_congr_left (fun it _ => ks_of _ _ (kst_cont it)))

theorem same_suspend (s : St) (p : Nat) : Same s (suspend s p) :=
  same_modPipe s p _ (fun P => by
    simp only [List.map_map]
    exact List.map_congr_left (fun it _ => ks_of _ _ (kst_stop it)))

theorem same_register (s : St) (w p : Nat) : Same s (register s w p) := by
  rw [register_eq]
  refine Same.trans (t := (shadow s w p).modPipe p (fun P => { P with fut := some w })) ?_ (same_of_eq rfl)
  refine Same.trans (t := shadow s w p) ?_ (same_modPipe _ p _ (fun _ => rfl))
  simp only [shadow]
  split
  · split
    · exact Same.refl s
    · exact same_of_eq rfl
  · exact Same.refl s

theorem same_collect (s : St) (p : Nat) : Same s (collect s p) := by
  intro q P hq
  have h := collect_items s p q
  rw [collect_get, hq]
  rw [itemsOf, itemsOf, collect_get, hq] at h
  split
  · rename_i e
    rw [if_pos e] at h
    exact ⟨_, rfl, ks_of_kst h⟩
  · exact ⟨P, rfl, rfl⟩

theorem same_handleFinish (s : St) (p : Nat) : Same s (handleFinish s p) := by
  simp only [handleFinish]
  split
  · split
    · exact same_collect s p
    · exact (same_collect s p).trans (same_resolve _ p)
  · exact same_resolve s p

theorem same_endWait (s : St) (w p : Nat) : Same s (endWait s w p) := by
  have h : Same s (if suspendedOf s p then suspend s p else s) := by
    split
    · exact same_suspend s p
    · exact Same.refl s
  exact h.trans (same_of_eq rfl)

theorem same_loopCheck (s : St) (w p : Nat) (c : Option Nat) : Same s (loopCheck s w p c) := by
  simp only [loopCheck]
  split
  · exact same_register s w p
  · rw [finishWait_eq]
    split
    · split
      · exact (same_endWait s w p).trans (same_handleFinish _ _)
      · exact same_endWait s w p
    · exact same_endWait s w p

theorem same_enter (s : St) (p : Nat) : Same s (enter s p) := by
  refine Same.trans ?_ (same_restart _ p)
  split
  · exact same_of_eq rfl
  · exact Same.refl s

theorem same_resume (s : St) (w : Nat) : Same s (resume s w) := by
  cases hw : s.waiters[w]? with
  | none => rw [resume_none hw]; exact Same.refl s
  | some W =>
    by_cases h1 : W.st = .fresh
    · rw [resume_fresh hw h1]; exact (same_enter s _).trans (same_loopCheck _ _ _ _)
    · by_cases h2 : W.st = .woken
      · rw [resume_woken hw h2]; exact same_loopCheck _ _ _ _
      · rcases resume_cases hw with h | h | ⟨b, -, h⟩ | h
        · exact absurd h.1 h1
        · exact absurd h.1 h2
        · rw [h]; exact same_of_eq rfl
        · rw [h.2]; exact Same.refl s

theorem same_cancel (s : St) (w : Nat) : Same s (cancel s w) := by
  rcases cancel_cases s w with h | ⟨W, b, -, -, -, -, h3⟩
  · rw [h]; exact Same.refl s
  · rw [h3]
    exact Same.trans (t := s.modWaiter w (fun W => { W with st := .cancelled b })) (same_of_eq rfl) (same_modPipe _ _ _ (fun _ => rfl))

theorem same_start {s : St} (hi : Inv s none) (xs : List Spec) : Same s (start s xs) := by
  cases h : okSpecs s xs with
  | false => rw [start_no h]; exact Same.refl s
  | true =>
    rw [start_eq hi h]
    intro p P h
    exact ⟨P, by rw [started_get_old (lt_of_get h)]; exact h, rfl⟩

theorem same_step {s : St} (hi : Inv s none) (a : Act) (ha : ∀ p i o, a ≠ .finish p i o) : Same s (step s a) := by
  cases a with
  | start xs => exact same_start hi xs
  | wait p =>
    simp only [step]
    split
    · exact same_of_eq rfl
    · exact Same.refl s
  | resume w => exact same_resume s w
  | cancel w => exact same_cancel s w
  | finish p i o => exact absurd rfl (ha p i o)
  | task p i =>
    by_cases h : ∃ it, itemAt s p i = some it ∧ it.task = .queued
    · obtain ⟨it, h1, h2⟩ := h
      have h3 : Same s (s.modItem p i overItem) :=
        same_modPipe s p _ (fun P => map_modify_same ks overItem (fun it => rfl) _ _)
      rw [step_task h1 h2]
      split
      · exact h3
      · exact h3.trans (same_handleFinish _ p)
    · rw [step_task_other (fun it h1 h2 => h ⟨it, h1, h2⟩)]
      exact Same.refl s
  | tstp =>
    simp only [step]
    split
    · exact Same.refl s
    · rename_i p _
      exact (same_modPipe s p (fun P => { P with suspended := true }) (fun P => rfl)).trans (same_resolve _ p)
  | write p i path data =>
    simp only [step]
    split
    · exact Same.refl s
    · split
      · split
        · exact same_of_eq rfl
        · exact Same.refl s
      · exact Same.refl s
  | restart p => exact same_restart s p
  | suspend p => exact same_suspend s p
  | bg =>
    simp only [step]
    split
    · exact Same.refl s
    · exact (same_restart s _).trans (same_start (inv_restart hi _) [])
  | fg =>
    simp only [step]
    split
    · exact Same.refl s
    · exact same_start hi _
  | removeFiles p => exact same_of_eq rfl

/-- Kind and state of an item. -/
def stateAt (s : St) (p i : Nat) : Option (Kind × State) := (itemAt s p i).map ks

theorem Same.stateAt {s s' : St} (h : Same s s') {p : Nat} (hp : p < s.pipes.length) (i : Nat) : stateAt s' p i = stateAt s p i := by
  obtain ⟨P', h1, h2⟩ := h p _ (List.getElem?_eq_getElem hp)
  have h3 := congrArg (fun l => l[i]?) h2
  simp only [List.getElem?_map] at h3
  simp only [Job.stateAt, itemAt, itemsOf, h1, List.getElem?_eq_getElem hp, Option.map_some, Option.getD_some]
  exact h3

theorem stateAt_finish (s : St) (p i k q : Nat) (o : State) :
    stateAt (step s (.finish p i o)) q k = if p = q ∧ i = k then
        (stateAt s q k).map (fun x => if x.2 = .running ∧ okEnd x.1 o = true then (x.1, o) else x) else stateAt s q k := by
  by_cases h : ∃ it, itemAt s p i = some it ∧ it.state = .running ∧ okEnd it.kind o = true
  · obtain ⟨it, h1, h2, h3⟩ := h
    rw [step_finish h1 h2 h3]
    simp only [stateAt, itemAt, ended, itemsOf, get_modPipe, St.modItem]
    by_cases hpq : p = q
    · subst hpq
      simp only [if_true, true_and, Option.map_map]
      simp only [itemAt, itemsOf] at h1
      cases e : s.pipes[p]? with
      | none => rw [e] at h1; simp at h1
      | some P =>
        rw [e] at h1
        simp only [Option.map_some, Option.getD_some] at h1
        simp only [Option.map_some, Function.comp, Option.getD_some, List.getElem?_modify]
        by_cases hik : i = k
        · subst hik
          simp [h1, ks, endItem, h2, h3, Function.comp]
        · simp [if_neg hik]
    · have : ¬ (p = q ∧ i = k) := fun h => hpq h.1
      simp only [if_neg this]
      simp [if_neg hpq, Ne.symm hpq]
  · rw [step_finish_other (fun it h1 h2 => h ⟨it, h1, h2⟩)]
    split
    · rename_i e
      obtain ⟨rfl, rfl⟩ := e
      cases e : stateAt s p i with
      | none => rfl
      | some x =>
        simp only [Option.map_some]
        rw [if_neg]
        rintro ⟨h1, h2⟩
        simp only [stateAt] at e
        cases e2 : itemAt s p i with
        | none => rw [e2] at e; cases e
        | some it =>
          rw [e2] at e
          cases e
          exact h ⟨it, e2, h1, h2⟩
    · rfl

theorem length_mono {s : St} (hi : Inv s none) (a : Act) : s.pipes.length ≤ (step s a).pipes.length := by
  cases e : s.pipes.length with
  | zero => exact Nat.zero_le _
  | succ n =>
    have hn : n < s.pipes.length := by omega
    obtain ⟨P', h1, -⟩ := (ext_step hi a).pipe n _ (List.getElem?_eq_getElem hn)
    exact lt_of_get h1

end Pieshell.Job
