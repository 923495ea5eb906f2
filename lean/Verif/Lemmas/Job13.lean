import Verif.Lemmas.Job12
/-! Parts of the state that steps keep. -/
namespace Pieshell.Job

/-- Interactivity and the last pipeline. -/
def il (s : St) : Bool × Option Nat := (s.interactive, s.last)

theorem il_resolve (s : St) (p : Nat) : il (resolve s p) = il s := by
  simp only [il, (resolve_frame s p).2.2.1, (resolve_frame s p).2.2.2.2.1]

theorem il_collect (s : St) (p : Nat) : il (collect s p) = il s := by
  simp only [collect]; split <;> rfl

theorem il_handleFinish (s : St) (p : Nat) : il (handleFinish s p) = il s := by
  simp only [handleFinish]
  split
  · split
    · exact il_collect s p
    · rw [il_resolve, il_collect]
  · exact il_resolve s p

theorem il_endWait (s : St) (w p : Nat) : il (endWait s w p) = il s := by
  simp only [endWait, St.modWaiter]; split <;> rfl

theorem il_loopCheck (s : St) (w p : Nat) (c : Option Nat) : il (loopCheck s w p c) = il s := by
  simp only [loopCheck]
  split
  · rw [register_eq]
    have := shadow_frame s w p
    simp only [il, St.modWaiter, St.modPipe, this.2.2.1, this.2.2.2.2.1]
  · rw [finishWait_eq]
    split
    · split
      · rw [il_handleFinish, il_endWait]
      · exact il_endWait s w p
    · exact il_endWait s w p

theorem il_enter (s : St) (p : Nat) : il (enter s p) = il s := by
  simp only [enter, restart, St.modPipe, il]; split <;> rfl

theorem il_resume (s : St) (w : Nat) : il (resume s w) = il s := by
  cases hw : s.waiters[w]? with
  | none => rw [resume_none hw]
  | some W =>
    by_cases h1 : W.st = .fresh
    · rw [resume_fresh hw h1, il_loopCheck, il_enter]
    · by_cases h2 : W.st = .woken
      · rw [resume_woken hw h2, il_loopCheck]
      · rcases resume_cases hw with h | h | ⟨b, -, h⟩ | h
        · exact absurd h.1 h1
        · exact absurd h.1 h2
        · rw [h]; rfl
        · rw [h.2]

theorem il_cancel (s : St) (w : Nat) : il (cancel s w) = il s := by
  rcases cancel_cases s w with h | ⟨W, b, -, -, -, -, h3⟩
  · rw [h]
  · rw [h3]; rfl

theorem il_step (s : St) (a : Act) (h : a.starts = false) : il (step s a) = il s := by
  cases a with
  | start xs => cases h
  | bg => cases h
  | fg => cases h
  | wait p => simp only [step]; split <;> rfl
  | resume w => exact il_resume s w
  | cancel w => exact il_cancel s w
  | finish p i o =>
    simp only [step]
    split
    · rfl
    · split <;> rfl
  | task p i =>
    simp only [step]
    split
    · rfl
    · split
      · split
        · rfl
        · exact (il_handleFinish _ p).trans rfl
      · rfl
  | tstp =>
    simp only [step]
    split
    · rfl
    · exact (il_resolve _ _).trans rfl
  | write p i path data =>
    simp only [step]
    split
    · rfl
    · split
      · split <;> rfl
      · rfl
  | restart p => rfl
  | suspend p => rfl
  | removeFiles p => rfl

theorem interactive_start (s : St) (xs : List Spec) : (start s xs).interactive = s.interactive := by
  simp only [start]
  split
  · exact congrArg Prod.fst (il_handleFinish _ _)
  · rfl

theorem interactive_step (s : St) (a : Act) : (step s a).interactive = s.interactive := by
  cases h : a.starts with
  | false => exact congrArg Prod.fst (il_step s a h)
  | true =>
    cases a with
    | start xs => exact interactive_start s xs
    | bg =>
      simp only [step]
      split
      · rfl
      · exact interactive_start _ _
    | fg =>
      simp only [step]
      split
      · rfl
      · exact interactive_start _ _
    | _ => cases h

theorem last_start {s : St} (hi : Inv s none) (h : ∀ t, s.last = some t → t < s.pipes.length) (xs : List Spec) (t : Nat)
    (ht : (start s xs).last = some t) : t < (start s xs).pipes.length := by
  cases hok : okSpecs s xs with
  | false => rw [start_no hok] at ht ⊢; exact h t ht
  | true =>
    rw [start_eq hi hok] at ht ⊢
    simp only [started, Option.some.injEq] at ht
    subst ht
    simp [started]

theorem last_step {s : St} (hi : Inv s none) (h : ∀ t, s.last = some t → t < s.pipes.length) (a : Act) (t : Nat)
    (ht : (step s a).last = some t) : t < (step s a).pipes.length := by
  cases hs : a.starts with
  | false =>
    rw [length_step s a hs]
    have := congrArg Prod.snd (il_step s a hs)
    simp only [il] at this
    rw [this] at ht
    exact h t ht
  | true =>
    cases a with
    | start xs => exact last_start hi h xs t ht
    | bg =>
      simp only [step] at ht ⊢
      cases e : s.last with
      | none => rw [e] at ht; simp only [e] at ht; cases ht
      | some u =>
        rw [e] at ht
        exact last_start (inv_restart hi u) (fun t ht => by rw [length_restart]; exact h t ht) _ t ht
    | fg =>
      simp only [step] at ht ⊢
      cases e : s.last with
      | none => rw [e] at ht; simp only [e] at ht; cases ht
      | some u =>
        rw [e] at ht
        exact last_start hi h _ t ht
    | _ => cases hs

theorem last_lt (b : Bool) (as : List Act) : ∀ t, (run (init b) as).last = some t → t < (run (init b) as).pipes.length := by
  suffices ∀ s, Inv s none → (∀ t, s.last = some t → t < s.pipes.length) → ∀ t, (run s as).last = some t → t < (run s as).pipes.length from
    this _ (inv_init b) (by intro t h; cases h)
  induction as with
  | nil => exact fun s _ h => h
  | cons a as ih => exact fun s hi h => ih _ (inv_step hi a) (last_step hi h a)

end Pieshell.Job
