import Verif.Lemmas.Job3
/-! The invariant is kept by all steps. -/
namespace Pieshell.Job

/-! ### `wait()` -/

theorem rewire_over {s : St} {w : Nat} {W : Waiter} (hw : s.waiters[w]? = some W) (ho : W.st.isOver = false) (r : Res) :
    Rewire s (s.modWaiter w (fun W => { W with st := .over r })) := by
  refine ⟨rfl, fun p P h => ⟨P, h, rfl⟩, rfl, by simp [St.modWaiter], ?_⟩
  intro v V' h
  rw [get_modWaiter] at h
  split at h
  · rename_i e; subst e
    rw [hw] at h; cases h
    exact ⟨W, hw, rfl, fun h => ho, fun r' e => by rw [e] at ho; cases ho⟩
  · exact ⟨V', h, rfl, id, fun r e => e⟩

/-- The waiter ends: if normally, the pipeline of its `fg` item is open. -/
theorem inv_over {s : St} (hi : Inv s none) {w : Nat} {W : Waiter} (hw : s.waiters[w]? = some W)
    (ho : W.st.isOver = false) (ha : W.st ≠ .awaiting) (r : Res)
    (h1 : r = .ok → running s.pipes W.pipe = false ∧ failedItems s.pipes W.pipe = [])
    (h2 : ∀ l : List Nat, r = .failed l → running s.pipes W.pipe = false ∧ failedItems s.pipes W.pipe = l ∧ l ≠ []) :
    Inv (s.modWaiter w (fun W => { W with st := .over r })) (if r = .ok then W.cont else none) := by
  have hre := rewire_over hw ho r
  refine hre.inv hi ?_ ?_ ?_ ?_ (by intro p _; simp) ?_
  · intro p P v hp hf
    obtain ⟨V, a, b, c⟩ := hi.futW p P v hp hf
    refine ⟨V, ?_, b, c⟩
    rw [get_modWaiter, if_neg]
    · exact a
    · intro e; subst e
      rw [hw] at a; cases a
      exact ha c
  · intro v V' a b c
    rw [get_modWaiter] at a
    split at a
    · rename_i e; subst e
      rw [hw] at a; cases a; cases b
    · exact hi.awF v V' a b c
  · intro p P _ hp
    exact hi.finF p P (by simp) hp
  · intro p hy hp
    by_cases hc : W.cont = some p
    · by_cases hr : r = .ok
      · rw [if_pos hr] at hy; exact absurd hc hy
      · exact Or.inr (Or.inr ⟨w, { W with st := .over r }, r, by rw [get_modWaiter, if_pos rfl, hw]; rfl, hc, rfl, hr⟩)
    · refine Or.inl (hre.pend ?_ hp)
      intro v V V' a b c d
      rw [get_modWaiter] at b
      split at b
      · rename_i e; subst e
        rw [hw] at a; cases a
        exact absurd c hc
      · rw [a] at b; cases b; exact d
  · intro v V' r' a b
    rw [get_modWaiter] at a
    split at a
    · rename_i e; subst e
      rw [hw] at a; cases a
      cases b
      exact ⟨h1, h2⟩
    · exact hi.over v V' r' a b

theorem result_ok {s : St} {p : Nat} (h : result s p = .ok) : suspendedOf s p = false ∧ failedItems s.pipes p = [] := by
  simp only [result] at h
  split at h
  · cases h
  · rename_i hs
    refine ⟨by simpa using hs, ?_⟩
    split at h
    · assumption
    · cases h

theorem result_failed {s : St} {p : Nat} {l : List Nat} (h : result s p = .failed l) :
    suspendedOf s p = false ∧ failedItems s.pipes p = l ∧ l ≠ [] := by
  simp only [result] at h
  split at h
  · cases h
  · rename_i hs
    refine ⟨by simpa using hs, ?_⟩
    split at h
    · cases h
    · rename_i hne
      cases h
      exact ⟨rfl, fun e => hne e⟩

theorem result_suspended {s : St} {p : Nat} : result s p = .suspended ↔ suspendedOf s p = true := by
  simp only [result]
  split
  · rename_i h; simp [h]
  · rename_i h
    split <;> simp [h]

theorem suspended_not_running {s : St} {p : Nat} (h : ¬ (!suspendedOf s p && running s.pipes p) = true)
    (hs : suspendedOf s p = false) : running s.pipes p = false := by
  rw [hs] at h; simpa using h

/-- The state before the result is handed over. -/
def endWait (s : St) (w p : Nat) : St :=
  { (if suspendedOf s p then suspend s p else s).modWaiter w (fun W => { W with st := .over (result s p) }) with current := none }

theorem finishWait_eq (s : St) (w p : Nat) (c : Option Nat) : finishWait s w p c =
    if result s p = .ok then (match c with | some q => handleFinish (endWait s w p) q | none => endWait s w p)
    else endWait s w p := by
  simp only [finishWait]
  cases h : result s p <;> cases c <;> simp [endWait, h]

theorem endWait_waiters (s : St) (w p : Nat) : (endWait s w p).waiters =
    s.waiters.modify w (fun W => { W with st := .over (result s p) }) := by
  simp only [endWait, St.modWaiter]
  split <;> rfl

theorem inv_finishWait {s : St} (hi : Inv s none) {w : Nat} {W : Waiter} (hw : s.waiters[w]? = some W)
    (ho : W.st.isOver = false) (ha : W.st ≠ .awaiting) (hr : ¬ (!suspendedOf s W.pipe && running s.pipes W.pipe) = true) :
    Inv (finishWait s w W.pipe W.cont) none := by
  have h0 : Inv (s.modWaiter w (fun W' => { W' with st := .over (result s W.pipe) }))
      (if result s W.pipe = .ok then W.cont else none) := by
    refine inv_over hi hw ho ha _ ?_ ?_
    · intro e
      obtain ⟨a, b⟩ := result_ok e
      exact ⟨suspended_not_running hr a, b⟩
    · intro l e
      obtain ⟨a, b, c⟩ := result_failed e
      exact ⟨suspended_not_running hr a, b, c⟩
  have h1 : Inv (endWait s w W.pipe) (if result s W.pipe = .ok then W.cont else none) := by
    refine inv_congr h0 ?_ ?_ ?_
    · simp only [endWait, St.modWaiter]
      split
      · exact pv_suspend s _
      · rfl
    · rw [endWait_waiters]; rfl
    · simp only [endWait, St.modWaiter]
      split <;> rfl
  rw [finishWait_eq]
  split
  · rename_i hok
    rw [if_pos hok] at h1
    cases hc : W.cont with
    | none => rw [hc] at h1; exact h1
    | some q => rw [hc] at h1; exact inv_handleFinish h1
  · rename_i hok
    rw [if_neg hok] at h1
    exact h1

/-- The future that is replaced is forgotten. -/
def shadow (s : St) (w p : Nat) : St :=
  match (s.pipes[p]?).bind Pipe.fut with
  | some w' => if w' = w then s else s.modWaiter w' (fun W => { W with shadowed := true })
  | none => s

theorem register_eq (s : St) (w p : Nat) : register s w p =
    ((shadow s w p).modPipe p (fun P => { P with fut := some w })).modWaiter w (fun W => { W with st := .awaiting }) := rfl

theorem shadow_pipes (s : St) (w p : Nat) : (shadow s w p).pipes = s.pipes := by
  simp only [shadow]; split
  · split <;> rfl
  · rfl

theorem shadow_frame (s : St) (w p : Nat) : (shadow s w p).running = s.running ∧ (shadow s w p).current = s.current ∧
    (shadow s w p).last = s.last ∧ (shadow s w p).fs = s.fs ∧ (shadow s w p).interactive = s.interactive ∧
    (shadow s w p).written = s.written ∧ (shadow s w p).waiters.length = s.waiters.length := by
  simp only [shadow]; split
  · split <;> simp [St.modWaiter]
  · simp

theorem get_shadow (s : St) (w p v : Nat) : (shadow s w p).waiters[v]? =
    if (s.pipes[p]?).bind Pipe.fut = some v ∧ v ≠ w then (s.waiters[v]?).map (fun W => { W with shadowed := true }) else s.waiters[v]? := by
  simp only [shadow]
  split
  · rename_i w' h
    rw [h]
    split
    · rename_i e; subst e
      rw [if_neg]
      rintro ⟨a, b⟩
      simp at a
      exact b a.symm
    · rename_i e
      rw [get_modWaiter]
      by_cases hv : w' = v
      · subst hv; rw [if_pos rfl, if_pos ⟨rfl, e⟩]
      · rw [if_neg hv, if_neg]
        rintro ⟨a, _⟩
        simp at a
        exact hv a
  · rename_i h
    rw [h, if_neg]
    rintro ⟨a, _⟩
    cases a

theorem get_register (s : St) (w p v : Nat) : (register s w p).waiters[v]? =
    if w = v then (s.waiters[v]?).map (fun W => { W with st := .awaiting })
    else if (s.pipes[p]?).bind Pipe.fut = some v then (s.waiters[v]?).map (fun W => { W with shadowed := true }) else s.waiters[v]? := by
  rw [register_eq, get_modWaiter]
  show (if w = v then Option.map _ (shadow s w p).waiters[v]? else (shadow s w p).waiters[v]?) = _
  rw [get_shadow]
  by_cases e : w = v
  · subst e; simp
  · have : v ≠ w := fun h => e h.symm
    simp [e, this]

theorem register_get (s : St) (w p q : Nat) : (register s w p).pipes[q]? =
    if p = q then (s.pipes[q]?).map (fun P => { P with fut := some w }) else s.pipes[q]? := by
  rw [register_eq]
  show ((shadow s w p).modPipe p _).pipes[q]? = _
  rw [get_modPipe, shadow_pipes]

theorem rewire_register {s : St} {w : Nat} {W : Waiter} (hw : s.waiters[w]? = some W) (ho : W.st.isOver = false) (p : Nat) :
    Rewire s (register s w p) := by
  refine ⟨?_, ?_, (shadow_frame s w p).1, ?_, ?_⟩
  · rw [register_eq]; simp [St.modWaiter, St.modPipe, shadow_pipes]
  · intro q P' h
    rw [register_get] at h
    split at h
    · cases e : s.pipes[q]? with
      | none => rw [e] at h; cases h
      | some P => rw [e] at h; cases h; exact ⟨P, rfl, rfl⟩
    · exact ⟨P', h, rfl⟩
  · rw [register_eq]; simp [St.modWaiter, St.modPipe, shadow_frame]
  · intro v V' h
    rw [get_register] at h
    split at h
    · rename_i e; subst e
      rw [hw] at h; cases h
      exact ⟨W, hw, rfl, fun _ => ho, fun r e => by rw [e] at ho; cases ho⟩
    · split at h
      · cases e : s.waiters[v]? with
        | none => rw [e] at h; cases h
        | some V => rw [e] at h; cases h; exact ⟨V, rfl, rfl, id, fun r e => e⟩
      · exact ⟨V', h, rfl, id, fun r e => e⟩

theorem inv_register {s : St} (hi : Inv s none) {w : Nat} {W : Waiter} (hw : s.waiters[w]? = some W)
    (ho : W.st.isOver = false) (ha : W.st ≠ .awaiting) (hr : running s.pipes W.pipe = true) :
    Inv (register s w W.pipe) none := by
  have hre := rewire_register hw ho W.pipe
  refine hre.inv hi ?_ ?_ ?_ ?_ (fun _ h => h) ?_
  · intro q Q' v h1 h2
    rw [register_get] at h1
    split at h1
    · rename_i e
      subst e
      cases e : s.pipes[W.pipe]? with
      | none => rw [e] at h1; cases h1
      | some P =>
        rw [e] at h1; cases h1; cases h2
        exact ⟨{ W with st := .awaiting }, by rw [get_register, if_pos rfl, hw]; rfl, rfl, rfl⟩
    · rename_i hne
      obtain ⟨V, a, b, c⟩ := hi.futW q Q' v h1 h2
      have hvw : w ≠ v := by
        intro e; subst e
        rw [hw] at a; cases a
        exact ha c
      refine ⟨V, ?_, b, c⟩
      rw [get_register, if_neg hvw, if_neg]
      · exact a
      · intro hf
        obtain ⟨P, h6, h7⟩ := bind_fut_some hf
        obtain ⟨V2, h8, h9, _⟩ := hi.futW W.pipe P v h6 h7
        rw [a] at h8; cases h8
        exact hne (by rw [← h9, b])
  · intro v V' h1 h2 h3
    rw [get_register] at h1
    split at h1
    · rename_i e; subst e
      rw [hw] at h1; cases h1
      have := (hi.wp w W hw).1
      refine ⟨{ (s.pipes[W.pipe]'this) with fut := some w }, ?_, ?_⟩
      · show (register s w W.pipe).pipes[W.pipe]? = _
        rw [register_get, if_pos rfl, List.getElem?_eq_getElem this]; rfl
      · rfl
    · split at h1
      · cases e : s.waiters[v]? with
        | none => rw [e] at h1; cases h1
        | some V => rw [e] at h1; cases h1; cases h3
      · rename_i hf
        obtain ⟨P, h4, h5⟩ := hi.awF v V' h1 h2 h3
        refine ⟨P, ?_, h5⟩
        rw [register_get, if_neg]
        · exact h4
        · intro e
          rw [e, h4] at hf
          exact hf h5
  · intro q Q' hx h1 h2 h3
    rw [register_get] at h1
    split at h1
    · rename_i e
      subst e
      cases e : s.pipes[W.pipe]? with
      | none => rw [e] at h1; cases h1
      | some P =>
        rw [e] at h1; cases h1
        rw [hi.fin W.pipe P e h2] at hr; cases hr
    · exact hi.finF q Q' hx h1 h2 h3
  · intro q _ hp
    refine Or.inl (hre.pend ?_ hp)
    intro v V V' h1 h2 _ h4
    rw [get_register] at h2
    split at h2
    · rw [h1] at h2; cases h2; rfl
    · split at h2
      · rw [h1] at h2; cases h2; exact h4
      · rw [h1] at h2; cases h2; exact h4
  · intro v V' r h1 h2
    rw [get_register] at h1
    split at h1
    · rename_i e; subst e
      rw [hw] at h1; cases h1; cases h2
    · split at h1
      · cases e : s.waiters[v]? with
        | none => rw [e] at h1; cases h1
        | some V => rw [e] at h1; cases h1; exact hi.over v V r e h2
      · exact hi.over v V' r h1 h2

theorem inv_loopCheck {s : St} (hi : Inv s none) {w : Nat} {W : Waiter} (hw : s.waiters[w]? = some W)
    (ho : W.st.isOver = false) (ha : W.st ≠ .awaiting) : Inv (loopCheck s w W.pipe W.cont) none := by
  simp only [loopCheck]
  split
  · rename_i h
    simp only [Bool.and_eq_true] at h
    exact inv_register hi hw ho ha h.2
  · rename_i h
    exact inv_finishWait hi hw ho ha h

/-- `wait()` begins: it becomes the foreground pipeline and is continued. -/
def enter (s : St) (p : Nat) : St := restart (if s.interactive then { s with current := some p } else s) p

theorem resume_fresh {s : St} {w : Nat} {W : Waiter} (hw : s.waiters[w]? = some W) (h : W.st = .fresh) :
    resume s w = loopCheck (enter s W.pipe) w W.pipe W.cont := by
  simp only [resume, hw, h, enter]

theorem resume_woken {s : St} {w : Nat} {W : Waiter} (hw : s.waiters[w]? = some W) (h : W.st = .woken) :
    resume s w = loopCheck s w W.pipe W.cont := by
  simp only [resume, hw, h]

theorem resume_none {s : St} {w : Nat} (hw : s.waiters[w]? = none) : resume s w = s := by
  simp only [resume, hw]

theorem resume_other {s : St} {w : Nat} {W : Waiter} (hw : s.waiters[w]? = some W) (h1 : W.st ≠ .fresh) (h2 : W.st ≠ .woken)
    (h3 : ∀ b, W.st ≠ .cancelled b) : resume s w = s := by
  simp only [resume, hw]

/-- `CancelledError` was raised in the waiter. -/
def endCancel (s : St) (w : Nat) (began : Bool) : St :=
  { s.modWaiter w (fun W => { W with st := .over .cancelled }) with current := if began then none else s.current }

theorem resume_cancelled {s : St} {w : Nat} {W : Waiter} (hw : s.waiters[w]? = some W) {b : Bool} (h : W.st = .cancelled b) :
    resume s w = endCancel s w b := by
  simp only [resume, hw, h, endCancel]
  cases b <;> rfl

/-- The cases of `resume`. -/
theorem resume_cases {s : St} {w : Nat} {W : Waiter} (hw : s.waiters[w]? = some W) :
    (W.st = .fresh ∧ resume s w = loopCheck (enter s W.pipe) w W.pipe W.cont) ∨
    (W.st = .woken ∧ resume s w = loopCheck s w W.pipe W.cont) ∨
    (∃ b, W.st = .cancelled b ∧ resume s w = endCancel s w b) ∨
    (((∃ r, W.st = .over r) ∨ W.st = .awaiting) ∧ resume s w = s) := by
  cases h : W.st with
  | fresh => exact .inl ⟨rfl, resume_fresh hw h⟩
  | woken => exact .inr (.inl ⟨rfl, resume_woken hw h⟩)
  | cancelled b => exact .inr (.inr (.inl ⟨b, rfl, resume_cancelled hw h⟩))
  | awaiting => exact .inr (.inr (.inr ⟨.inr rfl, resume_other hw (by simp [h]) (by simp [h]) (by simp [h])⟩))
  | over r => exact .inr (.inr (.inr ⟨.inl ⟨r, rfl⟩, resume_other hw (by simp [h]) (by simp [h]) (by simp [h])⟩))

/-- The cases of `cancel`. -/
theorem cancel_cases (s : St) (w : Nat) : cancel s w = s ∨ ∃ (W : Waiter) (b : Bool), s.waiters[w]? = some W ∧ W.st.isOver = false ∧
    (∀ b, W.st ≠ .cancelled b) ∧ (b = false ↔ W.st = .fresh) ∧ cancel s w = drop s w W.pipe b := by
  cases hw : s.waiters[w]? with
  | none => left; simp only [cancel, hw]
  | some W =>
    cases h : W.st with
    | fresh => exact .inr ⟨W, false, rfl, by rw [h]; rfl, by simp [h], by simp [h], by simp only [cancel, hw, h]⟩
    | awaiting => exact .inr ⟨W, true, rfl, by rw [h]; rfl, by simp [h], by simp [h], by simp only [cancel, hw, h]⟩
    | woken => exact .inr ⟨W, true, rfl, by rw [h]; rfl, by simp [h], by simp [h], by simp only [cancel, hw, h]⟩
    | cancelled b => left; simp only [cancel, hw, h]
    | over r => left; simp only [cancel, hw, h]

theorem get_drop (s : St) (w p : Nat) (b : Bool) (q : Nat) : (drop s w p b).pipes[q]? =
    if p = q then (s.pipes[q]?).map (fun P => { P with fut := if P.fut = some w then none else P.fut }) else s.pipes[q]? := by
  rw [drop, get_modPipe]; rfl

theorem waiter_drop (s : St) (w p : Nat) (b : Bool) (v : Nat) : (drop s w p b).waiters[v]? =
    if w = v then (s.waiters[v]?).map (fun W => { W with st := .cancelled b }) else s.waiters[v]? := by
  have : (drop s w p b).waiters = (s.modWaiter w (fun W => { W with st := .cancelled b })).waiters := rfl
  rw [this, get_modWaiter]

theorem rewire_drop {s : St} {w : Nat} {W : Waiter} (hw : s.waiters[w]? = some W) (ho : W.st.isOver = false) (b : Bool) :
    Rewire s (drop s w W.pipe b) := by
  refine ⟨by simp [drop, St.modPipe, St.modWaiter], ?_, rfl, by simp [drop, St.modPipe, St.modWaiter], ?_⟩
  · intro q P' h
    rw [get_drop] at h
    split at h
    · cases e : s.pipes[q]? with
      | none => rw [e] at h; cases h
      | some P => rw [e] at h; cases h; exact ⟨P, rfl, rfl⟩
    · exact ⟨P', h, rfl⟩
  · intro v V' h
    rw [waiter_drop] at h
    split at h
    · rename_i e; subst e
      rw [hw] at h; cases h
      exact ⟨W, hw, rfl, fun _ => ho, fun r' e => by rw [e] at ho; cases ho⟩
    · exact ⟨V', h, rfl, id, fun r e => e⟩

theorem inv_drop {s : St} (hi : Inv s none) {w : Nat} {W : Waiter} (hw : s.waiters[w]? = some W) (ho : W.st.isOver = false) (b : Bool) :
    Inv (drop s w W.pipe b) none := by
  have hre := rewire_drop hw ho b
  refine hre.inv hi ?_ ?_ ?_ ?_ (by intro p _; simp) ?_
  · intro p P v hp hf
    rw [get_drop] at hp
    have key : ∃ P0 : Pipe, s.pipes[p]? = some P0 ∧ P0.fut = some v ∧ w ≠ v := by
      split at hp
      · rename_i e
        cases e2 : s.pipes[p]? with
        | none => rw [e2] at hp; cases hp
        | some P0 =>
          rw [e2] at hp; cases hp
          simp only at hf
          split at hf
          · cases hf
          · rename_i h; exact ⟨P0, rfl, hf, fun e => h (by rw [e]; exact hf)⟩
      · rename_i e
        refine ⟨P, hp, hf, fun e3 => ?_⟩
        obtain ⟨V, a, c, _⟩ := hi.futW p P v hp hf
        subst e3
        rw [hw] at a; cases a
        exact e c
    obtain ⟨P0, h1, h2, h3⟩ := key
    obtain ⟨V, a, c, d⟩ := hi.futW p P0 v h1 h2
    exact ⟨V, by rw [waiter_drop, if_neg h3]; exact a, c, d⟩
  · intro v V' a b c
    rw [waiter_drop] at a
    split at a
    · rename_i e; subst e
      rw [hw] at a; cases a; cases b
    · rename_i hne
      obtain ⟨P, h1, h2⟩ := hi.awF v V' a b c
      rw [get_drop]
      split
      · refine ⟨{ P with fut := if P.fut = some w then none else P.fut }, by rw [h1]; rfl, ?_⟩
        simp only [h2]
        rw [if_neg (by simpa using fun e => hne e.symm)]
      · exact ⟨P, h1, h2⟩
  · intro p P _ hp hf hc
    obtain ⟨P0, h1, h2⟩ := hre.get p P hp
    have hn := hi.finF p P0 (by simp) h1 (by rw [h2] at hf; exact hf) (by rw [h2] at hc; exact hc)
    rw [get_drop, h1] at hp
    split at hp
    · cases hp; simp [hn]
    · cases hp; exact hn
  · intro p _ hp
    refine .inl (hre.pend ?_ hp)
    intro v V V' a b c d
    rw [waiter_drop] at b
    split at b
    · rename_i e; subst e
      rw [hw] at a; cases a
      rw [hw] at b; cases b; rfl
    · rw [a] at b; cases b; exact d
  · intro v V' r' a b
    rw [waiter_drop] at a
    split at a
    · rename_i e; subst e
      rw [hw] at a; cases a
      cases b
    · exact hi.over v V' r' a b

theorem inv_cancel {s : St} (hi : Inv s none) (w : Nat) : Inv (cancel s w) none := by
  rcases cancel_cases s w with h | ⟨W, b, h1, h2, -, -, h3⟩
  · rw [h]; exact hi
  · rw [h3]; exact inv_drop hi h1 h2 b

theorem enter_waiters (s : St) (p : Nat) : (enter s p).waiters = s.waiters := by
  simp only [enter, restart, St.modPipe]; split <;> rfl

theorem inv_enter {s : St} (hi : Inv s none) (p : Nat) : Inv (enter s p) none := by
  refine inv_restart ?_ p
  split
  · exact inv_congr hi rfl rfl rfl
  · exact hi

theorem inv_resume {s : St} (hi : Inv s none) (w : Nat) : Inv (resume s w) none := by
  cases hw : s.waiters[w]? with
  | none => rw [resume_none hw]; exact hi
  | some W =>
    cases h : W.st with
    | fresh =>
      rw [resume_fresh hw h]
      exact inv_loopCheck (inv_enter hi _) (by rw [enter_waiters]; exact hw) (by rw [h]; rfl) (by rw [h]; simp)
    | awaiting => rw [resume_other hw (by simp [h]) (by simp [h]) (by simp [h])]; exact hi
    | cancelled b =>
      rw [resume_cancelled hw h]
      exact inv_congr (inv_over hi hw (by rw [h]; rfl) (by rw [h]; simp) .cancelled (fun h => by cases h) (fun l h => by cases h)) rfl rfl rfl
    | woken =>
      rw [resume_woken hw h]
      exact inv_loopCheck hi hw (by rw [h]; rfl) (by rw [h]; simp)
    | over r => rw [resume_other hw (by simp [h]) (by simp [h]) (by simp [h])]; exact hi

/-! ### Items -/

def overItem (it : Item) : Item := { it with task := .over }

theorem get_modItem (s : St) (p i q : Nat) (f : Item → Item) : (s.modItem p i f).pipes[q]? =
    if p = q then (s.pipes[q]?).map (fun P => { P with items := P.items.modify i f }) else s.pipes[q]? := by
  rw [St.modItem, get_modPipe]

theorem itemsOf_modItem (s : St) (p i q : Nat) (f : Item → Item) : itemsOf (s.modItem p i f).pipes q =
    if p = q then (itemsOf s.pipes q).modify i f else itemsOf s.pipes q := by
  simp only [itemsOf, get_modItem]
  split
  · cases s.pipes[q]? with
    | none => simp
    | some P => rfl
  · rfl

theorem length_modItem (s : St) (p i : Nat) (f : Item → Item) : (s.modItem p i f).pipes.length = s.pipes.length := by
  simp [St.modItem, St.modPipe]

/-- The task of an item ends: its pipeline is open. -/
theorem inv_overItem {s : St} (hi : Inv s none) {p i : Nat} {it : Item} (hit : itemAt s p i = some it)
    (hq : it.task = .queued) :
    Inv (s.modItem p i overItem) (if it.state = .raised then none else some p) := by
  have hks : ∀ q, (itemsOf (s.modItem p i overItem).pipes q).map ks = (itemsOf s.pipes q).map ks := by
    intro q
    rw [itemsOf_modItem]
    split
    · exact map_modify_same ks overItem (fun _ => rfl) _ _
    · rfl
  have hsk : skel (s.modItem p i overItem).pipes = skel s.pipes := skel_of_items (length_modItem s p i _) hks
  have hrun := running_congr hsk
  have hget : ∀ (q : Nat) (P' : Pipe), (s.modItem p i overItem).pipes[q]? = some P' →
      ∃ P : Pipe, s.pipes[q]? = some P ∧ P' = { P with items := P'.items } := by
    intro q P' h
    rw [get_modItem] at h
    split at h
    · cases e : s.pipes[q]? with
      | none => rw [e] at h; cases h
      | some P => rw [e] at h; cases h; exact ⟨P, rfl, rfl⟩
    · exact ⟨P', h, rfl⟩
  have hget' : ∀ (q : Nat) (P : Pipe), s.pipes[q]? = some P →
      ∃ P' : Pipe, (s.modItem p i overItem).pipes[q]? = some P' ∧ P' = { P with items := P'.items } := by
    intro q P h
    rw [get_modItem, h]
    split
    · exact ⟨_, rfl, rfl⟩
    · exact ⟨P, rfl, rfl⟩
  have hmem : ∀ (q : Nat) (it' : Item), it' ∈ itemsOf (s.modItem p i overItem).pipes q → it' ∈ itemsOf s.pipes q ∨
      (p = q ∧ it' = overItem it) := by
    intro q it' h
    rw [itemsOf_modItem] at h
    split at h
    · rename_i e
      rcases mem_modify h with h | ⟨y, h1, h2⟩
      · exact Or.inl h
      · right
        subst e
        simp only [itemAt] at hit
        rw [hit] at h1; cases h1
        exact ⟨rfl, h2⟩
    · exact Or.inl h
  have hx : ∀ q, (if it.state = .raised then none else some p) ≠ some q → p = q → it.state = .raised := by
    intro q h e
    by_cases hr : it.state = .raised
    · exact hr
    · rw [if_neg hr, e] at h; exact absurd rfl h
  have hitm : it ∈ itemsOf s.pipes p := List.mem_of_getElem? hit
  refine ⟨hi.ranked.congr hsk, ?_, ?_, ?_, ?_, ?_, ?_, ?_, ?_, ?_, ?_, hi.nodup, ?_, ?_⟩
  · intro w W h; rw [length_modItem]; exact hi.wp w W h
  · intro q P' w h1 h2
    obtain ⟨P, a, b⟩ := hget q P' h1
    rw [b] at h2
    exact hi.futW q P w a h2
  · intro w W h1 h2 h3
    obtain ⟨P, a, b⟩ := hi.awF w W h1 h2 h3
    obtain ⟨P', c, d⟩ := hget' _ _ a
    exact ⟨P', c, by rw [d]; exact b⟩
  · intro q P' h1 h2
    obtain ⟨P, a, b⟩ := hget q P' h1
    rw [b] at h2
    rw [hrun]; exact hi.fin q P a h2
  · intro q P' _ h1
    obtain ⟨P, a, b⟩ := hget q P' h1
    rw [b]
    exact hi.finF q P (by simp) a
  · intro q P' h1
    obtain ⟨P, a, b⟩ := hget q P' h1
    rw [b]
    exact hi.cr q P a
  · intro q P' h1
    obtain ⟨P, a, b⟩ := hget q P' h1
    rw [b]
    exact hi.bornF q P a
  · intro q P' hxq h1 h2
    obtain ⟨P, a, b⟩ := hget q P' h1
    rw [hrun] at h2
    rcases hi.j1 q P (by simp) a h2 with h | h | h
    · left; rw [b]; exact h
    · right; left
      rcases h with ⟨jt, h3, h4, h5, h6⟩ | h
      · left
        have : jt ∈ itemsOf (s.modItem p i overItem).pipes q := by
          rw [itemsOf_modItem]
          split
          · rename_i e
            have hr := hx q hxq e
            subst e
            rw [List.mem_iff_getElem?] at h3 ⊢
            obtain ⟨j, hj⟩ := h3
            refine ⟨j, ?_⟩
            rw [List.getElem?_modify]
            by_cases hji : i = j
            · subst hji
              simp only [itemAt] at hit
              rw [hit] at hj; cases hj
              exact absurd hr h6
            · simp [hji, hj]
          · exact h3
        exact ⟨jt, this, h4, h5, h6⟩
      · exact Or.inr h
    · refine Or.inr (Or.inr (lost_mono (s := s) ?_ (fun w W r a b c => ⟨W, a, b, c⟩) h))
      intro Q hQ
      obtain ⟨Q', c, d⟩ := hget' _ _ hQ
      refine ⟨Q', c, by rw [d], ?_⟩
      have := hks q
      rw [itemsOf_of_get c, itemsOf_of_get hQ] at this
      exact this
  · intro w W r h1 h2
    rw [hrun, failedItems_congr hsk]
    exact hi.over w W r h1 h2
  · intro q
    show q ∈ s.running ↔ _
    rw [hi.runl]
    constructor
    · rintro ⟨P, a, b⟩
      obtain ⟨P', c, d⟩ := hget' _ _ a
      exact ⟨P', c, by rw [d]; exact b⟩
    · rintro ⟨P', a, b⟩
      obtain ⟨P, c, d⟩ := hget q P' a
      rw [d] at b
      exact ⟨P, c, b⟩
  · intro q it' h hk
    rcases hmem q it' h with h | ⟨e, h⟩
    · exact hi.tsk q it' h hk
    · subst h
      have := hi.tsk p it hitm hk
      rw [hq] at this
      simp only [overItem]
      constructor
      · intro h; cases h
      · intro h
        have := this.2 h
        cases this
  · intro q it' t h hk
    rcases hmem q it' h with h | ⟨e, h⟩
    · exact hi.fgw q it' t h hk
    · subst h; subst e
      exact hi.fgw p it t hitm hk

theorem step_task {s : St} {p i : Nat} {it : Item} (hit : itemAt s p i = some it) (hq : it.task = .queued) :
    step s (.task p i) = if it.state = .raised then s.modItem p i overItem else handleFinish (s.modItem p i overItem) p := by
  simp only [step, hit, hq, if_true]; rfl

theorem step_task_other {s : St} {p i : Nat} (h : ∀ it, itemAt s p i = some it → it.task ≠ .queued) :
    step s (.task p i) = s := by
  simp only [step]
  split
  · rfl
  · rename_i it hit
    rw [if_neg (h it hit)]

theorem inv_task {s : St} (hi : Inv s none) (p i : Nat) : Inv (step s (.task p i)) none := by
  cases hit : itemAt s p i with
  | none => rw [step_task_other (by simp [hit])]; exact hi
  | some it =>
    by_cases hq : it.task = .queued
    · rw [step_task hit hq]
      have := inv_overItem hi hit hq
      split
      · rename_i hr; rw [if_pos hr] at this; exact this
      · rename_i hr; rw [if_neg hr] at this; exact inv_handleFinish this
    · rw [step_task_other (by rw [hit]; intro it' e; cases e; exact hq)]; exact hi

/-! ### An item ends -/

def endItem (o : State) (it : Item) : Item := { it with state := o, task := .queued }

/-- The state after an item has ended. -/
def ended (s : St) (p i : Nat) (o : State) : St :=
  (s.modItem p i (endItem o)).modPipe p (fun P => { P with lastEnd := some i })

theorem step_finish {s : St} {p i : Nat} {o : State} {it : Item} (hit : itemAt s p i = some it) (hr : it.state = .running)
    (hk : okEnd it.kind o = true) : step s (.finish p i o) = ended s p i o := by
  simp only [step, hit, hr, hk, and_self, if_true]; rfl

theorem step_finish_other {s : St} {p i : Nat} {o : State}
    (h : ∀ it, itemAt s p i = some it → ¬ (it.state = .running ∧ okEnd it.kind o = true)) : step s (.finish p i o) = s := by
  simp only [step]
  split
  · rfl
  · rename_i it hit
    rw [if_neg (h it hit)]

theorem ended_get (s : St) (p i q : Nat) (o : State) : (ended s p i o).pipes[q]? =
    if p = q then (s.pipes[q]?).map (fun P => { P with items := P.items.modify i (endItem o), lastEnd := some i }) else s.pipes[q]? := by
  rw [ended, get_modPipe, get_modItem]
  split
  · simp [Function.comp_def]
  · rfl

theorem ended_items (s : St) (p i q : Nat) (o : State) : itemsOf (ended s p i o).pipes q =
    if p = q then (itemsOf s.pipes q).modify i (endItem o) else itemsOf s.pipes q := by
  simp only [itemsOf, ended_get]
  split
  · cases s.pipes[q]? with
    | none => simp
    | some P => rfl
  · rfl

theorem map_modify_comm {α β : Type} (g : α → β) (f : α → α) (f' : β → β) (h : ∀ a, g (f a) = f' (g a)) (l : List α) (i : Nat) :
    (l.modify i f).map g = (l.map g).modify i f' := by
  apply List.ext_getElem?
  intro j
  simp only [List.getElem?_map, List.getElem?_modify]
  cases l[j]? <;> simp
  split <;> simp [h]

theorem ended_finished {s : St} {p i : Nat} {o : State} {it : Item} (hit : itemAt s p i = some it) (hr : it.state = .running)
    (hk : okEnd it.kind o = true) : Finished s.pipes (ended s p i o).pipes p i o := by
  refine ⟨by simp [ended, St.modPipe, length_modItem], ?_, ?_, ?_⟩
  · intro q hq
    rw [ended_items, if_neg (fun e => hq e.symm)]
  · rw [ended_items, if_pos rfl]
    exact map_modify_comm ks (endItem o) _ (fun _ => rfl) _ _
  · refine ⟨ks it, ?_, hr, hk⟩
    simp only [itemAt] at hit
    rw [List.getElem?_map, hit]; rfl

/-- `failed_processes` depends on kinds and states only. -/
theorem failedItems_eq_ks (ps : List Pipe) (p : Nat) :
    failedItems ps p = (List.range ((itemsOf ps p).map ks).length).filter
      (fun i => ((((itemsOf ps p).map ks)[i]?).map (fun x => !kRunning (running ps) x && kFailed (isFailed ps) x)).getD false) := by
  rw [failedItems_eq]
  simp only [List.length_map, List.getElem?_map]
  refine filter_congr' (fun i _ => ?_)
  cases (itemsOf ps p)[i]? with
  | none => rfl
  | some it => simp [bad, itemRunning_ks, itemFailed_ks]

theorem Finished.failedItems {ps ps' : List Pipe} {p i : Nat} {o : State} (h : Finished ps ps' p i o) (hr : Ranked ps)
    {q : Nat} (hq : running ps q = false) : failedItems ps' q = failedItems ps q := by
  rw [failedItems_eq_ks, failedItems_eq_ks, (h.verdict hr q hq).2.2]
  refine filter_congr' (fun j _ => ?_)
  cases hj : ((itemsOf ps q).map ks)[j]? with
  | none => rfl
  | some x =>
    have hx := List.mem_of_getElem? hj
    have hq' := hq
    rw [running_unfold_ks hr] at hq'
    have hxr := List.any_eq_false.1 hq' x hx
    have hfg : ∀ t, x.1 = .fg t → running ps t = false := by
      intro t ht
      obtain ⟨k, st⟩ := x
      simp only at ht
      subst ht
      simpa [kRunning] using hxr
    have h1 : kRunning (running ps') x = kRunning (running ps) x := kRunning_congr (fun t ht => by
      rw [hfg t ht, (h.verdict hr t (hfg t ht)).1])
    have h2 : kFailed (isFailed ps') x = kFailed (isFailed ps) x := kFailed_congr (fun t ht =>
      (h.verdict hr t (hfg t ht)).2.1)
    simp [h1, h2]

theorem okEnd_not_running {k : Kind} {o : State} (h : okEnd k o = true) : o ≠ .running := by
  intro e; subst e; cases k <;> cases h

theorem okEnd_not_fg {k : Kind} {o : State} (h : okEnd k o = true) (t : Nat) : k ≠ .fg t := by
  intro e; subst e; cases o <;> cases h

theorem inv_ended {s : St} (hi : Inv s none) {p i : Nat} {o : State} {it : Item} (hit : itemAt s p i = some it)
    (hr : it.state = .running) (hk : okEnd it.kind o = true) : Inv (ended s p i o) none := by
  have hF := ended_finished hit hr hk
  have hget : ∀ (q : Nat) (P' : Pipe), (ended s p i o).pipes[q]? = some P' →
      ∃ P : Pipe, s.pipes[q]? = some P ∧ P' = { P with items := P'.items, lastEnd := P'.lastEnd } ∧ (p ≠ q → P' = P) := by
    intro q P' h
    rw [ended_get] at h
    split at h
    · rename_i e
      cases e : s.pipes[q]? with
      | none => rw [e] at h; cases h
      | some P => rw [e] at h; cases h; exact ⟨P, rfl, rfl, fun h => by contradiction⟩
    · exact ⟨P', h, rfl, fun _ => rfl⟩
  have hget' : ∀ (q : Nat) (P : Pipe), s.pipes[q]? = some P →
      ∃ P' : Pipe, (ended s p i o).pipes[q]? = some P' ∧ P' = { P with items := P'.items, lastEnd := P'.lastEnd } := by
    intro q P h
    rw [ended_get, h]
    split
    · exact ⟨_, rfl, rfl⟩
    · exact ⟨P, rfl, rfl⟩
  have hmem : ∀ (q : Nat) (it' : Item), it' ∈ itemsOf (ended s p i o).pipes q → it' ∈ itemsOf s.pipes q ∨
      (p = q ∧ it' = endItem o it) := by
    intro q it' h
    rw [ended_items] at h
    split at h
    · rename_i e
      rcases mem_modify h with h | ⟨y, h1, h2⟩
      · exact Or.inl h
      · right
        subst e
        simp only [itemAt] at hit
        rw [hit] at h1; cases h1
        exact ⟨rfl, h2⟩
    · exact Or.inl h
  have hitm : it ∈ itemsOf s.pipes p := List.mem_of_getElem? hit
  have hnew : (itemsOf (ended s p i o).pipes p)[i]? = some (endItem o it) := by
    rw [ended_items, if_pos rfl, List.getElem?_modify]
    simp only [itemAt] at hit
    rw [hit]; simp
  have hw : (ended s p i o).waiters = s.waiters := rfl
  refine ⟨hF.ranked hi.ranked, ?_, ?_, ?_, ?_, ?_, ?_, ?_, ?_, ?_, ?_, hi.nodup, ?_, ?_⟩
  · intro w W h; rw [hF.len]; exact hi.wp w W h
  · intro q P' w h1 h2
    obtain ⟨P, a, b, _⟩ := hget q P' h1
    rw [b] at h2
    exact hi.futW q P w a h2
  · intro w W h1 h2 h3
    obtain ⟨P, a, b⟩ := hi.awF w W h1 h2 h3
    obtain ⟨P', c, d⟩ := hget' _ _ a
    exact ⟨P', c, by rw [d]; exact b⟩
  · intro q P' h1 h2
    obtain ⟨P, a, b, _⟩ := hget q P' h1
    rw [b] at h2
    exact (hF.verdict hi.ranked q (hi.fin q P a h2)).1
  · intro q P' _ h1
    obtain ⟨P, a, b, _⟩ := hget q P' h1
    rw [b]
    exact hi.finF q P (by simp) a
  · intro q P' h1
    obtain ⟨P, a, b, _⟩ := hget q P' h1
    rw [b]
    exact hi.cr q P a
  · intro q P' h1
    obtain ⟨P, a, b, _⟩ := hget q P' h1
    rw [b]
    exact hi.bornF q P a
  · intro q P' _ h1 h2
    obtain ⟨P, a, b, c⟩ := hget q P' h1
    by_cases hq : p = q
    · subst hq
      right
      by_cases ho : o = .raised
      · right; left
        refine ⟨P', i, endItem o it, h1, ?_, ?_, ho⟩
        · rw [ended_get, if_pos rfl, a] at h1
          cases h1; rfl
        · rw [itemsOf_of_get h1] at hnew; exact hnew
      · left; left
        exact ⟨endItem o it, List.mem_of_getElem? hnew, fun t => okEnd_not_fg hk t, rfl, ho⟩
    · cases hrq : running s.pipes q with
      | false =>
        rcases hi.j1 q P (by simp) a hrq with h | h | h
        · left; rw [c hq]; exact h
        · exact Or.inr (Or.inl (pend_mono (s := s) (by rw [ended_items, if_neg hq]) (fun w W a b c => ⟨W, a, b, c⟩) h))
        · refine Or.inr (Or.inr (lost_mono (s := s) ?_ (fun w W r a b c => ⟨W, a, b, c⟩) h))
          intro Q hQ
          rw [a] at hQ; cases hQ
          exact ⟨P', h1, by rw [c hq], by rw [c hq]⟩
      | true =>
        right
        rw [running_unfold hi.ranked, List.any_eq_true] at hrq
        obtain ⟨jt, hj1, hj2⟩ := hrq
        rw [running_unfold (hF.ranked hi.ranked)] at h2
        have hj3 : jt ∈ itemsOf (ended s p i o).pipes q := by rw [ended_items, if_neg hq]; exact hj1
        have hj4 := List.any_eq_false.1 h2 jt hj3
        cases hjk : jt.kind with
        | proc => simp [itemRunning, hjk] at hj2 hj4; exact absurd hj2 hj4
        | func => simp [itemRunning, hjk] at hj2 hj4; exact absurd hj2 hj4
        | fg t =>
          simp [itemRunning, hjk] at hj2
          obtain ⟨w, W, w1, w2, w3⟩ := hi.fgw q jt t hj1 hjk
          cases hst : W.st with
          | over r =>
            right; right
            refine ⟨w, W, r, w1, w2, hst, ?_⟩
            intro e; subst e
            have := ((hi.over w W .ok w1 hst).1 rfl).1
            rw [w3, hj2] at this; cases this
          | fresh => left; right; exact ⟨w, W, w1, w2, by rw [hst]; rfl⟩
          | awaiting => left; right; exact ⟨w, W, w1, w2, by rw [hst]; rfl⟩
          | woken => left; right; exact ⟨w, W, w1, w2, by rw [hst]; rfl⟩
          | cancelled b => left; right; exact ⟨w, W, w1, w2, by rw [hst]; rfl⟩
  · intro w W r h1 h2
    obtain ⟨a, b⟩ := hi.over w W r h1 h2
    constructor
    · intro e
      obtain ⟨c, d⟩ := a e
      exact ⟨(hF.verdict hi.ranked _ c).1, by rw [hF.failedItems hi.ranked c]; exact d⟩
    · intro l e
      obtain ⟨c, d⟩ := b l e
      exact ⟨(hF.verdict hi.ranked _ c).1, by rw [hF.failedItems hi.ranked c]; exact d⟩
  · intro q
    show q ∈ s.running ↔ _
    rw [hi.runl]
    constructor
    · rintro ⟨P, a, b⟩
      obtain ⟨P', c, d⟩ := hget' _ _ a
      exact ⟨P', c, by rw [d]; exact b⟩
    · rintro ⟨P', a, b⟩
      obtain ⟨P, c, d, _⟩ := hget q P' a
      rw [d] at b
      exact ⟨P, c, b⟩
  · intro q it' h hk'
    rcases hmem q it' h with h | ⟨e, h⟩
    · exact hi.tsk q it' h hk'
    · subst h
      have := okEnd_not_running hk
      simp only [endItem]
      constructor
      · intro h; cases h
      · intro h; exact absurd h this
  · intro q it' t h hk'
    rcases hmem q it' h with h | ⟨e, h⟩
    · exact hi.fgw q it' t h hk'
    · subst h
      exact absurd hk' (okEnd_not_fg hk t)

theorem inv_finish {s : St} (hi : Inv s none) (p i : Nat) (o : State) : Inv (step s (.finish p i o)) none := by
  by_cases h : ∃ it, itemAt s p i = some it ∧ it.state = .running ∧ okEnd it.kind o = true
  · obtain ⟨it, h1, h2, h3⟩ := h
    rw [step_finish h1 h2 h3]
    exact inv_ended hi h1 h2 h3
  · rw [step_finish_other (fun it h1 h2 => h ⟨it, h1, h2⟩)]
    exact hi

end Pieshell.Job
