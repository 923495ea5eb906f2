import Verif.Lemmas.Job13
/-! When a call of `wait()` is overtaken. -/
namespace Pieshell.Job

/-- Calls that are overtaken in `s'` were so in `s`, or are two that wait for the same pipeline. -/
def Over2 (s s' : St) : Prop := ∀ (w : Nat) (W' : Waiter), s'.waiters[w]? = some W' → W'.shadowed = true →
  (∃ W : Waiter, s.waiters[w]? = some W ∧ W.shadowed = true ∧ W.pipe = W'.pipe) ∨
  ∃ v, v ≠ w ∧ Waiting s' v W'.pipe ∧ Waiting s' w W'.pipe

theorem over2_congr {s s' : St} (h : s'.waiters.map wv = s.waiters.map wv) : Over2 s s' := by
  intro w W' hw hs
  left
  have := congrArg (fun l => l[w]?) h
  simp only [List.getElem?_map, hw, Option.map_some] at this
  cases e : s.waiters[w]? with
  | none => rw [e] at this; cases this
  | some W =>
    rw [e] at this
    simp only [wv, Option.map_some, Option.some.injEq, Prod.mk.injEq] at this
    refine ⟨W, rfl, ?_, ?_⟩
    · simp_all
    · simp_all

theorem over2_refl (s : St) : Over2 s s := over2_congr rfl

theorem over2_append {s s' : St} {l : List Waiter} (h : s'.waiters = s.waiters ++ l) (hl : ∀ W ∈ l, W.shadowed = false) : Over2 s s' := by
  intro w W hw hsh
  rw [h] at hw
  by_cases hlt : w < s.waiters.length
  · rw [List.getElem?_append_left hlt] at hw
    exact .inl ⟨W, hw, hsh, rfl⟩
  · rw [List.getElem?_append_right (by omega)] at hw
    rw [hl W (List.mem_of_getElem? hw)] at hsh; cases hsh

theorem over2_register {s : St} (hi : Inv s none) {w : Nat} {W : Waiter} (hw : s.waiters[w]? = some W) :
    Over2 s (register s w W.pipe) := by
  intro v V' hv hsh
  have hv0 := hv
  rw [get_register] at hv
  split at hv
  · rename_i e; subst e
    rw [hw] at hv; cases hv
    exact .inl ⟨W, hw, hsh, rfl⟩
  · rename_i hne
    split at hv
    · rename_i hf
      cases e : s.waiters[v]? with
      | none => rw [e] at hv; cases hv
      | some V =>
        rw [e] at hv; cases hv
        obtain ⟨P, a, b⟩ := bind_fut_some hf
        obtain ⟨V2, c, d, e2⟩ := hi.futW _ P v a b
        rw [e] at c; cases c
        right
        refine ⟨w, hne, ⟨{ W with st := .awaiting }, ?_, d.symm, rfl⟩, ⟨_, hv0, rfl, e2⟩⟩
        rw [get_register, if_pos rfl, hw]; rfl
    · exact .inl ⟨V', hv, hsh, rfl⟩

theorem over2_of_eq {s t u : St} (h : t.waiters = s.waiters) (ho : Over2 t u) : Over2 s u := by
  intro w W' a b
  rcases ho w W' a b with ⟨W, c, d⟩ | d
  · exact .inl ⟨W, by rw [← h]; exact c, d⟩
  · exact .inr d

theorem over2_loopCheck {s : St} (hi : Inv s none) {w : Nat} {W : Waiter} (hw : s.waiters[w]? = some W) :
    Over2 s (loopCheck s w W.pipe W.cont) := by
  simp only [loopCheck]
  split
  · exact over2_register hi hw
  · exact over2_congr (wv_finishWait s w _ _)

theorem over2_start {s : St} (hi : Inv s none) (xs : List Spec) : Over2 s (start s xs) := by
  cases hok : okSpecs s xs with
  | false => rw [start_no hok]; exact over2_refl s
  | true =>
    rw [start_eq hi hok]
    refine over2_append rfl ?_
    intro W hW
    obtain ⟨t, _, e⟩ := List.mem_map.1 hW
    rw [← e]

theorem over2_step {s : St} (hi : Inv s none) (a : Act) : Over2 s (step s a) := by
  have hs := over2_refl s
  cases a with
  | start xs => exact over2_start hi xs
  | wait p =>
    simp only [step]
    split
    · refine over2_append (l := [⟨p, none, .fresh, false⟩]) rfl ?_
      intro W hW
      rw [List.mem_singleton] at hW
      rw [hW]
    · exact hs
  | resume w =>
    show Over2 s (resume s w)
    cases hw : s.waiters[w]? with
    | none => rw [resume_none hw]; exact hs
    | some W =>
      rcases resume_cases hw with ⟨-, h⟩ | ⟨-, h⟩ | ⟨b, -, h⟩ | ⟨-, h⟩
      · rw [h]
        exact over2_of_eq (enter_waiters s W.pipe) (over2_loopCheck (inv_enter hi _) (by rw [enter_waiters]; exact hw))
      · rw [h]; exact over2_loopCheck hi hw
      · rw [h]
        exact over2_congr (s := s) (map_modify_same wv (fun W : Waiter => { W with st := .over .cancelled }) (fun W => rfl) _ _)
      · rw [h]; exact hs
  | cancel w =>
    show Over2 s (cancel s w)
    rcases cancel_cases s w with h | ⟨W, b, -, -, -, -, h3⟩
    · rw [h]; exact hs
    · rw [h3]
      exact over2_congr (s := s) (map_modify_same wv (fun W : Waiter => { W with st := .cancelled b }) (fun W => rfl) _ _)
  | finish p i o =>
    simp only [step]
    split
    · exact hs
    · split
      · exact hs
      · exact hs
  | task p i =>
    simp only [step]
    split
    · exact hs
    · split
      · split
        · exact hs
        · exact over2_congr (by rw [wv_handleFinish]; rfl)
      · exact hs
  | tstp =>
    simp only [step]
    split
    · exact hs
    · exact over2_congr (by rw [wv_resolve]; rfl)
  | write p i path data =>
    simp only [step]
    split
    · exact hs
    · split
      · split <;> exact hs
      · exact hs
  | restart p => exact hs
  | suspend p => exact hs
  | bg =>
    simp only [step]
    split
    · exact hs
    · rename_i t _
      exact over2_of_eq (t := restart s t) rfl (over2_start (inv_restart hi _) [])
  | fg =>
    simp only [step]
    split
    · exact hs
    · exact over2_start hi _
  | removeFiles p => exact hs

/-! ### Cancelled calls -/

/-- `CancelledError` was or will be raised in the call. -/
def cz (W : Waiter) : Bool := match W.st with
  | .cancelled _ => true
  | .over .cancelled => true
  | _ => false

/-- Futures are those of calls that wait. -/
def FW (s : St) : Prop := ∀ (p w : Nat), (s.pipes[p]?).bind Pipe.fut = some w → ∃ W : Waiter, s.waiters[w]? = some W ∧ W.st = .awaiting

theorem fw_of_inv {s : St} {y : Option Nat} (hi : Inv s y) : FW s := by
  intro p w h
  obtain ⟨P, a, b⟩ := bind_fut_some h
  obtain ⟨W, c, -, d⟩ := hi.futW p P w a b
  exact ⟨W, c, d⟩

theorem cz_modify {l : List Waiter} {w : Nat} {W : Waiter} (hw : l[w]? = some W) (f : Waiter → Waiter) (h : cz (f W) = cz W) :
    (l.modify w f).map cz = l.map cz := by
  apply List.ext_getElem?
  intro v
  simp only [List.getElem?_map, List.getElem?_modify]
  by_cases e : w = v
  · subst e; simp [hw, h]
  · simp [e]

theorem cz_resolve {s : St} (h : FW s) (p : Nat) : (resolve s p).waiters.map cz = s.waiters.map cz := by
  cases e : (s.pipes[p]?).bind Pipe.fut with
  | none => rw [resolve_none e]
  | some w =>
    obtain ⟨W, hw, ha⟩ := h p w e
    rw [resolve_some e]
    exact cz_modify hw _ (by simp [cz, ha])

theorem fw_collect {s : St} (h : FW s) (p : Nat) : FW (collect s p) := by
  intro q w e
  rw [collect_waiters]
  refine h q w ?_
  rw [collect_get] at e
  split at e
  · cases e2 : s.pipes[q]? with
    | none => rw [e2] at e; cases e
    | some P => rw [e2] at e; exact e
  · exact e

theorem cz_handleFinish {s : St} (h : FW s) (p : Nat) : (handleFinish s p).waiters.map cz = s.waiters.map cz := by
  simp only [handleFinish]
  split
  · split
    · rw [collect_waiters]
    · rw [cz_resolve (fw_collect h p), collect_waiters]
  · exact cz_resolve h p

theorem result_ne_cancelled (s : St) (p : Nat) : result s p ≠ .cancelled := by
  simp only [result]
  split
  · simp
  · split <;> simp

theorem fut_endWait (s : St) (w p q : Nat) : ((endWait s w p).pipes[q]?).bind Pipe.fut = (s.pipes[q]?).bind Pipe.fut := by
  have key : ((endWait s w p).pipes)[q]? = (if suspendedOf s p then suspend s p else s).pipes[q]? := rfl
  rw [key]
  split
  · simp only [suspend, get_modPipe]
    split
    · cases s.pipes[q]? <;> rfl
    · rfl
  · rfl

theorem cz_finishWait {s : St} (h : FW s) {w : Nat} {W : Waiter} (hw : s.waiters[w]? = some W) (hc : cz W = false)
    (ha : W.st ≠ .awaiting) (p : Nat) (c : Option Nat) : (finishWait s w p c).waiters.map cz = s.waiters.map cz := by
  have h1 : (endWait s w p).waiters.map cz = s.waiters.map cz := by
    rw [endWait_waiters]
    refine cz_modify hw _ ?_
    rw [hc]
    have := result_ne_cancelled s p
    cases e : result s p with
    | cancelled => exact absurd e this
    | _ => rfl
  have h2 : FW (endWait s w p) := by
    intro q v e
    rw [fut_endWait] at e
    obtain ⟨V, hv, hva⟩ := h q v e
    refine ⟨V, ?_, hva⟩
    rw [endWait_waiters, List.getElem?_modify]
    have : w ≠ v := by rintro rfl; rw [hw] at hv; cases hv; exact ha hva
    simp [this, hv]
  rw [finishWait_eq]
  split
  · split
    · rw [cz_handleFinish h2, h1]
    · exact h1
  · exact h1

theorem cz_register {s : St} {w : Nat} {W : Waiter} (hw : s.waiters[w]? = some W) (hc : cz W = false) (p : Nat) :
    (register s w p).waiters.map cz = s.waiters.map cz := by
  apply List.ext_getElem?
  intro v
  simp only [List.getElem?_map, get_register]
  split
  · rename_i e; subst e
    rw [hw]; simp [cz] at hc ⊢; exact hc
  · split
    · cases s.waiters[v]? <;> rfl
    · rfl

theorem cz_loopCheck {s : St} (h : FW s) {w : Nat} {W : Waiter} (hw : s.waiters[w]? = some W) (hc : cz W = false)
    (ha : W.st ≠ .awaiting) (p : Nat) (c : Option Nat) : (loopCheck s w p c).waiters.map cz = s.waiters.map cz := by
  simp only [loopCheck]
  split
  · exact cz_register hw hc p
  · exact cz_finishWait h hw hc ha p c

/-- Calls of `wait()` are made; none is cancelled. -/
def CzExt (s s' : St) : Prop := ∃ l : List Bool, (∀ x ∈ l, x = false) ∧ s'.waiters.map cz = s.waiters.map cz ++ l

theorem czExt_eq {s s' : St} (h : s'.waiters.map cz = s.waiters.map cz) : CzExt s s' := ⟨[], by simp, by simp [h]⟩

theorem cz_start {s : St} (hi : Inv s none) (xs : List Spec) : CzExt s (start s xs) := by
  cases hok : okSpecs s xs with
  | false => rw [start_no hok]; exact czExt_eq rfl
  | true =>
    rw [start_eq hi hok]
    refine ⟨((xs.filterMap Spec.target).map (fun t => (⟨t, some s.pipes.length, .fresh, false⟩ : Waiter))).map cz, ?_, ?_⟩
    · intro x hx
      simp only [List.map_map, List.mem_map] at hx
      obtain ⟨t, -, e⟩ := hx
      rw [← e]; rfl
    · simp [started]

theorem cz_step {s : St} (hi : Inv s none) (a : Act) (ha : ∀ w, a ≠ .cancel w) : CzExt s (step s a) := by
  have hf := fw_of_inv hi
  cases a with
  | start xs => exact cz_start hi xs
  | wait p =>
    simp only [step]
    split
    · exact ⟨[false], by simp, by simp [cz]⟩
    · exact czExt_eq rfl
  | resume w =>
    show CzExt s (resume s w)
    cases hw : s.waiters[w]? with
    | none => rw [resume_none hw]; exact czExt_eq rfl
    | some W =>
      rcases resume_cases hw with ⟨h0, h⟩ | ⟨h0, h⟩ | ⟨b, h0, h⟩ | ⟨-, h⟩
      · rw [h]
        refine czExt_eq ?_
        rw [cz_loopCheck (fw_of_inv (inv_enter hi W.pipe)) (by rw [enter_waiters]; exact hw) (by simp [cz, h0]) (by simp [h0]), enter_waiters]
      · rw [h]; exact czExt_eq (cz_loopCheck hf hw (by simp [cz, h0]) (by simp [h0]) _ _)
      · rw [h]
        exact czExt_eq (cz_modify hw (fun W : Waiter => { W with st := .over .cancelled }) (by simp [cz, h0]))
      · rw [h]; exact czExt_eq rfl
  | cancel w => exact absurd rfl (ha w)
  | finish p i o =>
    simp only [step]
    split
    · exact czExt_eq rfl
    · split <;> exact czExt_eq rfl
  | task p i =>
    simp only [step]
    split
    · exact czExt_eq rfl
    · split
      · split
        · exact czExt_eq rfl
        · refine czExt_eq ?_
          rw [cz_handleFinish]
          · rfl
          · intro q w e
            refine hf q w ?_
            simp only [St.modItem, get_modPipe] at e
            split at e
            · cases e2 : s.pipes[q]? with
              | none => rw [e2] at e; cases e
              | some P => rw [e2] at e; exact e
            · exact e
      · exact czExt_eq rfl
  | tstp =>
    simp only [step]
    split
    · exact czExt_eq rfl
    · refine czExt_eq ?_
      rw [cz_resolve]
      · rfl
      · intro q w e
        refine hf q w ?_
        simp only [get_modPipe] at e
        split at e
        · cases e2 : s.pipes[q]? with
          | none => rw [e2] at e; cases e
          | some P => rw [e2] at e; exact e
        · exact e
  | write p i path data =>
    simp only [step]
    split
    · exact czExt_eq rfl
    · split
      · split <;> exact czExt_eq rfl
      · exact czExt_eq rfl
  | restart p => exact czExt_eq rfl
  | suspend p => exact czExt_eq rfl
  | bg =>
    simp only [step]
    split
    · exact czExt_eq rfl
    · rename_i t _
      exact cz_start (inv_restart hi t) []
  | fg =>
    simp only [step]
    split
    · exact czExt_eq rfl
    · exact cz_start hi _
  | removeFiles p => exact czExt_eq rfl

/-- The call is cancelled. -/
def Cz (s : St) (w : Nat) : Prop := ∃ W : Waiter, s.waiters[w]? = some W ∧ cz W = true

theorem cz_iff {s : St} {w : Nat} : Cz s w ↔ (s.waiters.map cz)[w]? = some true := by
  simp only [Cz, List.getElem?_map]
  cases s.waiters[w]? <;> simp

/-- Which calls are cancelled changes by `cancel` only. -/
theorem cz_step_iff {s : St} (hi : Inv s none) (a : Act) (w : Nat) (ha : a ≠ .cancel w) : Cz (step s a) w ↔ Cz s w := by
  by_cases hc : ∃ v, a = .cancel v
  · obtain ⟨v, rfl⟩ := hc
    have hne : v ≠ w := by rintro rfl; exact ha rfl
    show Cz (cancel s v) w ↔ _
    rcases cancel_cases s v with h | ⟨W, b, -, -, -, -, h3⟩
    · rw [h]
    · rw [h3]
      have : (drop s v W.pipe b).waiters[w]? = s.waiters[w]? := by
        show (s.modWaiter v _).waiters[w]? = _
        rw [get_modWaiter, if_neg hne]
      simp only [Cz, this]
  · obtain ⟨l, hl, h⟩ := cz_step hi a (fun v e => hc ⟨v, e⟩)
    rw [cz_iff, cz_iff, h]
    by_cases hlt : w < (s.waiters.map cz).length
    · rw [List.getElem?_append_left hlt]
    · rw [List.getElem?_append_right (by omega), List.getElem?_eq_none (l := s.waiters.map cz) (by omega)]
      constructor
      · intro e; have := hl _ (List.mem_of_getElem? e); cases this
      · intro e; cases e

theorem cz_cancel {s : St} {w : Nat} {W : Waiter} (hw : s.waiters[w]? = some W) : Cz (cancel s w) w ↔ (∀ r, W.st = .over r → r = .cancelled) := by
  rcases cancel_cases s w with h | ⟨W', b, h1, h2, -, -, h3⟩
  · rw [h]
    cases hs : W.st with
    | fresh => simp only [cancel, hw, hs, drop, St.modPipe, St.modWaiter] at h; exact absurd (congrArg (fun s : St => s.waiters[w]?) h) (by simp [hw, hs]; intro e; rw [← e] at hs; cases hs)
    | awaiting => simp only [cancel, hw, hs, drop, St.modPipe, St.modWaiter] at h; exact absurd (congrArg (fun s : St => s.waiters[w]?) h) (by simp [hw, hs]; intro e; rw [← e] at hs; cases hs)
    | woken => simp only [cancel, hw, hs, drop, St.modPipe, St.modWaiter] at h; exact absurd (congrArg (fun s : St => s.waiters[w]?) h) (by simp [hw, hs]; intro e; rw [← e] at hs; cases hs)
    | cancelled b => simp [Cz, hw, cz, hs]
    | over r => cases r <;> simp [Cz, hw, cz, hs]
  · rw [hw] at h1; cases h1
    rw [h3]
    constructor
    · intro _ r e; rw [e] at h2; cases h2
    · intro _
      refine ⟨{ W with st := .cancelled b }, ?_, rfl⟩
      show (s.modWaiter w _).waiters[w]? = _
      rw [get_modWaiter, if_pos rfl, hw]; rfl

end Pieshell.Job
