import Verif.Lemmas.Job9
namespace Pieshell.Job
open Pieshell.Io (Bytes decode)

/-- The task of an `fg` item waits for the item's target. -/
def ContFg (s : St) : Prop := ∀ (w : Nat) (W : Waiter) (q : Nat), s.waiters[w]? = some W → W.cont = some q →
  ∃ it ∈ itemsOf s.pipes q, it.kind = .fg W.pipe

theorem contFg_ext {s s' : St} (h : ContFg s) (he : Ext s s') (hi : Inv s none)
    (hw : ∀ (w : Nat) (W' : Waiter), s'.waiters[w]? = some W' → W'.cont ≠ none → w < s.waiters.length) : ContFg s' := by
  intro w W' q h1 h2
  have hl := hw w W' h1 (by simp [h2])
  obtain ⟨W, hW⟩ : ∃ W, s.waiters[w]? = some W := ⟨_, List.getElem?_eq_getElem hl⟩
  obtain ⟨W'', h3, h4, h5⟩ := he.waiter w W hW
  rw [h1] at h3; cases h3
  obtain ⟨it, hit, hk⟩ := h w W q hW (by rw [← h5]; exact h2)
  have hlt := ((hi.wp w W hW).2 q (by rw [← h5]; exact h2)).1
  obtain ⟨P', hP', hkf, -, -⟩ := he.pipe q _ (List.getElem?_eq_getElem hlt)
  rw [itemsOf_of_get (List.getElem?_eq_getElem hlt)] at hit
  obtain ⟨jt, hjt, e⟩ := kf_mem hkf.symm hit
  refine ⟨jt, ?_, ?_⟩
  · rw [itemsOf_of_get hP']; exact hjt
  · have := congrArg Prod.fst e
    simp only [kf] at this
    rw [this, hk, h4]

theorem contFg_start {s : St} (h : ContFg s) (hi : Inv s none) (xs : List Spec) : ContFg (start s xs) := by
  cases hok : okSpecs s xs with
  | false => rw [start_no hok]; exact h
  | true =>
    rw [start_eq hi hok]
    intro w W q h1 h2
    rcases started_wget h1 with h3 | ⟨-, t, ht, rfl⟩
    · obtain ⟨it, hit, hk⟩ := h w W q h3 h2
      have hlt := ((hi.wp w W h3).2 q h2).1
      refine ⟨it, ?_, hk⟩
      rw [itemsOf_of_get (started_get_old hlt |>.trans (List.getElem?_eq_getElem hlt))]
      rw [itemsOf_of_get (List.getElem?_eq_getElem hlt)] at hit
      exact hit
    · cases h2
      rw [itemsOf_of_get started_get_new]
      obtain ⟨x, hx, e⟩ := List.mem_filterMap.1 ht
      exact ⟨x.item, List.mem_map_of_mem hx, target_kind.1 e⟩

theorem wlen_resolve (s : St) (p : Nat) : (resolve s p).waiters.length = s.waiters.length := resolve_waiters_length s p

theorem wlen_handleFinish (s : St) (p : Nat) : (handleFinish s p).waiters.length = s.waiters.length := by
  have := congrArg List.length (wv_handleFinish s p); simpa using this

theorem wlen_loopCheck (s : St) (w p : Nat) (c : Option Nat) : (loopCheck s w p c).waiters.length = s.waiters.length := by
  simp only [loopCheck]
  split
  · rw [register_eq]
    simp only [St.modWaiter, St.modPipe, List.length_modify]
    exact (shadow_frame s w p).2.2.2.2.2.2
  · have := congrArg List.length (wv_finishWait s w p c); simpa using this

theorem wlen_resume (s : St) (w : Nat) : (resume s w).waiters.length = s.waiters.length := by
  cases hw : s.waiters[w]? with
  | none => rw [resume_none hw]
  | some W =>
    by_cases h1 : W.st = .fresh
    · rw [resume_fresh hw h1, wlen_loopCheck, enter_waiters]
    · by_cases h2 : W.st = .woken
      · rw [resume_woken hw h2, wlen_loopCheck]
      · rcases resume_cases hw with h | h | ⟨b, -, h⟩ | h
        · exact absurd h.1 h1
        · exact absurd h.1 h2
        · rw [h]; simp [endCancel, St.modWaiter]
        · rw [h.2]

theorem wlen_cancel (s : St) (w : Nat) : (cancel s w).waiters.length = s.waiters.length := by
  rcases cancel_cases s w with h | ⟨W, b, h1, h2, -, -, h3⟩
  · rw [h]
  · rw [h3, (rewire_drop h1 h2 b).wlen]

/-- Only `run` and `wait` add waiters. -/
theorem wlen_step (s : St) (a : Act) (h : a.starts = false) (h' : ∀ p, a ≠ .wait p) :
    (step s a).waiters.length = s.waiters.length := by
  cases a with
  | start xs => cases h
  | bg => cases h
  | fg => cases h
  | wait p => exact absurd rfl (h' p)
  | resume w => exact wlen_resume s w
  | cancel w => exact wlen_cancel s w
  | finish p i o =>
    simp only [step]
    split
    · rfl
    · split <;> rfl
  | task p i =>
    simp only [step]
    split
    · rfl
    · split
      · split
        · rfl
        · rw [wlen_handleFinish]; rfl
      · rfl
  | tstp =>
    simp only [step]
    split
    · rfl
    · rw [wlen_resolve]; rfl
  | write p i path data =>
    simp only [step]
    split
    · rfl
    · split
      · split <;> rfl
      · rfl
  | restart p => rfl
  | suspend p => rfl
  | removeFiles p => rfl

theorem contFg_step {s : St} (hi : Inv s none) (h : ContFg s) (a : Act) : ContFg (step s a) := by
  cases ha : a.starts with
  | true =>
    cases a with
    | start xs => exact contFg_start h hi xs
    | bg =>
      simp only [step]
      split
      · exact h
      · rename_i t _
        refine contFg_start ?_ (inv_restart hi t) _
        exact contFg_ext h (ext_restart s t) hi (fun w W' h1 _ => lt_of_get (show s.waiters[w]? = _ from h1))
    | fg =>
      simp only [step]
      split
      · exact h
      · exact contFg_start h hi _
    | _ => cases ha
  | false =>
    by_cases hw : ∃ p, a = .wait p
    · obtain ⟨p, rfl⟩ := hw
      simp only [step]
      split
      · refine contFg_ext h ⟨fun p P h => ⟨P, h, rfl, rfl, fun h => ⟨h, rfl, rfl⟩⟩, fun w W h => ⟨W, ?_, rfl, rfl⟩⟩ hi ?_
        · exact (List.getElem?_append_left (lt_of_get h)).trans h
        · intro w W' h1 h2
          by_cases hl : w < s.waiters.length
          · exact hl
          · simp only [List.getElem?_append_right (Nat.le_of_not_lt hl)] at h1
            cases hn : w - s.waiters.length with
            | zero => rw [hn] at h1; simp at h1; subst h1; exact absurd rfl h2
            | succ n => rw [hn] at h1; simp at h1
      · exact h
    · refine contFg_ext h (ext_step hi a) hi (fun w W' h1 _ => ?_)
      rw [← wlen_step s a ha (fun p e => hw ⟨p, e⟩)]
      exact lt_of_get h1

theorem contFg_run (b : Bool) (as : List Act) : ContFg (run (init b) as) := by
  suffices ∀ s, Inv s none → ContFg s → ContFg (run s as) from
    this _ (inv_init b) (by intro w W q h; simp [init] at h)
  induction as with
  | nil => exact fun s _ h => h
  | cons a as ih => exact fun s hi h => ih _ (inv_step hi a) (contFg_step hi h a)

/-- Everything known about reachable states. -/
structure Good (s : St) : Prop where
  inv : Inv s none
  files : FInv s
  bare : FgBare s
  sh : Sh s
  bf : BornFg s
  cf : ContFg s

theorem good_run (b : Bool) (as : List Act) : Good (run (init b) as) :=
  ⟨inv_run b as, (full_run b as).2.1, (full_run b as).2.2, sh_run b as, bornFg_run b as, contFg_run b as⟩

theorem decodable_not_crashed {s : St} (h : Good s) {p : Nat} (hd : Decodable s p) : crashedOf s p = false := by
  cases hc : crashedOf s p with
  | false => rfl
  | true =>
    obtain ⟨it, hit, path, hpath, b, hb, hn⟩ := h.files.crash p hc
    obtain ⟨c, hc⟩ := hd it hit path hpath
    simp [bytesOf, hb, hn] at hc

theorem not_shadowed {s : St} {w : Nat} {W : Waiter} (hw : s.waiters[w]? = some W) (ho : ¬ Overtaken s w) : W.shadowed = false := by
  cases hs : W.shadowed with
  | false => rfl
  | true => exact absurd ⟨W, hw, hs⟩ ho

theorem finished_not_awaiting {s : St} (h : Good s) {p : Nat} (hf : finishedOf s p = true) (hd : Decodable s p)
    {w : Nat} {W : Waiter} (ho : ¬ Overtaken s w) (hw : s.waiters[w]? = some W) (hp : W.pipe = p) : W.st ≠ .awaiting := by
  intro ha
  subst hp
  obtain ⟨P, hP, hfut⟩ := h.inv.awF w W hw ha (not_shadowed hw ho)
  have := decodable_not_crashed h hd
  rw [crashedOf_get hP] at this
  rw [finishedOf_get hP] at hf
  rw [h.inv.finF _ P (by simp) hP hf this] at hfut
  cases hfut

/-- Once the loop is idle, a pipeline that does not run has been taken notice of. -/
theorem settled {s : St} (h : Good s) (hq : Quiet s) : ∀ (p : Nat), p < s.pipes.length → ¬ Alive s.pipes p → ¬ Stuck s p →
    (∀ w, FgOf s w p → ¬ Overtaken s w) → (∀ it ∈ itemsOf s.pipes p, ∀ t, it.kind = .fg t → Smooth s t) → finishedOf s p = true := by
  intro p
  induction p using Nat.strongRecOn with
  | ind p ih =>
    intro hlt hna hns hov hsm
    obtain ⟨P, hP⟩ : ∃ P, s.pipes[p]? = some P := ⟨_, List.getElem?_eq_getElem hlt⟩
    have hr : running s.pipes p = false := by
      cases e : running s.pipes p with
      | false => rfl
      | true => exact absurd ((running_iff h.inv.ranked p).1 e) hna
    rcases h.inv.j1 p P (by simp) hP hr with hf | hp | hl
    · rw [finishedOf_get hP]; exact hf
    · exfalso
      rcases hp with ⟨it, hit, -, hqd, -⟩ | ⟨w, W, hw, hc, hno⟩
      · obtain ⟨i, hi⟩ := List.getElem?_of_mem hit
        exact hq (.task p i) ⟨it, hi, hqd⟩
      · obtain ⟨it, hit, hk⟩ := h.cf w W p hw hc
        have hst : W.st = .awaiting := by
          cases hst : W.st with
          | fresh => exact absurd ⟨W, hw, .inl hst⟩ (hq (.resume w))
          | woken => exact absurd ⟨W, hw, .inr (.inl hst)⟩ (hq (.resume w))
          | cancelled b => exact absurd ⟨W, hw, .inr (.inr ⟨b, hst⟩)⟩ (hq (.resume w))
          | awaiting => rfl
          | over r => rw [hst] at hno; cases hno
        have hsm' := hsm it hit W.pipe hk
        have hwp := h.inv.wp w W hw
        obtain ⟨hd, hns', ho⟩ := hsm' _ .refl
        refine finished_not_awaiting h ?_ hd (hov w ⟨W, hw, hc⟩) hw rfl hst
        refine ih W.pipe (hwp.2 p hc).2 hwp.1 (fun ha => hna (.mk hit (.fg hk ha))) hns' ho ?_
        intro jt hjt t hkt q hb
        exact hsm' q (.fg hjt hkt hb)
    · exact absurd hl hns

end Pieshell.Job
