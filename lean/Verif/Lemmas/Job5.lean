import Verif.Lemmas.Job4
/-! Starting pipelines; the invariant holds in all reachable states. -/
namespace Pieshell.Job

theorem okSpecs_target {s : St} {xs : List Spec} (h : okSpecs s xs = true) {x : Spec} (hx : x ∈ xs) {t : Nat}
    (ht : x.target = some t) : t < s.pipes.length := by
  simp only [okSpecs, List.all_eq_true, Bool.and_eq_true] at h
  have := (h x hx).1.1.1.1
  rw [ht] at this
  simpa using this

theorem okSpecs_nofiles {s : St} {xs : List Spec} (h : okSpecs s xs = true) {x : Spec} (hx : x ∈ xs) {t : Nat}
    (ht : x.target = some t) : x.paths = [] := by
  simp only [okSpecs, List.all_eq_true, Bool.and_eq_true] at h
  have := (h x hx).2
  rw [ht] at this
  simpa using this

theorem target_kind {x : Spec} {t : Nat} : x.target = some t ↔ x.kind = .fg t := by
  obtain ⟨k, _, _⟩ := x
  cases k <;> simp [Spec.target]

/-- Nothing is running when the pipeline is started. -/
def bornOf (s : St) (xs : List Spec) : Bool := !(xs.map Spec.item).any (itemRunning (running s.pipes))

def newPipe (s : St) (xs : List Spec) : Pipe := ⟨xs.map Spec.item, false, bornOf s xs, none, false, none, bornOf s xs⟩

/-- The state after a pipeline was started. -/
def started (s : St) (xs : List Spec) : St := { s with
  pipes := s.pipes ++ [newPipe s xs]
  waiters := s.waiters ++ (xs.filterMap Spec.target).map (fun t => (⟨t, some s.pipes.length, .fresh, false⟩ : Waiter))
  fs := addFiles s.fs [] xs
  written := addFiles s.written (s.pipes.length, []) xs
  last := some s.pipes.length
  running := s.running ++ [s.pipes.length] }

theorem ranked_append {s : St} (hr : Ranked s.pipes) {xs : List Spec} (hok : okSpecs s xs = true) (P : Pipe)
    (hP : P.items = xs.map Spec.item) : Ranked (s.pipes ++ [P]) := by
  intro p it t hit hk
  by_cases h : p < s.pipes.length
  · rw [itemsOf_append_left h] at hit; exact hr p it t hit hk
  · by_cases h2 : p = s.pipes.length
    · subst h2
      rw [itemsOf_append_new, hP] at hit
      obtain ⟨x, hx, e⟩ := List.mem_map.1 hit
      subst e
      exact okSpecs_target hok hx (target_kind.2 hk)
    · rw [itemsOf_nil_of_ge (by simp; omega)] at hit
      cases hit

theorem running_new {s : St} (hr : Ranked s.pipes) {xs : List Spec} (hok : okSpecs s xs = true) (P : Pipe)
    (hP : P.items = xs.map Spec.item) : running (s.pipes ++ [P]) s.pipes.length = !bornOf s xs := by
  rw [running_unfold (ranked_append hr hok P hP), itemsOf_append_new, hP, bornOf, Bool.not_not]
  refine any_congr (fun it hit => itemRunning_congr (fun t ht => ?_))
  obtain ⟨x, hx, e⟩ := List.mem_map.1 hit
  subst e
  exact running_append hr _ t (okSpecs_target hok hx (target_kind.2 ht))

theorem born_items {s : St} {xs : List Spec} (hok : okSpecs s xs = true) (h : bornOf s xs = true) :
    ∀ x ∈ xs, (∃ t, x.kind = .fg t) ∧ x.paths = [] := by
  intro x hx
  simp only [bornOf, Bool.not_eq_true', List.any_eq_false] at h
  have := h x.item (List.mem_map.2 ⟨x, hx, rfl⟩)
  cases hk : x.kind with
  | proc => exfalso; apply this; simp [itemRunning, Spec.item, hk]
  | func => exfalso; apply this; simp [itemRunning, Spec.item, hk]
  | fg t => exact ⟨⟨t, rfl⟩, okSpecs_nofiles hok hx (target_kind.2 hk)⟩

theorem readItems_none {fs : Dict Path Io.Bytes} {l : List Item} (h : ∀ it ∈ l, it.strings = []) :
    readItems fs l = (l, true) := by
  induction l with
  | nil => rfl
  | cons it l ih =>
    have h1 := h it (by simp)
    simp only [readItems, h1, readStrings, if_true]
    rw [ih (fun x hx => h x (by simp [hx])), ← h1]

theorem unlinkItems_none {l : List Item} (h : ∀ it ∈ l, it.strings = []) (fs : Dict Path Io.Bytes) :
    unlinkItems fs l = fs := by
  induction l generalizing fs with
  | nil => rfl
  | cons it l ih =>
    have h1 := h it (by simp)
    simp only [unlinkItems, List.foldl_cons, h1, List.foldl_nil]
    exact ih (fun x hx => h x (by simp [hx])) fs

theorem start_no {s : St} {xs : List Spec} (h : okSpecs s xs = false) : start s xs = s := by
  simp [start, h]

theorem start_eq {s : St} {xs : List Spec} (hi : Inv s none) (hok : okSpecs s xs = true) : start s xs = started s xs := by
  have hnot : s.pipes.length ∉ s.running := by
    intro h
    rw [hi.runl] at h
    obtain ⟨P, h, _⟩ := h
    have := lt_of_get h
    omega
  simp only [start, hok, if_true]
  generalize hP : (⟨xs.map Spec.item, false, false, none, false, none, !(xs.map Spec.item).any (itemRunning (running s.pipes))⟩ : Pipe) = P
  have hPi : P.items = xs.map Spec.item := by rw [← hP]
  have hrun := running_new hi.ranked hok P hPi
  have hPf : P.finished = false := by rw [← hP]
  have hPu : P.fut = none := by rw [← hP]
  generalize hS : (⟨s.interactive, s.pipes ++ [P], s.waiters ++ (xs.filterMap Spec.target).map (fun t => (⟨t, some s.pipes.length, .fresh, false⟩ : Waiter)),
    s.current, s.running, s.last, addFiles s.fs [] xs, addFiles s.written (s.pipes.length, []) xs⟩ : St) = S
  have hSp : S.pipes = s.pipes ++ [P] := by rw [← hS]
  have hget : S.pipes[s.pipes.length]? = some P := by rw [hSp]; simp
  rw [← hSp] at hrun
  have hnb : P.born = bornOf s xs := by rw [← hP]; rfl
  cases hb : bornOf s xs with
  | false =>
    rw [hb] at hrun
    have : handleFinish S s.pipes.length = S := by
      simp only [handleFinish, hrun, Bool.not_false, Bool.not_true, Bool.false_and, Bool.false_eq_true, if_false]
      exact resolve_none (by rw [hget]; exact hPu)
    rw [this, ← hS]
    have : P = newPipe s xs := by
      rw [← hP]; simp only [newPipe, hb]
      congr 1
    rw [this]
    rfl
  | true =>
    rw [hb] at hrun
    have hstr : ∀ it ∈ P.items, it.strings = [] := by
      intro it hit
      rw [hPi] at hit
      obtain ⟨x, hx, e⟩ := List.mem_map.1 hit
      have := (born_items hok hb x hx).2
      simp only [Spec.paths, List.append_eq_nil_iff, List.map_eq_nil_iff] at this
      rw [← e]
      exact this.1
    have hitems : itemsOf S.pipes s.pipes.length = P.items := itemsOf_of_get hget
    have hcol : collect S s.pipes.length = { S with pipes := s.pipes ++ [newPipe s xs] } := by
      rw [collect_ok (by rw [hitems, readItems_none hstr]), hitems, readItems_none hstr, unlinkItems_none hstr]
      have h1 : S.running.erase s.pipes.length = S.running := List.erase_of_not_mem (by rw [← hS]; exact hnot)
      have h2 : (S.modPipe s.pipes.length (collectF P.items)).pipes = s.pipes ++ [newPipe s xs] := by
        have : collectF P.items P = newPipe s xs := by
          rw [← hP]; simp only [newPipe, collectF, hb]
          congr 1
        apply List.ext_getElem?
        intro j
        rw [get_modPipe, hSp]
        by_cases hj : s.pipes.length = j
        · subst hj; simp [this]
        · rw [if_neg hj]
          by_cases hlt : j < s.pipes.length
          · rw [List.getElem?_append_left hlt, List.getElem?_append_left hlt]
          · rw [List.getElem?_eq_none (by simp; omega), List.getElem?_eq_none (by simp; omega)]
      have h3 : ∀ T : St, T = S.modPipe s.pipes.length (collectF P.items) → ({ T with fs := S.fs, running := S.running } : St) =
          { S with pipes := s.pipes ++ [newPipe s xs] } := by
        intro T hT
        rw [← h2, ← hT]
        subst hT
        rfl
      rw [h1]
      exact h3 _ rfl
    have : handleFinish S s.pipes.length = { S with pipes := s.pipes ++ [newPipe s xs] } := by
      simp only [handleFinish, hrun, finishedOf_get hget, hPf, hcol]
      simp only [Bool.not_false, Bool.not_true, Bool.and_self, if_true]
      have h1 : (s.pipes ++ [newPipe s xs])[s.pipes.length]? = some (newPipe s xs) := by simp
      have h2 : crashedOf { S with pipes := s.pipes ++ [newPipe s xs] } s.pipes.length = false := by
        simp [crashedOf, newPipe]
      rw [h2]
      simp only [Bool.false_eq_true, if_false]
      exact resolve_none (by rw [h1]; rfl)
    rw [this, ← hS]
    rfl

theorem started_get_old {s : St} {xs : List Spec} {p : Nat} (h : p < s.pipes.length) :
    (started s xs).pipes[p]? = s.pipes[p]? := by
  simp [started, List.getElem?_append_left h]

theorem started_get_new {s : St} {xs : List Spec} : (started s xs).pipes[s.pipes.length]? = some (newPipe s xs) := by
  simp [started]

theorem started_get_ge {s : St} {xs : List Spec} {p : Nat} (h : s.pipes.length < p) : (started s xs).pipes[p]? = none := by
  simp [started]; omega

theorem started_get {s : St} {xs : List Spec} {p : Nat} {P : Pipe} (h : (started s xs).pipes[p]? = some P) :
    s.pipes[p]? = some P ∨ (p = s.pipes.length ∧ P = newPipe s xs) := by
  by_cases h1 : p < s.pipes.length
  · rw [started_get_old h1] at h; exact Or.inl h
  · by_cases h2 : p = s.pipes.length
    · subst h2; rw [started_get_new] at h; cases h; exact Or.inr ⟨rfl, rfl⟩
    · rw [started_get_ge (by omega)] at h; cases h

theorem started_wget_old {s : St} {xs : List Spec} {w : Nat} {W : Waiter} (h : s.waiters[w]? = some W) :
    (started s xs).waiters[w]? = some W := by
  simp only [started]
  rw [List.getElem?_append_left (lt_of_get h)]
  exact h

theorem started_wget {s : St} {xs : List Spec} {w : Nat} {W : Waiter} (h : (started s xs).waiters[w]? = some W) :
    s.waiters[w]? = some W ∨ (s.waiters.length ≤ w ∧ ∃ t, t ∈ xs.filterMap Spec.target ∧ W = ⟨t, some s.pipes.length, .fresh, false⟩) := by
  simp only [started] at h
  by_cases hw : w < s.waiters.length
  · rw [List.getElem?_append_left hw] at h; exact Or.inl h
  · rw [List.getElem?_append_right (by omega)] at h
    have := List.mem_of_getElem? h
    obtain ⟨t, ht, e⟩ := List.mem_map.1 this
    exact Or.inr ⟨by omega, t, ht, e.symm⟩

theorem inv_started {s : St} {xs : List Spec} (hi : Inv s none) (hok : okSpecs s xs = true) : Inv (started s xs) none := by
  have hra : Ranked (started s xs).pipes := ranked_append hi.ranked hok (newPipe s xs) rfl
  have hrn : running (started s xs).pipes s.pipes.length = !bornOf s xs := running_new hi.ranked hok (newPipe s xs) rfl
  have hro : ∀ p, p < s.pipes.length → running (started s xs).pipes p = running s.pipes p := fun p h =>
    running_append hi.ranked _ p h
  have hlen : (started s xs).pipes.length = s.pipes.length + 1 := by simp [started]
  refine ⟨hra, ?_, ?_, ?_, ?_, ?_, ?_, ?_, ?_, ?_, ?_, ?_, ?_, ?_⟩
  · intro w W h
    rcases started_wget h with h | ⟨_, t, ht, e⟩
    · have := hi.wp w W h
      rw [hlen]
      exact ⟨by omega, fun q hq => ⟨by have := (this.2 q hq).1; omega, (this.2 q hq).2⟩⟩
    · subst e
      obtain ⟨x, hx, hxt⟩ := List.mem_filterMap.1 ht
      have := okSpecs_target hok hx hxt
      rw [hlen]
      exact ⟨by simp only; omega, fun q hq => by cases hq; exact ⟨by omega, this⟩⟩
  · intro p P w h1 h2
    rcases started_get h1 with h | ⟨_, e⟩
    · obtain ⟨W, a, b⟩ := hi.futW p P w h h2
      exact ⟨W, started_wget_old a, b⟩
    · subst e; cases h2
  · intro w W h1 h2 h3
    rcases started_wget h1 with h | ⟨_, t, ht, e⟩
    · obtain ⟨P, a, b⟩ := hi.awF w W h h2 h3
      exact ⟨P, by rw [started_get_old (lt_of_get a)]; exact a, b⟩
    · subst e; cases h2
  · intro p P h1 h2
    rcases started_get h1 with h | ⟨e', e⟩
    · rw [hro p (lt_of_get h)]; exact hi.fin p P h h2
    · subst e; subst e'
      rw [hrn]; simp only [newPipe] at h2; rw [h2]; rfl
  · intro p P _ h1 h2 h3
    rcases started_get h1 with h | ⟨_, e⟩
    · exact hi.finF p P (by simp) h h2 h3
    · subst e; rfl
  · intro p P h1 h2
    rcases started_get h1 with h | ⟨_, e⟩
    · exact hi.cr p P h h2
    · subst e; cases h2
  · intro p P h1 h2
    rcases started_get h1 with h | ⟨_, e⟩
    · exact hi.bornF p P h h2
    · subst e; exact h2
  · intro p P _ h1 h2
    rcases started_get h1 with h | ⟨e', e⟩
    · rw [hro p (lt_of_get h)] at h2
      rcases hi.j1 p P (by simp) h h2 with h3 | h3 | h3
      · exact Or.inl h3
      · refine Or.inr (Or.inl (pend_mono (s := s) ?_ (fun w W a b c => ⟨W, started_wget_old a, b, c⟩) h3))
        have : itemsOf (started s xs).pipes p = itemsOf s.pipes p := itemsOf_append_left (lt_of_get h)
        rw [this]
      · refine Or.inr (Or.inr (lost_mono (s := s) ?_ (fun w W r a b c => ⟨W, started_wget_old a, b, c⟩) h3))
        intro Q hQ
        exact ⟨Q, by rw [started_get_old (lt_of_get h)]; exact hQ, rfl, rfl⟩
    · subst e; subst e'
      rw [hrn] at h2
      left
      simpa [newPipe] using h2
  · intro w W r h1 h2
    rcases started_wget h1 with h | ⟨_, t, ht, e⟩
    · have hl := (hi.wp w W h).1
      rw [hro _ hl]
      have : failedItems (started s xs).pipes W.pipe = failedItems s.pipes W.pipe := failedItems_append hi.ranked _ _ hl
      rw [this]
      exact hi.over w W r h h2
    · subst e; cases h2
  · intro p
    show p ∈ s.running ++ [s.pipes.length] ↔ _
    rw [List.mem_append, List.mem_singleton, hi.runl]
    constructor
    · rintro (⟨P, a, b⟩ | e)
      · exact ⟨P, by rw [started_get_old (lt_of_get a)]; exact a, b⟩
      · subst e
        refine ⟨newPipe s xs, started_get_new, ?_⟩
        simp only [newPipe]
        cases bornOf s xs <;> simp
    · rintro ⟨P, a, b⟩
      rcases started_get a with h | ⟨e', _⟩
      · exact Or.inl ⟨P, h, b⟩
      · exact Or.inr e'
  · show (s.running ++ [s.pipes.length]).Nodup
    rw [List.nodup_append]
    refine ⟨hi.nodup, by simp, ?_⟩
    intro a ha b hb
    rw [List.mem_singleton] at hb
    subst hb
    intro e; subst e
    rw [hi.runl] at ha
    obtain ⟨P, h, _⟩ := ha
    have := lt_of_get h
    omega
  · intro p it hit hk
    by_cases h : p < s.pipes.length
    · have : itemsOf (started s xs).pipes p = itemsOf s.pipes p := itemsOf_append_left h
      rw [this] at hit
      exact hi.tsk p it hit hk
    · by_cases h2 : p = s.pipes.length
      · subst h2
        have : itemsOf (started s xs).pipes s.pipes.length = xs.map Spec.item := itemsOf_append_new _ _
        rw [this] at hit
        obtain ⟨x, hx, e⟩ := List.mem_map.1 hit
        subst e
        simp [Spec.item]
      · rw [itemsOf_nil_of_ge (by rw [hlen]; omega)] at hit; cases hit
  · intro p it t hit hk
    by_cases h : p < s.pipes.length
    · have : itemsOf (started s xs).pipes p = itemsOf s.pipes p := itemsOf_append_left h
      rw [this] at hit
      obtain ⟨w, W, a, b⟩ := hi.fgw p it t hit hk
      exact ⟨w, W, started_wget_old a, b⟩
    · by_cases h2 : p = s.pipes.length
      · subst h2
        have : itemsOf (started s xs).pipes s.pipes.length = xs.map Spec.item := itemsOf_append_new _ _
        rw [this] at hit
        obtain ⟨x, hx, e⟩ := List.mem_map.1 hit
        subst e
        have hm : (⟨t, some s.pipes.length, .fresh, false⟩ : Waiter) ∈ (started s xs).waiters := by
          simp only [started, List.mem_append, List.mem_map, List.mem_filterMap]
          right
          exact ⟨t, ⟨x, hx, target_kind.2 hk⟩, rfl⟩
        obtain ⟨w, hw⟩ := List.mem_iff_getElem?.1 hm
        exact ⟨w, _, hw, rfl, rfl⟩
      · rw [itemsOf_nil_of_ge (by rw [hlen]; omega)] at hit; cases hit

theorem inv_start {s : St} (hi : Inv s none) (xs : List Spec) : Inv (start s xs) none := by
  cases h : okSpecs s xs with
  | false => rw [start_no h]; exact hi
  | true => rw [start_eq hi h]; exact inv_started hi h

theorem inv_wait {s : St} (hi : Inv s none) (p : Nat) (hp : p < s.pipes.length) :
    Inv { s with waiters := s.waiters ++ [(⟨p, none, .fresh, false⟩ : Waiter)] } none := by
  have old : ∀ {w : Nat} {W : Waiter}, s.waiters[w]? = some W → (s.waiters ++ [(⟨p, none, .fresh, false⟩ : Waiter)])[w]? = some W := by
    intro w W h
    rw [List.getElem?_append_left (lt_of_get h)]; exact h
  have new : ∀ {w : Nat} {W : Waiter}, (s.waiters ++ [(⟨p, none, .fresh, false⟩ : Waiter)])[w]? = some W →
      s.waiters[w]? = some W ∨ W = ⟨p, none, .fresh, false⟩ := by
    intro w W h
    by_cases hw : w < s.waiters.length
    · rw [List.getElem?_append_left hw] at h; exact Or.inl h
    · rw [List.getElem?_append_right (by omega)] at h
      have := List.mem_of_getElem? h
      rw [List.mem_singleton] at this
      exact Or.inr this
  refine ⟨hi.ranked, ?_, ?_, ?_, hi.fin, hi.finF, hi.cr, hi.bornF, ?_, ?_, hi.runl, hi.nodup, hi.tsk, ?_⟩
  · intro w W h
    rcases new h with h | e
    · exact hi.wp w W h
    · subst e; exact ⟨hp, fun q h => by cases h⟩
  · intro q P w h1 h2
    obtain ⟨W, a, b⟩ := hi.futW q P w h1 h2
    exact ⟨W, old a, b⟩
  · intro w W h1 h2 h3
    rcases new h1 with h | e
    · exact hi.awF w W h h2 h3
    · subst e; cases h2
  · intro q P hx h1 h2
    rcases hi.j1 q P hx h1 h2 with h | h | h
    · exact Or.inl h
    · exact Or.inr (Or.inl (pend_mono (s := s) rfl (fun w W a b c => ⟨W, old a, b, c⟩) h))
    · exact Or.inr (Or.inr (lost_mono (s := s) (fun P h => ⟨P, h, rfl, rfl⟩) (fun w W r a b c => ⟨W, old a, b, c⟩) h))
  · intro w W r h1 h2
    rcases new h1 with h | e
    · exact hi.over w W r h h2
    · subst e; cases h2
  · intro q it t h1 h2
    obtain ⟨w, W, a, b⟩ := hi.fgw q it t h1 h2
    exact ⟨w, W, old a, b⟩

theorem inv_step {s : St} (hi : Inv s none) (a : Act) : Inv (step s a) none := by
  cases a with
  | start xs => exact inv_start hi xs
  | wait p =>
    simp only [step]
    split
    · rename_i h; exact inv_wait hi p h
    · exact hi
  | resume w => exact inv_resume hi w
  | cancel w => exact inv_cancel hi w
  | finish p i o => exact inv_finish hi p i o
  | task p i => exact inv_task hi p i
  | tstp =>
    simp only [step]
    split
    · exact hi
    · rename_i p _
      exact inv_resolve (inv_congr hi (pv_modPipe s p (fun P => { P with suspended := true }) (fun P => rfl)) rfl rfl) _
  | write p i path data =>
    simp only [step]
    split
    · exact hi
    · split
      · split
        · exact inv_congr hi rfl rfl rfl
        · exact hi
      · exact hi
  | restart p => exact inv_restart hi p
  | suspend p => exact inv_suspend hi p
  | bg =>
    simp only [step]
    split
    · exact hi
    · exact inv_start (inv_restart hi _) []
  | fg =>
    simp only [step]
    split
    · exact hi
    · exact inv_start hi _
  | removeFiles p => exact inv_congr hi rfl rfl rfl

theorem inv_init (b : Bool) : Inv (init b) none := by
  constructor <;> simp [init, Ranked, itemsOf, failedItems]

theorem inv_run_from {s : St} (hi : Inv s none) (as : List Act) : Inv (run s as) none := by
  induction as generalizing s with
  | nil => exact hi
  | cons a as ih => exact ih (inv_step hi a)

theorem inv_run (b : Bool) (as : List Act) : Inv (run (init b) as) none := inv_run_from (inv_init b) as

end Pieshell.Job
