import Verif.Lemmas.Job2
/-! The invariant is kept by the calls of the program. -/
namespace Pieshell.Job

theorem skel_modPipe (s : St) (p : Nat) (f : Pipe → Pipe) (h : ∀ P : Pipe, s.pipes[p]? = some P → (f P).items.map ks = P.items.map ks) :
    skel (s.modPipe p f).pipes = skel s.pipes := by
  apply List.ext_getElem?
  intro j
  simp only [skel, List.getElem?_map, get_modPipe]
  split
  · rename_i e
    subst e
    cases e : s.pipes[p]? with
    | none => simp
    | some P => simp [h P e]
  · rfl

theorem itemsOf_modPipe (s : St) (p q : Nat) (f : Pipe → Pipe) (h : p ≠ q) :
    itemsOf (s.modPipe p f).pipes q = itemsOf s.pipes q := by
  simp [itemsOf, get_modPipe, h]

theorem itemsOf_of_get {ps : List Pipe} {p : Nat} {P : Pipe} (h : ps[p]? = some P) : itemsOf ps p = P.items := by
  simp [itemsOf, h]

theorem lt_of_get {α : Type} {l : List α} {p : Nat} {P : α} (h : l[p]? = some P) : p < l.length := by
  rw [List.getElem?_eq_some_iff] at h
  exact h.1

theorem inv_close {s : St} {p : Nat} (hi : Inv s (some p))
    (h1 : ∀ P : Pipe, s.pipes[p]? = some P → P.finished = true → P.crashed = false → P.fut = none)
    (h2 : ∀ P : Pipe, s.pipes[p]? = some P → running s.pipes p = false → P.finished = true ∨ Pend s p ∨ Lost s p) :
    Inv s none := by
  refine ⟨hi.ranked, hi.wp, hi.futW, hi.awF, hi.fin, ?_, hi.cr, hi.bornF, ?_, hi.over, hi.runl, hi.nodup, hi.tsk, hi.fgw⟩
  · intro q P _ hq
    by_cases e : p = q
    · subst e; exact h1 P hq
    · exact hi.finF q P (by intro h; cases h; exact e rfl) hq
  · intro q P _ hq
    by_cases e : p = q
    · subst e; exact h2 P hq
    · exact hi.j1 q P (by intro h; cases h; exact e rfl) hq

theorem inv_open {s : St} (hi : Inv s none) (x : Option Nat) : Inv s x :=
  ⟨hi.ranked, hi.wp, hi.futW, hi.awF, hi.fin, fun q P _ => hi.finF q P (by simp), hi.cr, hi.bornF,
    fun q P _ => hi.j1 q P (by simp), hi.over, hi.runl, hi.nodup, hi.tsk, hi.fgw⟩

/-! ### Changes of one waiter and one pipeline's future -/

/-- A future is set, replaced or left: pipelines change their `fut` only, waiters their state and `shadowed` only. -/
structure Rewire (s s' : St) : Prop where
  len : s'.pipes.length = s.pipes.length
  get : ∀ (p : Nat) (P' : Pipe), s'.pipes[p]? = some P' → ∃ P : Pipe, s.pipes[p]? = some P ∧ P' = { P with fut := P'.fut }
  running : s'.running = s.running
  wlen : s'.waiters.length = s.waiters.length
  wget : ∀ (w : Nat) (W' : Waiter), s'.waiters[w]? = some W' → ∃ W : Waiter, s.waiters[w]? = some W ∧
    W' = { W with st := W'.st, shadowed := W'.shadowed } ∧ (W'.st.isOver = false → W.st.isOver = false) ∧
    (∀ r, W.st = .over r → W'.st = .over r)

theorem Rewire.skel {s s' : St} (h : Rewire s s') : skel s'.pipes = skel s.pipes := by
  apply List.ext_getElem?
  intro j
  simp only [Pieshell.Job.skel, List.getElem?_map]
  cases e : s'.pipes[j]? with
  | none =>
    have : s.pipes[j]? = none := by rw [List.getElem?_eq_none_iff] at e ⊢; rw [← h.len]; exact e
    simp [this]
  | some P' =>
    obtain ⟨P, h1, h2⟩ := h.get j P' e
    rw [h1, h2]; rfl

theorem Rewire.get' {s s' : St} (h : Rewire s s') {p : Nat} {P : Pipe} (hp : s.pipes[p]? = some P) :
    ∃ P' : Pipe, s'.pipes[p]? = some P' ∧ P' = { P with fut := P'.fut } := by
  cases e : s'.pipes[p]? with
  | none =>
    rw [List.getElem?_eq_none_iff, h.len] at e
    have := lt_of_get hp
    omega
  | some P' =>
    obtain ⟨Q, h1, h2⟩ := h.get p P' e
    rw [hp] at h1; cases h1
    exact ⟨P', rfl, h2⟩

theorem Rewire.wget' {s s' : St} (h : Rewire s s') {w : Nat} {W : Waiter} (hp : s.waiters[w]? = some W) :
    ∃ W' : Waiter, s'.waiters[w]? = some W' ∧ W' = { W with st := W'.st, shadowed := W'.shadowed } ∧
    (W'.st.isOver = false → W.st.isOver = false) ∧ (∀ r, W.st = .over r → W'.st = .over r) := by
  cases e : s'.waiters[w]? with
  | none =>
    rw [List.getElem?_eq_none_iff, h.wlen] at e
    have := lt_of_get hp
    omega
  | some W' =>
    obtain ⟨Q, h1, h2⟩ := h.wget w W' e
    rw [hp] at h1; cases h1
    exact ⟨W', rfl, h2⟩

theorem Rewire.items {s s' : St} (h : Rewire s s') (p : Nat) : itemsOf s'.pipes p = itemsOf s.pipes p := by
  cases e : s'.pipes[p]? with
  | none =>
    rw [List.getElem?_eq_none_iff] at e
    rw [itemsOf_nil_of_ge e, itemsOf_nil_of_ge (by rw [← h.len]; exact e)]
  | some P' =>
    obtain ⟨P, h1, h2⟩ := h.get p P' e
    rw [itemsOf_of_get e, itemsOf_of_get h1, h2]

/-- Which waiters are over does not change: the rest of the invariant is kept. -/
theorem Rewire.inv {s s' : St} {x y : Option Nat} (h : Rewire s s') (hi : Inv s x)
    (futW : ∀ (p : Nat) (P : Pipe) (w : Nat), s'.pipes[p]? = some P → P.fut = some w → ∃ W : Waiter, s'.waiters[w]? = some W ∧ W.pipe = p ∧ W.st = .awaiting)
    (awF : ∀ (w : Nat) (W : Waiter), s'.waiters[w]? = some W → W.st = .awaiting → W.shadowed = false →
      ∃ P : Pipe, s'.pipes[W.pipe]? = some P ∧ P.fut = some w)
    (finF : ∀ (p : Nat) (P : Pipe), y ≠ some p → s'.pipes[p]? = some P → P.finished = true → P.crashed = false → P.fut = none)
    (pend : ∀ (p : Nat), y ≠ some p → Pend s p → Pend s' p ∨ Lost s' p)
    (yx : ∀ p, y ≠ some p → x ≠ some p)
    (over : ∀ (w : Nat) (W : Waiter) (r : Res), s'.waiters[w]? = some W → W.st = .over r →
      (r = .ok → Job.running s.pipes W.pipe = false ∧ failedItems s.pipes W.pipe = []) ∧
      (∀ l : List Nat, r = .failed l → Job.running s.pipes W.pipe = false ∧ failedItems s.pipes W.pipe = l ∧ l ≠ [])) :
    Inv s' y := by
  have hrun := running_congr h.skel
  refine ⟨hi.ranked.congr h.skel, ?_, futW, awF, ?_, finF, ?_, ?_, ?_, ?_, ?_, by rw [h.running]; exact hi.nodup, ?_, ?_⟩
  · intro w W' h1
    obtain ⟨W, h2, h3, _⟩ := h.wget w W' h1
    rw [h3, h.len]
    exact hi.wp w W h2
  · intro p P' h1 h2
    obtain ⟨P, h3, h4⟩ := h.get p P' h1
    rw [h4] at h2
    rw [hrun]; exact hi.fin p P h3 h2
  · intro p P' h1 h2
    obtain ⟨P, h3, h4⟩ := h.get p P' h1
    rw [h4] at h2 ⊢
    exact hi.cr p P h3 h2
  · intro p P' h1 h2
    obtain ⟨P, h3, h4⟩ := h.get p P' h1
    rw [h4] at h2 ⊢
    exact hi.bornF p P h3 h2
  · intro p P' hy h1 h2
    obtain ⟨P, h3, h4⟩ := h.get p P' h1
    rw [hrun] at h2
    rcases hi.j1 p P (yx p hy) h3 h2 with h5 | h5 | h5
    · left; rw [h4]; exact h5
    · exact Or.inr (pend p hy h5)
    · refine Or.inr (Or.inr (lost_mono ?_ ?_ h5))
      · intro Q hQ
        obtain ⟨Q', a, b⟩ := h.get' hQ
        exact ⟨Q', a, by rw [b], by rw [b]⟩
      · intro w W r a b c
        obtain ⟨W', d, e, _, f⟩ := h.wget' a
        exact ⟨W', d, by rw [e]; exact b, f r c⟩
  · intro w W r h1 h2
    have := over w W r h1 h2
    rw [hrun, failedItems_congr h.skel]
    exact this
  · intro p
    rw [h.running, hi.runl]
    constructor
    · rintro ⟨P, a, b⟩
      obtain ⟨P', c, d⟩ := h.get' a
      exact ⟨P', c, by rw [d]; exact b⟩
    · rintro ⟨P', a, b⟩
      obtain ⟨P, c, d⟩ := h.get p P' a
      rw [d] at b
      exact ⟨P, c, b⟩
  · intro p it
    rw [h.items]
    exact hi.tsk p it
  · intro p it t
    rw [h.items]
    intro h1 h2
    obtain ⟨w, W, a, b, c⟩ := hi.fgw p it t h1 h2
    obtain ⟨W', d, e, _⟩ := h.wget' a
    exact ⟨w, W', d, by rw [e]; exact b, by rw [e]; exact c⟩

theorem Rewire.pend {s s' : St} (h : Rewire s s') {p : Nat}
    (hw : ∀ (w : Nat) (W W' : Waiter), s.waiters[w]? = some W → s'.waiters[w]? = some W' → W.cont = some p →
      W.st.isOver = false → W'.st.isOver = false) (hp : Pend s p) : Pend s' p := by
  refine pend_mono (by rw [h.items]) ?_ hp
  intro w W a b c
  obtain ⟨W', d, e, _⟩ := h.wget' a
  exact ⟨W', d, by rw [e]; exact b, hw w W W' a d b c⟩

/-! ### `finish_future.set_result` -/

theorem resolve_none {s : St} {p : Nat} (h : (s.pipes[p]?).bind Pipe.fut = none) : resolve s p = s := by
  simp [resolve, h]

theorem resolve_some {s : St} {p w : Nat} (h : (s.pipes[p]?).bind Pipe.fut = some w) : resolve s p =
    (s.modWaiter w (fun W => { W with st := .woken })).modPipe p (fun P => { P with fut := none }) := by
  simp [resolve, h]

theorem resolve_get {s : St} (p q : Nat) : (resolve s p).pipes[q]? =
    if p = q then (s.pipes[q]?).map (fun P => { P with fut := none }) else s.pipes[q]? := by
  cases h : (s.pipes[p]?).bind Pipe.fut with
  | none =>
    rw [resolve_none h]
    split
    · rename_i e
      subst e
      cases e : s.pipes[p]? with
      | none => rfl
      | some P =>
        rw [e] at h
        obtain ⟨_, _, _, _, _, _, _⟩ := P
        simp at h
        subst h
        simp
    · rfl
  | some w =>
    rw [resolve_some h, get_modPipe]
    rfl

theorem get_resolve {s : St} (p w : Nat) : (resolve s p).waiters[w]? =
    if (s.pipes[p]?).bind Pipe.fut = some w then (s.waiters[w]?).map (fun W => { W with st := .woken }) else s.waiters[w]? := by
  cases h : (s.pipes[p]?).bind Pipe.fut with
  | none => rw [resolve_none h]; simp
  | some v =>
    rw [resolve_some h]
    show (s.modWaiter v _).waiters[w]? = _
    rw [get_modWaiter]
    simp

theorem resolve_frame (s : St) (p : Nat) : (resolve s p).running = s.running ∧ (resolve s p).fs = s.fs ∧
    (resolve s p).last = s.last ∧ (resolve s p).current = s.current ∧ (resolve s p).interactive = s.interactive ∧
    (resolve s p).written = s.written := by
  cases h : (s.pipes[p]?).bind Pipe.fut with
  | none => rw [resolve_none h]; simp
  | some v => rw [resolve_some h]; simp [St.modPipe, St.modWaiter]

theorem resolve_pipes_length (s : St) (p : Nat) : (resolve s p).pipes.length = s.pipes.length := by
  cases h : (s.pipes[p]?).bind Pipe.fut with
  | none => rw [resolve_none h]
  | some v => rw [resolve_some h]; simp [St.modPipe, St.modWaiter]

theorem resolve_waiters_length (s : St) (p : Nat) : (resolve s p).waiters.length = s.waiters.length := by
  cases h : (s.pipes[p]?).bind Pipe.fut with
  | none => rw [resolve_none h]
  | some v => rw [resolve_some h]; simp [St.modPipe, St.modWaiter]

theorem bind_fut_some {s : St} {p w : Nat} (h : (s.pipes[p]?).bind Pipe.fut = some w) :
    ∃ P : Pipe, s.pipes[p]? = some P ∧ P.fut = some w := by
  cases e : s.pipes[p]? with
  | none => rw [e] at h; cases h
  | some P => rw [e] at h; exact ⟨P, rfl, h⟩

theorem rewire_resolve {s : St} {x : Option Nat} (hi : Inv s x) (p : Nat) : Rewire s (resolve s p) := by
  refine ⟨resolve_pipes_length s p, ?_, (resolve_frame s p).1, resolve_waiters_length s p, ?_⟩
  · intro q P' h
    rw [resolve_get] at h
    split at h
    · cases e : s.pipes[q]? with
      | none => rw [e] at h; cases h
      | some P => rw [e] at h; cases h; exact ⟨P, rfl, rfl⟩
    · exact ⟨P', h, rfl⟩
  · intro w W' h
    rw [get_resolve] at h
    split at h
    · rename_i hf
      obtain ⟨P, h1, h2⟩ := bind_fut_some hf
      obtain ⟨W, h3, h4, h5⟩ := hi.futW p P w h1 h2
      rw [h3] at h
      cases h
      exact ⟨W, h3, rfl, fun _ => by rw [h5]; rfl, fun r e => by rw [h5] at e; cases e⟩
    · exact ⟨W', h, rfl, id, fun r e => e⟩

theorem inv_resolve {s : St} {x : Option Nat} (hi : Inv s x) (p : Nat) : Inv (resolve s p) x := by
  have hre := rewire_resolve hi p
  refine hre.inv hi ?_ ?_ ?_ ?_ (fun _ h => h) ?_
  · intro q Q' w h1 h2
    rw [resolve_get] at h1
    split at h1
    · cases e : s.pipes[q]? with
      | none => rw [e] at h1; cases h1
      | some P => rw [e] at h1; cases h1; cases h2
    · rename_i hne
      obtain ⟨W, h3, h4, h5⟩ := hi.futW q Q' w h1 h2
      refine ⟨W, ?_, h4, h5⟩
      rw [get_resolve, if_neg]
      · exact h3
      · intro hf
        obtain ⟨P, h6, h7⟩ := bind_fut_some hf
        obtain ⟨W2, h8, h9, _⟩ := hi.futW p P w h6 h7
        rw [h3] at h8
        cases h8
        exact hne (by rw [← h9, h4])
  · intro w W' h1 h2 h3
    rw [get_resolve] at h1
    split at h1
    · cases e : s.waiters[w]? with
      | none => rw [e] at h1; cases h1
      | some W => rw [e] at h1; cases h1; cases h2
    · rename_i hf
      obtain ⟨P, h4, h5⟩ := hi.awF w W' h1 h2 h3
      refine ⟨P, ?_, h5⟩
      rw [resolve_get, if_neg]
      · exact h4
      · intro e
        rw [e, h4] at hf
        exact hf h5
  · intro q Q' hx h1 h2 h3
    rw [resolve_get] at h1
    split at h1
    · cases e : s.pipes[q]? with
      | none => rw [e] at h1; cases h1
      | some P => rw [e] at h1; cases h1; rfl
    · exact hi.finF q Q' hx h1 h2 h3
  · intro q _ hp
    refine Or.inl (hre.pend ?_ hp)
    intro w W W' h1 h2 _ h4
    rw [get_resolve] at h2
    split at h2
    · rw [h1] at h2; cases h2; rfl
    · rw [h1] at h2; cases h2; exact h4
  · intro w W' r h1 h2
    rw [get_resolve] at h1
    split at h1
    · cases e : s.waiters[w]? with
      | none => rw [e] at h1; cases h1
      | some W => rw [e] at h1; cases h1; cases h2
    · exact hi.over w W' r h1 h2

/-! ### Collecting the output -/

theorem readItems_kst (fs : Dict Path Io.Bytes) (items : List Item) : (readItems fs items).1.map kst = items.map kst := by
  induction items with
  | nil => rfl
  | cons it l ih =>
    simp only [readItems]
    split <;> simp [kst] at *
    exact ih

def collectF (items : List Item) (P : Pipe) : Pipe := { P with finished := true, items := items }
def collectC (items : List Item) (P : Pipe) : Pipe := { P with finished := true, items := items, crashed := true }

theorem collect_ok {s : St} {p : Nat} (h : (readItems s.fs (itemsOf s.pipes p)).2 = true) : collect s p =
    { s.modPipe p (collectF (readItems s.fs (itemsOf s.pipes p)).1) with
      fs := unlinkItems s.fs (itemsOf s.pipes p), running := s.running.erase p } := by
  simp only [collect, h, if_true]; rfl

theorem collect_crash {s : St} {p : Nat} (h : (readItems s.fs (itemsOf s.pipes p)).2 = false) : collect s p =
    s.modPipe p (collectC (readItems s.fs (itemsOf s.pipes p)).1) := by
  simp only [collect, h]; rfl

theorem collect_get {s : St} {p q : Nat} : (collect s p).pipes[q]? =
    if p = q then (s.pipes[q]?).map (fun P => { P with finished := true, items := (readItems s.fs (itemsOf s.pipes p)).1, crashed := P.crashed || !(readItems s.fs (itemsOf s.pipes p)).2 })
    else s.pipes[q]? := by
  cases h : (readItems s.fs (itemsOf s.pipes p)).2 with
  | true =>
    rw [collect_ok h]
    show (s.modPipe p _).pipes[q]? = _
    rw [get_modPipe]
    simp
    rfl
  | false =>
    rw [collect_crash h, get_modPipe]
    simp
    rfl

theorem collect_waiters (s : St) (p : Nat) : (collect s p).waiters = s.waiters := by
  simp only [collect]; split <;> rfl

theorem collect_running (s : St) (p : Nat) : (collect s p).running =
    if (readItems s.fs (itemsOf s.pipes p)).2 then s.running.erase p else s.running := by
  simp only [collect]; split <;> rfl

theorem collect_length (s : St) (p : Nat) : (collect s p).pipes.length = s.pipes.length := by
  simp only [collect]; split <;> simp [St.modPipe]

theorem collect_items (s : St) (p q : Nat) : (itemsOf (collect s p).pipes q).map kst = (itemsOf s.pipes q).map kst := by
  simp only [itemsOf, collect_get]
  split
  · rename_i e
    subst e
    cases e : s.pipes[p]? with
    | none => rfl
    | some P => simp [readItems_kst, itemsOf, e]
  · rfl

theorem skel_of_items {ps ps' : List Pipe} (hl : ps'.length = ps.length)
    (h : ∀ q, (itemsOf ps' q).map ks = (itemsOf ps q).map ks) : skel ps' = skel ps := by
  apply List.ext_getElem?
  intro j
  have hj := h j
  rw [← skel_get, ← skel_get] at hj
  cases e : (skel ps')[j]? with
  | none =>
    rw [List.getElem?_eq_none_iff, length_skel, hl] at e
    symm
    rw [List.getElem?_eq_none_iff, length_skel]; exact e
  | some x =>
    have := lt_of_get e
    rw [length_skel, hl, ← length_skel] at this
    rw [List.getElem?_eq_getElem this]
    rw [e, List.getElem?_eq_getElem this] at hj
    simpa using hj

theorem collect_skel (s : St) (p : Nat) : skel (collect s p).pipes = skel s.pipes :=
  skel_of_items (collect_length s p) (fun q => ks_of_kst (collect_items s p q))

theorem inv_collect {s : St} {p : Nat} (hi : Inv s (some p)) (hr : running s.pipes p = false)
    (hf : ∀ P : Pipe, s.pipes[p]? = some P → P.finished = false) : Inv (collect s p) (some p) := by
  have hsk := collect_skel s p
  have hrun := running_congr hsk
  have hget : ∀ (q : Nat) (P' : Pipe), (collect s p).pipes[q]? = some P' → ∃ P : Pipe, s.pipes[q]? = some P ∧
      P'.fut = P.fut ∧ P'.lastEnd = P.lastEnd ∧ P'.born = P.born ∧ (q ≠ p → P' = P) ∧
      (q = p → P'.finished = true ∧ (P'.crashed = true ↔ (readItems s.fs (itemsOf s.pipes p)).2 = false)) := by
    intro q P' h
    rw [collect_get] at h
    split at h
    · rename_i e
      subst e
      cases e : s.pipes[p]? with
      | none => rw [e] at h; cases h
      | some P =>
        rw [e] at h; cases h
        refine ⟨P, rfl, rfl, rfl, rfl, fun h => absurd rfl h, fun _ => ⟨rfl, ?_⟩⟩
        have : P.crashed = false := by
          cases hc : P.crashed with
          | false => rfl
          | true => have := hi.cr p P e hc; rw [hf P e] at this; cases this
        simp [this]
    · rename_i e
      exact ⟨P', h, rfl, rfl, rfl, fun _ => rfl, fun e' => absurd e'.symm e⟩
  refine ⟨hi.ranked.congr hsk, ?_, ?_, ?_, ?_, ?_, ?_, ?_, ?_, ?_, ?_, ?_, ?_, ?_⟩
  · rw [collect_waiters, collect_length]; exact hi.wp
  · intro q P' w h1 h2
    obtain ⟨P, a, b, _⟩ := hget q P' h1
    rw [collect_waiters]
    exact hi.futW q P w a (by rw [← b]; exact h2)
  · rw [collect_waiters]
    intro w W h1 h2 h3
    obtain ⟨P, a, b⟩ := hi.awF w W h1 h2 h3
    have hl := lt_of_get a
    rw [← collect_length s p] at hl
    obtain ⟨P', hP'⟩ : ∃ P', (collect s p).pipes[W.pipe]? = some P' := ⟨_, List.getElem?_eq_getElem hl⟩
    obtain ⟨P2, c, d, _⟩ := hget _ _ hP'
    rw [a] at c; cases c
    exact ⟨P', hP', by rw [d]; exact b⟩
  · intro q P' h1 h2
    rw [hrun]
    obtain ⟨P, a, b, c, d, e, f⟩ := hget q P' h1
    by_cases hq : q = p
    · rw [hq]; exact hr
    · exact hi.fin q P a (by rw [← e hq]; exact h2)
  · intro q P' hx h1 h2 h3
    obtain ⟨P, a, b, c, d, e, f⟩ := hget q P' h1
    have hq : q ≠ p := fun h => hx (by rw [h])
    rw [e hq] at h2 h3 ⊢
    exact hi.finF q P hx a h2 h3
  · intro q P' h1 h2
    obtain ⟨P, a, b, c, d, e, f⟩ := hget q P' h1
    by_cases hq : q = p
    · exact (f hq).1
    · rw [e hq] at h2 ⊢; exact hi.cr q P a h2
  · intro q P' h1 h2
    obtain ⟨P, a, b, c, d, e, f⟩ := hget q P' h1
    by_cases hq : q = p
    · exact (f hq).1
    · rw [e hq] at h2 ⊢; exact hi.bornF q P a h2
  · intro q P' hx h1 h2
    obtain ⟨P, a, b, c, d, e, f⟩ := hget q P' h1
    have hq : q ≠ p := fun h => hx (by rw [h])
    rw [hrun] at h2
    rcases hi.j1 q P hx a h2 with h | h | h
    · left; rw [e hq]; exact h
    · exact Or.inr (Or.inl (pend_mono (collect_items s p q) (fun w W a b c => ⟨W, by rw [collect_waiters]; exact a, b, c⟩) h))
    · refine Or.inr (Or.inr (lost_mono ?_ (fun w W r a b c => ⟨W, by rw [collect_waiters]; exact a, b, c⟩) h))
      intro Q hQ
      rw [a] at hQ; cases hQ
      exact ⟨P', h1, by rw [e hq], by rw [e hq]⟩
  · rw [collect_waiters, hrun]
    intro w W r h1 h2
    rw [failedItems_congr hsk]
    exact hi.over w W r h1 h2
  · intro q
    have hmem : q ∈ (collect s p).running ↔ (q ∈ s.running ∧ (q = p → (readItems s.fs (itemsOf s.pipes p)).2 = false)) := by
      rw [collect_running]
      split
      · rename_i hh
        rw [hi.nodup.mem_erase_iff]
        constructor
        · rintro ⟨h1, h2⟩; exact ⟨h2, fun e => absurd e h1⟩
        · rintro ⟨h1, h2⟩
          refine ⟨fun e => ?_, h1⟩
          rw [h2 e] at hh; cases hh
      · rename_i hh
        simp only [Bool.not_eq_true] at hh
        simp [hh]
    rw [hmem, hi.runl]
    constructor
    · rintro ⟨⟨P, a, b⟩, hh⟩
      have hl := lt_of_get a
      rw [← collect_length s p] at hl
      obtain ⟨P', hP'⟩ : ∃ P', (collect s p).pipes[q]? = some P' := ⟨_, List.getElem?_eq_getElem hl⟩
      obtain ⟨P2, a2, b2, c2, d2, e2, f2⟩ := hget _ _ hP'
      rw [a] at a2; cases a2
      refine ⟨P', hP', ?_⟩
      by_cases hq : q = p
      · exact Or.inr (Or.inl ((f2 hq).2.2 (hh hq)))
      · rw [e2 hq]; exact b
    · rintro ⟨P', hP', b⟩
      obtain ⟨P, a2, b2, c2, d2, e2, f2⟩ := hget _ _ hP'
      by_cases hq : q = p
      · subst hq
        refine ⟨⟨P, a2, Or.inl (hf P a2)⟩, fun _ => ?_⟩
        rcases b with b | b | b
        · rw [(f2 rfl).1] at b; cases b
        · exact (f2 rfl).2.1 b
        · rw [d2] at b
          have := hi.bornF q P a2 b
          rw [hf P a2] at this; cases this
      · rw [e2 hq] at b
        exact ⟨⟨P, a2, b⟩, fun h => absurd h hq⟩
  · rw [collect_running]
    split
    · exact hi.nodup.erase p
    · exact hi.nodup
  · intro q it' hit' hk
    obtain ⟨it, hit, e1, e2, e3⟩ := mem_of_kst (collect_items s p q) hit'
    rw [← e2, ← e3]
    exact hi.tsk q it hit (by rw [e1]; exact hk)
  · intro q it' t hit' hk
    obtain ⟨it, hit, e1, e2, e3⟩ := mem_of_kst (collect_items s p q) hit'
    rw [collect_waiters]
    exact hi.fgw q it t hit (by rw [e1]; exact hk)

theorem crashedOf_get {s : St} {p : Nat} {P : Pipe} (h : s.pipes[p]? = some P) : crashedOf s p = P.crashed := by
  simp [crashedOf, h]
theorem finishedOf_get {s : St} {p : Nat} {P : Pipe} (h : s.pipes[p]? = some P) : finishedOf s p = P.finished := by
  simp [finishedOf, h]
theorem suspendedOf_get {s : St} {p : Nat} {P : Pipe} (h : s.pipes[p]? = some P) : suspendedOf s p = P.suspended := by
  simp [suspendedOf, h]

/-- `handle_finish` restores the invariant for its pipeline. -/
theorem inv_handleFinish {s : St} {p : Nat} (hi : Inv s (some p)) : Inv (handleFinish s p) none := by
  simp only [handleFinish]
  split
  · rename_i hc
    simp only [Bool.and_eq_true, Bool.not_eq_true'] at hc
    have hfin : ∀ P : Pipe, s.pipes[p]? = some P → P.finished = false := by
      intro P hP
      rw [← finishedOf_get hP]; exact hc.2
    have hic := inv_collect hi hc.1 hfin
    have hft : ∀ P' : Pipe, (collect s p).pipes[p]? = some P' → P'.finished = true := by
      intro P' h
      rw [collect_get, if_pos rfl] at h
      cases e : s.pipes[p]? with
      | none => rw [e] at h; cases h
      | some P => rw [e] at h; cases h; rfl
    split
    · rename_i hcr
      refine inv_close hic ?_ (fun P hP _ => Or.inl (hft P hP))
      intro P hP _ h2
      rw [crashedOf_get hP, h2] at hcr; cases hcr
    · refine inv_close (inv_resolve hic p) ?_ ?_
      · intro P hP _ _
        rw [resolve_get, if_pos rfl] at hP
        cases e : (collect s p).pipes[p]? with
        | none => rw [e] at hP; cases hP
        | some Q => rw [e] at hP; cases hP; rfl
      · intro P hP _
        rw [resolve_get, if_pos rfl] at hP
        cases e : (collect s p).pipes[p]? with
        | none => rw [e] at hP; cases hP
        | some Q => rw [e] at hP; cases hP; exact Or.inl (hft Q e)
  · rename_i hc
    refine inv_close (inv_resolve hi p) ?_ ?_
    · intro P hP _ _
      rw [resolve_get, if_pos rfl] at hP
      cases e : s.pipes[p]? with
      | none => rw [e] at hP; cases hP
      | some Q => rw [e] at hP; cases hP; rfl
    · intro P hP hr
      rw [running_congr (rewire_resolve hi p).skel] at hr
      rw [resolve_get, if_pos rfl] at hP
      cases e : s.pipes[p]? with
      | none => rw [e] at hP; cases hP
      | some Q =>
        rw [e] at hP; cases hP
        left
        rw [hr, finishedOf_get e] at hc
        simpa using hc

end Pieshell.Job
