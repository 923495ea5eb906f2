import Verif.Lemmas.Job
/-! The invariant of running pipelines. -/
namespace Pieshell.Job

def WState.isOver : WState → Bool
  | .over _ => true
  | _ => false

/-- A call of `handle_finish` of pipeline `p` is still to come. -/
def Pend (s : St) (p : Nat) : Prop :=
  (∃ it ∈ itemsOf s.pipes p, (∀ t, it.kind ≠ .fg t) ∧ it.task = .queued ∧ it.state ≠ .raised) ∨
  (∃ (w : Nat) (W : Waiter), s.waiters[w]? = some W ∧ W.cont = some p ∧ W.st.isOver = false)

/-- The last call of `handle_finish` of pipeline `p` does not happen. -/
def Lost (s : St) (p : Nat) : Prop :=
  (∃ (P : Pipe) (i : Nat) (it : Item), s.pipes[p]? = some P ∧ P.lastEnd = some i ∧ P.items[i]? = some it ∧ it.state = .raised) ∨
  (∃ (w : Nat) (W : Waiter) (r : Res), s.waiters[w]? = some W ∧ W.cont = some p ∧ W.st = .over r ∧ r ≠ .ok)

structure Inv (s : St) (x : Option Nat) : Prop where
  ranked : Ranked s.pipes
  wp : ∀ (w : Nat) (W : Waiter), s.waiters[w]? = some W → W.pipe < s.pipes.length ∧ ∀ q, W.cont = some q → q < s.pipes.length ∧ W.pipe < q
  futW : ∀ (p : Nat) (P : Pipe) (w : Nat), s.pipes[p]? = some P → P.fut = some w → ∃ W : Waiter, s.waiters[w]? = some W ∧ W.pipe = p ∧ W.st = .awaiting
  awF : ∀ (w : Nat) (W : Waiter), s.waiters[w]? = some W → W.st = .awaiting → W.shadowed = false →
    ∃ P : Pipe, s.pipes[W.pipe]? = some P ∧ P.fut = some w
  fin : ∀ (p : Nat) (P : Pipe), s.pipes[p]? = some P → P.finished = true → running s.pipes p = false
  finF : ∀ (p : Nat) (P : Pipe), x ≠ some p → s.pipes[p]? = some P → P.finished = true → P.crashed = false → P.fut = none
  cr : ∀ (p : Nat) (P : Pipe), s.pipes[p]? = some P → P.crashed = true → P.finished = true
  bornF : ∀ (p : Nat) (P : Pipe), s.pipes[p]? = some P → P.born = true → P.finished = true
  j1 : ∀ (p : Nat) (P : Pipe), x ≠ some p → s.pipes[p]? = some P → running s.pipes p = false → P.finished = true ∨ Pend s p ∨ Lost s p
  over : ∀ (w : Nat) (W : Waiter) (r : Res), s.waiters[w]? = some W → W.st = .over r →
    (r = .ok → running s.pipes W.pipe = false ∧ failedItems s.pipes W.pipe = []) ∧
    (∀ l : List Nat, r = .failed l → running s.pipes W.pipe = false ∧ failedItems s.pipes W.pipe = l ∧ l ≠ [])
  runl : ∀ p, p ∈ s.running ↔ ∃ P : Pipe, s.pipes[p]? = some P ∧ (P.finished = false ∨ P.crashed = true ∨ P.born = true)
  nodup : s.running.Nodup
  tsk : ∀ p, ∀ it ∈ itemsOf s.pipes p, (∀ t, it.kind ≠ .fg t) → (it.task = .waiting ↔ it.state = .running)
  fgw : ∀ (p : Nat) (it : Item) (t : Nat), it ∈ itemsOf s.pipes p → it.kind = .fg t → ∃ (w : Nat) (W : Waiter), s.waiters[w]? = some W ∧ W.cont = some p ∧ W.pipe = t

/-! ### Frames -/

def kst (it : Item) : Kind × State × Task := (it.kind, it.state, it.task)

structure PV where
  items : List (Kind × State × Task)
  finished : Bool
  crashed : Bool
  fut : Option Nat
  lastEnd : Option Nat
  born : Bool

def pv (P : Pipe) : PV := ⟨P.items.map kst, P.finished, P.crashed, P.fut, P.lastEnd, P.born⟩

theorem skel_of_pv {ps ps' : List Pipe} (h : ps'.map pv = ps.map pv) : skel ps' = skel ps := by
  have : ∀ qs : List Pipe, skel qs = (qs.map pv).map (fun v => v.items.map (fun x => (x.1, x.2.1))) := by
    intro qs
    simp only [skel, List.map_map]
    congr 1
    funext P
    simp [pv, kst, ks, Function.comp_def]
  rw [this, this, h]

theorem get_of_pv {ps ps' : List Pipe} (h : ps'.map pv = ps.map pv) {p : Nat} {P' : Pipe} (hp : ps'[p]? = some P') :
    ∃ P, ps[p]? = some P ∧ pv P' = pv P := by
  have : (ps'[p]?).map pv = (ps[p]?).map pv := by rw [← List.getElem?_map, h, List.getElem?_map]
  rw [hp] at this
  cases e : ps[p]? with
  | none => rw [e] at this; cases this
  | some P => rw [e] at this; simp at this; exact ⟨P, rfl, this⟩

theorem items_of_pv {ps ps' : List Pipe} (h : ps'.map pv = ps.map pv) (p : Nat) :
    (itemsOf ps' p).map kst = (itemsOf ps p).map kst := by
  have : (ps'[p]?).map pv = (ps[p]?).map pv := by rw [← List.getElem?_map, h, List.getElem?_map]
  simp only [itemsOf]
  cases h1 : ps'[p]? <;> cases h2 : ps[p]? <;> rw [h1, h2] at this <;> simp [pv] at this ⊢
  exact this.1

theorem len_of_pv {ps ps' : List Pipe} (h : ps'.map pv = ps.map pv) : ps'.length = ps.length := by
  have := congrArg List.length h; simpa using this

theorem mem_of_kst {l l' : List Item} (h : l'.map kst = l.map kst) {it' : Item} (hm : it' ∈ l') :
    ∃ it ∈ l, it.kind = it'.kind ∧ it.state = it'.state ∧ it.task = it'.task := by
  have : kst it' ∈ l.map kst := by rw [← h]; exact List.mem_map.2 ⟨it', hm, rfl⟩
  obtain ⟨it, hit, e⟩ := List.mem_map.1 this
  simp only [kst, Prod.mk.injEq] at e
  exact ⟨it, hit, e⟩

theorem pend_mono {s s' : St} {p : Nat} (hi : (itemsOf s'.pipes p).map kst = (itemsOf s.pipes p).map kst)
    (hw : ∀ (w : Nat) (W : Waiter), s.waiters[w]? = some W → W.cont = some p → W.st.isOver = false →
      ∃ W' : Waiter, s'.waiters[w]? = some W' ∧ W'.cont = some p ∧ W'.st.isOver = false) (h : Pend s p) : Pend s' p := by
  rcases h with ⟨it, hit, h1, h2, h3⟩ | ⟨w, W, h1, h2, h3⟩
  · obtain ⟨it', hit', e1, e2, e3⟩ := mem_of_kst hi.symm hit
    exact Or.inl ⟨it', hit', by rw [e1]; exact h1, by rw [e3]; exact h2, by rw [e2]; exact h3⟩
  · obtain ⟨W', h4, h5, h6⟩ := hw w W h1 h2 h3
    exact Or.inr ⟨w, W', h4, h5, h6⟩

theorem lost_mono {s s' : St} {p : Nat}
    (hp : ∀ P : Pipe, s.pipes[p]? = some P → ∃ P' : Pipe, s'.pipes[p]? = some P' ∧ P'.lastEnd = P.lastEnd ∧ P'.items.map ks = P.items.map ks)
    (hw : ∀ (w : Nat) (W : Waiter) (r : Res), s.waiters[w]? = some W → W.cont = some p → W.st = .over r →
      ∃ W' : Waiter, s'.waiters[w]? = some W' ∧ W'.cont = some p ∧ W'.st = .over r) (h : Lost s p) : Lost s' p := by
  rcases h with ⟨P, i, it, h1, h2, h3, h4⟩ | ⟨w, W, r, h1, h2, h3, h4⟩
  · obtain ⟨P', h5, h6, h7⟩ := hp P h1
    have h8 : (P'.items[i]?).map ks = (P.items[i]?).map ks := by rw [← List.getElem?_map, h7, List.getElem?_map]
    rw [h3] at h8
    cases e : P'.items[i]? with
    | none => rw [e] at h8; cases h8
    | some it' =>
      rw [e] at h8
      simp [ks] at h8
      exact Or.inl ⟨P', i, it', h5, by rw [h6]; exact h2, e, by rw [h8.2]; exact h4⟩
  · obtain ⟨W', h5, h6, h7⟩ := hw w W r h1 h2 h3
    exact Or.inr ⟨w, W', r, h5, h6, h7, h4⟩

theorem ks_of_kst {l l' : List Item} (h : l'.map kst = l.map kst) : l'.map ks = l.map ks := by
  have : ∀ m : List Item, m.map ks = (m.map kst).map (fun x => (x.1, x.2.1)) := by
    intro m; simp [List.map_map, Function.comp_def, kst, ks]
  rw [this, this, h]

/-- Nothing the invariant speaks about changes. -/
theorem inv_congr {s s' : St} {x : Option Nat} (hi : Inv s x) (hp : s'.pipes.map pv = s.pipes.map pv)
    (hw : s'.waiters = s.waiters) (hr : s'.running = s.running) : Inv s' x := by
  have hsk := skel_of_pv hp
  have hrun := running_congr hsk
  have hlen := len_of_pv hp
  refine ⟨hi.ranked.congr hsk, ?_, ?_, ?_, ?_, ?_, ?_, ?_, ?_, ?_, ?_, by rw [hr]; exact hi.nodup, ?_, ?_⟩
  · rw [hw, hlen]; exact hi.wp
  · intro p P' w h1 h2
    obtain ⟨P, h3, h4⟩ := get_of_pv hp h1
    simp only [pv, PV.mk.injEq] at h4
    rw [hw]
    exact hi.futW p P w h3 (by rw [← h4.2.2.2.1]; exact h2)
  · rw [hw]
    intro w W h1 h2 h3
    obtain ⟨P, h4, h5⟩ := hi.awF w W h1 h2 h3
    obtain ⟨P', h6, h7⟩ := get_of_pv hp.symm h4
    simp only [pv, PV.mk.injEq] at h7
    exact ⟨P', h6, by rw [← h7.2.2.2.1]; exact h5⟩
  · intro p P' h1 h2
    obtain ⟨P, h3, h4⟩ := get_of_pv hp h1
    simp only [pv, PV.mk.injEq] at h4
    rw [hrun]
    exact hi.fin p P h3 (by rw [← h4.2.1]; exact h2)
  · intro p P' hx h1 h2 h2'
    obtain ⟨P, h3, h4⟩ := get_of_pv hp h1
    simp only [pv, PV.mk.injEq] at h4
    rw [h4.2.2.2.1]
    exact hi.finF p P hx h3 (by rw [← h4.2.1]; exact h2) (by rw [← h4.2.2.1]; exact h2')
  · intro p P' h1 h2
    obtain ⟨P, h3, h4⟩ := get_of_pv hp h1
    simp only [pv, PV.mk.injEq] at h4
    rw [h4.2.1]
    exact hi.cr p P h3 (by rw [← h4.2.2.1]; exact h2)
  · intro p P' h1 h2
    obtain ⟨P, h3, h4⟩ := get_of_pv hp h1
    simp only [pv, PV.mk.injEq] at h4
    rw [h4.2.1]
    exact hi.bornF p P h3 (by rw [← h4.2.2.2.2.2]; exact h2)
  · intro p P' hx h1 h2
    obtain ⟨P, h3, h4⟩ := get_of_pv hp h1
    simp only [pv, PV.mk.injEq] at h4
    rw [hrun] at h2
    rcases hi.j1 p P hx h3 h2 with h | h | h
    · exact Or.inl (by rw [h4.2.1]; exact h)
    · exact Or.inr (Or.inl (pend_mono (items_of_pv hp p) (fun w W a b c => ⟨W, by rw [hw]; exact a, b, c⟩) h))
    · refine Or.inr (Or.inr (lost_mono ?_ (fun w W r a b c => ⟨W, by rw [hw]; exact a, b, c⟩) h))
      intro Q hQ
      obtain ⟨Q', h6, h7⟩ := get_of_pv hp.symm hQ
      simp only [pv, PV.mk.injEq] at h7
      exact ⟨Q', h6, h7.2.2.2.2.1.symm, ks_of_kst h7.1.symm⟩
  · rw [hw, hrun]
    intro w W r h1 h2
    have := hi.over w W r h1 h2
    rw [failedItems_congr hsk]
    exact this
  · intro p
    rw [hr, hi.runl]
    constructor
    · rintro ⟨P, h1, h2⟩
      obtain ⟨P', h6, h7⟩ := get_of_pv hp.symm h1
      simp only [pv, PV.mk.injEq] at h7
      exact ⟨P', h6, by rw [← h7.2.1, ← h7.2.2.1, ← h7.2.2.2.2.2]; exact h2⟩
    · rintro ⟨P, h1, h2⟩
      obtain ⟨P', h6, h7⟩ := get_of_pv hp h1
      simp only [pv, PV.mk.injEq] at h7
      exact ⟨P', h6, by rw [← h7.2.1, ← h7.2.2.1, ← h7.2.2.2.2.2]; exact h2⟩
  · intro p it' hit' hk
    obtain ⟨it, hit, e1, e2, e3⟩ := mem_of_kst (items_of_pv hp p) hit'
    rw [← e2, ← e3]
    exact hi.tsk p it hit (by rw [e1]; exact hk)
  · intro p it' t hit' hk
    obtain ⟨it, hit, e1, e2, e3⟩ := mem_of_kst (items_of_pv hp p) hit'
    rw [hw]
    exact hi.fgw p it t hit (by rw [e1]; exact hk)

/-- Pointwise form of a changed pipeline. -/
theorem get_modPipe (s : St) (p q : Nat) (f : Pipe → Pipe) :
    (s.modPipe p f).pipes[q]? = if p = q then (s.pipes[q]?).map f else s.pipes[q]? := by
  simp only [St.modPipe, List.getElem?_modify]
  split <;> simp

theorem get_modWaiter (s : St) (w v : Nat) (f : Waiter → Waiter) :
    (s.modWaiter w f).waiters[v]? = if w = v then (s.waiters[v]?).map f else s.waiters[v]? := by
  simp only [St.modWaiter, List.getElem?_modify]
  split <;> simp

theorem map_modify_same {α β : Type} (g : α → β) (f : α → α) (h : ∀ a, g (f a) = g a) (l : List α) (i : Nat) :
    (l.modify i f).map g = l.map g := by
  apply List.ext_getElem?
  intro j
  simp only [List.getElem?_map, List.getElem?_modify]
  cases l[j]? <;> simp
  split <;> simp [h]

theorem pv_modPipe (s : St) (p : Nat) (f : Pipe → Pipe) (h : ∀ P, pv (f P) = pv P) :
    (s.modPipe p f).pipes.map pv = s.pipes.map pv := map_modify_same pv f h _ _

theorem kst_cont (it : Item) : kst it.cont = kst it := by simp only [Item.cont]; split <;> rfl
theorem kst_stop (it : Item) : kst it.stop = kst it := by simp only [Item.stop]; split <;> rfl

theorem pv_restart (s : St) (p : Nat) : (restart s p).pipes.map pv = s.pipes.map pv :=
  pv_modPipe s p _ (fun P => by simp [pv, List.map_map, Function.comp_def, kst_cont])

theorem pv_suspend (s : St) (p : Nat) : (suspend s p).pipes.map pv = s.pipes.map pv :=
  pv_modPipe s p _ (fun P => by simp [pv, List.map_map, Function.comp_def, kst_stop])

theorem inv_restart {s : St} {x : Option Nat} (hi : Inv s x) (p : Nat) : Inv (restart s p) x :=
  inv_congr hi (pv_restart s p) rfl rfl

theorem inv_suspend {s : St} {x : Option Nat} (hi : Inv s x) (p : Nat) : Inv (suspend s p) x :=
  inv_congr hi (pv_suspend s p) rfl rfl

end Pieshell.Job
