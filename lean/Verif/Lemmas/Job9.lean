import Verif.Lemmas.Job8
import Verif.Spec.Job
/-! Running pipelines: the specification's notions, lost futures, and the end of the loop's work. -/
namespace Pieshell.Job
open Pieshell.Io (Bytes)

/-! ### Alive and broken -/

theorem itemRunning_iff {f : Nat → Bool} {it : Item} : itemRunning f it = true ↔
    ((it.kind = .proc ∨ it.kind = .func) ∧ it.state = .running) ∨ ∃ t, it.kind = .fg t ∧ f t = true := by
  obtain ⟨k, st, _, _, _, _, _⟩ := it
  cases k <;> simp [itemRunning]

theorem itemFailed_iff {f : Nat → Bool} {it : Item} : itemFailed f it = true ↔
    (it.kind = .proc ∧ ∃ c, it.state = .exited c ∧ c ≠ 0) ∨ (it.kind = .func ∧ it.state = .raised) ∨ ∃ t, it.kind = .fg t ∧ f t = true := by
  obtain ⟨k, st, _, _, _, _, _⟩ := it
  cases k <;> cases st <;> simp [itemFailed]

theorem running_iff {ps : List Pipe} (hr : Ranked ps) (p : Nat) : running ps p = true ↔ Alive ps p := by
  induction p using Nat.strongRecOn with
  | ind p ih =>
    rw [running_unfold hr, List.any_eq_true]
    constructor
    · rintro ⟨it, a, b⟩
      rcases itemRunning_iff.1 b with ⟨c, d⟩ | ⟨t, c, d⟩
      · exact .mk a (.own c d)
      · exact .mk a (.fg c ((ih t (hr p it t a c)).1 d))
    · intro h
      cases h with
      | mk a b =>
        rename_i it
        refine ⟨it, a, itemRunning_iff.2 ?_⟩
        cases b with
        | own c d => exact Or.inl ⟨c, d⟩
        | fg c d => exact Or.inr ⟨_, c, (ih _ (hr p it _ a c)).2 d⟩

theorem itemRunning_alive {ps : List Pipe} (hr : Ranked ps) (it : Item) : itemRunning (running ps) it = true ↔ ItemAlive ps it := by
  rw [itemRunning_iff]
  constructor
  · rintro (⟨c, d⟩ | ⟨t, c, d⟩)
    · exact .own c d
    · exact .fg c ((running_iff hr t).1 d)
  · intro h
    cases h with
    | own c d => exact Or.inl ⟨c, d⟩
    | fg c d => exact Or.inr ⟨_, c, (running_iff hr _).2 d⟩

theorem not_alive_items {ps : List Pipe} {p : Nat} (h : ¬ Alive ps p) : ∀ it ∈ itemsOf ps p, ¬ ItemAlive ps it :=
  fun _ hit ha => h (.mk hit ha)

theorem isFailed_iff {ps : List Pipe} (hr : Ranked ps) (p : Nat) (h : ¬ Alive ps p) : isFailed ps p = true ↔ Broken ps p := by
  induction p using Nat.strongRecOn with
  | ind p ih =>
    rw [isFailed_unfold hr, List.any_eq_true]
    have hn := not_alive_items h
    constructor
    · rintro ⟨it, a, b⟩
      simp only [Bool.and_eq_true, Bool.not_eq_true'] at b
      rcases itemFailed_iff.1 b.2 with ⟨c, x, d, e⟩ | ⟨c, d⟩ | ⟨t, c, d⟩
      · exact .mk a (.exit c d e)
      · exact .mk a (.raise c d)
      · exact .mk a (.fg c ((ih t (hr p it t a c) (fun ha => hn it a (.fg c ha))).1 d))
    · intro h
      cases h with
      | mk a b =>
        rename_i it
        refine ⟨it, a, ?_⟩
        simp only [Bool.and_eq_true, Bool.not_eq_true']
        constructor
        · cases e : itemRunning (running ps) it with
          | false => rfl
          | true => exact absurd ((itemRunning_alive hr it).1 e) (hn it a)
        · rw [itemFailed_iff]
          cases b with
          | exit c d e => exact Or.inl ⟨c, _, d, e⟩
          | raise c d => exact Or.inr (Or.inl ⟨c, d⟩)
          | fg c d => exact Or.inr (Or.inr ⟨_, c, (ih _ (hr p it _ a c) (fun ha => hn it a (.fg c ha))).2 d⟩)

/-- The verdict on an item. -/
theorem bad_iff {ps : List Pipe} (hr : Ranked ps) (it : Item) : bad ps it = true ↔ ¬ ItemAlive ps it ∧ ItemBroken ps it := by
  simp only [bad, Bool.and_eq_true, Bool.not_eq_true']
  have h1 : itemRunning (running ps) it = false ↔ ¬ ItemAlive ps it := by
    rw [← itemRunning_alive hr]; simp
  rw [h1]
  refine and_congr_right (fun hn => ?_)
  rw [itemFailed_iff]
  constructor
  · rintro (⟨c, x, d, e⟩ | ⟨c, d⟩ | ⟨t, c, d⟩)
    · exact .exit c d e
    · exact .raise c d
    · exact .fg c ((isFailed_iff hr t (fun ha => hn (.fg c ha))).1 d)
  · intro b
    cases b with
    | exit c d e => exact Or.inl ⟨c, _, d, e⟩
    | raise c d => exact Or.inr (Or.inl ⟨c, d⟩)
    | fg c d => exact Or.inr (Or.inr ⟨_, c, (isFailed_iff hr _ (fun ha => hn (.fg c ha))).2 d⟩)

theorem mem_failedItems {ps : List Pipe} (hr : Ranked ps) (p i : Nat) : i ∈ failedItems ps p ↔
    ∃ it, (itemsOf ps p)[i]? = some it ∧ ¬ ItemAlive ps it ∧ ItemBroken ps it := by
  rw [failedItems_eq, List.mem_filter, List.mem_range]
  constructor
  · rintro ⟨h, h2⟩
    rw [List.getElem?_eq_getElem h] at h2 ⊢
    simp only [Option.map_some, Option.getD_some] at h2
    exact ⟨_, rfl, (bad_iff hr _).1 h2⟩
  · rintro ⟨it, h, h2⟩
    refine ⟨lt_of_get h, ?_⟩
    rw [h]
    simpa using (bad_iff hr it).2 h2

theorem failedItems_sorted (ps : List Pipe) (p : Nat) : (failedItems ps p).Pairwise (· < ·) := by
  rw [failedItems_eq]
  exact List.Pairwise.filter _ List.pairwise_lt_range

/-! ### Lost futures -/

def wv (W : Waiter) : Nat × Bool := (W.pipe, W.shadowed)

/-- A future was replaced only by another `wait()` of the same pipeline. -/
def Sh (s : St) : Prop := ∀ (w : Nat) (W : Waiter), s.waiters[w]? = some W → W.shadowed = true →
  ∃ (v : Nat) (V : Waiter), v ≠ w ∧ s.waiters[v]? = some V ∧ V.pipe = W.pipe

theorem sh_congr {s s' : St} (h : s'.waiters.map wv = s.waiters.map wv) (hs : Sh s) : Sh s' := by
  have key : ∀ (l l' : List Waiter), l'.map wv = l.map wv → ∀ (w : Nat) (W : Waiter), l'[w]? = some W →
      ∃ V : Waiter, l[w]? = some V ∧ V.pipe = W.pipe ∧ V.shadowed = W.shadowed := by
    intro l l' h w W hw
    have : (l'[w]?).map wv = (l[w]?).map wv := by rw [← List.getElem?_map, h, List.getElem?_map]
    rw [hw] at this
    cases e : l[w]? with
    | none => rw [e] at this; cases this
    | some V =>
      rw [e] at this
      simp [wv] at this
      exact ⟨V, rfl, this.1.symm, this.2.symm⟩
  intro w W hw hsh
  obtain ⟨V, a, b, c⟩ := key _ _ h w W hw
  obtain ⟨u, U, d, e, f⟩ := hs w V a (by rw [c]; exact hsh)
  obtain ⟨U', g, h', _⟩ := key _ _ h.symm u U e
  exact ⟨u, U', d, g, by rw [h', f, b]⟩

theorem wv_resolve (s : St) (p : Nat) : (resolve s p).waiters.map wv = s.waiters.map wv := by
  cases h : (s.pipes[p]?).bind Pipe.fut with
  | none => rw [resolve_none h]
  | some w =>
    rw [resolve_some h]
    exact map_modify_same wv (fun W : Waiter => { W with st := .woken }) (fun W => rfl) _ _

theorem wv_handleFinish (s : St) (p : Nat) : (handleFinish s p).waiters.map wv = s.waiters.map wv := by
  simp only [handleFinish]
  split
  · split
    · rw [collect_waiters]
    · rw [wv_resolve, collect_waiters]
  · exact wv_resolve s p

theorem wv_endWait (s : St) (w p : Nat) : (endWait s w p).waiters.map wv = s.waiters.map wv := by
  rw [endWait_waiters]
  exact map_modify_same wv (fun W : Waiter => { W with st := .over (result s p) }) (fun W => rfl) _ _

theorem wv_finishWait (s : St) (w p : Nat) (c : Option Nat) : (finishWait s w p c).waiters.map wv = s.waiters.map wv := by
  rw [finishWait_eq]
  split
  · split
    · rw [wv_handleFinish, wv_endWait]
    · exact wv_endWait s w p
  · exact wv_endWait s w p

theorem sh_register {s : St} (hi : Inv s none) {w : Nat} {W : Waiter} (hw : s.waiters[w]? = some W) (hs : Sh s) :
    Sh (register s w W.pipe) := by
  have he := ext_register s w W.pipe
  intro v V' hv hsh
  rw [get_register] at hv
  split at hv
  · rename_i e; subst e
    rw [hw] at hv; cases hv
    obtain ⟨u, U, a, b, c⟩ := hs w W hw hsh
    obtain ⟨U', d, e, _⟩ := he.waiter u U b
    exact ⟨u, U', a, d, by rw [e, c]⟩
  · rename_i hne
    split at hv
    · rename_i hf
      cases e : s.waiters[v]? with
      | none => rw [e] at hv; cases hv
      | some V =>
        rw [e] at hv; cases hv
        obtain ⟨P, a, b⟩ := bind_fut_some hf
        obtain ⟨V2, c, d, _⟩ := hi.futW _ P v a b
        rw [e] at c; cases c
        obtain ⟨W', f, g, _⟩ := he.waiter w W hw
        exact ⟨w, W', hne, f, by rw [g, ← d]⟩
    · obtain ⟨u, U, a, b, c⟩ := hs v V' hv hsh
      obtain ⟨U', d, e, _⟩ := he.waiter u U b
      exact ⟨u, U', a, d, by rw [e, c]⟩

theorem sh_loopCheck {s : St} (hi : Inv s none) {w : Nat} {W : Waiter} (hw : s.waiters[w]? = some W) (hs : Sh s) :
    Sh (loopCheck s w W.pipe W.cont) := by
  simp only [loopCheck]
  split
  · exact sh_register hi hw hs
  · exact sh_congr (wv_finishWait s w _ _) hs

theorem sh_append {s s' : St} {l : List Waiter} (h : s'.waiters = s.waiters ++ l) (hl : ∀ W ∈ l, W.shadowed = false) (hs : Sh s) : Sh s' := by
  intro w W hw hsh
  rw [h] at hw ⊢
  by_cases hlt : w < s.waiters.length
  · rw [List.getElem?_append_left hlt] at hw
    obtain ⟨u, U, a, b, c⟩ := hs w W hw hsh
    exact ⟨u, U, a, by rw [List.getElem?_append_left (lt_of_get b)]; exact b, c⟩
  · rw [List.getElem?_append_right (by omega)] at hw
    rw [hl W (List.mem_of_getElem? hw)] at hsh; cases hsh

theorem sh_start {s : St} (hi : Inv s none) (hs : Sh s) (xs : List Spec) : Sh (start s xs) := by
  cases hok : okSpecs s xs with
  | false => rw [start_no hok]; exact hs
  | true =>
    rw [start_eq hi hok]
    refine sh_append rfl ?_ hs
    intro W hW
    obtain ⟨t, _, e⟩ := List.mem_map.1 hW
    rw [← e]

theorem sh_step {s : St} (hi : Inv s none) (hs : Sh s) (a : Act) : Sh (step s a) := by
  cases a with
  | start xs => exact sh_start hi hs xs
  | wait p =>
    simp only [step]
    split
    · refine sh_append (l := [⟨p, none, .fresh, false⟩]) rfl ?_ hs
      intro W hW
      rw [List.mem_singleton] at hW
      rw [hW]
    · exact hs
  | resume w =>
    show Sh (resume s w)
    cases hw : s.waiters[w]? with
    | none => rw [resume_none hw]; exact hs
    | some W =>
      by_cases h1 : W.st = .fresh
      · rw [resume_fresh hw h1]
        exact sh_loopCheck (inv_enter hi _) (by rw [enter_waiters]; exact hw) (sh_congr (by rw [enter_waiters]) hs)
      · by_cases h2 : W.st = .woken
        · rw [resume_woken hw h2]; exact sh_loopCheck hi hw hs
        · rcases resume_cases hw with h | h | ⟨b, -, h⟩ | h
          · exact absurd h.1 h1
          · exact absurd h.1 h2
          · rw [h]
            exact sh_congr (s := s) (map_modify_same wv (fun W : Waiter => { W with st := .over .cancelled }) (fun W => rfl) _ _) hs
          · rw [h.2]; exact hs
  | cancel w =>
    show Sh (cancel s w)
    rcases cancel_cases s w with h | ⟨W, b, -, -, -, -, h3⟩
    · rw [h]; exact hs
    · rw [h3]
      exact sh_congr (s := s) (map_modify_same wv (fun W : Waiter => { W with st := .cancelled b }) (fun W => rfl) _ _) hs
  | finish p i o =>
    simp only [step]
    split
    · exact hs
    · split
      · exact hs
      · exact hs
  | task p i =>
    simp only [step]
    split
    · exact hs
    · split
      · split
        · exact hs
        · exact sh_congr (wv_handleFinish _ p) hs
      · exact hs
  | tstp =>
    simp only [step]
    split
    · exact hs
    · rename_i p _
      exact sh_congr (s := s) (by rw [wv_resolve]; rfl) hs
  | write p i path data =>
    simp only [step]
    split
    · exact hs
    · split
      · split <;> exact hs
      · exact hs
  | restart p => exact hs
  | suspend p => exact hs
  | bg =>
    simp only [step]
    split
    · exact hs
    · exact sh_start (inv_restart hi _) hs []
  | fg =>
    simp only [step]
    split
    · exact hs
    · exact sh_start hi hs _
  | removeFiles p => exact hs

theorem sh_run (b : Bool) (as : List Act) : Sh (run (init b) as) := by
  suffices ∀ s, Inv s none → Sh s → Sh (run s as) from this _ (inv_init b) (by intro w W h; simp [init] at h)
  induction as with
  | nil => exact fun s _ h => h
  | cons a as ih => exact fun s hi h => ih _ (inv_step hi a) (sh_step hi h a)

/-! ### The loop's work is finite -/

def Item.load (it : Item) : Nat := if it.task = .queued then 2 else 0
def Pipe.load (P : Pipe) : Nat := (P.items.map Item.load).sum
def Waiter.load (W : Waiter) : Nat := match W.st with
  | .over _ => 0
  | .awaiting => 2
  | _ => 3

/-- A bound of the number of steps the loop can do before all tasks wait. -/
def St.load (s : St) : Nat := (s.pipes.map Pipe.load).sum + (s.waiters.map Waiter.load).sum

theorem sum_modify {α : Type} (g : α → Nat) (f : α → α) {l : List α} {i : Nat} {a : α} (h : l[i]? = some a) :
    ((l.modify i f).map g).sum + g a = (l.map g).sum + g (f a) := by
  induction l generalizing i with
  | nil => cases h
  | cons x l ih =>
    cases i with
    | zero =>
      simp only [List.getElem?_cons_zero, Option.some.injEq] at h
      subst h
      simp [List.modify_zero_cons]
      omega
    | succ i =>
      simp only [List.getElem?_cons_succ] at h
      have := ih h
      simp only [List.modify_succ_cons, List.map_cons, List.sum_cons]
      omega

theorem load_modPipe (s : St) (p : Nat) (f : Pipe → Pipe) (h : ∀ P, Pipe.load (f P) = Pipe.load P) :
    ((s.modPipe p f).pipes.map Pipe.load).sum = (s.pipes.map Pipe.load).sum := by
  simp only [St.modPipe]
  rw [map_modify_same Pipe.load f h]

theorem load_resolve {s : St} {x : Option Nat} (hi : Inv s x) (p : Nat) : (resolve s p).load ≤ s.load + 1 := by
  cases h : (s.pipes[p]?).bind Pipe.fut with
  | none => rw [resolve_none h]; omega
  | some w =>
    obtain ⟨P, a, b⟩ := bind_fut_some h
    obtain ⟨W, c, d, e⟩ := hi.futW p P w a b
    rw [resolve_some h]
    have h1 := load_modPipe (s.modWaiter w (fun W => { W with st := .woken })) p (fun P => { P with fut := none }) (fun P => rfl)
    have h2 := sum_modify Waiter.load (fun W => { W with st := .woken }) c
    simp only [St.load]
    rw [h1]
    simp only [St.modWaiter, St.modPipe] at h2 ⊢
    have h3 : W.load = 2 := by simp [Waiter.load, e]
    have h4 : Waiter.load { W with st := .woken } = 3 := rfl
    rw [h3, h4] at h2
    omega

theorem task_of_kst {l l' : List Item} (h : l'.map kst = l.map kst) : l'.map Item.load = l.map Item.load := by
  have : ∀ m : List Item, m.map Item.load = (m.map kst).map (fun x => if x.2.2 = Task.queued then 2 else 0) := by
    intro m; rw [List.map_map]; rfl
  rw [this, this, h]

theorem load_collect (s : St) (p : Nat) : (collect s p).load = s.load := by
  simp only [St.load, collect_waiters]
  congr 2
  apply List.ext_getElem?
  intro j
  simp only [List.getElem?_map, collect_get]
  split
  · rename_i e; subst e
    cases e : s.pipes[p]? with
    | none => rfl
    | some P =>
      simp only [Option.map_some, Option.some.injEq, Pipe.load]
      rw [task_of_kst (readItems_kst s.fs _), itemsOf_of_get e]
  · rfl

theorem load_handleFinish {s : St} {p : Nat} (hi : Inv s (some p)) : (handleFinish s p).load ≤ s.load + 1 := by
  simp only [handleFinish]
  split
  · rename_i h
    simp only [Bool.and_eq_true, Bool.not_eq_true'] at h
    have hic := inv_collect hi h.1 (fun P hP => by rw [← finishedOf_get hP]; exact h.2)
    split
    · rw [load_collect]; omega
    · have := load_resolve hic p
      rw [load_collect] at this
      exact this
  · exact load_resolve hi p

theorem load_task {s : St} (hi : Inv s none) {p i : Nat} {it : Item} (hit : itemAt s p i = some it) (hq : it.task = .queued) :
    (step s (.task p i)).load < s.load := by
  have h1 : (s.modItem p i overItem).load + 2 = s.load := by
    simp only [itemAt] at hit
    have hp : ∃ P, s.pipes[p]? = some P ∧ P.items[i]? = some it := by
      simp only [itemsOf] at hit
      cases e : s.pipes[p]? with
      | none => rw [e] at hit; simp at hit
      | some P => rw [e] at hit; exact ⟨P, rfl, hit⟩
    obtain ⟨P, hP, hPi⟩ := hp
    have h2 := sum_modify Pipe.load (fun P => { P with items := P.items.modify i overItem }) hP
    have h3 := sum_modify Item.load overItem hPi
    have h4 : Pipe.load { P with items := P.items.modify i overItem } + 2 = P.load := by
      simp only [Pipe.load]
      have h5 : it.load = 2 := by simp [Item.load, hq]
      have h6 : (overItem it).load = 0 := rfl
      rw [h5, h6] at h3
      omega
    simp only [St.load, St.modItem, St.modPipe]
    omega
  rw [step_task hit hq]
  have hiv := inv_overItem hi hit hq
  split
  · omega
  · rename_i hr
    rw [if_neg hr] at hiv
    have := load_handleFinish hiv
    omega

theorem load_pipe_of_kst {P P' : Pipe} (h : P'.items.map kst = P.items.map kst) : P'.load = P.load := by
  simp only [Pipe.load]; rw [task_of_kst h]

theorem load_restart (s : St) (p : Nat) : (restart s p).load = s.load := by
  simp only [St.load, restart]
  rw [load_modPipe s p _ (fun P => load_pipe_of_kst (by simp [List.map_map, Function.comp_def, kst_cont]))]
  rfl

theorem load_suspend_pipes (s : St) (p : Nat) : ((suspend s p).pipes.map Pipe.load).sum = (s.pipes.map Pipe.load).sum := by
  simp only [suspend]
  rw [load_modPipe s p _ (fun P => load_pipe_of_kst (by simp [List.map_map, Function.comp_def, kst_stop]))]

theorem load_endWait {s : St} {w p : Nat} {W : Waiter} (hw : s.waiters[w]? = some W) (hst : W.load = 3) :
    (endWait s w p).load + 3 = s.load := by
  have h2 := sum_modify Waiter.load (fun W => { W with st := .over (result s p) }) hw
  have h3 : ((endWait s w p).pipes.map Pipe.load).sum = (s.pipes.map Pipe.load).sum := by
    rw [endWait_pipes]
    split
    · exact load_suspend_pipes s p
    · rfl
  simp only [St.load]
  rw [h3, endWait_waiters]
  simp only [hst] at h2
  have h4 : Waiter.load { W with st := .over (result s p) } = 0 := rfl
  rw [h4] at h2
  omega

theorem load_register {s : St} {w p : Nat} {W : Waiter} (hw : s.waiters[w]? = some W) (hst : W.load = 3) :
    (register s w p).load + 1 = s.load := by
  have hsh : (shadow s w p).waiters.map Waiter.load = s.waiters.map Waiter.load := by
    simp only [shadow]
    split
    · split
      · rfl
      · exact map_modify_same Waiter.load (fun W : Waiter => { W with shadowed := true }) (fun W => rfl) _ _
    · rfl
  have hw' : ∃ W', (shadow s w p).waiters[w]? = some W' ∧ W'.load = 3 := by
    rw [get_shadow, if_neg (by simp)]
    exact ⟨W, hw, hst⟩
  obtain ⟨W', h1, h2⟩ := hw'
  have h3 := sum_modify Waiter.load (fun W => { W with st := .awaiting }) h1
  rw [h2] at h3
  have h4 : Waiter.load { W' with st := .awaiting } = 2 := rfl
  rw [h4, hsh] at h3
  have h5 := load_modPipe (shadow s w p) p (fun P => { P with fut := some w }) (fun P => rfl)
  rw [shadow_pipes] at h5
  simp only [St.load, register_eq]
  show ((((shadow s w p).modPipe p (fun P => { P with fut := some w })).pipes.map Pipe.load).sum +
    (((shadow s w p).waiters.modify w (fun W => { W with st := .awaiting })).map Waiter.load).sum) + 1 = _
  rw [h5]
  omega

theorem load_loopCheck {s : St} (hi : Inv s none) {w : Nat} {W : Waiter} (hw : s.waiters[w]? = some W)
    (hst : W.st = .fresh ∨ W.st = .woken) : (loopCheck s w W.pipe W.cont).load < s.load := by
  have h3 : W.load = 3 := by rcases hst with h | h <;> simp [Waiter.load, h]
  simp only [loopCheck]
  split
  · have := load_register (p := W.pipe) hw h3
    omega
  · rename_i hc
    have he := load_endWait (p := W.pipe) hw h3
    rw [finishWait_eq]
    split
    · rename_i hok
      split
      · rename_i q hq
        have ho : W.st.isOver = false := by rcases hst with h | h <;> rw [h] <;> rfl
        have ha : W.st ≠ .awaiting := by rcases hst with h | h <;> rw [h] <;> simp
        have hin : Inv (endWait s w W.pipe) (some q) := by
          have h0 := inv_over hi hw ho ha (result s W.pipe) (fun e => by
              obtain ⟨a, b⟩ := result_ok e
              exact ⟨suspended_not_running hc a, b⟩) (fun l e => by
              obtain ⟨a, b, c⟩ := result_failed e
              exact ⟨suspended_not_running hc a, b, c⟩)
          rw [if_pos hok, hq] at h0
          refine inv_congr h0 ?_ ?_ ?_
          · simp only [endWait, St.modWaiter]
            split
            · exact pv_suspend s _
            · rfl
          · rw [endWait_waiters]; rfl
          · simp only [endWait, St.modWaiter]
            split <;> rfl
        have := load_handleFinish hin
        omega
      · omega
    · omega

theorem load_enter (s : St) (p : Nat) : (enter s p).load = s.load := by
  rw [enter, load_restart]; split <;> rfl

theorem load_ready {s : St} (hi : Inv s none) {a : Act} (h : Ready s a) : (step s a).load < s.load := by
  cases a with
  | task p i =>
    obtain ⟨it, h1, h2⟩ := h
    exact load_task hi h1 h2
  | resume w =>
    obtain ⟨W, h1, h2⟩ := h
    show (resume s w).load < s.load
    rcases h2 with h2 | h2 | ⟨b, h2⟩
    rotate_left 2
    · rw [resume_cancelled h1 h2]
      have h3 := sum_modify Waiter.load (fun W => { W with st := .over .cancelled }) h1
      have h4 : W.load = 3 := by simp [Waiter.load, h2]
      have h5 : Waiter.load { W with st := .over .cancelled } = 0 := rfl
      rw [h4, h5] at h3
      simp only [St.load, endCancel, St.modWaiter]
      omega
    · rw [resume_fresh h1 h2]
      have := load_loopCheck (inv_enter hi W.pipe) (w := w) (W := W) (by rw [enter_waiters]; exact h1) (Or.inl h2)
      rw [load_enter] at this
      exact this
    · rw [resume_woken h1 h2]
      exact load_loopCheck hi h1 (Or.inr h2)
  | _ => cases h

theorem loopRun_bound {s : St} (hi : Inv s none) {as : List Act} (h : LoopRun s as) : as.length ≤ s.load := by
  induction as generalizing s with
  | nil => simp
  | cons a as ih =>
    obtain ⟨h1, h2⟩ := h
    have := ih (inv_step hi a) h2
    have := load_ready hi h1
    simp only [List.length_cons]
    omega

theorem loopRun_append {s : St} {as bs : List Act} (h1 : LoopRun s as) (h2 : LoopRun (run s as) bs) : LoopRun s (as ++ bs) := by
  induction as generalizing s with
  | nil => exact h2
  | cons a as ih => exact ⟨h1.1, ih h1.2 h2⟩

theorem reaches_quiet {s : St} (hi : Inv s none) : ∃ as, LoopRun s as ∧ Quiet (run s as) := by
  generalize hn : s.load = n
  induction n using Nat.strongRecOn generalizing s with
  | ind n ih =>
    by_cases hq : Quiet s
    · exact ⟨[], trivial, hq⟩
    · simp only [Quiet, Classical.not_forall, Classical.not_not] at hq
      obtain ⟨a, ha⟩ := hq
      obtain ⟨as, h1, h2⟩ := ih _ (by rw [← hn]; exact load_ready hi ha) (inv_step hi a) rfl
      exact ⟨a :: as, ⟨ha, h1⟩, h2⟩

end Pieshell.Job
