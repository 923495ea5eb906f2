import Verif.Lemmas.Job6
/-! The files of running pipelines, in all reachable states. -/
namespace Pieshell.Job
open Pieshell.Io (Bytes decode)

/-! ### Removing -/

theorem removeTmps_get (l : Dict Nat Path) (fs : Dict Path Bytes) (hu : Dict.Uniq fs) :
    Dict.Uniq (removeTmps fs l).1 ∧ (∀ path, path ∉ l.map Prod.snd → (removeTmps fs l).1.get? path = fs.get? path) ∧
    (∀ path b, (removeTmps fs l).1.get? path = some b → fs.get? path = some b) := by
  induction l generalizing fs with
  | nil => simp [removeTmps, hu]
  | cons x l ih =>
    obtain ⟨fd, q⟩ := x
    simp only [removeTmps]
    split
    · simp [hu]
    · obtain ⟨h1, h2, h3⟩ := ih (fs.erase q) (Dict.uniq_erase fs hu q)
      refine ⟨h1, ?_, ?_⟩
      · intro path hp
        simp only [List.map_cons, List.mem_cons, not_or] at hp
        rw [h2 path hp.2, Dict.get?_erase fs hu, if_neg (fun e => hp.1 e.symm)]
      · intro path b hb
        have := h3 path b hb
        rw [Dict.get?_erase fs hu] at this
        split at this
        · cases this
        · exact this

theorem removeItems_get (l : List Item) (fs : Dict Path Bytes) (hu : Dict.Uniq fs) :
    Dict.Uniq (removeItems fs l).1 ∧ (∀ path, (∀ it ∈ l, path ∉ it.tmps.map Prod.snd) → (removeItems fs l).1.get? path = fs.get? path) ∧
    (∀ path b, (removeItems fs l).1.get? path = some b → fs.get? path = some b) := by
  induction l generalizing fs with
  | nil => simp [removeItems, hu]
  | cons x l ih =>
    obtain ⟨a, b, c⟩ := removeTmps_get x.tmps fs hu
    simp only [removeItems]
    split
    · obtain ⟨h1, h2, h3⟩ := ih _ a
      refine ⟨h1, ?_, ?_⟩
      · intro path hp
        rw [h2 path (fun it hit => hp it (by simp [hit])), b path (hp x (by simp))]
      · intro path d hd
        exact c path d (h3 path d hd)
    · exact ⟨a, fun path hp => b path (hp x (by simp)), c⟩

theorem finv_removeFiles {s : St} (hi : FInv s) (p : Nat) : FInv (step s (.removeFiles p)) := by
  obtain ⟨h1, h2, h3⟩ := removeItems_get (itemsOf s.pipes p) s.fs hi.uniq
  have key : ∀ (q : Nat) (it : Item) (path : Path), it ∈ itemsOf s.pipes q → path ∈ it.strings.map Prod.snd →
      (step s (.removeFiles p)).fs.get? path = s.fs.get? path := by
    intro q it path a b
    refine h2 path (fun jt c d => ?_)
    obtain ⟨b1, e1⟩ := hi.own q it path a (Or.inl b)
    obtain ⟨b2, e2⟩ := hi.own p jt path c (Or.inr d)
    rw [e1] at e2
    simp only [Option.some.injEq, Prod.mk.injEq] at e2
    have := e2.1
    subst this
    exact hi.sep q it jt path a c b d
  refine ⟨h1, hi.own, hi.sep, hi.keys, fun path b h => hi.cont path b (h3 path b h), ?_, hi.out0, ?_, hi.crash⟩
  · intro q it path a b c
    rw [key q it path a c]
    exact hi.pres q it path a b c
  · intro q it a b c
    obtain ⟨u, v⟩ := hi.done q it a b c
    refine ⟨u, fun path hp => ?_⟩
    rw [key q it path a hp]
    exact v path hp

/-! ### Writing -/

theorem step_write {s : St} {p i : Nat} {path : Path} {data : Bytes} {it : Item} {old : Bytes} {x : Nat × Bytes}
    (hit : itemAt s p i = some it) (hr : it.state = .running)
    (hm : path ∈ it.strings.map Prod.snd ∨ path ∈ it.tmps.map Prod.snd) (hf : s.fs.get? path = some old)
    (hw : s.written.get? path = some x) : step s (.write p i path data) =
    { s with fs := s.fs.set path (old ++ data), written := s.written.set path (x.1, x.2 ++ data) } := by
  simp only [step, hit, hr, true_and, if_pos hm, hf, hw]

theorem step_write_other {s : St} {p i : Nat} {path : Path} {data : Bytes}
    (h : ¬ ∃ (it : Item) (old : Bytes) (x : Nat × Bytes), itemAt s p i = some it ∧ it.state = .running ∧
      (path ∈ it.strings.map Prod.snd ∨ path ∈ it.tmps.map Prod.snd) ∧ s.fs.get? path = some old ∧ s.written.get? path = some x) :
    step s (.write p i path data) = s := by
  simp only [step]
  split
  · rfl
  · rename_i it hit
    split
    · rename_i hc
      split
      · rename_i old o all h1 h2
        exact absurd ⟨it, old, (o, all), hit, hc.1, hc.2, h1, h2⟩ h
      · rfl
    · rfl

theorem running_of_item {s : St} (hi : Inv s none) {p i : Nat} {it : Item} (hit : itemAt s p i = some it)
    (hr : it.state = .running) (hk : ∀ t, it.kind ≠ .fg t) : running s.pipes p = true := by
  rw [running_unfold hi.ranked, List.any_eq_true]
  refine ⟨it, List.mem_of_getElem? hit, ?_⟩
  simp [itemRunning, hr]

/-- An `fg` item has no files. -/
def FgBare (s : St) : Prop := ∀ (p : Nat) (it : Item) (t : Nat), it ∈ itemsOf s.pipes p → it.kind = .fg t → it.strings = [] ∧ it.tmps = []

theorem finv_write {s : St} (hv : Inv s none) (hb : FgBare s) (hi : FInv s) (p i : Nat) (path : Path) (data : Bytes) :
    FInv (step s (.write p i path data)) := by
  by_cases h : ∃ (it : Item) (old : Bytes) (x : Nat × Bytes), itemAt s p i = some it ∧ it.state = .running ∧
      (path ∈ it.strings.map Prod.snd ∨ path ∈ it.tmps.map Prod.snd) ∧ s.fs.get? path = some old ∧ s.written.get? path = some x
  rotate_left
  · rw [step_write_other h]; exact hi
  obtain ⟨it, old, x, h1, h2, h3, h4, h5⟩ := h
  rw [step_write h1 h2 h3 h4 h5]
  have hit : it ∈ itemsOf s.pipes p := List.mem_of_getElem? h1
  have hk : ∀ t, it.kind ≠ .fg t := by
    intro t ht
    obtain ⟨a, b⟩ := hb p it t hit ht
    rw [a, b] at h3
    simp at h3
  have hrun := running_of_item hv h1 h2 hk
  have hpl : p < s.pipes.length := by
    by_cases h : p < s.pipes.length
    · exact h
    · rw [itemsOf_nil_of_ge (by omega)] at hit; cases hit
  have hnf : finishedOf s p = false := by
    cases e : finishedOf s p with
    | false => rfl
    | true =>
      rw [finishedOf_get (List.getElem?_eq_getElem hpl)] at e
      rw [hv.fin p _ (List.getElem?_eq_getElem hpl) e] at hrun
      cases hrun
  obtain ⟨b0, hb0⟩ := hi.own p it path hit h3
  rw [h5] at hb0
  simp only [Option.some.injEq] at hb0
  subst hb0
  obtain ⟨o, ho⟩ := hi.cont path old h4
  rw [h5] at ho
  simp only [Option.some.injEq, Prod.mk.injEq] at ho
  obtain ⟨ho1, ho2⟩ := ho
  subst ho2
  have hother : ∀ (q : Nat) (jt : Item) (path' : Path), finishedOf s q = true → jt ∈ itemsOf s.pipes q →
      path' ∈ jt.strings.map Prod.snd → path ≠ path' := by
    intro q jt path' hq hj hp' e
    subst e
    obtain ⟨b, hb⟩ := hi.own q jt path hj (Or.inl hp')
    rw [h5] at hb
    simp only [Option.some.injEq, Prod.mk.injEq] at hb
    rw [← hb.1, hnf] at hq; cases hq
  have hcrf : ∀ q, crashedOf s q = true → finishedOf s q = true := by
    intro q hq
    cases e : s.pipes[q]? with
    | none => simp [crashedOf, e] at hq
    | some P => rw [crashedOf_get e] at hq; rw [finishedOf_get e]; exact hv.cr q P e hq
  refine ⟨Dict.uniq_set _ hi.uniq _ _, ?_, hi.sep, hi.keys, ?_, ?_, hi.out0, ?_, ?_⟩
  · intro q jt path' a b
    simp only [Dict.get?_set]
    obtain ⟨c, hc⟩ := hi.own q jt path' a b
    split
    · rename_i e
      subst e
      rw [h5] at hc
      simp only [Option.some.injEq, Prod.mk.injEq] at hc
      exact ⟨b0 ++ data, by rw [hc.1]⟩
    · exact ⟨c, hc⟩
  · intro path' b
    simp only [Dict.get?_set]
    split
    · intro e; cases e; exact ⟨p, rfl⟩
    · exact hi.cont path' b
  · intro q jt path' a b c
    simp only [Dict.get?_set]
    split
    · simp
    · exact hi.pres q jt path' a b c
  · intro q jt a b c
    obtain ⟨u, v⟩ := hi.done q jt a b c
    constructor
    · rw [u]
      refine List.map_congr_left (fun kv hkv => ?_)
      have := hother q jt kv.2 b a (List.mem_map.2 ⟨kv, hkv, rfl⟩)
      simp only [textOf, Dict.get?_set, if_neg this]
    · intro path' hp'
      have := hother q jt path' b a hp'
      simp only [Dict.get?_set, if_neg this]
      exact v path' hp'
  · intro q hq
    obtain ⟨jt, a, path', b, c⟩ := hi.crash q hq
    refine ⟨jt, a, path', b, ?_⟩
    have := hother q jt path' (hcrf q hq) a b
    simp only [Dict.get?_set, if_neg this]
    exact c

/-! ### Starting -/

theorem addFiles_get {α : Type} (v : α) (l : List Path) (d : Dict Path α) (path : Path) :
    (l.foldl (fun d path => d.set path v) d).get? path = if path ∈ l then some v else d.get? path := by
  induction l generalizing d with
  | nil => simp
  | cons a l ih =>
    rw [List.foldl_cons, ih, Dict.get?_set]
    by_cases e : a = path
    · subst e; simp
    · have : path ≠ a := fun h => e h.symm
      rw [if_neg e]
      simp only [List.mem_cons, this, false_or]

theorem addFiles_uniq {α : Type} (v : α) (l : List Path) (d : Dict Path α) (h : Dict.Uniq d) :
    Dict.Uniq (l.foldl (fun d path => d.set path v) d) := by
  induction l generalizing d with
  | nil => exact h
  | cons a l ih => exact ih _ (Dict.uniq_set d h a v)

theorem okSpecs_new {s : St} {xs : List Spec} (h : okSpecs s xs = true) {x : Spec} (hx : x ∈ xs) {path : Path}
    (hp : path ∈ x.paths) : s.written.get? path = none ∧ s.fs.get? path = none := by
  simp only [okSpecs, List.all_eq_true, Bool.and_eq_true] at h
  have := (h x hx).1.1.1.2 path hp
  simpa using this

theorem okSpecs_nodup {s : St} {xs : List Spec} (h : okSpecs s xs = true) {x : Spec} (hx : x ∈ xs) :
    (x.strings.map Prod.fst).Nodup := by
  simp only [okSpecs, List.all_eq_true, Bool.and_eq_true] at h
  simpa using (h x hx).1.1.2

theorem okSpecs_sep {s : St} {xs : List Spec} (h : okSpecs s xs = true) {x y : Spec} (hx : x ∈ xs) (hy : y ∈ xs) {path : Path}
    (hp : path ∈ x.strings.map Prod.snd) : path ∉ y.tmps.map Prod.snd := by
  simp only [okSpecs, List.all_eq_true, Bool.and_eq_true] at h
  have := (h x hx).1.2 y hy
  obtain ⟨kv, a, b⟩ := List.mem_map.1 hp
  have := this kv a
  rw [b] at this
  simpa using this

theorem started_items {s : St} {xs : List Spec} {p : Nat} {it : Item} (h : it ∈ itemsOf (started s xs).pipes p) :
    (p < s.pipes.length ∧ it ∈ itemsOf s.pipes p) ∨ (p = s.pipes.length ∧ ∃ x ∈ xs, it = x.item) := by
  by_cases h1 : p < s.pipes.length
  · left
    have : itemsOf (started s xs).pipes p = itemsOf s.pipes p := itemsOf_append_left h1
    rw [this] at h
    exact ⟨h1, h⟩
  · by_cases h2 : p = s.pipes.length
    · right
      subst h2
      have : itemsOf (started s xs).pipes s.pipes.length = xs.map Spec.item := itemsOf_append_new _ _
      rw [this] at h
      obtain ⟨x, hx, e⟩ := List.mem_map.1 h
      exact ⟨rfl, x, hx, e.symm⟩
    · rw [itemsOf_nil_of_ge (by simp [started]; omega)] at h; cases h

theorem finv_started {s : St} (hi : FInv s) {xs : List Spec} (hok : okSpecs s xs = true) : FInv (started s xs) := by
  have hfs : ∀ path, (started s xs).fs.get? path = if path ∈ xs.flatMap Spec.paths then some [] else s.fs.get? path :=
    fun path => addFiles_get _ _ _ path
  have hwr : ∀ path, (started s xs).written.get? path = if path ∈ xs.flatMap Spec.paths then some (s.pipes.length, []) else s.written.get? path :=
    fun path => addFiles_get _ _ _ path
  have hnew : ∀ path, path ∈ xs.flatMap Spec.paths → s.written.get? path = none ∧ s.fs.get? path = none := by
    intro path hp
    obtain ⟨x, hx, h⟩ := List.mem_flatMap.1 hp
    exact okSpecs_new hok hx h
  have hold : ∀ (q : Nat) (it : Item) (path : Path), it ∈ itemsOf s.pipes q →
      (path ∈ it.strings.map Prod.snd ∨ path ∈ it.tmps.map Prod.snd) → path ∉ xs.flatMap Spec.paths := by
    intro q it path a b c
    obtain ⟨d, hd⟩ := hi.own q it path a b
    rw [(hnew path c).1] at hd; cases hd
  have hcov : ∀ (x : Spec) (path : Path), x ∈ xs → (path ∈ x.item.strings.map Prod.snd ∨ path ∈ x.item.tmps.map Prod.snd) →
      path ∈ xs.flatMap Spec.paths := by
    intro x path hx h
    refine List.mem_flatMap.2 ⟨x, hx, ?_⟩
    simp only [Spec.paths, List.mem_append]
    exact h
  have hfin : ∀ q, q < s.pipes.length → finishedOf (started s xs) q = finishedOf s q := by
    intro q hq; simp only [finishedOf, started_get_old hq]
  have hcr : ∀ q, q < s.pipes.length → crashedOf (started s xs) q = crashedOf s q := by
    intro q hq; simp only [crashedOf, started_get_old hq]
  have hfin' : finishedOf (started s xs) s.pipes.length = bornOf s xs := by
    simp only [finishedOf, started_get_new]; rfl
  refine ⟨addFiles_uniq _ _ _ hi.uniq, ?_, ?_, ?_, ?_, ?_, ?_, ?_, ?_⟩
  · intro q it path h1 h2
    rw [hwr]
    rcases started_items h1 with ⟨a, b⟩ | ⟨a, x, b, c⟩
    · rw [if_neg (hold q it path b h2)]
      exact hi.own q it path b h2
    · subst c
      rw [if_pos (hcov x path b h2)]
      exact ⟨[], by rw [a]⟩
  · intro q it jt path h1 h1' h2
    rcases started_items h1 with ⟨a, b⟩ | ⟨a, x, b, c⟩
    · rcases started_items h1' with ⟨a', b'⟩ | ⟨a', x', b', c'⟩
      · exact hi.sep q it jt path b b' h2
      · omega
    · rcases started_items h1' with ⟨a', b'⟩ | ⟨a', x', b', c'⟩
      · omega
      · subst c; subst c'
        exact okSpecs_sep hok b b' h2
  · intro q it h1
    rcases started_items h1 with ⟨a, b⟩ | ⟨a, x, b, c⟩
    · exact hi.keys q it b
    · subst c; exact okSpecs_nodup hok b
  · intro path b h
    rw [hfs] at h
    rw [hwr]
    split
    · rename_i hp
      rw [if_pos hp] at h; cases h
      exact ⟨_, rfl⟩
    · rename_i hp
      rw [if_neg hp] at h
      exact hi.cont path b h
  · intro q it path h1 h2 h3
    rw [hfs]
    rcases started_items h1 with ⟨a, b⟩ | ⟨a, x, b, c⟩
    · rw [if_neg (hold q it path b (Or.inl h3))]
      rw [hfin q a, hcr q a] at h2
      exact hi.pres q it path b h2 h3
    · subst c
      rw [if_pos (hcov x path b (Or.inl h3))]
      simp
  · intro q it h1 h2
    rcases started_items h1 with ⟨a, b⟩ | ⟨a, x, b, c⟩
    · rw [hfin q a] at h2
      exact hi.out0 q it b h2
    · subst c; rfl
  · intro q it h1 h2 h3
    rcases started_items h1 with ⟨a, b⟩ | ⟨a, x, b, c⟩
    · rw [hfin q a] at h2
      rw [hcr q a] at h3
      obtain ⟨u, v⟩ := hi.done q it b h2 h3
      constructor
      · rw [u]
        refine List.map_congr_left (fun kv hkv => ?_)
        have := hold q it kv.2 b (Or.inl (List.mem_map.2 ⟨kv, hkv, rfl⟩))
        simp only [textOf, hwr, if_neg this]
      · intro path hp
        rw [hfs, hwr, if_neg (hold q it path b (Or.inl hp)), if_neg (hold q it path b (Or.inl hp))]
        exact v path hp
    · subst c; subst a
      rw [hfin'] at h2
      have := (born_items hok h2 x b).2
      simp only [Spec.paths, List.append_eq_nil_iff, List.map_eq_nil_iff] at this
      simp [Spec.item, this.1]
  · intro q hq
    by_cases h : q < s.pipes.length
    · rw [hcr q h] at hq
      obtain ⟨it, a, path, b, c⟩ := hi.crash q hq
      refine ⟨it, ?_, path, b, ?_⟩
      · have : itemsOf (started s xs).pipes q = itemsOf s.pipes q := itemsOf_append_left h
        rw [this]; exact a
      · rw [hwr, if_neg (hold q it path a (Or.inl b))]; exact c
    · by_cases h2 : q = s.pipes.length
      · subst h2; simp [crashedOf, started_get_new, newPipe] at hq
      · simp [crashedOf, started_get_ge (show s.pipes.length < q by omega)] at hq

/-! ### All steps -/

def FullInv (s : St) : Prop := Inv s none ∧ FInv s ∧ FgBare s

/-- Kinds and files of the items. -/
def kf (it : Item) : Kind × Dict Nat Path × Dict Nat Path := (it.kind, it.strings, it.tmps)

theorem fgBare_congr {s s' : St} (h : ∀ p, (itemsOf s'.pipes p).map kf = (itemsOf s.pipes p).map kf) (hb : FgBare s) : FgBare s' := by
  intro p it t hit hk
  have : kf it ∈ (itemsOf s.pipes p).map kf := by rw [← h p]; exact List.mem_map.2 ⟨it, hit, rfl⟩
  obtain ⟨jt, a, b⟩ := List.mem_map.1 this
  simp only [kf, Prod.mk.injEq] at b
  rw [← b.2.1, ← b.2.2]
  exact hb p jt t a (by rw [b.1]; exact hk)

theorem kf_modPipe (s : St) (p : Nat) (f : Pipe → Pipe) (h : ∀ P : Pipe, s.pipes[p]? = some P → (f P).items.map kf = P.items.map kf) (q : Nat) :
    (itemsOf (s.modPipe p f).pipes q).map kf = (itemsOf s.pipes q).map kf := by
  simp only [itemsOf, get_modPipe]
  split
  · rename_i e; subst e
    cases e : s.pipes[p]? with
    | none => rfl
    | some P => exact h P e
  · rfl

theorem kf_resolve (s : St) (p q : Nat) : (itemsOf (resolve s p).pipes q).map kf = (itemsOf s.pipes q).map kf := by
  simp only [itemsOf, resolve_get]
  split
  · rename_i e; subst e
    cases e : s.pipes[p]? <;> rfl
  · rfl

theorem readItems_kf (fs : Dict Path Bytes) (l : List Item) : (readItems fs l).1.map kf = l.map kf := by
  induction l with
  | nil => rfl
  | cons it l ih =>
    simp only [readItems]
    split
    · simp [ih]; rfl
    · simp; rfl

theorem kf_collect (s : St) (p q : Nat) : (itemsOf (collect s p).pipes q).map kf = (itemsOf s.pipes q).map kf := by
  rw [collect_itemsOf]
  split
  · rename_i e; subst e
    split
    · exact readItems_kf _ _
    · rw [itemsOf_nil_of_ge (by omega)]
  · rfl

theorem kf_handleFinish (s : St) (p q : Nat) : (itemsOf (handleFinish s p).pipes q).map kf = (itemsOf s.pipes q).map kf := by
  simp only [handleFinish]
  split
  · split
    · exact kf_collect s p q
    · rw [kf_resolve, kf_collect]
  · exact kf_resolve s p q

theorem kf_cont (it : Item) : kf it.cont = kf it := by simp only [Item.cont]; split <;> rfl
theorem kf_stop (it : Item) : kf it.stop = kf it := by simp only [Item.stop]; split <;> rfl

theorem kf_restart (s : St) (p q : Nat) : (itemsOf (restart s p).pipes q).map kf = (itemsOf s.pipes q).map kf :=
  kf_modPipe s p _ (fun P _ => by simp [List.map_map, Function.comp_def, kf_cont]) q
theorem kf_suspend (s : St) (p q : Nat) : (itemsOf (suspend s p).pipes q).map kf = (itemsOf s.pipes q).map kf :=
  kf_modPipe s p _ (fun P _ => by simp [List.map_map, Function.comp_def, kf_stop]) q
theorem kf_register (s : St) (w p q : Nat) : (itemsOf (register s w p).pipes q).map kf = (itemsOf s.pipes q).map kf := by
  simp only [itemsOf, register_get]
  split
  · rename_i e; subst e
    cases e : s.pipes[p]? <;> rfl
  · rfl

theorem endWait_pipes (s : St) (w p : Nat) : (endWait s w p).pipes = (if suspendedOf s p then suspend s p else s).pipes := rfl

theorem kf_finishWait (s : St) (w p : Nat) (c : Option Nat) (q : Nat) :
    (itemsOf (finishWait s w p c).pipes q).map kf = (itemsOf s.pipes q).map kf := by
  have h : (itemsOf (endWait s w p).pipes q).map kf = (itemsOf s.pipes q).map kf := by
    rw [endWait_pipes]
    split
    · exact kf_suspend s p q
    · rfl
  rw [finishWait_eq]
  split
  · split
    · rw [kf_handleFinish, h]
    · exact h
  · exact h

theorem kf_loopCheck (s : St) (w p : Nat) (c : Option Nat) (q : Nat) :
    (itemsOf (loopCheck s w p c).pipes q).map kf = (itemsOf s.pipes q).map kf := by
  simp only [loopCheck]
  split
  · exact kf_register s w p q
  · exact kf_finishWait s w p c q

theorem kf_enter (s : St) (p q : Nat) : (itemsOf (enter s p).pipes q).map kf = (itemsOf s.pipes q).map kf := by
  rw [enter, kf_restart]; split <;> rfl

theorem kf_resume (s : St) (w q : Nat) : (itemsOf (resume s w).pipes q).map kf = (itemsOf s.pipes q).map kf := by
  cases hw : s.waiters[w]? with
  | none => rw [resume_none hw]
  | some W =>
    by_cases h1 : W.st = .fresh
    · rw [resume_fresh hw h1, kf_loopCheck, kf_enter]
    · by_cases h2 : W.st = .woken
      · rw [resume_woken hw h2, kf_loopCheck]
      · rcases resume_cases hw with h | h | ⟨b, -, h⟩ | h
        · exact absurd h.1 h1
        · exact absurd h.1 h2
        · rw [h]; rfl
        · rw [h.2]

theorem kf_cancel (s : St) (w q : Nat) : (itemsOf (cancel s w).pipes q).map kf = (itemsOf s.pipes q).map kf := by
  rcases cancel_cases s w with h | ⟨W, b, h1, h2, -, -, h3⟩
  · rw [h]
  · rw [h3, (rewire_drop h1 h2 b).items]

theorem finv_cancel {s : St} (hi : FInv s) (w : Nat) : FInv (cancel s w) := by
  rcases cancel_cases s w with h | ⟨W, b, -, -, -, -, h3⟩
  · rw [h]; exact hi
  · rw [h3]
    exact finv_congr hi (fv_modPipe (s.modWaiter w (fun W => { W with st := .cancelled b })) W.pipe _ (fun P => rfl)) rfl rfl

theorem finv_finishWait {s : St} (hv : Inv s none) (hi : FInv s) {w : Nat} {W : Waiter} (hw : s.waiters[w]? = some W)
    (p : Nat) (c : Option Nat) : FInv (finishWait s w p c) := by
  have h : FInv (endWait s w p) := by
    have h0 : FInv (if suspendedOf s p then suspend s p else s) := by
      split
      · exact finv_suspend hi p
      · exact hi
    exact finv_congr h0 rfl rfl rfl
  have hc : ∀ (q : Nat) (P : Pipe), (endWait s w p).pipes[q]? = some P → P.crashed = true → P.finished = true := by
    have : Inv (if suspendedOf s p then suspend s p else s) none := by
      split
      · exact inv_suspend hv p
      · exact hv
    exact this.cr
  rw [finishWait_eq]
  split
  · split
    · exact finv_handleFinish h _ (hc _)
    · exact h
  · exact h

theorem finv_resume {s : St} (hv : Inv s none) (hi : FInv s) (w : Nat) : FInv (resume s w) := by
  have key : ∀ (s : St) (W : Waiter), Inv s none → FInv s → s.waiters[w]? = some W → FInv (loopCheck s w W.pipe W.cont) := by
    intro s W hv hi hw
    simp only [loopCheck]
    split
    · exact finv_register hi w _
    · exact finv_finishWait hv hi hw _ _
  cases hw : s.waiters[w]? with
  | none => rw [resume_none hw]; exact hi
  | some W =>
    by_cases h1 : W.st = .fresh
    · rw [resume_fresh hw h1]
      refine key _ W (inv_enter hv _) ?_ (by rw [enter_waiters]; exact hw)
      refine finv_restart ?_ _
      split
      · exact finv_congr hi rfl rfl rfl
      · exact hi
    · by_cases h2 : W.st = .woken
      · rw [resume_woken hw h2]; exact key s W hv hi hw
      · rcases resume_cases hw with h | h | ⟨b, -, h⟩ | h
        · exact absurd h.1 h1
        · exact absurd h.1 h2
        · rw [h]; exact finv_congr hi rfl rfl rfl
        · rw [h.2]; exact hi

theorem full_start {s : St} (h : FullInv s) (xs : List Spec) : FullInv (start s xs) := by
  obtain ⟨hv, hi, hb⟩ := h
  cases hok : okSpecs s xs with
  | false => rw [start_no hok]; exact ⟨hv, hi, hb⟩
  | true =>
    rw [start_eq hv hok]
    refine ⟨inv_started hv hok, finv_started hi hok, ?_⟩
    intro p it t hit hk
    rcases started_items hit with ⟨a, b⟩ | ⟨a, x, b, c⟩
    · exact hb p it t b hk
    · subst c
      have := okSpecs_nofiles hok b (target_kind.2 hk)
      simp only [Spec.paths, List.append_eq_nil_iff, List.map_eq_nil_iff] at this
      exact this

theorem full_restart {s : St} (h : FullInv s) (p : Nat) : FullInv (restart s p) :=
  ⟨inv_restart h.1 p, finv_restart h.2.1 p, fgBare_congr (kf_restart s p) h.2.2⟩

theorem kf_modItem (s : St) (p i : Nat) (f : Item → Item) (h : ∀ it, kf (f it) = kf it) (q : Nat) :
    (itemsOf (s.modItem p i f).pipes q).map kf = (itemsOf s.pipes q).map kf :=
  kf_modPipe s p _ (fun P _ => map_modify_same kf f h _ _) q

theorem full_step {s : St} (h : FullInv s) (a : Act) : FullInv (step s a) := by
  obtain ⟨hv, hi, hb⟩ := h
  have hv' := inv_step hv a
  cases a with
  | start xs => exact full_start ⟨hv, hi, hb⟩ xs
  | wait p =>
    refine ⟨hv', ?_, ?_⟩
    · simp only [step]
      split
      · exact finv_congr hi rfl rfl rfl
      · exact hi
    · simp only [step]
      split
      · exact hb
      · exact hb
  | resume w => exact ⟨hv', finv_resume hv hi w, fgBare_congr (kf_resume s w) hb⟩
  | cancel w => exact ⟨hv', finv_cancel hi w, fgBare_congr (kf_cancel s w) hb⟩
  | finish p i o =>
    by_cases h : ∃ it, itemAt s p i = some it ∧ it.state = .running ∧ okEnd it.kind o = true
    · obtain ⟨it, h1, h2, h3⟩ := h
      refine ⟨hv', ?_, ?_⟩
      · rw [step_finish h1 h2 h3]
        exact finv_congr (finv_modItem hi p i (endItem o) (fun _ => rfl)) (fv_modPipe _ p (fun P => { P with lastEnd := some i }) (fun _ => rfl)) rfl rfl
      · rw [step_finish h1 h2 h3]
        refine fgBare_congr ?_ hb
        intro q
        rw [ended, kf_modPipe _ p (fun P => { P with lastEnd := some i }) (fun _ _ => rfl), kf_modItem s p i (endItem o) (fun _ => rfl)]
    · rw [step_finish_other (fun it h1 h2 => h ⟨it, h1, h2⟩)]
      exact ⟨hv, hi, hb⟩
  | task p i =>
    by_cases h : ∃ it, itemAt s p i = some it ∧ it.task = .queued
    · obtain ⟨it, h1, h2⟩ := h
      have h3 := finv_modItem hi p i overItem (fun _ => rfl)
      refine ⟨hv', ?_, ?_⟩
      · rw [step_task h1 h2]
        split
        · exact h3
        · exact finv_handleFinish h3 p ((inv_overItem hv h1 h2).cr p)
      · rw [step_task h1 h2]
        split
        · exact fgBare_congr (kf_modItem s p i overItem (fun _ => rfl)) hb
        · exact fgBare_congr (fun q => by rw [kf_handleFinish, kf_modItem s p i overItem (fun _ => rfl)]) hb
    · rw [step_task_other (fun it h1 h2 => h ⟨it, h1, h2⟩)]
      exact ⟨hv, hi, hb⟩
  | tstp =>
    refine ⟨hv', ?_, ?_⟩
    · simp only [step]
      split
      · exact hi
      · rename_i p _
        exact finv_resolve (finv_congr hi (fv_modPipe s p (fun P => { P with suspended := true }) (fun P => rfl)) rfl rfl) _
    · simp only [step]
      split
      · exact hb
      · rename_i p _
        exact fgBare_congr (fun q => by rw [kf_resolve, kf_modPipe s p (fun P => { P with suspended := true }) (fun _ _ => rfl)]) hb
  | write p i path data =>
    refine ⟨hv', finv_write hv hb hi p i path data, ?_⟩
    simp only [step]
    split
    · exact hb
    · split
      · split
        · exact hb
        · exact hb
      · exact hb
  | restart p => exact full_restart ⟨hv, hi, hb⟩ p
  | suspend p => exact ⟨hv', finv_suspend hi p, fgBare_congr (kf_suspend s p) hb⟩
  | bg =>
    simp only [step]
    split
    · exact ⟨hv, hi, hb⟩
    · exact full_start (full_restart ⟨hv, hi, hb⟩ _) []
  | fg =>
    simp only [step]
    split
    · exact ⟨hv, hi, hb⟩
    · exact full_start ⟨hv, hi, hb⟩ _
  | removeFiles p => exact ⟨hv', finv_removeFiles hi p, hb⟩

theorem full_init (b : Bool) : FullInv (init b) := by
  refine ⟨inv_init b, ?_, ?_⟩
  · constructor <;> simp [init, itemsOf, Dict.Uniq, Dict.keys, Dict.get?, crashedOf]
  · simp [FgBare, init, itemsOf]

theorem full_run (b : Bool) (as : List Act) : FullInv (run (init b) as) := by
  suffices ∀ s, FullInv s → FullInv (run s as) from this _ (full_init b)
  induction as with
  | nil => exact fun s h => h
  | cons a as ih => exact fun s h => ih _ (full_step h a)

end Pieshell.Job
