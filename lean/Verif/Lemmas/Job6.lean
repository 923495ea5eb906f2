import Verif.Lemmas.Job5
/-! The temporary files of running pipelines. -/
namespace Pieshell.Job
open Pieshell.Io (Bytes decode)

/-- The text of all that was written to a file. -/
def textOf (w : Dict Path (Nat × Bytes)) (path : Path) : Str :=
  (((w.get? path).bind (fun x => decode x.2)).map newlines).getD []

structure FInv (s : St) : Prop where
  uniq : Dict.Uniq s.fs
  own : ∀ (p : Nat) (it : Item) (path : Path), it ∈ itemsOf s.pipes p →
    (path ∈ it.strings.map Prod.snd ∨ path ∈ it.tmps.map Prod.snd) → ∃ b, s.written.get? path = some (p, b)
  sep : ∀ (p : Nat) (it it' : Item) (path : Path), it ∈ itemsOf s.pipes p → it' ∈ itemsOf s.pipes p →
    path ∈ it.strings.map Prod.snd → path ∉ it'.tmps.map Prod.snd
  keys : ∀ (p : Nat) (it : Item), it ∈ itemsOf s.pipes p → (it.strings.map Prod.fst).Nodup
  cont : ∀ (path : Path) (b : Bytes), s.fs.get? path = some b → ∃ o, s.written.get? path = some (o, b)
  pres : ∀ (p : Nat) (it : Item) (path : Path), it ∈ itemsOf s.pipes p → (finishedOf s p = false ∨ crashedOf s p = true) →
    path ∈ it.strings.map Prod.snd → s.fs.get? path ≠ none
  out0 : ∀ (p : Nat) (it : Item), it ∈ itemsOf s.pipes p → finishedOf s p = false → it.output = []
  done : ∀ (p : Nat) (it : Item), it ∈ itemsOf s.pipes p → finishedOf s p = true → crashedOf s p = false →
    it.output = it.strings.map (fun kv => (kv.1, textOf s.written kv.2)) ∧
    ∀ path ∈ it.strings.map Prod.snd, s.fs.get? path = none ∧ ∃ b c, s.written.get? path = some (p, b) ∧ decode b = some c
  crash : ∀ p, crashedOf s p = true → ∃ it ∈ itemsOf s.pipes p, ∃ path ∈ it.strings.map Prod.snd,
    ∃ b, s.written.get? path = some (p, b) ∧ decode b = none

/-! ### Steps that do not touch files -/

def fitem (it : Item) : Dict Nat Path × Dict Nat Path × Dict Nat Str := (it.strings, it.tmps, it.output)

structure FV where
  items : List (Dict Nat Path × Dict Nat Path × Dict Nat Str)
  finished : Bool
  crashed : Bool

def fv (P : Pipe) : FV := ⟨P.items.map fitem, P.finished, P.crashed⟩

theorem fv_get {ps ps' : List Pipe} (h : ps'.map fv = ps.map fv) (p : Nat) : (ps'[p]?).map fv = (ps[p]?).map fv := by
  rw [← List.getElem?_map, h, List.getElem?_map]

theorem fv_items {ps ps' : List Pipe} (h : ps'.map fv = ps.map fv) (p : Nat) :
    (itemsOf ps' p).map fitem = (itemsOf ps p).map fitem := by
  have := fv_get h p
  simp only [itemsOf]
  cases h1 : ps'[p]? <;> cases h2 : ps[p]? <;> rw [h1, h2] at this <;> simp [fv] at this ⊢
  exact this.1

theorem fv_finished {s s' : St} (h : s'.pipes.map fv = s.pipes.map fv) (p : Nat) : finishedOf s' p = finishedOf s p := by
  have := fv_get h p
  simp only [finishedOf]
  cases h1 : s'.pipes[p]? <;> cases h2 : s.pipes[p]? <;> rw [h1, h2] at this <;> simp [fv] at this ⊢
  exact this.2.1

theorem fv_crashed {s s' : St} (h : s'.pipes.map fv = s.pipes.map fv) (p : Nat) : crashedOf s' p = crashedOf s p := by
  have := fv_get h p
  simp only [crashedOf]
  cases h1 : s'.pipes[p]? <;> cases h2 : s.pipes[p]? <;> rw [h1, h2] at this <;> simp [fv] at this ⊢
  exact this.2.2

theorem mem_fitem {l l' : List Item} (h : l'.map fitem = l.map fitem) {it' : Item} (hm : it' ∈ l') :
    ∃ it ∈ l, it.strings = it'.strings ∧ it.tmps = it'.tmps ∧ it.output = it'.output := by
  have : fitem it' ∈ l.map fitem := by rw [← h]; exact List.mem_map.2 ⟨it', hm, rfl⟩
  obtain ⟨it, hit, e⟩ := List.mem_map.1 this
  simp only [fitem, Prod.mk.injEq] at e
  exact ⟨it, hit, e⟩

theorem finv_congr {s s' : St} (hi : FInv s) (hp : s'.pipes.map fv = s.pipes.map fv) (hfs : s'.fs = s.fs)
    (hw : s'.written = s.written) : FInv s' := by
  refine ⟨by rw [hfs]; exact hi.uniq, ?_, ?_, ?_, ?_, ?_, ?_, ?_, ?_⟩
  · intro p it' path h1 h2
    obtain ⟨it, a, b, c, d⟩ := mem_fitem (fv_items hp p) h1
    rw [hw]
    exact hi.own p it path a (by rw [b, c]; exact h2)
  · intro p it' jt' path h1 h1' h2
    obtain ⟨it, a, b, c, d⟩ := mem_fitem (fv_items hp p) h1
    obtain ⟨jt, a', b', c', d'⟩ := mem_fitem (fv_items hp p) h1'
    rw [← c']
    exact hi.sep p it jt path a a' (by rw [b]; exact h2)
  · intro p it' h1
    obtain ⟨it, a, b, c, d⟩ := mem_fitem (fv_items hp p) h1
    rw [← b]
    exact hi.keys p it a
  · rw [hfs, hw]; exact hi.cont
  · intro p it' path h1 h2 h3
    obtain ⟨it, a, b, c, d⟩ := mem_fitem (fv_items hp p) h1
    rw [fv_finished hp, fv_crashed hp] at h2
    rw [hfs]
    exact hi.pres p it path a h2 (by rw [b]; exact h3)
  · intro p it' h1 h2
    obtain ⟨it, a, b, c, d⟩ := mem_fitem (fv_items hp p) h1
    rw [fv_finished hp] at h2
    rw [← d]
    exact hi.out0 p it a h2
  · intro p it' h1 h2 h3
    obtain ⟨it, a, b, c, d⟩ := mem_fitem (fv_items hp p) h1
    rw [fv_finished hp] at h2
    rw [fv_crashed hp] at h3
    rw [← d, ← b, hw, hfs]
    exact hi.done p it a h2 h3
  · intro p h
    rw [fv_crashed hp] at h
    obtain ⟨it, a, path, b, c⟩ := hi.crash p h
    obtain ⟨it', a', b', c', d'⟩ := mem_fitem (fv_items hp p).symm a
    exact ⟨it', a', path, by rw [b']; exact b, by rw [hw]; exact c⟩

theorem fv_modPipe (s : St) (p : Nat) (f : Pipe → Pipe) (h : ∀ P, fv (f P) = fv P) :
    (s.modPipe p f).pipes.map fv = s.pipes.map fv := map_modify_same fv f h _ _

theorem fv_resolve (s : St) (p : Nat) : (resolve s p).pipes.map fv = s.pipes.map fv := by
  cases h : (s.pipes[p]?).bind Pipe.fut with
  | none => rw [resolve_none h]
  | some w =>
    rw [resolve_some h]
    exact fv_modPipe (s.modWaiter w _) p _ (fun P => rfl)

theorem finv_resolve {s : St} (hi : FInv s) (p : Nat) : FInv (resolve s p) :=
  finv_congr hi (fv_resolve s p) (resolve_frame s p).2.1 (resolve_frame s p).2.2.2.2.2

theorem fitem_cont (it : Item) : fitem it.cont = fitem it := by simp only [Item.cont]; split <;> rfl
theorem fitem_stop (it : Item) : fitem it.stop = fitem it := by simp only [Item.stop]; split <;> rfl

theorem finv_restart {s : St} (hi : FInv s) (p : Nat) : FInv (restart s p) :=
  finv_congr hi (fv_modPipe s p _ (fun P => by simp [fv, List.map_map, Function.comp_def, fitem_cont])) rfl rfl

theorem finv_suspend {s : St} (hi : FInv s) (p : Nat) : FInv (suspend s p) :=
  finv_congr hi (fv_modPipe s p _ (fun P => by simp [fv, List.map_map, Function.comp_def, fitem_stop])) rfl rfl

theorem finv_register {s : St} (hi : FInv s) (w p : Nat) : FInv (register s w p) := by
  refine finv_congr hi ?_ (shadow_frame s w p).2.2.2.1 (shadow_frame s w p).2.2.2.2.2.1
  rw [register_eq]
  show ((shadow s w p).modPipe p _).pipes.map fv = _
  rw [fv_modPipe (shadow s w p) p (fun P => { P with fut := some w }) (fun P => rfl), shadow_pipes]

theorem finv_modItem {s : St} (hi : FInv s) (p i : Nat) (f : Item → Item) (h : ∀ it, fitem (f it) = fitem it) :
    FInv (s.modItem p i f) :=
  finv_congr hi (fv_modPipe s p _ (fun P => by simp [fv, map_modify_same fitem f h])) rfl rfl

/-! ### Collecting -/

theorem set_of_not_mem {κ α : Type} [DecidableEq κ] {d : Dict κ α} {k : κ} (h : k ∉ d.map Prod.fst) (v : α) :
    Dict.set d k v = d ++ [(k, v)] := by
  induction d with
  | nil => rfl
  | cons x d ih =>
    obtain ⟨a, b⟩ := x
    simp only [List.map_cons, List.mem_cons, not_or] at h
    have : a ≠ k := fun e => h.1 e.symm
    simp [Dict.set, this, ih h.2]

theorem readStrings_ok {fs : Dict Path Bytes} {w : Dict Path (Nat × Bytes)} {l : Dict Nat Path} {out : Dict Nat Str}
    (hn : (out.map Prod.fst ++ l.map Prod.fst).Nodup)
    (h : ∀ path ∈ l.map Prod.snd, ∃ o b c, fs.get? path = some b ∧ w.get? path = some (o, b) ∧ decode b = some c) :
    readStrings fs l out = (out ++ l.map (fun kv => (kv.1, textOf w kv.2)), true) := by
  induction l generalizing out with
  | nil => simp [readStrings]
  | cons x l ih =>
    obtain ⟨fd, path⟩ := x
    obtain ⟨o, b, c, h1, h2, h3⟩ := h path (by simp)
    have hr : readFile fs path = some (newlines c) := by simp [readFile, h1, h3]
    have ht : textOf w path = newlines c := by simp [textOf, h2, h3]
    have hfd : fd ∉ out.map Prod.fst := by
      intro hm
      rw [List.nodup_append] at hn
      exact hn.2.2 fd hm fd (by simp) rfl
    simp only [readStrings, hr]
    rw [set_of_not_mem hfd, ih]
    · simp [ht]
    · simpa [List.append_assoc] using hn
    · intro path hp
      exact h path (by simp at hp ⊢; exact Or.inr hp)

theorem readStrings_bad {fs : Dict Path Bytes} {l : Dict Nat Path} {out : Dict Nat Str}
    (h : (readStrings fs l out).2 = false) : ∃ path ∈ l.map Prod.snd, readFile fs path = none := by
  induction l generalizing out with
  | nil => cases h
  | cons x l ih =>
    obtain ⟨fd, path⟩ := x
    simp only [readStrings] at h
    split at h
    · rename_i hr
      exact ⟨path, by simp, hr⟩
    · obtain ⟨q, a, b⟩ := ih h
      exact ⟨q, by simp at a ⊢; exact Or.inr a, b⟩

theorem readStrings_good {fs : Dict Path Bytes} {l : Dict Nat Path} {out : Dict Nat Str}
    (h : (readStrings fs l out).2 = true) : ∀ path ∈ l.map Prod.snd, readFile fs path ≠ none := by
  induction l generalizing out with
  | nil => simp
  | cons x l ih =>
    obtain ⟨fd, path⟩ := x
    simp only [readStrings] at h
    split at h
    · cases h
    · rename_i c hc
      intro q hq
      simp only [List.map_cons, List.mem_cons] at hq
      rcases hq with e | hq
      · subst e; rw [hc]; simp
      · exact ih h q hq

theorem readItems_good {fs : Dict Path Bytes} {l : List Item} (h : (readItems fs l).2 = true) :
    ∀ it ∈ l, ∀ path ∈ it.strings.map Prod.snd, readFile fs path ≠ none := by
  induction l with
  | nil => simp
  | cons x l ih =>
    simp only [readItems] at h
    split at h
    · rename_i hr
      intro it hit
      rcases List.mem_cons.1 hit with e | hit
      · subst e; exact readStrings_good hr
      · exact ih h it hit
    · cases h

theorem readItems_bad {fs : Dict Path Bytes} {l : List Item} (h : (readItems fs l).2 = false) :
    ∃ it ∈ l, ∃ path ∈ it.strings.map Prod.snd, readFile fs path = none := by
  induction l with
  | nil => cases h
  | cons x l ih =>
    simp only [readItems] at h
    split at h
    · obtain ⟨it, a, b⟩ := ih h
      exact ⟨it, by simp [a], b⟩
    · rename_i hr
      obtain ⟨path, a, b⟩ := readStrings_bad (by simpa using hr)
      exact ⟨x, by simp, path, a, b⟩

/-- The items after reading: the same, with their texts. -/
theorem readItems_eq {fs : Dict Path Bytes} {w : Dict Path (Nat × Bytes)} {l : List Item}
    (h0 : ∀ it ∈ l, it.output = [] ∧ (it.strings.map Prod.fst).Nodup)
    (h : ∀ it ∈ l, ∀ path ∈ it.strings.map Prod.snd, ∃ o b c, fs.get? path = some b ∧ w.get? path = some (o, b) ∧ decode b = some c) :
    readItems fs l = (l.map (fun it => { it with output := it.strings.map (fun kv => (kv.1, textOf w kv.2)) }), true) := by
  induction l with
  | nil => rfl
  | cons it l ih =>
    have hr : readStrings fs it.strings it.output = (it.strings.map (fun kv => (kv.1, textOf w kv.2)), true) := by
      rw [readStrings_ok (w := w)]
      · simp [(h0 it (by simp)).1]
      · simpa [(h0 it (by simp)).1] using (h0 it (by simp)).2
      · exact h it (by simp)
    simp only [readItems, hr, if_true]
    rw [ih (fun x hx => h0 x (by simp [hx])) (fun x hx => h x (by simp [hx]))]
    rfl

theorem readItems_fitem (fs : Dict Path Bytes) (l : List Item) :
    (readItems fs l).1.map (fun it => (it.strings, it.tmps)) = l.map (fun it => (it.strings, it.tmps)) := by
  induction l with
  | nil => rfl
  | cons it l ih =>
    simp only [readItems]
    split
    · simp [ih]
    · simp

theorem unlink_item (l : Dict Nat Path) (fs : Dict Path Bytes) (hu : Dict.Uniq fs) :
    Dict.Uniq (l.foldl (fun fs kv => fs.erase kv.2) fs) ∧
    ∀ path, (l.foldl (fun fs kv => fs.erase kv.2) fs).get? path = if path ∈ l.map Prod.snd then none else fs.get? path := by
  induction l generalizing fs with
  | nil => simp [hu]
  | cons x l ih =>
    obtain ⟨h1, h2⟩ := ih (fs.erase x.2) (Dict.uniq_erase fs hu x.2)
    refine ⟨h1, fun path => ?_⟩
    rw [List.foldl_cons, h2 path, Dict.get?_erase fs hu]
    by_cases e : x.2 = path
    · subst e; simp
    · have : path ≠ x.2 := fun h => e h.symm
      rw [if_neg e]
      simp only [List.map_cons, List.mem_cons, this, false_or]

theorem unlinkItems_get (l : List Item) (fs : Dict Path Bytes) (hu : Dict.Uniq fs) :
    Dict.Uniq (unlinkItems fs l) ∧
    ∀ path, (unlinkItems fs l).get? path = if ∃ it ∈ l, path ∈ it.strings.map Prod.snd then none else fs.get? path := by
  induction l generalizing fs with
  | nil => simp [unlinkItems, hu]
  | cons x l ih =>
    obtain ⟨a, b⟩ := unlink_item x.strings fs hu
    obtain ⟨h1, h2⟩ := ih _ a
    refine ⟨h1, fun path => ?_⟩
    have e : unlinkItems fs (x :: l) = unlinkItems (x.strings.foldl (fun fs kv => fs.erase kv.2) fs) l := rfl
    rw [e, h2 path, b path]
    by_cases h : path ∈ x.strings.map Prod.snd
    · rw [if_pos h]
      rw [if_pos (⟨x, by simp, h⟩ : ∃ it ∈ x :: l, path ∈ it.strings.map Prod.snd)]
      split <;> rfl
    · rw [if_neg h]
      by_cases h' : ∃ it ∈ l, path ∈ it.strings.map Prod.snd
      · rw [if_pos h', if_pos]
        obtain ⟨it, c, d⟩ := h'
        exact ⟨it, by simp [c], d⟩
      · rw [if_neg h', if_neg]
        rintro ⟨it, c, d⟩
        rcases List.mem_cons.1 c with e | c
        · subst e; exact h d
        · exact h' ⟨it, c, d⟩

theorem collect_fs (s : St) (p : Nat) : (collect s p).fs =
    if (readItems s.fs (itemsOf s.pipes p)).2 then unlinkItems s.fs (itemsOf s.pipes p) else s.fs := by
  simp only [collect]; split <;> rfl

theorem collect_written (s : St) (p : Nat) : (collect s p).written = s.written := by
  simp only [collect]; split <;> rfl

theorem collect_itemsOf (s : St) (p q : Nat) : itemsOf (collect s p).pipes q =
    if p = q then (if q < s.pipes.length then (readItems s.fs (itemsOf s.pipes p)).1 else []) else itemsOf s.pipes q := by
  simp only [itemsOf, collect_get]
  by_cases h : p = q
  · subst h
    simp only [if_true]
    cases e : s.pipes[p]? with
    | none =>
      rw [List.getElem?_eq_none_iff] at e
      rw [if_neg (by omega)]; rfl
    | some P => rw [if_pos (lt_of_get e)]; rfl
  · rw [if_neg h, if_neg h]

theorem finv_collect {s : St} (hi : FInv s) {p : Nat} (hf : finishedOf s p = false) (hc : crashedOf s p = false) :
    FInv (collect s p) := by
  by_cases hp : p < s.pipes.length
  rotate_left
  · -- nothing happens
    have hn : s.pipes[p]? = none := List.getElem?_eq_none (by omega)
    have he : itemsOf s.pipes p = [] := itemsOf_nil_of_ge (by omega)
    refine finv_congr hi ?_ ?_ (collect_written s p)
    · apply List.ext_getElem?
      intro j
      rw [List.getElem?_map, List.getElem?_map, collect_get]
      split
      · rename_i e; subst e; rw [hn]; rfl
      · rfl
    · rw [collect_fs, he]; rfl
  have hmem : ∀ (q : Nat) (it' : Item), it' ∈ itemsOf (collect s p).pipes q → ∃ it ∈ itemsOf s.pipes q,
      it.strings = it'.strings ∧ it.tmps = it'.tmps ∧ (p ≠ q → it' = it) := by
    intro q it' h
    rw [collect_itemsOf] at h
    split at h
    · rename_i e; subst e
      rw [if_pos hp] at h
      have : (it'.strings, it'.tmps) ∈ (itemsOf s.pipes p).map (fun it => (it.strings, it.tmps)) := by
        rw [← readItems_fitem s.fs]
        exact List.mem_map.2 ⟨it', h, rfl⟩
      obtain ⟨it, a, b⟩ := List.mem_map.1 this
      simp only [Prod.mk.injEq] at b
      exact ⟨it, a, b.1, b.2, fun h => absurd rfl h⟩
    · exact ⟨it', h, rfl, rfl, fun _ => rfl⟩
  have hfin : ∀ q, finishedOf (collect s p) q = if p = q then true else finishedOf s q := by
    intro q
    simp only [finishedOf, collect_get]
    split
    · rename_i e; subst e
      rw [List.getElem?_eq_getElem hp]; rfl
    · rfl
  have hcr : ∀ q, crashedOf (collect s p) q = if p = q then !(readItems s.fs (itemsOf s.pipes p)).2 else crashedOf s q := by
    intro q
    simp only [crashedOf, collect_get]
    split
    · rename_i e; subst e
      have := hc
      simp only [crashedOf, List.getElem?_eq_getElem hp] at this ⊢
      simp at this ⊢
      rw [this]; simp
    · rfl
  have hfsq : ∀ (q : Nat) (it : Item) (path : Path), p ≠ q → it ∈ itemsOf s.pipes q →
      (path ∈ it.strings.map Prod.snd ∨ path ∈ it.tmps.map Prod.snd) → (collect s p).fs.get? path = s.fs.get? path := by
    intro q it path hq hit hpath
    rw [collect_fs]
    split
    · rw [(unlinkItems_get _ s.fs hi.uniq).2, if_neg]
      rintro ⟨jt, a, b⟩
      obtain ⟨b1, h1⟩ := hi.own p jt path a (Or.inl b)
      obtain ⟨b2, h2⟩ := hi.own q it path hit hpath
      rw [h1] at h2
      simp only [Option.some.injEq, Prod.mk.injEq] at h2
      exact hq h2.1
    · rfl
  refine ⟨?_, ?_, ?_, ?_, ?_, ?_, ?_, ?_, ?_⟩
  · rw [collect_fs]
    split
    · exact (unlinkItems_get _ s.fs hi.uniq).1
    · exact hi.uniq
  · intro q it' path h1 h2
    obtain ⟨it, a, b, c, _⟩ := hmem q it' h1
    rw [collect_written]
    exact hi.own q it path a (by rw [b, c]; exact h2)
  · intro q it' jt' path h1 h1' h2
    obtain ⟨it, a, b, c, _⟩ := hmem q it' h1
    obtain ⟨jt, a', b', c', _⟩ := hmem q jt' h1'
    rw [← c']
    exact hi.sep q it jt path a a' (by rw [b]; exact h2)
  · intro q it' h1
    obtain ⟨it, a, b, c, _⟩ := hmem q it' h1
    rw [← b]; exact hi.keys q it a
  · intro path b h
    rw [collect_written]
    rw [collect_fs] at h
    split at h
    · rw [(unlinkItems_get _ s.fs hi.uniq).2] at h
      split at h
      · cases h
      · exact hi.cont path b h
    · exact hi.cont path b h
  · intro q it' path h1 h2 h3
    obtain ⟨it, a, b, c, d⟩ := hmem q it' h1
    rw [hfin, hcr] at h2
    by_cases e : p = q
    · subst e
      simp only [if_true] at h2
      have hr : (readItems s.fs (itemsOf s.pipes p)).2 = false := by
        rcases h2 with h2 | h2
        · cases h2
        · simpa using h2
      rw [collect_fs, hr]
      simp only [Bool.false_eq_true, if_false]
      exact hi.pres p it path a (Or.inl hf) (by rw [b]; exact h3)
    · rw [if_neg e, if_neg e] at h2
      rw [hfsq q it path e a (Or.inl (by rw [b]; exact h3))]
      exact hi.pres q it path a h2 (by rw [b]; exact h3)
  · intro q it' h1 h2
    obtain ⟨it, a, b, c, d⟩ := hmem q it' h1
    rw [hfin] at h2
    by_cases e : p = q
    · rw [if_pos e] at h2; cases h2
    · rw [if_neg e] at h2
      rw [d e]; exact hi.out0 q it a h2
  · intro q it' h1 h2 h3
    rw [hfin] at h2
    rw [hcr] at h3
    by_cases e : p = q
    · subst e
      rw [if_pos rfl] at h3
      have hr : (readItems s.fs (itemsOf s.pipes p)).2 = true := by simpa using h3
      have hall : ∀ it ∈ itemsOf s.pipes p, ∀ path ∈ it.strings.map Prod.snd,
          ∃ o b c, s.fs.get? path = some b ∧ s.written.get? path = some (o, b) ∧ decode b = some c ∧ o = p := by
        intro it hit path hpath
        have h5 := readItems_good hr it hit path hpath
        cases hb : s.fs.get? path with
        | none => exact absurd hb (hi.pres p it path hit (Or.inl hf) hpath)
        | some b =>
          simp only [readFile, hb, Option.bind_some] at h5
          cases hd : decode b with
          | none => rw [hd] at h5; exact absurd rfl h5
          | some c =>
            obtain ⟨o, ho⟩ := hi.cont path b hb
            obtain ⟨b2, hb2⟩ := hi.own p it path hit (Or.inl hpath)
            rw [ho] at hb2
            simp only [Option.some.injEq, Prod.mk.injEq] at hb2
            exact ⟨o, b, c, rfl, ho, hd, hb2.1⟩
      have heq := readItems_eq (w := s.written) (fs := s.fs) (l := itemsOf s.pipes p)
        (fun it hit => ⟨hi.out0 p it hit hf, hi.keys p it hit⟩)
        (fun it hit path hpath => by
          obtain ⟨o, b, c, x, y, z, _⟩ := hall it hit path hpath
          exact ⟨o, b, c, x, y, z⟩)
      rw [collect_itemsOf, if_pos rfl, if_pos hp, heq] at h1
      obtain ⟨it, hit, e⟩ := List.mem_map.1 h1
      subst e
      rw [collect_written]
      refine ⟨rfl, ?_⟩
      intro path hpath
      rw [collect_fs, hr, if_pos rfl, (unlinkItems_get _ s.fs hi.uniq).2, if_pos ⟨it, hit, hpath⟩]
      obtain ⟨o, b, c, x, y, z, e⟩ := hall it hit path hpath
      subst e
      exact ⟨rfl, b, c, y, z⟩
    · rw [if_neg e] at h2 h3
      obtain ⟨it, a, b, c, d⟩ := hmem q it' h1
      have := d e
      subst this
      obtain ⟨u, v⟩ := hi.done q it' a h2 h3
      rw [collect_written]
      refine ⟨u, fun path hpath => ?_⟩
      rw [hfsq q it' path e a (Or.inl hpath)]
      exact v path hpath
  · intro q h
    rw [hcr] at h
    by_cases e : p = q
    · subst e
      rw [if_pos rfl] at h
      obtain ⟨it, a, path, b, c⟩ := readItems_bad (by simpa using h)
      have : (it.strings, it.tmps) ∈ ((readItems s.fs (itemsOf s.pipes p)).1).map (fun it => (it.strings, it.tmps)) := by
        rw [readItems_fitem]
        exact List.mem_map.2 ⟨it, a, rfl⟩
      obtain ⟨it', a', e'⟩ := List.mem_map.1 this
      simp only [Prod.mk.injEq] at e'
      refine ⟨it', by rw [collect_itemsOf, if_pos rfl, if_pos hp]; exact a', path, by rw [e'.1]; exact b, ?_⟩
      cases hb : s.fs.get? path with
      | none => exact absurd hb (hi.pres p it path a (Or.inl hf) b)
      | some b3 =>
        simp only [readFile, hb, Option.bind_some] at c
        obtain ⟨o, ho⟩ := hi.cont path b3 hb
        obtain ⟨b2, hb2⟩ := hi.own p it path a (Or.inl b)
        rw [ho] at hb2
        simp only [Option.some.injEq, Prod.mk.injEq] at hb2
        refine ⟨b3, by rw [collect_written, ho, hb2.1], ?_⟩
        cases hd : decode b3 with
        | none => rfl
        | some c' => rw [hd] at c; cases c
    · rw [if_neg e] at h
      obtain ⟨it, a, path, b, c⟩ := hi.crash q h
      refine ⟨it, by rw [collect_itemsOf, if_neg e]; exact a, path, b, by rw [collect_written]; exact c⟩

theorem finv_handleFinish {s : St} (hi : FInv s) (p : Nat)
    (hcr : ∀ P : Pipe, s.pipes[p]? = some P → P.crashed = true → P.finished = true) : FInv (handleFinish s p) := by
  simp only [handleFinish]
  split
  · rename_i h
    simp only [Bool.and_eq_true, Bool.not_eq_true'] at h
    have hc : crashedOf s p = false := by
      cases e : s.pipes[p]? with
      | none => simp [crashedOf, e]
      | some P =>
        rw [crashedOf_get e]
        cases h2 : P.crashed with
        | false => rfl
        | true =>
          have := hcr P e h2
          rw [finishedOf_get e, this] at h; cases h.2
    have := finv_collect hi h.2 hc
    split
    · exact this
    · exact finv_resolve this p
  · exact finv_resolve hi p

end Pieshell.Job
