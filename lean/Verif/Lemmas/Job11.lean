import Verif.Lemmas.Job10
namespace Pieshell.Job
open Pieshell.Io (Bytes decode)

/-! ### TMP files are kept -/

def NotString (s : St) (path : Path) : Prop := ∀ q, ∀ it ∈ itemsOf s.pipes q, path ∉ it.strings.map Prod.snd

theorem notString_kf {s s' : St} {path : Path} (h : ∀ q, (itemsOf s'.pipes q).map kf = (itemsOf s.pipes q).map kf)
    (hn : NotString s path) : NotString s' path := by
  intro q it hit
  obtain ⟨jt, hjt, e⟩ := kf_mem (h q) hit
  have e2 : jt.strings = it.strings := by
    have := congrArg (fun x => x.2.1) e; simpa [kf] using this
  rw [← e2]
  exact hn q jt hjt

/-- A file that is there stays, unless it is that of a `STRING`. -/
def Keep (s s' : St) : Prop := ∀ path, NotString s path → s.fs.get? path ≠ none → s'.fs.get? path ≠ none

theorem keep_collect {s : St} (hu : Dict.Uniq s.fs) (p : Nat) : Keep s (collect s p) := by
  intro path hn h
  rw [collect_fs]
  split
  · rw [(unlinkItems_get _ _ hu).2 path, if_neg]
    · exact h
    · rintro ⟨it, hit, hm⟩; exact hn p it hit hm
  · exact h

theorem keep_handleFinish {s : St} (hu : Dict.Uniq s.fs) (p : Nat) : Keep s (handleFinish s p) := by
  intro path hn h
  simp only [handleFinish]
  split
  · split
    · exact keep_collect hu p path hn h
    · rw [(resolve_frame _ p).2.1]; exact keep_collect hu p path hn h
  · rw [(resolve_frame _ p).2.1]; exact h

theorem endWait_fs (s : St) (w p : Nat) : (endWait s w p).fs = s.fs := by
  simp only [endWait, St.modWaiter]
  split <;> rfl

theorem kf_endWait (s : St) (w p q : Nat) : (itemsOf (endWait s w p).pipes q).map kf = (itemsOf s.pipes q).map kf := by
  rw [endWait_pipes]
  split
  · exact kf_suspend s p q
  · rfl

theorem keep_loopCheck {s : St} (hu : Dict.Uniq s.fs) (w p : Nat) (c : Option Nat) : Keep s (loopCheck s w p c) := by
  intro path hn h
  simp only [loopCheck]
  split
  · rw [register_eq]
    simp only [St.modWaiter, St.modPipe]
    rw [(shadow_frame s w p).2.2.2.1]; exact h
  · rw [finishWait_eq]
    split
    · split
      · refine keep_handleFinish (by rw [endWait_fs]; exact hu) _ path (notString_kf (kf_endWait s w p) hn) ?_
        rw [endWait_fs]; exact h
      · rw [endWait_fs]; exact h
    · rw [endWait_fs]; exact h

theorem enter_fs (s : St) (p : Nat) : (enter s p).fs = s.fs := by
  simp only [enter, restart, St.modPipe]; split <;> rfl

theorem keep_resume {s : St} (hu : Dict.Uniq s.fs) (w : Nat) : Keep s (resume s w) := by
  intro path hn h
  cases hw : s.waiters[w]? with
  | none => rw [resume_none hw]; exact h
  | some W =>
    by_cases h1 : W.st = .fresh
    · rw [resume_fresh hw h1]
      refine keep_loopCheck (by rw [enter_fs]; exact hu) w W.pipe W.cont path (notString_kf (kf_enter s W.pipe) hn) ?_
      rw [enter_fs]; exact h
    · by_cases h2 : W.st = .woken
      · rw [resume_woken hw h2]
        exact keep_loopCheck hu w W.pipe W.cont path hn h
      · rcases resume_cases hw with h' | h' | ⟨b, -, h'⟩ | h'
        · exact absurd h'.1 h1
        · exact absurd h'.1 h2
        · rw [h']; exact h
        · rw [h'.2]; exact h

theorem cancel_fs (s : St) (w : Nat) : (cancel s w).fs = s.fs := by
  rcases cancel_cases s w with h | ⟨W, b, h1, h2, -, -, h3⟩
  · rw [h]
  · rw [h3]; rfl

theorem keep_start {s : St} (hi : Inv s none) (xs : List Spec) : Keep s (start s xs) := by
  intro path hn h
  cases hok : okSpecs s xs with
  | false => rw [start_no hok]; exact h
  | true =>
    rw [start_eq hi hok]
    show (addFiles s.fs [] xs).get? path ≠ none
    rw [addFiles, addFiles_get]
    split
    · simp
    · exact h

theorem keep_step {s : St} (hi : Inv s none) (hf : FInv s) (a : Act)
    {path : Path} (hn : NotString s path) (h : s.fs.get? path ≠ none)
    (ha : ∀ q, a = .removeFiles q → ∀ it ∈ itemsOf s.pipes q, path ∉ it.tmps.map Prod.snd) : (step s a).fs.get? path ≠ none := by
  cases a with
  | start xs => exact keep_start hi xs path hn h
  | bg =>
    simp only [step]
    split
    · exact h
    · rename_i t _
      exact keep_start (inv_restart hi t) _ path (notString_kf (kf_restart s t) hn) h
  | fg =>
    simp only [step]
    split
    · exact h
    · exact keep_start hi _ path hn h
  | wait p => simp only [step]; split <;> exact h
  | resume w => exact keep_resume hf.uniq w path hn h
  | cancel w => show (cancel s w).fs.get? path ≠ none; rw [cancel_fs]; exact h
  | finish p i o =>
    simp only [step]
    split
    · exact h
    · split <;> exact h
  | task p i =>
    simp only [step]
    split
    · exact h
    · split
      · split
        · exact h
        · exact keep_handleFinish (s := s.modItem p i overItem) hf.uniq p path
            (notString_kf (fun q => kf_modItem s p i overItem (fun _ => rfl) q) hn) h
      · exact h
  | tstp =>
    simp only [step]
    split
    · exact h
    · rw [(resolve_frame _ _).2.1]; exact h
  | write p i path' data =>
    simp only [step]
    split
    · exact h
    · split
      · split
        · show (s.fs.set path' _).get? path ≠ none
          rw [Dict.get?_set]
          split
          · simp
          · exact h
        · exact h
      · exact h
  | restart p => exact h
  | suspend p => exact h
  | removeFiles p =>
    show (removeItems s.fs (itemsOf s.pipes p)).1.get? path ≠ none
    rw [(removeItems_get _ _ hf.uniq).2.1 path (ha p rfl)]
    exact h

theorem tmp_notString {s : St} (hf : FInv s) {p : Nat} {it : Item} {path : Path} (hit : it ∈ itemsOf s.pipes p)
    (hp : path ∈ it.tmps.map Prod.snd) : NotString s path := by
  intro q jt hjt hm
  obtain ⟨b, hb⟩ := hf.own p it path hit (.inr hp)
  obtain ⟨b', hb'⟩ := hf.own q jt path hjt (.inl hm)
  rw [hb] at hb'; cases hb'
  exact hf.sep p jt it path hjt hit hm hp

def TmpOk (s : St) (p : Nat) : Prop := ∀ it ∈ itemsOf s.pipes p, ∀ path ∈ it.tmps.map Prod.snd, s.fs.get? path ≠ none

/-- Items of a pipeline before a step. -/
theorem items_back {s s' : St} (he : Ext s s') {p : Nat} (hp : p < s.pipes.length) :
    (itemsOf s'.pipes p).map kf = (itemsOf s.pipes p).map kf := by
  obtain ⟨P', hP', hkf, -, -⟩ := he.pipe p _ (List.getElem?_eq_getElem hp)
  rw [itemsOf_of_get hP', itemsOf_of_get (List.getElem?_eq_getElem hp)]
  exact hkf

theorem start_items {s : St} (hi : Inv s none) (xs : List Spec) {p : Nat} {it : Item} (h : it ∈ itemsOf (start s xs).pipes p) :
    (p < s.pipes.length ∧ it ∈ itemsOf s.pipes p) ∨ (p = s.pipes.length ∧ okSpecs s xs = true ∧ ∃ x ∈ xs, it = x.item) := by
  cases hok : okSpecs s xs with
  | false =>
    rw [start_no hok] at h
    left; refine ⟨?_, h⟩
    cases e : s.pipes[p]? with
    | none => simp [itemsOf, e] at h
    | some P => exact lt_of_get e
  | true =>
    rw [start_eq hi hok] at h
    rcases started_items h with h | ⟨h1, h2⟩
    · exact .inl h
    · exact .inr ⟨h1, rfl, h2⟩

theorem tmpOk_start {s : St} (hi : Inv s none) (hf : FInv s) (xs : List Spec) (p : Nat) (h : TmpOk s p) : TmpOk (start s xs) p := by
  intro it hit path hpath
  rcases start_items hi xs hit with ⟨hl, h1⟩ | ⟨rfl, hok, x, hx, rfl⟩
  · exact keep_start hi xs path (tmp_notString hf h1 hpath) (h it h1 path hpath)
  · rw [start_eq hi hok]
    show (addFiles s.fs [] xs).get? path ≠ none
    rw [addFiles, addFiles_get, if_pos]
    · simp
    · rw [List.mem_flatMap]
      exact ⟨x, hx, List.mem_append_right _ hpath⟩

theorem tmpOk_step {s : St} (hs : FullInv s) (a : Act) (p : Nat) (ha : a ≠ .removeFiles p) (h : TmpOk s p) : TmpOk (step s a) p := by
  obtain ⟨hi, hf, -⟩ := hs
  cases hst : a.starts with
  | true =>
    cases a with
    | start xs => exact tmpOk_start hi hf xs p h
    | bg =>
      simp only [step]
      split
      · exact h
      · rename_i t _
        refine tmpOk_start (inv_restart hi t) (finv_restart hf t) _ p ?_
        intro it hit path hpath
        obtain ⟨jt, hjt, e⟩ := kf_mem (kf_restart s t p) hit
        exact h jt hjt path (by have e' := congrArg (fun x => x.2.2) e; simp only [kf] at e'; rw [e']; exact hpath)
    | fg =>
      simp only [step]
      split
      · exact h
      · exact tmpOk_start hi hf _ p h
    | _ => cases hst
  | false =>
    intro it hit path hpath
    have hl : p < s.pipes.length := by
      rw [← length_step s a hst]
      cases e : (step s a).pipes[p]? with
      | none => simp [itemsOf, e] at hit
      | some P => exact lt_of_get e
    obtain ⟨jt, hjt, e⟩ := kf_mem (items_back (ext_step hi a) hl) hit
    have hpath' : path ∈ jt.tmps.map Prod.snd := by
      have e' := congrArg (fun x => x.2.2) e; simp only [kf] at e'; rw [e']; exact hpath
    refine keep_step hi hf a (tmp_notString hf hjt hpath') (h jt hjt path hpath') ?_
    rintro q rfl kt hkt hm
    obtain ⟨b, hb⟩ := hf.own p jt path hjt (.inr hpath')
    obtain ⟨b', hb'⟩ := hf.own q kt path hkt (.inr hm)
    rw [hb] at hb'; cases hb'
    exact ha rfl

theorem tmpOk_run (b : Bool) (as : List Act) (p : Nat) (h : .removeFiles p ∉ as) : TmpOk (run (init b) as) p := by
  suffices ∀ s, FullInv s → TmpOk s p → TmpOk (run s as) p from
    this _ (full_init b) (by intro it hit; simp [init, itemsOf] at hit)
  induction as with
  | nil => exact fun s _ h => h
  | cons a as ih =>
    intro s hs ht
    simp only [List.mem_cons, not_or] at h
    exact ih h.2 _ (full_step hs a) (tmpOk_step hs a p (fun e => h.1 e.symm) ht)

/-! ### Removing them -/

theorem removeTmps_ok {l : Dict Nat Path} {fs : Dict Path Bytes} (hu : Dict.Uniq fs) (hn : (l.map Prod.snd).Nodup)
    (h : ∀ path ∈ l.map Prod.snd, fs.get? path ≠ none) :
    (removeTmps fs l).2 = true ∧ Dict.Uniq (removeTmps fs l).1 ∧
    ∀ path, (removeTmps fs l).1.get? path = if path ∈ l.map Prod.snd then none else fs.get? path := by
  induction l generalizing fs with
  | nil => simp [removeTmps, hu]
  | cons x l ih =>
    obtain ⟨k, q⟩ := x
    simp only [List.map_cons, List.nodup_cons] at hn
    simp only [removeTmps]
    have hq := h q (by simp)
    cases e : fs.get? q with
    | none => exact absurd e hq
    | some b =>
      simp only
      have hu' : Dict.Uniq (fs.erase q) := Dict.uniq_erase _ hu q
      have := ih hu' hn.2 (fun path hp => by
        rw [Dict.get?_erase _ hu, if_neg]
        · exact h path (List.mem_cons_of_mem _ hp)
        · rintro rfl; exact hn.1 hp)
      refine ⟨this.1, this.2.1, fun path => ?_⟩
      rw [this.2.2 path, Dict.get?_erase _ hu]
      by_cases e1 : path ∈ l.map Prod.snd
      · rw [if_pos e1, if_pos (by simp only [List.map_cons, List.mem_cons]; exact .inr e1)]
      · rw [if_neg e1]
        by_cases e2 : q = path
        · subst e2; simp
        · rw [if_neg e2, if_neg]
          simp only [List.map_cons, List.mem_cons, not_or]
          exact ⟨fun e => e2 e.symm, e1⟩

theorem removeItems_ok {l : List Item} {fs : Dict Path Bytes} (hu : Dict.Uniq fs)
    (hn : (l.flatMap (fun it => it.tmps.map Prod.snd)).Nodup)
    (h : ∀ it ∈ l, ∀ path ∈ it.tmps.map Prod.snd, fs.get? path ≠ none) :
    (removeItems fs l).2 = true ∧
    ∀ path, (removeItems fs l).1.get? path = if ∃ it ∈ l, path ∈ it.tmps.map Prod.snd then none else fs.get? path := by
  induction l generalizing fs with
  | nil => simp [removeItems]
  | cons x l ih =>
    simp only [List.flatMap_cons, List.nodup_append] at hn
    obtain ⟨h1, hu', h2⟩ := removeTmps_ok hu hn.1 (h x (by simp))
    have := ih hu' hn.2.1 (fun it hit path hp => by
      rw [h2, if_neg]
      · exact h it (List.mem_cons_of_mem _ hit) path hp
      · intro hx
        exact hn.2.2 path hx path (List.mem_flatMap.2 ⟨it, hit, hp⟩) rfl)
    simp only [removeItems, h1, if_true]
    refine ⟨this.1, fun path => ?_⟩
    rw [this.2 path, h2]
    by_cases e1 : ∃ it ∈ l, path ∈ it.tmps.map Prod.snd
    · rw [if_pos e1, if_pos]
      obtain ⟨it, hit, hp⟩ := e1
      exact ⟨it, List.mem_cons_of_mem _ hit, hp⟩
    · rw [if_neg e1]
      by_cases e2 : path ∈ x.tmps.map Prod.snd
      · rw [if_pos e2, if_pos ⟨x, by simp, e2⟩]
      · rw [if_neg e2, if_neg]
        rintro ⟨it, hit, hp⟩
        rcases List.mem_cons.1 hit with rfl | hit
        · exact e2 hp
        · exact e1 ⟨it, hit, hp⟩

end Pieshell.Job
