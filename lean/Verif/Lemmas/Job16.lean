import Verif.Lemmas.Job15
/-! What a step does to one temporary file. -/
namespace Pieshell.Job
open Pieshell.Io (Bytes decode)

/-- Nothing is written to the file, and if it is not there, it is not made. -/
def Leaves (path : Path) (s s' : St) : Prop := s'.written.get? path = s.written.get? path ∧ (s.fs.get? path = none → s'.fs.get? path = none)

theorem Leaves.of_eq {path : Path} {s s' : St} (h1 : s'.written = s.written) (h2 : s'.fs = s.fs) : Leaves path s s' := by
  constructor
  · rw [h1]
  · rw [h2]; exact id

theorem Leaves.trans {path : Path} {s t u : St} (h1 : Leaves path s t) (h2 : Leaves path t u) : Leaves path s u :=
  ⟨h2.1.trans h1.1, fun h => h2.2 (h1.2 h)⟩

theorem leaves_resolve (path : Path) (s : St) (p : Nat) : Leaves path s (resolve s p) := by
  apply Leaves.of_eq
  · unfold resolve; split <;> rfl
  · exact (resolve_frame s p).2.1

theorem leaves_collect (path : Path) {s : St} (hu : Dict.Uniq s.fs) (p : Nat) : Leaves path s (collect s p) := by
  refine ⟨by rw [collect_written], fun h => ?_⟩
  rw [collect_fs]
  split
  · rw [(unlinkItems_get _ _ hu).2 path]
    split
    · rfl
    · exact h
  · exact h

theorem leaves_handleFinish (path : Path) {s : St} (hu : Dict.Uniq s.fs) (p : Nat) : Leaves path s (handleFinish s p) := by
  simp only [handleFinish]
  split
  · split
    · exact leaves_collect path hu p
    · exact (leaves_collect path hu p).trans (leaves_resolve path _ p)
  · exact leaves_resolve path s p

theorem endWait_written (s : St) (w p : Nat) : (endWait s w p).written = s.written := by
  simp only [endWait, St.modWaiter]
  split <;> rfl

theorem register_written (s : St) (w p : Nat) : (register s w p).written = s.written := by
  simp only [register, St.modWaiter, St.modPipe]
  split
  · split <;> rfl
  · rfl

theorem register_fs (s : St) (w p : Nat) : (register s w p).fs = s.fs := by
  rw [register_eq]
  simp only [St.modWaiter, St.modPipe]
  rw [(shadow_frame s w p).2.2.2.1]

theorem leaves_loopCheck (path : Path) {s : St} (hu : Dict.Uniq s.fs) (w p : Nat) (c : Option Nat) : Leaves path s (loopCheck s w p c) := by
  simp only [loopCheck]
  split
  · exact .of_eq (register_written s w p) (register_fs s w p)
  · rw [finishWait_eq]
    have h0 : Leaves path s (endWait s w p) := .of_eq (endWait_written s w p) (endWait_fs s w p)
    split
    · split
      · exact h0.trans (leaves_handleFinish path (by rw [endWait_fs]; exact hu) _)
      · exact h0
    · exact h0

theorem enter_written (s : St) (p : Nat) : (enter s p).written = s.written := by
  simp only [enter, restart, St.modPipe]; split <;> rfl

theorem leaves_resume (path : Path) {s : St} (hu : Dict.Uniq s.fs) (w : Nat) : Leaves path s (resume s w) := by
  cases hw : s.waiters[w]? with
  | none => rw [resume_none hw]; exact .of_eq rfl rfl
  | some W =>
    by_cases h1 : W.st = .fresh
    · rw [resume_fresh hw h1]
      exact (Leaves.of_eq (enter_written s W.pipe) (enter_fs s W.pipe)).trans
        (leaves_loopCheck path (by rw [enter_fs]; exact hu) w W.pipe W.cont)
    · by_cases h2 : W.st = .woken
      · rw [resume_woken hw h2]
        exact leaves_loopCheck path hu w W.pipe W.cont
      · rcases resume_cases hw with h' | h' | ⟨b, -, h'⟩ | h'
        · exact absurd h'.1 h1
        · exact absurd h'.1 h2
        · rw [h']; exact .of_eq rfl rfl
        · rw [h'.2]; exact .of_eq rfl rfl

theorem leaves_start {path : Path} {s : St} (hi : Inv s none) (xs : List Spec) (h : s.written.get? path ≠ none) : Leaves path s (start s xs) := by
  cases hok : okSpecs s xs with
  | false => rw [start_no hok]; exact .of_eq rfl rfl
  | true =>
    rw [start_eq hi hok]
    have hn : path ∉ xs.flatMap Spec.paths := by
      intro hm
      obtain ⟨x, hx, hp⟩ := List.mem_flatMap.1 hm
      exact h (okSpecs_new hok hx hp).1
    constructor
    · show (addFiles s.written _ xs).get? path = _
      rw [addFiles, addFiles_get, if_neg hn]
    · intro h0
      show (addFiles s.fs [] xs).get? path = none
      rw [addFiles, addFiles_get, if_neg hn]
      exact h0

/-- A step other than one that writes to the file. -/
theorem leaves_step {path : Path} {s : St} (hg : Good s) (a : Act) (h : s.written.get? path ≠ none)
    (hne : ∀ p i d, a = .write p i path d → ∃ o b, s.written.get? path = some (o, b) ∧ o ≠ p) : Leaves path s (step s a) := by
  have hu := hg.files.uniq
  cases a with
  | start xs => exact leaves_start hg.inv xs h
  | bg =>
    simp only [step]
    split
    · exact .of_eq rfl rfl
    · rename_i t _
      exact (Leaves.of_eq (s' := restart s t) rfl rfl).trans (leaves_start (inv_restart hg.inv t) _ h)
  | fg =>
    simp only [step]
    split
    · exact .of_eq rfl rfl
    · exact leaves_start hg.inv _ h
  | wait p => simp only [step]; split <;> exact .of_eq rfl rfl
  | resume w => exact leaves_resume path hu w
  | cancel w =>
    show Leaves path s (cancel s w)
    rcases cancel_cases s w with h | ⟨W, b, h1, h2, -, -, h3⟩
    · rw [h]; exact .of_eq rfl rfl
    · rw [h3]; exact .of_eq rfl rfl
  | finish p i o =>
    simp only [step]
    split
    · exact .of_eq rfl rfl
    · split <;> exact .of_eq rfl rfl
  | task p i =>
    simp only [step]
    split
    · exact .of_eq rfl rfl
    · split
      · split
        · exact .of_eq rfl rfl
        · exact leaves_handleFinish (s := s.modItem p i overItem) path hu p
      · exact .of_eq rfl rfl
  | tstp =>
    simp only [step]
    split
    · exact .of_eq rfl rfl
    · exact (Leaves.of_eq (s' := s.modPipe _ _) rfl rfl).trans (leaves_resolve path _ _)
  | write p i path' data =>
    simp only [step]
    split
    · exact .of_eq rfl rfl
    · rename_i it hit
      split
      · rename_i hc
        split
        · by_cases e : path' = path
          · subst e
            obtain ⟨o, b, h1, h2⟩ := hne p i data rfl
            obtain ⟨b', h3⟩ := hg.files.own p it path' (List.mem_of_getElem? (show (itemsOf s.pipes p)[i]? = some it from hit)) hc.2
            rw [h1] at h3
            cases h3
            exact absurd rfl h2
          · constructor
            · show (s.written.set path' _).get? path = _
              rw [Dict.get?_set, if_neg e]
            · intro h0
              show (s.fs.set path' _).get? path = none
              rw [Dict.get?_set, if_neg e]
              exact h0
        · exact .of_eq rfl rfl
      · exact .of_eq rfl rfl
  | restart p => exact .of_eq rfl rfl
  | suspend p => exact .of_eq rfl rfl
  | removeFiles p =>
    refine ⟨rfl, fun h0 => ?_⟩
    show (removeItems s.fs (itemsOf s.pipes p)).1.get? path = none
    cases e : (removeItems s.fs (itemsOf s.pipes p)).1.get? path with
    | none => rfl
    | some b => rw [(removeItems_get _ _ hu).2.2 path b e] at h0; cases h0

/-- A step that writes to the file. -/
theorem write_takes {s : St} {p i : Nat} {path : Path} {it : Item} {o : Nat} {b d : Bytes} (hit : itemAt s p i = some it) (hr : it.state = .running)
    (hp : path ∈ it.strings.map Prod.snd ∨ path ∈ it.tmps.map Prod.snd) (hf : s.fs.get? path ≠ none) (hw : s.written.get? path = some (o, b)) :
    (step s (.write p i path d)).written.get? path = some (o, b ++ d) := by
  cases e : s.fs.get? path with
  | none => exact absurd e hf
  | some c =>
    simp only [step, hit, hr, hp, and_self, if_true, e, hw]
    rw [Dict.get?_set, if_pos rfl]

theorem write_gone {s : St} {p i : Nat} {path : Path} {d : Bytes} (hf : s.fs.get? path = none) : step s (.write p i path d) = s := by
  simp only [step]
  split
  · rfl
  · split
    · rw [hf]
    · rfl

end Pieshell.Job
