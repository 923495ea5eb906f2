import Verif.Spec.History
/-!
# C150: the history of the shell

All that is typed in a shell is in the history of the shells started after it has ended, together with what was in the history before.

That is so if one shell runs at a time (`C150_partial`). In general (`C150_exact`) the file is, when a shell ends, what it was when that shell was *started*, followed by what was typed in it:
what other shells have written meanwhile is lost (`C150_refuted`).
-/
namespace Pieshell.History

theorem grown_add {a b : List Str} {l : Str} {ls : List Str} (h : Grown (add a l) ls b) : Grown a (l :: ls) b := by
  unfold add at h
  split at h
  · next hc =>
    by_cases he : l = []
    · subst he; exact .empty h
    · rcases hc with hc | hc
      · exact absurd hc he
      · obtain ⟨c, rfl⟩ := List.getLast?_eq_some_iff.1 hc
        exact .again h
  · next hc => exact .new (fun e => hc (.inl e)) (fun e => hc (.inr e)) h

theorem Grown.det {a ls b : List Str} (h : Grown a ls b) : b = ls.foldl add a := by
  induction h with
  | nil => rfl
  | empty _ ih => rw [ih]; simp [add]
  | again _ ih => rw [ih]; simp [add]
  | new h1 h2 _ ih => rw [ih]; simp [add, h1, h2]

theorem grown_foldl : ∀ (ls a : List Str), Grown a ls (ls.foldl add a)
  | [], _ => .nil
  | _ :: ls, _ => grown_add (grown_foldl ls _)

/-- Nothing that was there is lost, and all that has been typed is there, nothing else. -/
theorem Grown.mem {a ls b : List Str} (h : Grown a ls b) : (∃ c, b = a ++ c) ∧ ∀ x, x ∈ b ↔ x ∈ a ∨ (x ∈ ls ∧ x ≠ []) := by
  induction h with
  | nil => exact ⟨⟨[], by simp⟩, fun x => by simp⟩
  | empty h ih =>
    refine ⟨ih.1, fun x => ?_⟩
    rw [ih.2, List.mem_cons]
    constructor
    · rintro (h | h)
      · exact .inl h
      · exact .inr ⟨.inr h.1, h.2⟩
    · rintro (h | ⟨h | h, h'⟩)
      · exact .inl h
      · exact absurd h h'
      · exact .inr ⟨h, h'⟩
  | @again a l ls b h ih =>
    refine ⟨ih.1, fun x => ?_⟩
    rw [ih.2, List.mem_cons]
    constructor
    · rintro (h | h)
      · exact .inl h
      · exact .inr ⟨.inr h.1, h.2⟩
    · rintro (h | ⟨h | h, h'⟩)
      · exact .inl h
      · exact .inl (by rw [h]; simp)
      · exact .inr ⟨h, h'⟩
  | @new a l ls b h1 h2 h ih =>
    refine ⟨?_, fun x => ?_⟩
    · obtain ⟨c, hc⟩ := ih.1; exact ⟨l :: c, by rw [hc]; simp⟩
    · rw [ih.2, List.mem_append, List.mem_singleton, List.mem_cons]
      constructor
      · rintro ((h | h) | h)
        · exact .inl h
        · exact .inr ⟨.inl h, h ▸ h1⟩
        · exact .inr ⟨.inr h.1, h.2⟩
      · rintro (h | ⟨h | h, h'⟩)
        · exact .inl (.inl h)
        · exact .inl (.inr h)
        · exact .inr ⟨h, h'⟩

theorem dir_step {s : St} (a : Act) (h : s.dir = true) : (s.step a).dir = true := by
  cases a <;> simp only [St.step] <;> first | exact h | (split <;> exact h) | trivial

theorem dir_run : ∀ (as : List Act) {s : St}, s.dir = true → (s.run as).dir = true
  | [], _, h => h
  | a :: as, _, h => dir_run as (dir_step a h)

theorem mem_run {k : Nat} : ∀ (mid : List Act) {s : St} {h : List Str}, s.mem k = some h → (∀ a ∈ mid, ¬ a.about k) → (s.run mid).mem k = some ((typed k mid).foldl add h)
  | [], _, _, hm, _ => hm
  | a :: mid, s, h, hm, hn => by
    have hn' : ∀ a ∈ mid, ¬ a.about k := fun a ha => hn a (List.mem_cons_of_mem _ ha)
    have ha := hn a List.mem_cons_self
    have e : s.run (a :: mid) = (s.step a).run mid := rfl
    rw [e]
    cases a with
    | start j =>
      have hj : ¬ k = j := fun e => ha e.symm
      exact mem_run mid (by simp only [St.step, if_neg hj]; exact hm) hn'
    | line j l =>
      simp only [typed]
      by_cases hj : j = k
      · subst hj
        rw [if_pos rfl]
        exact mem_run mid (s := s.step (.line j l)) (h := add h l) (by simp [St.step, hm]) hn'
      · rw [if_neg hj]
        exact mem_run mid (by simp only [St.step]; rw [if_neg (fun e => hj e.symm)]; exact hm) hn'
    | exit j =>
      have hj : ¬ k = j := fun e => ha e.symm
      refine mem_run mid ?_ hn'
      simp only [St.step]
      split
      · exact hm
      · simp only [if_neg hj]; exact hm
    | kill j =>
      have hj : ¬ k = j := fun e => ha e.symm
      exact mem_run mid (by simp only [St.step, if_neg hj]; exact hm) hn'
    | mkdir => exact mem_run mid hm hn'

/-- In every history: when a shell ends, the file is what it was when that shell was started, followed by what has been typed in it. -/
theorem C150_exact {s : St} (hd : s.dir = true) {k : Nat} {mid : List Act} (hn : ∀ a ∈ mid, ¬ a.about k) :
    ∃ h, (s.run (.start k :: mid ++ [.exit k])).file = some h ∧ Grown (s.file.getD []) (typed k mid) h := by
  refine ⟨_, ?_, grown_foldl (typed k mid) (s.file.getD [])⟩
  have hm : ((s.step (.start k)).run mid).mem k = _ := mem_run mid (h := s.file.getD []) (by simp [St.step]) hn
  have hdir : ((s.step (.start k)).run mid).dir = true := dir_run mid (dir_step _ hd)
  have e : s.run (.start k :: mid ++ [.exit k]) = ((s.step (.start k)).run mid).step (.exit k) := by simp [St.run]
  rw [e]
  simp only [St.step] at hm hdir ⊢
  rw [hm]
  simp only [hdir, if_true]

/-- So, what has been typed in another shell meanwhile is lost, although that one has ended properly, before this one: for all shells, all that is typed in them, and everything else that happens between. -/
theorem C150_refuted {s : St} (hd : s.dir = true) {j k : Nat} {mid : List Act} (hn : ∀ a ∈ mid, ¬ a.about k) {l : Str}
    (h1 : l ∉ s.file.getD []) (h2 : l ∉ typed k mid) (_ : l ∈ typed j mid) (_ : .exit j ∈ mid) :
    ∃ h, (s.run (.start k :: mid ++ [.exit k])).file = some h ∧ l ∉ h := by
  obtain ⟨h, hf, hg⟩ := C150_exact hd hn
  refine ⟨h, hf, fun hl => ?_⟩
  rcases (hg.mem.2 l).1 hl with h | ⟨h, _⟩
  · exact h1 h
  · exact h2 h

theorem one_by_one : ∀ (as : List Act) (s : St) (r : Option Nat) (m : List Str), s.dir = true → OneByOne r as →
    (match r with | none => s.file.getD [] = m | some k => s.mem k = some m) →
    match (s.run as).mem, (s.run as).file, as.getLast? with
    | _, f, some (.exit _) => f = some ((allTyped as).foldl add m)
    | _, _, _ => True
  | [], _, _, _, _, _, _ => trivial
  | a :: as, s, r, m, hd, ho, hm => by
    have e : s.run (a :: as) = (s.step a).run as := rfl
    have hd' := dir_step a hd
    cases as with
    | nil =>
      cases a with
      | exit k =>
        simp only [List.getLast?_singleton, allTyped, List.foldl_nil]
        obtain ⟨rfl, _⟩ : r = some k ∧ OneByOne none [] := by cases r <;> exact ho
        simp only at hm
        show (s.step (.exit k)).file = some m
        simp only [St.step]
        rw [hm]; simp [hd]
      | _ => trivial
    | cons b as =>
      rw [List.getLast?_cons_cons, e]
      cases a with
      | start k =>
        cases r with
        | some _ => exact absurd ho (by simp [OneByOne])
        | none => exact one_by_one (b :: as) _ (some k) m hd' ho (by simp only at hm ⊢; simp [St.step, hm])
      | line k l =>
        obtain ⟨rfl, ho⟩ : r = some k ∧ OneByOne r (b :: as) := by cases r <;> exact ho
        exact one_by_one (b :: as) _ (some k) (add m l) hd' ho (by simp only at hm ⊢; simp [St.step, hm])
      | exit k =>
        obtain ⟨rfl, ho2⟩ : r = some k ∧ OneByOne none (b :: as) := by cases r <;> exact ho
        refine one_by_one (b :: as) _ none m hd' ho2 ?_
        simp only at hm ⊢
        simp only [St.step]
        rw [hm]; simp [hd]
      | kill k => cases r <;> exact absurd ho (by simp [OneByOne])
      | mkdir =>
        have ho : OneByOne r (b :: as) := by cases r <;> exact ho
        refine one_by_one (b :: as) _ r m hd' ho ?_
        cases r <;> exact hm

/-- If shells run one after the other, the file is, whenever one ends, what it was at first, followed by all that has been typed in all of them. -/
theorem C150_partial {s : St} (hd : s.dir = true) {as : List Act} {k : Nat} (ho : OneByOne none (as ++ [.exit k])) :
    ∃ h, (s.run (as ++ [.exit k])).file = some h ∧ Grown (s.file.getD []) (allTyped (as ++ [.exit k])) h := by
  have h := one_by_one (as ++ [.exit k]) s none _ hd ho rfl
  simp only [List.getLast?_concat] at h
  exact ⟨_, h, grown_foldl _ _⟩

/-- Without the directory (the first start, with `--no-startup`) nothing is ever kept. -/
theorem C150_no_directory {s : St} (hd : s.dir = false) {as : List Act} (hn : Act.mkdir ∉ as) : (s.run as).file = s.file := by
  induction as generalizing s with
  | nil => rfl
  | cons a as ih =>
    have hn' : Act.mkdir ∉ as := fun h => hn (List.mem_cons_of_mem _ h)
    have ha : a ≠ .mkdir := fun e => hn (e ▸ List.mem_cons_self)
    have e : s.run (a :: as) = (s.step a).run as := rfl
    have hs : (s.step a).dir = false ∧ (s.step a).file = s.file := by
      cases a with
      | mkdir => exact absurd rfl ha
      | exit k =>
        simp only [St.step]
        split
        · exact ⟨hd, rfl⟩
        · simp [hd]
      | _ => exact ⟨hd, rfl⟩
    rw [e, ih hs.1 hn', hs.2]

/-! ### Cases -/

/-- A home directory with one line in the history. -/
def home : St := { file := some [c!"ls"], dir := true, mem := fun _ => none }

/-- `C150_partial`: two shells, one after the other. -/
example : OneByOne none ([.start 0, .line 0 c!"cd", .line 0 c!"cd", .exit 0, .start 1, .line 1 c!"ls"] ++ [.exit 1]) ∧
    (home.run ([.start 0, .line 0 c!"cd", .line 0 c!"cd", .exit 0, .start 1, .line 1 c!"ls"] ++ [.exit 1])).file = some [c!"ls", c!"cd", c!"ls"] := by
  refine ⟨by simp [OneByOne], by rfl⟩

/-- `C150_exact`, `C150_refuted`: two at a time; what was typed in the one that has ended first is lost. -/
example : (home.run (.start 0 :: [.start 1, .line 1 c!"make", .line 0 c!"cd", .exit 1] ++ [.exit 0])).file = some [c!"ls", c!"cd"] ∧
    ∃ h, (home.run (.start 0 :: [.start 1, .line 1 c!"make", .line 0 c!"cd", .exit 1] ++ [.exit 0])).file = some h ∧ c!"make" ∉ h :=
  ⟨by rfl, C150_refuted (j := 1) rfl (by simp [Act.about]) (by simp [home]) (by simp [typed]) (by simp [typed]) (by simp)⟩

/-- `C150_no_directory`: its hypotheses. -/
example : (({ home with dir := false } : St).run [.start 0, .line 0 c!"cd", .exit 0]).file = some [c!"ls"] := C150_no_directory rfl (by simp)

end Pieshell.History
