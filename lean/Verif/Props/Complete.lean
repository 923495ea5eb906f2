import Verif.Spec.Complete
/-!
# C113: completion at the prompt
-/
namespace Pieshell.Compl

theorem cut_eq {text : Str} {n : Nat} (h : n ≤ text.length) : ∃ b, text = cut text n ++ b ∧ b.length = n := by
  refine ⟨text.drop (text.length - n), ?_, ?_⟩
  · simp [cut, h, List.take_append_drop]
  · simp; omega

theorem pointwise_map (text : Str) : ∀ cs : List Completion, (∀ c ∈ cs, c.like ≤ text.length) →
    Pointwise (Completes text) cs (cs.map (fun c => cut text c.like ++ c.name))
  | [], _ => .nil
  | c :: cs, h => by
    refine .cons ?_ (pointwise_map text cs (fun x hx => h x (List.mem_cons_of_mem _ hx)))
    obtain ⟨b, hb, hl⟩ := cut_eq (h c (by simp))
    exact ⟨_, b, hb, hl, rfl⟩

theorem complete_succ (r : Request) (w : World) (n : Nat) : complete r w (n + 1) = pick w (n + 1) := by simp [complete]

/-- from state 1 on the rest of the list is gathered, and nothing changes -/
theorem collect_rest {r : Request} {p m : List Str} : ∀ {w : World} {n : Nat} {l w'}, Collect r w n l w' → 0 < n → w = ⟨p, some m⟩ → l = m.drop n ∧ w' = w := by
  intro w n l w' h
  induction h with
  | @stop w n w' h =>
    intro hn hw
    cases n with
    | zero => omega
    | succ n =>
      rw [complete_succ, hw] at h
      simp only [pick, Prod.mk.injEq, Except.ok.injEq] at h
      exact ⟨(List.drop_eq_nil_of_le (List.getElem?_eq_none_iff.1 h.1)).symm, by rw [hw, ← h.2]⟩
  | @fail w n e w' h =>
    intro hn hw
    cases n with
    | zero => omega
    | succ n => rw [complete_succ, hw] at h; simp [pick] at h
  | @more w n s w' l w'' h _ ih =>
    intro hn hw
    cases n with
    | zero => omega
    | succ n =>
      rw [complete_succ, hw] at h
      simp only [pick, Prod.mk.injEq, Except.ok.injEq] at h
      obtain ⟨i1, i2⟩ := ih (by omega) h.2.symm
      obtain ⟨hlt, hs⟩ := List.getElem?_eq_some_iff.1 h.1
      refine ⟨?_, by rw [i2, hw, ← h.2]⟩
      rw [i1, List.drop_eq_getElem_cons hlt, hs]

/-- readline gets to an end from state `n` on -/
theorem collect_ends_rest (r : Request) (p m : List Str) : ∀ k n, 0 < n → m.length ≤ n + k → Collect r ⟨p, some m⟩ n (m.drop n) ⟨p, some m⟩ := by
  intro k
  induction k with
  | zero =>
    intro n hn hk
    rw [List.drop_eq_nil_of_le (by omega)]
    refine .stop ?_
    cases n with
    | zero => omega
    | succ n => rw [complete_succ]; simp [pick]; omega
  | succ k ih =>
    intro n hn hk
    cases n with
    | zero => omega
    | succ n =>
      by_cases hlt : n + 1 < m.length
      · rw [List.drop_eq_getElem_cons hlt]
        refine .more (w' := ⟨p, some m⟩) ?_ (ih (n + 2) (by omega) (by omega))
        rw [complete_succ]; simp [pick, hlt]
      · rw [List.drop_eq_nil_of_le (by omega)]
        refine .stop ?_
        rw [complete_succ]; simp [pick]; omega

/-- what the first call decides: the list and the path -/
def first (r : Request) (w : World) : List Str × World :=
  match r.getcwd with
  | .error _ => ([], w)
  | .ok d =>
    match r.jedi (d :: w.path) with
    | (.error _, p) => ([], { w with path := p.tail })
    | (.ok cs, []) => ([], ⟨[], some (cs.map (fun c => cut r.text c.like ++ c.name))⟩)
    | (.ok cs, _ :: p) => (cs.map (fun c => cut r.text c.like ++ c.name), ⟨p, some (cs.map (fun c => cut r.text c.like ++ c.name))⟩)

theorem complete_zero (r : Request) (w : World) :
    (∃ e, complete r w 0 = (.error e, (first r w).2) ∧ (first r w).1 = []) ∨
    (∃ p m, complete r w 0 = (.ok m[0]?, ⟨p, some m⟩) ∧ first r w = (m, ⟨p, some m⟩)) := by
  unfold complete first
  cases hg : r.getcwd with
  | error e => left; exact ⟨e, by simp⟩
  | ok d =>
    rcases hj : r.jedi (d :: w.path) with ⟨x, p⟩
    cases x with
    | error e => cases p <;> simp [hj]
    | ok cs =>
      cases p with
      | nil => simp [hj]
      | cons a p => right; exact ⟨p, cs.map (fun c => cut r.text c.like ++ c.name), by simp [hj, pick], by simp [hj]⟩

theorem collect_first (r : Request) (w : World) : Collect r w 0 (first r w).1 (first r w).2 := by
  rcases complete_zero r w with ⟨e, h1, h2⟩ | ⟨p, m, h1, h2⟩
  · rw [h2]; exact .fail h1
  · rw [h2]
    cases m with
    | nil => exact .stop h1
    | cons a m => exact .more h1 (collect_ends_rest r p (a :: m) m.length 1 (by omega) (by simp; omega))

theorem collect_unique {r : Request} {w : World} {l : List Str} {w' : World} (h : Collect r w 0 l w') : (l, w') = first r w := by
  rcases complete_zero r w with ⟨e, h1, h2⟩ | ⟨p, m, h1, h2⟩
  · cases h with
    | stop h => rw [h1] at h; simp at h
    | fail h =>
      rw [h1] at h
      simp only [Prod.mk.injEq] at h
      rw [← h.2, ← h2]
    | more h _ => rw [h1] at h; simp at h
  · rw [h2]
    cases h with
    | stop h =>
      rw [h1] at h
      simp only [Prod.mk.injEq, Except.ok.injEq] at h
      cases m with
      | nil => simp [h.2]
      | cons a m => simp at h
    | fail h => rw [h1] at h; simp at h
    | more h hc =>
      rw [h1] at h
      simp only [Prod.mk.injEq, Except.ok.injEq] at h
      obtain ⟨i1, i2⟩ := collect_rest hc (by omega) h.2.symm
      cases m with
      | nil => simp at h
      | cons a m => simp at h; simp [i1, i2, ← h.1, ← h.2]

/-- **C113** (every request is answered): readline always comes to an end, with one result. -/
theorem C113_ends (r : Request) (w : World) : ∃ l w', Collect r w 0 l w' ∧ ∀ l2 w2, Collect r w 0 l2 w2 → l2 = l ∧ w2 = w' := by
  refine ⟨_, _, collect_first r w, fun l2 w2 h => ?_⟩
  have := collect_unique h
  rw [← this]; simp

/-- **C113** (what is offered): one text for each completion, in order, each the line with the name being typed completed; nothing if the search fails.
(The path may be changed by the search in any way but being emptied.) -/
theorem C113_offered (r : Request) (w : World) (hs : Sane r w.path) (hne : ∀ d, (r.jedi (d :: w.path)).2 ≠ []) {l : List Str} {w' : World}
    (h : Collect r w 0 l w') : Answer r w.path l := by
  have hu := collect_unique h
  unfold Answer
  unfold first at hu
  cases hg : r.getcwd with
  | error e => rw [hg] at hu; simp at hu; exact hu.1
  | ok d =>
    rw [hg] at hu
    simp only at hu ⊢
    have hne := hne d
    have hs := fun cs => hs d cs hg
    rcases hj : r.jedi (d :: w.path) with ⟨x, p⟩
    rw [hj] at hu hne hs
    cases x with
    | error e => simp at hu ⊢; exact hu.1
    | ok cs =>
      cases p with
      | nil => simp at hne
      | cons a p =>
        simp at hu
        rw [hu.1]
        exact pointwise_map _ cs (hs cs rfl)

/-- **C113** (the import path, exactly): it is as it was before, if and only if the search did not begin, or left the path it was given except for its first entry. -/
theorem C113_path (r : Request) (w : World) {l : List Str} {w' : World} (h : Collect r w 0 l w') :
    w'.path = w.path ↔ (∃ e, r.getcwd = .error e) ∨ ∃ d, r.getcwd = .ok d ∧ (r.jedi (d :: w.path)).2.tail = w.path := by
  have hu := collect_unique h
  have hw : w' = (first r w).2 := by rw [← hu]
  rw [hw]
  unfold first
  cases hg : r.getcwd with
  | error e => simp
  | ok d =>
    rcases hj : r.jedi (d :: w.path) with ⟨x, p⟩
    cases x with
    | error e => simp [hj]
    | ok cs => cases p <;> simp [hj]

/-- **C113** (any session): whatever was asked for before, and whether searches succeeded or failed, each request is answered with what `jedi` finds for it
with the import path of the shell, and in the end the import path is what it was. -/
theorem C113_session : ∀ (rs : List Request) (w : World) (ls : List (List Str)) (w' : World), (∀ r ∈ rs, Quiet r ∧ Sane r w.path) → Session w rs ls w' →
    Pointwise (fun r l => Answer r w.path l) rs ls ∧ w'.path = w.path
  | [], w, ls, w', _, h => by cases h; exact ⟨.nil, rfl⟩
  | r :: rs, w, ls, w', hq, h => by
    cases h with
    | @cons _ _ l w1 _ ls' _ hc hs =>
      have hr := hq r (by simp)
      have hp : w1.path = w.path := by
        rw [C113_path r w hc]
        cases hg : r.getcwd with
        | error e => exact .inl ⟨e, rfl⟩
        | ok d => exact .inr ⟨d, rfl, by rw [hr.1]; rfl⟩
      have hi := C113_session rs w1 ls' w' (by rw [hp]; exact fun x hx => hq x (List.mem_cons_of_mem _ hx)) hs
      rw [hp] at hi
      exact ⟨.cons (C113_offered r w hr.2 (fun d => by rw [hr.1]; simp) hc) hi.1, hi.2⟩

/-- three requests: `env.l` (two completions), a failing search, and one in a directory that was removed -/
def demo : List Request :=
  [⟨c!"env.l", .ok c!"/here", fun p => (.ok [⟨1, c!"ls"⟩, ⟨1, c!"ln"⟩], p)⟩,
   ⟨c!"a(", .ok c!"/here", fun p => (.error .other, p)⟩,
   ⟨c!"b", .error .fileNotFound, fun p => (.ok [⟨1, c!"bg"⟩], p)⟩]

/-- the hypotheses are met, and the session exists -/
example : (∀ r ∈ demo, Quiet r ∧ Sane r [c!"/lib"]) ∧
    ∃ w', Session ⟨[c!"/lib"], none⟩ demo [[c!"env.ls", c!"env.ln"], [], []] w' := by
  refine ⟨?_, ?_⟩
  · intro r hr
    simp only [demo, List.mem_cons, List.not_mem_nil, or_false] at hr
    rcases hr with rfl | rfl | rfl
    · refine ⟨fun p => rfl, ?_⟩
      intro d cs _ h c hc
      simp at h; subst h
      simp at hc
      rcases hc with rfl | rfl <;> decide
    · exact ⟨fun p => rfl, fun d cs _ h => by simp at h⟩
    · exact ⟨fun p => rfl, fun d cs h => by simp at h⟩
  · exact ⟨_, .cons (collect_first _ _) (.cons (collect_first _ _) (.cons (collect_first _ _) .nil))⟩

/-- **C113** refuted as long as completing may do anything: when code that runs while `jedi` searches puts a directory in front of the import path, that entry is lost, and
the directory of the process stays in the import path. -/
theorem C113_refuted_inserting : ∃ (r : Request) (w : World) (l : List Str) (w' : World), Collect r w 0 l w' ∧ r.getcwd = .ok c!"/here" ∧
    (∀ p, (r.jedi p).2 = c!"/plugin" :: p) ∧ w.path = [c!"/lib"] ∧ w'.path = [c!"/here", c!"/lib"] :=
  ⟨⟨c!"b", .ok c!"/here", fun p => (.ok [⟨1, c!"bg"⟩], c!"/plugin" :: p)⟩, ⟨[c!"/lib"], none⟩, _, _, collect_first _ _, rfl, fun _ => rfl, rfl, rfl⟩

end Pieshell.Compl
