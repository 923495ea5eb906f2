import Verif.Spec.Io

namespace Pieshell.Io

theorem joined_append (a b : List Bytes) : joined (a ++ b) = joined a ++ joined b := by
  simp [joined, List.flatMap_append]

theorem joined_singleton (l : Bytes) : joined [l] = l ++ [NL] := by simp [joined]

theorem joined_cons (l : Bytes) (ls : List Bytes) : joined (l :: ls) = l ++ NL :: joined ls := by
  simp [joined]

theorem splitNL_fst (b : Bytes) : NL ∉ (Line.splitNL b).1 := by
  induction b with
  | nil => simp [Line.splitNL]
  | cons x xs ih =>
    unfold Line.splitNL
    split
    · simp
    · rename_i h
      simp only [List.mem_cons, not_or]
      exact ⟨fun e => h e.symm, ih⟩

theorem splitNL_eq (b : Bytes) (h : NL ∈ b) : (Line.splitNL b).1 ++ NL :: (Line.splitNL b).2 = b := by
  induction b with
  | nil => cases h
  | cons x xs ih =>
    unfold Line.splitNL
    split
    · rename_i hx; simp [hx]
    · rename_i hx
      have : NL ∈ xs := by
        rcases List.mem_cons.1 h with e | e
        · exact absurd e.symm hx
        · exact e
      simp [ih this]

theorem splitNL_append (b : Bytes) (h : NL ∉ b) : Line.splitNL (b ++ [NL]) = (b, []) := by
  induction b with
  | nil => simp [Line.splitNL]
  | cons x xs ih =>
    simp only [List.mem_cons, not_or] at h
    show Line.splitNL (x :: (xs ++ [NL])) = _
    unfold Line.splitNL
    rw [if_neg (fun e => h.1 e.symm), ih h.2]

/-- Newline-free pieces followed by newlines are determined by the whole. -/
theorem cut_unique {a b : Bytes} {x y : Bytes} (ha : NL ∉ a) (hb : NL ∉ b)
    (h : a ++ NL :: x = b ++ NL :: y) : a = b ∧ x = y := by
  induction a generalizing b with
  | nil =>
    cases b with
    | nil => simpa using h
    | cons c cs =>
      simp only [List.nil_append, List.cons_append, List.cons.injEq] at h
      simp only [List.mem_cons, not_or] at hb
      exact absurd h.1 hb.1
  | cons d ds ih =>
    cases b with
    | nil =>
      simp only [List.nil_append, List.cons_append, List.cons.injEq] at h
      simp only [List.mem_cons, not_or] at ha
      exact absurd h.1.symm ha.1
    | cons c cs =>
      simp only [List.cons_append, List.cons.injEq] at h
      simp only [List.mem_cons, not_or] at ha hb
      obtain ⟨e1, e2⟩ := ih ha.2 hb.2 h.2
      exact ⟨by rw [h.1, e1], e2⟩

theorem joined_inj {l m : List Bytes} (hl : ∀ x ∈ l, NL ∉ x) (hm : ∀ x ∈ m, NL ∉ x)
    (h : joined l = joined m) : l = m := by
  induction l generalizing m with
  | nil =>
    cases m with
    | nil => rfl
    | cons a as => rw [joined_cons] at h; simp [joined] at h
  | cons b bs ih =>
    cases m with
    | nil => rw [joined_cons] at h; simp [joined] at h
    | cons a as =>
      rw [joined_cons, joined_cons] at h
      obtain ⟨e1, e2⟩ := cut_unique (hl b (by simp)) (hm a (by simp)) h
      rw [e1, ih (fun x hx => hl x (by simp [hx])) (fun x hx => hm x (by simp [hx])) e2]

theorem joined_last (ls : List Bytes) : joined ls = [] ∨ (joined ls).getLast? = some NL := by
  rcases List.eq_nil_or_concat ls with h | ⟨a, b, h⟩
  · left; subst h; rfl
  · right; subst h; rw [List.concat_eq_append, joined_append, joined_singleton]; simp

theorem effective_le {S A : Type} [DecidableEq S] (step : S → A → S) (P : S → Prop) (ok : A → Bool) (M : S → Nat)
    (hP : ∀ s a, P s → ok a = true → P (step s a))
    (hM : ∀ s a, P s → ok a = true → step s a = s ∨ M (step s a) < M s) :
    ∀ (as : List A) (s : S), P s → (∀ a ∈ as, ok a = true) → effective step s as ≤ M s := by
  intro as
  induction as with
  | nil => intro s _ _; exact Nat.zero_le _
  | cons a as ih =>
    intro s hs hok
    have h1 := ih (step s a) (hP s a hs (hok a (by simp))) (fun b hb => hok b (by simp [hb]))
    unfold effective
    rcases hM s a hs (hok a (by simp)) with e | e
    · rw [if_pos e]; rw [e] at h1 ⊢; omega
    · split <;> omega

namespace Line

/-- The invariant of the line reader. -/
structure Inv (s : St) : Prop where
  data : joined s.out ++ s.buffer ++ s.pipe.pending = s.pipe.written ∨
    (s.eof = true ∧ s.buffer = [] ∧ s.pipe.pending = [] ∧ joined s.out = s.pipe.written ++ [NL] ∧
      s.pipe.written ≠ [] ∧ s.pipe.written.getLast? ≠ some NL)
  lines : ∀ l ∈ s.out, NL ∉ l
  eof : s.eof = true → s.pipe.pending = [] ∧ s.pipe.closed = true
  destroyed : s.destroyed = s.eof
  waiting : s.cons = .waiting → s.eof = false ∧ NL ∉ s.buffer ∧ s.fut = .live
  live : s.fut = .live → s.cons = .waiting
  stopped : s.cons = .stopped → s.eof = true ∧ s.buffer = []

theorem inv_init : Inv init := by
  refine ⟨?_, ?_, ?_, rfl, ?_, ?_, ?_⟩ <;> simp [init, joined]

theorem inv_anext {s : St} (h : Inv s) (hc : s.cons ≠ .waiting) : Inv (anext s) := by
  have hf : s.fut ≠ .live := fun e => hc (h.live e)
  unfold anext
  split
  · rename_i hh
    simp only [Bool.and_eq_true, Bool.not_eq_true', decide_eq_false_iff_not] at hh
    exact ⟨h.data, h.lines, h.eof, h.destroyed, fun _ => ⟨hh.1, hh.2, rfl⟩, fun _ => rfl, (by intro e; cases e)⟩
  · rename_i hh
    split
    · rename_i hb
      have hb' : s.buffer = [] := List.isEmpty_iff.1 hb
      have he : s.eof = true := by
        cases hE : s.eof
        · exfalso; apply hh; rw [hE, hb']; decide
        · rfl
      exact ⟨h.data, h.lines, h.eof, h.destroyed, (by intro e; cases e), fun e => absurd e hf, fun _ => ⟨he, hb'⟩⟩
    · rename_i hb
      have hb' : s.buffer ≠ [] := fun e => hb (List.isEmpty_iff.2 e)
      have hd : joined s.out ++ s.buffer ++ s.pipe.pending = s.pipe.written := by
        rcases h.data with d | d
        · exact d
        · exact absurd d.2.1 hb'
      by_cases hn : NL ∈ s.buffer
      · simp only [hn, if_true]
        refine ⟨Or.inl ?_, ?_, h.eof, h.destroyed, (by intro e; cases e), fun e => absurd e hf, (by intro e; cases e)⟩
        · show joined (s.out ++ [(splitNL s.buffer).1]) ++ (splitNL s.buffer).2 ++ s.pipe.pending = _
          rw [joined_append, joined_singleton, ← hd]
          conv => rhs; rw [← splitNL_eq s.buffer hn]
          simp
        · intro l hl
          rcases List.mem_append.1 hl with e | e
          · exact h.lines l e
          · rw [List.mem_singleton.1 e]; exact splitNL_fst _
      · simp only [hn, if_false]
        have he : s.eof = true := by
          cases hE : s.eof
          · exfalso; apply hh; rw [hE]; simp [hn]
          · rfl
        have hp := (h.eof he).1
        rw [hp, List.append_nil] at hd
        refine ⟨Or.inr ⟨he, ?_, hp, ?_, ?_, ?_⟩, ?_, h.eof, h.destroyed, (by intro e; cases e),
          fun e => absurd e hf, (by intro e; cases e)⟩
        · show (splitNL (s.buffer ++ [NL])).2 = []
          rw [splitNL_append _ hn]
        · show joined (s.out ++ [(splitNL (s.buffer ++ [NL])).1]) = s.pipe.written ++ [NL]
          rw [joined_append, joined_singleton, splitNL_append _ hn, ← hd]; simp
        · show s.pipe.written ≠ []
          rw [← hd]; simp [hb']
        · show s.pipe.written.getLast? ≠ some NL
          rw [← hd, List.getLast?_append]
          intro e
          cases hg : s.buffer.getLast? with
          | none => rw [List.getLast?_eq_none_iff] at hg; exact hb' hg
          | some x =>
            rw [hg] at e
            simp only [Option.some_or, Option.some.injEq] at e
            subst e
            exact hn (List.mem_of_getLast? hg)
        · intro l hl
          rcases List.mem_append.1 hl with e | e
          · exact h.lines l e
          · rw [List.mem_singleton.1 e]; exact splitNL_fst _

theorem readSize_pos (n : Nat) : 0 < readSize n := by unfold readSize; omega

theorem take_empty {l : Bytes} {n : Nat} (h : (l.take (readSize n)).isEmpty = true) : l = [] := by
  have := List.isEmpty_iff.1 h
  have h2 := readSize_pos n
  cases l with
  | nil => rfl
  | cons a as =>
    obtain ⟨k, hk⟩ : ∃ k, readSize n = k + 1 := ⟨readSize n - 1, by omega⟩
    rw [hk] at this; simp at this

theorem inv_wake {s : St}
    (data : joined s.out ++ s.buffer ++ s.pipe.pending = s.pipe.written ∨
    (s.eof = true ∧ s.buffer = [] ∧ s.pipe.pending = [] ∧ joined s.out = s.pipe.written ++ [NL] ∧
      s.pipe.written ≠ [] ∧ s.pipe.written.getLast? ≠ some NL))
    (lines : ∀ l ∈ s.out, NL ∉ l) (eof : s.eof = true → s.pipe.pending = [] ∧ s.pipe.closed = true)
    (dest : s.destroyed = s.eof) (wl : s.cons = .waiting ↔ s.fut = .live) (ns : s.cons ≠ .stopped) : Inv (wake s) := by
  unfold wake
  split
  · rename_i hf
    exact ⟨data, lines, eof, dest, (fun e => by rw [wl, hf] at e; cases e), (fun e => by rw [hf] at e; cases e),
      fun e => absurd e ns⟩
  · exact ⟨data, lines, eof, dest, (by intro e; cases e), (by intro e; cases e), (by intro e; cases e)⟩
  · rename_i hf
    exact ⟨data, lines, eof, dest, (fun e => by rw [wl, hf] at e; cases e), (fun e => by rw [hf] at e; cases e),
      fun e => absurd e ns⟩

theorem inv_event {s : St} (h : Inv s) (n : Nat) (hd : s.destroyed = false) (hr : s.pipe.readable = true) :
    Inv (handleEvent s n) := by
  unfold handleEvent
  split
  · exact h
  · rename_i hn
    have he : s.eof = false := by rw [← h.destroyed]; exact hd
    have hdat : joined s.out ++ s.buffer ++ s.pipe.pending = s.pipe.written := by
      rcases h.data with d | d
      · exact d
      · rw [he] at d; exact absurd d.1 (by simp)
    have hst : s.cons ≠ .stopped := fun e => by have := (h.stopped e).1; rw [he] at this; cases this
    have hdat' : joined s.out ++ (s.buffer ++ s.pipe.pending.take (readSize n)) ++ s.pipe.pending.drop (readSize n)
        = s.pipe.written := by
      rw [← hdat]; simp
    have hwl : s.cons = .waiting ↔ s.fut = .live := ⟨fun e => (h.waiting e).2.2, h.live⟩
    dsimp only
    split
    · rename_i hem
      have hp := take_empty hem
      have hc : s.pipe.closed = true := by
        unfold Pipe.readable at hr; rw [hp] at hr; simpa using hr
      refine inv_wake (Or.inl hdat') h.lines ?_ rfl hwl hst
      intro _
      refine ⟨?_, hc⟩
      show s.pipe.pending.drop (readSize n) = []
      rw [hp]; simp
    · rename_i hem
      refine inv_wake (Or.inl hdat') h.lines ?_ h.destroyed hwl hst
      intro e
      exact absurd (he ▸ e : false = true) (by simp)

theorem inv_step {s : St} (h : Inv s) (a : RAct) : Inv (step s a) := by
  cases a with
  | write bs =>
    unfold step Pipe.write
    dsimp only
    split
    · exact h
    · rename_i hc
      have he : s.eof = false := by
        cases hE : s.eof
        · rfl
        · exact absurd (h.eof hE).2 hc
      refine ⟨?_, h.lines, ?_, h.destroyed, h.waiting, h.live, h.stopped⟩
      · rcases h.data with d | d
        · left
          show joined s.out ++ s.buffer ++ (s.pipe.pending ++ bs) = s.pipe.written ++ bs
          rw [← d]; simp
        · rw [he] at d; exact absurd d.1 (by simp)
      · intro e; exact absurd (he ▸ e : false = true) (by simp)
  | close =>
    exact ⟨h.data, h.lines, fun e => ⟨(h.eof e).1, rfl⟩, h.destroyed, h.waiting, h.live, h.stopped⟩
  | event n =>
    unfold step
    dsimp only
    split
    · rename_i hh
      simp only [Bool.and_eq_true, Bool.not_eq_true'] at hh
      exact inv_event h n hh.1 hh.2
    · exact h
  | next =>
    unfold step
    dsimp only
    split
    · rename_i hc; exact inv_anext h (by rw [hc]; simp)
    · rename_i hc; exact inv_anext h (by rw [hc]; simp)
    · exact h
  | resume =>
    unfold step
    dsimp only
    split
    · rename_i hc; exact inv_anext h (by rw [hc]; simp)
    · exact h
  | cancel =>
    unfold step
    dsimp only
    split
    · exact ⟨h.data, h.lines, h.eof, h.destroyed, (by intro e; cases e), (by intro e; cases e), (by intro e; cases e)⟩
    · rename_i hc
      exact ⟨h.data, h.lines, h.eof, h.destroyed, (by intro e; cases e),
        (fun e => by have := h.live e; rw [hc] at this; cases this), (by intro e; cases e)⟩
    · exact h

theorem inv_run (as : List RAct) : ∀ {s : St}, Inv s → Inv (run s as) := by
  induction as with
  | nil => intro s h; exact h
  | cons a as ih => intro s h; exact ih (inv_step h a)

/-- What is left to do after the writers are gone. -/
def work (s : St) : Nat :=
  3 * s.pipe.pending.length + s.buffer.length + (if s.eof then 0 else 2) +
    (match s.cons with | .idle => 1 | .woken => 1 | _ => 0)

theorem splitNL_len (b : Bytes) (h : NL ∈ b) : (splitNL b).2.length < b.length := by
  have := congrArg List.length (splitNL_eq b h)
  simp at this; omega

theorem work_anext {s : St} (h : Inv s) (hc : s.cons = .idle ∨ s.cons = .woken) : work (anext s) < work s := by
  have hw : (match s.cons with | .idle => 1 | .woken => 1 | _ => 0) = 1 := by
    rcases hc with e | e <;> rw [e]
  unfold anext
  split
  · unfold work; rw [hw]; dsimp only; omega
  · split
    · unfold work; rw [hw]; dsimp only; omega
    · rename_i hh hb
      have hb' : s.buffer ≠ [] := fun e => hb (List.isEmpty_iff.2 e)
      have hl : 0 < s.buffer.length := List.length_pos_iff.2 hb'
      unfold work; rw [hw]; dsimp only
      by_cases hn : NL ∈ s.buffer
      · simp only [hn, if_true]
        have := splitNL_len _ hn
        omega
      · simp only [hn, if_false]
        rw [splitNL_append _ hn]; simp only [List.length_nil]; omega

theorem work_step {s : St} (h : Inv s) (a : RAct) (ha : a.iterating = true) :
    step s a = s ∨ work (step s a) < work s := by
  cases a with
  | write bs => cases ha
  | close => cases ha
  | cancel => cases ha
  | resume =>
    unfold step
    dsimp only
    split
    · rename_i hc; exact Or.inr (work_anext h (Or.inr hc))
    · exact Or.inl rfl
  | next =>
    unfold step
    dsimp only
    split
    · rename_i hc; exact Or.inr (work_anext h (Or.inl hc))
    · rename_i hc
      left
      obtain ⟨he, hb⟩ := h.stopped hc
      unfold anext
      cases s; simp_all
    · exact Or.inl rfl
  | event n =>
    unfold step
    dsimp only
    split
    · rename_i hh
      simp only [Bool.and_eq_true, Bool.not_eq_true'] at hh
      unfold handleEvent
      split
      · exact Or.inl rfl
      · right
        have he : s.eof = false := by rw [← h.destroyed]; exact hh.1
        have hst : s.cons ≠ .stopped := fun e => by have := (h.stopped e).1; rw [he] at this; cases this
        have hw : ∀ s' : St, s'.cons = s.cons → s'.fut = s.fut →
            work (wake s') ≤ 3 * s'.pipe.pending.length + s'.buffer.length + (if s'.eof then 0 else 2) + 1 := by
          intro s' e1 e2
          unfold wake work
          split
          · cases s'.cons <;> simp
          · dsimp only; omega
          · cases s'.cons <;> simp
        dsimp only
        split
        · rename_i hem
          have hp := take_empty hem
          refine Nat.lt_of_le_of_lt (hw _ rfl rfl) ?_
          dsimp only
          unfold work
          rw [hp, he]
          simp
          omega
        · rename_i hem
          refine Nat.lt_of_le_of_lt (hw _ rfl rfl) ?_
          dsimp only
          unfold work
          rw [he]
          have h1 : 0 < (s.pipe.pending.take (readSize n)).length := by
            apply List.length_pos_iff.2
            intro e; apply hem; rw [e]; rfl
          have h2 := List.length_append (as := s.pipe.pending.take (readSize n)) (bs := s.pipe.pending.drop (readSize n))
          rw [List.take_append_drop] at h2
          rw [List.length_append]
          omega
    · exact Or.inl rfl

end Line

namespace Chunk

structure Inv (s : St) : Prop where
  data : s.out.flatten ++ (s.buffer.getD []) ++ s.pipe.pending = s.pipe.written
  eof : s.eof = true → s.pipe.pending = [] ∧ s.pipe.closed = true
  destroyed : s.destroyed = s.eof
  waiting : s.cons = .waiting → s.eof = false ∧ s.buffer = none ∧ s.fut = .live
  live : s.fut = .live → s.cons = .waiting
  stopped : s.cons = .stopped → s.eof = true ∧ s.buffer = none
  woken : s.cons = .woken → s.buffer ≠ none
  nonempty : s.eof = false → s.buffer ≠ some [] ∧ [] ∉ s.out
  final : s.eof = true → (s.buffer = some [] ∧ [] ∉ s.out) ∨
    (s.buffer = none ∧ ∃ l, s.out = l ++ [[]] ∧ [] ∉ l)

theorem inv_init : Inv init := by
  refine ⟨?_, ?_, rfl, ?_, ?_, ?_, ?_, ?_, ?_⟩ <;> simp [init]

theorem inv_take {s : St} (h : Inv s) (hc : s.cons ≠ .waiting) : Inv (take s) := by
  have hf : s.fut ≠ .live := fun e => hc (h.live e)
  unfold take
  split
  · rename_i b hb
    refine ⟨?_, h.eof, h.destroyed, (by intro e; cases e), fun e => absurd e hf, (by intro e; cases e),
      (by intro e; cases e), ?_, ?_⟩
    · show (s.out ++ [b]).flatten ++ [] ++ s.pipe.pending = s.pipe.written
      rw [← h.data, hb]; simp
    · intro e
      obtain ⟨h1, h2⟩ := h.nonempty e
      refine ⟨(by intro e; cases e), ?_⟩
      show [] ∉ s.out ++ [b]
      intro hm
      rcases List.mem_append.1 hm with e | e
      · exact h2 e
      · rw [List.mem_singleton] at e; subst e; exact h1 hb
    · intro e
      rcases h.final e with ⟨h1, h2⟩ | ⟨h1, _⟩
      · right
        rw [hb] at h1
        injection h1 with h1
        exact ⟨rfl, s.out, (by show s.out ++ [b] = s.out ++ [[]]; rw [h1]), h2⟩
      · rw [hb] at h1; cases h1
  · rename_i hb
    refine ⟨h.data, h.eof, h.destroyed, (by intro e; cases e), fun e => absurd e hf, (by intro e; cases e),
      (by intro e; cases e), h.nonempty, h.final⟩

theorem inv_anext {s : St} (h : Inv s) (hc : s.cons ≠ .waiting) : Inv (anext s) := by
  have hf : s.fut ≠ .live := fun e => hc (h.live e)
  unfold anext
  split
  · exact inv_take h hc
  · rename_i hb
    split
    · rename_i he
      exact ⟨h.data, h.eof, h.destroyed, (by intro e; cases e), fun e => absurd e hf, fun _ => ⟨he, hb⟩,
        (by intro e; cases e), h.nonempty, h.final⟩
    · rename_i he
      have he' : s.eof = false := by simpa using he
      exact ⟨h.data, h.eof, h.destroyed, fun _ => ⟨he', hb, rfl⟩, fun _ => rfl, (by intro e; cases e),
        (by intro e; cases e), h.nonempty, h.final⟩

theorem inv_wake {s : St}
    (data : s.out.flatten ++ (s.buffer.getD []) ++ s.pipe.pending = s.pipe.written)
    (eof : s.eof = true → s.pipe.pending = [] ∧ s.pipe.closed = true)
    (dest : s.destroyed = s.eof) (wl : s.cons = .waiting ↔ s.fut = .live) (ns : s.cons ≠ .stopped)
    (hb : s.buffer ≠ none) (ne : s.eof = false → s.buffer ≠ some [] ∧ [] ∉ s.out)
    (fin : s.eof = true → (s.buffer = some [] ∧ [] ∉ s.out)) : Inv (wake s) := by
  unfold wake
  split
  · rename_i hf
    exact ⟨data, eof, dest, (fun e => by rw [wl, hf] at e; cases e), (fun e => by rw [hf] at e; cases e),
      fun e => absurd e ns, fun _ => hb, ne, fun e => Or.inl (fin e)⟩
  · exact ⟨data, eof, dest, (by intro e; cases e), (by intro e; cases e), (by intro e; cases e), fun _ => hb, ne,
      fun e => Or.inl (fin e)⟩
  · rename_i hf
    exact ⟨data, eof, dest, (fun e => by rw [wl, hf] at e; cases e), (fun e => by rw [hf] at e; cases e),
      fun e => absurd e ns, fun _ => hb, ne, fun e => Or.inl (fin e)⟩

theorem inv_event {s : St} (h : Inv s) (n : Nat) (hd : s.destroyed = false) (hr : s.pipe.readable = true) :
    Inv (handleEvent s n) := by
  have he : s.eof = false := by rw [← h.destroyed]; exact hd
  have hst : s.cons ≠ .stopped := fun e => by have := (h.stopped e).1; rw [he] at this; cases this
  have hwl : s.cons = .waiting ↔ s.fut = .live := ⟨fun e => (h.waiting e).2.2, h.live⟩
  have hno : ∀ {p : Prop}, s.eof = true → p := fun e => absurd (he ▸ e : false = true) (by simp)
  unfold handleEvent
  split
  · rename_i b hb
    exact inv_wake h.data h.eof h.destroyed hwl hst (by rw [hb]; simp) h.nonempty hno
  · rename_i hb
    have hdat' : s.out.flatten ++ s.pipe.pending.take (readSize n) ++ s.pipe.pending.drop (readSize n)
        = s.pipe.written := by
      rw [← h.data, hb]; simp
    dsimp only
    split
    · rename_i hem
      have hp := Line.take_empty hem
      have hc : s.pipe.closed = true := by
        unfold Pipe.readable at hr; rw [hp] at hr; simpa using hr
      refine inv_wake hdat' ?_ rfl hwl hst (by simp) ?_ ?_
      · intro _
        refine ⟨?_, hc⟩
        show s.pipe.pending.drop (readSize n) = []
        rw [hp]; simp
      · intro e; cases e
      · intro _
        refine ⟨?_, (h.nonempty he).2⟩
        show some (s.pipe.pending.take (readSize n)) = some []
        rw [hp]; simp
    · rename_i hem
      refine inv_wake hdat' hno h.destroyed hwl hst (by simp) ?_ hno
      intro _
      refine ⟨?_, (h.nonempty he).2⟩
      intro e
      injection e with e
      exact hem (by rw [e]; rfl)

theorem inv_step {s : St} (h : Inv s) (a : RAct) : Inv (step s a) := by
  cases a with
  | write bs =>
    unfold step Pipe.write
    dsimp only
    split
    · exact h
    · rename_i hc
      refine ⟨?_, ?_, h.destroyed, h.waiting, h.live, h.stopped, h.woken, h.nonempty, h.final⟩
      · show s.out.flatten ++ s.buffer.getD [] ++ (s.pipe.pending ++ bs) = s.pipe.written ++ bs
        rw [← h.data]; simp
      · intro e; exact absurd (h.eof e).2 hc
  | close =>
    exact ⟨h.data, fun e => ⟨(h.eof e).1, rfl⟩, h.destroyed, h.waiting, h.live, h.stopped, h.woken, h.nonempty, h.final⟩
  | event n =>
    unfold step
    dsimp only
    split
    · rename_i hh
      simp only [Bool.and_eq_true, Bool.not_eq_true'] at hh
      exact inv_event h n hh.1 hh.2
    · exact h
  | next =>
    unfold step
    dsimp only
    split
    · rename_i hc; exact inv_anext h (by rw [hc]; simp)
    · rename_i hc; exact inv_anext h (by rw [hc]; simp)
    · exact h
  | resume =>
    unfold step
    dsimp only
    split
    · rename_i hc; exact inv_take h (by rw [hc]; simp)
    · exact h
  | cancel =>
    unfold step
    dsimp only
    split
    · exact ⟨h.data, h.eof, h.destroyed, (by intro e; cases e), (by intro e; cases e), (by intro e; cases e),
        (by intro e; cases e), h.nonempty, h.final⟩
    · rename_i hc
      exact ⟨h.data, h.eof, h.destroyed, (by intro e; cases e),
        (fun e => by have := h.live e; rw [hc] at this; cases this), (by intro e; cases e), (by intro e; cases e),
        h.nonempty, h.final⟩
    · exact h

theorem inv_run (as : List RAct) : ∀ {s : St}, Inv s → Inv (run s as) := by
  induction as with
  | nil => intro s h; exact h
  | cons a as ih => intro s h; exact ih (inv_step h a)

/-- What is left to do: every step that has an effect makes it smaller. -/
def work (s : St) : Nat :=
  4 * s.pipe.pending.length + (match s.buffer with | none => 0 | some _ => 1) + (if s.eof then 0 else 4) +
    (match s.cons with | .idle => 1 | .woken => 1 | _ => 0)

theorem work_step {s : St} (h : Inv s) (a : RAct) (ha : a.iterating = true) :
    step s a = s ∨ work (step s a) < work s := by
  cases a with
  | write bs => cases ha
  | close => cases ha
  | cancel => cases ha
  | resume =>
    unfold step
    dsimp only
    split
    · rename_i hc
      right
      unfold take
      split
      · rename_i b hb
        unfold work; rw [hc, hb]; dsimp only; omega
      · rename_i hb; exact absurd hb (h.woken hc)
    · exact Or.inl rfl
  | next =>
    unfold step
    dsimp only
    split
    · rename_i hc
      right
      unfold anext
      split
      · rename_i b hb
        unfold take; rw [hb]; dsimp only
        unfold work; rw [hc, hb]; dsimp only; omega
      · rename_i hb
        split
        · rename_i he; unfold work; rw [hc]; dsimp only; omega
        · rename_i he; unfold work; rw [hc]; dsimp only; omega
    · rename_i hc
      left
      obtain ⟨he, hb⟩ := h.stopped hc
      unfold anext
      cases s; simp_all
    · exact Or.inl rfl
  | event n =>
    unfold step
    dsimp only
    split
    · rename_i hh
      simp only [Bool.and_eq_true, Bool.not_eq_true'] at hh
      have he : s.eof = false := by rw [← h.destroyed]; exact hh.1
      unfold handleEvent
      split
      · rename_i b hb
        left
        unfold wake
        split
        · rfl
        · rename_i hf
          have := (h.waiting (h.live hf)).2.1
          rw [hb] at this; cases this
        · rfl
      · rename_i hb
        right
        have hw : ∀ s' : St, work (wake s') ≤ 4 * s'.pipe.pending.length +
            (match s'.buffer with | none => 0 | some _ => 1) + (if s'.eof then 0 else 4) + 1 := by
          intro s'
          unfold wake work
          split
          · cases s'.cons <;> simp
          · dsimp only; omega
          · cases s'.cons <;> simp
        dsimp only
        split
        · rename_i hem
          have hp := Line.take_empty hem
          refine Nat.lt_of_le_of_lt (hw _) ?_
          dsimp only
          unfold work
          rw [hp, he, hb]
          simp
          omega
        · rename_i hem
          refine Nat.lt_of_le_of_lt (hw _) ?_
          dsimp only
          unfold work
          rw [he, hb]
          have h1 : 0 < (s.pipe.pending.take (readSize n)).length := by
            apply List.length_pos_iff.2
            intro e; apply hem; rw [e]; rfl
          have h2 := List.length_append (as := s.pipe.pending.take (readSize n)) (bs := s.pipe.pending.drop (readSize n))
          rw [List.take_append_drop] at h2
          dsimp only
          omega
    · exact Or.inl rfl

end Chunk
end Pieshell.Io
