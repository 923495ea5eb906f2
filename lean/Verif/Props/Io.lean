import Verif.Lemmas.Io
import Verif.Model.Text

/-!
C36-C38: iterating over the output of a pipeline.
-/
namespace Pieshell.Io

/-- `IsLines` determines the lines. -/
theorem IsLines_unique (b : Bytes) (l m : List Bytes) (hl : IsLines b l) (hm : IsLines b m) : l = m := by
  have nolast : ∀ k : List Bytes, joined k = b → b ≠ [] → b.getLast? ≠ some NL → False := by
    intro k e h1 h2
    rcases joined_last k with h | h
    · exact h1 (e ▸ h)
    · exact h2 (e ▸ h)
  apply joined_inj hl.1 hm.1
  rcases hl.2 with a | ⟨a, a1, a2⟩ <;> rcases hm.2 with c | ⟨c, c1, c2⟩
  · rw [a, c]
  · exact (nolast l a c1 c2).elim
  · exact (nolast m c a1 a2).elim
  · rw [a, c]

/-- C36: when the iteration ends, the lines received are the lines of everything that was written, for every
schedule: any sizes and times of writes and reads, any interleaving with the consumer, any cancellations. -/
theorem C36_lines (as : List RAct) (h : (Line.run Line.init as).cons = .stopped) :
    IsLines (Line.run Line.init as).pipe.written (Line.run Line.init as).out := by
  have hI := Line.inv_run as Line.inv_init
  obtain ⟨he, hb⟩ := hI.stopped h
  refine ⟨hI.lines, ?_⟩
  rcases hI.data with d | d
  · left; rw [hb, (hI.eof he).1] at d; simpa using d
  · right; exact ⟨d.2.2.2.1, d.2.2.2.2.1, d.2.2.2.2.2⟩

/-- C36: at every time, what was received is a beginning of the lines of what was written. -/
theorem C36_prefix (as : List RAct) :
    joined (Line.run Line.init as).out <+: (Line.run Line.init as).pipe.written ++ [NL] ∧
    ∀ l ∈ (Line.run Line.init as).out, NL ∉ l := by
  have hI := Line.inv_run as Line.inv_init
  refine ⟨?_, hI.lines⟩
  rcases hI.data with d | d
  · rw [← d]; simp [List.append_assoc]
  · rw [d.2.2.2.1]; exact List.prefix_refl _

/-- C36: two schedules which write the same bytes yield the same lines. -/
theorem C36_chunking_irrelevant (as bs : List RAct)
    (ha : (Line.run Line.init as).cons = .stopped) (hb : (Line.run Line.init bs).cons = .stopped)
    (h : (Line.run Line.init as).pipe.written = (Line.run Line.init bs).pipe.written) :
    (Line.run Line.init as).out = (Line.run Line.init bs).out :=
  IsLines_unique _ _ _ (C36_lines as ha) (h ▸ C36_lines bs hb)

-- "a\nbc" written in two pieces, read in pieces of one byte and more, the consumer cancelled once
example : (Line.run Line.init [.next, .write [97], .event 5, .resume, .cancel, .next, .write [10, 98, 99], .event 1,
    .resume, .event 7, .close, .next, .event 1, .resume, .next, .next]).cons = .stopped ∧
  (Line.run Line.init [.next, .write [97], .event 5, .resume, .cancel, .next, .write [10, 98, 99], .event 1,
    .resume, .event 7, .close, .next, .event 1, .resume, .next, .next]).out = [[97], [98, 99]] := by decide

/-- The text a consumer gets for a line: decoding happens after the line was removed from the buffer, so a line
that is not UTF-8 raises `UnicodeDecodeError` for that line only (iterio.py:216-217). -/
def texts (out : List Bytes) : List (Option Str) := out.map decode

/-- C36 for text: if what was written is the encoding of lines of text each followed by a newline, exactly
these lines are received. -/
theorem C36_text (ls : List Str) (as : List RAct) (hn : ∀ l ∈ ls, '\n' ∉ l)
    (hw : (Line.run Line.init as).pipe.written = encode (ls.flatMap (· ++ ['\n'])))
    (h : (Line.run Line.init as).cons = .stopped) :
    texts (Line.run Line.init as).out = ls.map some := by
  have h1 := C36_lines as h
  have h2 : IsLines (Line.run Line.init as).pipe.written (ls.map encode) := by
    refine ⟨?_, Or.inl ?_⟩
    · intro l hl
      obtain ⟨s, hs, e⟩ := List.mem_map.1 hl
      rw [← e, nl_encode]; exact hn s hs
    · rw [hw]
      clear hw hn
      induction ls with
      | nil => rfl
      | cons a as ih =>
        rw [List.map_cons, joined_cons, ih]
        unfold encode
        simp only [List.flatMap_cons, List.flatMap_append, List.append_assoc]
        rfl
  rw [IsLines_unique _ _ _ h1 h2]
  unfold texts
  rw [List.map_map]
  apply List.map_congr_left
  intro s _
  exact decode_encode s

example : (Line.run Line.init [.write (encode ['å', '\n']), .event 1, .event 1, .event 9, .next, .close, .event 1,
    .next]).cons = .stopped ∧
  (Line.run Line.init [.write (encode ['å', '\n']), .event 1, .event 1, .event 9, .next, .close, .event 1,
    .next]).pipe.written = encode ([['å']].flatMap (· ++ ['\n'])) := by decide

/-- C37: when the iteration over chunks ends, their concatenation is what was written, for every schedule. -/
theorem C37_bytes (as : List RAct) (h : (Chunk.run Chunk.init as).cons = .stopped) :
    (Chunk.run Chunk.init as).out.flatten = (Chunk.run Chunk.init as).pipe.written := by
  have hI := Chunk.inv_run as Chunk.inv_init
  obtain ⟨he, hb⟩ := hI.stopped h
  have d := hI.data
  rw [hb, (hI.eof he).1] at d
  simpa using d

/-- C37: at every time the chunks received are a beginning of what was written. -/
theorem C37_prefix (as : List RAct) :
    (Chunk.run Chunk.init as).out.flatten <+: (Chunk.run Chunk.init as).pipe.written := by
  have hI := Chunk.inv_run as Chunk.inv_init
  rw [← hI.data, List.append_assoc]
  exact List.prefix_append _ _

/-- C37: chunks are non-empty, except for one empty chunk at the end. -/
theorem C37_empty_last (as : List RAct) (h : (Chunk.run Chunk.init as).cons = .stopped) :
    ∃ l, (Chunk.run Chunk.init as).out = l ++ [[]] ∧ [] ∉ l := by
  have hI := Chunk.inv_run as Chunk.inv_init
  obtain ⟨he, hb⟩ := hI.stopped h
  rcases hI.final he with ⟨e, _⟩ | ⟨_, e⟩
  · rw [hb] at e; cases e
  · exact e

example : (Chunk.run Chunk.init [.next, .write [97], .event 5, .cancel, .next, .write [10, 98, 99], .event 2, .next,
    .resume, .event 7, .next, .close, .event 1, .next, .next]).cons = .stopped ∧
  (Chunk.run Chunk.init [.next, .write [97], .event 5, .cancel, .next, .write [10, 98, 99], .event 2, .next,
    .resume, .event 7, .next, .close, .event 1, .next, .next]).out = [[97], [10, 98], [99], []] := by decide

/-- C38: a consumer waits only while the descriptor is watched and neither a complete line nor the end of the
stream has been received. -/
theorem C38_waiting (as : List RAct) (h : (Line.run Line.init as).cons = .waiting) :
    (Line.run Line.init as).destroyed = false ∧ NL ∉ (Line.run Line.init as).buffer ∧
    (Line.run Line.init as).eof = false := by
  have hI := Line.inv_run as Line.inv_init
  obtain ⟨h1, h2, _⟩ := hI.waiting h
  exact ⟨hI.destroyed.trans h1, h2, h1⟩

/-- C38: a waiting consumer is woken by the next event, and there is an event as soon as data or the end of the
stream is available. -/
theorem C38_woken (as : List RAct) (n : Nat) (h : (Line.run Line.init as).cons = .waiting)
    (hr : (Line.run Line.init as).pipe.pending ≠ [] ∨ (Line.run Line.init as).pipe.closed = true) :
    (Line.run Line.init (as ++ [.event n])).cons = .woken := by
  have hI := Line.inv_run as Line.inv_init
  obtain ⟨h1, h2, h3⟩ := hI.waiting h
  have hd := hI.destroyed.trans h1
  have e : Line.run Line.init (as ++ [.event n]) = Line.step (Line.run Line.init as) (.event n) := by
    unfold Line.run; rw [List.foldl_append]; rfl
  rw [e]
  generalize Line.run Line.init as = s at *
  have hrd : s.pipe.readable = true := by
    unfold Pipe.readable
    rcases hr with hr | hr
    · cases hp : s.pipe.pending with
      | nil => exact absurd hp hr
      | cons a as => rfl
    · rw [hr]; simp
  unfold Line.step Line.handleEvent
  rw [hd, hrd]
  simp only [Bool.not_false, Bool.and_self, if_true, h2, if_false]
  split
  · unfold Line.wake; dsimp only; rw [h3]
  · unfold Line.wake; dsimp only; rw [h3]

/-- C38: once all writers are gone, the event loop and the consumer take only finitely many steps that have an
effect (at most three per unread byte and one per buffered byte, and three more) ... -/
theorem C38_finite (as bs : List RAct) (hb : ∀ b ∈ bs, b.iterating = true) :
    effective Line.step (Line.run Line.init as) bs ≤
      3 * (Line.run Line.init as).pipe.pending.length + (Line.run Line.init as).buffer.length + 3 := by
  have := effective_le Line.step Line.Inv RAct.iterating Line.work (fun s a h _ => Line.inv_step h a)
    (fun s a h ha => Line.work_step h a ha) bs (Line.run Line.init as) (Line.inv_run as Line.inv_init) hb
  refine Nat.le_trans this ?_
  unfold Line.work
  split <;> split <;> omega

/-- C38: ... and as long as the iteration has not ended, one of them is possible. -/
theorem C38_progress (as : List RAct) (hc : (Line.run Line.init as).pipe.closed = true)
    (h : (Line.run Line.init as).cons ≠ .stopped) :
    ∃ a : RAct, a.iterating = true ∧ Line.step (Line.run Line.init as) a ≠ Line.run Line.init as := by
  have hI := Line.inv_run as Line.inv_init
  have hw := C38_woken as 1
  generalize hs : Line.run Line.init as = s at *
  have key : ∀ t : Line.St, t.cons = .idle ∨ t.cons = .woken → Line.Inv t → Line.anext t ≠ t := by
    intro t ht hi e
    have := Line.work_anext hi ht
    rw [e] at this
    exact Nat.lt_irrefl _ this
  cases hcons : s.cons with
  | stopped => exact absurd hcons h
  | idle =>
    refine ⟨.next, rfl, ?_⟩
    unfold Line.step; rw [hcons]
    exact key s (Or.inl hcons) hI
  | woken =>
    refine ⟨.resume, rfl, ?_⟩
    unfold Line.step; rw [hcons]
    exact key s (Or.inr hcons) hI
  | waiting =>
    refine ⟨.event 1, rfl, ?_⟩
    have h2 := hw hcons (Or.inr hc)
    have e : Line.run Line.init (as ++ [.event 1]) = Line.step s (.event 1) := by
      rw [← hs]; unfold Line.run; rw [List.foldl_append]; rfl
    rw [e] at h2
    intro e2
    rw [e2, hcons] at h2
    cases h2

/-- C38 for chunks: the same. -/
theorem C38_chunk_waiting (as : List RAct) (h : (Chunk.run Chunk.init as).cons = .waiting) :
    (Chunk.run Chunk.init as).destroyed = false ∧ (Chunk.run Chunk.init as).buffer = none ∧
    (Chunk.run Chunk.init as).eof = false := by
  have hI := Chunk.inv_run as Chunk.inv_init
  obtain ⟨h1, h2, _⟩ := hI.waiting h
  exact ⟨hI.destroyed.trans h1, h2, h1⟩

theorem C38_chunk_woken (as : List RAct) (n : Nat) (h : (Chunk.run Chunk.init as).cons = .waiting)
    (hr : (Chunk.run Chunk.init as).pipe.pending ≠ [] ∨ (Chunk.run Chunk.init as).pipe.closed = true) :
    (Chunk.run Chunk.init (as ++ [.event n])).cons = .woken := by
  have hI := Chunk.inv_run as Chunk.inv_init
  obtain ⟨h1, h2, h3⟩ := hI.waiting h
  have hd := hI.destroyed.trans h1
  have e : Chunk.run Chunk.init (as ++ [.event n]) = Chunk.step (Chunk.run Chunk.init as) (.event n) := by
    unfold Chunk.run; rw [List.foldl_append]; rfl
  rw [e]
  generalize Chunk.run Chunk.init as = s at *
  have hrd : s.pipe.readable = true := by
    unfold Pipe.readable
    rcases hr with hr | hr
    · cases hp : s.pipe.pending with
      | nil => exact absurd hp hr
      | cons a as => rfl
    · rw [hr]; simp
  unfold Chunk.step Chunk.handleEvent
  rw [hd, hrd, h2]
  simp only [Bool.not_false, Bool.and_self, if_true]
  split
  · unfold Chunk.wake; dsimp only; rw [h3]
  · unfold Chunk.wake; dsimp only; rw [h3]

theorem C38_chunk_finite (as bs : List RAct) (hb : ∀ b ∈ bs, b.iterating = true) :
    effective Chunk.step (Chunk.run Chunk.init as) bs ≤ 4 * (Chunk.run Chunk.init as).pipe.pending.length + 6 := by
  have := effective_le Chunk.step Chunk.Inv RAct.iterating Chunk.work (fun s a h _ => Chunk.inv_step h a)
    (fun s a h ha => Chunk.work_step h a ha) bs (Chunk.run Chunk.init as) (Chunk.inv_run as Chunk.inv_init) hb
  refine Nat.le_trans this ?_
  unfold Chunk.work
  split <;> split <;> split <;> omega

theorem C38_chunk_progress (as : List RAct) (hc : (Chunk.run Chunk.init as).pipe.closed = true)
    (h : (Chunk.run Chunk.init as).cons ≠ .stopped) :
    ∃ a : RAct, a.iterating = true ∧ Chunk.step (Chunk.run Chunk.init as) a ≠ Chunk.run Chunk.init as := by
  have hI := Chunk.inv_run as Chunk.inv_init
  have hw := C38_chunk_woken as 1
  generalize hs : Chunk.run Chunk.init as = s at *
  cases hcons : s.cons with
  | stopped => exact absurd hcons h
  | idle =>
    refine ⟨.next, rfl, ?_⟩
    unfold Chunk.step; rw [hcons]; dsimp only
    unfold Chunk.anext
    intro e
    split at e
    · rename_i b hb
      unfold Chunk.take at e; rw [hb] at e
      have := congrArg Chunk.St.buffer e
      rw [hb] at this; cases this
    · split at e
      · have := congrArg Chunk.St.cons e
        rw [hcons] at this; cases this
      · have := congrArg Chunk.St.cons e
        rw [hcons] at this; cases this
  | woken =>
    refine ⟨.resume, rfl, ?_⟩
    unfold Chunk.step; rw [hcons]; dsimp only
    unfold Chunk.take
    intro e
    split at e
    · have := congrArg Chunk.St.cons e
      rw [hcons] at this; cases this
    · have := congrArg Chunk.St.cons e
      rw [hcons] at this; cases this
  | waiting =>
    refine ⟨.event 1, rfl, ?_⟩
    have h2 := hw hcons (Or.inr hc)
    have e : Chunk.run Chunk.init (as ++ [.event 1]) = Chunk.step s (.event 1) := by
      rw [← hs]; unfold Chunk.run; rw [List.foldl_append]; rfl
    rw [e] at h2
    intro e2
    rw [e2, hcons] at h2
    cases h2

-- a reader waiting at end of file, with an unfinished line in its buffer
example : (Line.run Line.init [.write [97], .event 1, .next, .close]).cons = .waiting ∧
    (Line.run Line.init [.write [97], .event 1, .next, .close]).pipe.closed = true ∧
    (Chunk.run Chunk.init [.next, .close]).cons = .waiting := by decide

end Pieshell.Io
