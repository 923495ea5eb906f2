import Verif.Spec.TextOut
import Verif.Props.Io
/-!
# C151: the text of a pipeline and its lines agree
-/
namespace Pieshell.Io

/-- Decoding is exactly the inverse of encoding: it fails for what is no encoding of a text, and for nothing else. -/
theorem decode_some {b : Bytes} {t : Str} : decode b = some t ↔ b = encode t := by
  constructor
  · intro h
    unfold decode at h
    cases hd : b.toByteArray.utf8Decode? with
    | none => rw [hd] at h; cases h
    | some a =>
      rw [hd] at h
      simp only [Option.map_some, Option.some.injEq] at h
      have hs : (b.toByteArray.utf8Decode?).isSome := by rw [hd]; rfl
      have h1 := ByteArray.utf8Encode_get_utf8Decode? (b := b.toByteArray) (h := hs)
      have h2 : (b.toByteArray.utf8Decode?).get hs = a := by simp [hd]
      rw [h2, h] at h1
      unfold List.utf8Encode at h1
      exact (List.toByteArray_inj.1 h1).symm
  · rintro rfl; exact decode_encode t

theorem encode_append (a b : Str) : encode (a ++ b) = encode a ++ encode b := by simp [encode]

theorem encode_nl : encode ['\n'] = [NL] := by decide

theorem encode_inj {a b : Str} (h : encode a = encode b) : a = b := by
  have := decode_encode a
  rw [h, decode_encode b] at this
  exact (Option.some.inj this).symm

theorem encode_joined (ts : List Str) : encode (ts.flatMap (· ++ ['\n'])) = joined (ts.map encode) := by
  induction ts with
  | nil => rfl
  | cons t ts ih =>
    rw [List.flatMap_cons, encode_append, encode_append, encode_nl, ih]
    simp [joined]

/-- A text has lines. -/
theorem text_lines : ∀ t : Str, ∃ ts, IsTextLines t ts
  | [] => ⟨[], by simp, .inl rfl⟩
  | c :: t => by
    obtain ⟨ts, h1, h2⟩ := text_lines t
    by_cases hc : c = '\n'
    · subst hc
      refine ⟨[] :: ts, by simpa using h1, ?_⟩
      rcases h2 with h2 | ⟨h2, h3, h4⟩
      · exact .inl (by simp [h2])
      · refine .inr ⟨by simp [h2], by simp, ?_⟩
        cases t with
        | nil => exact absurd rfl h3
        | cons d t => rw [List.getLast?_cons_cons]; exact h4
    · cases ts with
      | nil =>
        rcases h2 with h2 | ⟨h2, h3, _⟩
        · have ht : t = [] := by simpa using h2.symm
          subst ht
          exact ⟨[[c]], by simpa using fun e : '\n' = c => hc e.symm, .inr ⟨by simp, by simp, by simp [hc]⟩⟩
        · simp at h2
      | cons l ts =>
        refine ⟨(c :: l) :: ts, ?_, ?_⟩
        · intro x hx
          rcases List.mem_cons.1 hx with rfl | hx
          · simp only [List.mem_cons, not_or]; exact ⟨fun e => hc e.symm, h1 l List.mem_cons_self⟩
          · exact h1 x (List.mem_cons_of_mem _ hx)
        · rcases h2 with h2 | ⟨h2, h3, h4⟩
          · left; rw [← h2]; simp
          · right
            refine ⟨?_, by simp, ?_⟩
            · rw [List.cons_append, ← h2]; simp
            · cases t with
              | nil => exact absurd rfl h3
              | cons d t => rw [List.getLast?_cons_cons]; exact h4

theorem encode_eq_nil {t : Str} (h : encode t = []) : t = [] := encode_inj (h.trans (show [] = encode [] from rfl))

theorem getLast_encode (t : Str) (h : (encode t).getLast? = some NL) : t.getLast? = some '\n' := by
  rcases List.eq_nil_or_concat t with rfl | ⟨t', c, rfl⟩
  · simp [encode] at h
  · rw [List.concat_eq_append, encode_append, List.getLast?_append] at h
    rw [List.concat_eq_append, List.getLast?_concat]
    have hm : NL ∈ encode [c] := by
      cases hc : (encode [c]).getLast? with
      | none =>
        have := List.getLast?_eq_none_iff.1 hc
        have := encode_eq_nil this
        cases this
      | some x =>
        rw [hc] at h
        have h : some x = some NL := h
        rw [Option.some.inj h] at hc
        exact List.mem_of_getLast? hc
    rw [nl_encode] at hm
    simp only [List.mem_singleton] at hm
    rw [hm]

/-- The lines of an encoded text are the encoded lines of the text. -/
theorem lines_encode {t : Str} {ts : List Str} (h : IsTextLines t ts) : IsLines (encode t) (ts.map encode) := by
  refine ⟨?_, ?_⟩
  · intro l hl
    obtain ⟨s, hs, rfl⟩ := List.mem_map.1 hl
    rw [nl_encode]; exact h.1 s hs
  · rcases h.2 with h2 | ⟨h2, h3, h4⟩
    · left; rw [← encode_joined, h2]
    · right
      refine ⟨by rw [← encode_joined, h2, encode_append, encode_nl], fun e => h3 (encode_eq_nil e), fun e => h4 (getLast_encode t e)⟩

theorem listOf_some {ls : List Bytes} {ts : List Str} : listOf ls = some ts ↔ ls = ts.map encode := by
  induction ls generalizing ts with
  | nil => cases ts <;> simp [listOf]
  | cons l ls ih =>
    simp only [listOf]
    cases hd : decode l with
    | none =>
      simp only [reduceCtorEq, false_iff]
      intro he
      cases ts with
      | nil => cases he
      | cons t ts =>
        simp only [List.map_cons, List.cons.injEq] at he
        rw [decode_some.2 he.1] at hd; cases hd
    | some t =>
      have ht := decode_some.1 hd
      cases hl : listOf ls with
      | none =>
        simp only [reduceCtorEq, false_iff]
        intro he
        cases ts with
        | nil => cases he
        | cons t ts =>
          simp only [List.map_cons, List.cons.injEq] at he
          rw [ih.2 he.2] at hl; cases hl
      | some us =>
        have hu := ih.1 hl
        simp only [Option.some.injEq]
        constructor
        · rintro rfl; simp [ht, hu]
        · intro he
          cases ts with
          | nil => cases he
          | cons s ts =>
            simp only [List.map_cons, List.cons.injEq] at he
            have h1 := ih.2 he.2
            rw [hl, Option.some.injEq] at h1
            rw [h1, encode_inj (ht.symm.trans he.1)]

/-- Text lines are unique, too. -/
theorem textLines_unique {t : Str} {a b : List Str} (ha : IsTextLines t a) (hb : IsTextLines t b) : a = b := by
  have := IsLines_unique _ _ _ (lines_encode ha) (lines_encode hb)
  have h1 := listOf_some.2 this
  rw [listOf_some.2 rfl, Option.some.injEq] at h1
  exact h1

/-- `str(p)`, for every schedule: the text whose encoding the pipeline has written; `UnicodeDecodeError` exactly if there is none. -/
theorem C151_str (as : List RAct) (h : (Chunk.run Chunk.init as).cons = .stopped) (t : Str) :
    strOf (Chunk.run Chunk.init as).out = some t ↔ (Chunk.run Chunk.init as).pipe.written = encode t := by
  unfold strOf bytesOf
  rw [C37_bytes as h]; exact decode_some

/-- `str(p)` and `list(p)` agree, whatever the schedules, if the pipeline writes the same both times: `list(p)` are the lines of `str(p)`, and either both succeed or both raise `UnicodeDecodeError`. -/
theorem C151_agree (as bs : List RAct) (ha : (Chunk.run Chunk.init as).cons = .stopped) (hb : (Line.run Line.init bs).cons = .stopped)
    (h : (Chunk.run Chunk.init as).pipe.written = (Line.run Line.init bs).pipe.written) :
    (∀ t, strOf (Chunk.run Chunk.init as).out = some t → ∃ ts, listOf (Line.run Line.init bs).out = some ts ∧ IsTextLines t ts) ∧
    (strOf (Chunk.run Chunk.init as).out = none ↔ listOf (Line.run Line.init bs).out = none) := by
  have h1 : ∀ t, strOf (Chunk.run Chunk.init as).out = some t → ∃ ts, listOf (Line.run Line.init bs).out = some ts ∧ IsTextLines t ts := by
    intro t ht
    have hw := (C151_str as ha t).1 ht
    obtain ⟨ts, hts⟩ := text_lines t
    have hl := C36_lines bs hb
    rw [← h, hw] at hl
    exact ⟨ts, listOf_some.2 (IsLines_unique _ _ _ hl (lines_encode hts)), hts⟩
  refine ⟨h1, ?_⟩
  constructor
  · intro hn
    cases hl : listOf (Line.run Line.init bs).out with
    | none => rfl
    | some ts =>
      have ho := listOf_some.1 hl
      obtain ⟨hI1, hI2⟩ := C36_lines bs hb
      rw [ho, ← encode_joined, ← h] at hI2
      rcases hI2 with h2 | ⟨h2, h3, h4⟩
      · rw [(C151_str as ha _).2 h2.symm] at hn; cases hn
      · -- the last line lacks its newline
        rcases List.eq_nil_or_concat ts with rfl | ⟨us, u, rfl⟩
        · simp [encode] at h2
        · rw [List.concat_eq_append, List.flatMap_append, List.flatMap_cons, List.flatMap_nil, List.append_nil, ← List.append_assoc, encode_append, encode_nl] at h2
          have h5 := (List.append_inj' h2 rfl).1
          rw [(C151_str as ha _).2 h5.symm] at hn; cases hn
  · intro hn
    cases hs : strOf (Chunk.run Chunk.init as).out with
    | none => rfl
    | some t =>
      obtain ⟨ts, hts, _⟩ := h1 t hs
      rw [hts] at hn; cases hn

/-- `"å\nb"`, in pieces that split the character. -/
example : (Chunk.run Chunk.init [.next, .write [0xC3], .event 5, .resume, .write [0xA5, 10, 98], .close, .event 9, .next, .event 1, .next, .next]).cons = .stopped ∧
    strOf (Chunk.run Chunk.init [.next, .write [0xC3], .event 5, .resume, .write [0xA5, 10, 98], .close, .event 9, .next, .event 1, .next, .next]).out = some c!"å\nb" ∧
    IsTextLines c!"å\nb" [c!"å", c!"b"] := by
  refine ⟨by decide, ?_, by decide, .inr (by decide)⟩
  rw [C151_str _ (by decide)]
  decide

/-- What is no text: a half of that character, in the second line. -/
example : ∀ t, [98, 10, 0xC3] ≠ encode t := by
  intro t h
  have hd := decode_some.2 h
  have : decode [98, 10, 0xC3] = none := by decide +kernel
  rw [this] at hd; cases hd

end Pieshell.Io
