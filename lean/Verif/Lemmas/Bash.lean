import Verif.Spec.Bash
import Verif.Lemmas.Dict
import Verif.Props.Shell
namespace Pieshell.Bash

/-- Characters that are neither blank nor special to the lexer. -/
def wordChar (c : Char) : Bool := !isWs c && c ≠ '#' && c ≠ '\\' && c ≠ '\'' && c ≠ '"'

theorem wordChar_nl {c : Char} (h : wordChar c = true) : c ≠ '\n' := by
  rintro rfl; revert h; decide

theorem word_run (w : Str) (h : ∀ c ∈ w, wordChar c = true) (tok : Str) (q : Bool) (n : Nat) (s : Str) :
    readToken .word tok q n (w ++ s) = readToken .word (tok ++ w) q n s := by
  induction w generalizing tok with
  | nil => simp
  | cons c w ih =>
    have hc := h c (by simp)
    have hnl := wordChar_nl hc
    simp only [wordChar, Bool.and_eq_true, Bool.not_eq_true', decide_eq_true_eq] at hc
    obtain ⟨⟨⟨⟨h1, h2⟩, h3⟩, h4⟩, h5⟩ := hc
    rw [List.cons_append, readToken]
    simp only [h1, h2, h3, h4, h5, bump, hnl, if_false, Bool.false_eq_true, decide_false, Bool.or_self]
    rw [ih (fun c hc => h c (by simp [hc]))]
    simp

/-- Beginning of a word. -/
theorem ws_word (c : Char) (w : Str) (h : ∀ d ∈ c :: w, wordChar d = true) (n : Nat) (s : Str) :
    readToken .ws [] false n (c :: w ++ s) = readToken .word (c :: w) false n s := by
  have hc := h c (by simp)
  have hnl := wordChar_nl hc
  simp only [wordChar, Bool.and_eq_true, Bool.not_eq_true', decide_eq_true_eq] at hc
  obtain ⟨⟨⟨⟨h1, h2⟩, h3⟩, h4⟩, h5⟩ := hc
  rw [List.cons_append, readToken]
  simp only [h1, h2, h3, h4, h5, bump, hnl, if_false, Bool.false_eq_true, decide_false, Bool.or_self]
  rw [word_run w (fun c hc => h c (by simp [hc]))]
  rfl

/-- The end of a word. -/
theorem word_end (tok : Str) (q : Bool) (n : Nat) (c : Char) (s : Str) (hc : isWs c = true) (ht : tok ≠ []) :
    readToken .word tok q n (c :: s) = .ok (some tok, s, bump n c) := by
  rw [readToken]
  simp [hc, ht, emit]

/-- A whole plain word. -/
theorem token_word (w : Str) (hne : w ≠ []) (h : ∀ d ∈ w, wordChar d = true) (n : Nat) (c : Char) (s : Str)
    (hc : isWs c = true) : readToken .ws [] false n (w ++ c :: s) = .ok (some w, s, bump n c) := by
  cases w with
  | nil => exact absurd rfl hne
  | cons d w => rw [ws_word d w h, word_end _ _ _ _ _ hc (by simp)]

/-- The number of newlines. -/
def nls (v : Str) : Nat := v.count '\n'

/-- The text between the quotes. -/
def quoteBody (v : Str) : Str := v.flatMap (fun c => if c = '"' ∨ c = '\\' ∨ c = '$' ∨ c = '`' then ['\\', c] else [c])

theorem quote_run (v tok s : Str) (q : Bool) (n : Nat) :
    readToken (.quote '"') tok q n (quoteBody v ++ '"' :: s) = readToken .word (tok ++ misread v) true (n + nls v) s := by
  induction v generalizing tok q n with
  | nil =>
    simp [quoteBody, misread, nls, readToken, bump]
  | cons c v ih =>
    have e1 : quoteBody (c :: v) = (if c = '"' ∨ c = '\\' ∨ c = '$' ∨ c = '`' then ['\\', c] else [c]) ++ quoteBody v := by
      simp [quoteBody]
    have e2 : misread (c :: v) = (if c = '$' ∨ c = '`' then ['\\', c] else [c]) ++ misread v := by simp [misread]
    have e3 : nls (c :: v) = (if c = '\n' then 1 else 0) + nls v := by
      simp only [nls, List.count_cons]
      by_cases h : c = '\n' <;> simp [h, Nat.add_comm]
    rw [e1, e2, e3]
    by_cases h1 : c = '"'
    · subst h1
      simp [readToken, bump, ih]
    · by_cases h2 : c = '\\'
      · subst h2
        simp [readToken, bump, ih]
      · by_cases h3 : c = '$' ∨ c = '`'
        · have hnl : c ≠ '\n' := by rcases h3 with h | h <;> subst h <;> decide
          have h4 : (c = '"' ∨ c = '\\' ∨ c = '$' ∨ c = '`') := by rcases h3 with h | h <;> simp [h]
          simp [h4, h3, readToken, bump, hnl, h1, h2, ih]
        · have h4 : ¬ (c = '"' ∨ c = '\\' ∨ c = '$' ∨ c = '`') := by
            simp only [not_or] at h3 ⊢; exact ⟨h1, h2, h3⟩
          rw [if_neg h4, if_neg h3]
          simp only [List.cons_append, List.nil_append]
          rw [readToken]
          simp only [h1, h2, if_false, decide_false, Bool.false_and, Bool.false_eq_true]
          rw [ih]
          by_cases hnl : c = '\n' <;> simp [bump, hnl, Nat.add_assoc]

theorem name_chars {s : Str} (h : IsName s) : ∀ c ∈ s, wordChar c = true := by
  intro c hc
  rcases h.2 c hc with h | rfl
  · have hne : ∀ d : Char, d.isAlphanum = false → c ≠ d := by
      rintro d hd rfl; rw [h] at hd; cases hd
    simp [wordChar, isWs, hne ' ' (by decide), hne '\t' (by decide), hne '\r' (by decide), hne '\n' (by decide),
      hne '#' (by decide), hne '\\' (by decide), hne '\'' (by decide), hne '"' (by decide)]
  · decide

theorem name_no_eq {s : Str} (h : IsName s) : '=' ∉ s := by
  intro hc
  rcases h.2 _ hc with h | h
  · revert h; decide
  · revert h; decide

/-- The third token of a line of `declare -x`. -/
def third : Str × Option Str → Str
  | (name, some v) => name ++ c!"=" ++ misread v
  | (name, none) => name

/-- The number of newlines inside the line. -/
def inner : Str × Option Str → Nat
  | (_, some v) => nls v
  | (_, none) => 0

theorem word_eof (tok : Str) (q : Bool) (n : Nat) (ht : tok ≠ []) :
    readToken .word tok q n [] = .ok (some tok, [], n) := by
  simp [readToken, emit, ht]

theorem third_run (v : Str × Option Str) (h : IsName v.1) (n : Nat) (s : Str) :
    ∃ q, readToken .ws [] false n ((declared v).drop 11 ++ s) = readToken .word (third v) q (n + inner v) s := by
  obtain ⟨name, o⟩ := v
  have hn := name_chars h
  obtain ⟨c, w, e⟩ : ∃ c w, name = c :: w := by
    cases name with
    | nil => exact absurd rfl h.1
    | cons c w => exact ⟨c, w, rfl⟩
  cases o with
  | none =>
    refine ⟨false, ?_⟩
    simp only [declared, third, inner, Nat.add_zero]
    rw [show (c!"declare -x " ++ name).drop 11 = name from rfl, e]
    exact ws_word c w (e ▸ hn) n s
  | some v =>
    refine ⟨true, ?_⟩
    have : (declared (name, some v)).drop 11 ++ s = name ++ ('=' :: '"' :: (quoteBody v ++ '"' :: s)) := by
      rw [show declared (name, some v) = c!"declare -x " ++ name ++ c!"=" ++ (c!"\"" ++ quoteBody v ++ c!"\"") from rfl]
      rw [show (c!"declare -x " ++ name ++ c!"=" ++ (c!"\"" ++ quoteBody v ++ c!"\"")) = c!"declare -x " ++ (name ++ c!"=" ++ (c!"\"" ++ quoteBody v ++ c!"\"")) from by simp]
      rw [show ∀ t : Str, (c!"declare -x " ++ t).drop 11 = t from fun t => rfl]
      simp
    rw [this, e, ws_word c w (e ▸ hn), readToken]
    simp only [show isWs '=' = false from by decide, Bool.false_eq_true, if_false, show ¬ ('=' = '#') from by decide,
      show ¬ ('=' = '\\') from by decide, show ('=' = '\'' || '=' = '"') = false from by decide,
      show bump n '=' = n from rfl]
    rw [readToken]
    simp only [show isWs '"' = false from by decide, Bool.false_eq_true, if_false, show ¬ ('"' = '#') from by decide,
      show ('"' = '\'' || '"' = '"') = true from by decide, if_true, show bump n '"' = n from rfl]
    rw [quote_run]
    simp [third, inner]

theorem third_ne (v : Str × Option Str) (h : IsName v.1) : third v ≠ [] := by
  obtain ⟨name, o⟩ := v
  cases o with
  | none => exact h.1
  | some v => simp [third]

theorem declared_eq (v : Str × Option Str) : declared v = c!"declare" ++ ' ' :: (c!"-x" ++ ' ' :: (declared v).drop 11) := by
  obtain ⟨name, o⟩ := v
  cases o <;> rfl

/-- Flushing is idempotent. -/
theorem flush_eq (f : Nat) (s : Str) (n last : Nat) (line : List Str) (lines : List (Nat × List Str)) (h : n ≠ last) :
    lexLines f s n last line lines = lexLines f s n n [] (lines ++ [(last, line)]) := by
  cases f with
  | zero => rfl
  | succ f => simp [lexLines, h]

/-- One line of `declare -x`. -/
theorem lex_declared (v : Str × Option Str) (h : IsName v.1) (f n : Nat) (s : Str) (lines : List (Nat × List Str)) :
    lexLines (f + 3) (declared v ++ '\n' :: s) n n [] lines =
      lexLines f s (n + inner v + 1) (n + inner v + 1) [] (lines ++ [(n, [c!"declare", c!"-x", third v])]) := by
  rw [declared_eq]
  obtain ⟨q, hq⟩ := third_run v h n ('\n' :: s)
  rw [show (c!"declare" ++ ' ' :: (c!"-x" ++ ' ' :: (declared v).drop 11)) ++ '\n' :: s =
      c!"declare" ++ ' ' :: (c!"-x" ++ ' ' :: ((declared v).drop 11 ++ '\n' :: s)) from by simp]
  rw [lexLines]
  rw [token_word c!"declare" (by decide) (by decide) n ' ' _ (by decide)]
  simp only [show bump n ' ' = n from rfl, ne_eq, not_true_eq_false, if_false, List.nil_append]
  rw [lexLines]
  rw [token_word c!"-x" (by decide) (by decide) n ' ' _ (by decide)]
  simp only [show bump n ' ' = n from rfl, ne_eq, not_true_eq_false, if_false]
  rw [lexLines]
  rw [hq, word_end _ _ _ '\n' _ (by decide) (third_ne v h)]
  simp only [show bump (n + inner v) '\n' = n + inner v + 1 from rfl, ne_eq, not_true_eq_false, if_false]
  rw [flush_eq _ _ _ _ _ _ (by omega)]
  rfl

/-- A last line without newline, that is itself a single line: it is lost. -/
theorem lex_last (v : Str × Option Str) (h : IsName v.1) (f n : Nat) (lines : List (Nat × List Str)) :
    lexLines (f + 4) (declared v) n n [] lines =
      .ok (if inner v = 0 then lines else lines ++ [(n, [c!"declare", c!"-x", third v])]) := by
  rw [declared_eq]
  obtain ⟨q, hq⟩ := third_run v h n []
  rw [List.append_nil] at hq
  rw [lexLines]
  rw [token_word c!"declare" (by decide) (by decide) n ' ' _ (by decide)]
  simp only [show bump n ' ' = n from rfl, ne_eq, not_true_eq_false, if_false, List.nil_append]
  rw [lexLines]
  rw [token_word c!"-x" (by decide) (by decide) n ' ' _ (by decide)]
  simp only [show bump n ' ' = n from rfl, ne_eq, not_true_eq_false, if_false]
  rw [lexLines]
  rw [hq, word_eof _ _ _ (third_ne v h)]
  simp only [ne_eq, not_true_eq_false, if_false]
  rw [lexLines]
  by_cases h0 : inner v = 0
  · simp [h0, readToken, emit]
  · simp [h0, readToken, emit]

/-- The lines of the variables. -/
def declLines : Nat → List (Str × Option Str) → List (Nat × List Str)
  | _, [] => []
  | n, v :: l => (n, [c!"declare", c!"-x", third v]) :: declLines (n + inner v + 1) l

def after : Nat → List (Str × Option Str) → Nat
  | n, [] => n
  | n, v :: l => after (n + inner v + 1) l

theorem lex_printed (vars : List (Str × Option Str)) (h : ∀ v ∈ vars, IsName v.1) (f n : Nat) (s : Str)
    (lines : List (Nat × List Str)) :
    lexLines (f + 3 * vars.length) (printed vars ++ s) n n [] lines =
      lexLines f s (after n vars) (after n vars) [] (lines ++ declLines n vars) := by
  induction vars generalizing n lines with
  | nil => simp [printed, after, declLines]
  | cons v l ih =>
    have e : printed (v :: l) ++ s = declared v ++ '\n' :: (printed l ++ s) := by simp [printed]
    rw [e, show f + 3 * (v :: l).length = (f + 3 * l.length) + 3 from by simp [Nat.mul_add]; omega]
    rw [lex_declared v (h v (by simp)), ih (fun w hw => h w (by simp [hw]))]
    simp [after, declLines]

/-- More fuel does not hurt. -/
theorem lex_more (f g : Nat) (s : Str) (n last : Nat) (line : List Str) (lines L : List (Nat × List Str))
    (h : lexLines f s n last line lines = .ok L) (hg : f ≤ g) : lexLines g s n last line lines = .ok L := by
  induction f generalizing g s n last line lines with
  | zero => simp [lexLines] at h
  | succ f ih =>
    cases g with
    | zero => omega
    | succ g =>
      simp only [lexLines] at h ⊢
      split at h
      · cases h
      · exact h
      · exact ih g _ _ _ _ _ h (by omega)

/-! ### Text with closed quotes -/

/-- What is still to come in each state of the reader. -/
def ClosedIn : St → Str → Prop
  | .ws, s => Closed s
  | .word, s => Closed s
  | .quote q, s => ∃ b r, s = b ++ q :: r ∧ (if q = '"' then InDouble b else q ∉ b) ∧ Closed r
  | .esc none, s => ∃ c r, s = c :: r ∧ Closed r
  | .esc (some q), s => ∃ c b r, s = c :: (b ++ q :: r) ∧ InDouble b ∧ Closed r
  | .comment _, s => (∃ t r, s = t ++ '\n' :: r ∧ '\n' ∉ t ∧ Closed r) ∨ '\n' ∉ s

/-- The states that are reached. -/
def Good : St → Str → Bool → Prop
  | .ws, tok, quoted => tok = [] ∧ quoted = false
  | .word, tok, quoted => tok ≠ [] ∨ quoted = true
  | .quote q, _, _ => q = '\'' ∨ q = '"'
  | .esc none, _, _ => True
  | .esc (some q), _, _ => q = '"'
  | .comment w, tok, quoted => if w then tok ≠ [] ∨ quoted = true else tok = [] ∧ quoted = false

theorem bare_append (a b : Str) : bare (a ++ b) = bare a ++ bare b := by simp [bare]

theorem bare_cons (c : Char) (b : Str) : bare (c :: b) = bare [c] ++ bare b := by
  rw [← bare_append]; rfl

theorem special_iff {c : Char} : c ∈ c!"'\"\\#" ↔ c = '\'' ∨ c = '"' ∨ c = '\\' ∨ c = '#' := by simp

theorem isWs_special {c : Char} (h : isWs c = true) : c ∉ c!"'\"\\#" := by
  intro hm
  rcases special_iff.1 hm with rfl | rfl | rfl | rfl <;> simp [isWs] at h

theorem closed_plain {c : Char} (h : c ∉ c!"'\"\\#") (s : Str) : Closed (c :: s) ↔ Closed s := by
  constructor
  · intro hc
    cases hc with
    | plain _ _ _ h => exact h
    | _ => simp at h
  · exact .plain c s h

theorem closed_hash (w : Bool) (s : Str) : Closed ('#' :: s) ↔ ClosedIn (.comment w) s := by
  constructor
  · intro hc
    cases hc with
    | plain _ _ h => simp at h
    | comment t s h hs => exact .inl ⟨t, s, rfl, h, hs⟩
    | commentEnd _ h => exact .inr h
  · rintro (⟨t, r, rfl, h, hr⟩ | h)
    · exact .comment t r h hr
    · exact .commentEnd s h

theorem closed_back (s : Str) : Closed ('\\' :: s) ↔ ClosedIn (.esc none) s := by
  constructor
  · intro hc
    cases hc with
    | plain _ _ h => simp at h
    | escaped c s h => exact ⟨c, s, rfl, h⟩
  · rintro ⟨c, r, rfl, h⟩
    exact .escaped c r h

theorem closed_quote {q : Char} (hq : q = '\'' ∨ q = '"') (s : Str) : Closed (q :: s) ↔ ClosedIn (.quote q) s := by
  constructor
  · intro hc
    cases hc with
    | plain _ _ h => rcases hq with rfl | rfl <;> simp at h
    | single b r h hr => exact ⟨b, r, rfl, by simpa using h, hr⟩
    | double b r h hr => exact ⟨b, r, rfl, by simpa using h, hr⟩
    | escaped => simp at hq
    | comment => simp at hq
    | commentEnd => simp at hq
  · rintro ⟨b, r, rfl, h, hr⟩
    rcases hq with rfl | rfl
    · exact .single b r (by simpa using h) hr
    · exact .double b r (by simpa using h) hr

theorem in_quote_nil (q : Char) : ¬ ClosedIn (.quote q) [] := by
  rintro ⟨b, r, h, -⟩
  simp at h

theorem in_quote_end {q : Char} (hq : q = '\'' ∨ q = '"') (s : Str) : ClosedIn (.quote q) (q :: s) ↔ Closed s := by
  constructor
  · rintro ⟨b, r, h, hb, hr⟩
    cases b with
    | nil => simp at h; exact h ▸ hr
    | cons c b =>
      simp only [List.cons_append, List.cons.injEq] at h
      obtain ⟨rfl, -⟩ := h
      rcases hq with rfl | rfl
      · simp at hb
      · simp only [if_true] at hb
        cases hb with
        | plain _ _ h => exact absurd rfl h
  · intro h
    refine ⟨[], s, rfl, ?_, h⟩
    split
    · exact .nil
    · simp

theorem in_quote_esc (s : Str) : ClosedIn (.quote '"') ('\\' :: s) ↔ ClosedIn (.esc (some '"')) s := by
  constructor
  · rintro ⟨b, r, h, hb, hr⟩
    simp only [if_true] at hb
    cases hb with
    | nil => simp at h
    | plain c b h1 h2 hb =>
      simp only [List.cons_append, List.cons.injEq] at h
      exact absurd h.1.symm h2
    | escaped c b hb =>
      simp only [List.cons_append, List.cons.injEq, true_and] at h
      exact ⟨c, b, r, h, hb, hr⟩
  · rintro ⟨c, b, r, rfl, hb, hr⟩
    exact ⟨'\\' :: c :: b, r, rfl, by simpa using .escaped c b hb, hr⟩

theorem in_quote_plain {q c : Char} (h1 : c ≠ q) (h2 : ¬ (c = '\\' ∧ q = '"')) (s : Str) :
    ClosedIn (.quote q) (c :: s) ↔ ClosedIn (.quote q) s := by
  constructor
  · rintro ⟨b, r, h, hb, hr⟩
    cases b with
    | nil => simp only [List.nil_append, List.cons.injEq] at h; exact absurd h.1 h1
    | cons d b =>
      simp only [List.cons_append, List.cons.injEq] at h
      obtain ⟨rfl, rfl⟩ := h
      refine ⟨b, r, rfl, ?_, hr⟩
      split at hb
      · cases hb with
        | plain _ _ _ _ h => simpa [*] using h
        | escaped => simp_all
      · rename_i hq
        simp only [hq, if_false]
        simp only [List.mem_cons, not_or] at hb
        exact hb.2
  · rintro ⟨b, r, rfl, hb, hr⟩
    refine ⟨c :: b, r, rfl, ?_, hr⟩
    split at hb
    · rename_i hq
      simp only [hq, if_true]
      exact .plain c b (fun e => h1 (by rw [e, hq])) (fun e => h2 ⟨e, hq⟩) hb
    · rename_i hq
      simp only [hq, if_false, List.mem_cons, not_or]
      exact ⟨fun e => h1 e.symm, hb⟩

theorem in_esc_quote (c : Char) (s : Str) : ClosedIn (.esc (some '"')) (c :: s) ↔ ClosedIn (.quote '"') s := by
  constructor
  · rintro ⟨d, b, r, h, hb, hr⟩
    simp only [List.cons.injEq] at h
    obtain ⟨rfl, rfl⟩ := h
    exact ⟨b, r, rfl, by simpa using hb, hr⟩
  · rintro ⟨b, r, rfl, hb, hr⟩
    exact ⟨c, b, r, rfl, by simpa using hb, hr⟩

theorem in_comment_nl (w : Bool) (s : Str) : ClosedIn (.comment w) ('\n' :: s) ↔ Closed s := by
  constructor
  · rintro (⟨t, r, h, ht, hr⟩ | h)
    · cases t with
      | nil => simp at h; exact h ▸ hr
      | cons c t =>
        simp only [List.cons_append, List.cons.injEq] at h
        obtain ⟨rfl, -⟩ := h
        simp at ht
    · simp at h
  · intro h
    exact .inl ⟨[], s, rfl, by simp, h⟩

theorem in_comment (w : Bool) {c : Char} (hc : c ≠ '\n') (s : Str) : ClosedIn (.comment w) (c :: s) ↔ ClosedIn (.comment w) s := by
  constructor
  · rintro (⟨t, r, h, ht, hr⟩ | h)
    · cases t with
      | nil => simp only [List.nil_append, List.cons.injEq] at h; exact absurd h.1 hc
      | cons d t =>
        simp only [List.cons_append, List.cons.injEq] at h
        obtain ⟨rfl, rfl⟩ := h
        exact .inl ⟨t, r, rfl, fun hm => ht (by simp [hm]), hr⟩
    · exact .inr (fun hm => h (by simp [hm]))
  · rintro (⟨t, r, rfl, ht, hr⟩ | h)
    · exact .inl ⟨c :: t, r, rfl, by simp [ht, Ne.symm hc], hr⟩
    · exact .inr (by simp [h, Ne.symm hc])

/-- What reading a token from `s` gives, in general: it fails exactly if a quote or a backslash is left open; a token is a part of
the text, up to quotes and backslashes. -/
def Shape (st : St) (tok s : Str) : Except Exn (Option Str × Str × Nat) → Prop
  | .error e => e = .valueError ∧ ¬ ClosedIn st s
  | .ok (o, rest, _) => (ClosedIn st s ↔ Closed rest) ∧ (∃ y, s = y ++ rest) ∧ (s ≠ [] → rest.length < s.length) ∧ (o = none → rest = []) ∧
      ∀ t, o = some t → ∃ a w b, bare t = bare tok ++ w ∧ bare s = a ++ w ++ b ∧ (bare tok ≠ [] → a = [])

/-- One more character. -/
theorem shape_cons {st st' : St} {tok tok' s : Str} {c : Char} {r : Except Exn (Option Str × Str × Nat)} (h : Shape st' tok' s r)
    (h1 : ClosedIn st (c :: s) ↔ ClosedIn st' s) (h2 : bare tok' = bare tok ++ bare [c] ∨ bare tok' = bare tok ∧ bare [c] = [] ∨
      bare tok' = bare tok ∧ bare tok = []) :
    Shape st tok (c :: s) r := by
  cases r with
  | error e => exact ⟨h.1, fun hc => h.2 (h1.1 hc)⟩
  | ok p =>
    obtain ⟨o, rest, m⟩ := p
    obtain ⟨h3, ⟨y, h4⟩, h5, h6, h7⟩ := h
    refine ⟨h1.trans h3, ⟨c :: y, by rw [h4]; rfl⟩, ?_, h6, ?_⟩
    · intro _
      by_cases hs : s = []
      · subst hs
        simp only [List.nil_eq, List.append_eq_nil_iff] at h4
        simp [h4.2]
      · have := h5 hs
        simp only [List.length_cons]; omega
    · intro t ht
      obtain ⟨a, w, b, h8, h9, h10⟩ := h7 t ht
      rw [bare_cons c s]
      rcases h2 with h2 | ⟨h2, h2'⟩ | ⟨h2, h2'⟩
      · by_cases he : bare [c] = []
        · rw [he] at h2 ⊢
          rw [List.append_nil] at h2
          rw [h2] at h8 h10
          exact ⟨a, w, b, h8, by rw [h9]; simp, h10⟩
        · have : a = [] := h10 (by rw [h2]; simp [he])
          subst this
          exact ⟨[], bare [c] ++ w, b, by rw [h8, h2]; simp, by rw [h9]; simp, fun _ => rfl⟩
      · rw [h2] at h8 h10
        exact ⟨a, w, b, h8, by rw [h9, h2']; simp, h10⟩
      · rw [h2, h2'] at h8
        exact ⟨bare [c] ++ a, w, b, by rw [h8, h2'], by rw [h9]; simp, fun hn => absurd h2' hn⟩

/-- The token ends. -/
theorem shape_emit {st : St} {tok s rest y : Str} {quoted : Bool} {n : Nat} (h : tok ≠ [] ∨ quoted = true)
    (hs : s = y ++ rest) (hl : s ≠ [] → rest.length < s.length) (hc : ClosedIn st s ↔ Closed rest) :
    Shape st tok s (emit tok quoted rest n) := by
  have : (tok = [] && !quoted) = false := by
    rcases h with h | h <;> simp [h]
  rw [emit, this]
  refine ⟨hc, ⟨y, hs⟩, hl, by simp, ?_⟩
  intro t ht
  simp only [Bool.false_eq_true, if_false, Option.some.injEq] at ht
  subst ht
  exact ⟨[], [], bare s, by simp, by simp, fun _ => rfl⟩

theorem shape_none {st : St} {tok s : Str} {n : Nat} (hc : ClosedIn st s) : Shape st tok s (emit [] false [] n) := by
  refine ⟨⟨fun _ => .nil, fun _ => hc⟩, ⟨s, by simp⟩, ?_, fun _ => rfl, by simp⟩
  intro h
  simpa [List.length_pos_iff] using h

theorem read_shape (s : Str) (st : St) (tok : Str) (quoted : Bool) (n : Nat) (hg : Good st tok quoted) :
    Shape st tok s (readToken st tok quoted n s) := by
  induction s generalizing st tok quoted n with
  | nil =>
    cases st with
    | ws =>
      obtain ⟨rfl, rfl⟩ := hg
      exact shape_none .nil
    | word => exact shape_emit (y := []) hg rfl (fun h => absurd rfl h) Iff.rfl
    | quote q => exact ⟨rfl, in_quote_nil q⟩
    | esc back =>
      refine ⟨rfl, ?_⟩
      cases back with
      | none => rintro ⟨c, r, h, -⟩; cases h
      | some q => rintro ⟨c, b, r, h, -⟩; cases h
    | comment w =>
      have hn : ClosedIn (.comment w) [] := .inr (by simp)
      cases w with
      | true => exact shape_emit (y := []) (by simpa [Good] using hg) rfl (fun h => absurd rfl h) ⟨fun _ => .nil, fun _ => hn⟩
      | false =>
        obtain ⟨rfl, rfl⟩ : tok = [] ∧ quoted = false := by simpa [Good] using hg
        exact shape_none hn
  | cons c s ih =>
    cases st with
    | ws =>
      obtain ⟨rfl, rfl⟩ := hg
      rw [readToken]
      simp only [ne_eq, not_true_eq_false, decide_false, Bool.or_self, Bool.false_eq_true, if_false]
      by_cases h1 : isWs c = true
      · simp only [h1, if_true]
        exact shape_cons (ih .ws [] false _ ⟨rfl, rfl⟩) (closed_plain (isWs_special h1) s) (.inr (.inr ⟨rfl, rfl⟩))
      simp only [h1, Bool.false_eq_true, if_false]
      by_cases h2 : c = '#'
      · subst h2
        simp only [if_true]
        exact shape_cons (ih (.comment false) [] false _ ⟨rfl, rfl⟩) (closed_hash false s) (.inr (.inr ⟨rfl, rfl⟩))
      simp only [h2, if_false]
      by_cases h3 : c = '\\'
      · subst h3
        simp only [if_true]
        exact shape_cons (ih (.esc none) [] false _ trivial) (closed_back s) (.inr (.inr ⟨rfl, rfl⟩))
      simp only [h3, if_false]
      by_cases h4 : c = '\'' ∨ c = '"'
      · have : (decide (c = '\'') || decide (c = '"')) = true := by simpa using h4
        simp only [this, if_true]
        exact shape_cons (ih (.quote c) [] false _ h4) (closed_quote h4 s) (.inr (.inr ⟨rfl, rfl⟩))
      · have : (decide (c = '\'') || decide (c = '"')) = false := by simpa using h4
        simp only [this, Bool.false_eq_true, if_false]
        refine shape_cons (ih .word [c] false _ (.inl (by simp))) (closed_plain ?_ s) (.inl (by simp [bare]))
        rw [special_iff]; simp only [not_or] at h4 ⊢; exact ⟨h4.1, h4.2, h3, h2⟩
    | word =>
      rw [readToken]
      have hq : (tok ≠ [] || quoted) = true := by
        rcases hg with h | h <;> simp [h]
      by_cases h1 : isWs c = true
      · simp only [h1, if_true, hq]
        exact shape_emit (y := [c]) hg rfl (by simp) (closed_plain (isWs_special h1) s)
      simp only [h1, Bool.false_eq_true, if_false]
      by_cases h2 : c = '#'
      · subst h2
        simp only [if_true]
        by_cases hb : bare tok = []
        · exact shape_cons (ih (.comment true) tok quoted _ (by simpa [Good] using hg)) (closed_hash true s) (.inr (.inr ⟨rfl, hb⟩))
        · have := ih (.comment true) tok quoted (bump n '#') (by simpa [Good] using hg)
          have key : ∀ m, ∃ rest k, readToken (.comment true) tok quoted m s = emit tok quoted rest k := by
            clear this ih
            induction s with
            | nil => intro m; exact ⟨[], m + 1, rfl⟩
            | cons d s ih2 =>
              intro m
              rw [readToken]
              by_cases hd : d = '\n'
              · exact ⟨s, m + 1, by simp only [hd, if_true, Bool.true_and, hq]⟩
              · simp only [hd, if_false]; exact ih2 m
          obtain ⟨rest, k, hk⟩ := key (bump n '#')
          rw [hk] at this ⊢
          have hem : (tok = [] && !quoted) = false := by rcases hg with h | h <;> simp [h]
          rw [emit, hem] at this ⊢
          obtain ⟨g1, ⟨y, g2⟩, g3, g4, g5⟩ := this
          refine ⟨(closed_hash true s).trans g1, ⟨'#' :: y, by rw [g2]; rfl⟩, ?_, by simp, ?_⟩
          · intro _
            rw [g2]; simp only [List.length_cons, List.length_append]; omega
          · intro t ht
            simp only [Bool.false_eq_true, if_false, Option.some.injEq] at ht
            subst ht
            exact ⟨[], [], bare ('#' :: s), by simp, by simp, fun _ => rfl⟩
      simp only [h2, if_false]
      by_cases h4 : c = '\'' ∨ c = '"'
      · have : (decide (c = '\'') || decide (c = '"')) = true := by simpa using h4
        simp only [this, if_true]
        refine shape_cons (ih (.quote c) tok quoted _ h4) (closed_quote h4 s) (.inr (.inl ⟨rfl, ?_⟩))
        rcases h4 with rfl | rfl <;> rfl
      have h4' : (decide (c = '\'') || decide (c = '"')) = false := by simpa using h4
      simp only [h4', Bool.false_eq_true, if_false]
      by_cases h3 : c = '\\'
      · subst h3
        simp only [if_true]
        exact shape_cons (ih (.esc none) tok quoted _ trivial) (closed_back s) (.inr (.inl ⟨rfl, rfl⟩))
      simp only [h3, if_false]
      refine shape_cons (ih .word (tok ++ [c]) quoted _ (.inl (by simp))) (closed_plain ?_ s) (.inl (bare_append _ _))
      rw [special_iff]; simp only [not_or] at h4 ⊢; exact ⟨h4.1, h4.2, h3, h2⟩
    | quote q =>
      rw [readToken]
      by_cases h1 : c = q
      · subst h1
        simp only [if_true]
        refine shape_cons (ih .word tok true _ (.inr rfl)) (in_quote_end hg s) (.inr (.inl ⟨rfl, ?_⟩))
        rcases hg with rfl | rfl <;> rfl
      simp only [h1, if_false]
      by_cases h2 : c = '\\' ∧ q = '"'
      · obtain ⟨rfl, rfl⟩ := h2
        simp only [decide_true, Bool.and_self, if_true]
        exact shape_cons (ih (.esc (some '"')) tok true _ rfl) (in_quote_esc s) (.inr (.inl ⟨rfl, rfl⟩))
      · have : (decide (c = '\\') && decide (q = '"')) = false := by simpa using h2
        simp only [this, Bool.false_eq_true, if_false]
        exact shape_cons (ih (.quote q) (tok ++ [c]) true _ hg) (in_quote_plain h1 h2 s) (.inl (bare_append _ _))
    | esc back =>
      cases back with
      | none =>
        rw [readToken]
        refine shape_cons (ih .word (tok ++ [c]) quoted _ (.inl (by simp))) ?_ (.inl (bare_append _ _))
        constructor
        · rintro ⟨d, r, h, hr⟩
          simp only [List.cons.injEq] at h
          exact h.2 ▸ hr
        · intro h; exact ⟨c, s, rfl, h⟩
      | some q =>
        obtain rfl : q = '"' := hg
        rw [readToken]
        refine shape_cons (ih (.quote '"') _ quoted _ (.inr rfl)) (in_esc_quote c s) (.inl ?_)
        rw [bare_append]
        split
        · rw [bare_append]
          have : bare ['\\'] = [] := rfl
          rw [this, List.append_nil]
        · rfl
    | comment w =>
      rw [readToken]
      by_cases h1 : c = '\n'
      · subst h1
        simp only [if_true]
        cases w with
        | true =>
          have hg : tok ≠ [] ∨ quoted = true := by simpa [Good] using hg
          have hq : (tok ≠ [] || quoted) = true := by
            rcases hg with h | h <;> simp [h]
          simp only [hq, Bool.and_self, if_true]
          exact shape_emit (y := ['\n']) hg rfl (by simp) (in_comment_nl true s)
        | false =>
          obtain ⟨rfl, rfl⟩ : tok = [] ∧ quoted = false := by simpa [Good] using hg
          simp only [Bool.false_and, Bool.false_eq_true, if_false]
          exact shape_cons (ih .ws [] false _ ⟨rfl, rfl⟩) (in_comment_nl false s) (.inr (.inr ⟨rfl, rfl⟩))
      · simp only [h1, if_false]
        by_cases hb : bare tok = []
        · exact shape_cons (ih (.comment w) tok quoted _ hg) (in_comment w h1 s) (.inr (.inr ⟨rfl, hb⟩))
        · have hw : w = true := by
            cases w with
            | true => rfl
            | false =>
              obtain ⟨rfl, rfl⟩ : tok = [] ∧ quoted = false := by simpa [Good] using hg
              exact absurd rfl hb
          subst hw
          have hg' : tok ≠ [] ∨ quoted = true := by simpa [Good] using hg
          have hq : (tok ≠ [] || quoted) = true := by rcases hg' with h | h <;> simp [h]
          have this := ih (.comment true) tok quoted n hg
          have key : ∀ m, ∃ rest k, readToken (.comment true) tok quoted m s = emit tok quoted rest k := by
            clear this ih
            induction s with
            | nil => intro m; exact ⟨[], m + 1, rfl⟩
            | cons d s ih2 =>
              intro m
              rw [readToken]
              by_cases hd : d = '\n'
              · exact ⟨s, m + 1, by simp only [hd, if_true, Bool.true_and, hq]⟩
              · simp only [hd, if_false]; exact ih2 m
          obtain ⟨rest, k, hk⟩ := key n
          rw [hk] at this ⊢
          have hem : (tok = [] && !quoted) = false := by rcases hg' with h | h <;> simp [h]
          rw [emit, hem] at this ⊢
          obtain ⟨g1, ⟨y, g2⟩, g3, g4, g5⟩ := this
          refine ⟨(in_comment true h1 s).trans g1, ⟨c :: y, by rw [g2]; rfl⟩, ?_, by simp, ?_⟩
          · intro _
            rw [g2]; simp only [List.length_cons, List.length_append]; omega
          · intro t ht
            simp only [Bool.false_eq_true, if_false, Option.some.injEq] at ht
            subst ht
            exact ⟨[], [], bare (c :: s), by simp, by simp, fun _ => rfl⟩

/-- A line that defines no variable. -/
def Fine (l : List Str) : Prop := ∃ w ws, l = w :: ws ∧ w ≠ c!"declare"

theorem nodeclare_rest {s rest y : Str} (h : NoDeclare s) (e : s = y ++ rest) : NoDeclare rest := by
  intro a b hb
  refine h (bare y ++ a) b ?_
  rw [e, bare_append, hb]; simp

/-- Reading the lines: it fails exactly if a quote is open, and no line of text without `declare` defines a variable. -/
theorem quiet_lines (f : Nat) (s : Str) (hd : NoDeclare s) (hf : s.length < f) (n last : Nat) (line : List Str)
    (lines : List (Nat × List Str)) (hl : line = [] ∨ Fine line) (hnl : n ≠ last → Fine line) :
    (Closed s → ∃ extra, lexLines f s n last line lines = .ok (lines ++ extra) ∧ ∀ x ∈ extra, Fine x.2) ∧
    (¬ Closed s → lexLines f s n last line lines = .error .valueError) := by
  induction f generalizing s n last line lines with
  | zero => omega
  | succ f ih =>
    simp only [lexLines]
    have hsh := read_shape s .ws [] false n ⟨rfl, rfl⟩
    cases hr : readToken .ws [] false n s with
    | error e =>
      rw [hr] at hsh
      obtain ⟨rfl, hc⟩ := hsh
      exact ⟨fun h => absurd h hc, fun _ => rfl⟩
    | ok p =>
      obtain ⟨o, rest, m⟩ := p
      rw [hr] at hsh
      obtain ⟨g1, ⟨y, g2⟩, g3, g4, g5⟩ := hsh
      have hiff : Closed s ↔ Closed rest := g1
      cases o with
      | none =>
        have : rest = [] := g4 rfl
        subst this
        refine ⟨fun _ => ?_, fun h => absurd (hiff.2 .nil) h⟩
        simp only
        by_cases e : n = last
        · exact ⟨[], by simp [e], by simp⟩
        · refine ⟨[(last, line)], by simp [e], ?_⟩
          intro x hx
          simp only [List.mem_singleton] at hx
          subst hx; exact hnl e
      | some t =>
        simp only
        have htd : t ≠ c!"declare" := by
          rintro rfl
          obtain ⟨a, w, b, k1, k2, -⟩ := g5 _ rfl
          have k1' : w = c!"declare" := by rw [show bare ([] : Str) = [] from rfl, List.nil_append] at k1; exact k1.symm
          exact hd a b (by rw [k2, k1'])
        have hs : s ≠ [] := by
          rintro rfl
          rw [readToken] at hr
          simp [emit] at hr
        have hlt := g3 hs
        have fine' : ∀ l : List Str, l = [] ∨ Fine l → Fine (l ++ [t]) := by
          rintro l (rfl | ⟨w, ws, rfl, hw⟩)
          · exact ⟨t, [], rfl, htd⟩
          · exact ⟨w, ws ++ [t], rfl, hw⟩
        rw [hiff]
        by_cases e : n = last
        · simp only [e, ne_eq, not_true_eq_false, if_false]
          exact ih rest (nodeclare_rest hd g2) (by omega) m last (line ++ [t]) lines (.inr (fine' line hl)) (fun _ => fine' line hl)
        · simp only [e, ne_eq, not_false_eq_true, if_true, List.nil_append]
          obtain ⟨h8, h9⟩ := ih rest (nodeclare_rest hd g2) (by omega) m n [t] (lines ++ [(last, line)]) (.inr (fine' [] (.inl rfl)))
            (fun _ => fine' [] (.inl rfl))
          refine ⟨fun hc => ?_, h9⟩
          obtain ⟨extra, h6, h7⟩ := h8 hc
          refine ⟨(last, line) :: extra, by rw [h6]; simp, ?_⟩
          intro x hx
          rcases List.mem_cons.1 hx with rfl | hx
          · exact hnl e
          · exact h7 x hx

/-! ### The variables -/

theorem addLines_append (st : Dict Str Str × List (Nat × Str)) (l r : List (Nat × List Str)) :
    addLines st (l ++ r) = match addLines st l with
      | .error e => .error e
      | .ok st => addLines st r := by
  induction l generalizing st with
  | nil => rfl
  | cons x l ih =>
    simp only [List.cons_append, addLines]
    cases addLine st x with
    | error e => rfl
    | ok st => exact ih st

theorem addLines_fine (l : List (Nat × List Str)) (h : ∀ x ∈ l, Fine x.2) (st : Dict Str Str × List (Nat × Str)) :
    ∃ fs, addLines st l = .ok (st.1, fs) := by
  induction l generalizing st with
  | nil => exact ⟨st.2, rfl⟩
  | cons x l ih =>
    obtain ⟨w, ws, e, hw⟩ := h x (by simp)
    have : ∃ fs, addLine st x = .ok (st.1, fs) := by
      unfold addLine
      rw [e]
      simp only [hw, if_false]
      split
      · exact ⟨_, rfl⟩
      · exact ⟨st.2, rfl⟩
    obtain ⟨fs, hfs⟩ := this
    simp only [addLines, hfs]
    exact ih (fun y hy => h y (by simp [hy])) (st.1, fs)

/-- What is stored for a variable. -/
def stored : Str × Option Str → Str × Str
  | (name, some v) => (name, misread v)
  | (name, none) => (name, [])

theorem addLine_decl (v : Str × Option Str) (h : IsName v.1) (n : Nat) (st : Dict Str Str × List (Nat × Str)) :
    addLine st (n, [c!"declare", c!"-x", third v]) = .ok (st.1.set (stored v).1 (stored v).2, st.2) := by
  obtain ⟨name, o⟩ := v
  have he := name_no_eq h
  cases o with
  | none =>
    simp only [addLine, third, stored, if_true, List.getElem?_cons_succ, List.getElem?_cons_zero]
    rw [Shell.splitEq_none.2 he]
  | some v =>
    have : Shell.splitEq (name ++ c!"=" ++ misread v) = some (name, misread v) :=
      Shell.splitEq_some.2 ⟨he, by simp⟩
    simp only [addLine, third, stored, if_true, List.getElem?_cons_succ, List.getElem?_cons_zero]
    rw [this]

theorem addLines_decls (vars : List (Str × Option Str)) (h : ∀ v ∈ vars, IsName v.1)
    (st : Dict Str Str × List (Nat × Str)) (n : Nat) (hu : (vars.map Prod.fst).Nodup)
    (hd : ∀ v ∈ vars, v.1 ∉ st.1.keys) :
    addLines st (declLines n vars) = .ok (st.1 ++ vars.map stored, st.2) := by
  induction vars generalizing st n with
  | nil => simp [declLines, addLines]
  | cons v l ih =>
    simp only [declLines, addLines]
    rw [addLine_decl v (h v (by simp))]
    simp only
    have hs : (stored v).1 = v.1 := by obtain ⟨a, o⟩ := v; cases o <;> rfl
    have hset : ∀ (d : Dict Str Str) (k x : Str), k ∉ d.keys → d.set k x = d ++ [(k, x)] := by
      intro d k x hk
      induction d with
      | nil => rfl
      | cons p d ih =>
        obtain ⟨k', x'⟩ := p
        simp only [Dict.keys, List.map_cons, List.mem_cons, not_or] at hk
        simp [Dict.set, Ne.symm hk.1, ih hk.2]
    rw [hset _ _ _ (by rw [hs]; exact hd v (by simp))]
    simp only [List.map_cons, List.nodup_cons] at hu
    rw [ih (fun w hw => h w (by simp [hw])) _ _ hu.2]
    · simp
    · intro w hw hm
      simp only [Dict.keys, List.map_append, List.mem_append, List.map_cons, List.map_nil, List.mem_singleton] at hm
      rcases hm with hm | hm
      · exact hd w (by simp [hw]) hm
      · rw [hs] at hm
        exact hu.1 (hm ▸ List.mem_map.2 ⟨w, hw, rfl⟩)

end Pieshell.Bash
