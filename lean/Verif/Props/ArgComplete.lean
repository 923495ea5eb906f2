import Verif.Spec.ArgComplete
import Verif.Props.Remote
/-!
# C114: completion of the arguments of a command
-/
namespace Pieshell.ArgC
open Pieshell.Expand

theorem split_ordinary : ∀ (w : Str) (cur : Option Str) (s : Str), w ≠ [] → (∀ c ∈ w, Sh.ordinary c = true) →
    Sh.split .bare cur (w ++ s) = Sh.split .bare (some (cur.getD [] ++ w)) s
  | [], _, _, h, _ => absurd rfl h
  | c :: w, cur, s, _, h => by
    have hc := h c (by simp)
    simp only [Sh.ordinary, Bool.and_eq_true, Bool.not_eq_true', decide_eq_true_eq] at hc
    obtain ⟨⟨⟨⟨⟨h0, h1⟩, h2⟩, h3⟩, h4⟩, h5⟩ := hc
    have e : Sh.split .bare cur (c :: (w ++ s)) = Sh.split .bare (some (cur.getD [] ++ [c])) (w ++ s) := by
      simp [Sh.split, h0, h1, h2, h3, h4, h5]
    rw [List.cons_append, e]
    cases w with
    | nil => simp
    | cons d w =>
      rw [split_ordinary (d :: w) _ s (by simp) (fun x hx => h x (List.mem_cons_of_mem _ hx))]
      simp

theorem split_single : ∀ (w : Str) (cur s : Str), '\'' ∉ w →
    Sh.split .single (some cur) (w ++ '\'' :: s) = Sh.split .bare (some (cur ++ w)) s
  | [], cur, s, _ => by simp [Sh.split]
  | c :: w, cur, s, h => by
    simp only [List.mem_cons, not_or] at h
    have hc : ¬ c = '\'' := fun e => h.1 e.symm
    have := split_single w (cur ++ [c]) s h.2
    simp [Sh.split, hc, this]

theorem split_double : ∀ (w : Str) (cur s : Str), (∀ c ∈ w, c ≠ '"' ∧ c ≠ '$' ∧ c ≠ '`' ∧ c ≠ '\\') →
    Sh.split .double (some cur) (w ++ '"' :: s) = Sh.split .bare (some (cur ++ w)) s
  | [], cur, s, _ => by simp [Sh.split]
  | c :: w, cur, s, h => by
    obtain ⟨h1, h2, h3, h4⟩ := h c (by simp)
    have := split_double w (cur ++ [c]) s (fun x hx => h x (List.mem_cons_of_mem _ hx))
    simp [Sh.split, h1, h2, h3, h4, this]

theorem escape_asIs {printable : Char → Bool} {q c : Char} (h : AsIs printable c) (hq : c ≠ q) : Cmd.escapeChar printable q c = [c] := by
  obtain ⟨h1, h2, h3, h4⟩ := h
  have t : ∀ d : Char, d.toNat < 32 → c ≠ d := fun d hd e => by subst e; omega
  have t1 := t '\t' (by decide)
  have t2 := t '\n' (by decide)
  have t3 := t '\r' (by decide)
  unfold Cmd.escapeChar
  rw [if_neg hq, if_neg h4, if_neg t1, if_neg t2, if_neg t3, if_neg (by omega)]
  rcases h3 with h3 | h3
  · rw [if_pos h3]
  · by_cases h : c.toNat < 127
    · rw [if_pos h]
    · rw [if_neg h, if_pos h3]

theorem flatMap_asIs {printable : Char → Bool} {q : Char} : ∀ w : Str, (∀ c ∈ w, AsIs printable c ∧ c ≠ q) → w.flatMap (Cmd.escapeChar printable q) = w
  | [], _ => rfl
  | c :: w, h => by
    rw [List.flatMap_cons, escape_asIs (h c (by simp)).1 (h c (by simp)).2, flatMap_asIs w (fun x hx => h x (List.mem_cons_of_mem _ hx))]
    rfl

theorem ordinary_space {w : Str} (h : ∀ c ∈ w, Sh.ordinary c = true) : ' ' ∉ w := fun hm => absurd (h ' ' hm) (by decide)

theorem ne_of_not_mem {w : Str} {q : Char} (h : q ∉ w) : ∀ c ∈ w, c ≠ q := fun _ hc e => h (e ▸ hc)

/-- a word that passes is read as itself -/
theorem split_quoteArg {printable : Char → Bool} {w : Str} (h : Passes printable w) (s : Str) :
    Sh.split .bare none (quoteArg printable w ++ ' ' :: s) = (Sh.split .bare none s).map (w :: ·) := by
  have fin : ∀ s : Str, Sh.split .bare (some w) (' ' :: s) = (Sh.split .bare none s).map (w :: ·) := by
    intro s; simp [Sh.split]
  have single : ' ' ∈ w → (∀ c ∈ w, AsIs printable c) → '\'' ∉ w →
      Sh.split .bare none (quoteArg printable w ++ ' ' :: s) = (Sh.split .bare none s).map (w :: ·) := by
    intro hs ha hq
    have hquote : Cmd.quoteFor w = '\'' := by simp [Cmd.quoteFor, hq]
    have e : quoteArg printable w = '\'' :: (w ++ ['\'']) := by
      unfold quoteArg
      rw [if_pos (by simpa using hs), Cmd.reprStr, hquote, flatMap_asIs w (fun c hc => ⟨ha c hc, ne_of_not_mem hq c hc⟩)]
    rw [e]
    have e2 : '\'' :: (w ++ ['\'']) ++ ' ' :: s = '\'' :: (w ++ '\'' :: (' ' :: s)) := by simp
    rw [e2]
    have e3 : Sh.split .bare none ('\'' :: (w ++ '\'' :: (' ' :: s))) = Sh.split .single (some []) (w ++ '\'' :: (' ' :: s)) := by simp [Sh.split]
    rw [e3, split_single w [] _ hq]
    exact fin s
  cases h with
  | simple hne ho =>
    have hs := ordinary_space ho
    have e : quoteArg printable w = w := by unfold quoteArg; rw [if_neg (by simpa using hs)]
    rw [e, split_ordinary w none _ hne ho]
    exact fin s
  | single hs ha hq => exact single hs ha hq
  | double hs ha hd =>
    by_cases hq : '\'' ∈ w
    · have hdq : '"' ∉ w := fun hm => (hd '"' hm).1 rfl
      have hquote : Cmd.quoteFor w = '"' := by simp [Cmd.quoteFor, hq, hdq]
      have e : quoteArg printable w = '"' :: (w ++ ['"']) := by
        unfold quoteArg
        rw [if_pos (by simpa using hs), Cmd.reprStr, hquote, flatMap_asIs w (fun c hc => ⟨ha c hc, ne_of_not_mem hdq c hc⟩)]
      rw [e]
      have e2 : '"' :: (w ++ ['"']) ++ ' ' :: s = '"' :: (w ++ '"' :: (' ' :: s)) := by simp
      rw [e2]
      have e3 : Sh.split .bare none ('"' :: (w ++ '"' :: (' ' :: s))) = Sh.split .double (some []) (w ++ '"' :: (' ' :: s)) := by simp [Sh.split]
      rw [e3, split_double w [] _ (fun c hc => ⟨(hd c hc).1, (hd c hc).2.1, (hd c hc).2.2, (ha c hc).2.2.2⟩)]
      exact fin s
    · exact single hs ha hq

theorem line_cons (printable : Char → Bool) (a b : Str) (args : List Str) : line printable (a :: b :: args) = quoteArg printable a ++ ' ' :: line printable (b :: args) := by
  simp [line, argListSh, Cmd.joinWith]

theorem split_line (printable : Char → Bool) : ∀ args : List Str, args ≠ [] → (∀ w ∈ args, Passes printable w) → Sh.split .bare none (line printable args) = some args
  | [], h, _ => absurd rfl h
  | [a], _, h => by
    have e : line printable [a] = quoteArg printable a ++ ' ' :: [] := by simp [line, argListSh, Cmd.joinWith]
    rw [e, split_quoteArg (h a (by simp))]
    simp [Sh.split]
  | a :: b :: args, _, h => by
    rw [line_cons, split_quoteArg (h a (by simp)), split_line printable (b :: args) (by simp) (fun w hw => h w (List.mem_cons_of_mem _ hw))]
    rfl

theorem mem_escape {printable : Char → Bool} {q c : Char} (h : AsIs printable c) : ∀ d ∈ Cmd.escapeChar printable q c, d = c ∨ d = '\\' := by
  by_cases hq : c = q
  · subst hq; simp [Cmd.escapeChar, or_comm]
  · rw [escape_asIs h hq]; simp

/-- the characters of a quoted word -/
theorem mem_quoteArg {printable : Char → Bool} {w : Str} (h : Passes printable w) : ∀ c ∈ quoteArg printable w, c ∈ w ∨ c = '\'' ∨ c = '"' ∨ c = '\\' := by
  intro c hc
  unfold quoteArg at hc
  split at hc
  · rename_i hs
    have ha : ∀ c ∈ w, AsIs printable c := by
      cases h with
      | simple _ ho => exact absurd (by simpa using hs) (ordinary_space ho)
      | single _ ha _ => exact ha
      | double _ ha _ => exact ha
    have hq : Cmd.quoteFor w = '\'' ∨ Cmd.quoteFor w = '"' := by unfold Cmd.quoteFor; split <;> simp
    simp only [Cmd.reprStr, List.mem_cons, List.mem_append, List.mem_flatMap, List.not_mem_nil, or_false] at hc
    rcases hc with hc | ⟨d, hd, hc⟩ | hc
    · rcases hq with hq | hq <;> rw [hq] at hc <;> simp [hc]
    · rcases mem_escape (ha d hd) c hc with e | e
      · exact .inl (e ▸ hd)
      · simp [e]
    · rcases hq with hq | hq <;> rw [hq] at hc <;> simp [hc]
  · exact .inl hc

theorem mem_line {printable : Char → Bool} : ∀ {args : List Str}, (∀ w ∈ args, Passes printable w) → ∀ c ∈ line printable args,
    (∃ w ∈ args, c ∈ w) ∨ c = ' ' ∨ c = '\'' ∨ c = '"' ∨ c = '\\'
  | [], _, c, hc => by simp [line, argListSh, Cmd.joinWith] at hc; simp [hc]
  | [a], h, c, hc => by
    simp [line, argListSh, Cmd.joinWith] at hc
    rcases hc with hc | hc
    · rcases mem_quoteArg (h a (by simp)) c hc with h | h | h | h
      · exact .inl ⟨a, by simp, h⟩
      all_goals simp [h]
    · simp [hc]
  | a :: b :: args, h, c, hc => by
    rw [line_cons] at hc
    simp only [List.mem_append, List.mem_cons] at hc
    rcases hc with hc | hc | hc
    · rcases mem_quoteArg (h a (by simp)) c hc with h | h | h | h
      · exact .inl ⟨a, by simp, h⟩
      all_goals simp [h]
    · simp [hc]
    · rcases mem_line (fun w hw => h w (List.mem_cons_of_mem _ hw)) c (by simpa using hc) with ⟨w, hw, hc⟩ | h
      · exact .inl ⟨w, List.mem_cons_of_mem _ hw, hc⟩
      · exact .inr h

theorem head_line {printable : Char → Bool} {a : Str} {args : List Str} (h : Passes printable a) : ∃ c, (line printable (a :: args)).head? = some c ∧
    (a.head? = some c ∨ c = '\'' ∨ c = '"') := by
  have hne : a ≠ [] := by
    cases h with
    | simple h _ => exact h
    | single h _ _ => intro e; simp [e] at h
    | double h _ _ => intro e; simp [e] at h
  have hl : (line printable (a :: args)).head? = (quoteArg printable a).head? ∨ quoteArg printable a = [] := by
    cases hq : quoteArg printable a with
    | nil => exact .inr rfl
    | cons c t => left; cases args <;> simp [line, argListSh, Cmd.joinWith, hq]
  cases a with
  | nil => exact absurd rfl hne
  | cons b t =>
    unfold quoteArg at hl
    split at hl
    · rcases hl with hl | hl
      · rw [hl]
        refine ⟨Cmd.quoteFor (b :: t), by simp [Cmd.reprStr], .inr ?_⟩
        unfold Cmd.quoteFor; split <;> simp
      · simp [Cmd.reprStr] at hl
    · rcases hl with hl | hl
      · rw [hl]; exact ⟨b, by simp, .inl (by simp)⟩
      · simp at hl

/-- **C114** (partial): if the words are ordinary ones, or ones with spaces that fit into one kind of quotes, and have none of the characters `%`, `*`, `?`, `[` (and the
first does not begin with `~`), then the completion is asked about exactly these words, followed by the empty word that is to be completed. -/
theorem C114_words_partial (x : Ctx) (printable : Char → Bool) (args : List Str) (hne : args ≠ []) (h : ∀ w ∈ args, Passes printable w)
    (hp : ∀ w ∈ args, ∀ c ∈ c!"%*?[", c ∉ w) (ht : ∀ a, args.head? = some a → a.head? ≠ some '~') :
    ∃ l, expandArgument x (line printable args) = .ok [l] ∧ compWords l = some (args ++ [[]]) := by
  have hm : ∀ c ∈ c!"%*?[", c ∉ line printable args := by
    intro c hc hl
    rcases mem_line h c hl with ⟨w, hw, hcw⟩ | e | e | e | e
    · exact hp w hw c hc hcw
    all_goals (subst e; revert hc; decide)
  refine ⟨line printable args, ?_, ?_⟩
  · refine Remote.expand_plain x _ (hm '%' (by simp)) ?_ (hm '*' (by simp)) (hm '?' (by simp)) (hm '[' (by simp))
    cases args with
    | nil => exact absurd rfl hne
    | cons a args =>
      obtain ⟨c, h1, h2⟩ := head_line (args := args) (h a (by simp))
      rw [h1]
      rcases h2 with h2 | h2 | h2
      · rw [← h2]; exact ht a rfl
      · simp [h2]
      · simp [h2]
  · unfold compWords
    have e : Sh.words (c!"set -- " ++ line printable args) = some (c!"set" :: c!"--" :: args) := by
      unfold Sh.words
      have e2 : c!"set -- " ++ line printable args = c!"set" ++ ' ' :: (c!"--" ++ ' ' :: line printable args) := by simp
      rw [e2, split_ordinary c!"set" none _ (by simp) (by decide)]
      have e3 : ∀ (w s : Str), Sh.split .bare (some w) (' ' :: s) = (Sh.split .bare none s).map (w :: ·) := by intro w s; simp [Sh.split]
      rw [e3, split_ordinary c!"--" none _ (by simp) (by decide), e3, split_line printable args hne h]
      rfl
    rw [e]
    simp [line]

/-- an example of such words: `git commit -m "it's done" --author='A B'` -/
example : ∀ w ∈ [c!"git", c!"commit", c!"-m", c!"it's done", c!"--author=A \"B\""], Passes (fun _ => false) w := by
  intro w hw
  simp only [List.mem_cons, List.not_mem_nil, or_false] at hw
  rcases hw with rfl | rfl | rfl | rfl | rfl
  · exact .simple (by decide) (by decide)
  · exact .simple (by decide) (by decide)
  · exact .simple (by decide) (by decide)
  · exact .double (by decide) (by simp only [AsIs]; decide) (by decide)
  · exact .single (by decide) (by simp only [AsIs]; decide) (by decide)

theorem dropWhile_split (p : Char → Bool) : ∀ l : Str, ∃ a, l = a ++ l.dropWhile p ∧ (∀ c ∈ a, p c = true) ∧ ∀ c, (l.dropWhile p).head? = some c → p c = false
  | [] => ⟨[], by simp⟩
  | c :: l => by
    obtain ⟨a, h1, h2, h3⟩ := dropWhile_split p l
    by_cases h : p c = true
    · refine ⟨c :: a, ?_, ?_, ?_⟩
      · simp [List.dropWhile, h, ← h1]
      · intro d hd; simp at hd; rcases hd with rfl | hd
        · exact h
        · exact h2 d hd
      · simpa [List.dropWhile, h] using h3
    · refine ⟨[], ?_, by simp, ?_⟩
      · simp [List.dropWhile, h]
      · simp at h; simp [List.dropWhile, h]

theorem strip_stripped (l : Str) : Stripped l (Prompt.strip l) := by
  obtain ⟨a, h1, h2, h3⟩ := dropWhile_split Prompt.isSpace l
  obtain ⟨b, g1, g2, g3⟩ := dropWhile_split Prompt.isSpace (l.dropWhile Prompt.isSpace).reverse
  have e : l.dropWhile Prompt.isSpace = Prompt.strip l ++ b.reverse := by
    have := congrArg List.reverse g1
    simpa [Prompt.strip] using this
  refine ⟨a, b.reverse, ?_, ?_, ?_⟩
  · rw [List.append_assoc, ← e]; exact h1
  · intro c hc; simp at hc; rcases hc with hc | hc
    · exact h2 c hc
    · exact g2 c hc
  · intro c hc
    rcases hc with hc | hc
    · refine h3 c ?_
      rw [e]
      cases hs : Prompt.strip l with
      | nil => simp [hs] at hc
      | cons d t => rw [hs] at hc; simpa using hc
    · refine g3 c ?_
      simpa [Prompt.strip, List.getLast?_reverse] using hc

/-- **C114** (what is offered): if the program prints lines and does not fail, exactly these lines, without the white space around them, in their order. -/
theorem C114_offered (x : Ctx) (printable : Char → Bool) (gc : List Str → Except Exn (List Str)) (shown : Exn → Str) (args : List Str) (ws lines : List Str)
    (h : expandArgument x (line printable args) = .ok ws) (hg : gc ws = .ok lines) :
    Pointwise Stripped lines (commandDir x printable gc shown args) := by
  have e : commandDir x printable gc shown args = lines.map Prompt.strip := by simp [commandDir, h, hg]
  rw [e]
  clear hg e
  induction lines with
  | nil => exact .nil
  | cons l ls ih => exact .cons (strip_stripped l) ih

example (x : Ctx) : expandArgument x (line (fun _ => false) [c!"git", c!"log"]) = .ok [c!"git log "] ∧
    commandDir x (fun _ => false) (fun _ => .ok [c!"--all \n", c!"--graph\n"]) (fun _ => []) [c!"git", c!"log"] = [c!"--all", c!"--graph"] := by
  have h : expandArgument x (line (fun _ => false) [c!"git", c!"log"]) = .ok [c!"git log "] :=
    Remote.expand_plain x c!"git log " (by decide) (by decide) (by decide) (by decide) (by decide)
  refine ⟨h, ?_⟩
  simp only [commandDir, h]
  decide

/-- **C114** refuted: completing a command can run another one: `dir(env.ls(";reboot"))`. -/
theorem C114_refuted_runs (x : Ctx) (printable : Char → Bool) : ∃ l, expandArgument x (line printable [c!"ls", c!";reboot"]) = .ok [l] ∧
    Sh.read (c!"set -- " ++ l) = some [[c!"set", c!"--", c!"ls"], [c!"reboot"]] :=
  ⟨c!"ls ;reboot ", Remote.expand_plain x c!"ls ;reboot " (by decide) (by decide) (by decide) (by decide) (by decide), by decide⟩

/-- **C114** refuted: an empty word is lost. -/
theorem C114_refuted_empty (x : Ctx) (printable : Char → Bool) : ∃ l, expandArgument x (line printable [c!"grep", [], c!"f"]) = .ok [l] ∧
    compWords l = some [c!"grep", c!"f", []] :=
  ⟨c!"grep  f ", Remote.expand_plain x c!"grep  f " (by decide) (by decide) (by decide) (by decide) (by decide), by decide⟩

/-- **C114** refuted: the line is subject to percent formatting once more, after the words have been expanded; for `date("+%%Y")`, the only name that is
offered is an error message. -/
theorem C114_refuted_percent (x : Ctx) (printable : Char → Bool) (gc : List Str → Except Exn (List Str)) (shown : Exn → Str) :
    ∃ e, commandDir x printable gc shown [c!"date", c!"+%Y"] = [c!"<" ++ shown e ++ c!">"] := by
  refine ⟨.other, ?_⟩
  have : expandArgument x (line printable [c!"date", c!"+%Y"]) = .error .other := rfl
  simp [commandDir, this]

end Pieshell.ArgC
