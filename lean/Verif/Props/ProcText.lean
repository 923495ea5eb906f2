import Verif.Model.ProcText
import Verif.Lemmas.Args
/-! C90: the text shown for a process is the command that was started. -/
namespace Pieshell.Cmd

/-- A word that is shown as one of the names in front of the parentheses: lower case letters, digits and `_`. -/
def SlugChars (w : Str) : Prop := ∀ c ∈ w, ('a' ≤ c ∧ c ≤ 'z') ∨ ('0' ≤ c ∧ c ≤ '9') ∨ c = '_'

/-- A word with which an option begins. -/
def Dashed (w : Str) : Prop := w.head? = some '-'

theorem plain_not {w : Str} (h : ¬ Dashed w) : keyVal w = none ∧ isShort w = false := by
  cases w with
  | nil => exact ⟨rfl, rfl⟩
  | cons c w =>
    have hc : c ≠ '-' := fun e => h (by rw [e]; rfl)
    constructor
    · unfold keyVal; split
      · rename_i e; cases e; exact absurd rfl hc
      · rfl
    · unfold isShort; split
      · rfl
      · rename_i e; cases e; exact absurd rfl hc
      · rfl

/-- Words behind the first that is no name. -/
theorem show_params (slug : Str → Str) (pr : Char → Bool) (l : List Str) (hl : ∀ w ∈ l, ¬ Dashed w ∨ ∃ s, w = '-' :: '-' :: s ∧ '=' ∉ s) (t : Shown)
    (ht : t.param = true) : l.foldl (showWord slug pr) t = { t with args := t.args ++ l.map (reprStr pr) } := by
  induction l generalizing t with
  | nil => simp
  | cons w l ih =>
    have hw : keyVal w = none ∧ isShort w = false := by
      rcases hl w (by simp) with h | ⟨s, rfl, hs⟩
      · exact plain_not h
      · exact ⟨by simp [keyVal, hs], by simp [isShort]⟩
    have e : showWord slug pr t w = { t with args := t.args ++ [reprStr pr w] } := by
      obtain ⟨p, n, a, k⟩ := t
      simp only at ht
      subst ht
      by_cases h : slug w = w <;> simp [showWord, h, hw.1, hw.2]
    rw [List.foldl_cons, e, ih (fun v hv => hl v (by simp [hv])) { t with args := t.args ++ [reprStr pr w] } ht]
    simp

theorem show_names (slug : Str → Str) (pr : Char → Bool) (l : List Str) (hl : ∀ w ∈ l, slug w = w) (t : Shown)
    (ht : t.param = false) : l.foldl (showWord slug pr) t = { t with names := t.names ++ l } := by
  induction l generalizing t with
  | nil => simp
  | cons w l ih =>
    have e : showWord slug pr t w = { t with names := t.names ++ [w] } := by
      simp only [showWord, hl w (by simp), ne_eq, not_true_eq_false, if_false, ht, if_true]
    rw [List.foldl_cons, e, ih (fun v hv => hl v (by simp [hv])) { t with names := t.names ++ [w] } ht]
    simp

/-- Reading names and literals back. -/
theorem readCommand_join (pr : Char → Bool) (pre suf : List Str) (hdot : ∀ w ∈ pre, '.' ∉ w) (hpar : ∀ w ∈ pre, '(' ∉ w) (hus : pre ≠ [c!"_"]) :
    readCommand (if suf = [] then joinWith c!"." (if pre = [] then [c!"_"] else pre)
      else joinWith c!"." (if pre = [] then [c!"_"] else pre) ++ c!"(" ++ joinWith c!", " (suf.map (reprStr pr)) ++ c!")") = some (pre ++ suf) := by
  have hp : ∀ P, P = joinWith c!"." (if pre = [] then [c!"_"] else pre) → '(' ∉ P ∧ (if P = c!"_" then [] else splitDots P) = pre := by
    intro P hP
    by_cases hn : pre = []
    · rw [if_pos hn] at hP
      subst hP; subst hn
      exact ⟨by decide, rfl⟩
    · rw [if_neg hn] at hP
      subst hP
      refine ⟨fun hm => ?_, ?_⟩
      · rcases join_mem hm with h | ⟨w, hw, hc⟩
        · exact absurd h (by decide)
        · exact hpar w hw hc
      · have hs := splitDots_join pre hn hdot
        rw [if_neg, hs]
        intro he
        rw [he] at hs
        exact hus hs.symm
  generalize hP : joinWith c!"." (if pre = [] then [c!"_"] else pre) = P
  obtain ⟨hp1, hp2⟩ := hp P hP.symm
  by_cases hs : suf = []
  · rw [if_pos hs]
    subst hs
    simp only [readCommand]
    rw [(takeWhile_all hp1).1, (takeWhile_all hp1).2]
    simp only [hp2]
    simp
  · rw [if_neg hs]
    have e : P ++ c!"(" ++ joinWith c!", " (suf.map (reprStr pr)) ++ c!")" = P ++ '(' :: (joinWith c!", " (suf.map (reprStr pr)) ++ c!")") := by simp
    rw [e]
    simp only [readCommand]
    rw [(takeWhile_stop hp1).1, (takeWhile_stop hp1).2]
    simp only [hp2]
    rw [readArgs_repr pr suf hs _ (by
      have := joinWith_length c!", " (by decide) (suf.map (reprStr pr))
      simp only [List.length_map, List.length_append, List.length_cons] at this ⊢
      omega)]

/-- **C90**: the text shown for a process is, read as a command, its exact list of words, if no word behind the first one that is no name is a
short option or an option with a value.  Missing: those options, see the refutations. -/
theorem C90_shown_partial (slug : Str → Str) (hslug : ∀ w, slug w = w → SlugChars w) (printable : Char → Bool) (cmdline : List Str)
    (hone : cmdline.head? ≠ some c!"_")
    (h : ∀ w ∈ cmdline, ¬ Dashed w ∨ ∃ s, w = '-' :: '-' :: s ∧ '=' ∉ s) :
    readCommand (cmdline2pieshell slug printable cmdline) = some cmdline := by
  let p : Str → Bool := fun w => decide (slug w = w)
  have hsplit : cmdline = cmdline.takeWhile p ++ cmdline.dropWhile p := (List.takeWhile_append_dropWhile).symm
  have hpre : ∀ w ∈ cmdline.takeWhile p, slug w = w := by
    intro w hw
    have := List.all_takeWhile (p := p) (l := cmdline)
    rw [List.all_eq_true] at this
    simpa [p] using this w hw
  have hh : (cmdline.dropWhile p).head?.elim True (fun w => slug w ≠ w) := by
    have := List.head?_dropWhile_not p cmdline
    cases hd : (cmdline.dropWhile p).head? with
    | none => trivial
    | some w => rw [hd] at this; simpa [p] using this
  have hone' : cmdline.takeWhile p ≠ [c!"_"] := by
    intro e; rw [hsplit, e] at hone; exact hone rfl
  generalize cmdline.takeWhile p = pre at *
  generalize cmdline.dropWhile p = suf at *
  subst hsplit
  have hch : ∀ (c : Char), ¬ (('a' ≤ c ∧ c ≤ 'z') ∨ ('0' ≤ c ∧ c ≤ '9') ∨ c = '_') → ∀ w ∈ pre, c ∉ w :=
    fun c hc w hw hm => hc (hslug w (hpre w hw) c hm)
  have hr := readCommand_join printable pre suf (hch '.' (by decide)) (hch '(' (by decide)) hone'
  have hfold : (pre ++ suf).foldl (showWord slug printable) {} = { names := pre, param := !suf.isEmpty, args := suf.map (reprStr printable) } := by
    rw [List.foldl_append, show_names slug printable pre hpre _ rfl]
    cases suf with
    | nil => simp
    | cons w l =>
      have hw : keyVal w = none ∧ isShort w = false := by
        rcases h w (by simp) with h | ⟨s, rfl, hs⟩
        · exact plain_not h
        · exact ⟨by simp [keyVal, hs], by simp [isShort]⟩
      have e : showWord slug printable { names := [] ++ pre } w = { names := pre, param := true, args := [reprStr printable w] } := by
        have : slug w ≠ w := hh
        simp [showWord, this, hw.1, hw.2]
      rw [List.foldl_cons, e, show_params slug printable l (fun v hv => h v (by simp [hv])) _ rfl]
      simp
  have : cmdline2pieshell slug printable (pre ++ suf) = (if suf = [] then joinWith c!"." (if pre = [] then [c!"_"] else pre)
      else joinWith c!"." (if pre = [] then [c!"_"] else pre) ++ c!"(" ++ joinWith c!", " (suf.map (reprStr printable)) ++ c!")") := by
    simp only [cmdline2pieshell, hfold]
    cases suf <;> simp
  rw [this]
  exact hr

/-- Two processes shown alike have the same words, under the same conditions. -/
theorem C90_distinct_partial (slug : Str → Str) (hslug : ∀ w, slug w = w → SlugChars w) (printable : Char → Bool) (a b : List Str)
    (ha : a.head? ≠ some c!"_") (hb : b.head? ≠ some c!"_")
    (ha' : ∀ w ∈ a, ¬ Dashed w ∨ ∃ s, w = '-' :: '-' :: s ∧ '=' ∉ s) (hb' : ∀ w ∈ b, ¬ Dashed w ∨ ∃ s, w = '-' :: '-' :: s ∧ '=' ∉ s)
    (h : cmdline2pieshell slug printable a = cmdline2pieshell slug printable b) : a = b := by
  have := C90_shown_partial slug hslug printable a ha ha'
  rw [h, C90_shown_partial slug hslug printable b hb hb'] at this
  exact (Option.some.inj this).symm

/-- A slugify for the examples: it drops what is no lower case letter, digit or `_`. -/
def exSlug (s : Str) : Str := s.filter (fun c => ('a' ≤ c && c ≤ 'z') || ('0' ≤ c && c ≤ '9') || c == '_')
theorem exSlug_ok (w : Str) (h : exSlug w = w) : SlugChars w := by
  intro c hc
  rw [← h] at hc
  have := (List.mem_filter.1 hc).2
  simpa [or_assoc] using this

example : (∀ w, exSlug w = w → SlugChars w) ∧ [c!"python", c!"/usr/bin/x y", c!"--all", c!"it's"].head? ≠ some c!"_" ∧
    (∀ w ∈ [c!"python", c!"/usr/bin/x y", c!"--all", c!"it's"], ¬ Dashed w ∨ ∃ s, w = '-' :: '-' :: s ∧ '=' ∉ s) := by
  refine ⟨exSlug_ok, by decide, ?_⟩
  intro w hw
  simp only [List.mem_cons, List.not_mem_nil, or_false] at hw
  rcases hw with rfl | rfl | rfl | rfl
  · exact .inl (by simp [Dashed])
  · exact .inl (by simp [Dashed])
  · exact .inr ⟨c!"all", rfl, by decide⟩
  · exact .inl (by simp [Dashed])

example : cmdline2pieshell exSlug (fun _ => true) [c!"python", c!"/usr/bin/x y", c!"--all", c!"it's"] =
    c!"python('/usr/bin/x y', '--all', \"it's\")" := by decide

/-- C90 is false for short options: they are shown without quotes, so that the text is no list of words (typed at the prompt, it runs the
program `l`), and two different command lines look the same. -/
theorem C90_refuted_short (slug : Str → Str) (hr : slug c!"rm" = c!"rm") (hf : slug c!"-f" ≠ c!"-f") (hfr : slug c!"-f, -r" ≠ c!"-f, -r")
    (printable : Char → Bool) :
    cmdline2pieshell slug printable [c!"rm", c!"-f"] = c!"rm(-f)" ∧ readCommand c!"rm(-f)" = none ∧
    cmdline2pieshell slug printable [c!"rm", c!"-f", c!"-r"] = cmdline2pieshell slug printable [c!"rm", c!"-f, -r"] := by
  refine ⟨?_, by decide, ?_⟩ <;> by_cases hr' : slug c!"-r" = c!"-r" <;>
    simp [cmdline2pieshell, showWord, hr, hf, hfr, hr', keyVal, isShort, joinWith]

example : exSlug c!"rm" = c!"rm" ∧ exSlug c!"-f" ≠ c!"-f" ∧ exSlug c!"-f, -r" ≠ c!"-f, -r" := by decide

/-- C90 is false for options with values: only the last of several values is shown, and options are shown behind the other words. -/
theorem C90_refuted_values (printable : Char → Bool) :
    cmdline2pieshell exSlug printable [c!"grep", c!"--include=a", c!"--include=b", c!"x"] = c!"grep('x', include=b)" := by
  simp [cmdline2pieshell, showWord, exSlug, keyVal, isShort, joinWith, Dict.set, reprStr, quoteFor, escapeChar]

end Pieshell.Cmd
