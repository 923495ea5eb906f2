import Verif.Model.RedirText
import Verif.Lemmas.RedirTable
import Verif.Props.Tree
/-!
# C105: making a redirection and reading its text
-/
namespace Pieshell

/-! ## Names and defaults -/

/-- **C105 (a).** A redirection can be named by a number or by one of three names. -/
theorem C105_names (s : Str) (src : Source) (flag : Option Nat) (mode : Nat) (pipe : PipeEnd) (b : Bool) :
    (s = c!"stdin" → mkRedirect (.name s) src flag mode pipe b = mkRedirect (.num 0) src flag mode pipe b) ∧
    (s = c!"stdout" → mkRedirect (.name s) src flag mode pipe b = mkRedirect (.num 1) src flag mode pipe b) ∧
    (s = c!"stderr" → mkRedirect (.name s) src flag mode pipe b = mkRedirect (.num 2) src flag mode pipe b) ∧
    (s ∉ [c!"stdin", c!"stdout", c!"stderr"] → mkRedirect (.name s) src flag mode pipe b = .error .keyError) := by
  refine ⟨fun h => by subst h; rfl, fun h => by subst h; rfl, fun h => by subst h; rfl, fun h => ?_⟩
  simp only [List.mem_cons, not_or] at h
  have : Dict.get? fdNames s = none := by
    simp only [fdNames, Dict.get?]
    rw [if_neg (Ne.symm h.1), if_neg (Ne.symm h.2.1), if_neg (Ne.symm h.2.2.1)]
  simp [mkRedirect, this]

/-- **C105 (b).** Flags given are kept; without them descriptor 0 is opened for reading, descriptors 1 and 2 for
writing, creating the file and neither truncating nor appending, and any other descriptor is an error. Everything
else is kept as given. -/
theorem C105_defaults (n : Nat) (src : Source) (flag : Option Nat) (mode : Nat) (pipe : PipeEnd) (b : Bool) :
    (∀ f, flag = some f → mkRedirect (.num n) src flag mode pipe b = .ok ⟨n, src, f, mode, pipe, b⟩) ∧
    (flag = none → n = 0 → mkRedirect (.num n) src flag mode pipe b = .ok ⟨n, src, 0, mode, pipe, b⟩) ∧
    (flag = none → n = 1 ∨ n = 2 → mkRedirect (.num n) src flag mode pipe b = .ok ⟨n, src, 65, mode, pipe, b⟩) ∧
    (flag = none → 3 ≤ n → mkRedirect (.num n) src flag mode pipe b = .error .keyError) := by
  refine ⟨fun f h => by subst h; rfl, fun h h2 => by subst h; subst h2; rfl, fun h h2 => ?_, fun h h2 => ?_⟩
  · subst h; rcases h2 with rfl | rfl <;> rfl
  · subst h
    have : Dict.get? fdFlags n = none := by
      simp only [fdFlags, Dict.get?]
      rw [if_neg (by omega), if_neg (by omega), if_neg (by omega)]
    simp [mkRedirect, this]

/-- 65 is write-only and create: exactly those two of the known flags. -/
example : O_WRONLY ||| O_CREAT = 65 ∧ flagNames 65 = [c!"CREAT", c!"WRONLY"] := by decide

example : (mkRedirect (.name c!"stderr") (.path c!"errors")).toOption.map Redirect.fd = some 2 ∧
    mkRedirect (.num 5) (.path c!"x") = .error .keyError := ⟨by decide, rfl⟩

/-- **C105 (b').** `table.stdin`, `table.stdout` and `table.stderr` give the redirection of descriptor 0, 1 and 2,
if there is one; every other name is an AttributeError. -/
theorem C105_attributes (rs : Redirects) (s : Str) :
    (s = c!"stdin" → rs.attr s = (match Dict.get? rs 0 with | some r => .ok r | none => .error .attributeError)) ∧
    (s = c!"stdout" → rs.attr s = (match Dict.get? rs 1 with | some r => .ok r | none => .error .attributeError)) ∧
    (s = c!"stderr" → rs.attr s = (match Dict.get? rs 2 with | some r => .ok r | none => .error .attributeError)) ∧
    (s ∉ [c!"stdin", c!"stdout", c!"stderr"] → rs.attr s = .error .attributeError) := by
  refine ⟨fun h => ?_, fun h => ?_, fun h => ?_, fun h => ?_⟩
  · subst h; show (match Dict.get? rs 0 with | none => _ | some r => _) = _; cases Dict.get? rs 0 <;> rfl
  · subst h; show (match Dict.get? rs 1 with | none => _ | some r => _) = _; cases Dict.get? rs 1 <;> rfl
  · subst h; show (match Dict.get? rs 2 with | none => _ | some r => _) = _; cases Dict.get? rs 2 <;> rfl
  · simp only [List.mem_cons, not_or] at h
    have : Dict.get? fdNames s = none := by
      simp only [fdNames, Dict.get?]
      rw [if_neg (Ne.symm h.1), if_neg (Ne.symm h.2.1), if_neg (Ne.symm h.2.2.1)]
    simp [Redirects.attr, this]

/-! ## The text -/

theorem span_unique {c : Char} {s1 s2 t1 t2 : Str} (h1 : c ∉ s1) (h2 : c ∉ s2) (e : s1 ++ c :: t1 = s2 ++ c :: t2) :
    s1 = s2 ∧ t1 = t2 := by
  induction s1 generalizing s2 with
  | nil =>
    cases s2 with
    | nil => simpa using e
    | cons b s2 => simp at e; exact absurd (by simp [e.1]) h2
  | cons a s1 ih =>
    cases s2 with
    | nil => simp at e; exact absurd (by simp [e.1]) h1
    | cons b s2 =>
      simp only [List.cons_append, List.cons.injEq] at e
      obtain ⟨e1, e2⟩ := ih (by simp_all) (by simp_all) e.2
      exact ⟨by rw [e.1, e1], e2⟩

theorem digits_not_mem {c : Char} (hc : c.isDigit = false) (n : Nat) : c ∉ Nat.toDigits 10 n := by
  intro h
  have : c.isDigit := Nat.isDigit_of_mem_toDigits (b := 10) (by decide) (by decide) (n := n) h
  simp [hc] at this

theorem join_inj {c : Char} : ∀ {l1 l2 : List Str}, (∀ w ∈ l1, w ≠ [] ∧ c ∉ w) → (∀ w ∈ l2, w ≠ [] ∧ c ∉ w) →
    Cmd.joinWith [c] l1 = Cmd.joinWith [c] l2 → l1 = l2
  | [], [], _, _, _ => rfl
  | [], [b], _, h2, e => absurd e.symm (h2 b (by simp)).1
  | [], b :: b' :: l2, _, h2, e => by simp [Cmd.joinWith] at e
  | [a], [], h1, _, e => absurd e (h1 a (by simp)).1
  | a :: a' :: l1, [], _, _, e => by simp [Cmd.joinWith] at e
  | [a], [b], _, _, e => by simpa [Cmd.joinWith] using e
  | [a], b :: b' :: l2, h1, h2, e => by
    have : a = b ++ c :: Cmd.joinWith [c] (b' :: l2) := by simpa [Cmd.joinWith] using e
    exact absurd (by simp [this]) (h1 a (by simp)).2
  | a :: a' :: l1, [b], h1, h2, e => by
    have : b = a ++ c :: Cmd.joinWith [c] (a' :: l1) := by simpa [Cmd.joinWith] using e.symm
    exact absurd (by simp [this]) (h2 b (by simp)).2
  | a :: a' :: l1, b :: b' :: l2, h1, h2, e => by
    have e' : a ++ c :: Cmd.joinWith [c] (a' :: l1) = b ++ c :: Cmd.joinWith [c] (b' :: l2) := by
      simpa [Cmd.joinWith] using e
    obtain ⟨e1, e2⟩ := span_unique (h1 a (by simp)).2 (h2 b (by simp)).2 e'
    rw [e1, join_inj (fun w hw => h1 w (List.mem_cons_of_mem _ hw)) (fun w hw => h2 w (List.mem_cons_of_mem _ hw)) e2]

/-- Every bit of the flags is one of the platform's flags by itself. -/
def PlainFlags (f : Nat) : Prop := ∀ i, f.testBit i = true → ∃ name, (name, 2 ^ i) ∈ openFlags

theorem flagNames_word {f : Nat} {w : Str} (h : w ∈ flagNames f) : w ≠ [] ∧ ',' ∉ w ∧ 'm' ∉ w ∧ ' ' ∉ w := by
  obtain ⟨p, hp, rfl⟩ := List.mem_map.1 h
  have hp := (List.mem_filter.1 hp).1
  have : ∀ p ∈ openFlags, p.1 ≠ [] ∧ ',' ∉ p.1 ∧ 'm' ∉ p.1 ∧ ' ' ∉ p.1 := by decide
  exact this p hp

theorem flagNames_mem {f : Nat} {w : Str} {v : Nat} (hv : (w, v) ∈ openFlags) : w ∈ flagNames f ↔ f &&& v ≠ 0 := by
  constructor
  · intro h
    obtain ⟨p, hp, e⟩ := List.mem_map.1 h
    obtain ⟨hp, hf⟩ := List.mem_filter.1 hp
    have : ∀ p ∈ openFlags, ∀ q ∈ openFlags, p.1 = q.1 → p = q := by decide
    have := this p hp (w, v) hv e
    subst this
    simpa using hf
  · intro h
    exact List.mem_map.2 ⟨(w, v), List.mem_filter.2 ⟨hv, by simpa using h⟩, rfl⟩

theorem and_two_pow_ne {f i : Nat} : f &&& 2 ^ i ≠ 0 ↔ f.testBit i = true := by
  constructor
  · intro h
    cases hb : f.testBit i with
    | true => rfl
    | false =>
      refine absurd (Nat.eq_of_testBit_eq fun j => ?_) h
      rw [Nat.testBit_and, Nat.testBit_two_pow, Nat.zero_testBit]
      by_cases hij : i = j
      · subst hij; simp [hb]
      · simp [hij]
  · intro h e
    have : (f &&& 2 ^ i).testBit i = true := by rw [Nat.testBit_and, h, Nat.testBit_two_pow_self]; rfl
    rw [e, Nat.zero_testBit] at this
    cases this

theorem flagsToString_inj {f g : Nat} (hf : PlainFlags f) (hg : PlainFlags g) (e : flagsToString f = flagsToString g) :
    f = g := by
  have hl : flagNames f = flagNames g :=
    join_inj (fun w hw => ⟨(flagNames_word hw).1, (flagNames_word hw).2.1⟩)
      (fun w hw => ⟨(flagNames_word hw).1, (flagNames_word hw).2.1⟩) e
  have key : ∀ {f g : Nat}, PlainFlags f → flagNames f = flagNames g → ∀ i, f.testBit i = true → g.testBit i = true := by
    intro f g hf hl i hi
    obtain ⟨name, hn⟩ := hf i hi
    rw [← and_two_pow_ne, ← flagNames_mem hn, ← hl, flagNames_mem hn, and_two_pow_ne]
    exact hi
  refine Nat.eq_of_testBit_eq fun i => ?_
  rw [Bool.eq_iff_iff]
  exact ⟨key hf hl i, key hg hl.symm i⟩

theorem mem_join {c : Char} {sep : Str} : ∀ {l : List Str}, c ∈ Cmd.joinWith sep l → c ∈ sep ∨ ∃ w ∈ l, c ∈ w
  | [], h => by simp [Cmd.joinWith] at h
  | [w], h => .inr ⟨w, by simp, h⟩
  | w :: w' :: l, h => by
    simp only [Cmd.joinWith, List.mem_append] at h
    rcases h with (h | h) | h
    · exact .inr ⟨w, by simp, h⟩
    · exact .inl h
    · rcases mem_join h with h | ⟨v, hv, h⟩
      · exact .inl h
      · exact .inr ⟨v, List.mem_cons_of_mem _ hv, h⟩

theorem flagsToString_no {f : Nat} : 'm' ∉ flagsToString f ∧ ' ' ∉ flagsToString f := by
  constructor
  · intro h
    rcases mem_join h with h | ⟨w, hw, h⟩
    · revert h; decide
    · exact (flagNames_word hw).2.2.1 h
  · intro h
    rcases mem_join h with h | ⟨w, hw, h⟩
    · revert h; decide
    · exact (flagNames_word hw).2.2.2 h

theorem digits_ne_nil (n : Nat) : Nat.toDigits 10 n ≠ [] := Nat.toDigits_ne_nil

/-- The flags and the mode can be read off the bracketed text. -/
theorem flagmodeText_inj {a b : Redirect} (hfd : a.fd = b.fd) (ha : PlainFlags a.flag) (hb : PlainFlags b.flag)
    (e : a.flagmodeText = b.flagmodeText) : a.flag = b.flag ∧ a.mode = b.mode := by
  have hA := @flagsToString_no a.flag
  have hB := @flagsToString_no b.flag
  have mode_inj : ∀ {s t : Str} {m n : Nat}, 'm' ∉ s → 'm' ∉ t →
      s ++ 'm' :: '=' :: (Nat.toDigits 10 m ++ c!"]") = t ++ 'm' :: '=' :: (Nat.toDigits 10 n ++ c!"]") → s = t ∧ m = n := by
    intro s t m n hs ht e
    obtain ⟨e1, e2⟩ := span_unique hs ht e
    simp only [List.cons.injEq, true_and, List.append_cancel_right_eq] at e2
    exact ⟨e1, Tree.digits_inj e2⟩
  have no_m : ∀ {s t u : Str}, 'm' ∉ s → s ≠ t ++ 'm' :: u := by
    intro s t u h e
    exact h (by simp [e])
  have app1 : ∀ {s t : Str} {c : Char}, s ++ [c] = t ++ [c] → s = t := fun h => by simpa using h
  unfold Redirect.flagmodeText Redirect.flagmode at e
  rw [← hfd] at e
  by_cases h1 : some a.flag = fdFlags.get? a.fd <;> by_cases h2 : some b.flag = fdFlags.get? a.fd <;>
    by_cases h3 : a.mode = defaultMode <;> by_cases h4 : b.mode = defaultMode <;>
    simp [h1, h2, h3, h4, Cmd.joinWith] at e
  all_goals first
    | exact ⟨Option.some.inj (h1.trans h2.symm), h3.trans h4.symm⟩
    | exact ⟨Option.some.inj (h1.trans h2.symm), Tree.digits_inj e⟩
    | exact ⟨flagsToString_inj ha hb e, h3.trans h4.symm⟩
    | skip
  · exact absurd e.symm (no_m (t := []) (by simp [hB.1]))
  · have := span_unique (s1 := []) (s2 := flagsToString b.flag ++ [',']) (c := 'm') (by simp) (by simp [hB.1]) (by simpa using e)
    simp at this
  · exact absurd e (no_m (t := []) (by simp [hA.1]))
  · have := span_unique (s1 := []) (s2 := flagsToString a.flag ++ [',']) (c := 'm') (by simp) (by simp [hA.1]) (by simpa using e.symm)
    simp at this
  · exact absurd e (by rw [show ∀ x : Str, flagsToString b.flag ++ ',' :: 'm' :: x = (flagsToString b.flag ++ [',']) ++ 'm' :: x by simp]; exact no_m (by simp [hA.1]))
  · exact absurd e.symm (by rw [show ∀ x : Str, flagsToString a.flag ++ ',' :: 'm' :: x = (flagsToString a.flag ++ [',']) ++ 'm' :: x by simp]; exact no_m (by simp [hB.1]))
  · have := mode_inj (s := flagsToString a.flag ++ [',']) (t := flagsToString b.flag ++ [',']) (by simp [hA.1]) (by simp [hB.1]) (by simpa using e)
    exact ⟨flagsToString_inj ha hb (by simpa using this.1), this.2⟩

theorem flagmodeText_no_space (a : Redirect) : ' ' ∉ a.flagmodeText := by
  have hA := @flagsToString_no a.flag
  have hd : ∀ n, ' ' ∉ Nat.toDigits 10 n := fun n => digits_not_mem (by decide) n
  unfold Redirect.flagmodeText Redirect.flagmode
  by_cases h1 : some a.flag = fdFlags.get? a.fd <;> by_cases h3 : a.mode = defaultMode <;>
    simp [h1, h3, Cmd.joinWith, hA.2, hd]

/-- Two redirections of the same sort: both from a file, or both from a descriptor. -/
def SameSort (a b : Redirect) : Prop :=
  (∃ p q, a.source = .path p ∧ b.source = .path q) ∨ (∃ m n, a.source = .fd m ∧ b.source = .fd n)

/-- **C105 (c), partial.** Two redirections from files (or two from descriptors) that are shown alike are the same:
descriptor, source, flags and mode can be read off the text. Missing: sources of different sorts and flags that are
not single bits, for which it is false (`C105_refuted`); pipes and borrowed descriptors. -/
theorem C105_shown_partial (tmpName : Nat → Str) (a b : Redirect) (hs : SameSort a b)
    (hpa : a.pipe = .none) (hpb : b.pipe = .none) (hba : a.borrowed = false) (hbb : b.borrowed = false)
    (ha : PlainFlags a.flag) (hb : PlainFlags b.flag) (e : a.text tmpName = b.text tmpName) : a = b := by
  have hd : ∀ n, ' ' ∉ Nat.toDigits 10 n := fun n => digits_not_mem (by decide) n
  have hA := flagmodeText_no_space a
  have hB := flagmodeText_no_space b
  simp only [Redirect.text, hpa, hpb, hba, hbb, PipeEnd.text, Bool.false_eq_true, if_false] at e
  -- the descriptor
  have e1 := span_unique (c := ' ') (hd a.fd) (hd b.fd) (by simpa [List.append_assoc] using e)
  have hfd := Tree.digits_inj e1.1
  -- the arrow
  have key : ∀ (x y u v : Str), ' ' ∉ x → ' ' ∉ y → x ++ ' ' :: u = y ++ ' ' :: v → x = y ∧ u = v :=
    fun x y u v hx hy h => span_unique hx hy h
  have fin : a.flagmodeText = b.flagmodeText → a.source.text tmpName = b.source.text tmpName → a = b := by
    intro h1 h2
    obtain ⟨h3, h4⟩ := flagmodeText_inj hfd ha hb h1
    have h5 : a.source = b.source := by
      rcases hs with ⟨p, q, hp, hq⟩ | ⟨m, n, hm, hn⟩
      · rw [hp, hq] at h2 ⊢; simp only [Source.text] at h2; rw [h2]
      · rw [hm, hn] at h2 ⊢; simp only [Source.text] at h2; rw [Tree.digits_inj h2]
    cases a; cases b; simp_all
  have e2 := e1.2
  by_cases h1 : a.flag &&& O_WRONLY = 0 <;> by_cases h2 : b.flag &&& O_WRONLY = 0
  · simp only [h1, h2, if_true] at e2
    obtain ⟨e3, e4⟩ := key (c!"<-" ++ a.flagmodeText ++ c!"-") (c!"<-" ++ b.flagmodeText ++ c!"-") _ _
      (by simp [hA]) (by simp [hB]) (by simpa using e2)
    exact fin (by simpa using e3) e4
  · simp [h1, h2] at e2
  · simp [h1, h2] at e2
  · simp only [h1, h2, if_false] at e2
    obtain ⟨e3, e4⟩ := key (c!"-" ++ a.flagmodeText ++ c!"->") (c!"-" ++ b.flagmodeText ++ c!"->") _ _
      (by simp [hA]) (by simp [hB]) (by simpa using e2)
    exact fin (by simpa using e3) e4

/-- Hypotheses met: appending to a log, with and without truncation. -/
example : PlainFlags (O_WRONLY ||| O_CREAT ||| O_APPEND) ∧
    SameSort ⟨1, .path c!"log", 1089, 384, .none, false⟩ ⟨1, .path c!"log", 577, 384, .none, false⟩ ∧
    Redirect.text (fun _ => []) ⟨1, .path c!"log", 1089, 384, .none, false⟩ = c!"1 -[APPEND,CREAT,WRONLY,m=384]-> log" ∧
    Redirect.text (fun _ => []) ⟨0, .path c!"in", 0, 511, .none, false⟩ = c!"0 <-- in" ∧
    Redirect.text (fun _ => []) ⟨2, .fd 1, 65, 511, .none, true⟩ = c!"(2 --> 1)" ∧
    Redirect.text (fun _ => []) ⟨1, .fd 7, 65, 511, .fd 6, false⟩ = c!"1 --> 7 pipe=6" := by
  refine ⟨fun i hi => ?_, .inl ⟨_, _, rfl, rfl⟩, by decide, by decide, by decide, by decide⟩
  have hlt : i < 11 := by
    rcases Nat.lt_or_ge i 11 with h | h
    · exact h
    · have : (O_WRONLY ||| O_CREAT ||| O_APPEND).testBit i = false :=
        Nat.testBit_lt_two_pow (Nat.lt_of_lt_of_le (by decide : _ < 2 ^ 11) (Nat.pow_le_pow_right (by decide) h))
      rw [this] at hi; cases hi
  have : ∀ i < 11, (O_WRONLY ||| O_CREAT ||| O_APPEND).testBit i = true → i = 0 ∨ i = 6 ∨ i = 10 := by decide
  rcases this i hlt hi with rfl | rfl | rfl
  · exact ⟨c!"WRONLY", by decide⟩
  · exact ⟨c!"CREAT", by decide⟩
  · exact ⟨c!"APPEND", by decide⟩

/-- **C105, pipes.** The other end of a redirection can be read off what is shown after `pipe=`: whether there is one, whether it is a descriptor, a
temporary file or a string, and which - if temporary files have names of their own. -/
theorem C105_pipe_shown_partial (tmpName : Nat → Str) (hn : ∀ m n, tmpName m = tmpName n → m = n) (a b : PipeEnd)
    (e : a.text tmpName = b.text tmpName) : a = b := by
  have hd : ∀ n, '<' ∉ Nat.toDigits 10 n := fun n => digits_not_mem (by decide) n
  have no : ∀ (n : Nat) (s : Str), Nat.toDigits 10 n ≠ '<' :: s := fun n s h => hd n (by simp [h])
  cases a <;> cases b <;> simp only [PipeEnd.text, Option.some.injEq, reduceCtorEq] at e <;> first
    | rfl
    | exact congrArg _ (Tree.digits_inj e)
    | exact absurd e (no _ _)
    | exact absurd e.symm (no _ _)
    | (simp at e; exact congrArg _ (hn _ _ e))
    | (simp at e)

example : Redirect.text (fun n => Nat.toDigits 10 n) ⟨1, .fd 7, 65, 511, .string 4, false⟩ = c!"1 --> 7 pipe=<class 'pieshell.redir.STRING'>(path=4)" ∧
    (∀ m n, Nat.toDigits 10 m = Nat.toDigits 10 n → m = n) := ⟨by decide, fun _ _ => Tree.digits_inj⟩

/-- **C105, refuted.** In general the text does not tell redirections apart: descriptor 3 and a file named "3" are
shown alike, and so are the flags DSYNC and SYNC together with DSYNC; a file opened for reading and writing is shown
with the arrow of a file that is only read. -/
theorem C105_refuted (tmpName : Nat → Str) :
    (∃ a b : Redirect, a ≠ b ∧ a.source = .fd 3 ∧ b.source = .path c!"3" ∧ a.text tmpName = b.text tmpName) ∧
    (∃ f g : Nat, f ≠ g ∧ (c!"DSYNC", f) ∈ openFlags ∧ (c!"SYNC", g) ∈ openFlags ∧ flagsToString f = flagsToString g) ∧
    Redirect.text tmpName ⟨0, .path c!"f", O_RDWR, 511, .none, false⟩ = c!"0 <-[RDWR]- f" :=
  ⟨⟨⟨1, .fd 3, 65, 511, .none, false⟩, ⟨1, .path c!"3", 65, 511, .none, false⟩, by decide, rfl, rfl, rfl⟩,
   ⟨4096, 1052672, by decide, by decide, by decide, by decide⟩, by rfl⟩

/-! ## Tables -/

/-- **C105 (d).** What a table shows depends only on what it maps each descriptor to, not on the order in which its
redirections were given. -/
theorem C105_order (tmpName : Nat → Str) (a b : Redirects) (ha : a.Built) (hb : b.Built)
    (h : ∀ n, Dict.get? a n = Dict.get? b n) : a.text tmpName = b.text tmpName := by
  have key : ∀ {a : Redirects}, a.WF → (Dict.values a).Nodup ∧
      (∀ r, r ∈ Dict.values a ↔ Dict.get? a r.fd = some r) := by
    intro a ha
    have hv : ∀ r ∈ Dict.values a, Dict.get? a r.fd = some r := by
      intro r hr
      obtain ⟨p, hp, rfl⟩ := List.mem_map.1 hr
      have := Dict.get?_of_mem a ha.1 (k := p.1) (v := p.2) hp
      rwa [← (ha.2 p hp).1]
    refine ⟨?_, fun r => ⟨hv r, fun h => List.mem_map.2 ⟨(r.fd, r), Dict.mem_of_get? a h, rfl⟩⟩⟩
    have h1 : (a.map Prod.fst).Nodup := ha.1
    have h2 : a.map Prod.fst = (Dict.values a).map Redirect.fd := by
      simp only [Dict.values, List.map_map]
      exact List.map_congr_left fun p hp => (ha.2 p hp).1
    rw [h2] at h1
    exact (List.pairwise_map.1 h1).imp fun hne e => hne (by rw [e])
  obtain ⟨hna, hma⟩ := key ha.wf
  obtain ⟨hnb, hmb⟩ := key hb.wf
  have hp : (Dict.values a).Perm (Dict.values b) :=
    (List.perm_ext_iff_of_nodup hna hnb).2 fun r => by rw [hma, hmb, h]
  have hs : ∀ l : List Redirect, (l.mergeSort (fun a b => decide (a.fd ≤ b.fd))).Pairwise
      (fun a b => decide (a.fd ≤ b.fd) = true) := fun l =>
    List.pairwise_mergeSort (fun a b c h1 h2 => by simp at *; omega) (fun a b => by simp; omega) l
  have : (Dict.values a).mergeSort (fun a b => decide (a.fd ≤ b.fd)) =
      (Dict.values b).mergeSort (fun a b => decide (a.fd ≤ b.fd)) := by
    refine List.Perm.eq_of_pairwise ?_ (hs _) (hs _) (((List.mergeSort_perm _ _).trans hp).trans (List.mergeSort_perm _ _).symm)
    intro x y hx hy h1 h2
    have hx := (hma x).1 ((List.mergeSort_perm _ _).mem_iff.1 hx)
    have hy := (hmb y).1 ((List.mergeSort_perm _ _).mem_iff.1 hy)
    have : x.fd = y.fd := by simp at h1 h2; omega
    rw [h, this, hy] at hx
    exact (Option.some.inj hx).symm
  rw [Redirects.text, this, Redirects.text]

/-- The entries are shown in the order of their descriptors. -/
theorem C105_sorted (tmpName : Nat → Str) (rs : Redirects) (hb : rs.Built) :
    ∃ l : List Redirect, l.Pairwise (fun a b => a.fd < b.fd) ∧ (∀ r, r ∈ l ↔ Dict.get? rs r.fd = some r) ∧
      rs.text tmpName = Cmd.joinWith c!", " (l.map (Redirect.text tmpName)) := by
  refine ⟨(Dict.values rs).mergeSort (fun a b => decide (a.fd ≤ b.fd)), ?_, fun r => ?_, rfl⟩
  · have h1 : ((Dict.values rs).map Redirect.fd).Nodup := by
      have h1 : (rs.map Prod.fst).Nodup := hb.wf.1
      have h2 : rs.map Prod.fst = (Dict.values rs).map Redirect.fd := by
        simp only [Dict.values, List.map_map]
        exact List.map_congr_left fun p hp => (hb.wf.2 p hp).1
      rwa [h2] at h1
    have h3 : (((Dict.values rs).mergeSort (fun a b => decide (a.fd ≤ b.fd))).map Redirect.fd).Nodup :=
      ((List.mergeSort_perm _ _).map _).symm.nodup h1
    have h4 := List.pairwise_mergeSort (le := fun (a b : Redirect) => decide (a.fd ≤ b.fd))
      (fun a b c h1 h2 => by simp at *; omega) (fun a b => by simp; omega) (Dict.values rs)
    have h5 := List.pairwise_map.1 h3
    exact List.Pairwise.imp₂ (fun a b h1 h2 => by simp at h1; omega) h4 h5
  · rw [List.mem_mergeSort]
    constructor
    · intro hr
      obtain ⟨p, hp, rfl⟩ := List.mem_map.1 hr
      have := Dict.get?_of_mem rs hb.wf.1 (k := p.1) (v := p.2) hp
      rwa [← (hb.wf.2 p hp).1]
    · intro h
      exact List.mem_map.2 ⟨(r.fd, r), Dict.mem_of_get? rs h, rfl⟩

/-- Hypotheses met: the same two redirections given in either order. -/
example : ∃ a b : Redirects, a.Built ∧ b.Built ∧ a ≠ b ∧ (∀ n, Dict.get? a n = Dict.get? b n) ∧
    a.text (fun _ => []) = c!"0 <-- in, 1 --> out" := by
  let r0 : Redirect := ⟨0, .path c!"in", 0, 511, .none, false⟩
  let r1 : Redirect := ⟨1, .path c!"out", 65, 511, .none, false⟩
  refine ⟨[(1, r1), (0, r0)], [(0, r0), (1, r1)], .new (args := [.one r1, .one r0]) rfl, .new (args := [.one r0, .one r1]) rfl, by decide, fun n => ?_, ?_⟩
  · simp only [Dict.get?]
    by_cases h0 : 0 = n <;> by_cases h1 : 1 = n <;> simp [h0, h1]
    omega
  · have : (List.mergeSort [r1, r0] (fun a b => decide (a.fd ≤ b.fd))) = [r0, r1] := by
      simp [List.mergeSort, r0, r1, List.MergeSort.Internal.splitInTwo]
    simp only [Redirects.text, Dict.values, List.map]
    rw [this]
    decide

end Pieshell
