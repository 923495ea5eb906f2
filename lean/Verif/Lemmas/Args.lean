import Verif.Spec.Args
/-! Helper lemmas for C22, C23, C28. -/
namespace Pieshell.Cmd

/-! ### construction -/

theorem newCommand_ok (reg : Str → Bool) (ws more : List Elem) (h : FirstHashable (ws ++ more)) :
    newCommand reg (kindOf reg ws) (ws ++ more) = .ok { kind := kindOf reg (ws ++ more), args := ws ++ more } := by
  cases ws with
  | nil =>
    simp only [List.nil_append] at h ⊢
    cases more with
    | nil => rfl
    | cons e more =>
      cases e with
      | dict kvs => exact absurd h id
      | val v =>
        cases v with
        | str s => rfl
        | raw s => rfl
        | bool b => rfl
        | obj t => rfl
        | piped id hh =>
          simp only [FirstHashable] at h
          simp [newCommand, kindOf, h]
  | cons e ws =>
    have hk : kindOf reg (e :: ws) ≠ .base := by
      cases e with
      | dict kvs => simp [kindOf]
      | val v =>
        cases v with
        | str s => simp only [kindOf]; split <;> simp
        | _ => simp [kindOf]
    have he : kindOf reg (e :: ws ++ more) = kindOf reg (e :: ws) := by
      cases e with
      | dict kvs => rfl
      | val v => cases v <;> rfl
    rw [he]
    generalize kindOf reg (e :: ws) = k at hk
    cases k with
    | base => exact absurd rfl hk
    | external => rfl
    | builtin b => rfl

theorem firstHashable_prefix {ws more : List Elem} (h : FirstHashable (ws ++ more)) : FirstHashable ws := by
  cases ws with
  | nil => trivial
  | cons e ws => cases e with
    | dict _ => exact h
    | val v => cases v <;> exact h

theorem neg_env (reg : Str → Bool) (name : Str) (h : name ≠ c!"_") :
    ∃ d, envAttr reg name = .ok d ∧ neg d = .ok ('-' :: name) := by
  unfold envAttr
  rw [if_neg h]
  exact ⟨_, rfl, rfl⟩

theorem build_ok (reg : Str → Bool) (steps : List Step) : ∀ (ws : List Elem),
    (∀ s ∈ steps, s.Plain) → FirstHashable (ws ++ steps.flatMap Step.words) →
    build reg { kind := kindOf reg ws, args := ws } steps =
      .ok (some { kind := kindOf reg (ws ++ steps.flatMap Step.words), args := ws ++ steps.flatMap Step.words }) := by
  induction steps with
  | nil => intro ws _ _; simp [build]
  | cons st steps ih =>
    intro ws hp hf
    have e : ws ++ (st :: steps).flatMap Step.words = (ws ++ st.words) ++ steps.flatMap Step.words := by simp
    rw [e] at hf ⊢
    have hf' := firstHashable_prefix hf
    have ih' := ih (ws ++ st.words) (fun s hs => hp s (by simp [hs])) hf
    have hst := hp st (by simp)
    cases st with
    | attr name =>
      simp only [Step.Plain] at hst
      simp only [Step.words] at hf' ih' ⊢
      simp only [build, getAttr, hst, Bool.false_eq_true, ↓reduceIte, newCommand_ok reg ws _ hf']
      exact ih'
    | call pos kw =>
      simp only [Step.words] at hf' ih' ⊢
      simp only [build, call, newCommand_ok reg ws _ hf']
      exact ih'
    | dash name =>
      obtain ⟨d, h1, h2⟩ := neg_env reg name hst
      simp only [Step.words] at hf' ih' ⊢
      have := newCommand_ok reg ws _ hf'
      simp only [build, h1, sub, h2, call, ↓reduceIte, List.append_nil, this]
      exact ih'

/-! ### argument lists -/

section
variable {σ : Type} (expand : Str → Except Exn (List Str)) (pipe : Nat → σ → Str × σ)

theorem argList_append (a b : List Elem) (s : σ) :
    argList expand pipe (a ++ b) s =
      (match argList expand pipe a s with
       | .error e => .error e
       | .ok (x, s1) => match argList expand pipe b s1 with
         | .error e => .error e
         | .ok (y, s2) => .ok (x ++ y, s2)) := by
  induction a generalizing s with
  | nil =>
    simp only [List.nil_append, argList]
    cases argList expand pipe b s with
    | error e => rfl
    | ok r => rfl
  | cons e a ih =>
    cases e with
    | dict kvs =>
      simp only [List.cons_append, argList]
      cases argDict expand pipe kvs s with
      | error e => rfl
      | ok r =>
        simp only [ih]
        cases argList expand pipe a r.2 with
        | error e => rfl
        | ok r1 =>
          simp only
          cases argList expand pipe b r1.2 with
          | error e => rfl
          | ok r2 => simp
    | val v =>
      simp only [List.cons_append, argList]
      cases expandVal expand (handlePipes pipe v s).1 with
      | error e => rfl
      | ok ms =>
        simp only [ih]
        cases argList expand pipe a (handlePipes pipe v s).2 with
        | error e => rfl
        | ok r1 =>
          simp only
          cases argList expand pipe b r1.2 with
          | error e => rfl
          | ok r2 => simp
end

/-! ### representation -/

theorem hexVal_hexDigit {d : Nat} (h : d < 16) : hexVal (hexDigit d) = some d := by
  have : ∀ d : Fin 16, hexVal (hexDigit d.1) = some d.1 := by decide
  exact this ⟨d, h⟩

theorem readHex_hexFixed (k n acc : Nat) (rest : Str) :
    readHex k acc (hexFixed k n ++ rest) = some (acc * 16 ^ k + n % 16 ^ k, rest) := by
  induction k generalizing acc with
  | zero => simp [readHex, hexFixed, Nat.mod_one]
  | succ k ih =>
    simp only [hexFixed, List.cons_append, readHex]
    rw [hexVal_hexDigit (Nat.mod_lt _ (by decide))]
    simp only [ih]
    congr 2
    rw [Nat.pow_succ, Nat.mod_mul]
    rw [Nat.add_mul]
    have h1 : acc * 16 * 16 ^ k = acc * (16 ^ k * 16) := by rw [Nat.mul_assoc, Nat.mul_comm 16]
    have h2 : n / 16 ^ k % 16 * 16 ^ k = 16 ^ k * (n / 16 ^ k % 16) := Nat.mul_comm _ _
    omega

theorem escape_ne_nil (pr : Char → Bool) (q c : Char) : 0 < (escapeChar pr q c).length := by
  unfold escapeChar
  repeat' split
  all_goals simp

/-- reading one escaped character back -/
theorem readBody_escape (pr : Char → Bool) (q c : Char) (hq : q = '\'' ∨ q = '"') (f : Nat) (rest : Str) :
    readBody q (f + 1) (escapeChar pr q c ++ rest) =
      push c (readBody q f rest) := by
  have hq1 : ('\\' : Char) ≠ q := by rcases hq with rfl | rfl <;> decide
  have hv : ∀ k, c.toNat < 16 ^ k → Char.ofNat (c.toNat % 16 ^ k) = c := by
    intro k hk
    rw [Nat.mod_eq_of_lt hk, Char.ofNat_toNat]
  unfold escapeChar
  by_cases h1 : c = q
  · subst h1
    simp only [↓reduceIte, List.cons_append, List.nil_append, readBody, hq1]
    rcases hq with rfl | rfl <;> simp
  rw [if_neg h1]
  by_cases h2 : c = '\\'
  · subst h2
    simp [readBody, hq1]
  rw [if_neg h2]
  by_cases h3 : c = '\t'
  · subst h3; simp [readBody, hq1]
  rw [if_neg h3]
  by_cases h4 : c = '\n'
  · subst h4; simp [readBody, hq1]
  rw [if_neg h4]
  by_cases h5 : c = '\r'
  · subst h5; simp [readBody, hq1]
  rw [if_neg h5]
  have plain : readBody q (f + 1) ([c] ++ rest) = push c (readBody q f rest) := by
    simp [readBody, h1, h2]
  by_cases h6 : c.toNat < 32 ∨ c.toNat = 127
  · rw [if_pos h6]
    have : c.toNat < 16 ^ 2 := by rcases h6 with h | h <;> omega
    simpa [readBody, hq1, readHex_hexFixed] using congrArg (fun x => push x (readBody q f rest)) (hv 2 this)
  rw [if_neg h6]
  by_cases h7 : c.toNat < 127
  · rw [if_pos h7]; exact plain
  rw [if_neg h7]
  by_cases h8 : pr c = true
  · rw [if_pos h8]; exact plain
  rw [if_neg h8]
  by_cases h9 : c.toNat < 256
  · rw [if_pos h9]
    simpa [readBody, hq1, readHex_hexFixed] using congrArg (fun x => push x (readBody q f rest)) (hv 2 h9)
  rw [if_neg h9]
  by_cases h10 : c.toNat < 65536
  · rw [if_pos h10]
    simpa [readBody, hq1, readHex_hexFixed] using congrArg (fun x => push x (readBody q f rest)) (hv 4 h10)
  rw [if_neg h10]
  have : c.toNat < 16 ^ 8 := by
    have := c.valid
    simp only [UInt32.isValidChar, Nat.isValidChar] at this
    have h : c.toNat = c.val.toNat := rfl
    omega
  simpa [readBody, hq1, readHex_hexFixed] using congrArg (fun x => push x (readBody q f rest)) (hv 8 this)

theorem readBody_all (pr : Char → Bool) (q : Char) (hq : q = '\'' ∨ q = '"') (s rest : Str) (f : Nat) (hf : s.length < f) :
    readBody q f (s.flatMap (escapeChar pr q) ++ q :: rest) = some (s, rest) := by
  induction s generalizing f with
  | nil =>
    cases f with
    | zero => omega
    | succ f => simp [readBody]
  | cons c s ih =>
    cases f with
    | zero => simp at hf
    | succ f =>
      simp only [List.flatMap_cons, List.append_assoc]
      rw [readBody_escape pr q c hq f, ih f (by simp at hf; omega)]; rfl

theorem quoteFor_quote (s : Str) : quoteFor s = '\'' ∨ quoteFor s = '"' := by
  unfold quoteFor; split <;> simp

theorem length_flatMap_escape (pr : Char → Bool) (q : Char) (s : Str) : s.length ≤ (s.flatMap (escapeChar pr q)).length := by
  induction s with
  | nil => simp
  | cons c s ih =>
    simp only [List.flatMap_cons, List.length_append, List.length_cons]
    have := escape_ne_nil pr q c
    omega

theorem readLiteral_repr (pr : Char → Bool) (s rest : Str) : readLiteral (reprStr pr s ++ rest) = some (s, rest) := by
  unfold reprStr
  simp only [List.cons_append, readLiteral, List.append_assoc, List.nil_append]
  rw [if_pos (quoteFor_quote s)]
  refine readBody_all pr _ (quoteFor_quote s) s rest _ ?_
  have := length_flatMap_escape pr (quoteFor s) s
  simp only [List.length_append, List.length_cons]
  omega

theorem readArgs_repr (pr : Char → Bool) (l : List Str) (hl : l ≠ []) (f : Nat) (hf : l.length ≤ f) :
    readArgs f (joinWith c!", " (l.map (reprStr pr)) ++ c!")") = some l := by
  induction l generalizing f with
  | nil => exact absurd rfl hl
  | cons a l ih =>
    cases f with
    | zero => simp at hf
    | succ f =>
      cases l with
      | nil =>
        simp only [List.map_cons, List.map_nil, joinWith, readArgs, readLiteral_repr]
        simp
      | cons b l =>
        simp only [List.map_cons, joinWith, readArgs, List.append_assoc, readLiteral_repr]
        have := ih (by simp) f (by simpa using hf)
        simp only [List.map_cons] at this
        simp [this]

/-- what the words of the dotted prefix look like -/
def WordChars (w : Str) : Prop := ∀ c ∈ w, isLetter c = true ∨ c = '\n'

theorem matchesWord_chars {w : Str} (h : matchesWord w = true) : WordChars w := by
  induction w with
  | nil => intro c hc; simp at hc
  | cons c w ih =>
    intro x hx
    unfold matchesWord at h
    split at h
    · next heq => cases heq
    · next heq => cases heq; simp at hx; exact .inr hx
    · next c' s' _ heq =>
      cases heq
      rw [Bool.and_eq_true] at h
      rcases List.mem_cons.1 hx with rfl | hx
      · exact .inl h.1
      · exact ih h.2 x hx

theorem wordChars_not {w : Str} (h : WordChars w) {x : Char} (hx : isLetter x = false) (hn : x ≠ '\n') : x ∉ w := by
  intro hm
  rcases h x hm with h1 | h1
  · rw [hx] at h1; cases h1
  · exact hn h1

theorem splitIdx_prefix (l : List Str) : ∀ w ∈ l.take (splitIdx l), matchesWord w = true := by
  induction l with
  | nil => simp [splitIdx]
  | cons a l ih =>
    intro w hw
    simp only [splitIdx] at hw
    split at hw
    · rw [List.take_succ_cons] at hw
      rcases List.mem_cons.1 hw with rfl | hw
      · assumption
      · exact ih w hw
    · simp at hw

theorem splitDots_word {w : Str} (h : '.' ∉ w) : splitDots w = [w] := by
  induction w with
  | nil => rfl
  | cons c w ih =>
    simp only [List.mem_cons, not_or] at h
    simp only [splitDots]
    rw [if_neg (fun e => h.1 e.symm), ih h.2]

theorem splitDots_cons {w rest : Str} (h : '.' ∉ w) : splitDots (w ++ '.' :: rest) = w :: splitDots rest := by
  induction w with
  | nil => simp [splitDots]
  | cons c w ih =>
    simp only [List.mem_cons, not_or] at h
    simp only [List.cons_append, splitDots]
    rw [if_neg (fun e => h.1 e.symm), ih h.2]

theorem splitDots_join (l : List Str) (hl : l ≠ []) (h : ∀ w ∈ l, '.' ∉ w) : splitDots (joinWith c!"." l) = l := by
  induction l with
  | nil => exact absurd rfl hl
  | cons a l ih =>
    cases l with
    | nil => exact splitDots_word (h a (by simp))
    | cons b l =>
      have e : joinWith c!"." (a :: b :: l) = a ++ '.' :: joinWith c!"." (b :: l) := by simp [joinWith]
      rw [e, splitDots_cons (h a (by simp)), ih (by simp) (fun w hw => h w (by simp [hw]))]

theorem join_mem {l : List Str} {c : Char} (h : c ∈ joinWith c!"." l) : c = '.' ∨ ∃ w ∈ l, c ∈ w := by
  induction l with
  | nil => simp [joinWith] at h
  | cons a l ih =>
    cases l with
    | nil => simp [joinWith] at h; exact .inr ⟨a, by simp, h⟩
    | cons b l =>
      have e : joinWith c!"." (a :: b :: l) = a ++ '.' :: joinWith c!"." (b :: l) := by simp [joinWith]
      rw [e, List.mem_append, List.mem_cons] at h
      rcases h with h | h | h
      · exact .inr ⟨a, by simp, h⟩
      · exact .inl h
      · rcases ih h with h | ⟨w, hw, hc⟩
        · exact .inl h
        · exact .inr ⟨w, by simp [hw], hc⟩

theorem takeWhile_stop {p : Str} {rest : Str} (h : '(' ∉ p) :
    (p ++ '(' :: rest).takeWhile (· ≠ '(') = p ∧ (p ++ '(' :: rest).dropWhile (· ≠ '(') = '(' :: rest := by
  induction p with
  | nil => simp
  | cons c p ih =>
    simp only [List.mem_cons, not_or] at h
    have := ih h.2
    have hc : c ≠ '(' := fun e => h.1 e.symm
    simp only [List.cons_append, List.takeWhile_cons, List.dropWhile_cons, hc, ne_eq, not_false_eq_true, decide_true, ↓reduceIte]
    exact ⟨by rw [this.1], this.2⟩

theorem takeWhile_all {p : Str} (h : '(' ∉ p) : p.takeWhile (· ≠ '(') = p ∧ p.dropWhile (· ≠ '(') = [] := by
  induction p with
  | nil => simp
  | cons c p ih =>
    simp only [List.mem_cons, not_or] at h
    have := ih h.2
    have hc : c ≠ '(' := fun e => h.1 e.symm
    simp only [List.takeWhile_cons, List.dropWhile_cons, hc, ne_eq, not_false_eq_true, decide_true, ↓reduceIte]
    exact ⟨by rw [this.1], this.2⟩

theorem joinWith_length (sep : Str) (hs : 0 < sep.length) (l : List Str) : l.length ≤ (joinWith sep l).length + 1 := by
  induction l with
  | nil => simp
  | cons a l ih =>
    cases l with
    | nil => simp
    | cons b l =>
      simp only [joinWith, List.length_append, List.length_cons] at ih ⊢
      omega

theorem readCommand_repr (pr : Char → Bool) (args : List Str) : readCommand (reprArgs pr args) = some args := by
  have hpre := splitIdx_prefix args
  have happ := List.take_append_drop (splitIdx args) args
  unfold reprArgs
  generalize args.take (splitIdx args) = pre at hpre happ
  generalize args.drop (splitIdx args) = suf at happ
  simp only
  have hch : ∀ w ∈ pre, WordChars w := fun w hw => matchesWord_chars (hpre w hw)
  have hdot : ∀ w ∈ pre, '.' ∉ w := fun w hw => wordChars_not (hch w hw) (by decide) (by decide)
  have hpar : ∀ w ∈ pre, '(' ∉ w := fun w hw => wordChars_not (hch w hw) (by decide) (by decide)
  have hus : ∀ w ∈ pre, '_' ∉ w := fun w hw => wordChars_not (hch w hw) (by decide) (by decide)
  -- the dotted part
  have hp : ∀ P, P = (if pre = [] then c!"_" else joinWith c!"." pre) → '(' ∉ P ∧ (if P = c!"_" then [] else splitDots P) = pre := by
    intro P hP
    by_cases hn : pre = []
    · rw [if_pos hn] at hP
      subst hP; subst hn
      exact ⟨by decide, rfl⟩
    · rw [if_neg hn] at hP
      subst hP
      refine ⟨fun hm => ?_, ?_⟩
      · rcases join_mem hm with h | ⟨w, hw, hc⟩
        · exact absurd h (by decide)
        · exact hpar w hw hc
      · rw [if_neg, splitDots_join pre hn hdot]
        intro he
        have : '_' ∈ joinWith c!"." pre := by rw [he]; decide
        rcases join_mem this with h | ⟨w, hw, hc⟩
        · exact absurd h (by decide)
        · exact hus w hw hc
  generalize hP : (if pre = [] then c!"_" else joinWith c!"." pre) = P
  obtain ⟨hp1, hp2⟩ := hp P hP.symm
  by_cases hs : suf = []
  · rw [if_pos hs]
    subst hs
    simp only [readCommand]
    rw [(takeWhile_all hp1).1, (takeWhile_all hp1).2]
    simp only [hp2]
    rw [← happ]; simp
  · rw [if_neg hs]
    have e : P ++ c!"(" ++ joinWith c!", " (suf.map (reprStr pr)) ++ c!")" = P ++ '(' :: (joinWith c!", " (suf.map (reprStr pr)) ++ c!")") := by simp
    rw [e]
    simp only [readCommand]
    rw [(takeWhile_stop hp1).1, (takeWhile_stop hp1).2]
    simp only [hp2]
    rw [readArgs_repr pr suf hs _ (by
      have := joinWith_length c!", " (by decide) (suf.map (reprStr pr))
      simp only [List.length_map, List.length_append, List.length_cons] at this ⊢
      omega)]
    simp only [happ]

end Pieshell.Cmd
