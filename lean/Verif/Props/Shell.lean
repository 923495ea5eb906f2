import Verif.Spec.Shell
import Verif.Lemmas.Dict
/-! # C59: the command line of pieshell; C62: search for modules -/
namespace Pieshell.Shell
open Dict

theorem splitEq_none {s : Str} : splitEq s = none ↔ '=' ∉ s := by
  induction s with
  | nil => simp [splitEq]
  | cons c s ih =>
    simp only [splitEq]
    split
    · rename_i h; simp [h]
    · rename_i h
      rw [Option.map_eq_none_iff, ih]
      simp only [List.mem_cons, not_or]
      exact ⟨fun h2 => ⟨fun e => h e.symm, h2⟩, fun h2 => h2.2⟩

theorem splitEq_some {s n v : Str} : splitEq s = some (n, v) ↔ '=' ∉ n ∧ s = n ++ '=' :: v := by
  induction s generalizing n with
  | nil => simp [splitEq]
  | cons c s ih =>
    simp only [splitEq]
    split
    · rename_i h; subst h
      constructor
      · intro e; simp only [Option.some.injEq, Prod.mk.injEq] at e; obtain ⟨rfl, rfl⟩ := e; simp
      · rintro ⟨h1, h2⟩
        cases n with
        | nil => simp at h2; simp [h2]
        | cons a n => simp at h2; simp at h1; exact absurd h2.1 h1.1
    · rename_i h
      constructor
      · intro e
        simp only [Option.map_eq_some_iff] at e
        obtain ⟨⟨n', v'⟩, e1, e2⟩ := e
        simp only [Prod.mk.injEq] at e2
        obtain ⟨rfl, rfl⟩ := e2
        obtain ⟨h1, h2⟩ := ih.1 e1
        refine ⟨?_, by simp [h2]⟩
        simp only [List.mem_cons, not_or]
        exact ⟨fun e => h e.symm, h1⟩
      · rintro ⟨h1, h2⟩
        cases n with
        | nil => simp at h2; exact absurd h2.1 h
        | cons a n =>
          simp only [List.cons_append, List.cons.injEq] at h2
          simp only [List.mem_cons, not_or] at h1
          rw [ih.2 ⟨h1.2, h2.2⟩]
          simp [h2.1]

/-- How the loop treats an option. -/
theorem addArg_option {a n : Str} {v : Val} (h : IsOption a n v) (st : List Str × Dict Str Val) :
    addArg st a = (st.1, st.2.set n v) := by
  cases h with
  | text h =>
    rename_i value
    have : splitEq (n ++ c!"=" ++ value) = some (n, value) := splitEq_some.2 ⟨h, by simp⟩
    simp only [List.append_assoc, List.cons_append, List.nil_append] at this
    simp [addArg, this]
  | flag h => simp [addArg, splitEq_none.2 h]

/-- An argument is an option or not, and an option in one way only. -/
theorem option_or (a : Str) : (∃ n v, IsOption a n v) ∨ (c!"--").isPrefixOf a = false := by
  by_cases h : ∃ s, a = '-' :: '-' :: s
  · left
    obtain ⟨s, rfl⟩ := h
    cases e : splitEq s with
    | none => exact ⟨s, .flag, .flag (splitEq_none.1 e)⟩
    | some x =>
      obtain ⟨n, v⟩ := x
      obtain ⟨h1, rfl⟩ := splitEq_some.1 e
      refine ⟨n, .text v, ?_⟩
      have := IsOption.text (name := n) (value := v) h1
      simpa using this
  · right
    match a, h with
    | [], _ => rfl
    | [c], _ => by_cases hc : '-' = c <;> simp [List.isPrefixOf]
    | c :: d :: s, h =>
      simp only [List.isPrefixOf, Bool.and_true]
      by_cases hc : '-' = c
      · by_cases hd : '-' = d
        · subst hc hd; exact absurd ⟨s, rfl⟩ h
        · simp [hd]
      · simp [hc]

theorem option_prefix {a n : Str} {v : Val} (h : IsOption a n v) : (c!"--").isPrefixOf a = true := by
  cases h <;> simp [List.isPrefixOf]

theorem option_unique {a n m : Str} {v u : Val} (h : IsOption a n v) (h' : IsOption a m u) : n = m ∧ v = u := by
  have e := (addArg_option h ([], [])).symm.trans (addArg_option h' ([], []))
  simp only [Dict.set, Prod.mk.injEq, List.cons.injEq, true_and, and_true] at e
  exact e

theorem addArg_operand {a : Str} (h : (c!"--").isPrefixOf a = false) (st : List Str × Dict Str Val) :
    addArg st a = (st.1 ++ [a], st.2) := by
  unfold addArg
  split
  · simp [List.isPrefixOf] at h
  · rfl

theorem parse_snoc (l : List Str) (a : Str) : parse (l ++ [a]) = addArg (parse l) a := by simp [parse]

theorem last_snoc (l : List Str) (a n : Str) (v : Val) : Last (l ++ [a]) n v ↔
    IsOption a n v ∨ ((∀ v', ¬ IsOption a n v') ∧ Last l n v) := by
  constructor
  · rintro ⟨x, b, y, e, ho, hr⟩
    rcases List.eq_nil_or_concat y with rfl | ⟨y', c, rfl⟩
    · have := List.append_inj' e rfl
      simp only [List.cons.injEq, and_true] at this
      rw [this.2]; exact .inl ho
    · have e' : l ++ [a] = (x ++ b :: y') ++ [c] := by rw [e]; simp
      have := List.append_inj' e' rfl
      simp only [List.cons.injEq, and_true] at this
      obtain ⟨rfl, rfl⟩ := this
      refine .inr ⟨hr a (by simp), x, b, y', rfl, ho, fun b hb => hr b (by simp [hb])⟩
  · rintro (h | ⟨h, x, b, y, rfl, ho, hr⟩)
    · exact ⟨l, a, [], rfl, h, by simp⟩
    · refine ⟨x, b, y ++ [a], by simp, ho, ?_⟩
      intro c hc
      rcases List.mem_append.1 hc with hc | hc
      · exact hr c hc
      · simp only [List.mem_singleton] at hc; subst hc; exact h

theorem snoc_cases {P : List Str → Prop} (h0 : P []) (h1 : ∀ l a, P l → P (l ++ [a])) (l : List Str) : P l := by
  rw [← List.reverse_reverse l]
  induction l.reverse with
  | nil => exact h0
  | cons a l ih => rw [List.reverse_cons]; exact h1 _ _ ih

/-- C59: the arguments that do not begin with `--` are the file arguments, in order; the value of an option is that of its
last occurrence: for `--name=value` everything after the first `=`, for `--name` the value `True`. -/
theorem C59_parse (argv : List Str) : (parse argv).1 = operands argv ∧
    ∀ n v, (parse argv).2.get? n = some v ↔ Last argv n v := by
  induction argv using snoc_cases with
  | h0 =>
    refine ⟨rfl, fun n v => ⟨fun h => (by cases h), ?_⟩⟩
    rintro ⟨l, a, r, h, -⟩
    simp at h
  | h1 l a ih =>
    rw [parse_snoc]
    rcases option_or a with ⟨m, u, h⟩ | h
    · rw [addArg_option h]
      refine ⟨?_, fun n v => ?_⟩
      · simp only [operands, List.filter_append, ih.1]
        simp [operands, option_prefix h]
      · rw [last_snoc]
        simp only [get?_set]
        split
        · rename_i e; subst e
          constructor
          · intro e; cases e; exact .inl h
          · rintro (h' | ⟨h', -⟩)
            · rw [(option_unique h h').2]
            · exact absurd h (h' u)
        · rename_i e
          rw [ih.2]
          constructor
          · intro hl; exact .inr ⟨fun v' h' => e (option_unique h h').1, hl⟩
          · rintro (h' | ⟨-, h'⟩)
            · exact absurd (option_unique h h').1 e
            · exact h'
    · rw [addArg_operand h]
      refine ⟨?_, fun n v => ?_⟩
      · simp only [operands, List.filter_append, ih.1]
        simp [operands, h]
      · rw [last_snoc, ih.2]
        have hno : ∀ v', ¬ IsOption a n v' := fun v' h' => by rw [option_prefix h'] at h; cases h
        exact ⟨fun hl => .inr ⟨hno, hl⟩, fun h' => h'.elim (fun h' => absurd h' (hno v)) (·.2)⟩

example : parse [c!"--cmd=a=b", c!"x.pysh", c!"--v", c!"--cmd=c", c!"-y"] =
    ([c!"x.pysh", c!"-y"], [(c!"cmd", .text c!"c"), (c!"v", .flag)]) ∧
    Last [c!"--cmd=a=b"] c!"cmd" (.text c!"a=b") :=
  ⟨by decide, [], c!"--cmd=a=b", [], rfl, .text (name := c!"cmd") (value := c!"a=b") (by decide), by simp⟩

theorem get?_none (argv : List Str) (n : Str) : (parse argv).2.get? n = none ↔ Absent argv n := by
  constructor
  · intro h a ha v ho
    have : ∃ u, Last argv n u := by
      clear h
      induction argv using snoc_cases with
      | h0 => cases ha
      | h1 l b ih =>
        by_cases hb : ∃ u, IsOption b n u
        · obtain ⟨u, hu⟩ := hb
          exact ⟨u, (last_snoc l b n u).2 (.inl hu)⟩
        · rcases List.mem_append.1 ha with ha | ha
          · obtain ⟨u, hu⟩ := ih ha
            exact ⟨u, (last_snoc l b n u).2 (.inr ⟨fun v' h' => hb ⟨v', h'⟩, hu⟩)⟩
          · simp only [List.mem_singleton] at ha; subst ha; exact absurd ⟨v, ho⟩ hb
    obtain ⟨u, hu⟩ := this
    rw [((C59_parse argv).2 n u).2 hu] at h; cases h
  · intro h
    cases e : (parse argv).2.get? n with
    | none => rfl
    | some v =>
      obtain ⟨l, a, r, rfl, ho, -⟩ := ((C59_parse argv).2 n v).1 e
      exact absurd ho (h a (by simp) v)

theorem given_iff (argv : List Str) (n : Str) : given (parse argv).2 n = true ↔ On argv n := by
  unfold given On
  constructor
  · intro h
    cases e : (parse argv).2.get? n with
    | none => rw [e] at h; cases h
    | some v =>
      rw [e] at h
      refine ⟨v, ((C59_parse argv).2 n v).1 e, ?_⟩
      rintro rfl
      cases h
  · rintro ⟨v, hv, hne⟩
    rw [((C59_parse argv).2 n v).2 hv]
    cases v with
    | flag => rfl
    | text s =>
      cases s with
      | nil => exact absurd rfl hne
      | cons c s => rfl

/-- C59: exactly the documented action is chosen, unless `--log` is given, or `--cmd` or `--pcmd` without a value. -/
theorem C59_action_partial (argv : List Str) (o : Outcome) (hlog : Absent argv c!"log")
    (hc : ¬ Last argv c!"cmd" .flag) (hp : ¬ Last argv c!"pcmd" .flag) : main argv = o ↔ Chooses argv o := by
  have hp' := C59_parse argv
  have key : Chooses argv (main argv) := by
    unfold main
    simp only
    split
    · rename_i h; exact .help ((given_iff _ _).1 h)
    · rename_i h1
      have n1 : ¬ On argv c!"help" := fun h => h1 ((given_iff _ _).2 h)
      split
      · rename_i h; exact .version n1 ((given_iff _ _).1 h)
      · rename_i h2
        have n2 : ¬ On argv c!"version" := fun h => h2 ((given_iff _ _).2 h)
        rw [(get?_none argv c!"log").2 hlog]
        simp only [Option.isSome_none, Bool.false_eq_true, if_false]
        have hst : (!given (parse argv).2 c!"no-startup") = true ↔ ¬ On argv c!"no-startup" := by
          rw [← given_iff]; cases given (parse argv).2 c!"no-startup" <;> simp
        cases e1 : (parse argv).2.get? c!"cmd" with
        | some v =>
          have hl := (hp'.2 _ v).1 e1
          cases v with
          | flag => exact absurd hl hc
          | text e => exact .cmd n1 n2 hlog hst hl
        | none =>
          have a1 := (get?_none _ _).1 e1
          simp only
          cases e2 : (parse argv).2.get? c!"pcmd" with
          | some v =>
            have hl := (hp'.2 _ v).1 e2
            cases v with
            | flag => exact absurd hl hp
            | text e => exact .pcmd n1 n2 hlog hst a1 hl
          | none =>
            have a2 := (get?_none _ _).1 e2
            simp only
            rw [hp'.1]
            split
            · rename_i h; exact .files n1 n2 hlog hst a1 a2 h
            · rename_i h
              exact .prompt n1 n2 hlog hst a1 a2 (by simpa using h) (given_iff _ _)
  constructor
  · rintro rfl; exact key
  · intro h
    -- the documented choice is unique
    have lu : ∀ n v u, Last argv n v → Last argv n u → v = u := by
      intro n v u h1 h2
      have := ((hp'.2 n v).2 h1).symm.trans ((hp'.2 n u).2 h2)
      simpa using this
    have la : ∀ n v, Last argv n v → ¬ Absent argv n := by
      rintro n v ⟨l, a, r, rfl, ho, -⟩ h'
      exact h' a (by simp) v ho
    have be : ∀ {a b : Bool} {P : Prop}, (a = true ↔ P) → (b = true ↔ P) → a = b := by
      intro a b P h1 h2
      cases a <;> cases b <;> simp_all
    revert key
    generalize main argv = o'
    intro key
    cases key <;> cases h <;> first
      | rfl
      | contradiction
      | (exfalso; exact la c!"cmd" _ (by assumption) (by assumption))
      | (exfalso; exact la c!"pcmd" _ (by assumption) (by assumption))
      | skip
    · rename_i e1 st1 a1 a2 a3 a4 a5 e2 st2 b1 b2 b3 b4 b5
      cases lu _ _ _ a5 b5; rw [be a4 b4]
    · rename_i e1 st1 a1 a2 a3 a4 a5 a6 e2 st2 b1 b2 b3 b4 b5 b6
      cases lu _ _ _ a6 b6; rw [be a4 b4]
    · rename_i st1 a1 a2 a3 a4 a5 a6 a7 st2 b1 b2 b3 b4 b5 b6 b7
      rw [be a4 b4]
    · rename_i st1 p1 a1 a2 a3 a4 a5 a6 a7 a8 st2 p2 b1 b2 b3 b4 b5 b6 b7 b8
      rw [be a4 b4, be a8 b8]

example : main [c!"--no-startup", c!"--pcmd=QUJD", c!"x"] = .act false (.pcmd c!"QUJD") ∧
    Absent [c!"--no-startup", c!"--pcmd=QUJD", c!"x"] c!"log" ∧
    ¬ Last [c!"--no-startup", c!"--pcmd=QUJD", c!"x"] c!"pcmd" .flag := by
  refine ⟨by decide, (get?_none _ _).1 (by decide), ?_⟩
  rw [← (C59_parse _).2]
  decide

/-- C59 fails for `--log`: whatever else is on the command line, pieshell ends with an `AttributeError` unless help or the
version is asked for. -/
theorem C59_log_refuted (argv : List Str) (h : ¬ Absent argv c!"log") (hh : ¬ On argv c!"help")
    (hv : ¬ On argv c!"version") : main argv = .crash false := by
  have h1 : given (parse argv).2 c!"help" = false := by rw [← Bool.not_eq_true, given_iff]; exact hh
  have h2 : given (parse argv).2 c!"version" = false := by rw [← Bool.not_eq_true, given_iff]; exact hv
  have h3 : (parse argv).2.get? c!"log" ≠ none := fun e => h ((get?_none _ _).1 e)
  have h4 : ((parse argv).2.get? c!"log").isSome = true := by
    cases e : (parse argv).2.get? c!"log" with
    | none => exact absurd e h3
    | some _ => rfl
  simp [main, h1, h2, h4]

example : ¬ Absent [c!"--log=x", c!"--cmd=1"] c!"log" ∧ ¬ On [c!"--log=x", c!"--cmd=1"] c!"help" ∧
    ¬ On [c!"--log=x", c!"--cmd=1"] c!"version" ∧ main [c!"--log=x", c!"--cmd=1"] = .crash false := by
  rw [← get?_none, ← given_iff, ← given_iff]
  decide

/-- C59 fails for `--cmd` without a value (an `AttributeError` instead of a message). -/
theorem C59_flag_refuted (argv : List Str) (h : Last argv c!"cmd" .flag) (hl : Absent argv c!"log")
    (hh : ¬ On argv c!"help") (hv : ¬ On argv c!"version") : main argv = .crash true := by
  have h1 : given (parse argv).2 c!"help" = false := by rw [← Bool.not_eq_true, given_iff]; exact hh
  have h2 : given (parse argv).2 c!"version" = false := by rw [← Bool.not_eq_true, given_iff]; exact hv
  have h3 := (get?_none argv c!"log").2 hl
  have h4 := ((C59_parse argv).2 _ _).2 h
  simp [main, h1, h2, h3, h4]

example : Last [c!"--cmd", c!"1"] c!"cmd" .flag ∧ main [c!"--cmd", c!"1"] = .crash true := by
  rw [← (C59_parse _).2]
  decide

/-- The same for `--pcmd` without a value, when there is no `--cmd`. -/
theorem C59_pflag_refuted (argv : List Str) (h : Last argv c!"pcmd" .flag) (hc : Absent argv c!"cmd") (hl : Absent argv c!"log")
    (hh : ¬ On argv c!"help") (hv : ¬ On argv c!"version") : main argv = .crash true := by
  have h1 : given (parse argv).2 c!"help" = false := by rw [← Bool.not_eq_true, given_iff]; exact hh
  have h2 : given (parse argv).2 c!"version" = false := by rw [← Bool.not_eq_true, given_iff]; exact hv
  have h3 := (get?_none argv c!"log").2 hl
  have h5 := (get?_none argv c!"cmd").2 hc
  have h4 := ((C59_parse argv).2 _ _).2 h
  simp [main, h1, h2, h3, h4, h5]

example : Last [c!"--pcmd", c!"x"] c!"pcmd" .flag ∧ Absent [c!"--pcmd", c!"x"] c!"cmd" ∧ main [c!"--pcmd", c!"x"] = .crash true := by
  rw [← (C59_parse _).2, ← get?_none]
  decide

/-! ### C62 -/

theorem lastPart_tail (pkg name : Str) (h : '.' ∉ name) : lastPart (pkg ++ '.' :: name) = name := by
  have aux : lastPart name = name := by
    cases name with
    | nil => rfl
    | cons c s =>
      simp only [List.mem_cons, not_or] at h
      simp only [lastPart, if_neg (Ne.symm h.1), if_neg h.2]
  induction pkg with
  | nil => simp [lastPart, aux]
  | cons c s ih =>
    simp only [List.cons_append, lastPart, ih]
    simp

theorem lastPart_self (name : Str) (h : '.' ∉ name) : lastPart name = name := by
  cases name with
  | nil => rfl
  | cons c s =>
    simp only [List.mem_cons, not_or] at h
    simp only [lastPart, if_neg (Ne.symm h.1), if_neg h.2]

theorem joinName_fileIn (d name : Str) :
    joinName (if d = [] then c!"." else d) (name ++ c!".pysh") = fileIn d name := by
  unfold joinName fileIn
  by_cases h : d = []
  · simp [h]
  · by_cases h2 : d.getLast? = some '/'
    · simp [h, h2]
    · simp [h, h2]

theorem find?_split {α : Type} (p : α → Bool) (l : List α) (a : α) :
    l.find? p = some a ↔ p a = true ∧ ∃ x y, l = x ++ a :: y ∧ ∀ b ∈ x, p b = false := by
  rw [List.find?_eq_some_iff_append]
  simp

/-- C62: `import a.b.name` loads the file `name.pysh` of the first directory in which it exists: the directories are those
of the package, or those of `sys.path` for a top level module. -/
theorem C62_first_directory (ex : Str → Bool) (sysPath : List Str) (pkg : Option Str) (name : Str) (path : Where)
    (hn : '.' ∉ name) (f : Str) :
    findModule ex sysPath (match pkg with | some p => p ++ c!"." ++ name | none => name) path = some f ↔
    ∃ l d r, Directories sysPath path = l ++ d :: r ∧ f = fileIn d name ∧ ex f = true ∧
      ∀ d' ∈ l, ex (fileIn d' name) = false := by
  have hl : lastPart (match pkg with | some p => p ++ c!"." ++ name | none => name) = name := by
    cases pkg with
    | none => exact lastPart_self name hn
    | some p =>
      have := lastPart_tail p name hn
      simpa using this
  have hd : path.dirs sysPath = Directories sysPath path := by cases path <;> rfl
  unfold findModule
  simp only [hl, joinName_fileIn, hd]
  rw [List.find?_map, Option.map_eq_some_iff]
  constructor
  · rintro ⟨d, h, rfl⟩
    obtain ⟨h1, l, r, e, h2⟩ := (find?_split _ _ _).1 h
    exact ⟨l, d, r, e, rfl, h1, h2⟩
  · rintro ⟨l, d, r, e, rfl, h1, h2⟩
    exact ⟨d, (find?_split _ _ _).2 ⟨h1, l, r, e, h2⟩, rfl⟩

/-- C62: the finder leaves the import to the others exactly if no directory has the file. -/
theorem C62_not_found (ex : Str → Bool) (sysPath : List Str) (pkg : Option Str) (name : Str) (path : Where)
    (hn : '.' ∉ name) :
    findModule ex sysPath (match pkg with | some p => p ++ c!"." ++ name | none => name) path = none ↔
    ∀ d ∈ Directories sysPath path, ex (fileIn d name) = false := by
  have hl : lastPart (match pkg with | some p => p ++ c!"." ++ name | none => name) = name := by
    cases pkg with
    | none => exact lastPart_self name hn
    | some p =>
      have := lastPart_tail p name hn
      simpa using this
  have hd : path.dirs sysPath = Directories sysPath path := by cases path <;> rfl
  unfold findModule
  simp only [hl, joinName_fileIn, hd]
  simp

example : findModule (fun f => f = c!"/b/m.pysh" || f = c!"./m.pysh") [c!"/a", c!"/b/", []] c!"p.q.m" .none =
      some c!"/b/m.pysh" ∧
    findModule (fun f => f = c!"/b/m.pysh" || f = c!"./m.pysh") [c!"/a", [], c!"/b"] c!"m" .none = some c!"./m.pysh" ∧
    findModule (fun f => f = c!"/b/m.pysh") [c!"/b"] c!"p.m" (.list [c!"/c"]) = none := by decide

end Pieshell.Shell
