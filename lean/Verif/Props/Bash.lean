import Verif.Lemmas.Bash
/-! # C56: `bashsource` reads the variables that bash prints -/
namespace Pieshell.Bash
open Dict

theorem joinLines_eq (lines : List Str) (s : Str) (h : lines.flatMap (fun l => l ++ c!"\n") = s ++ c!"\n") :
    joinLines lines = s := by
  induction lines generalizing s with
  | nil => cases s <;> simp at h
  | cons l ls ih =>
    cases ls with
    | nil =>
      simp only [List.flatMap_cons, List.flatMap_nil, List.append_nil] at h
      exact List.append_cancel_right h
    | cons l' ls =>
      -- the text ends with the newline of the last line
      have hr : ∃ t, (l' :: ls).flatMap (fun l => l ++ c!"\n") = t ++ c!"\n" := by
        rcases List.eq_nil_or_concat (l' :: ls) with h | ⟨init, z, h⟩
        · cases h
        · rw [h]; exact ⟨init.flatMap (fun l => l ++ c!"\n") ++ z, by simp⟩
      obtain ⟨t, ht⟩ := hr
      rw [List.flatMap_cons, ht] at h
      have e : l ++ '\n' :: t = s := by
        have : (l ++ '\n' :: t) ++ c!"\n" = s ++ c!"\n" := by rw [← h]; simp
        exact List.append_cancel_right this
      rw [joinLines, ih t ht]
      · exact e
      · simp

theorem misread_eq_iff (v : Str) : misread v = v ↔ '$' ∉ v ∧ '`' ∉ v := by
  have hlen : ∀ v : Str, v.length ≤ (misread v).length := by
    intro v
    induction v with
    | nil => simp [misread]
    | cons c v ih =>
      rw [show misread (c :: v) = (if c = '$' ∨ c = '`' then ['\\', c] else [c]) ++ misread v from by simp [misread],
        List.length_append]
      split <;> simp only [List.length_cons, List.length_nil] <;> omega
  induction v with
  | nil => simp [misread]
  | cons c v ih =>
    have e : misread (c :: v) = (if c = '$' ∨ c = '`' then ['\\', c] else [c]) ++ misread v := by simp [misread]
    rw [e]
    by_cases h : c = '$' ∨ c = '`'
    · simp only [h, if_true]
      constructor
      · intro h2
        have := congrArg List.length h2
        have := hlen v
        simp at *
        omega
      · rintro ⟨h1, h2⟩
        rcases h with rfl | rfl
        · simp at h1
        · simp at h2
    · simp only [h, if_false, List.cons_append, List.nil_append, List.cons.injEq, true_and, ih, List.mem_cons, not_or]
      simp only [not_or] at h
      exact ⟨fun h' => ⟨⟨Ne.symm h.1, h'.1⟩, Ne.symm h.2, h'.2⟩, fun h' => ⟨h'.1.2, h'.2.2⟩⟩

theorem stored_fst (v : Str × Option Str) : (stored v).1 = v.1 := by
  obtain ⟨a, o⟩ := v; cases o <;> rfl

theorem stored_map (vars : List (Str × Option Str)) : (vars.map stored).map Prod.fst = vars.map Prod.fst := by
  rw [List.map_map]; exact List.map_congr_left (fun v _ => stored_fst v)

/-- What is read from the text of variables and functions. -/
theorem parse_both (vars : List (Str × Option Str)) (h : ∀ v ∈ vars, IsName v.1) (hu : (vars.map Prod.fst).Nodup)
    (rest : Str) (hr : NoDeclare rest) :
    (Closed rest → ∃ fs, parseDeclares (printed vars ++ rest) = .ok (vars.map stored, fs)) ∧
    (¬ Closed rest → parseDeclares (printed vars ++ rest) = .error .valueError) := by
  have hlen : ∀ v : Str × Option Str, 3 ≤ (declared v).length := by
    intro v; rw [declared_eq]; simp
  have hp : 3 * vars.length ≤ (printed vars).length := by
    clear h hu
    induction vars with
    | nil => simp
    | cons v l ih =>
      have := hlen v
      simp only [printed, List.flatMap_cons, List.length_append, List.length_cons] at ih ⊢
      omega
  have hq := quiet_lines ((printed vars ++ rest).length + 2 - 3 * vars.length) rest hr
    (by simp only [List.length_append]; omega) (after 1 vars) (after 1 vars) [] ([] ++ declLines 1 vars) (.inl rfl)
    (fun h => absurd rfl h)
  have hlex : lexLines ((printed vars ++ rest).length + 2) (printed vars ++ rest) 1 1 [] [] =
      lexLines ((printed vars ++ rest).length + 2 - 3 * vars.length) rest (after 1 vars) (after 1 vars) [] ([] ++ declLines 1 vars) := by
    have := lex_printed vars h ((printed vars ++ rest).length + 2 - 3 * vars.length) 1 rest []
    rw [show (printed vars ++ rest).length + 2 - 3 * vars.length + 3 * vars.length = (printed vars ++ rest).length + 2 from by
      simp only [List.length_append]; omega] at this
    exact this
  unfold parseDeclares
  rw [hlex]
  constructor
  · intro hc
    obtain ⟨extra, h1, h2⟩ := hq.1 hc
    rw [h1]
    simp only [List.nil_append]
    rw [addLines_append, addLines_decls vars h ([], []) 1 hu (by simp [keys])]
    simp only [List.nil_append]
    obtain ⟨fs, hfs⟩ := addLines_fine extra h2 (vars.map stored, [])
    rw [hfs]
    exact ⟨_, rfl⟩
  · intro hc
    rw [hq.2 hc]

/-- What `bashsource` does to the exports: everything that bash prints, in exact terms.  A backslash stays before each `$` and
each backquote of a value; the other variables are not touched. -/
theorem C56_exact (vars : List (Str × Option Str)) (hn : ∀ v ∈ vars, IsName v.1) (hu : (vars.map Prod.fst).Nodup)
    (rest : Str) (hr : NoDeclare rest) (hc : Closed rest) (lines : List Str)
    (hl : lines.flatMap (fun l => l ++ c!"\n") = printed vars ++ rest ++ c!"\n") (exports funcs : Dict Str Str) :
    ∃ exports' funcs', parseDecls lines exports funcs = .ok (exports', funcs') ∧
      (∀ k v, (k, some v) ∈ vars → exports'.get? k = some (misread v)) ∧
      (∀ k, (k, none) ∈ vars → exports'.get? k = some []) ∧
      ∀ k, (∀ o, (k, o) ∉ vars) → exports'.get? k = exports.get? k := by
  obtain ⟨fs, hfs⟩ := (parse_both vars hn hu rest hr).1 hc
  have hU : Dict.Uniq (vars.map stored) := by
    unfold Dict.Uniq Dict.keys; rw [stored_map]; exact hu
  have hmem : ∀ v ∈ vars, Dict.get? (vars.map stored) v.1 = some (stored v).2 := by
    intro v hv
    apply get?_of_mem _ hU
    rw [show (v.1, (stored v).2) = stored v from by rw [← stored_fst v]]
    exact List.mem_map.2 ⟨v, hv, rfl⟩
  unfold parseDecls
  rw [joinLines_eq lines _ hl, hfs]
  refine ⟨_, _, rfl, ?_, ?_, ?_⟩
  · intro k v hv
    rw [get?_update _ _ hU, hmem _ hv]; rfl
  · intro k hv
    rw [get?_update _ _ hU, hmem _ hv]; rfl
  · intro k hk
    rw [get?_update _ _ hU]
    have : Dict.get? (vars.map stored) k = none := by
      rw [get?_eq_none_iff]
      unfold Dict.keys
      rw [stored_map]
      intro hm
      obtain ⟨v, hv, e⟩ := List.mem_map.1 hm
      exact hk v.2 (by rw [← e]; exact hv)
    rw [this]

/-- C56, for values without `$` and backquotes, when bash prints at least one function after the variables (functions in
whose text every quote is closed and `declare` does not occur): `bashsource` sets exactly the exported variables to exactly their values,
whatever else the values contain: quotes, backslashes, blanks, newlines, `=`. -/
theorem C56_import_partial (vars : List (Str × Option Str)) (hn : ∀ v ∈ vars, IsName v.1)
    (hu : (vars.map Prod.fst).Nodup) (hv : ∀ k v, (k, some v) ∈ vars → '$' ∉ v ∧ '`' ∉ v)
    (rest : Str) (hr : NoDeclare rest) (hc : Closed rest) (lines : List Str)
    (hl : lines.flatMap (fun l => l ++ c!"\n") = printed vars ++ rest ++ c!"\n") (exports funcs : Dict Str Str) :
    ∃ exports' funcs', parseDecls lines exports funcs = .ok (exports', funcs') ∧
      (∀ k o, (k, o) ∈ vars → exports'.get? k = some (o.getD [])) ∧
      ∀ k, (∀ o, (k, o) ∉ vars) → exports'.get? k = exports.get? k := by
  obtain ⟨e, f, h1, h2, h3, h4⟩ := C56_exact vars hn hu rest hr hc lines hl exports funcs
  refine ⟨e, f, h1, ?_, h4⟩
  intro k o ho
  cases o with
  | none => exact h3 k ho
  | some v =>
    rw [h2 k v ho, (misread_eq_iff v).2 (hv k v ho)]; rfl

def sampleVars : List (Str × Option Str) := [(c!"A", some c!"x \"y\" \\ 'z'\n#=w "), (c!"B_1", none), (c!"C", some [])]
def sampleFunc : Str := c!"f () \n{ \n    echo a b\n}"

/-- The hypotheses hold for a case with all kinds of special characters, and the whole runs. -/
example : (∀ v ∈ sampleVars, IsName v.1) ∧ (sampleVars.map Prod.fst).Nodup ∧
    (∀ k v, (k, some v) ∈ sampleVars → '$' ∉ v ∧ '`' ∉ v) ∧
    ((splitLines (printed sampleVars ++ sampleFunc)).flatMap (fun l => l ++ c!"\n") = printed sampleVars ++ sampleFunc ++ c!"\n") ∧
    parseDecls (splitLines (printed sampleVars ++ sampleFunc)) [(c!"B_1", c!"old"), (c!"Z", c!"z")] [] =
      .ok ([(c!"B_1", []), (c!"Z", c!"z"), (c!"A", c!"x \"y\" \\ 'z'\n#=w "), (c!"C", [])], [(c!"f", sampleFunc)]) := by
  refine ⟨?_, by decide, ?_, by decide +kernel, rfl⟩
  · intro v hv
    simp only [sampleVars, List.mem_cons, List.not_mem_nil, or_false] at hv
    rcases hv with rfl | rfl | rfl <;> exact ⟨by decide, by decide⟩
  · intro k v h
    simp only [sampleVars, List.mem_cons, List.not_mem_nil, or_false, Prod.mk.injEq, Option.some.injEq] at h
    rcases h with ⟨-, rfl⟩ | ⟨-, h⟩ | ⟨-, rfl⟩
    · decide
    · cases h
    · decide

/-- A function with all kinds of quotes, an escape and a comment. -/
def quotedFunc : Str := c!"f () \n{ \n    echo 'a \" b' \"c \\\" ' d\" e\\ f $#;\n    x\n}"

theorem closed_plains (w s : Str) (h : ∀ c ∈ w, c ∉ c!"'\"\\#") (hs : Closed s) : Closed (w ++ s) := by
  induction w with
  | nil => exact hs
  | cons c w ih => exact .plain c _ (h c (by simp)) (ih (fun d hd => h d (by simp [hd])))

theorem double_plains (w s : Str) (h : ∀ c ∈ w, c ∉ c!"\"\\") (hs : InDouble s) : InDouble (w ++ s) := by
  induction w with
  | nil => exact hs
  | cons c w ih =>
    have := h c (by simp)
    simp only [List.mem_cons, List.not_mem_nil, or_false, not_or] at this
    exact .plain c _ this.1 this.2 (ih (fun d hd => h d (by simp [hd])))

example : Closed sampleFunc ∧ NoDeclare sampleFunc := by
  refine ⟨?_, ?_⟩
  · rw [← List.append_nil sampleFunc]
    exact closed_plains _ _ (by decide) .nil
  · intro a b e
    have : 'l' ∈ bare sampleFunc := by rw [e]; simp
    revert this; decide

example : Closed quotedFunc ∧ NoDeclare quotedFunc := by
  refine ⟨?_, ?_⟩
  · exact closed_plains c!"f () \n{ \n    echo " _ (by decide)
      (.single c!"a \" b" _ (by decide) (.plain ' ' _ (by decide)
        (.double c!"c \\\" ' d" _ (double_plains c!"c " _ (by decide) (.escaped '"' _
          (double_plains c!" ' d" [] (by decide) .nil)))
          (closed_plains c!" e" _ (by decide) (.escaped ' ' _ (closed_plains c!"f $" _ (by decide)
            (.comment c!";" _ (by decide) (closed_plains c!"    x\n}" [] (by decide) .nil))))))))
  · intro a b e
    have : 'l' ∈ bare quotedFunc := by rw [e]; simp
    revert this; decide

/-- The words of such a text. -/
example : lexLines 40 quotedFunc 1 1 [] [] = .ok
    [(1, [c!"f", c!"()", c!"{"]), (2, [c!"echo"]), (3, [c!"a \" b", c!"c \" ' d", c!"e f", c!"$"]), (4, [c!"x"])] := rfl

/-- A line that only holds a comment counts as a line; the line after it is cut after its first word. -/
example : lexLines 40 c!"a\n# b\nc d\ne f\n\n" 1 1 [] [] = .ok [(1, [c!"a"]), (2, [c!"c"]), (3, [c!"d"]), (4, [c!"e", c!"f"])] := rfl

/-- C56 is false whenever a quote in the text of the functions is not closed, e.g. an apostrophe in a here document: `bashsource` fails and no
variable is imported at all.  With `C56_exact`: this happens only then. -/
theorem C56_quote_refuted (vars : List (Str × Option Str)) (hn : ∀ v ∈ vars, IsName v.1) (hu : (vars.map Prod.fst).Nodup)
    (rest : Str) (hr : NoDeclare rest) (hc : ¬ Closed rest) (lines : List Str)
    (hl : lines.flatMap (fun l => l ++ c!"\n") = printed vars ++ rest ++ c!"\n") (exports funcs : Dict Str Str) :
    parseDecls lines exports funcs = .error .valueError := by
  unfold parseDecls
  rw [joinLines_eq lines _ hl, (parse_both vars hn hu rest hr).2 hc]

theorem open_apostrophe (a b : Str) (ha : ∀ c ∈ a, c ∉ c!"'\"\\#") (hb : '\'' ∉ b) : ¬ Closed (a ++ '\'' :: b) := by
  induction a with
  | nil =>
    intro h
    cases h with
    | plain _ _ h => simp at h
    | single q s _ _ => simp at hb
  | cons c a ih =>
    intro h
    exact ih (fun d hd => ha d (by simp [hd])) ((closed_plain (ha c (by simp)) _).1 h)

/-- `f () { cat <<E ... don't ... E }` as bash prints it. -/
def hereFunc : Str := c!"f () \n{ \n    cat <<E\ndon't\nE\n\n}"

example : ¬ Closed hereFunc ∧ NoDeclare hereFunc ∧
    parseDecls (splitLines (printed sampleVars ++ hereFunc)) [] [] = .error .valueError := by
  refine ⟨open_apostrophe c!"f () \n{ \n    cat <<E\ndon" c!"t\nE\n\n}" (by decide) (by decide), ?_, rfl⟩
  intro a b e
  have : 'l' ∈ bare hereFunc := by rw [e]; simp
  revert this; decide

/-- C56 is false for every value that contains a `$` or a backquote: such a variable does not get its value. -/
theorem C56_dollar_refuted (k v rest : Str) (hk : IsName k) (hv : '$' ∈ v ∨ '`' ∈ v) (hr : NoDeclare rest) (hc : Closed rest) (lines : List Str)
    (hl : lines.flatMap (fun l => l ++ c!"\n") = printed [(k, some v)] ++ rest ++ c!"\n") (exports funcs : Dict Str Str) :
    ∃ exports' funcs', parseDecls lines exports funcs = .ok (exports', funcs') ∧ exports'.get? k ≠ some v := by
  obtain ⟨e, f, h1, h2, -, -⟩ := C56_exact [(k, some v)] (by simpa using hk) (by simp) rest hr hc lines hl exports funcs
  refine ⟨e, f, h1, ?_⟩
  rw [h2 k v (by simp)]
  intro h
  simp only [Option.some.injEq] at h
  obtain ⟨h3, h4⟩ := (misread_eq_iff v).1 h
  rcases hv with hv | hv
  · exact h3 hv
  · exact h4 hv

example : parseDecls [c!"declare -x PRICE=\"5\\$\"", c!"f () ", c!"{ ", c!"    x", c!"}"] [] [] =
    .ok ([(c!"PRICE", c!"5\\$")], [(c!"f", c!"f () \n{ \n    x\n}")]) := rfl

/-- The texts of functions end where the next one begins. -/
example : parseDecls [c!"declare -x A=\"1\"", c!"f () ", c!"{ ", c!"    x", c!"}", c!"g () ", c!"{ ", c!"    y;", c!"    z", c!"}"] [] [] =
    .ok ([(c!"A", c!"1")], [(c!"f", c!"f () \n{ \n    x\n}"), (c!"g", c!"g () \n{ \n    y;\n    z\n}")]) := rfl

/-- C56 is false if bash prints no function: the last variable is lost, unless its value contains a newline. -/
theorem C56_last_lost_refuted (vars : List (Str × Option Str)) (last : Str × Option Str)
    (hn : ∀ v ∈ vars ++ [last], IsName v.1) (hu : ((vars ++ [last]).map Prod.fst).Nodup)
    (hv : ∀ v, last.2 = some v → '\n' ∉ v) (lines : List Str)
    (hl : lines.flatMap (fun l => l ++ c!"\n") = printed (vars ++ [last])) (exports funcs : Dict Str Str) :
    ∃ exports' funcs', parseDecls lines exports funcs = .ok (exports', funcs') ∧
      exports'.get? last.1 = exports.get? last.1 := by
  have hp : printed (vars ++ [last]) = printed vars ++ declared last ++ c!"\n" := by simp [printed]
  rw [hp] at hl
  have hlen : ∀ v : Str × Option Str, 3 ≤ (declared v).length := by
    intro v; rw [declared_eq]; simp
  have hpl : 3 * vars.length ≤ (printed vars).length := by
    clear hn hu hl hp
    induction vars with
    | nil => simp
    | cons v l ih =>
      have := hlen v
      simp only [printed, List.flatMap_cons, List.length_append, List.length_cons] at ih ⊢
      omega
  have hin : inner last = 0 := by
    obtain ⟨n, o⟩ := last
    cases o with
    | none => rfl
    | some v => exact List.count_eq_zero.2 (hv v rfl)
  have hlex : lexLines ((printed vars ++ declared last).length + 2) (printed vars ++ declared last) 1 1 [] [] =
      .ok (declLines 1 vars) := by
    have h1 := lex_printed vars (fun v hv => hn v (by simp [hv])) ((declared last).length + 1 + 4 - 3 + (printed vars).length - 3 * vars.length) 1 (declared last) []
    have := hlen last
    rw [show (declared last).length + 1 + 4 - 3 + (printed vars).length - 3 * vars.length + 3 * vars.length =
      (printed vars ++ declared last).length + 2 from by simp only [List.length_append]; omega] at h1
    rw [h1]
    rw [show (declared last).length + 1 + 4 - 3 + (printed vars).length - 3 * vars.length =
      ((declared last).length - 2 + (printed vars).length - 3 * vars.length) + 4 from by omega]
    rw [lex_last last (hn last (by simp)), hin]
    simp
  have huv : (vars.map Prod.fst).Nodup := by
    rw [List.map_append, List.nodup_append] at hu; exact hu.1
  have hU : Dict.Uniq (vars.map stored) := by
    unfold Dict.Uniq Dict.keys; rw [stored_map]; exact huv
  unfold parseDecls
  rw [joinLines_eq lines _ hl]
  unfold parseDeclares
  rw [hlex]
  simp only
  rw [addLines_decls vars (fun v hv => hn v (by simp [hv])) ([], []) 1 huv (by simp [keys])]
  refine ⟨_, _, rfl, ?_⟩
  rw [List.nil_append, get?_update _ _ hU]
  have : Dict.get? (vars.map stored) last.1 = none := by
    rw [get?_eq_none_iff]
    unfold Dict.keys
    rw [stored_map]
    intro hm
    rw [List.map_append, List.nodup_append] at hu
    exact hu.2.2 _ hm last.1 (by simp) rfl
  rw [this]

example : parseDecls [c!"declare -x A=\"1\"", c!"declare -x B=\"2\""] [] [] = .ok ([(c!"A", c!"1")], []) := rfl

/-- C56 is false for values with control characters, which bash prints as `$'...'`: the `$` and the escapes are taken
literally. -/
theorem C56_control_refuted : parseDecls [c!"declare -x TABBED=$'a\\tb'", c!"f () ", c!"{ ", c!"    x", c!"}"] [] [] =
    .ok ([(c!"TABBED", c!"$a\\tb")], [(c!"f", c!"f () \n{ \n    x\n}")]) := rfl

/-- C56 is false if a function contains `declare`: as its first statement it makes `bashsource` fail, elsewhere it sets a
variable although the function was never called. -/
theorem C56_function_refuted :
    parseDecls [c!"declare -x A=\"1\"", c!"f () ", c!"{ ", c!"    declare -i n=1;", c!"    x", c!"}"] [] [] = .error .indexError ∧
    parseDecls [c!"declare -x A=\"1\"", c!"f () ", c!"{ ", c!"    x;", c!"    declare -g B=2;", c!"    y", c!"}"] [] [] =
      .ok ([(c!"A", c!"1"), (c!"B", c!"2;")], [(c!"f", c!"f () \n{ \n    x;\n    declare -g B=2;\n    y\n}")]) :=
  ⟨rfl, rfl⟩

end Pieshell.Bash
