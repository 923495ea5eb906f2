import Verif.Lemmas.Args
/-! # C22 (command syntax), C23 (options), C28 (representation of commands) -/
namespace Pieshell.Cmd

/-! ## C22 -/

/-- C22: any sequence of attribute, call and dash steps starting from `_` yields the command with exactly the words of
the steps in order, and its class depends on the first word only. `Plain` excludes the attribute names that are
python attributes (see the refutation), `FirstHashable` a first word such as a list or keyword arguments. -/
theorem C22_construction_partial (registered : Str → Bool) (steps : List Step) (hp : ∀ s ∈ steps, s.Plain)
    (hf : FirstHashable (steps.flatMap Step.words)) :
    build registered root steps =
      .ok (some { kind := kindOf registered (steps.flatMap Step.words), args := steps.flatMap Step.words }) := by
  have := build_ok registered steps [] hp (by simpa using hf)
  simpa [root, kindOf] using this

/-- C22: two ways of writing the same words give the same command. -/
theorem C22_equivalent_partial (registered : Str → Bool) (s t : List Step) (hs : ∀ x ∈ s, x.Plain) (ht : ∀ x ∈ t, x.Plain)
    (hf : FirstHashable (s.flatMap Step.words)) (h : s.flatMap Step.words = t.flatMap Step.words) :
    build registered root s = build registered root t := by
  rw [C22_construction_partial registered s hs hf, C22_construction_partial registered t ht (h ▸ hf), h]

/-- C22: starting from `env.name` is the same as starting from `_.name`. -/
theorem C22_environment_root (registered : Str → Bool) (name : Str) (steps : List Step) (h : name ≠ c!"_") (hn : ∀ k, isMember k name = false) :
    (match envAttr registered name with | .ok c => build registered c steps | .error e => .error e) =
      build registered root (.attr name :: steps) := by
  simp only [envAttr, if_neg h, build, getAttr, root, hn, Bool.false_eq_true, ↓reduceIte, List.nil_append]
  rfl

/-- README's example: five ways of writing the same command, and `git.diff-U-w` -/
example :
    (∀ x ∈ [Step.attr c!"foo", .attr c!"bar", .call [] [], .call [.val (.str c!"fie")] []], x.Plain) ∧
    build (fun _ => false) root [.call [.val (.str c!"foo"), .val (.str c!"bar"), .val (.str c!"fie")] []] =
      build (fun _ => false) root [.attr c!"foo", .attr c!"bar", .call [] [], .call [.val (.str c!"fie")] []] ∧
    build (fun s => s == c!"cd") root [.attr c!"cd", .attr c!"x"] = .ok (some ⟨.builtin c!"cd", [.val (.str c!"cd"), .val (.str c!"x")]⟩) ∧
    build (fun _ => false) root [.attr c!"git", .attr c!"diff", .dash c!"U", .dash c!"w"] =
      .ok (some ⟨.external, [.val (.str c!"git"), .val (.str c!"diff"), .val (.str c!"-U"), .val (.str c!"-w")]⟩) := by
  refine ⟨?_, rfl, rfl, rfl⟩
  intro x hx
  simp only [List.mem_cons, List.not_mem_nil, or_false] at hx
  have mem : ∀ (w : Str), (w == c!"bashsource" || true) = true := by simp
  rcases hx with rfl | rfl | rfl | rfl <;> simp only [Step.Plain]
  all_goals (intro k; cases k <;> (try rfl) <;> simp [isMember])

/-- C22: `-c` is an option exactly if `c` is one word, which it then is with a dash in front; with more words (`-a.b`, `-a("x")`), or none, it raises AssertionError: `git.diff-a.b` is no command. -/
theorem C22_dash (registered : Str → Bool) (c d : Command) :
    (∀ w, neg d = .ok w ↔ ∃ s, d.args = [.val (.str s)] ∧ w = '-' :: s) ∧
    (neg d = .error .assertion ↔ d.args.length ≠ 1) ∧
    (d.args.length ≠ 1 → sub registered c d = .error .assertion) := by
  have h2 : neg d = .error .assertion ↔ d.args.length ≠ 1 := by
    unfold neg
    split
    · next h => simp [h]
    · next h => simp [h]
    · next h1 h2 =>
      simp only [true_iff]
      intro hl
      match hd : d.args with
      | [x] => exact h2 x hd
      | [] => rw [hd] at hl; cases hl
      | _ :: _ :: _ => rw [hd] at hl; simp at hl
  refine ⟨fun w => ?_, h2, fun h => by simp only [sub, h2.2 h]⟩
  unfold neg
  split
  · next s h => simp [h, eq_comm]
  · next x hx h =>
    simp only [reduceCtorEq, false_iff]
    rintro ⟨s, hs, _⟩
    rw [h] at hs; simp only [List.cons.injEq, and_true] at hs
    exact hx s hs
  · next h1 h3 =>
    simp only [reduceCtorEq, false_iff]
    rintro ⟨s, hs, _⟩
    exact h1 s hs

/-- `-U`, and `-a.b`. -/
example : neg ⟨.external, [.val (.str c!"U")]⟩ = .ok c!"-U" ∧ neg ⟨.external, [.val (.str c!"a"), .val (.str c!"b")]⟩ = .error .assertion := ⟨rfl, rfl⟩

/-- C22 is false in general: for every command `c`, `c.run` is not the command with the word `run` appended but the
method that starts it; the same holds of `mro`, `to_dataframe`, ... -/
theorem C22_refuted (registered : Str → Bool) (c : Command) :
    getAttr registered c c!"run" = .ok .member ∧
    build registered root [.attr c!"docker", .attr c!"run"] ≠ build registered root [.attr c!"docker", .call [.val (.str c!"run")] []] := by
  refine ⟨?_, ?_⟩
  · cases c with
    | mk k a => cases k <;> rfl
  · intro h
    simp only [build, getAttr, call, root] at h
    cases hr : registered c!"docker" <;> simp [isMember, newCommand, hr] at h

/-- C22, exactly which words can be written as attributes of a command (among those not starting with an underscore): all
but the five public methods of pipelines, and for builtins also `name` (and `parse_decls` of `bashsource`). -/
theorem C22_attribute (registered : Str → Bool) (c : Command) (hc : c.kind ≠ .base) (name : Str) (hu : name.head? ≠ some '_') :
    getAttr registered c name = .ok (.command { kind := c.kind, args := c.args ++ [.val (.str name)] }) ↔
      name ∉ [c!"run", c!"run_interactive", c!"async_run_interactive", c!"to_dataframe", c!"mro"] ∧
      ∀ b, c.kind = .builtin b → name ≠ c!"name" ∧ (b = c!"bashsource" → name ≠ c!"parse_decls") := by
  have h1 : (name.take 2 == c!"__") = false := by
    rw [beq_eq_false_iff_ne]
    intro h
    cases name with
    | nil => cases h
    | cons a l => simp at h hu; exact hu h.1
  have h2 : [c!"_env", c!"_started", c!"_print_state", c!"_coerce", c!"_run", c!"_repr", c!"_arg", c!"_running_process",
      c!"_split_args", c!"_arg_list", c!"_arg_list_sh", c!"_handle_arg_pipes_wrapper", c!"_handle_arg_pipes", c!"_child",
      c!"_complete", c!"_running_processes", c!"_pid", c!"_redirects", c!"_cmd", c!"_path", c!"_replacements"].contains name = false := by
    rw [Bool.eq_false_iff]
    intro h
    rw [List.contains_iff_mem] at h
    have : ∀ n ∈ [c!"_env", c!"_started", c!"_print_state", c!"_coerce", c!"_run", c!"_repr", c!"_arg", c!"_running_process",
      c!"_split_args", c!"_arg_list", c!"_arg_list_sh", c!"_handle_arg_pipes_wrapper", c!"_handle_arg_pipes", c!"_child",
      c!"_complete", c!"_running_processes", c!"_pid", c!"_redirects", c!"_cmd", c!"_path", c!"_replacements"], n.head? = some '_' := by decide
    exact hu (this name h)
  have hnew : newCommand registered c.kind (c.args ++ [.val (.str name)]) = .ok { kind := c.kind, args := c.args ++ [.val (.str name)] } := by
    cases hk : c.kind with
    | base => exact absurd hk hc
    | external => rfl
    | builtin b => rfl
  have hm : isMember c.kind name = false ↔ name ∉ [c!"run", c!"run_interactive", c!"async_run_interactive", c!"to_dataframe", c!"mro"] ∧
      ∀ b, c.kind = .builtin b → name ≠ c!"name" ∧ (b = c!"bashsource" → name ≠ c!"parse_decls") := by
    unfold isMember
    rw [h1, h2, Bool.false_or, Bool.false_or, Bool.or_eq_false_iff]
    refine and_congr ?_ ?_
    · rw [Bool.eq_false_iff, ne_eq, List.contains_iff_mem]
    · cases hk : c.kind with
      | base => simp
      | external => simp
      | builtin b =>
        simp only [Bool.or_eq_false_iff, Bool.and_eq_false_iff, beq_eq_false_iff_ne, Kind.builtin.injEq, ne_eq]
        constructor
        · rintro ⟨h, h'⟩ b' rfl
          exact ⟨h, fun hb => h'.resolve_left (fun hn => hn hb)⟩
        · intro h
          obtain ⟨h3, h4⟩ := h b rfl
          refine ⟨h3, ?_⟩
          by_cases hb : b = c!"bashsource"
          · exact .inr (h4 hb)
          · exact .inl hb
  rw [← hm]
  unfold getAttr
  constructor
  · intro h
    cases hi : isMember c.kind name with
    | false => rfl
    | true => rw [hi] at h; cases h
  · intro h
    rw [h, hnew]
    rfl

example : (⟨.builtin c!"cd", [.val (.str c!"cd")]⟩ : Command).kind ≠ .base ∧ (c!"status").head? ≠ some '_' := by decide

/-- The same for `env.name`: names of commands are all names but those that start with an underscore (other than `_`
itself) and four public attributes of environments. -/
theorem C22_env_names (name : Str) : isEnvMember name = false ↔
    (name.head? = some '_' → name = c!"_") ∧ name ∉ [c!"running_pipelines", c!"temporary_env", c!"pyshfunction", c!"last_pipeline"] := by
  unfold isEnvMember
  rw [Bool.or_eq_false_iff, Bool.and_eq_false_iff, beq_eq_false_iff_ne, bne_eq_false_iff_eq, Bool.eq_false_iff, ne_eq ([_, _, _, _].contains name), List.contains_iff_mem]
  refine and_congr ?_ Iff.rfl
  constructor
  · rintro (h | h) e
    · exact absurd e h
    · exact h
  · intro h
    by_cases e : name.head? = some '_'
    · exact .inr (h e)
    · exact .inl e

/-! ## C23 -/

section
variable {σ : Type} (expand : Str → Except Exn (List Str)) (pipe : Nat → σ → Str × σ)

/-- The words of an option `name=value` whose value expands to `ms`. -/
def optionWords (name : Str) (ms : List Str) : List Val :=
  ms.map (fun m => .str (c!"--" ++ name.map (fun c => if c = '_' then '-' else c) ++ c!"=" ++ m))

/-- C23, positions: the words of `c(pos..., name=value...)` are the words of `c`, then those of the positional
arguments, then those of the options. -/
theorem C23_positions (registered : Str → Bool) (c c' : Command) (pos : List Elem) (kw : List (Str × Val)) (s s1 s2 s3 : σ)
    (a b o : List Val) (hc : call registered c pos kw = .ok c')
    (ha : argList expand pipe c.args s = .ok (a, s1)) (hb : argList expand pipe pos s1 = .ok (b, s2))
    (ho : argDict expand pipe kw s2 = .ok (o, s3)) :
    argList expand pipe c'.args s = .ok (a ++ b ++ o, s3) := by
  have hargs : c'.args = c.args ++ (pos ++ (if kw = [] then [] else [.dict kw])) := by
    unfold call at hc
    generalize c.args ++ (pos ++ (if kw = [] then [] else [Elem.dict kw])) = l at hc
    unfold newCommand at hc
    split at hc
    · cases hc; rfl
    · split at hc <;> cases hc; rfl
    all_goals first | (cases hc; rfl) | cases hc
  rw [hargs, argList_append, ha]
  simp only
  rw [argList_append, hb]
  simp only
  by_cases hk : kw = []
  · subst hk
    simp only [argDict, ↓reduceIte] at ho ⊢
    cases ho
    simp [argList]
  · rw [if_neg hk]
    simp [argList, ho]

/-- C23, options: `name=True` is the one word `--name`; `name=False` nothing; a string value one word `--name=m` for
every expansion `m` of it; `R(s)` the one word `--name=s`; a pipeline, function or iterable one word with the path of
its pipe; any other object one word with its text; whatever options follow. -/
theorem C23_options (name : Str) (rest : List (Str × Val)) (s : σ) :
    argDict expand pipe ((name, .bool false) :: rest) s = argDict expand pipe rest s ∧
    (∀ ws s', argDict expand pipe rest s = .ok (ws, s') →
      argDict expand pipe ((name, .bool true) :: rest) s =
        .ok (.str (c!"--" ++ name.map (fun c => if c = '_' then '-' else c)) :: ws, s') ∧
      (∀ v ms, expand v = .ok ms → argDict expand pipe ((name, .str v) :: rest) s = .ok (optionWords name ms ++ ws, s')) ∧
      (∀ v, argDict expand pipe ((name, .raw v) :: rest) s = .ok (optionWords name [v] ++ ws, s')) ∧
      (∀ t, argDict expand pipe ((name, .obj t) :: rest) s = .ok (optionWords name [t] ++ ws, s'))) ∧
    (∀ id h ms ws s', expand (pipe id s).1 = .ok ms → argDict expand pipe rest (pipe id s).2 = .ok (ws, s') →
      argDict expand pipe ((name, .piped id h) :: rest) s = .ok (optionWords name ms ++ ws, s')) := by
  refine ⟨rfl, fun ws s' hr => ⟨?_, ?_, ?_, ?_⟩, ?_⟩
  · simp [argDict, hr, dashes]
  · intro v ms hv
    simp [argDict, handlePipes, expandVal, hv, hr, dashes, optionWords, Val.text]
  · intro v
    simp [argDict, handlePipes, expandVal, hr, dashes, optionWords, Val.text]
  · intro t
    simp [argDict, handlePipes, expandVal, hr, dashes, optionWords, Val.text]
  · intro id h ms ws s' hv hr
    simp [argDict, handlePipes, expandVal, hv, hr, dashes, optionWords, Val.text]

/-- What a value that needs no pipe contributes as a positional argument; `E` gives the expansions of strings. -/
def plainWords (E : Str → List Str) : Val → List Str
  | .str s => E s
  | .raw s => [s]
  | .bool true => [c!"True"]
  | .bool false => [c!"False"]
  | .piped _ _ => []
  | .obj t => [t]

/-- What an element of strings and `R`s contributes, in closed form. -/
def elemWords (E : Str → List Str) : Elem → List Str
  | .val v => plainWords E v
  | .dict kvs => kvs.flatMap (fun p => match p.2 with
    | .bool false => []
    | .bool true => [c!"--" ++ p.1.map (fun c => if c = '_' then '-' else c)]
    | v => (plainWords E v).map (fun m => c!"--" ++ p.1.map (fun c => if c = '_' then '-' else c) ++ c!"=" ++ m))

/-- strings and `R`s, options with any value that is not a pipe -/
def Elem.Textual : Elem → Prop
  | .val (.str _) => True
  | .val (.raw _) => True
  | .val _ => False
  | .dict kvs => ∀ p ∈ kvs, ∀ id h, p.2 ≠ .piped id h

/-- the strings that are expanded -/
def Elem.strings : Elem → List Str
  | .val (.str s) => [s]
  | .val _ => []
  | .dict kvs => kvs.flatMap (fun p => match p.2 with | .str s => [s] | _ => [])

/-- C23, whole argument list in closed form, for every list of strings, `R`s and options, given that the strings
expand without error. -/
theorem C23_argument_list (E : Str → List Str) (args : List Elem) (hE : ∀ e ∈ args, ∀ s ∈ e.strings, expand s = .ok (E s))
    (ht : ∀ e ∈ args, e.Textual) (s : σ) :
    argList expand pipe args s = .ok ((args.flatMap (elemWords E)).map .str, s) := by
  have hd : ∀ kvs : List (Str × Val), (Elem.dict kvs).Textual → (∀ s ∈ (Elem.dict kvs).strings, expand s = .ok (E s)) → ∀ s : σ,
      argDict expand pipe kvs s = .ok ((elemWords E (.dict kvs)).map .str, s) := by
    intro kvs
    induction kvs with
    | nil => intro _ _ s; rfl
    | cons p kvs ih =>
      intro hk hE s
      have hk' : (Elem.dict kvs).Textual := fun q hq => hk q (by simp [hq])
      have ih' := ih hk' (fun x hx => hE x (by simp only [Elem.strings, List.flatMap_cons, List.mem_append]; exact .inr hx)) s
      obtain ⟨o1, o2, _⟩ := C23_options expand pipe p.1 kvs s
      obtain ⟨q1, q2, q3, q4⟩ := o2 _ _ ih'
      have hp := hk p (by simp)
      rcases p with ⟨name, v⟩
      cases v with
      | piped id h => exact absurd rfl (hp id h)
      | str v => rw [q2 v (E v) (hE v (by simp [Elem.strings]))]; simp [elemWords, plainWords, optionWords]
      | raw v => rw [q3 v]; simp [elemWords, plainWords, optionWords]
      | obj v => rw [q4 v]; simp [elemWords, plainWords, optionWords]
      | bool b =>
        cases b with
        | false => rw [o1, ih']; simp [elemWords]
        | true => rw [q1]; simp [elemWords]
  induction args with
  | nil => rfl
  | cons e args ih =>
    have ih' := ih (fun x hx => hE x (by simp [hx])) (fun x hx => ht x (by simp [hx]))
    have he := ht e (by simp)
    cases e with
    | dict kvs =>
      simp only [argList, hd kvs he (hE _ (by simp)) s, ih']
      simp
    | val v =>
      cases v with
      | str v => simp [argList, handlePipes, expandVal, hE (.val (.str v)) (List.mem_cons_self) v (List.mem_cons_self), ih', elemWords, plainWords]
      | raw v => simp [argList, handlePipes, expandVal, ih', elemWords, plainWords]
      | bool _ => exact absurd he id
      | piped _ _ => exact absurd he id
      | obj _ => exact absurd he id

end

/-- `ls("dir", long_format=True, color=False, sort="size")` (nothing expands) -/
example : argList (σ := Unit) (fun s => .ok [s]) (fun _ s => ([], s))
    [.val (.str c!"ls"), .val (.str c!"dir"), .dict [(c!"long_format", .bool true), (c!"color", .bool false), (c!"sort", .str c!"size"), (c!"n", .obj c!"3")]] () =
    .ok ([.str c!"ls", .str c!"dir", .str c!"--long-format", .str c!"--sort=size", .str c!"--n=3"], ()) ∧
    (Elem.dict [(c!"long_format", .bool true), (c!"sort", .str c!"size")]).Textual := by
  refine ⟨rfl, ?_⟩
  intro p hp id h
  simp only [List.mem_cons, List.not_mem_nil, or_false] at hp
  rcases hp with rfl | rfl <;> simp

/-! ## C28 -/

/-- C28: from the representation, reading dotted words and python string literals, one gets back exactly the
argument list: for every list of strings whatsoever (any characters, quotes, backslashes, ...). -/
theorem C28_representation_is_faithful (printable : Char → Bool) (args : List Str) :
    readCommand (reprArgs printable args) = some args := readCommand_repr printable args

/-- ... hence different argument lists have different representations. -/
theorem C28_injective (printable : Char → Bool) (a b : List Str) (h : reprArgs printable a = reprArgs printable b) : a = b := by
  have := readCommand_repr printable a
  rw [h, readCommand_repr printable b] at this
  exact (Option.some.inj this).symm

/-- C28 for a command object whose words are strings and `R`s (and options with string values): the representation
shows the list of words the program gets. -/
theorem C28_command_shows_its_words_partial (expand : Str → Except Exn (List Str)) (E : Str → List Str)
    (printable : Char → Bool) (c : Command) (hE : ∀ e ∈ c.args, ∀ s ∈ e.strings, expand s = .ok (E s))
    (ht : ∀ e ∈ c.args, match e with
      | .val (.str _) => True | .val (.raw _) => True | .val _ => False
      | .dict kvs => ∀ p ∈ kvs, ∃ v, p.2 = .str v ∨ p.2 = .raw v ∨ ∃ b, p.2 = .bool b) :
    ∃ words r, argList (σ := Unit) expand (fun _ s => ([], s)) c.args () = .ok (words.map .str, ()) ∧
      c.repr expand printable = .ok r ∧ readCommand r = some words := by
  have hid : c.args.map hideElem = c.args := by
    have : ∀ l : List Elem, (∀ e ∈ l, match e with
      | .val (.str _) => True | .val (.raw _) => True | .val _ => False
      | .dict kvs => ∀ p ∈ kvs, ∃ v, p.2 = .str v ∨ p.2 = .raw v ∨ ∃ b, p.2 = .bool b) → l.map hideElem = l := by
      intro l hl
      induction l with
      | nil => rfl
      | cons e l ih =>
        rw [List.map_cons, ih (fun x hx => hl x (by simp [hx]))]
        congr 1
        have he := hl e (by simp)
        cases e with
        | val v => cases v <;> first | rfl | exact absurd he id
        | dict kvs =>
          simp only [hideElem]
          congr 1
          have : ∀ kvs : List (Str × Val), (∀ p ∈ kvs, ∃ v, p.2 = .str v ∨ p.2 = .raw v ∨ ∃ b, p.2 = .bool b) →
              kvs.map (fun p => (p.1, match p.2 with | .bool b => Val.bool b | v => hidePipes v)) = kvs := by
            intro kvs hk
            induction kvs with
            | nil => rfl
            | cons p kvs ihk =>
              rw [List.map_cons, ihk (fun q hq => hk q (by simp [hq]))]
              obtain ⟨v, h⟩ := hk p (by simp)
              rcases p with ⟨n, w⟩
              rcases h with h | h | ⟨b, h⟩ <;> simp only at h <;> subst h <;> rfl
          exact this kvs he
    exact this c.args ht
  have ht' : ∀ e ∈ c.args, e.Textual := by
    intro e he
    have := ht e he
    cases e with
    | val v => cases v <;> exact this
    | dict kvs =>
      intro p hp id h hpv
      obtain ⟨v, h1⟩ := this p hp
      rw [hpv] at h1
      rcases h1 with h1 | h1 | ⟨b, h1⟩ <;> cases h1
  have hall : ∀ l : List Str, allStr (l.map .str) = some l := by
    intro l
    induction l with
    | nil => rfl
    | cons a l ih => simp [allStr, ih]
  refine ⟨c.args.flatMap (elemWords E), reprArgs printable (c.args.flatMap (elemWords E)), C23_argument_list expand _ E c.args hE ht' (), ?_, readCommand_repr _ _⟩
  simp only [Command.repr, argListShown, hid]
  rw [C23_argument_list expand _ E c.args hE ht' ()]
  simp only [hall]

/-- a non-trivial instance: `git.commit("-m", "it's")` -/
example : reprArgs (fun _ => true) [c!"git", c!"commit", c!"-m", c!"it's"] = c!"git.commit('-m', \"it's\")" ∧
    readCommand c!"git.commit('-m', \"it's\")" = some [c!"git", c!"commit", c!"-m", c!"it's"] := by decide

/-- C28, attributes: the words shown as attributes are the longest initial run of words made of letters - except that
the empty word, and a word with one newline at its end, also count. -/
theorem C28_attributes_partial (w : Str) (h : matchesWord w = true) : w = [] ∨ w = ['\n'] ∨ Alphabetic w ∨ ∃ v, Alphabetic v ∧ w = v ++ ['\n'] := by
  have letter : ∀ c : Char, isLetter c = true → ('a' ≤ c ∧ c ≤ 'z') ∨ ('A' ≤ c ∧ c ≤ 'Z') := by
    intro c hc
    simp only [isLetter, Bool.or_eq_true, Bool.and_eq_true, decide_eq_true_eq] at hc
    rcases hc with ⟨h1, h2⟩ | ⟨h1, h2⟩
    · right; exact ⟨h1, h2⟩
    · left; exact ⟨h1, h2⟩
  induction w with
  | nil => exact .inl rfl
  | cons c w ih =>
    unfold matchesWord at h
    split at h
    · next heq => cases heq
    · exact .inr (.inl ‹_›)
    · next c' s' _ heq =>
      cases heq
      rw [Bool.and_eq_true] at h
      have hc := letter c h.1
      rcases ih h.2 with rfl | rfl | ⟨h1, h2⟩ | ⟨v, ⟨h1, h2⟩, rfl⟩
      · exact .inr (.inr (.inl ⟨by simp, by simpa using hc⟩))
      · exact .inr (.inr (.inr ⟨[c], ⟨by simp, by simpa using hc⟩, rfl⟩))
      · refine .inr (.inr (.inl ⟨by simp, ?_⟩))
        intro x hx
        rcases List.mem_cons.1 hx with rfl | hx
        · exact hc
        · exact h2 x hx
      · refine .inr (.inr (.inr ⟨c :: v, ⟨by simp, ?_⟩, rfl⟩))
        intro x hx
        rcases List.mem_cons.1 hx with rfl | hx
        · exact hc
        · exact h2 x hx

/-- ... and conversely all these are shown as attributes. -/
theorem C28_attributes_conversely_partial (w : Str) (h : w = [] ∨ w = ['\n'] ∨ Alphabetic w ∨ ∃ v, Alphabetic v ∧ w = v ++ ['\n']) :
    matchesWord w = true := by
  have letter : ∀ c : Char, ('a' ≤ c ∧ c ≤ 'z') ∨ ('A' ≤ c ∧ c ≤ 'Z') → isLetter c = true := by
    intro c hc
    simp only [isLetter, Bool.or_eq_true, Bool.and_eq_true, decide_eq_true_eq]
    rcases hc with ⟨h1, h2⟩ | ⟨h1, h2⟩
    · right; exact ⟨h1, h2⟩
    · left; exact ⟨h1, h2⟩
  have step : ∀ c s, isLetter c = true → matchesWord (c :: s) = matchesWord s := by
    intro c s hc
    have hne : c ≠ '\n' := by rintro rfl; revert hc; decide
    rw [matchesWord, hc, Bool.true_and]
    intro e; exact absurd e hne
  have all : ∀ (v t : Str), (∀ c ∈ v, ('a' ≤ c ∧ c ≤ 'z') ∨ ('A' ≤ c ∧ c ≤ 'Z')) → matchesWord (v ++ t) = matchesWord t := by
    intro v t hv
    induction v with
    | nil => rfl
    | cons c v ih => rw [List.cons_append, step _ _ (letter c (hv c (by simp))), ih (fun x hx => hv x (by simp [hx]))]
  rcases h with rfl | rfl | h | ⟨v, h, rfl⟩
  · rfl
  · rfl
  · have := all w [] h.2; rwa [List.append_nil] at this
  · exact all v _ h.2

example : Alphabetic c!"status" := by refine ⟨by decide, ?_⟩; decide

/-- C28 is false in two ways: an argument that is not a string is not shown (`head(n=3)` is displayed as
`head('--n=/dev/fd/X')` although the program gets `--n=3`), and the empty word is shown as an attribute. -/
theorem C28_refuted :
    (let c : Command := { kind := .external, args := [.val (.str c!"head"), .dict [(c!"n", .obj c!"3")]] }
     c.repr (fun s => .ok [s]) (fun _ => true) = .ok c!"head('--n=/dev/fd/X')" ∧
     argList (σ := Unit) (fun s => .ok [s]) (fun _ s => ([], s)) c.args () = .ok ([.str c!"head", .str c!"--n=3"], ())) ∧
    reprArgs (fun _ => true) [c!"echo", c!"", c!"a"] = c!"echo..a" := by
  refine ⟨⟨?_, rfl⟩, ?_⟩ <;> rfl

end Pieshell.Cmd
