import Verif.Lemmas.Expand
import Verif.Model.Args
/-!
# Argument expansion: C24, C25, C26, C27

`Ctx` holds everything expansion depends on: the environment's directory, the process's directory, the variables, home
directories, the file system and `fnmatch`. All of it is arbitrary unless a hypothesis says otherwise.
-/
namespace Pieshell.Expand
open Pieshell.Path Pieshell.Cmd

theorem inert_magic {s : Str} (h : Inert s) : hasMagic s = false := by
  have := magic_contains s
  obtain ⟨_, h1, h2, h3⟩ := h
  simp only [List.contains_eq_mem, h1, h2, h3, decide_false, Bool.not_false, Bool.and_self] at this
  simpa using this.symm

theorem pointwise_right {α β : Type} {R : α → β → Prop} {l : List α} {m : List β} (h : Pointwise R l m) : ∀ b ∈ m, ∃ a ∈ l, R a b := by
  induction h with
  | nil => simp
  | cons h1 _ ih =>
    intro b hb
    rcases List.mem_cons.1 hb with rfl | hb
    · exact ⟨_, by simp, h1⟩
    · obtain ⟨a, ha, hr⟩ := ih b hb
      exact ⟨a, by simp [ha], hr⟩

theorem pointwise_left {α β : Type} {R : α → β → Prop} {l : List α} {m : List β} (h : Pointwise R l m) : ∀ a ∈ l, ∃ b ∈ m, R a b := by
  induction h with
  | nil => simp
  | cons h1 _ ih =>
    intro b hb
    rcases List.mem_cons.1 hb with rfl | hb
    · exact ⟨_, by simp, h1⟩
    · obtain ⟨a, ha, hr⟩ := ih b hb
      exact ⟨a, by simp [ha], hr⟩

/-! ## C24 -/

/-- C24: a string without `%`, leading `~` and `*`, `?`, `[` is one word, unchanged, in every environment. -/
theorem C24_plain_string (x : Ctx) (s : Str) (hp : '%' ∉ s) (hi : Inert s) : expandArgument x s = .ok [s] := by
  rw [expandArgument_eq (pctFormat_plain _ _ _ s _ (by omega) hp), expanduser_plain hi.1, inert_magic hi]
  simp

example : '%' ∉ c!"-rf a b" ∧ Inert c!"-rf a b" := by unfold Inert; decide

/-- C24: in a command whose arguments are such strings and `R(...)`s, the program gets exactly these texts. -/
theorem C24_arguments {σ : Type} (pipe : Nat → σ → Str × σ) (x : Ctx) (args : List (Bool × Str)) (st : σ)
    (h : ∀ a ∈ args, a.1 = false → '%' ∉ a.2 ∧ Inert a.2) :
    argList (expandArgument x) pipe (args.map (fun a => .val (if a.1 then .raw a.2 else .str a.2))) st = .ok (args.map (fun a => .str a.2), st) := by
  induction args with
  | nil => rfl
  | cons a args ih =>
    have ih := ih (fun b hb => h b (by simp [hb]))
    obtain ⟨b, s⟩ := a
    cases b with
    | true => simp only [List.map_cons, ↓reduceIte, argList, handlePipes, expandVal, ih, List.singleton_append]
    | false =>
      have := h (false, s) (by simp) rfl
      simp only [List.map_cons, Bool.false_eq_true, ↓reduceIte, argList, handlePipes, expandVal, ih, C24_plain_string x s this.1 this.2, List.map_nil, List.singleton_append]

/-- `ls(R("*%~"), "-l")` -/
example : ∀ a ∈ [(true, c!"*%~"), (false, c!"-l")], a.1 = false → '%' ∉ a.2 ∧ Inert a.2 := by
  unfold Inert; decide

/-! ## C25 -/

/-- C25: literal text with doubled `%`, and variables, are replaced by the text and the values of the variables (and then
subject to `~` and file name expansion: here there is nothing to expand). -/
theorem C25_template (x : Ctx) (ps : List Piece) (hp : ∀ p ∈ ps, p.Plain) (v : Str) (hv : values x.lookup ps = .ok v) (hi : Inert v) :
    expandArgument x (ps.flatMap Piece.source) = .ok [v] := by
  rw [expandArgument_eq (v := v) (by rw [pctFormat_pieces _ _ _ ps hp _ (by omega)]; exact hv), expanduser_plain hi.1, inert_magic hi]
  simp

/-- `"%(HOME)s/100%%"` -/
example : (∀ p ∈ [Piece.var c!"HOME", .lit c!"/100%"], p.Plain) ∧
    [Piece.var c!"HOME", .lit c!"/100%"].flatMap Piece.source = c!"%(HOME)s/100%%" ∧
    values (fun n => if n = c!"HOME" then .ok c!"/root" else .error .keyError) [Piece.var c!"HOME", .lit c!"/100%"] = .ok c!"/root/100%" ∧
    Inert c!"/root/100%" := by
  refine ⟨?_, rfl, rfl, by unfold Inert; decide⟩
  intro p hp
  simp at hp
  rcases hp with rfl | rfl
  · exact Balanced.of_none (by decide)
  · trivial

/-- C25: doubling every `%` is a complete quoting, whatever variables are defined. -/
theorem C25_doubling (x : Ctx) (s : Str) (hi : Inert s) : expandArgument x (double s) = .ok [s] := by
  have := C25_template x [.lit s] (by intro p hp; simp at hp; subst hp; trivial) s (by simp [values, prepend]) hi
  rwa [← double_length] at this

example : double c!"50% of %(x)s" = c!"50%% of %%(x)s" ∧ Inert c!"50% of %(x)s" := ⟨rfl, by unfold Inert; decide⟩

/-- C25: an undefined variable raises its lookup error, the command is not started with a wrong word. -/
theorem C25_undefined (x : Ctx) (ps : List Piece) (hp : ∀ p ∈ ps, p.Plain) (e : Exn) (hv : values x.lookup ps = .error e) :
    expandArgument x (ps.flatMap Piece.source) = .error e := by
  unfold expandArgument
  rw [pctFormat_pieces _ _ _ ps hp _ (by omega), hv]

example : values (fun _ => .error .keyError) [Piece.lit c!"a", .var c!"x"] = .error .keyError := rfl

/-- A directory `/d` with one file `x`, in a shell with a variable `v` whose value is `*`. -/
def starCtx (fnm : Str → Str → Bool) : Ctx where
  cwd := c!"/d"
  procCwd := c!"/d"
  lookup n := if n = c!"v" then .ok c!"*" else .error .keyError
  scopeText := c!"{}"
  homes := { own := some c!"/root", named := fun _ => none }
  fs := { listdir := fun p => if p = c!"/d" then [(c!"x", false)] else [], lexists := fun _ => true, isdir := fun _ => true }
  fnm := fnm

/-- C25, a consequence users should know: values of variables are file name patterns again. -/
theorem C25_values_are_expanded_again (fnm : Str → Str → Bool) (h : fnm c!"x" c!"*" = true) :
    expandArgument (starCtx fnm) c!"%(v)s" = .ok [c!"./x"] := by
  have e : glob fnm (starCtx fnm).fs c!"/d/*" = (if fnm c!"x" c!"*" then [c!"/d/x"] else []) := by
    cases hb : fnm c!"x" c!"*"
    · show (List.map _ (List.filter (fun x => fnm x c!"*") [c!"x"])) ++ [] = _
      simp [hb]
    · show (List.map _ (List.filter (fun x => fnm x c!"*") [c!"x"])) ++ [] = _
      simp [hb]
      rfl
  rw [expandArgument_eq (v := c!"*") rfl]
  have e2 : glob (starCtx fnm).fnm (starCtx fnm).fs (expandPath (starCtx fnm).cwd (starCtx fnm).procCwd (starCtx fnm).homes (expanduser (starCtx fnm).homes c!"*")) = [c!"/d/x"] := by
    have : expandPath (starCtx fnm).cwd (starCtx fnm).procCwd (starCtx fnm).homes (expanduser (starCtx fnm).homes c!"*") = c!"/d/*" := rfl
    rw [this]
    show glob fnm (starCtx fnm).fs c!"/d/*" = _
    rw [e, h]
    rfl
  rw [e2]
  rfl

/-! ## C26 -/

/-- C26. Let `q` be the argument after variables and `~` have been replaced, containing a wild card. Let `files` be
what `glob` finds for `q` in the environment's directory. Then `files` are exactly the existing files whose path matches,
none twice; if there are none the word is `q` itself; otherwise there is one word per file, in order, which names that
file from the environment's directory and starts with `/` or `./`. -/
theorem C26_expansion (x : Ctx) (t : Tree) (ha : Agrees x.fs t) (hn : ∀ p, ((x.fs.listdir p).map Prod.fst).Nodup)
    (hc : NormalPath x.cwd) (hproc : isAbs x.procCwd = true)
    (ps : List Piece) (hp : ∀ p ∈ ps, p.Plain) (v : Str) (hv : values x.lookup ps = .ok v)
    (q : Str) (hq : expanduser x.homes v = q) (htilde : q.head? ≠ some '~') (hm : hasMagic q = true)
    (files : List Str) (hfiles : files = glob x.fnm x.fs (abspath x.cwd q)) :
    (files = [] → expandArgument x (ps.flatMap Piece.source) = .ok [q]) ∧
    (files ≠ [] → ∃ words, expandArgument x (ps.flatMap Piece.source) = .ok words ∧
      Pointwise (fun r w => abspath x.cwd w = r ∧ ((∃ u, w = '/' :: u) ∨ ∃ u, w = '.' :: '/' :: u)) files words) ∧
    (∀ k cs, (k = 1 ∨ k = 2) → (∀ c ∈ cs, Normal c) → abspath x.cwd q = pathOf k cs →
      files.Nodup ∧
      ∀ r, r ∈ files ↔ ∃ rs, (∀ c ∈ rs, Normal c) ∧ r = pathOf k rs ∧ Pointwise (CompMatch x.fnm) cs rs ∧ t.exists rs = true) := by
  have hpath : expandPath x.cwd x.procCwd x.homes q = abspath x.cwd q := expandPath_eq hc.isAbs htilde
  have hexp := expandArgument_eq (x := x) (arg := ps.flatMap Piece.source) (v := v) (by rw [pctFormat_pieces _ _ _ ps hp _ (by omega)]; exact hv)
  rw [hq, hm, hpath, ← hfiles] at hexp
  simp only [↓reduceIte] at hexp
  refine ⟨?_, ?_, ?_⟩
  · intro h
    rw [hexp, if_pos h]
  · intro h
    rw [if_neg h] at hexp
    have hnormal : ∀ r ∈ files, NormalPath r := by
      obtain ⟨k, cs, hk, hcs, he⟩ := abspath_normal (p := q) hc.isAbs
      intro r hr
      rw [hfiles, he] at hr
      obtain ⟨rs, h1, h2, _⟩ := (glob_spec_all ha hk hcs r).1 hr
      exact ⟨k, rs, hk, h1, h2⟩
    have habs : ∀ r, NormalPath r → ∃ u, r = '/' :: u := by
      rintro r ⟨k, cs, hk, _, rfl⟩
      rcases hk with rfl | rfl
      · exact ⟨_, rfl⟩
      · exact ⟨_, rfl⟩
    by_cases hroot : x.cwd = c!"/"
    · rw [if_neg (by simpa using hroot)] at hexp
      refine ⟨files, hexp, ?_⟩
      clear hfiles h hexp
      induction files with
      | nil => exact .nil
      | cons r files ih =>
        have hr := hnormal r (by simp)
        refine .cons ⟨?_, .inl (habs r hr)⟩ (ih (fun r hr => hnormal r (by simp [hr])))
        unfold abspath
        rw [if_pos hr.isAbs, normpath_idem hr]
    · rw [if_pos hroot] at hexp
      refine ⟨_, hexp, ?_⟩
      clear hfiles h hexp
      induction files with
      | nil => exact .nil
      | cons r files ih =>
        have hr := hnormal r (by simp)
        refine .cons ⟨relName_resolves hc hroot hr, ?_⟩ (ih (fun r hr => hnormal r (by simp [hr])))
        unfold relName
        split
        · exact .inr ⟨_, rfl⟩
        · exact .inl (habs r hr)
  · intro k cs hk hcs he
    rw [hfiles, he]
    exact ⟨glob_nodup ha hn hk hcs, glob_spec_all ha hk hcs⟩

/-- A file system with a directory `d` that contains two files, `x` and `-rf`, in the form used by the hypotheses of
`C26_expansion`. -/
def demoTree : Tree where
  «exists» cs := [[], [c!"d"], [c!"d", c!"x"], [c!"d", c!"-rf"]].contains cs
  isDir cs := [[], [c!"d"]].contains cs

def demoFs : Fs where
  listdir p := if p = c!"/" ∨ p = c!"//" then [(c!"d", true)] else if p = c!"/d" ∨ p = c!"//d" then [(c!"x", false), (c!"-rf", false)] else []
  lexists p := [c!"/", c!"//", c!"/d", c!"//d", c!"/d/x", c!"//d/x", c!"/d/-rf", c!"//d/-rf"].contains p
  isdir p := [c!"/", c!"//", c!"/d", c!"//d"].contains p

theorem pathOf_eq_iff {k l : Nat} (hk : k = 1 ∨ k = 2) (hl : l = 1 ∨ l = 2) {cs ds : List Str} (hc : ∀ c ∈ cs, Comp c) (hd : ∀ c ∈ ds, Comp c) :
    pathOf k cs = pathOf l ds ↔ k = l ∧ cs = ds := by
  constructor
  · intro h
    have e := congrArg initialSlashes h
    rw [initialSlashes_pathOf hk hc, initialSlashes_pathOf hl hd] at e
    subst e
    exact ⟨rfl, pathOf_inj hk hc hd h⟩
  · rintro ⟨rfl, rfl⟩; rfl

theorem demo_agrees : Agrees demoFs demoTree := by
  have comps : ∀ cs : List Str, (∀ c ∈ cs, Normal c) → ∀ c ∈ cs, Comp c := fun cs h c hc => (h c hc).1
  have d0 : ∀ c ∈ ([] : List Str), Comp c := by simp
  have d1 : ∀ c ∈ [c!"d"], Comp c := by unfold Comp; decide
  have d2 : ∀ c ∈ [c!"d", c!"x"], Comp c := by unfold Comp; decide
  have d3 : ∀ c ∈ [c!"d", c!"-rf"], Comp c := by unfold Comp; decide
  have one : (1 : Nat) = 1 ∨ (1 : Nat) = 2 := .inl rfl
  have two : (2 : Nat) = 1 ∨ (2 : Nat) = 2 := .inr rfl
  have nd : Normal c!"d" := by unfold Normal Comp; decide
  have nx : Normal c!"x" := by unfold Normal Comp; decide
  have nr : Normal c!"-rf" := by unfold Normal Comp; decide
  refine ⟨?_, ?_, ?_, ?_⟩
  · intro k cs n d hk hcs
    have hc := comps cs hcs
    have e0 : (pathOf k cs = c!"/" ∨ pathOf k cs = c!"//") ↔ cs = [] := by
      rw [show c!"//" = pathOf 2 [] from rfl, show c!"/" = pathOf 1 [] from rfl, pathOf_eq_iff hk one hc d0, pathOf_eq_iff hk two hc d0]
      rcases hk with rfl | rfl <;> simp
    have e1 : (pathOf k cs = c!"/d" ∨ pathOf k cs = c!"//d") ↔ cs = [c!"d"] := by
      rw [show c!"//d" = pathOf 2 [c!"d"] from rfl, show c!"/d" = pathOf 1 [c!"d"] from rfl, pathOf_eq_iff hk one hc d1, pathOf_eq_iff hk two hc d1]
      rcases hk with rfl | rfl <;> simp
    simp only [demoFs, e0, e1]
    rcases cs with _ | ⟨a, _ | ⟨b, cs⟩⟩
    · simp only [↓reduceIte, List.nil_append, demoTree, List.mem_singleton, Prod.mk.injEq]
      constructor
      · rintro ⟨rfl, rfl⟩; exact ⟨nd, by decide, by decide⟩
      · rintro ⟨_, h1, h2⟩
        have : n = c!"d" := by simpa using h1
        subst this
        exact ⟨rfl, h2⟩
    · by_cases ha : a = c!"d"
      · subst ha
        simp only [demoTree, List.mem_cons, Prod.mk.injEq]
        constructor
        · intro h
          simp at h
          rcases h with ⟨rfl, rfl⟩ | ⟨rfl, rfl⟩
          · exact ⟨nx, by decide, by decide⟩
          · exact ⟨nr, by decide, by decide⟩
        · rintro ⟨_, h1, h2⟩
          have : n = c!"x" ∨ n = c!"-rf" := by simpa using h1
          rcases this with rfl | rfl
          · subst h2; simp
          · subst h2; simp
      · simp [ha, demoTree]
    · simp [demoTree]
  · intro k cs hk hcs
    have hc := comps cs hcs
    have ex : ∀ (ds : List Str), (∀ c ∈ ds, Comp c) → (decide (pathOf k cs = pathOf 1 ds) || decide (pathOf k cs = pathOf 2 ds)) = decide (cs = ds) := by
      intro ds hd
      rw [Bool.eq_iff_iff]
      simp only [Bool.or_eq_true, decide_eq_true_eq, pathOf_eq_iff hk one hc hd, pathOf_eq_iff hk two hc hd]
      rcases hk with rfl | rfl <;> simp
    have key : demoFs.lexists (pathOf k cs) = ((decide (pathOf k cs = pathOf 1 []) || decide (pathOf k cs = pathOf 2 [])) ||
        ((decide (pathOf k cs = pathOf 1 [c!"d"]) || decide (pathOf k cs = pathOf 2 [c!"d"])) ||
        ((decide (pathOf k cs = pathOf 1 [c!"d", c!"x"]) || decide (pathOf k cs = pathOf 2 [c!"d", c!"x"])) ||
        (decide (pathOf k cs = pathOf 1 [c!"d", c!"-rf"]) || decide (pathOf k cs = pathOf 2 [c!"d", c!"-rf"]))))) := by
      rw [Bool.eq_iff_iff]
      simp only [demoFs, List.contains_eq_mem, List.mem_cons, List.not_mem_nil, or_false, decide_eq_true_eq, Bool.or_eq_true, or_assoc]
      rfl
    rw [key, ex _ d0, ex _ d1, ex _ d2, ex _ d3, Bool.eq_iff_iff]
    simp [demoTree]
  · refine ⟨by decide, ?_⟩
    intro k hk
    rcases hk with rfl | rfl <;> decide
  · intro cs n h
    rcases cs with _ | ⟨a, _ | ⟨b, cs⟩⟩
    · exact ⟨by decide, by decide⟩
    · have : a = c!"d" := by
        simp [demoTree] at h
        rcases h with h | h <;> exact h.1
      subst this
      exact ⟨by decide, by decide⟩
    · simp [demoTree] at h

/-- the hypotheses of `C26_expansion` and `C27_below_directory_partial` are satisfiable, with two files matching `*` -/
example : ∃ x : Ctx, x.cwd = pathOf 1 [c!"d"] ∧ Agrees x.fs demoTree ∧ (∀ p, ((x.fs.listdir p).map Prod.fst).Nodup) ∧ NormalPath x.cwd ∧ isAbs x.procCwd = true ∧
    hasMagic c!"*" = true ∧ '%' ∉ c!"*" ∧ isAbs c!"*" = false ∧ (c!"*").head? ≠ some '~' ∧ c!".." ∉ splitSlash c!"*" ∧
    expandArgument x c!"*" = .ok [c!"./x", c!"./-rf"] := by
  refine ⟨{ starCtx (fun _ _ => true) with fs := demoFs }, rfl, demo_agrees, ?_, ⟨1, [c!"d"], .inl rfl, ?_, rfl⟩, rfl, by decide, by decide, by decide, by decide, by decide, rfl⟩
  · intro p
    simp only [demoFs]
    split
    · decide
    · split <;> decide
  · unfold Normal Comp; decide

/-- C26: whatever the file system answers, words that do not come from the text of the argument start with `/` or `./`:
a file called `-rf` cannot become an option. -/
theorem C26_no_option_injection (x : Ctx) (hproc : isAbs x.procCwd = true) (ps : List Piece) (hp : ∀ p ∈ ps, p.Plain) (v : Str)
    (hv : values x.lookup ps = .ok v) (words : List Str) (h : expandArgument x (ps.flatMap Piece.source) = .ok words) :
    words = [expanduser x.homes v] ∨ ∀ w ∈ words, (∃ u, w = '/' :: u) ∨ ∃ u, w = '.' :: '/' :: u := by
  have hexp := expandArgument_eq (x := x) (arg := ps.flatMap Piece.source) (v := v) (by rw [pctFormat_pieces _ _ _ ps hp _ (by omega)]; exact hv)
  rw [hexp] at h
  have habs := glob_isAbs hproc (x := x) (expanduser x.homes v)
  have hhead : ∀ r, isAbs r = true → ∃ u, r = '/' :: u := by
    intro r hr
    cases r with
    | nil => cases hr
    | cons c u =>
      simp [isAbs] at hr
      exact ⟨u, by rw [hr]⟩
  split at h
  · split at h
    · left; injection h with h; exact h.symm
    · right
      split at h <;> injection h with h <;> subst h
      · intro w hw
        obtain ⟨r, hr, rfl⟩ := List.mem_map.1 hw
        unfold relName
        split
        · exact .inr ⟨_, rfl⟩
        · exact .inl (hhead r (habs r hr))
      · intro w hw
        exact .inl (hhead w (habs w hw))
  · left; injection h with h; exact h.symm

/-! ## C27 -/

theorem normComps_up {k : Nat} (hk : k ≠ 0) : ∀ (ws acc : List Str) (m : Nat) (qs : List Str), (∀ c ∈ acc, c ≠ c!"..") →
    ws.filter (fun w => w ≠ [] ∧ w ≠ c!".") = List.replicate m c!".." ++ qs → c!".." ∉ qs → normComps k acc ws = (acc.drop m).reverse ++ qs
  | [], acc, m, qs, _, hf, _ => by
    have hf : [] = List.replicate m c!".." ++ qs := hf
    cases m with
    | zero => simp at hf; simp [normComps, hf]
    | succ m => simp [List.replicate_succ] at hf
  | w :: ws, acc, m, qs, ha, hf, hq => by
    by_cases hw : w ≠ [] ∧ w ≠ c!"."
    · rw [List.filter_cons, if_pos (by simpa using hw)] at hf
      have h1 : ¬ (w = [] ∨ w = c!".") := by rintro (h | h); exact hw.1 h; exact hw.2 h
      cases m with
      | zero =>
        simp only [List.replicate_zero, List.nil_append] at hf
        subst hf
        have hwd : w ≠ c!".." := fun e => hq (by simp [e])
        rw [normComps, if_neg h1, if_pos (.inl hwd), normComps_up hk ws (w :: acc) 0 _ (by intro c hc; simp at hc; rcases hc with rfl | hc; exact hwd; exact ha c hc) (by simp)
          (fun h => hq (List.mem_cons_of_mem _ h))]
        simp
      | succ m =>
        simp only [List.replicate_succ, List.cons_append, List.cons.injEq] at hf
        obtain ⟨rfl, hf⟩ := hf
        have h2 : ¬ (c!".." ≠ c!".." ∨ (k = 0 ∧ acc = []) ∨ acc.head? = some c!"..") := by
          rintro (h | h | h)
          · exact h rfl
          · exact hk h.1
          · exact ha _ (List.mem_of_mem_head? (by rw [h]; rfl)) rfl
        rw [normComps, if_neg h1, if_neg h2, normComps_up hk ws acc.tail m qs (fun c hc => ha c (List.mem_of_mem_tail hc)) hf hq]
        simp [List.drop_tail]
    · rw [List.filter_cons, if_neg (by simpa using hw)] at hf
      have h1 : w = [] ∨ w = c!"." := by
        by_cases h : w = []
        · exact .inl h
        · exact .inr (Classical.not_not.1 (fun h2 => hw ⟨h, h2⟩))
      rw [normComps, if_pos h1]
      exact normComps_up hk ws acc m qs ha hf hq

theorem normComps_pair {k : Nat} (hk : k ≠ 0) (a : Str) (ha : a ≠ [] ∧ a ≠ c!"." ∧ a ≠ c!"..") (r : List Str) :
    ∀ (l acc : List Str), (∀ c ∈ acc, c ≠ c!"..") → normComps k acc (l ++ a :: c!".." :: r) = normComps k acc (l ++ r)
  | [], acc, _ => by
    show normComps k acc (a :: c!".." :: r) = normComps k acc r
    have h1 : ¬ (a = [] ∨ a = c!".") := by rintro (h | h); exact ha.1 h; exact ha.2.1 h
    have h2 : ¬ (c!".." = [] ∨ c!".." = c!".") := by decide
    have h3 : ¬ (c!".." ≠ c!".." ∨ (k = 0 ∧ a :: acc = []) ∨ (a :: acc).head? = some c!"..") := by
      rintro (h | h | h)
      · exact h rfl
      · exact hk h.1
      · simp only [List.head?_cons, Option.some.injEq] at h; exact ha.2.2 h
    rw [normComps, if_neg h1, if_pos (.inl ha.2.2), normComps, if_neg h2, if_neg h3, List.tail_cons]
  | w :: l, acc, hacc => by
    rw [List.cons_append, List.cons_append, normComps, normComps]
    split
    · exact normComps_pair hk a ha r l acc hacc
    · split
      · rename_i h1 h2
        refine normComps_pair hk a ha r l (w :: acc) ?_
        intro c hc
        rcases List.mem_cons.1 hc with rfl | hc
        · rintro rfl
          rcases h2 with h | h | h
          · exact h rfl
          · exact hk h.1
          · exact hacc _ (List.mem_of_mem_head? (by rw [h]; rfl)) rfl
        · exact hacc c hc
      · exact normComps_pair hk a ha r l acc.tail (fun c hc => hacc c (List.mem_of_mem_tail hc))

/-- Empty components and `.` do not count. -/
theorem normComps_keep {k : Nat} : ∀ (ws acc : List Str), normComps k acc (ws.filter (fun w => w ≠ [] ∧ w ≠ c!".")) = normComps k acc ws
  | [], _ => rfl
  | w :: ws, acc => by
    by_cases hw : w ≠ [] ∧ w ≠ c!"."
    · rw [List.filter_cons, if_pos (by simpa using hw)]
      have h1 : ¬ (w = [] ∨ w = c!".") := by rintro (h | h); exact hw.1 h; exact hw.2 h
      rw [normComps, normComps, if_neg h1, if_neg h1]
      split
      · exact normComps_keep ws _
      · exact normComps_keep ws _
    · rw [List.filter_cons, if_neg (by simpa using hw)]
      have h1 : w = [] ∨ w = c!"." := by
        by_cases h : w = []
        · exact .inl h
        · exact .inr (Classical.not_not.1 (fun h2 => hw ⟨h, h2⟩))
      rw [normComps, if_pos h1]
      exact normComps_keep ws acc

theorem normComps_cancel {k : Nat} (hk : k ≠ 0) {l x : List Str} (h : Cancel l x) (hl : ∀ c ∈ l, c ≠ [] ∧ c ≠ c!".") (acc : List Str)
    (hacc : ∀ c ∈ acc, c ≠ c!"..") : normComps k acc l = normComps k acc x := by
  induction h with
  | refl => rfl
  | step l a r x ha _ ih =>
    have h2 := hl a (by simp)
    rw [normComps_pair hk a ⟨h2.1, h2.2, ha⟩ r l acc hacc]
    exact ih (fun c hc => hl c (by
      simp only [List.mem_append, List.mem_cons] at hc ⊢
      rcases hc with h | h
      · exact .inl h
      · exact .inr (.inr (.inr h))))

theorem cancel_sub {l x : List Str} (h : Cancel l x) : ∀ c ∈ x, c ∈ l := by
  induction h with
  | refl => exact fun c h => h
  | step l a r x _ _ ih =>
    intro c hc
    have := ih c hc
    simp only [List.mem_append, List.mem_cons] at this ⊢
    rcases this with h | h
    · exact .inl h
    · exact .inr (.inr (.inr h))

/-- C27, the part that holds: a relative pattern, which may contain `..` anywhere, is brought into the form `../../qs` first (a component followed by `..` is removed
together with it; every pattern has such a form: `cancel_total`), and matches the files below the directory that the leading `..` lead to (the environment's directory
without its last components, or the root), if no component of that directory contains a wild card: each word names the path of that
directory followed by names matching the components of the pattern, and all files matching this way are found. -/
theorem C27_dotdot_partial (x : Ctx) (t : Tree) (ha : Agrees x.fs t) (hn : ∀ p, ((x.fs.listdir p).map Prod.fst).Nodup)
    (hproc : isAbs x.procCwd = true) (k : Nat) (full : List Str) (hk : k = 1 ∨ k = 2) (hfull : ∀ c ∈ full, Normal c)
    (hcwd : x.cwd = pathOf k full)
    (q : Str) (hpct : '%' ∉ q) (hrel : isAbs q = false) (htilde : q.head? ≠ some '~') (hm : hasMagic q = true)
    (ups : Nat) (qs : List Str) (hups : Cancel ((splitSlash q).filter (fun w => w ≠ [] ∧ w ≠ c!".")) (List.replicate ups c!".." ++ qs)) (hdots : c!".." ∉ qs)
    (cs : List Str) (hbase : cs = full.take (full.length - ups)) (hmc : cs.any hasMagic = false)
    (words : List Str) (hw : expandArgument x q = .ok words) :
    (words = [q] ∧ ∀ rs, (∀ c ∈ rs, Normal c) → Pointwise (CompMatch x.fnm) qs rs → t.exists (cs ++ rs) = false) ∨
    ((∀ w ∈ words, ∃ rs, Pointwise (CompMatch x.fnm) qs rs ∧ t.exists (cs ++ rs) = true ∧ abspath x.cwd w = pathOf k (cs ++ rs)) ∧
     ∀ rs, (∀ c ∈ rs, Normal c) → Pointwise (CompMatch x.fnm) qs rs → t.exists (cs ++ rs) = true → ∃ w ∈ words, abspath x.cwd w = pathOf k (cs ++ rs)) := by
  have hcs : ∀ c ∈ cs, Normal c := fun c hc => hfull c (List.mem_of_mem_take (hbase ▸ hc))
  have hqs : ∀ c ∈ qs, c ∈ (splitSlash q).filter (fun w => w ≠ [] ∧ w ≠ c!".") := fun c hc => cancel_sub hups c (by simp [hc])
  have hres : abspath x.cwd q = pathOf k (cs ++ qs) := by
    unfold abspath
    rw [if_neg (by simp [hrel]), hcwd, normpath_join hk hfull hrel,
      ← normComps_keep, normComps_cancel (by omega) hups (fun c hc => by simpa using (List.mem_filter.1 hc).2) _
        (fun c hc => (hfull c (List.mem_reverse.1 hc)).2.2),
      normComps_up (by omega) _ _ ups qs (fun c hc => (hfull c (List.mem_reverse.1 hc)).2.2) (List.filter_eq_self.2 (by
        intro c hc
        simpa using (List.mem_filter.1 (cancel_sub hups c hc)).2)) hdots]
    congr 2
    rw [hbase, List.reverse_drop, List.reverse_reverse, List.length_reverse]
  have hqn : ∀ c ∈ cs ++ qs, Normal c := by
    intro c hc
    rcases List.mem_append.1 hc with h | h
    · exact hcs c h
    · obtain ⟨h1, h2⟩ := List.mem_filter.1 (hqs c h)
      have h2 : c ≠ [] ∧ c ≠ c!"." := by simpa using h2
      exact ⟨⟨h2.1, splitSlash_noslash q c h1⟩, h2.2, by rintro rfl; exact hdots h⟩
  have hc : NormalPath x.cwd := ⟨k, full, hk, hfull, hcwd⟩
  have hpieces : [Piece.lit q].flatMap Piece.source = q := by
    have : ∀ s : Str, '%' ∉ s → double s = s := by
      intro s
      induction s with
      | nil => intro _; rfl
      | cons c s ih =>
        intro h
        simp only [List.mem_cons, not_or] at h
        have hc : c ≠ '%' := fun e => h.1 e.symm
        have := ih h.2
        simp only [double, List.flatMap_cons, hc, ↓reduceIte, List.singleton_append] at this ⊢
        rw [this]
    rw [← double_length]
    exact this q hpct
  have hmain := C26_expansion x t ha hn hc hproc [.lit q] (by intro p hp; simp at hp; subst hp; trivial) q (by simp [values, prepend]) q
    (expanduser_plain htilde) htilde hm _ rfl
  rw [hpieces] at hmain
  obtain ⟨m1, m2, m3⟩ := hmain
  obtain ⟨_, m3⟩ := m3 k (cs ++ qs) hk hqn hres
  have hsplit : ∀ rs, Pointwise (CompMatch x.fnm) (cs ++ qs) rs ↔ ∃ rs', rs = cs ++ rs' ∧ Pointwise (CompMatch x.fnm) qs rs' := by
    intro rs
    clear m1 m2 m3 hqn hres hcwd hc hqs hups hdots hcs hbase
    induction cs generalizing rs with
    | nil => simp
    | cons c cs ih =>
      simp only [List.any_cons, Bool.or_eq_false_iff] at hmc
      constructor
      · intro h
        cases h with
        | @cons _ r _ rs h1 h2 =>
          obtain ⟨rs', rfl, h3⟩ := (ih hmc.2 rs).1 h2
          simp only [CompMatch, wild_eq, hmc.1] at h1
          simp at h1
          exact ⟨rs', by rw [h1]; rfl, h3⟩
      · rintro ⟨rs', rfl, h⟩
        exact .cons (by simp [CompMatch, wild_eq, hmc.1]) ((ih hmc.2 _).2 ⟨rs', rfl, h⟩)
  have hmem : ∀ r, r ∈ glob x.fnm x.fs (abspath x.cwd q) ↔
      ∃ rs, (∀ c ∈ rs, Normal c) ∧ r = pathOf k (cs ++ rs) ∧ Pointwise (CompMatch x.fnm) qs rs ∧ t.exists (cs ++ rs) = true := by
    intro r
    rw [m3 r]
    constructor
    · rintro ⟨rs, h1, h2, h3, h4⟩
      obtain ⟨rs', rfl, h5⟩ := (hsplit rs).1 h3
      exact ⟨rs', fun c hc => h1 c (by simp [hc]), h2, h5, h4⟩
    · rintro ⟨rs, h1, h2, h3, h4⟩
      refine ⟨cs ++ rs, ?_, h2, (hsplit _).2 ⟨rs, rfl, h3⟩, h4⟩
      intro c hc
      rcases List.mem_append.1 hc with h | h
      · exact hcs c h
      · exact h1 c h
  by_cases hf : glob x.fnm x.fs (abspath x.cwd q) = []
  · left
    have := m1 hf
    rw [hw] at this
    injection this with this
    refine ⟨this, ?_⟩
    intro rs h1 h2
    cases he : t.exists (cs ++ rs) with
    | false => rfl
    | true =>
      have := (hmem (pathOf k (cs ++ rs))).2 ⟨rs, h1, rfl, h2, he⟩
      rw [hf] at this
      simp at this
  · right
    obtain ⟨ws, e, hpw⟩ := m2 hf
    rw [hw] at e
    injection e with e
    subst e
    refine ⟨?_, ?_⟩
    · intro w hww
      obtain ⟨r, hr, h1, _⟩ := pointwise_right hpw w hww
      obtain ⟨rs, _, h3, h4, h5⟩ := (hmem r).1 hr
      exact ⟨rs, h4, h5, by rw [h1, h3]⟩
    · intro rs h1 h2 h3
      have := (hmem (pathOf k (cs ++ rs))).2 ⟨rs, h1, rfl, h2, h3⟩
      obtain ⟨w, hw1, h4, _⟩ := pointwise_left hpw _ this
      exact ⟨w, hw1, h4⟩

/-- the pattern `q*/.././*`, in the directory `/d`: nothing in it matches `q*`, and yet it finds what `*` finds -/
example : ∃ x : Ctx, x.cwd = pathOf 1 [c!"d"] ∧ Agrees x.fs demoTree ∧ (∀ p, ((x.fs.listdir p).map Prod.fst).Nodup) ∧ isAbs x.procCwd = true ∧
    Cancel ((splitSlash c!"q*/.././*").filter (fun w => w ≠ [] ∧ w ≠ c!".")) (List.replicate 0 c!".." ++ [c!"*"]) ∧ [c!"d"].take (1 - 0) = [c!"d"] ∧
    expandArgument x c!"q*/.././*" = expandArgument x c!"*" := by
  refine ⟨{ starCtx (fun _ _ => true) with fs := demoFs }, rfl, demo_agrees, ?_, rfl, .step [] c!"q*" [c!"*"] _ (by decide) (.refl _), rfl, rfl⟩
  intro p
  simp only [demoFs]
  split
  · decide
  · split <;> decide

/-- C27, the same for a pattern that begins with any number of `..` and has no others. -/
theorem C27_upwards_partial (x : Ctx) (t : Tree) (ha : Agrees x.fs t) (hn : ∀ p, ((x.fs.listdir p).map Prod.fst).Nodup)
    (hproc : isAbs x.procCwd = true) (k : Nat) (full : List Str) (hk : k = 1 ∨ k = 2) (hfull : ∀ c ∈ full, Normal c)
    (hcwd : x.cwd = pathOf k full)
    (q : Str) (hpct : '%' ∉ q) (hrel : isAbs q = false) (htilde : q.head? ≠ some '~') (hm : hasMagic q = true)
    (ups : Nat) (qs : List Str) (hups : (splitSlash q).filter (fun w => w ≠ [] ∧ w ≠ c!".") = List.replicate ups c!".." ++ qs) (hdots : c!".." ∉ qs)
    (cs : List Str) (hbase : cs = full.take (full.length - ups)) (hmc : cs.any hasMagic = false)
    (words : List Str) (hw : expandArgument x q = .ok words) :
    (words = [q] ∧ ∀ rs, (∀ c ∈ rs, Normal c) → Pointwise (CompMatch x.fnm) qs rs → t.exists (cs ++ rs) = false) ∨
    ((∀ w ∈ words, ∃ rs, Pointwise (CompMatch x.fnm) qs rs ∧ t.exists (cs ++ rs) = true ∧ abspath x.cwd w = pathOf k (cs ++ rs)) ∧
     ∀ rs, (∀ c ∈ rs, Normal c) → Pointwise (CompMatch x.fnm) qs rs → t.exists (cs ++ rs) = true → ∃ w ∈ words, abspath x.cwd w = pathOf k (cs ++ rs)) := by
  exact C27_dotdot_partial x t ha hn hproc k full hk hfull hcwd q hpct hrel htilde hm ups qs (by rw [hups]; exact .refl _) hdots cs hbase hmc words hw

/-- the pattern `../*`, in the directory `/d` -/
example : ∃ x : Ctx, x.cwd = pathOf 1 [c!"d"] ∧ Agrees x.fs demoTree ∧ (∀ p, ((x.fs.listdir p).map Prod.fst).Nodup) ∧ isAbs x.procCwd = true ∧
    (splitSlash c!"../*").filter (fun w => w ≠ [] ∧ w ≠ c!".") = List.replicate 1 c!".." ++ [c!"*"] ∧ [c!"d"].take (1 - 1) = [] ∧
    expandArgument x c!"../*" = .ok [c!"/d"] := by
  refine ⟨{ starCtx (fun _ _ => true) with fs := demoFs }, rfl, demo_agrees, ?_, rfl, by decide, rfl, rfl⟩
  intro p
  simp only [demoFs]
  split
  · decide
  · split <;> decide

/-- C27, the same for a pattern without `..`: it only matches files below the environment's directory. -/
theorem C27_below_directory_partial (x : Ctx) (t : Tree) (ha : Agrees x.fs t) (hn : ∀ p, ((x.fs.listdir p).map Prod.fst).Nodup)
    (hproc : isAbs x.procCwd = true) (k : Nat) (cs : List Str) (hk : k = 1 ∨ k = 2) (hcs : ∀ c ∈ cs, Normal c)
    (hcwd : x.cwd = pathOf k cs) (hmc : cs.any hasMagic = false)
    (q : Str) (hpct : '%' ∉ q) (hrel : isAbs q = false) (htilde : q.head? ≠ some '~') (hm : hasMagic q = true)
    (qs : List Str) (hqs : qs = (splitSlash q).filter (fun w => w ≠ [] ∧ w ≠ c!".")) (hdots : c!".." ∉ splitSlash q)
    (words : List Str) (hw : expandArgument x q = .ok words) :
    (words = [q] ∧ ∀ rs, (∀ c ∈ rs, Normal c) → Pointwise (CompMatch x.fnm) qs rs → t.exists (cs ++ rs) = false) ∨
    ((∀ w ∈ words, ∃ rs, Pointwise (CompMatch x.fnm) qs rs ∧ t.exists (cs ++ rs) = true ∧ abspath x.cwd w = pathOf k (cs ++ rs)) ∧
     ∀ rs, (∀ c ∈ rs, Normal c) → Pointwise (CompMatch x.fnm) qs rs → t.exists (cs ++ rs) = true → ∃ w ∈ words, abspath x.cwd w = pathOf k (cs ++ rs)) := by
  exact C27_upwards_partial x t ha hn hproc k cs hk hcs hcwd q hpct hrel htilde hm 0 qs (by rw [hqs]; simp) (by
    rw [hqs]; intro h; exact hdots (List.mem_filter.1 h).1) cs (by simp) hmc words hw

/-- Two directories, `[a]` and `a`; the environment is in `[a]`. -/
def bracketCtx (fnm : Str → Str → Bool) : Ctx where
  cwd := c!"/[a]"
  procCwd := c!"/[a]"
  lookup _ := .error .keyError
  scopeText := c!"{}"
  homes := { own := some c!"/root", named := fun _ => none }
  fs := { listdir := fun p => if p = c!"/" then [(c!"[a]", true), (c!"a", true)] else if p = c!"/a" then [(c!"y", false)]
            else if p = c!"/[a]" then [(c!"x", false)] else [],
          lexists := fun _ => true, isdir := fun _ => true }
  fnm := fnm

/-- C27 is false: in a directory called `[a]`, the pattern `*` lists the directory `a` instead (`fnmatch` matches the
name `a`, and not the name `[a]`, with the pattern `[a]`). -/
theorem C27_refuted (fnm : Str → Str → Bool) (h1 : fnm c!"a" c!"[a]" = true) (h2 : fnm c!"[a]" c!"[a]" = false) (h3 : fnm c!"y" c!"*" = true) :
    expandArgument (bracketCtx fnm) c!"*" = .ok [c!"/a/y"] := by
  rw [expandArgument_eq (v := c!"*") rfl]
  have e2 : glob (bracketCtx fnm).fnm (bracketCtx fnm).fs (expandPath (bracketCtx fnm).cwd (bracketCtx fnm).procCwd (bracketCtx fnm).homes (expanduser (bracketCtx fnm).homes c!"*")) = [c!"/a/y"] := by
    have : expandPath (bracketCtx fnm).cwd (bracketCtx fnm).procCwd (bracketCtx fnm).homes (expanduser (bracketCtx fnm).homes c!"*") = c!"/[a]/*" := rfl
    rw [this]
    show glob fnm (bracketCtx fnm).fs c!"/[a]/*" = _
    have hd : iglob fnm (bracketCtx fnm).fs 6 c!"/[a]" true = [c!"/a"] := by
      show (List.map _ (List.filter (fun x => fnm x c!"[a]") [c!"[a]", c!"a"])) ++ [] = _
      simp [h1, h2]
      rfl
    show (iglob fnm (bracketCtx fnm).fs 6 c!"/[a]" true).flatMap _ = _
    rw [hd]
    show (List.map _ (List.filter (fun x => fnm x c!"*") [c!"y"])) ++ [] = _
    simp [h3]
    rfl
  rw [e2]
  rfl

end Pieshell.Expand
