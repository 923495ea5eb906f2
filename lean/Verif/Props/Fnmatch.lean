import Verif.Lemmas.Fnmatch
import Verif.Lemmas.DemoTree
import Verif.Props.Expand
/-!
# C98: what wild cards stand for
-/
namespace Pieshell.Expand
open Pieshell.Path Pieshell.Cmd Pieshell.Fnm

/-- **C98, patterns.** Python's `fnmatch` finds exactly the names a pattern stands for, for every pattern without empty
ranges. -/
theorem C98_patterns_partial (p : Str) (hp : Proper p) (name : Str) : fnmatch name p = true ↔ Wild p name :=
  match_iff hp _ (Nat.le_refl _) name

/-- a pattern without `[` has no empty ranges -/
theorem proper_of_no_bracket {p : Str} (h : '[' ∉ p) : Proper p := by
  induction p with
  | nil => exact .done
  | cons c p ih =>
    simp only [List.mem_cons, not_or] at h
    exact .other c (Ne.symm h.1) (ih h.2)

/-- `img[0-9][!ab]*.p?g` -/
example : Proper c!"img[0-9][!ab]*.p?g" ∧ Wild c!"img[0-9][!ab]*.p?g" c!"img7c.png" ∧ ¬ Wild c!"img[0-9][!ab]*.p?g" c!"img7a.png" := by
  have hp : Proper c!"img[0-9][!ab]*.p?g" := by
    refine .other _ (by decide) (.other _ (by decide) (.other _ (by decide) ?_))
    refine .set '0' c!"-9" (by decide) (by decide) (by decide) ?_
    refine .nset 'a' c!"b" (by decide) (by decide) ?_
    exact proper_of_no_bracket (by decide)
  exact ⟨hp, (C98_patterns_partial _ hp _).1 (by decide), fun h => absurd ((C98_patterns_partial _ hp _).2 h) (by decide)⟩

/-- C98 is false for brackets with an empty range (a defect of `fnmatch`): `[b-a!c]` stands for the characters `!` and
`c`, but finds all others instead. -/
theorem C98_refuted_empty_range : fnmatch c!"x" c!"[b-a!c]" = true ∧ ¬ Wild c!"[b-a!c]" c!"x" ∧ fnmatch c!"c" c!"[b-a!c]" = false ∧ Wild c!"[b-a!c]" c!"c" := by
  have key : ∀ n, Wild c!"[b-a!c]" n ↔ _ := fun n => wild_set (x := 'b') (ys := c!"-a!c") (p := []) (n := n) (by decide) (by decide)
  refine ⟨by decide, ?_, by decide, ?_⟩
  · rw [key]
    rintro ⟨c, s, h, h1, -⟩
    cases h
    revert h1
    simp only [InBrackets]
    decide
  · rw [key]
    refine ⟨_, _, rfl, ?_, .done⟩
    exact ⟨('c', 'c'), by decide, by decide, by decide⟩

/-! ### quoting -/

/-- a name written so that no character of it is a wild card (what `glob.escape` does) -/
def quote (s : Str) : Str := s.flatMap (fun c => if c = '*' ∨ c = '?' ∨ c = '[' then ['[', c, ']'] else [c])

theorem quote_cons (c : Char) (s : Str) : quote (c :: s) = (if c = '*' ∨ c = '?' ∨ c = '[' then ['[', c, ']'] else [c]) ++ quote s := rfl

theorem quote_proper (s : Str) : Proper (quote s) := by
  induction s with
  | nil => exact .done
  | cons c s ih =>
    rw [quote_cons]
    split
    · rename_i h
      exact .set c [] (by rintro rfl; revert h; decide) (by simp) (by intro r hr; simp [readRanges] at hr; subst hr; exact Char.le_refl _) ih
    · rename_i h
      exact .other c (by rintro rfl; simp at h) ih

/-- **C98, quoting.** Every name can be quoted: the quoted name is a pattern for this name only. -/
theorem C98_quote (s n : Str) : Wild (quote s) n ↔ n = s := by
  induction s generalizing n with
  | nil => exact ⟨fun h => by cases h; rfl, by rintro rfl; exact .done⟩
  | cons c s ih =>
    rw [quote_cons]
    split
    · rename_i h
      rw [show ['[', c, ']'] ++ quote s = '[' :: c :: [] ++ ']' :: quote s from rfl, wild_set (by rintro rfl; revert h; decide) (by simp)]
      simp only [ih, InBrackets, readRanges, List.mem_singleton]
      constructor
      · rintro ⟨d, t, rfl, ⟨r, rfl, h1, h2⟩, rfl⟩
        have e : c = d := Char.le_antisymm h1 h2
        subst e; rfl
      · rintro rfl
        exact ⟨_, _, rfl, ⟨_, rfl, Char.le_refl _, Char.le_refl _⟩, rfl⟩
    · rename_i h
      simp only [not_or] at h
      rw [show [c] ++ quote s = c :: quote s from rfl, wild_lit h.1 h.2.1 h.2.2]
      simp only [ih]
      constructor
      · rintro ⟨t, rfl, rfl⟩; rfl
      · rintro rfl; exact ⟨_, rfl, rfl⟩

theorem C98_fnmatch_quote (s n : Str) : fnmatch n (quote s) = true ↔ n = s := by
  rw [C98_patterns_partial _ (quote_proper s), C98_quote]

example : quote c!"[x]*.?" = c!"[[]x][*].[?]" := rfl

/-! ### one directory -/

theorem pointwise_literal_append {fnm : Str → Str → Bool} {cs qs rs : List Str} (hmc : cs.any hasMagic = false) :
    Pointwise (CompMatch fnm) (cs ++ qs) rs ↔ ∃ rs', rs = cs ++ rs' ∧ Pointwise (CompMatch fnm) qs rs' := by
  induction cs generalizing rs with
  | nil => simp
  | cons c cs ih =>
    simp only [List.any_cons, Bool.or_eq_false_iff] at hmc
    constructor
    · intro h
      cases h with
      | @cons _ r _ rs h1 h2 =>
        obtain ⟨rs', rfl, h3⟩ := (ih hmc.2).1 h2
        simp only [CompMatch, wild_eq, hmc.1] at h1
        simp at h1
        exact ⟨rs', by rw [h1]; rfl, h3⟩
    · rintro ⟨rs', rfl, h⟩
      exact .cons (by simp [CompMatch, wild_eq, hmc.1]) ((ih hmc.2).2 ⟨rs', rfl, h⟩)

theorem nodup_map_of_inj {α β : Type} {f : α → β} {l : List α} (h : l.Nodup) (hf : ∀ a ∈ l, ∀ b ∈ l, f a = f b → a = b) : (l.map f).Nodup := by
  induction l with
  | nil => simp
  | cons a l ih =>
    rw [List.nodup_cons] at h
    rw [List.map_cons, List.nodup_cons]
    refine ⟨?_, ih h.2 (fun a ha b hb => hf a (by simp [ha]) b (by simp [hb]))⟩
    rw [List.mem_map]
    rintro ⟨b, hb, e⟩
    exact h.1 (hf b (by simp [hb]) a (by simp) e ▸ hb)


/-- the names in the directory `cs` that the pattern `q` finds: those it stands for; hidden ones only if it starts
with a dot itself -/
def FoundIn (t : Tree) (cs : List Str) (q r : Str) : Prop :=
  Normal r ∧ t.exists (cs ++ [r]) = true ∧ Wild q r ∧ (r.head? = some '.' → q.head? = some '.')

/-- **C98, a directory.** In an environment whose directory has no wild card in its path, an argument that is a pattern
without `/` becomes `./name` (in the root directory: `/name`) for exactly the names in that directory the pattern stands
for, each once; if there are none it stays as it is. -/
theorem C98_directory_partial (x : Ctx) (hfnm : x.fnm = fnmatch) (t : Tree) (ha : Agrees x.fs t) (hn : ∀ p, ((x.fs.listdir p).map Prod.fst).Nodup)
    (k : Nat) (cs : List Str) (hk : k = 1 ∨ k = 2) (hcs : ∀ c ∈ cs, Normal c) (hcwd : x.cwd = pathOf k cs) (hmc : cs.any hasMagic = false)
    (q : Str) (hslash : '/' ∉ q) (hpct : '%' ∉ q) (htilde : q.head? ≠ some '~') (hm : hasMagic q = true) (hp : Proper q) :
    ∃ words, expandArgument x q = .ok words ∧ words.Nodup ∧
      ((∀ r, ¬ FoundIn t cs q r) → words = [q]) ∧
      ((∃ r, FoundIn t cs q r) → ∀ w, w ∈ words ↔ ∃ r, FoundIn t cs q r ∧ w = if cs = [] then pathOf k [r] else c!"./" ++ r) := by
  have hc : NormalPath x.cwd := ⟨k, cs, hk, hcs, hcwd⟩
  have hqne : q ≠ [] := by rintro rfl; simp [hasMagic] at hm
  have hq1 : q ≠ c!"." := by rintro rfl; revert hm; decide
  have hq2 : q ≠ c!".." := by rintro rfl; revert hm; decide
  have hqn : Normal q := ⟨⟨hqne, hslash⟩, hq1, hq2⟩
  have hrel : isAbs q = false := by
    cases q with
    | nil => rfl
    | cons c q => simp only [List.mem_cons, not_or] at hslash; simp [isAbs, Ne.symm hslash.1]
  have hres : abspath x.cwd q = pathOf k (cs ++ [q]) := by
    unfold abspath
    rw [if_neg (by simp [hrel]), hcwd, normpath_join hk hcs hrel, normComps_filter]
    · rw [List.reverse_reverse, splitSlash_single hslash]
      simp [hqne, hq1]
    · intro w hw e
      rw [splitSlash_single hslash, List.mem_singleton] at hw
      exact hq2 (hw ▸ e)
  have hpath : expandPath x.cwd x.procCwd x.homes q = abspath x.cwd q := expandPath_eq hc.isAbs htilde
  have hpieces : [Piece.lit q].flatMap Piece.source = q := by
    have : ∀ s : Str, '%' ∉ s → double s = s := by
      intro s
      induction s with
      | nil => intro _; rfl
      | cons c s ih =>
        intro h
        simp only [List.mem_cons, not_or] at h
        have hc : c ≠ '%' := fun e => h.1 e.symm
        have := ih h.2
        simp only [double, List.flatMap_cons, hc, ↓reduceIte, List.singleton_append] at this ⊢
        rw [this]
    rw [← double_length]
    exact this q hpct
  have hexp := expandArgument_eq (x := x) (arg := [Piece.lit q].flatMap Piece.source) (v := q) (by
    rw [pctFormat_pieces _ _ _ [.lit q] (by intro p hp; simp at hp; subst hp; trivial) _ (by omega)]; simp [values, prepend])
  rw [hpieces, expanduser_plain htilde, hm, hpath, hres] at hexp
  simp only [↓reduceIte] at hexp
  have hall : ∀ c ∈ cs ++ [q], Normal c := by
    intro c h
    rcases List.mem_append.1 h with h | h
    · exact hcs c h
    · rw [List.mem_singleton] at h; subst h; exact hqn
  have hnd := glob_nodup (fnm := x.fnm) ha hn hk hall
  have hmem : ∀ r, r ∈ glob x.fnm x.fs (pathOf k (cs ++ [q])) ↔ ∃ n, FoundIn t cs q n ∧ r = pathOf k (cs ++ [n]) := by
    intro r
    rw [glob_spec_all ha hk hall]
    constructor
    · rintro ⟨rs, h1, h2, h3, h4⟩
      obtain ⟨rs', rfl, h5⟩ := (pointwise_literal_append hmc).1 h3
      cases h5 with
      | @cons _ n _ rs h6 h7 =>
        cases h7
        simp only [CompMatch, wild_eq, hm, ↓reduceIte, hfnm] at h6
        exact ⟨n, ⟨h1 n (by simp), h4, (C98_patterns_partial q hp n).1 h6.1, h6.2⟩, h2⟩
    · rintro ⟨n, ⟨h1, h2, h3, h4⟩, rfl⟩
      refine ⟨cs ++ [n], ?_, rfl, (pointwise_literal_append hmc).2 ⟨[n], rfl, .cons ?_ .nil⟩, h2⟩
      · intro c h
        rcases List.mem_append.1 h with h | h
        · exact hcs c h
        · rw [List.mem_singleton] at h; subst h; exact h1
      · simp only [CompMatch, wild_eq, hm, ↓reduceIte, hfnm]
        exact ⟨(C98_patterns_partial q hp n).2 h3, h4⟩
  have hname : ∀ n, Normal n → relName x.cwd (pathOf k (cs ++ [n])) = if cs = [] then pathOf k [n] else c!"./" ++ n := by
    intro n hn
    unfold relName
    rw [hcwd]
    by_cases h : cs = []
    · subst h
      rw [if_neg]
      · rfl
      · rw [startsWith_iff]
        rintro ⟨u, e⟩
        have hne : n ≠ [] := hn.1.1
        have hns : '/' ∉ n := hn.1.2
        have e : List.replicate k '/' ++ n = List.replicate k '/' ++ ('/' :: u) := by simpa [pathOf, joinSlash] using e
        have := List.append_cancel_left e
        exact hns (by rw [this]; simp)
    · have e : pathOf k (cs ++ [n]) = (pathOf k cs ++ c!"/") ++ n := by
        unfold pathOf
        rw [joinSlash_snoc h]
        simp
      rw [if_pos (startsWith_iff.2 ⟨n, e⟩), e, List.drop_left, if_neg h]
  by_cases hf : glob x.fnm x.fs (pathOf k (cs ++ [q])) = []
  · rw [if_pos hf] at hexp
    refine ⟨_, hexp, by simp, fun _ => rfl, ?_⟩
    rintro ⟨r, hr⟩
    have := (hmem (pathOf k (cs ++ [r]))).2 ⟨r, hr, rfl⟩
    rw [hf] at this
    simp at this
  · rw [if_neg hf] at hexp
    have hno : ¬ ∀ r, ¬ FoundIn t cs q r := by
      intro h
      obtain ⟨r, hr⟩ := List.exists_mem_of_ne_nil _ hf
      obtain ⟨n, hn, _⟩ := (hmem r).1 hr
      exact h n hn
    by_cases hroot : x.cwd = c!"/"
    · rw [if_neg (by simpa using hroot)] at hexp
      refine ⟨_, hexp, hnd, fun h => absurd h hno, fun _ w => ?_⟩
      have : cs = [] := by
        have hcc : ∀ c ∈ cs, Comp c := fun c h => (hcs c h).1
        have e : pathOf k cs = pathOf 1 [] := by rw [← hcwd, hroot]; rfl
        exact ((pathOf_eq_iff hk (.inl rfl) hcc (by simp)).1 e).2
      subst this
      rw [hmem]
      simp
    · rw [if_pos hroot] at hexp
      refine ⟨_, hexp, ?_, fun h => absurd h hno, fun _ w => ?_⟩
      · refine nodup_map_of_inj hnd (fun a ha' b hb e => ?_)
        obtain ⟨m, hm1, rfl⟩ := (hmem a).1 ha'
        obtain ⟨n, hn1, rfl⟩ := (hmem b).1 hb
        rw [hname m hm1.1, hname n hn1.1] at e
        split at e
        · rename_i h; subst h; exact e
        · rw [List.append_cancel_left e]
      · rw [List.mem_map]
        constructor
        · rintro ⟨r, hr, rfl⟩
          obtain ⟨n, hn1, rfl⟩ := (hmem r).1 hr
          exact ⟨n, hn1, hname n hn1.1⟩
        · rintro ⟨n, hn1, rfl⟩
          exact ⟨_, (hmem _).2 ⟨n, hn1, rfl⟩, hname n hn1.1⟩

/-- A file whose name contains wild cards is passed on by quoting its name: exactly one word, naming that file. -/
theorem C98_quoted_file_partial (x : Ctx) (hfnm : x.fnm = fnmatch) (t : Tree) (ha : Agrees x.fs t) (hn : ∀ p, ((x.fs.listdir p).map Prod.fst).Nodup)
    (k : Nat) (cs : List Str) (hk : k = 1 ∨ k = 2) (hcs : ∀ c ∈ cs, Normal c) (hne : cs ≠ []) (hcwd : x.cwd = pathOf k cs) (hmc : cs.any hasMagic = false)
    (name : Str) (hname : Normal name) (hex : t.exists (cs ++ [name]) = true) (hm : hasMagic name = true) (hpct : '%' ∉ name) (htilde : name.head? ≠ some '~') :
    expandArgument x (quote name) = .ok [c!"./" ++ name] := by
  have hq : ∀ (c : Char) (s : Str), c ∈ quote s → c ∈ s ∨ c = '[' ∨ c = ']' := by
    intro c s
    induction s with
    | nil => simp [quote]
    | cons d s ih =>
      rw [quote_cons, List.mem_append]
      rintro (h | h)
      · split at h
        · simp at h; rcases h with h | h | h <;> simp [h]
        · simp at h; simp [h]
      · rcases ih h with h | h <;> simp [h]
  have hh : ∀ d : Char, d ≠ '[' → ∀ s : Str, (quote s).head? = some d → s.head? = some d := by
    intro d hd s
    cases s with
    | nil => simp [quote]
    | cons c s =>
      rw [quote_cons]
      split
      · intro h; simp at h; exact absurd h.symm hd
      · simp
  have hmq : hasMagic (quote name) = true := by
    unfold hasMagic at hm ⊢
    rw [List.any_eq_true] at hm ⊢
    obtain ⟨c, h1, h2⟩ := hm
    refine ⟨'[', List.mem_flatMap.2 ⟨c, h1, ?_⟩, by decide⟩
    simp at h2
    rw [if_pos (by simpa [or_assoc] using h2)]
    simp
  obtain ⟨words, e, hnd, _, h2⟩ := C98_directory_partial x hfnm t ha hn k cs hk hcs hcwd hmc (quote name)
    (fun h => by rcases hq _ _ h with h | h | h; exact hname.1.2 h; all_goals cases h)
    (fun h => by rcases hq _ _ h with h | h | h; exact hpct h; all_goals cases h)
    (fun h => htilde (hh _ (by decide) _ h)) hmq (quote_proper name)
  have hfound : ∀ r, FoundIn t cs (quote name) r ↔ r = name := by
    intro r
    unfold FoundIn
    rw [C98_quote]
    constructor
    · exact fun h => h.2.2.1
    · rintro rfl
      refine ⟨hname, hex, rfl, fun h => ?_⟩
      cases r with
      | nil => simp at h
      | cons c s =>
        simp at h
        subst h
        rw [quote_cons]
        rfl
  have h2 := h2 ⟨name, (hfound name).2 rfl⟩
  simp only [hfound, exists_eq_left, hne, ↓reduceIte] at h2
  rw [e]
  congr 1
  match words, hnd, h2 with
  | [], _, h2 => exact absurd ((h2 _).2 rfl) (by simp)
  | [w], _, h2 => rw [(h2 w).1 (by simp)]
  | v :: w :: ws, hnd, h2 =>
    have h3 := (h2 v).1 (by simp)
    have h4 := (h2 w).1 (by simp)
    simp [h3, h4] at hnd

/-- in the directory `/d` with the files `x` and `-rf` -/
example : ∃ x : Ctx, x.fnm = fnmatch ∧ x.cwd = pathOf 1 [c!"d"] ∧ Agrees x.fs demoTree ∧ (∀ p, ((x.fs.listdir p).map Prod.fst).Nodup) ∧
    Proper c!"?" ∧ hasMagic c!"?" = true ∧ FoundIn demoTree [c!"d"] c!"?" c!"x" ∧ ¬ FoundIn demoTree [c!"d"] c!"?" c!"-rf" ∧
    expandArgument x c!"?" = .ok [c!"./x"] := by
  refine ⟨{ starCtx fnmatch with fs := demoFs }, rfl, rfl, demo_agrees, ?_, proper_of_no_bracket (by decide), by decide, ⟨?_, by decide, .one 'x' .done, by decide⟩, ?_, rfl⟩
  · intro p
    simp only [demoFs]
    split
    · decide
    · split <;> decide
  · unfold Normal Comp; decide
  · rintro ⟨_, _, h, _⟩
    cases h with
    | one _ h => cases h

/-- a directory `/d` with files called `a*`, `ab` and `.a` -/
def starEntries : List (List Str × Bool) := [([c!"d"], true), ([c!"d", c!"a*"], false), ([c!"d", c!"ab"], false), ([c!"d", c!".a"], false)]

example : ∃ x : Ctx, x.fnm = fnmatch ∧ x.cwd = pathOf 1 [c!"d"] ∧ Agrees x.fs (Tree.ofList starEntries) ∧ (∀ p, ((x.fs.listdir p).map Prod.fst).Nodup) ∧
    Normal c!"a*" ∧ (Tree.ofList starEntries).exists ([c!"d"] ++ [c!"a*"]) = true ∧ hasMagic c!"a*" = true ∧ '%' ∉ c!"a*" ∧ (c!"a*").head? ≠ some '~' ∧
    expandArgument x c!"a*" = .ok [c!"./a*", c!"./ab"] ∧ quote c!"a*" = c!"a[*]" ∧ expandArgument x c!"a[*]" = .ok [c!"./a*"] ∧
    expandArgument x c!"*" = .ok [c!"./a*", c!"./ab"] ∧ expandArgument x c!".*" = .ok [c!"./.a"] := by
  have hg : GoodEntries starEntries := ⟨by unfold Normal Comp; decide, by decide, by decide⟩
  refine ⟨{ starCtx fnmatch with fs := Fs.ofList starEntries }, rfl, rfl, ofList_agrees hg, ofList_nodup hg, ?_, by decide, by decide, by decide, by decide, ?_⟩
  · unfold Normal Comp; decide
  · exact ⟨rfl, rfl, rfl, rfl, rfl⟩

/-- C27's counterexample with Python's `fnmatch` -/
theorem C27_refuted_fnmatch : expandArgument (bracketCtx fnmatch) c!"*" = .ok [c!"/a/y"] :=
  C27_refuted fnmatch (by decide) (by decide) (by decide)

end Pieshell.Expand
