import Verif.Lemmas.Env
/-!
# C67: home directories in arguments. C68: the `cd` builtin
-/
namespace Pieshell.Expand
open Pieshell.Path

/-- the home directory that `~name` stands for -/
def homeOf (homes : Homes) (name : Str) : Option Str := if name = [] then homes.own else homes.named name

theorem expanduser_eq (homes : Homes) (name t : Str) (hn : '/' ∉ name) (ht : t = [] ∨ t.head? = some '/') :
    expanduser homes ('~' :: (name ++ t)) =
      match homeOf homes name with
      | none => '~' :: (name ++ t)
      | some h => let r := rstripSlash h ++ t; if r = [] then c!"/" else r := by
  have h1 : (name ++ t).takeWhile (· ≠ '/') = name ∧ (name ++ t).dropWhile (· ≠ '/') = t := by
    rcases ht with rfl | ht
    · simp only [List.append_nil]
      have : ∀ s : Str, '/' ∉ s → s.takeWhile (· ≠ '/') = s ∧ s.dropWhile (· ≠ '/') = [] := by
        intro s
        induction s with
        | nil => intro _; exact ⟨rfl, rfl⟩
        | cons c s ih =>
          intro h
          simp only [List.mem_cons, not_or] at h
          have hc : c ≠ '/' := Ne.symm h.1
          simp only [List.takeWhile_cons, List.dropWhile_cons, hc, ne_eq, not_false_eq_true, decide_true, if_true]
          exact ⟨by rw [(ih h.2).1], (ih h.2).2⟩
      exact this name hn
    · cases t with
      | nil => cases ht
      | cons c t =>
        simp only [List.head?_cons, Option.some.injEq] at ht
        subst ht
        exact takeWhile_noslash hn
  simp only [expanduser, h1.1, h1.2, homeOf]
  cases (if name = [] then homes.own else homes.named name) <;> rfl

theorem rstrip_same {h : Str} (hl : h.getLast? ≠ some '/') : rstripSlash h = h := by
  rcases List.eq_nil_or_concat h with rfl | ⟨l, c, rfl⟩
  · rfl
  · have hc : c ≠ '/' := by simpa using hl
    simp [rstripSlash, hc]

/-- **C67.** In an argument, a leading `~` (or `~user`) followed by nothing or a slash stands for the home directory of the
user (or of the other user); if that is not known the argument stays as it is. -/
theorem C67_home_directories (x : Ctx) (name t : Str) (hn : '/' ∉ name) (ht : t = [] ∨ t.head? = some '/') (hp : '%' ∉ name ++ t) :
    (∀ h, homeOf x.homes name = some h → h ≠ [] → h.getLast? ≠ some '/' → hasMagic (h ++ t) = false →
      expandArgument x ('~' :: (name ++ t)) = .ok [h ++ t]) ∧
    (homeOf x.homes name = none → hasMagic (name ++ t) = false → expandArgument x ('~' :: (name ++ t)) = .ok ['~' :: (name ++ t)]) := by
  have hp' : '%' ∉ '~' :: (name ++ t) := by
    intro h
    rcases List.mem_cons.1 h with h | h
    · exact absurd h (by decide)
    · exact hp h
  have e := expandArgument_eq (x := x) (pctFormat_plain x.lookup x.scopeText false ('~' :: (name ++ t)) _ (Nat.lt_succ_self _) hp')
  rw [expanduser_eq x.homes name t hn ht] at e
  refine ⟨fun h hh h0 hl hm => ?_, fun hh hm => ?_⟩
  · rw [hh] at e
    have : h ++ t ≠ [] := by simp [h0]
    simp only [rstrip_same hl, if_neg this, hm, if_neg Bool.false_ne_true] at e
    exact e
  · rw [hh] at e
    have : hasMagic ('~' :: (name ++ t)) = false := by
      simp only [hasMagic, List.any_cons] at hm ⊢
      rw [hm]; rfl
    simp only [this, if_neg Bool.false_ne_true] at e
    exact e

/-- `~`, `~bob/x` and `~nobody` -/
def demoHomes : Homes := { own := some c!"/home/a", named := fun n => if n = c!"bob" then some c!"/home/b" else none }

example (x : Ctx) (h : x.homes = demoHomes) : expandArgument x c!"~" = .ok [c!"/home/a"] :=
  (C67_home_directories x [] [] (by simp) (.inl rfl) (by simp)).1 c!"/home/a" (by rw [h]; rfl) (by decide) (by decide) rfl
example (x : Ctx) (h : x.homes = demoHomes) : expandArgument x c!"~bob/x" = .ok [c!"/home/b/x"] :=
  (C67_home_directories x c!"bob" c!"/x" (by decide) (.inr rfl) (by decide)).1 c!"/home/b" (by rw [h]; rfl) (by decide) (by decide) rfl
example (x : Ctx) (h : x.homes = demoHomes) : expandArgument x c!"~nobody" = .ok [c!"~nobody"] :=
  (C67_home_directories x c!"nobody" [] (by decide) (.inl rfl) (by decide)).2 (by rw [h]; rfl) rfl

end Pieshell.Expand

namespace Pieshell.Envs
open Pieshell.Path Pieshell.Expand

/-- one step of the loop of `normpath` -/
def normStep (k : Nat) (acc : List Str) (comp : Str) : List Str :=
  if comp = [] ∨ comp = c!"." then acc
  else if comp ≠ c!".." ∨ (k = 0 ∧ acc = []) ∨ acc.head? = some c!".." then comp :: acc
  else acc.tail

theorem normComps_fold (k : Nat) (l acc : List Str) : normComps k acc l = (l.foldl (normStep k) acc).reverse := by
  induction l generalizing acc with
  | nil => rfl
  | cons c l ih =>
    simp only [normComps, List.foldl_cons, normStep]
    split
    · exact ih _
    · split
      · exact ih _
      · exact ih _

/-- the components of an absolute path after normalisation -/
def comps (p : Str) : List Str := normComps 1 [] (splitSlash p)

theorem comps_normal (p : Str) : ∀ c ∈ comps p, Normal c :=
  normComps_normal 1 (by omega) _ _ (splitSlash_noslash p) (by simp)

theorem comp_notAbs {w : Str} (hw : Comp w) : isAbs w = false := by
  cases w with
  | nil => rfl
  | cons c w =>
    have : c ≠ '/' := by rintro rfl; exact hw.2 (by simp)
    simpa [isAbs] using this

theorem comps_join {p w : Str} (hp : isAbs p = true) (hw : Comp w) :
    comps (join p w) = (normStep 1 (comps p).reverse w).reverse := by
  have hwa := comp_notAbs hw
  have hp0 : p ≠ [] := by intro h; subst h; cases hp
  have hrev : (comps p).reverse = (splitSlash p).foldl (normStep 1) [] := by
    rw [comps, normComps_fold, List.reverse_reverse]
  rw [hrev]
  unfold join
  rw [if_neg (by rw [hwa]; exact Bool.false_ne_true)]
  by_cases hl : p.getLast? = some '/'
  · rw [if_pos (.inr hl)]
    obtain ⟨q, c, rfl⟩ := exists_snoc hp0
    simp only [List.getLast?_append, List.getLast?_singleton, Option.some_or, Option.some.injEq] at hl
    subst hl
    rw [List.append_assoc, List.singleton_append, comps, normComps_fold, splitSlash_append, splitSlash_single hw.2,
      List.foldl_append, List.foldl_cons, List.foldl_nil, splitSlash_append q [], show splitSlash [] = [[]] from rfl,
      List.foldl_append, List.foldl_cons, List.foldl_nil]
    congr 1
  · rw [if_neg (by simp [hp0, hl]), comps, normComps_fold, splitSlash_append, splitSlash_single hw.2, List.foldl_append]
    rfl

theorem join_assoc (a b c : Str) : join a (join b c) = join (join a b) c := by
  by_cases hc : isAbs c = true
  · simp [join, hc]
  · by_cases hb : isAbs b = true
    · have h1 : isAbs (join b c) = true := join_isAbs hb
      have h2 : join a b = b := by simp [join, hb]
      rw [h2, show join a (join b c) = join b c from if_pos h1]
    · have hj : isAbs (join b c) = false := by
        unfold join
        rw [if_neg hc]
        cases b with
        | nil => simpa using hc
        | cons d b =>
          have : isAbs (d :: b) = false := by simpa using hb
          split <;> simpa [isAbs] using this
      by_cases ha : a = [] ∨ a.getLast? = some '/'
      · have h2 : join a b = a ++ b := by simp [join, hb, ha]
        have h3 : join a (join b c) = a ++ join b c := by unfold join at hj ⊢; rw [if_neg (by rw [hj]; exact Bool.false_ne_true), if_pos ha]
        rw [h2, h3]
        unfold join
        rw [if_neg hc, if_neg hc]
        by_cases hb0 : b = []
        · subst hb0; simp [ha]
        · have hlast : (a ++ b).getLast? = b.getLast? := by
            rw [List.getLast?_append]
            cases h : b.getLast? with
            | none => exact absurd (List.getLast?_eq_none_iff.1 h) hb0
            | some d => rfl
          by_cases hbl : b.getLast? = some '/'
          · rw [if_pos (.inr hbl), if_pos (.inr (by rw [hlast]; exact hbl)), List.append_assoc]
          · rw [if_neg (by simp [hb0, hbl]), if_neg (by rw [hlast]; simp [hb0, hbl]), List.append_assoc]
      · have h2 : join a b = a ++ '/' :: b := by simp [join, hb, ha]
        have h3 : join a (join b c) = a ++ '/' :: join b c := by unfold join at hj ⊢; rw [if_neg (by rw [hj]; exact Bool.false_ne_true), if_neg ha]
        rw [h2, h3]
        unfold join
        rw [if_neg hc, if_neg hc]
        by_cases hb0 : b = []
        · subst hb0; simp
        · have hlast : (a ++ '/' :: b).getLast? = b.getLast? := by
            rw [List.getLast?_append]
            cases b with
            | nil => exact absurd rfl hb0
            | cons d b => 
              rw [List.getLast?_cons_cons]
              cases h : (d :: b).getLast? with
              | none => simp at h
              | some e => rfl
          by_cases hbl : b.getLast? = some '/'
          · rw [if_pos (.inr hbl), if_pos (.inr (by rw [hlast]; exact hbl)), List.append_assoc]; rfl
          · rw [if_neg (by simp [hb0, hbl]), if_neg (by rw [hlast]; simp [hb0, hbl]), List.append_assoc]; rfl

/-! ## C68 -/

/-- Where one word of `cd(...)` leads from directory `cs`. -/
def visit (cs : List Str) (w : Str) : List Str :=
  if w = c!"PARENT" ∨ w = c!".." then cs.dropLast
  else if w = c!"ROOT" then []
  else if w = c!"." then cs
  else cs ++ [w]

theorem foldl_join (a : Str) (ws : List Str) (c : Str) : join c (ws.foldl join a) = ws.foldl join (join c a) := by
  induction ws generalizing a with
  | nil => rfl
  | cons w ws ih => rw [List.foldl_cons, ih, join_assoc, List.foldl_cons]

/-- an absolute path with one slash in front -/
def OneSlash (p : Str) : Prop := isAbs p = true ∧ initialSlashes p = 1

theorem oneSlash_join {p w : Str} (hp : OneSlash p) (hw : Comp w) : OneSlash (join p w) := by
  refine ⟨join_isAbs hp.1, ?_⟩
  have hwa := comp_notAbs hw
  have hc := hw.1
  obtain ⟨h1, h2⟩ := hp
  unfold join
  rw [if_neg (by rw [hwa]; exact Bool.false_ne_true)]
  cases p with
  | nil => cases h1
  | cons c p =>
    have : c = '/' := by simpa [isAbs] using h1
    subst this
    cases p with
    | nil =>
      cases w with
      | nil => exact absurd rfl hc
      | cons c w =>
        have : c ≠ '/' := by rintro rfl; simp [isAbs] at hwa
        simp [initialSlashes, this]
    | cons d p =>
      by_cases hd : d = '/'
      · subst hd
        cases p with
        | nil => simp [initialSlashes] at h2
        | cons d p =>
          by_cases hd : d = '/'
          · subst hd; split <;> simp [initialSlashes]
          · simp [initialSlashes, hd] at h2
      · split <;> simp [initialSlashes, hd]

theorem visit_join {p w : Str} (hp : OneSlash p) (hw : Comp w) : OneSlash (join p (cdReplace w)) ∧ comps (join p (cdReplace w)) = visit (comps p) w := by
  by_cases h1 : w = c!"PARENT"
  · subst h1
    have hcw : Comp c!".." := by unfold Comp; decide
    refine ⟨oneSlash_join hp hcw, ?_⟩
    show comps (join p c!"..") = visit (comps p) c!"PARENT"
    rw [comps_join hp.1 hcw]
    have hh : (comps p).reverse.head? ≠ some c!".." := by
      intro h
      have := List.mem_of_mem_head? h
      exact (comps_normal p _ (List.mem_reverse.1 this)).2.2 rfl
    simp only [normStep]
    rw [if_neg (by decide), if_neg (fun h => h.elim (fun h => h rfl) (fun h => h.elim (fun h => absurd h.1 (by decide)) hh))]
    simp [visit]
  · by_cases h2 : w = c!"ROOT"
    · subst h2
      have : join p (cdReplace c!"ROOT") = c!"/" := by simp [cdReplace, join, isAbs]
      rw [this]
      exact ⟨⟨rfl, rfl⟩, by simp [visit, comps, splitSlash, normComps]⟩
    · have hr : cdReplace w = w := by simp [cdReplace, h1, h2]
      rw [hr]
      refine ⟨oneSlash_join hp hw, ?_⟩
      rw [comps_join hp.1 hw]
      simp only [visit, normStep, h1, h2, false_or, if_false, hw.1]
      have hh : (comps p).reverse.head? ≠ some c!".." := by
        intro h
        have := List.mem_of_mem_head? h
        exact (comps_normal p _ (List.mem_reverse.1 this)).2.2 rfl
      by_cases h3 : w = c!".."
      · subst h3
        rw [if_neg (by decide), if_neg (fun h => h.elim (fun h => h rfl) (fun h => h.elim (fun h => absurd h.1 (by decide)) hh))]
        simp
      · by_cases h4 : w = c!"."
        · subst h4; simp
        · rw [if_neg h4, if_pos (.inl h3), if_neg h3, if_neg h4]; simp

theorem visit_fold (ws : List Str) {p : Str} (hp : OneSlash p) (hw : ∀ w ∈ ws, Comp w) :
    OneSlash ((ws.map cdReplace).foldl join p) ∧ comps ((ws.map cdReplace).foldl join p) = ws.foldl visit (comps p) := by
  induction ws generalizing p with
  | nil => exact ⟨hp, rfl⟩
  | cons w ws ih =>
    obtain ⟨a, b⟩ := visit_join hp (hw w (by simp))
    obtain ⟨c, d⟩ := ih a (fun v hv => hw v (by simp [hv]))
    exact ⟨c, by rw [List.map_cons, List.foldl_cons, d, b]; rfl⟩

theorem strict_oneSlash {cs : List Str} (h : ∀ c ∈ cs, Normal c) : OneSlash (pathOf 1 cs) ∧ comps (pathOf 1 cs) = cs := by
  refine ⟨⟨pathOf_isAbs (.inl rfl) cs, initialSlashes_pathOf (.inl rfl) (fun c hc => (h c hc).1)⟩, ?_⟩
  have e := normpath_pathOf (.inl rfl) h
  rw [normpath_abs (pathOf_isAbs (.inl rfl) cs), initialSlashes_pathOf (.inl rfl) (fun c hc => (h c hc).1)] at e
  exact (pathOf_inj (.inl rfl) (fun c hc => (comps_normal _ c hc).1) (fun c hc => (h c hc).1) e)

/-- where the words of `cd(...)` lead -/
theorem cd_dest (cwd procCwd : Str) (homes : Homes) (cs : List Str) (a : Str) (ws : List Str) (hcs : ∀ c ∈ cs, Normal c) (hc : cwd = pathOf 1 cs)
    (hw : ∀ v ∈ a :: ws, Comp v) (ht : a.head? ≠ some '~') : expandPath cwd procCwd homes (cdPath (a :: ws)) = pathOf 1 ((a :: ws).foldl visit cs) := by
  obtain ⟨h1, h2⟩ := strict_oneSlash hcs
  have hrt : (cdReplace a).head? ≠ some '~' := by
    unfold cdReplace; split
    · decide
    · split
      · decide
      · exact ht
  have hhead : (cdPath (a :: ws)).head? ≠ some '~' := by
    have : ∀ (l : List Str) (b : Str), (∀ v ∈ l, v ≠ []) → b ≠ [] → b.head? ≠ some '~' → 
        (∀ v ∈ l, isAbs v = true → v.head? ≠ some '~') → (l.foldl join b).head? ≠ some '~' := by
      intro l
      induction l with
      | nil => intro b _ _ h _; exact h
      | cons v l ih =>
        intro b hl hb h hv
        rw [List.foldl_cons]
        cases b with
        | nil => exact absurd rfl hb
        | cons c b =>
          apply ih _ (fun u hu => hl u (by simp [hu]))
          · unfold join; split
            · exact hl v (by simp)
            · split <;> simp
          · unfold join; split
            · rename_i hva; exact hv v (by simp) hva
            · split <;> simpa using h
          · exact fun u hu => hv u (by simp [hu])
    refine this _ _ ?_ ?_ hrt ?_
    · intro v hv
      obtain ⟨u, hu, rfl⟩ := List.mem_map.1 hv
      unfold cdReplace; split
      · decide
      · split
        · decide
        · exact (hw u (by simp [hu])).1
    · unfold cdReplace; split
      · decide
      · split
        · decide
        · exact (hw a (by simp)).1
    · intro v _ hva h
      unfold isAbs at hva
      rw [h] at hva
      simp at hva
  have hx := expandPath_eq (x := ⟨cwd, procCwd, fun _ => .error .keyError, [], homes, ⟨fun _ => [], fun _ => false, fun _ => false⟩, fun _ _ => false⟩) (q := cdPath (a :: ws)) (by rw [hc]; exact h1.1) hhead
  simp only at hx
  rw [hx]
  have hj : join cwd (cdPath (a :: ws)) = ((a :: ws).map cdReplace).foldl join (pathOf 1 cs) := by
    rw [hc, cdPath, foldl_join]; rfl
  have hab : abspath cwd (cdPath (a :: ws)) = normpath (join cwd (cdPath (a :: ws))) := by
    unfold abspath
    split
    · rename_i hh; unfold join; rw [if_pos hh]
    · rfl
  obtain ⟨f1, f2⟩ := visit_fold (a :: ws) h1 hw
  rw [h2] at f2
  rw [hab, hj, normpath_abs f1.1, f1.2, ← f2]
  rfl

/-- **C68.** `cd(w1, w2, ...)` in directory `cs` goes to the directory reached from `cs` by visiting `w1`, `w2`, ... in turn,
`PARENT` being the parent directory and `ROOT` the root. Each word is one file name, the first not starting with
`~`. -/
theorem C68_cd_walks (w : World) (i : Nat) (e : EnvObj) (cs : List Str) (a : Str) (ws : List Str) (he : w.envs[i]? = some e)
    (hcs : ∀ c ∈ cs, Normal c) (hc : e.cwd = pathOf 1 cs) (hw : ∀ v ∈ a :: ws, Comp v) (ht : a.head? ≠ some '~')
    (hok : (w.cd i (cdPath (a :: ws))).2 = .ok ()) :
    ((step w (.cdBuiltin i (a :: ws))).envs[i]?).map EnvObj.cwd = some (pathOf 1 ((a :: ws).foldl visit cs)) ∧
    w.disk.exists (pathOf 1 ((a :: ws).foldl visit cs)) = true := by
  have hdest : expandPath e.cwd w.procCwd w.homes (cdPath (a :: ws)) = pathOf 1 ((a :: ws).foldl visit cs) := cd_dest _ _ _ _ _ _ hcs hc hw ht
  rcases cd_cases w i (cdPath (a :: ws)) with ⟨_, x, h⟩ | ⟨e', he', hx, hh⟩
  · rw [h] at hok; cases hok
  · rw [he] at he'; injection he' with he'; subst he'
    rw [hdest] at hx
    refine ⟨?_, hx⟩
    have hi : i < w.envs.length := (List.getElem?_eq_some_iff.1 he).1
    show ((w.cd i (cdPath (a :: ws))).1.envs[i]?).map EnvObj.cwd = _
    rw [← hdest]
    rcases hh with ⟨_, h⟩ | ⟨_, n, _, h⟩ | ⟨_, _, h⟩ <;> rw [h] <;> simp [hi]

/-- In `/usr/lib`: `cd.PARENT.share.doc` and `cd.ROOT.tmp`. -/
def inUsrLib : World where
  procCwd := c!"/"
  environ := [(c!"HOME", c!"/root")]
  dicts := []
  envs := [{ cwd := c!"/usr/lib", exports := none, interactive := false, dirCache := none }]
  disk := ⟨fun _ => true, fun _ => none, fun p => p, fun _ => none⟩
  pwHome := none
  users := fun _ => none
  builtins := []
  sort := id

example : ((step inUsrLib (.cdBuiltin 0 [c!"PARENT", c!"share", c!"doc"])).envs[0]?).map EnvObj.cwd = some c!"/usr/share/doc" :=
  (C68_cd_walks inUsrLib 0 _ [c!"usr", c!"lib"] c!"PARENT" [c!"share", c!"doc"] rfl (by unfold Normal Comp; decide) rfl
    (by unfold Comp; decide) (by decide) rfl).1
example : ((step inUsrLib (.cdBuiltin 0 [c!"ROOT", c!"tmp"])).envs[0]?).map EnvObj.cwd = some c!"/tmp" :=
  (C68_cd_walks inUsrLib 0 _ [c!"usr", c!"lib"] c!"ROOT" [c!"tmp"] rfl (by unfold Normal Comp; decide) rfl
    (by unfold Comp; decide) (by decide) rfl).1

/-- `cd` without words goes to the home directory (of the process's `HOME`). -/
theorem C68_cd_home (w : World) (i : Nat) (e : EnvObj) (cs : List Str) (he : w.envs[i]? = some e) (hcs : ∀ c ∈ cs, Normal c) (hne : cs ≠ [])
    (hh : Dict.get? w.environ c!"HOME" = some (pathOf 1 cs)) (hok : (w.cd i (cdPath [])).2 = .ok ()) :
    ((step w (.cdBuiltin i [])).envs[i]?).map EnvObj.cwd = some (pathOf 1 cs) := by
  have hdest : expandPath e.cwd w.procCwd w.homes c!"~" = pathOf 1 cs := by
    have hl := pathOf_last (k := 1) hne (fun c hc => (hcs c hc).1)
    have h1 := expanduser_eq w.homes [] [] (by simp) (.inl rfl)
    have h2 : homeOf w.homes [] = some (pathOf 1 cs) := by simp [homeOf, World.homes, hh]
    rw [h2] at h1
    simp only [List.append_nil, rstrip_same (fun h => hl (.inr h)), if_neg (fun h => hl (.inl h))] at h1
    show abspath w.procCwd (expanduser w.homes c!"~") = _
    rw [h1, abspath, if_pos (pathOf_isAbs (.inl rfl) cs), normpath_pathOf (.inl rfl) hcs]
  rcases cd_cases w i (cdPath []) with ⟨_, x, h⟩ | ⟨e', he', hx, hh⟩
  · rw [h] at hok; cases hok
  · rw [he] at he'; injection he' with he'; subst he'
    have hi : i < w.envs.length := (List.getElem?_eq_some_iff.1 he).1
    show ((w.cd i (cdPath [])).1.envs[i]?).map EnvObj.cwd = _
    rw [← hdest]
    rcases hh with ⟨_, h⟩ | ⟨_, n, _, h⟩ | ⟨_, _, h⟩ <;> rw [h] <;> simp [hi] <;> rfl

example : ((step inUsrLib (.cdBuiltin 0 [])).envs[0]?).map EnvObj.cwd = some c!"/root" :=
  C68_cd_home inUsrLib 0 _ [c!"root"] rfl (by unfold Normal Comp; decide) (by decide) rfl rfl

end Pieshell.Envs
