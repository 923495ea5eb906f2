import Verif.Spec.CdDir
import Verif.Props.Walk
/-!
# Completing `cd` (C112)
-/
namespace Pieshell.Envs
open Pieshell.Path Pieshell.Expand

theorem visit_normal {cs : List Str} {v : Str} (hcs : ∀ c ∈ cs, Normal c) (hv : Comp v) : ∀ c ∈ visit cs v, Normal c := by
  unfold visit
  split
  · intro c hc; exact hcs c (List.dropLast_subset _ hc)
  · split
    · intro c hc; cases hc
    · split
      · exact hcs
      · rename_i h1 h2 h3
        intro c hc
        rcases List.mem_append.1 hc with hc | hc
        · exact hcs c hc
        · rw [List.mem_singleton.1 hc]
          exact ⟨hv, h3, fun h => h1 (.inr h)⟩

theorem visits_normal {ws : List Str} : ∀ {cs : List Str}, (∀ c ∈ cs, Normal c) → (∀ v ∈ ws, Comp v) → ∀ c ∈ ws.foldl visit cs, Normal c := by
  induction ws with
  | nil => intro cs h _; exact h
  | cons w ws ih => intro cs h hw; exact ih (visit_normal h (hw w (.head _))) fun v hv => hw v (.tail _ hv)

/-- what is listed for a path, when it is that of directory `here` -/
theorem mem_listed {fs : Folders} {t : Tree} {readable : List Str → Bool} {proc : List Str} (ht : Truthful fs t readable proc) {here : List Str} (hh : ∀ c ∈ here, Normal c)
    {pth : Str} (h1 : fs.listdir pth = fs.listdir (pathOf 1 here)) (h2 : ∀ n, Normal n → fs.isdir (join pth n) = fs.isdir (pathOf 1 (here ++ [n]))) (n : Str) :
    (n ∈ match fs.listdir pth with
      | none => [c!"PARENT", c!"ROOT"]
      | some names => names.filter (fun n => fs.isdir (join pth n)) ++ [c!"PARENT", c!"ROOT"]) ↔ Offered t readable here n := by
  rw [h1]
  unfold Offered
  cases hr : readable here with
  | false =>
    rw [ht.refuse here hh hr]
    simp
  | true =>
    obtain ⟨l, hl, hn⟩ := ht.list here hh hr
    rw [hl]
    simp only [List.mem_append, List.mem_filter, List.mem_cons, List.mem_nil_iff, or_false, hn, true_and]
    constructor
    · rintro (⟨⟨h3, h4⟩, h5⟩ | h | h)
      · right; right
        rw [h2 n h3, ht.isdir _ (by intro c hc; rcases List.mem_append.1 hc with hc | hc; exact hh c hc; rw [List.mem_singleton.1 hc]; exact h3)] at h5
        simp only [Bool.and_eq_true] at h5
        exact ⟨h3, h4, h5.2⟩
      · exact .inl h
      · exact .inr (.inl h)
    · rintro (h | h | ⟨h3, h4, h5⟩)
      · exact .inr (.inl h)
      · exact .inr (.inr h)
      · left
        refine ⟨⟨h3, h4⟩, ?_⟩
        rw [h2 n h3, ht.isdir _ (by intro c hc; rcases List.mem_append.1 hc with hc | hc; exact hh c hc; rw [List.mem_singleton.1 hc]; exact h3), h4, h5]
        rfl

/-- **C112, what is offered.** After `cd` and at least one word, the names offered are those of the directories in the directory the words lead to, and `PARENT` and `ROOT`
(only these when the directory cannot be read). -/
theorem C112_offered (cwd procCwd : Str) (homes : Homes) (fs : Folders) (t : Tree) (readable : List Str → Bool) (proc : List Str) (ht : Truthful fs t readable proc)
    (cs : List Str) (hcs : ∀ c ∈ cs, Normal c) (hc : cwd = pathOf 1 cs) (a : Str) (ws : List Str) (hw : ∀ v ∈ a :: ws, Comp v) (ha : a.head? ≠ some '~') (n : Str) :
    n ∈ cdDir cwd procCwd homes fs (a :: ws) ↔ Offered t readable ((a :: ws).foldl visit cs) n := by
  have hh := visits_normal hcs hw
  have hd := cd_dest cwd procCwd homes cs a ws hcs hc hw ha
  unfold cdDir
  simp only
  rw [hd]
  exact mem_listed ht hh rfl (fun n hn => by rw [join_pathOf (.inl rfl) (fun c hc => (hh c hc).1) hn.1]) n

/-- **C112 (partial), nothing typed yet.** The directories offered after `cd` alone are those in the directory of the *process*; this is what `cd.NAME` leads to when the environment's directory
is that of the process (interactive environments). -/
theorem C112_offered_first_partial (cwd procCwd : Str) (homes : Homes) (fs : Folders) (t : Tree) (readable : List Str → Bool) (proc : List Str) (ht : Truthful fs t readable proc) (n : Str) :
    n ∈ cdDir cwd procCwd homes fs [] ↔ Offered t readable proc n :=
  mem_listed ht ht.proc ht.dotList (fun n hn => by
    rw [← ht.dotIsdir n hn]
    have : isAbs n = false := by
      cases n with
      | nil => exact absurd rfl hn.1.1
      | cons c s =>
        have h := hn.1.2
        simp only [List.mem_cons, not_or] at h
        unfold isAbs
        simpa using fun h2 => h.1 h2.symm
    show fs.isdir (join c!"." n) = _
    unfold join
    rw [this, if_neg (by decide), if_neg (by decide)]
    rfl) n

/-- **C112, where it leads.** A word that is offered leads, written after the others, to the directory it was offered for; `PARENT` and `ROOT` to the parent directory and to the root.
Excluded are directories called `PARENT` or `ROOT`, and, as the first word, names that begin with `~`. -/
theorem C112_leads_partial (cwd procCwd : Str) (homes : Homes) (cs : List Str) (hcs : ∀ c ∈ cs, Normal c) (hc : cwd = pathOf 1 cs) (ws : List Str) (hw : ∀ v ∈ ws, Comp v) (n : Str)
    (hn : Normal n) (ha : ∀ a, (ws ++ [n]).head? = some a → a.head? ≠ some '~') :
    expandPath cwd procCwd homes (cdPath (ws ++ [n])) =
      pathOf 1 (if n = c!"PARENT" then (ws.foldl visit cs).dropLast else if n = c!"ROOT" then [] else ws.foldl visit cs ++ [n]) := by
  have hall : ∀ v ∈ ws ++ [n], Comp v := by
    intro v hv
    rcases List.mem_append.1 hv with h | h
    · exact hw v h
    · rw [List.mem_singleton.1 h]; exact hn.1
  have hd : expandPath cwd procCwd homes (cdPath (ws ++ [n])) = pathOf 1 ((ws ++ [n]).foldl visit cs) := by
    cases h : ws ++ [n] with
    | nil => simp at h
    | cons a l =>
      rw [h] at hall ha
      exact cd_dest cwd procCwd homes cs a l hcs hc hall (ha a rfl)
  rw [hd, List.foldl_append]
  show pathOf 1 (visit (ws.foldl visit cs) n) = _
  unfold visit
  by_cases h1 : n = c!"PARENT"
  · rw [if_pos (.inl h1), if_pos h1]
  · rw [if_neg h1]
    by_cases h2 : n = c!"ROOT"
    · rw [if_neg (by rintro (h | h); exact h1 h; exact hn.2.2 h), if_pos h2, if_pos h2]
    · rw [if_neg (by rintro (h | h); exact h1 h; exact hn.2.2 h), if_neg h2, if_neg hn.2.1, if_neg h2]

/-- **C112, following a completion.** In an environment, choosing an offered directory and running the `cd` makes it the directory of the environment. -/
theorem C112_follow_partial (w : World) (i : Nat) (e : EnvObj) (he : w.envs[i]? = some e) (fs : Folders) (t : Tree) (readable : List Str → Bool) (proc : List Str)
    (ht : Truthful fs t readable proc) (hex : ∀ cs, (∀ c ∈ cs, Normal c) → w.disk.exists (pathOf 1 cs) = t.exists cs) (hch : e.interactive = true → ∀ p, w.disk.chdirErr p = none)
    (cs : List Str) (hcs : ∀ c ∈ cs, Normal c) (hc : e.cwd = pathOf 1 cs) (a : Str) (ws : List Str) (hw : ∀ v ∈ a :: ws, Comp v) (ha : a.head? ≠ some '~') (n : Str)
    (hn : n ∈ cdDir e.cwd w.procCwd w.homes fs (a :: ws)) (hp : n ≠ c!"PARENT") (hr : n ≠ c!"ROOT") :
    (w.cd i (cdPath (a :: ws ++ [n]))).2 = .ok () ∧
    ((step w (.cdBuiltin i (a :: ws ++ [n]))).envs[i]?).map EnvObj.cwd = some (pathOf 1 ((a :: ws).foldl visit cs ++ [n])) ∧ t.isDir ((a :: ws).foldl visit cs ++ [n]) = true := by
  have ho := (C112_offered e.cwd w.procCwd w.homes fs t readable proc ht cs hcs hc a ws hw ha n).1 hn
  rcases ho with h | h | ⟨-, hn, hx, hd⟩
  · exact absurd h hp
  · exact absurd h hr
  · have hdest := C112_leads_partial e.cwd w.procCwd w.homes cs hcs hc (a :: ws) hw n hn (fun b hb => by
      simp only [List.cons_append, List.head?_cons, Option.some.injEq] at hb; rw [← hb]; exact ha)
    rw [if_neg hp, if_neg hr] at hdest
    have hh := visits_normal hcs hw
    have hnn : ∀ c ∈ (a :: ws).foldl visit cs ++ [n], Normal c := by
      intro c hc
      rcases List.mem_append.1 hc with hc | hc
      · exact hh c hc
      · rw [List.mem_singleton.1 hc]; exact hn
    have hok : (w.cd i (cdPath (a :: ws ++ [n]))).2 = .ok () := by
      unfold World.cd
      rw [he]
      simp only [hdest]
      rw [hex _ hnn, hx]
      simp only [Bool.not_true, Bool.false_eq_true, if_false]
      split
      · rename_i hi
        rw [hch hi]
      · rfl
    refine ⟨hok, ?_, hd⟩
    rcases cd_cases w i (cdPath (a :: ws ++ [n])) with ⟨_, x, h⟩ | ⟨e', he', hx, hh⟩
    · rw [h] at hok; cases hok
    · rw [he] at he'; injection he' with he'; subst he'
      have hi : i < w.envs.length := (List.getElem?_eq_some_iff.1 he).1
      show ((w.cd i (cdPath (a :: ws ++ [n]))).1.envs[i]?).map EnvObj.cwd = _
      rw [← hdest]
      rcases hh with ⟨_, h⟩ | ⟨_, n, _, h⟩ | ⟨_, _, h⟩ <;> rw [h] <;> simp [hi]

/-! ## Where it fails -/
namespace CdEx

/-- `/home/PARENT`, `/home/~x`, `/home/src`, `/srv/www`, all directories; the process is in `/srv` -/
def dirs : List (List Str) := [[], [c!"home"], [c!"srv"], [c!"home", c!"PARENT"], [c!"home", c!"~x"], [c!"home", c!"src"], [c!"srv", c!"www"]]
def tree : Tree := { «exists» := fun p => dirs.contains p, isDir := fun p => dirs.contains p }
/-- the names in a directory -/
def children (cs : List Str) : List Str := (dirs.filter fun d => !d.isEmpty && d.dropLast == cs).filterMap List.getLast?
/-- the components of a path -/
def parse (p : Str) : List Str := (splitSlash p).filter (!·.isEmpty)
/-- relative paths begin with a dot, and are relative to the directory of the process -/
def resolve (proc : List Str) (p : Str) : List Str := if p = c!"." then proc else if startsWith c!"./" p then proc ++ parse (p.drop 2) else parse p
def fs (proc : List Str) : Folders :=
  { listdir := fun p => if dirs.contains (resolve proc p) then some (children (resolve proc p)) else none
    isdir := fun p => dirs.contains (resolve proc p) }
def homes : Homes := { own := some c!"/home", named := fun u => if u = c!"x" then some c!"/srv" else none }

theorem parse_pathOf {cs : List Str} (h : ∀ c ∈ cs, Normal c) : parse (pathOf 1 cs) = cs := by
  unfold parse
  rw [splitSlash_pathOf (.inl rfl)]
  cases cs with
  | nil => rfl
  | cons c l =>
    rw [splitSlash_joinSlash (by simp) (fun c hc => (h c hc).1.2)]
    rw [List.filter_append, show (List.replicate 1 ([] : Str)).filter (!·.isEmpty) = [] from rfl, List.nil_append, List.filter_eq_self]
    intro a ha
    have := (h a ha).1.1
    cases a with
    | nil => exact absurd rfl this
    | cons => rfl

theorem resolve_pathOf (proc : List Str) {cs : List Str} (h : ∀ c ∈ cs, Normal c) : resolve proc (pathOf 1 cs) = cs := by
  unfold resolve
  have h0 : pathOf 1 cs = '/' :: joinSlash cs := rfl
  rw [if_neg (by rw [h0]; simp), if_neg (by rw [h0]; simp [startsWith]), parse_pathOf h]

theorem dirs_normal : ∀ d ∈ dirs, ∀ c ∈ d, Normal c := by unfold Normal Comp; decide

theorem mem_children (cs : List Str) (n : Str) : n ∈ children cs ↔ cs ++ [n] ∈ dirs := by
  unfold children
  simp only [List.mem_filterMap, List.mem_filter, Bool.and_eq_true, Bool.not_eq_true', beq_iff_eq]
  constructor
  · rintro ⟨d, ⟨h1, h2, h3⟩, h4⟩
    have : d = cs ++ [n] := by
      rw [← h3]
      obtain ⟨i, c, rfl⟩ := exists_snoc (l := d) (by rintro rfl; simp at h2)
      simp only [List.getLast?_append, List.getLast?_singleton, Option.some_or, Option.some.injEq] at h4
      rw [List.dropLast_concat, h4]
    rw [← this]; exact h1
  · intro h
    exact ⟨cs ++ [n], ⟨h, by simp, by simp⟩, by simp⟩

theorem truthful {proc : List Str} (hp : ∀ c ∈ proc, Normal c) : Truthful (fs proc) tree (fun cs => dirs.contains cs) proc where
  list := by
    intro cs h hr
    refine ⟨children cs, ?_, ?_⟩
    · simp only [fs, resolve_pathOf _ h]
      rw [if_pos hr]
    · intro n
      rw [mem_children]
      simp only [tree, List.contains_iff_mem]
      exact ⟨fun hm => ⟨dirs_normal _ hm n (by simp), hm⟩, fun hm => hm.2⟩
  refuse := by
    intro cs h hr
    simp only [fs, resolve_pathOf _ h]
    rw [if_neg (by rw [hr]; exact Bool.false_ne_true)]
  isdir := by
    intro cs h
    simp only [fs, resolve_pathOf _ h, tree, Bool.and_self]
  dotList := by
    simp only [fs, resolve_pathOf _ hp]
    rfl
  dotIsdir := by
    intro n hn
    have h1 : resolve proc (pathOf 1 (proc ++ [n])) = proc ++ [n] := resolve_pathOf _ (by
      intro c hc
      rcases List.mem_append.1 hc with hc | hc
      · exact hp c hc
      · rw [List.mem_singleton.1 hc]; exact hn)
    have h2 : resolve proc (c!"./" ++ n) = proc ++ [n] := by
      unfold resolve
      have h3 := hn.1.1
      rw [if_neg (by cases n with | nil => exact absurd rfl h3 | cons => simp), if_pos (by simp [startsWith])]
      show proc ++ parse n = _
      unfold parse
      rw [splitSlash_single hn.1.2]
      cases n with
      | nil => exact absurd rfl h3
      | cons => rfl
    simp only [fs, h1, h2]
  proc := hp

/-- `/srv` -/
def srv : List Str := [c!"srv"]
theorem inSrv : Truthful (fs srv) tree (fun cs => dirs.contains cs) srv := truthful (by unfold Normal Comp; decide)
/-- `/home` -/
def home : List Str := [c!"home"]
theorem inHome : Truthful (fs home) tree (fun cs => dirs.contains cs) home := truthful (by unfold Normal Comp; decide)

/-- What is offered in `/home`, for `cd.PARENT.home` typed in `/srv`. -/
example : c!"src" ∈ cdDir c!"/srv" c!"/srv" homes (fs srv) [c!"PARENT", c!"home"] ∧ c!"www" ∉ cdDir c!"/srv" c!"/srv" homes (fs srv) [c!"PARENT", c!"home"] := by
  have h := C112_offered c!"/srv" c!"/srv" homes (fs srv) tree _ _ inSrv [c!"srv"] (by unfold Normal Comp; decide) rfl c!"PARENT" [c!"home"] (by unfold Comp; decide) (by decide)
  refine ⟨(h _).2 (.inr (.inr ⟨by decide, by unfold Normal Comp; decide, by decide, by decide⟩)), fun h2 => ?_⟩
  rcases (h _).1 h2 with h | h | h
  · revert h; decide
  · revert h; decide
  · exact absurd h.2.2.1 (by decide)
example : c!"www" ∈ cdDir c!"/srv" c!"/srv" homes (fs srv) [] := (C112_offered_first_partial c!"/srv" c!"/srv" homes (fs srv) tree _ _ inSrv _).2
  (.inr (.inr ⟨by decide, by unfold Normal Comp; decide, by decide, by decide⟩))
example : expandPath c!"/srv" c!"/srv" homes (cdPath [c!"ROOT", c!"home", c!"src"]) = c!"/home/src" :=
  C112_leads_partial c!"/srv" c!"/srv" homes [c!"srv"] (by unfold Normal Comp; decide) rfl [c!"ROOT", c!"home"] (by unfold Comp; decide) c!"src" (by unfold Normal Comp; decide)
    (fun a h => by cases h; decide)

def world (cwd proc : Str) : World where
  procCwd := proc
  environ := [(c!"HOME", c!"/home")]
  dicts := []
  envs := [{ cwd := cwd, exports := none, interactive := true, dirCache := none }]
  disk := ⟨fun p => dirs.contains (resolve srv p), fun _ => none, fun p => p, (fs srv).listdir⟩
  pwHome := none
  users := homes.named
  builtins := []
  sort := id
example : ((step (world c!"/srv" c!"/srv") (.cdBuiltin 0 [c!"PARENT", c!"home", c!"src"])).envs[0]?).map EnvObj.cwd = some c!"/home/src" :=
  (C112_follow_partial (world c!"/srv" c!"/srv") 0 _ rfl (fs srv) tree _ _ inSrv (fun cs h => by
      show dirs.contains (resolve srv (pathOf 1 cs)) = dirs.contains cs
      rw [resolve_pathOf _ h]) (fun _ _ => rfl) [c!"srv"] (by unfold Normal Comp; decide) rfl c!"PARENT" [c!"home"]
    (by unfold Comp; decide) (by decide) c!"src" ((C112_offered _ _ _ (fs srv) tree _ _ inSrv [c!"srv"] (by unfold Normal Comp; decide) rfl c!"PARENT" [c!"home"] (by unfold Comp; decide) (by decide) _).2
      (.inr (.inr ⟨by decide, by unfold Normal Comp; decide, by decide, by decide⟩))) (by decide) (by decide)).2.1
end CdEx

open CdEx in
/-- **C112, negated.** In an environment that is in another directory than the process (`env("/home")`), the names offered after `cd` are those of the wrong directory: `cd.www` raises an exception,
and `src` is not offered. -/
theorem C112_refuted_elsewhere : Truthful (fs srv) tree (fun cs => dirs.contains cs) srv ∧
    c!"www" ∈ cdDir c!"/home" c!"/srv" homes (fs srv) [] ∧ ((world c!"/home" c!"/srv").cd 0 (cdPath [c!"www"])).2 = .error (.osError 0) ∧
    c!"src" ∉ cdDir c!"/home" c!"/srv" homes (fs srv) [] ∧ ((world c!"/home" c!"/srv").cd 0 (cdPath [c!"src"])).2 = .ok () := by
  refine ⟨inSrv, by decide +kernel, ?_, by decide +kernel, ?_⟩ <;> rfl

open CdEx in
/-- **C112, negated.** Directories called `PARENT` (or `ROOT`), and names beginning with `~`, are offered and lead elsewhere. -/
theorem C112_refuted_names : (Truthful (fs srv) tree (fun cs => dirs.contains cs) srv ∧ tree.isDir [c!"home", c!"PARENT"] = true ∧
      c!"PARENT" ∈ cdDir c!"/srv" c!"/srv" homes (fs srv) [c!"ROOT", c!"home"] ∧ expandPath c!"/srv" c!"/srv" homes (cdPath [c!"ROOT", c!"home", c!"PARENT"]) = c!"/") ∧
    (Truthful (fs home) tree (fun cs => dirs.contains cs) home ∧ c!"~x" ∈ cdDir c!"/home" c!"/home" homes (fs home) [] ∧
      expandPath c!"/home" c!"/home" homes (cdPath [c!"~x"]) = c!"/srv") := by
  exact ⟨⟨inSrv, by decide +kernel, by decide +kernel, by decide +kernel⟩, inHome, by decide +kernel, by decide +kernel⟩

end Pieshell.Envs
