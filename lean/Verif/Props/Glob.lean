import Verif.Props.Expand
import Verif.Props.Fnmatch
/-!
# C106: order of the words of a pattern, and patterns that end with a slash
-/
namespace Pieshell.Expand
open Pieshell.Path Pieshell.Fnm

theorem normComps_snoc_nil (k : Nat) (l acc : List Str) : normComps k acc (l ++ [[]]) = normComps k acc l := by
  induction l generalizing acc with
  | nil => simp [normComps]
  | cons a l ih =>
    simp only [List.cons_append, normComps, ih]

theorem initialSlashes_snoc {p : Str} (h : p ≠ []) (hr : ¬ ∀ c ∈ p, c = '/') : initialSlashes (p ++ c!"/") = initialSlashes p := by
  match p with
  | [] => exact absurd rfl h
  | [a] =>
    have : a ≠ '/' := fun e => hr (by simp [e])
    simp [initialSlashes, this]
  | [a, b] =>
    by_cases ha : a = '/'
    · subst ha
      have : b ≠ '/' := fun e => hr (by simp [e])
      simp [initialSlashes, this]
    · simp [initialSlashes, ha]
  | a :: b :: c :: p =>
    by_cases ha : a = '/'
    · subst ha
      by_cases hb : b = '/'
      · subst hb
        by_cases hc : c = '/'
        · subst hc; simp [initialSlashes]
        · simp [initialSlashes, hc]
      · simp [initialSlashes, hb]
    · simp [initialSlashes, ha]

/-- A slash at the end of a path, unless it is made of slashes only, is dropped. -/
theorem normpath_snoc {p : Str} (hr : ¬ ∀ c ∈ p, c = '/') : normpath (p ++ c!"/") = normpath p := by
  have h : p ≠ [] := by intro e; subst e; exact hr (by simp)
  unfold normpath
  have e : splitSlash (p ++ c!"/") = splitSlash p ++ [[]] := by rw [splitSlash_append]; rfl
  simp only [initialSlashes_snoc h hr, e, normComps_snoc_nil, h, if_false]
  rw [if_neg (by simp)]

theorem join_snoc {a b : Str} (hb : b ≠ []) : join a (b ++ c!"/") = join a b ++ c!"/" := by
  have h : isAbs (b ++ c!"/") = isAbs b := by cases b with | nil => exact absurd rfl hb | cons c b => rfl
  unfold join
  rw [h]
  split
  · rfl
  · split <;> simp

/-- **C106, refuted: patterns that end with a slash.** Such a pattern finds whatever the pattern without the slash finds, also files that are not
directories, and the words have no slash at the end: for a pattern without `%` and leading `~`, the words are the same with and without the slash
(unless there are none, and the word is the pattern itself). -/
theorem C106_refuted_slash (x : Ctx) (hc : isAbs x.cwd = true) (q : Str) (hp : '%' ∉ q) (ht : q.head? ≠ some '~') (hm : hasMagic q = true)
    (words : List Str) (hw : expandArgument x q = .ok words) :
    expandArgument x (q ++ c!"/") = .ok words ∨ (words = [q] ∧ expandArgument x (q ++ c!"/") = .ok [q ++ c!"/"]) := by
  have hq : q ≠ [] := by intro e; subst e; simp [hasMagic] at hm
  have ht' : (q ++ c!"/").head? ≠ some '~' := by
    cases q with
    | nil => exact absurd rfl hq
    | cons c q => exact ht
  have hm' : hasMagic (q ++ c!"/") = true := by
    simp only [hasMagic, List.any_append, Bool.or_eq_true] at hm ⊢; exact .inl hm
  have hs : ¬ ∀ c ∈ q, c = '/' := by
    intro h
    simp only [hasMagic, List.any_eq_true] at hm
    obtain ⟨c, h1, h2⟩ := hm
    rw [h c h1] at h2
    simp at h2
  have hs' : ¬ ∀ c ∈ join x.cwd q, c = '/' := by
    intro h
    refine hs fun c hcq => h c ?_
    unfold join
    split
    · exact hcq
    · split <;> simp [hcq]
  have ha : isAbs (q ++ c!"/") = isAbs q := by cases q with | nil => exact absurd rfl hq | cons c q => rfl
  have habs : abspath x.cwd (q ++ c!"/") = abspath x.cwd q := by
    unfold abspath
    rw [ha]
    split
    · exact normpath_snoc hs
    · rw [join_snoc hq]; exact normpath_snoc hs'
  rw [expandArgument_eq (pctFormat_plain _ _ _ _ _ (by omega) hp), expanduser_plain ht, expandPath_eq hc ht, hm, if_pos rfl] at hw
  rw [expandArgument_eq (pctFormat_plain _ _ _ _ _ (by omega) (by simp [hp])), expanduser_plain ht', expandPath_eq hc ht', hm', if_pos rfl, habs]
  by_cases hg : glob x.fnm x.fs (abspath x.cwd q) = []
  · rw [if_pos hg] at hw ⊢
    right
    injection hw with hw
    exact ⟨hw.symm, rfl⟩
  · rw [if_neg hg] at hw ⊢
    exact .inl hw

/-- the file `x`, which is not a directory, is found by `*/` -/
theorem C106_refuted_slash_example : expandArgument (starCtx fnmatch) c!"*/" = .ok [c!"./x"] := by
  have h : expandArgument (starCtx fnmatch) c!"*" = .ok [c!"./x"] := rfl
  rcases C106_refuted_slash (starCtx fnmatch) rfl c!"*" (by decide) (by decide) (by decide) _ h with h | ⟨h, _⟩
  · exact h
  · exact absurd h (by decide)

/-- **C106.** In an environment whose directory is not the root and has no wild card in its path, the words for a pattern without `/` name the files that match, in
the order in which the operating system lists the directory. (Which names match: C98.) -/
theorem C106_order (x : Ctx) (k : Nat) (cs : List Str) (hk : k = 1 ∨ k = 2) (hcs : ∀ c ∈ cs, Normal c) (hne : cs ≠ []) (hcwd : x.cwd = pathOf k cs) (hmc : cs.any hasMagic = false)
    (hl : ∀ e ∈ x.fs.listdir x.cwd, Normal e.1)
    (q : Str) (hslash : '/' ∉ q) (hpct : '%' ∉ q) (htilde : q.head? ≠ some '~') (hm : hasMagic q = true)
    (names : List Str) (hn : names = ((x.fs.listdir x.cwd).map Prod.fst).filter (fun n => x.fnm n q && (n.head? ≠ some '.' || q.head? = some '.'))) :
    expandArgument x q = .ok (if names = [] then [q] else names.map (fun n => c!"./" ++ n)) := by
  have hqne : q ≠ [] := by rintro rfl; simp [hasMagic] at hm
  have hq1 : q ≠ c!"." := by rintro rfl; revert hm; decide
  have hq2 : q ≠ c!".." := by rintro rfl; revert hm; decide
  have hqn : Normal q := ⟨⟨hqne, hslash⟩, hq1, hq2⟩
  have hrel : isAbs q = false := by
    cases q with
    | nil => rfl
    | cons c q => simp only [List.mem_cons, not_or] at hslash; simp [isAbs, Ne.symm hslash.1]
  have hcN : ∀ c ∈ cs, Comp c := fun c hc => (hcs c hc).1
  have habsP : isAbs x.cwd = true := by rw [hcwd]; exact pathOf_isAbs hk cs
  have hap : abspath x.cwd q = pathOf k (cs ++ [q]) := by
    unfold abspath
    rw [if_neg (by simp [hrel]), hcwd, normpath_join hk hcs hrel, normComps_filter]
    · rw [List.reverse_reverse, splitSlash_single hslash]
      simp [hqne, hq1]
    · intro w hw e
      rw [splitSlash_single hslash, List.mem_singleton] at hw
      exact hq2 (hw ▸ e)
  have hpne : pathOf k cs ≠ [] := by rcases hk with rfl | rfl <;> simp [pathOf, List.replicate]
  have hNn : ∀ n ∈ names, Normal n := by
    intro n hn'
    rw [hn] at hn'
    obtain ⟨e, he, rfl⟩ := List.mem_map.1 (List.mem_filter.1 hn').1
    exact hl e he
  have hglob : glob x.fnm x.fs (pathOf k (cs ++ [q])) = names.map (fun n => pathOf k (cs ++ [n])) := by
    unfold glob
    simp only [iglob, split_pathOf hk hcN hqn.1]
    have hm1 : hasMagic (pathOf k (cs ++ [q])) = true := by rw [hasMagic_pathOf hk]; simp [hm]
    have hm2 : hasMagic (pathOf k cs) = false := by rw [hasMagic_pathOf hk, hmc]
    simp only [hm1, hm2, Bool.not_true, Bool.false_eq_true, if_false, hpne, and_false, List.flatMap_cons, List.flatMap_nil, List.append_nil, hm, if_true]
    have : glob1 x.fnm x.fs (pathOf k cs) q false = names := by
      unfold glob1
      rw [hn, hcwd]
      have e1 : List.filter (fun e : Str × Bool => !false || e.2) (x.fs.listdir (pathOf k cs)) = x.fs.listdir (pathOf k cs) := by simp
      have e2 : ∀ n : Str, hidden n = decide (n.head? = some '.') := by
        intro n; unfold hidden; rw [Bool.eq_iff_iff]; simp
      simp only [hpne, if_false, e1]
      by_cases hh : q.head? = some '.'
      · rw [if_pos (by rw [e2]; simpa using hh)]
        refine List.filter_congr fun n _ => ?_
        simp [hh]
      · rw [if_neg (by rw [e2]; simpa using hh), List.filter_filter]
        refine List.filter_congr fun n _ => ?_
        simp [hh, e2]
    rw [this]
    exact List.map_congr_left fun n hn' => join_pathOf hk hcN (hNn n hn').1
  rw [expandArgument_eq (pctFormat_plain _ _ _ _ _ (by omega) hpct), expanduser_plain htilde, expandPath_eq habsP htilde, hap, hglob, if_pos hm]
  by_cases h0 : names = []
  · simp [h0]
  · rw [if_neg (by simpa using h0), if_neg h0]
    have hroot : x.cwd ≠ c!"/" := by
      intro e
      have e : pathOf k cs = pathOf 1 [] := by rw [← hcwd, e]; rfl
      exact hne ((pathOf_eq_iff hk (.inl rfl) hcN (by simp)).1 e).2
    rw [if_pos hroot, List.map_map]
    congr 1
    refine List.map_congr_left fun n hn' => ?_
    have e : pathOf k (cs ++ [n]) = (pathOf k cs ++ c!"/") ++ n := by
      unfold pathOf
      rw [joinSlash_snoc hne]
      simp
    simp only [Function.comp, relName, hcwd]
    rw [if_pos (startsWith_iff.2 ⟨n, e⟩), e, List.drop_left]

/-- a directory listed as `b`, `.h`, `a` -/
def twoCtx : Ctx := { starCtx fnmatch with
  fs := { listdir := fun p => if p = c!"/d" then [(c!"b", false), (c!".h", false), (c!"a", true)] else [], lexists := fun _ => true, isdir := fun _ => true } }

example : (∀ c ∈ [c!"d"], Normal c) ∧ twoCtx.cwd = pathOf 1 [c!"d"] ∧ (∀ e ∈ twoCtx.fs.listdir twoCtx.cwd, Normal e.1) ∧
    expandArgument twoCtx c!"[a-c]" = .ok [c!"./b", c!"./a"] ∧ expandArgument twoCtx c!"?x" = .ok [c!"?x"] :=
  ⟨by unfold Normal Comp; decide, rfl, by unfold Normal Comp; decide,
    C106_order twoCtx 1 [c!"d"] (.inl rfl) (by unfold Normal Comp; decide) (by decide) rfl (by decide) (by unfold Normal Comp; decide) c!"[a-c]" (by decide) (by decide)
    (by decide) (by decide) [c!"b", c!"a"] rfl,
    C106_order twoCtx 1 [c!"d"] (.inl rfl) (by unfold Normal Comp; decide) (by decide) rfl (by decide) (by unfold Normal Comp; decide) c!"?x" (by decide) (by decide)
    (by decide) (by decide) [] rfl⟩

/-- **C106, refuted: order.** The words are not sorted. -/
theorem C106_refuted_sorted : expandArgument twoCtx c!"*" = .ok [c!"./b", c!"./a"] := by
  rw [C106_order twoCtx 1 [c!"d"] (.inl rfl) (by unfold Normal Comp; decide) (by decide) rfl (by decide) (by unfold Normal Comp; decide) c!"*" (by decide) (by decide)
    (by decide) (by decide) [c!"b", c!"a"] rfl]
  rfl

end Pieshell.Expand
