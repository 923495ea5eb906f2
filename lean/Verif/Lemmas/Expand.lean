import Verif.Lemmas.Path
import Verif.Spec.Expand
/-! Helper lemmas about argument expansion. -/
namespace Pieshell.Path

/-- components that `normpath` keeps when there is no `..` -/
def keep (w : Str) : Bool := !(w = [] || w = c!".")

theorem normComps_append (k : Nat) (l m acc : List Str) (hl : ∀ w ∈ l, w ≠ c!"..") :
    normComps k acc (l ++ m) = normComps k ((l.filter keep).reverse ++ acc) m := by
  induction l generalizing acc with
  | nil => rfl
  | cons a l ih =>
    have hl' := fun w hw => hl w (List.mem_cons_of_mem a hw)
    have ha := hl a (by simp)
    simp only [List.cons_append, normComps]
    split
    · next h =>
      rw [ih acc hl', List.filter_cons, if_neg]
      rcases h with h | h <;> simp [keep, h]
    · next h =>
      simp only [not_or] at h
      rw [if_pos (.inl ha), ih (a :: acc) hl', List.filter_cons, if_pos (by simp [keep, h.1, h.2])]
      simp

theorem normComps_dot (k : Nat) (l m acc : List Str) : normComps k acc (l ++ c!"." :: m) = normComps k acc (l ++ m) := by
  induction l generalizing acc with
  | nil => simp [normComps]
  | cons a l ih =>
    simp only [List.cons_append, normComps]
    split
    · exact ih acc
    · split
      · exact ih _
      · exact ih _

theorem initialSlashes_replicate {k : Nat} (hk : k = 1 ∨ k = 2) {t : Str} (ht : isAbs t = false) : initialSlashes (List.replicate k '/' ++ t) = k := by
  cases t with
  | nil => rcases hk with rfl | rfl <;> rfl
  | cons c s =>
    have hj : ¬ c = '/' := by simpa [isAbs] using ht
    rcases hk with rfl | rfl
    · show initialSlashes ('/' :: c :: s) = 1
      unfold initialSlashes
      split
      · rfl
      · next heq => injection heq with _ h2; injection h2 with h3 _; exact absurd h3 hj
      · rfl
      · next h => exact absurd rfl (h (c :: s))
    · show initialSlashes ('/' :: '/' :: c :: s) = 2
      unfold initialSlashes
      split
      · next heq => injection heq with _ h2; injection h2 with _ h3; injection h3 with h4 _; exact absurd h4 hj
      · rfl
      · next h heq => injection heq with _ h2; exact absurd h2.symm (h (c :: s))
      · next h => exact absurd rfl (h ('/' :: c :: s))

theorem pathOf_last {k : Nat} {cs : List Str} (hcs : cs ≠ []) (h : ∀ c ∈ cs, Comp c) : ¬ (pathOf k cs = [] ∨ (pathOf k cs).getLast? = some '/') := by
  obtain ⟨hl, hne⟩ := joinSlash_last hcs h
  simp only [not_or]
  refine ⟨by simp [pathOf, hne], ?_⟩
  unfold pathOf
  rw [List.getLast?_append]
  cases hx : (joinSlash cs).getLast? with
  | none => exact absurd (List.getLast?_eq_none_iff.1 hx) hne
  | some x =>
    simp
    intro e
    exact hl (by rw [hx, e])

theorem isAbs_append {a b : Str} (h : a ≠ []) : isAbs (a ++ b) = isAbs a := by
  cases a with
  | nil => exact absurd rfl h
  | cons c a => rfl

/-- resolving a relative path against a normal directory -/
theorem normpath_join {k : Nat} (hk : k = 1 ∨ k = 2) {cs : List Str} (h : ∀ c ∈ cs, Normal c) {q : Str} (hq : isAbs q = false) :
    normpath (join (pathOf k cs) q) = pathOf k (normComps k cs.reverse (splitSlash q)) := by
  have habs := join_isAbs (b := q) (pathOf_isAbs hk cs)
  have hc : ∀ c ∈ cs, Comp c := fun c hc => (h c hc).1
  rw [normpath_abs habs]
  have key : ∃ t, isAbs t = false ∧ join (pathOf k cs) q = List.replicate k '/' ++ t ∧
      splitSlash (join (pathOf k cs) q) = (List.replicate k [] ++ cs) ++ splitSlash q := by
    unfold join
    rw [hq]
    simp only [Bool.false_eq_true, ↓reduceIte]
    by_cases hcs : cs = []
    · subst hcs
      rw [if_pos (by right; rcases hk with rfl | rfl <;> rfl)]
      refine ⟨q, hq, by simp [pathOf, joinSlash], ?_⟩
      rcases hk with rfl | rfl <;> simp [pathOf, joinSlash, splitSlash, List.replicate]
    · rw [if_neg (pathOf_last hcs hc)]
      refine ⟨joinSlash cs ++ '/' :: q, ?_, by simp [pathOf], ?_⟩
      · rw [isAbs_append (joinSlash_last hcs hc).2]
        exact joinSlash_head hc
      · rw [splitSlash_append, splitSlash_pathOf hk, splitSlash_joinSlash hcs (fun c x => (hc c x).2)]
  obtain ⟨t, h1, h2, h3⟩ := key
  rw [h3, h2, initialSlashes_replicate hk h1, normComps_append]
  · congr 2
    rw [List.filter_append]
    have : cs.filter keep = cs := filter_normal h
    rw [this]
    rcases hk with rfl | rfl <;> simp [List.replicate, keep]
  · intro w hw
    rcases List.mem_append.1 hw with hw | hw
    · rw [List.eq_of_mem_replicate hw]; decide
    · exact (h w hw).2.2

/-! ### no duplicates -/

theorem glob1_nodup {fnm : Str → Str → Bool} {fs : Fs} (hn : ∀ p, ((fs.listdir p).map Prod.fst).Nodup) (d b : Str) (dironly : Bool) :
    (glob1 fnm fs d b dironly).Nodup := by
  have h1 : (((fs.listdir (if d = [] then c!"." else d)).filter (fun e => !dironly || e.2)).map (·.1)).Nodup :=
    List.Nodup.sublist (List.Sublist.map _ List.filter_sublist) (hn _)
  unfold glob1
  refine List.Nodup.sublist List.filter_sublist ?_
  split
  · exact h1
  · exact List.Nodup.sublist List.filter_sublist h1

theorem nodup_flatMap {α β : Type} {l : List α} {f : α → List β} (hl : l.Nodup) (hf : ∀ a ∈ l, (f a).Nodup)
    (hd : ∀ a ∈ l, ∀ b ∈ l, a ≠ b → ∀ x ∈ f a, x ∉ f b) : (l.flatMap f).Nodup := by
  induction l with
  | nil => simp
  | cons a l ih =>
    rw [List.flatMap_cons, List.nodup_append]
    rw [List.nodup_cons] at hl
    refine ⟨hf a (by simp), ih hl.2 (fun b hb => hf b (by simp [hb])) (fun b hb c hc => hd b (by simp [hb]) c (by simp [hc])), ?_⟩
    intro x hx y hy he
    subst he
    obtain ⟨b, hb, hxb⟩ := List.mem_flatMap.1 hy
    exact hd a (by simp) b (by simp [hb]) (by rintro rfl; exact hl.1 hb) x hx hxb

theorem nodup_map_on {α β : Type} {l : List α} {f : α → β} (hl : l.Nodup) (hf : ∀ a ∈ l, ∀ b ∈ l, f a = f b → a = b) : (l.map f).Nodup := by
  induction l with
  | nil => simp
  | cons a l ih =>
    rw [List.nodup_cons] at hl
    rw [List.map_cons, List.nodup_cons]
    refine ⟨?_, ih hl.2 (fun b hb c hc => hf b (by simp [hb]) c (by simp [hc]))⟩
    intro h
    obtain ⟨b, hb, he⟩ := List.mem_map.1 h
    have := hf b (by simp [hb]) a (by simp) he
    subst this
    exact hl.1 hb

theorem iglob_nodup {fnm : Str → Str → Bool} {fs : Fs} {t : Tree} (ha : Agrees fs t) (hn : ∀ p, ((fs.listdir p).map Prod.fst).Nodup)
    {k : Nat} (hk : k = 1 ∨ k = 2) :
    ∀ (n : Nat) (cs : List Str), cs.length = n → (∀ c ∈ cs, Normal c) → cs.any hasMagic = true → ∀ (f : Nat) (dironly : Bool), n < f →
      (iglob fnm fs f (pathOf k cs) dironly).Nodup := by
  intro n
  induction n with
  | zero =>
    intro cs hl _ hm
    have := List.length_eq_zero_iff.1 hl
    subst this
    simp at hm
  | succ n ih =>
    intro cs hl hcs hm f dironly hf
    obtain ⟨init, c, e⟩ := exists_snoc (l := cs) (by intro e; subst e; simp at hl)
    subst e
    have hinit : ∀ x ∈ init, Normal x := fun x hx => hcs x (by simp [hx])
    have hc : Normal c := hcs c (by simp)
    have hlen : init.length = n := by simpa using hl
    cases f with
    | zero => omega
    | succ f =>
      have hne : pathOf k init ≠ [] := by rcases hk with rfl | rfl <;> simp [pathOf, List.replicate]
      have hmag : hasMagic (pathOf k (init ++ [c])) = true := by rw [hasMagic_pathOf hk]; exact hm
      have hdirs : ∃ dirs, (if pathOf k init ≠ pathOf k (init ++ [c]) ∧ hasMagic (pathOf k init) = true then iglob fnm fs f (pathOf k init) true else [pathOf k init]) = dirs ∧
          dirs.Nodup ∧ (∀ d ∈ dirs, ∃ rs, (∀ c ∈ rs, Normal c) ∧ d = pathOf k rs) := by
        refine ⟨_, rfl, ?_⟩
        split
        · next h =>
          have him : init.any hasMagic = true := by rw [← hasMagic_pathOf hk]; exact h.2
          refine ⟨ih init hlen hinit him f true (by omega), ?_⟩
          intro d hd
          obtain ⟨rs, h1, h2, _⟩ := (iglob_spec ha hk n init hlen hinit him f true (by omega)).1 d hd
          exact ⟨rs, h1, h2⟩
        · exact ⟨by simp, fun d hd => ⟨init, hinit, by simpa using hd⟩⟩
      obtain ⟨dirs, hde, hd1, hd2⟩ := hdirs
      have heq : iglob fnm fs (f + 1) (pathOf k (init ++ [c])) dironly =
          dirs.flatMap (fun dir => (if hasMagic c then glob1 fnm fs dir c dironly else glob0 fs dir c).map (fun name => join dir name)) := by
        simp only [iglob, split_pathOf hk (fun x hx => (hinit x hx).1) hc.1, hmag, Bool.not_true, Bool.false_eq_true, ↓reduceIte, hne]
        rw [hde]
      rw [heq]
      have hname : ∀ rs, (∀ x ∈ rs, Normal x) → ∀ m, m ∈ (if hasMagic c then glob1 fnm fs (pathOf k rs) c dironly else glob0 fs (pathOf k rs) c) → Normal m := by
        intro rs hrs m hmm
        by_cases hcm : hasMagic c = true
        · rw [if_pos hcm] at hmm
          exact ((glob1_mem ha hk hrs hcm hc dironly m).1 hmm).1
        · rw [if_neg hcm] at hmm
          obtain ⟨rfl, _⟩ := (glob0_mem ha hk hrs hc m).1 hmm
          exact hc
      have hinj : ∀ rs, (∀ x ∈ rs, Normal x) → ∀ m, Normal m → ∀ rs', (∀ x ∈ rs', Normal x) → ∀ m', Normal m' →
          join (pathOf k rs) m = join (pathOf k rs') m' → rs = rs' ∧ m = m' := by
        intro rs h1 m h2 rs' h3 m' h4 he
        rw [join_pathOf hk (fun x hx => (h1 x hx).1) h2.1, join_pathOf hk (fun x hx => (h3 x hx).1) h4.1] at he
        have := pathOf_inj hk ?_ ?_ he
        · have h5 := List.append_inj' this (by simp)
          exact ⟨h5.1, by simpa using h5.2⟩
        · intro x hx
          rcases List.mem_append.1 hx with h | h
          · exact (h1 x h).1
          · simp at h; subst h; exact h2.1
        · intro x hx
          rcases List.mem_append.1 hx with h | h
          · exact (h3 x h).1
          · simp at h; subst h; exact h4.1
      refine nodup_flatMap hd1 ?_ ?_
      · intro d hd
        obtain ⟨rs, h1, rfl⟩ := hd2 d hd
        refine nodup_map_on ?_ ?_
        · split
          · exact glob1_nodup hn _ _ _
          · unfold glob0
            split <;> split <;> simp
        · intro a ha' b hb he
          exact (hinj rs h1 a (hname rs h1 a ha') rs h1 b (hname rs h1 b hb) he).2
      · intro a ha' b hb hab x hx hxb
        obtain ⟨rs, h1, rfl⟩ := hd2 a ha'
        obtain ⟨rs', h2, rfl⟩ := hd2 b hb
        obtain ⟨m, hm1, rfl⟩ := List.mem_map.1 hx
        obtain ⟨m', hm2, he⟩ := List.mem_map.1 hxb
        have := (hinj rs h1 m (hname rs h1 m hm1) rs' h2 m' (hname rs' h2 m' hm2) he.symm).1
        exact hab (by rw [this])

theorem glob_literal (fnm : Str → Str → Bool) {fs : Fs} {t : Tree} (ha : Agrees fs t) {k : Nat} (hk : k = 1 ∨ k = 2) {cs : List Str} (hcs : ∀ c ∈ cs, Normal c)
    (hm : cs.any hasMagic = false) : glob fnm fs (pathOf k cs) = if t.exists cs then [pathOf k cs] else [] := by
  have hmag : hasMagic (pathOf k cs) = false := by rw [hasMagic_pathOf hk]; exact hm
  unfold glob
  simp only [iglob, hmag, Bool.not_false, ↓reduceIte]
  by_cases hn : cs = []
  · subst hn
    rw [ha.root.1]
    have h2 := ha.root.2 k hk
    rcases hk with rfl | rfl
    · have : split (pathOf 1 []) = (pathOf 1 [], []) := rfl
      simp only [this, h2, ne_eq, not_true_eq_false, ↓reduceIte]
    · have : split (pathOf 2 []) = (pathOf 2 [], []) := rfl
      simp only [this, h2, ne_eq, not_true_eq_false, ↓reduceIte]
  · obtain ⟨init, c, rfl⟩ := exists_snoc hn
    rw [split_pathOf hk (fun x hx => (hcs x (by simp [hx])).1) (hcs c (by simp)).1]
    simp only [ne_eq, (hcs c (by simp)).1.1, not_false_eq_true, ↓reduceIte, ha.lex k _ hk hcs]

theorem glob_spec_all {fnm : Str → Str → Bool} {fs : Fs} {t : Tree} (ha : Agrees fs t) {k : Nat} (hk : k = 1 ∨ k = 2) {cs : List Str}
    (hcs : ∀ c ∈ cs, Normal c) (r : Str) :
    r ∈ glob fnm fs (pathOf k cs) ↔ ∃ rs, (∀ c ∈ rs, Normal c) ∧ r = pathOf k rs ∧ Pointwise (CompMatch fnm) cs rs ∧ t.exists rs = true := by
  cases hm : cs.any hasMagic with
  | true => exact glob_spec ha hk hcs hm r
  | false =>
    rw [glob_literal fnm ha hk hcs hm]
    constructor
    · intro h
      split at h
      · next he =>
        simp at h
        exact ⟨cs, hcs, h, (pointwise_literal hm).2 rfl, he⟩
      · simp at h
    · rintro ⟨rs, _, rfl, h3, h4⟩
      have := (pointwise_literal hm).1 h3
      subst this
      simp [h4]

theorem glob_nodup_magic {fnm : Str → Str → Bool} {fs : Fs} {t : Tree} (ha : Agrees fs t) (hn : ∀ p, ((fs.listdir p).map Prod.fst).Nodup)
    {k : Nat} (hk : k = 1 ∨ k = 2) {cs : List Str} (hcs : ∀ c ∈ cs, Normal c) (hm : cs.any hasMagic = true) :
    (glob fnm fs (pathOf k cs)).Nodup :=
  iglob_nodup ha hn hk cs.length cs rfl hcs hm _ _ (by have := pathOf_length k (fun x hx => (hcs x hx).1); omega)

theorem glob_nodup {fnm : Str → Str → Bool} {fs : Fs} {t : Tree} (ha : Agrees fs t) (hn : ∀ p, ((fs.listdir p).map Prod.fst).Nodup)
    {k : Nat} (hk : k = 1 ∨ k = 2) {cs : List Str} (hcs : ∀ c ∈ cs, Normal c) : (glob fnm fs (pathOf k cs)).Nodup := by
  cases hm : cs.any hasMagic with
  | true => exact glob_nodup_magic ha hn hk hcs hm
  | false =>
    rw [glob_literal fnm ha hk hcs hm]
    split <;> simp

end Pieshell.Path

namespace Pieshell.Expand
open Pieshell.Path

theorem expanduser_plain {homes : Homes} {s : Str} (h : s.head? ≠ some '~') : expanduser homes s = s := by
  unfold expanduser
  split
  · simp at h
  · rfl

theorem beq_decide (a c : Char) : (a == c) = decide (c = a) := by
  by_cases h : c = a
  · subst h; simp
  · have h' : ¬ a = c := fun e => h e.symm
    simp [h, h']

theorem magic_contains (s : Str) : (!s.contains '*' && !s.contains '?' && !s.contains '[') = !hasMagic s := by
  unfold hasMagic
  induction s with
  | nil => rfl
  | cons c s ih =>
    simp only [List.contains_cons, List.any_cons, Bool.not_or] at ih ⊢
    rw [← ih]
    rw [beq_decide, beq_decide, beq_decide]
    cases decide (c = '*') <;> cases decide (c = '?') <;> cases decide (c = '[') <;> simp

theorem pctFormat_plain (lookup : Str → Except Exn Str) (whole : Str) (used : Bool) :
    ∀ (s : Str) (f : Nat), s.length < f → '%' ∉ s → pctFormat lookup whole f used s = .ok s := by
  intro s
  induction s with
  | nil => intro f hf _; cases f with | zero => omega | succ f => rfl
  | cons c s ih =>
    intro f hf hp
    cases f with
    | zero => omega
    | succ f =>
      simp only [List.mem_cons, not_or] at hp
      simp only [List.length_cons] at hf
      have hc : c ≠ '%' := fun e => hp.1 e.symm
      simp only [pctFormat]
      rw [if_pos hc, ih f (by omega) hp.2]
      rfl

/-! ### templates -/

/-- what precedes the end of a key -/
theorem readKey_balanced {name : Str} (h : Balanced name) : ∀ (d : Nat) (rest : Str), readKey d (name ++ rest) = (readKey d rest).map (fun p => (name ++ p.1, p.2)) := by
  induction h with
  | nil => intro d rest; cases h : readKey d rest <;> simp [h]
  | @char c s h1 h2 _ ih =>
    intro d rest
    simp only [List.cons_append, readKey]
    rw [if_neg h2, if_neg h1, ih]
    cases readKey d rest <;> rfl
  | @paren s t _ _ ihs iht =>
    intro d rest
    simp only [List.cons_append, List.append_assoc, readKey]
    simp only [↓reduceIte, reduceCtorEq, Char.reduceEq]
    rw [ihs]
    simp only [readKey, ↓reduceIte]
    rw [iht]
    cases readKey d rest <;> simp

theorem readKey_plain (name rest : Str) (h : Balanced name) : readKey 0 (name ++ ')' :: rest) = some (name, rest) := by
  rw [readKey_balanced h]
  simp [readKey]

theorem prepend_prepend (a b : Str) (r : Except Exn Str) : prepend a (prepend b r) = prepend (a ++ b) r := by
  cases r <;> simp [prepend]

theorem pctFormat_lit (lookup : Str → Except Exn Str) (whole : Str) (used : Bool) (s rest : Str) (f : Nat) (hf : (double s ++ rest).length < f) :
    ∃ f', rest.length < f' ∧ pctFormat lookup whole f used (double s ++ rest) = prepend s (pctFormat lookup whole f' used rest) := by
  induction s generalizing f with
  | nil => exact ⟨f, hf, by cases h : pctFormat lookup whole f used rest <;> simp [double, prepend, h]⟩
  | cons c s ih =>
    by_cases hc : c = '%'
    · subst hc
      have e : double ('%' :: s) ++ rest = '%' :: '%' :: (double s ++ rest) := by simp [double]
      rw [e] at hf ⊢
      cases f with
      | zero => omega
      | succ f =>
        obtain ⟨f', h1, h2⟩ := ih f (by simp only [List.length_cons] at hf; omega)
        refine ⟨f', h1, ?_⟩
        simp only [pctFormat, ne_eq, not_true_eq_false, ↓reduceIte]
        rw [h2, prepend_prepend]
        rfl
    · have e : double (c :: s) ++ rest = c :: (double s ++ rest) := by simp [double, hc]
      rw [e] at hf ⊢
      cases f with
      | zero => omega
      | succ f =>
        obtain ⟨f', h1, h2⟩ := ih f (by simp only [List.length_cons] at hf; omega)
        refine ⟨f', h1, ?_⟩
        simp only [pctFormat]
        rw [if_pos hc, h2, prepend_prepend]
        rfl

theorem pctFormat_pieces (lookup : Str → Except Exn Str) (whole : Str) (used : Bool) (ps : List Piece) (hp : ∀ p ∈ ps, p.Plain) :
    ∀ f, (ps.flatMap Piece.source).length < f →
      pctFormat lookup whole f used (ps.flatMap Piece.source) = values lookup ps := by
  induction ps with
  | nil => intro f hf; cases f with | zero => omega | succ f => rfl
  | cons p ps ih =>
    intro f hf
    have ih := ih (fun q hq => hp q (by simp [hq]))
    have hpp := hp p (by simp)
    rw [List.flatMap_cons] at hf ⊢
    cases p with
    | lit s =>
      obtain ⟨f', h1, h2⟩ := pctFormat_lit lookup whole used s (ps.flatMap Piece.source) f hf
      simp only [Piece.source, values]
      rw [h2, ih f' h1]
    | var n =>
      have e : Piece.source (.var n) ++ ps.flatMap Piece.source = '%' :: '(' :: (n ++ ')' :: 's' :: ps.flatMap Piece.source) := by
        simp [Piece.source]
      rw [e] at hf ⊢
      cases f with
      | zero => omega
      | succ f =>
        simp only [pctFormat, ne_eq, not_true_eq_false, ↓reduceIte, readKey_plain n _ hpp, values]
        cases lookup n with
        | error e => rfl
        | ok v =>
          simp only
          rw [ih f (by simp only [List.length_cons, List.length_append] at hf; omega)]

theorem expandPath_eq {x : Ctx} {q : Str} (hc : isAbs x.cwd = true) (h : q.head? ≠ some '~') :
    expandPath x.cwd x.procCwd x.homes q = abspath x.cwd q := by
  unfold expandPath
  have h2 : (q.head? == some '~') = false := by simpa using h
  by_cases ha : isAbs q = true
  · have : (q.head? == some '/') = true := ha
    simp only [this, Bool.not_true, Bool.false_and, Bool.false_eq_true, ↓reduceIte]
    rw [expanduser_plain h]
    simp [abspath, ha]
  · have ha : isAbs q = false := by simpa using ha
    have h1 : (q.head? == some '/') = false := ha
    simp only [h1, h2, Bool.not_false, Bool.and_true, ↓reduceIte]
    have hj := join_isAbs (b := q) hc
    rw [expanduser_plain]
    · simp only [abspath, hj, ha, ↓reduceIte, Bool.false_eq_true]
    · intro e
      unfold isAbs at hj
      rw [e] at hj
      simp at hj

theorem glob_isAbs {x : Ctx} (hp : isAbs x.procCwd = true) (q : Str) : ∀ r ∈ glob x.fnm x.fs (expandPath x.cwd x.procCwd x.homes q), isAbs r = true :=
  iglob_abs _ _ _ _ _ (abspath_normal hp).isAbs

/-- what `_expand_argument` does after formatting -/
theorem expandArgument_eq {x : Ctx} {arg v : Str} (hv : pctFormat x.lookup x.scopeText (arg.length + 1) false arg = .ok v) :
    expandArgument x arg =
      if hasMagic (expanduser x.homes v) then
        if glob x.fnm x.fs (expandPath x.cwd x.procCwd x.homes (expanduser x.homes v)) = [] then .ok [expanduser x.homes v]
        else if x.cwd ≠ c!"/" then .ok ((glob x.fnm x.fs (expandPath x.cwd x.procCwd x.homes (expanduser x.homes v))).map (relName x.cwd))
        else .ok (glob x.fnm x.fs (expandPath x.cwd x.procCwd x.homes (expanduser x.homes v)))
      else .ok [expanduser x.homes v] := by
  unfold expandArgument
  rw [hv]
  simp only
  rw [magic_contains]
  cases hasMagic (expanduser x.homes v) <;> simp

theorem startsWith_iff {p s : Str} : startsWith p s = true ↔ ∃ t, s = p ++ t := by
  unfold startsWith
  rw [List.isPrefixOf_iff_prefix]
  exact ⟨fun ⟨t, h⟩ => ⟨t, h.symm⟩, fun ⟨t, h⟩ => ⟨t, h.symm⟩⟩

/-- a word made from a result names that result -/
theorem relName_resolves {cwd r : Str} (hc : NormalPath cwd) (hroot : cwd ≠ c!"/") (hr : NormalPath r) : abspath cwd (relName cwd r) = r := by
  unfold relName
  split
  · next h =>
    obtain ⟨rest, e⟩ := startsWith_iff.1 h
    have e' : r = cwd ++ '/' :: rest := by rw [e]; simp
    rw [show r.drop (cwd ++ c!"/").length = rest by rw [e]; simp]
    obtain ⟨k, cs, hk, hcs, rfl⟩ := hc
    by_cases hne : cs = []
    · subst hne
      -- a result cannot start with `//` plus the slashes of the directory, unless the directory is `/`
      exfalso
      obtain ⟨k', rs, hk', hrs, e2⟩ := hr
      have hh := joinSlash_head (fun c hc => (hrs c hc).1)
      rw [e2] at e'
      rcases hk with rfl | rfl <;> rcases hk' with rfl | rfl <;>
        simp only [pathOf, joinSlash, List.replicate, List.append_nil, List.cons_append, List.nil_append, List.cons.injEq, true_and] at e'
      · exact hroot rfl
      · exact hroot rfl
      · rw [e'] at hh; simp [isAbs] at hh
      · rw [e'] at hh; simp [isAbs] at hh
    · have hcomp : ∀ c ∈ cs, Comp c := fun c hc => (hcs c hc).1
      have hj : join (pathOf k cs) (c!"./" ++ rest) = pathOf k cs ++ '/' :: '.' :: '/' :: rest := by
        unfold join
        rw [if_neg (by simp [isAbs]), if_neg (pathOf_last hne hcomp)]
        rfl
      have hin : ∀ u, initialSlashes (pathOf k cs ++ '/' :: u) = k := by
        intro u
        unfold pathOf
        rw [List.append_assoc]
        refine initialSlashes_replicate hk ?_
        rw [isAbs_append (joinSlash_last hne hcomp).2]
        exact joinSlash_head hcomp
      have habs : ∀ u, isAbs (pathOf k cs ++ '/' :: u) = true := by
        intro u
        rw [isAbs_append (by rcases hk with rfl | rfl <;> simp [pathOf, List.replicate])]
        exact pathOf_isAbs hk cs
      have hnr := normpath_idem hr
      unfold abspath
      rw [if_neg (by simp [isAbs]), hj, normpath_abs (habs _), hin]
      rw [e', normpath_abs (habs _), hin] at hnr
      rw [e', ← hnr]
      congr 1
      rw [splitSlash_append, splitSlash_append]
      have : splitSlash ('.' :: '/' :: rest) = c!"." :: splitSlash rest := by simp [splitSlash]
      rw [this]
      exact normComps_dot _ _ _ _
  · unfold abspath
    rw [if_pos hr.isAbs, normpath_idem hr]

theorem double_length (s : Str) : (double s) = [Piece.lit s].flatMap Piece.source := by simp [Piece.source]

end Pieshell.Expand
