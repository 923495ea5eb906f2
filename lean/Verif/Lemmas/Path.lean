import Verif.Spec.Path
/-! Helper lemmas about paths. -/
namespace Pieshell.Path

theorem exists_snoc {α : Type} {l : List α} (h : l ≠ []) : ∃ i c, l = i ++ [c] := by
  induction l with
  | nil => exact absurd rfl h
  | cons a l ih =>
    cases l with
    | nil => exact ⟨[], a, rfl⟩
    | cons b l =>
      obtain ⟨i, c, e⟩ := ih (by simp)
      exact ⟨a :: i, c, by rw [e]; rfl⟩

theorem splitSlash_ne_nil (s : Str) : splitSlash s ≠ [] := by
  cases s with
  | nil => simp [splitSlash]
  | cons c s =>
    simp only [splitSlash]
    split
    · simp
    · split <;> simp

theorem splitSlash_noslash (s : Str) : ∀ w ∈ splitSlash s, '/' ∉ w := by
  induction s with
  | nil => simp [splitSlash]
  | cons c s ih =>
    intro w hw
    simp only [splitSlash] at hw
    split at hw
    · rcases List.mem_cons.1 hw with rfl | hw
      · simp
      · exact ih w hw
    · next hc =>
      split at hw
      · next h => exact absurd h (splitSlash_ne_nil s)
      · next v vs h =>
        rw [h] at ih
        rcases List.mem_cons.1 hw with rfl | hw
        · simp only [List.mem_cons, not_or]
          exact ⟨fun e => hc e.symm, ih v (by simp)⟩
        · exact ih w (by simp [hw])

theorem splitSlash_append (a b : Str) : splitSlash (a ++ '/' :: b) = splitSlash a ++ splitSlash b := by
  induction a with
  | nil => simp [splitSlash]
  | cons c a ih =>
    simp only [List.cons_append, splitSlash, ih]
    split
    · simp
    · cases h : splitSlash a with
      | nil => exact absurd h (splitSlash_ne_nil a)
      | cons v vs => simp

theorem splitSlash_single {w : Str} (h : '/' ∉ w) : splitSlash w = [w] := by
  induction w with
  | nil => rfl
  | cons c w ih =>
    simp only [List.mem_cons, not_or] at h
    simp only [splitSlash]
    rw [if_neg (fun e => h.1 e.symm), ih h.2]

theorem splitSlash_joinSlash {cs : List Str} (hn : cs ≠ []) (h : ∀ c ∈ cs, '/' ∉ c) : splitSlash (joinSlash cs) = cs := by
  induction cs with
  | nil => exact absurd rfl hn
  | cons a cs ih =>
    cases cs with
    | nil => exact splitSlash_single (h a (by simp))
    | cons b cs =>
      simp only [joinSlash]
      rw [splitSlash_append, splitSlash_single (h a (by simp)), ih (by simp) (fun c hc => h c (by simp [hc]))]
      rfl

theorem normComps_normal (k : Nat) (hk : k ≠ 0) (l acc : List Str) (hl : ∀ w ∈ l, '/' ∉ w) (ha : ∀ c ∈ acc, Normal c) :
    ∀ c ∈ normComps k acc l, Normal c := by
  induction l generalizing acc with
  | nil => intro c hc; simp only [normComps, List.mem_reverse] at hc; exact ha c hc
  | cons a l ih =>
    have hl' := fun w hw => hl w (List.mem_cons_of_mem a hw)
    simp only [normComps]
    split
    · exact ih acc hl' ha
    · next h1 =>
      simp only [not_or] at h1
      split
      · next h2 =>
        refine ih (a :: acc) hl' ?_
        intro c hc
        rcases List.mem_cons.1 hc with rfl | hc
        · refine ⟨⟨h1.1, hl c (by simp)⟩, h1.2, ?_⟩
          rcases h2 with h2 | ⟨h2, _⟩ | h2
          · exact h2
          · exact absurd h2 hk
          · cases acc with
            | nil => cases h2
            | cons x acc =>
              simp only [List.head?_cons, Option.some.injEq] at h2
              exact absurd h2 (ha x (by simp)).2.2
        · exact ha c hc
      · exact ih acc.tail hl' (fun c hc => ha c (List.mem_of_mem_tail hc))

/-- without `..`, the loop drops empty and `.` components -/
theorem normComps_filter (k : Nat) (l acc : List Str) (hl : ∀ w ∈ l, w ≠ c!"..") :
    normComps k acc l = acc.reverse ++ l.filter (fun w => !(w = [] || w = c!".")) := by
  induction l generalizing acc with
  | nil => simp [normComps]
  | cons a l ih =>
    have hl' := fun w hw => hl w (List.mem_cons_of_mem a hw)
    have ha := hl a (by simp)
    simp only [normComps]
    split
    · next h =>
      rw [ih acc hl', List.filter_cons]
      rw [if_neg]
      rcases h with h | h <;> simp [h]
    · next h =>
      simp only [not_or] at h
      rw [if_pos (.inl ha), ih (a :: acc) hl', List.filter_cons]
      rw [if_pos (by simp [h.1, h.2])]
      simp

theorem initialSlashes_abs {p : Str} (h : isAbs p = true) : initialSlashes p = 1 ∨ initialSlashes p = 2 := by
  cases p with
  | nil => cases h
  | cons c p =>
    simp [isAbs] at h
    subst h
    unfold initialSlashes
    split <;> simp_all

theorem normpath_abs {p : Str} (h : isAbs p = true) :
    normpath p = pathOf (initialSlashes p) (normComps (initialSlashes p) [] (splitSlash p)) := by
  have hne : p ≠ [] := by intro e; subst e; cases h
  have := initialSlashes_abs h
  unfold normpath
  rw [if_neg hne]
  simp only
  rw [if_neg]
  · rfl
  · rcases this with h | h <;> rw [h] <;> simp [List.replicate]

theorem normpath_normal {p : Str} (h : isAbs p = true) : NormalPath (normpath p) := by
  refine ⟨_, _, initialSlashes_abs h, ?_, normpath_abs h⟩
  refine normComps_normal _ ?_ _ _ (splitSlash_noslash p) (by simp)
  rcases initialSlashes_abs h with h | h <;> omega

theorem pathOf_isAbs {k : Nat} (hk : k = 1 ∨ k = 2) (cs : List Str) : isAbs (pathOf k cs) = true := by
  rcases hk with rfl | rfl <;> rfl

theorem NormalPath.isAbs {p : Str} (h : NormalPath p) : Path.isAbs p = true := by
  obtain ⟨k, cs, hk, _, rfl⟩ := h
  exact pathOf_isAbs hk cs

theorem join_isAbs {a b : Str} (h : isAbs a = true) : isAbs (join a b) = true := by
  unfold join
  split
  · assumption
  · have : ∀ x : Str, isAbs (a ++ x) = true := by
      intro x
      cases a with
      | nil => cases h
      | cons c a => simpa [isAbs] using h
    split <;> exact this _

theorem abspath_normal {c p : Str} (hc : isAbs c = true) : NormalPath (abspath c p) := by
  unfold abspath
  refine normpath_normal ?_
  split
  · assumption
  · exact join_isAbs hc

theorem joinSlash_head {cs : List Str} (h : ∀ c ∈ cs, Comp c) : isAbs (joinSlash cs) = false := by
  cases cs with
  | nil => rfl
  | cons a cs =>
    obtain ⟨h1, h2⟩ := h a (by simp)
    have : isAbs a = false := by
      cases a with
      | nil => rfl
      | cons c a =>
        simp only [List.mem_cons, not_or] at h2
        simp [isAbs]
        exact fun e => h2.1 e.symm
    cases a with
    | nil => exact absurd rfl h1
    | cons c a =>
      cases cs with
      | nil => exact this
      | cons b cs => simpa [joinSlash, isAbs] using this

theorem initialSlashes_pathOf {k : Nat} (hk : k = 1 ∨ k = 2) {cs : List Str} (h : ∀ c ∈ cs, Comp c) : initialSlashes (pathOf k cs) = k := by
  have hj := joinSlash_head h
  rcases hk with rfl | rfl
  · show initialSlashes ('/' :: joinSlash cs) = 1
    cases hx : joinSlash cs with
    | nil => rfl
    | cons c s =>
      rw [hx] at hj
      simp [isAbs] at hj
      unfold initialSlashes
      split
      · rfl
      · next heq => injection heq with _ h2; injection h2 with h3 _; exact absurd h3 hj
      · rfl
      · next h => exact absurd rfl (h (c :: s))
  · show initialSlashes ('/' :: '/' :: joinSlash cs) = 2
    cases hx : joinSlash cs with
    | nil => rfl
    | cons c s =>
      rw [hx] at hj
      simp [isAbs] at hj
      unfold initialSlashes
      split
      · next heq => injection heq with _ h2; injection h2 with _ h3; injection h3 with h4 _; exact absurd h4 hj
      · rfl
      · next h heq => injection heq with _ h2; exact absurd h2.symm (h (c :: s))
      · next h => exact absurd rfl (h ('/' :: c :: s))

theorem splitSlash_pathOf {k : Nat} (hk : k = 1 ∨ k = 2) (cs : List Str) : splitSlash (pathOf k cs) = List.replicate k [] ++ splitSlash (joinSlash cs) := by
  rcases hk with rfl | rfl
  · show splitSlash ('/' :: joinSlash cs) = [] :: splitSlash (joinSlash cs)
    simp [splitSlash]
  · show splitSlash ('/' :: '/' :: joinSlash cs) = [] :: [] :: splitSlash (joinSlash cs)
    simp [splitSlash]

theorem filter_normal {cs : List Str} (h : ∀ c ∈ cs, Normal c) : cs.filter (fun w => !(w = [] || w = c!".")) = cs := by
  rw [List.filter_eq_self]
  intro c hc
  obtain ⟨⟨h1, _⟩, h2, _⟩ := h c hc
  simp [h1, h2]

theorem splitSlash_join_normal {cs : List Str} (h : ∀ c ∈ cs, Normal c) :
    (splitSlash (joinSlash cs)).filter (fun w => !(w = [] || w = c!".")) = cs ∧ ∀ w ∈ splitSlash (joinSlash cs), w ≠ c!".." := by
  cases cs with
  | nil => exact ⟨rfl, by intro w hw; simp [joinSlash, splitSlash] at hw; subst hw; decide⟩
  | cons a cs =>
    rw [splitSlash_joinSlash (by simp) (fun c hc => (h c hc).1.2)]
    exact ⟨filter_normal h, fun w hw => (h w hw).2.2⟩

/-- `normpath` leaves normal paths alone -/
theorem normpath_pathOf {k : Nat} (hk : k = 1 ∨ k = 2) {cs : List Str} (h : ∀ c ∈ cs, Normal c) : normpath (pathOf k cs) = pathOf k cs := by
  rw [normpath_abs (pathOf_isAbs hk cs), initialSlashes_pathOf hk (fun c hc => (h c hc).1)]
  congr 1
  obtain ⟨h1, h2⟩ := splitSlash_join_normal h
  rw [normComps_filter _ _ _ ?_, splitSlash_pathOf hk, List.filter_append, h1]
  · rcases hk with rfl | rfl <;> simp [List.replicate]
  · rw [splitSlash_pathOf hk]
    intro w hw
    rcases List.mem_append.1 hw with hw | hw
    · rw [List.eq_of_mem_replicate hw]; decide
    · exact h2 w hw

theorem normpath_idem {p : Str} (h : NormalPath p) : normpath p = p := by
  obtain ⟨k, cs, hk, hc, rfl⟩ := h
  exact normpath_pathOf hk hc

theorem joinSlash_snoc {cs : List Str} (hcs : cs ≠ []) (c : Str) : joinSlash (cs ++ [c]) = joinSlash cs ++ '/' :: c := by
  induction cs with
  | nil => exact absurd rfl hcs
  | cons a cs ih =>
    cases cs with
    | nil => rfl
    | cons b cs =>
      have := ih (by simp)
      simp only [List.cons_append, joinSlash, List.append_assoc] at this ⊢
      rw [this]

theorem joinSlash_last {cs : List Str} (hcs : cs ≠ []) (h : ∀ c ∈ cs, Comp c) : (joinSlash cs).getLast? ≠ some '/' ∧ joinSlash cs ≠ [] := by
  obtain ⟨init, c, e⟩ := exists_snoc hcs
  subst e
  obtain ⟨h1, h2⟩ := h c (by simp)
  have hl : ∀ x : Str, (x ++ c).getLast? ≠ some '/' := by
    intro x he
    obtain ⟨c', d, rfl⟩ := exists_snoc h1
    rw [← List.append_assoc, List.getLast?_append] at he
    simp at he
    exact h2 (by simp [he])
  by_cases hi : init = []
  · subst hi
    exact ⟨hl [], by simpa [joinSlash] using h1⟩
  · rw [joinSlash_snoc hi]
    have := hl (joinSlash init ++ ['/'])
    exact ⟨by simpa using this, by simp⟩

theorem join_pathOf {k : Nat} (hk : k = 1 ∨ k = 2) {cs : List Str} (h : ∀ c ∈ cs, Comp c) {c : Str} (hc : Comp c) :
    join (pathOf k cs) c = pathOf k (cs ++ [c]) := by
  have hna : isAbs c = false := by simpa [joinSlash] using joinSlash_head (cs := [c]) (by simpa using hc)
  unfold join
  rw [hna]
  simp only [Bool.false_eq_true, ↓reduceIte]
  by_cases hcs : cs = []
  · subst hcs
    rw [if_pos]
    · simp [pathOf, joinSlash]
    · right; rcases hk with rfl | rfl <;> rfl
  · obtain ⟨hl, hne⟩ := joinSlash_last hcs h
    rw [if_neg]
    · simp only [pathOf]
      rw [joinSlash_snoc hcs]
      simp
    · simp only [not_or]
      refine ⟨by rcases hk with rfl | rfl <;> simp [pathOf, List.replicate], ?_⟩
      unfold pathOf
      rw [List.getLast?_append]
      cases hx : (joinSlash cs).getLast? with
      | none => exact absurd (List.getLast?_eq_none_iff.1 hx) hne
      | some x =>
        simp
        intro e
        exact hl (by rw [hx, e])

theorem takeWhile_noslash {c rest : Str} (h : '/' ∉ c) : (c ++ '/' :: rest).takeWhile (· ≠ '/') = c ∧ (c ++ '/' :: rest).dropWhile (· ≠ '/') = '/' :: rest := by
  induction c with
  | nil => simp
  | cons x c ih =>
    simp only [List.mem_cons, not_or] at h
    have := ih h.2
    have hx : x ≠ '/' := fun e => h.1 e.symm
    simp only [List.cons_append, List.takeWhile_cons, List.dropWhile_cons, ne_eq, hx, not_false_eq_true, decide_true, ↓reduceIte]
    exact ⟨by rw [this.1], this.2⟩

theorem split_snoc {h c : Str} (hc : '/' ∉ c) : split (h ++ '/' :: c) =
    (if (h ++ ['/']).all (· = '/') then h ++ ['/'] else rstripSlash (h ++ ['/']), c) := by
  have e : (h ++ '/' :: c).reverse = c.reverse ++ '/' :: h.reverse := by simp
  have := takeWhile_noslash (c := c.reverse) (rest := h.reverse) (by simpa using hc)
  unfold split
  rw [e, this.1, this.2]
  simp

theorem rstrip_slash {s : Str} (h : s.getLast? ≠ some '/') : rstripSlash (s ++ ['/']) = s := by
  unfold rstripSlash
  rw [List.reverse_append]
  simp only [List.reverse_cons, List.reverse_nil, List.nil_append, List.singleton_append, List.dropWhile_cons, decide_true, ↓reduceIte]
  by_cases hs : s = []
  · subst hs; rfl
  · obtain ⟨s', x, rfl⟩ := exists_snoc hs
    have hx : x ≠ '/' := by simpa using h
    simp [hx]

theorem split_pathOf {k : Nat} (hk : k = 1 ∨ k = 2) {cs : List Str} (h : ∀ c ∈ cs, Comp c) {c : Str} (hc : Comp c) :
    split (pathOf k (cs ++ [c])) = (pathOf k cs, c) := by
  by_cases hcs : cs = []
  · subst hcs
    rcases hk with rfl | rfl
    · have := split_snoc (h := []) hc.2
      simpa [pathOf, joinSlash, List.replicate] using this
    · have := split_snoc (h := ['/']) hc.2
      simpa [pathOf, joinSlash, List.replicate] using this
  · obtain ⟨hl, hne⟩ := joinSlash_last hcs h
    have e : pathOf k (cs ++ [c]) = pathOf k cs ++ '/' :: c := by
      unfold pathOf; rw [joinSlash_snoc hcs]; simp
    rw [e, split_snoc hc.2, if_neg, rstrip_slash]
    · unfold pathOf
      rw [List.getLast?_append]
      cases hx : (joinSlash cs).getLast? with
      | none => exact absurd (List.getLast?_eq_none_iff.1 hx) hne
      | some x =>
        simp
        intro e
        exact hl (by rw [hx, e])
    · intro hall
      rw [List.all_append, Bool.and_eq_true] at hall
      have hall := hall.1
      unfold pathOf at hall
      rw [List.all_append, Bool.and_eq_true] at hall
      have := hall.2
      cases hx : (joinSlash cs) with
      | nil => exact hne hx
      | cons x s =>
        rw [hx] at this
        have hj := joinSlash_head h
        rw [hx] at hj
        simp [isAbs] at hj
        simp at this
        exact hj this.1

theorem hasMagic_joinSlash (cs : List Str) : hasMagic (joinSlash cs) = cs.any hasMagic := by
  induction cs with
  | nil => rfl
  | cons a cs ih =>
    cases cs with
    | nil => simp [joinSlash]
    | cons b cs =>
      simp only [joinSlash]
      rw [List.any_cons, ← ih]
      simp [hasMagic]

theorem hasMagic_pathOf {k : Nat} (hk : k = 1 ∨ k = 2) (cs : List Str) : hasMagic (pathOf k cs) = cs.any hasMagic := by
  rw [← hasMagic_joinSlash]
  rcases hk with rfl | rfl <;> simp [hasMagic, pathOf, List.replicate]

theorem pathOf_inj {k : Nat} (hk : k = 1 ∨ k = 2) {cs ds : List Str} (hc : ∀ c ∈ cs, Comp c) (hd : ∀ c ∈ ds, Comp c)
    (h : pathOf k cs = pathOf k ds) : cs = ds := by
  have h := List.append_cancel_left h
  cases cs with
  | nil =>
    cases ds with
    | nil => rfl
    | cons d ds => exact absurd h.symm (joinSlash_last (by simp) hd).2
  | cons c cs =>
    cases ds with
    | nil => exact absurd h (joinSlash_last (by simp) hc).2
    | cons d ds =>
      rw [← splitSlash_joinSlash (cs := c :: cs) (by simp) (fun x hx => (hc x hx).2), h, splitSlash_joinSlash (by simp) (fun x hx => (hd x hx).2)]

theorem pathOf_length (k : Nat) {cs : List Str} (h : ∀ c ∈ cs, Comp c) : cs.length ≤ (pathOf k cs).length := by
  have : cs.length ≤ (joinSlash cs).length := by
    induction cs with
    | nil => simp
    | cons a cs ih =>
      have ha := h a (by simp)
      have : 0 < a.length := List.length_pos_iff.2 ha.1
      cases cs with
      | nil => simp only [joinSlash, List.length_cons, List.length_nil]; omega
      | cons b cs =>
        have := ih (fun c hc => h c (by simp [hc]))
        simp only [joinSlash, List.length_append, List.length_cons] at this ⊢
        omega
  unfold pathOf
  rw [List.length_append]
  omega

/-! ### glob -/

theorem pointwise_snoc {α β : Type} {R : α → β → Prop} {l : List α} {a : α} {m : List β} {b : β} (h : Pointwise R l m) (hab : R a b) :
    Pointwise R (l ++ [a]) (m ++ [b]) := by
  induction h with
  | nil => exact .cons hab .nil
  | cons h1 _ ih => exact .cons h1 ih

theorem pointwise_snoc_inv {α β : Type} {R : α → β → Prop} {l : List α} {a : α} {m : List β} (h : Pointwise R (l ++ [a]) m) :
    ∃ m' b, m = m' ++ [b] ∧ Pointwise R l m' ∧ R a b := by
  induction l generalizing m with
  | nil =>
    cases h with
    | cons h1 h2 => cases h2; exact ⟨[], _, rfl, .nil, h1⟩
  | cons x l ih =>
    cases h with
    | cons h1 h2 =>
      obtain ⟨m', b, rfl, h3, h4⟩ := ih h2
      exact ⟨_ :: m', b, rfl, .cons h1 h3, h4⟩

/-- What is expanded as a pattern is what has wild cards. -/
theorem wild_eq : wild = hasMagic := rfl

theorem pointwise_literal {fnm : Str → Str → Bool} {cs rs : List Str} (h : cs.any hasMagic = false) : Pointwise (CompMatch fnm) cs rs ↔ rs = cs := by
  induction cs generalizing rs with
  | nil =>
    constructor
    · intro h; cases h; rfl
    · rintro rfl; exact .nil
  | cons c cs ih =>
    simp only [List.any_cons, Bool.or_eq_false_iff] at h
    constructor
    · intro hp
      cases hp with
      | cons h1 h2 =>
        simp only [CompMatch, wild_eq, h.1] at h1
        rw [(ih h.2).1 h2]
        simp at h1
        rw [h1]
    · rintro rfl
      exact .cons (by simp [CompMatch, wild_eq, h.1]) ((ih h.2).2 rfl)

theorem glob1_mem {fnm : Str → Str → Bool} {fs : Fs} {t : Tree} (ha : Agrees fs t) {k : Nat} (hk : k = 1 ∨ k = 2) {rs : List Str}
    (hr : ∀ c ∈ rs, Normal c) {c : Str} (hm : hasMagic c = true) (hc : Normal c) (dironly : Bool) (n : Str) :
    n ∈ glob1 fnm fs (pathOf k rs) c dironly ↔ Normal n ∧ CompMatch fnm c n ∧ t.exists (rs ++ [n]) = true ∧ (dironly = true → t.isDir (rs ++ [n]) = true) := by
  have hne : pathOf k rs ≠ [] := by rcases hk with rfl | rfl <;> simp [pathOf, List.replicate]
  have hlist : n ∈ ((fs.listdir (pathOf k rs)).filter (fun e => !dironly || e.2)).map (·.1) ↔
      Normal n ∧ t.exists (rs ++ [n]) = true ∧ (dironly = true → t.isDir (rs ++ [n]) = true) := by
    constructor
    · intro h
      obtain ⟨⟨m, d⟩, h1, h2⟩ := List.mem_map.1 h
      simp only at h2
      subst h2
      obtain ⟨h3, h4⟩ := List.mem_filter.1 h1
      obtain ⟨g1, g2, g3⟩ := (ha.list k rs m d hk hr).1 h3
      refine ⟨g1, g2, fun hd => ?_⟩
      subst hd
      simp at h4
      rw [← g3, h4]
    · rintro ⟨g1, g2, g3⟩
      refine List.mem_map.2 ⟨(n, t.isDir (rs ++ [n])), List.mem_filter.2 ⟨(ha.list k rs n _ hk hr).2 ⟨g1, g2, rfl⟩, ?_⟩, rfl⟩
      cases dironly with
      | false => rfl
      | true => simp [g3 rfl]
  unfold glob1
  rw [if_neg hne]
  simp only
  rw [List.mem_filter]
  unfold CompMatch
  rw [wild_eq]
  rw [if_pos hm]
  cases hh : hidden c with
  | true =>
    have : c.head? = some '.' := by simpa [hidden] using hh
    simp only [↓reduceIte, hlist, this, implies_true, and_true]
    constructor
    · rintro ⟨⟨a, b, c⟩, d⟩; exact ⟨a, d, b, c⟩
    · rintro ⟨a, d, b, c⟩; exact ⟨⟨a, b, c⟩, d⟩
  | false =>
    have : c.head? ≠ some '.' := by simpa [hidden] using hh
    simp only [Bool.false_eq_true, ↓reduceIte, List.mem_filter, hlist]
    have e : (!hidden n) = true ↔ (n.head? = some '.' → c.head? = some '.') := by
      simp only [hidden, Bool.not_eq_true', beq_eq_false_iff_ne, ne_eq]
      constructor
      · intro h1 h2; exact absurd h2 h1
      · intro h1 h2; exact absurd (h1 h2) this
    rw [e]
    constructor
    · rintro ⟨⟨⟨a, b, c⟩, h⟩, d⟩; exact ⟨a, ⟨d, h⟩, b, c⟩
    · rintro ⟨a, ⟨d, h⟩, b, c⟩; exact ⟨⟨⟨a, b, c⟩, h⟩, d⟩

theorem glob0_mem {fs : Fs} {t : Tree} (ha : Agrees fs t) {k : Nat} (hk : k = 1 ∨ k = 2) {rs : List Str} (hr : ∀ c ∈ rs, Normal c) {c : Str} (hc : Normal c) (n : Str) :
    n ∈ glob0 fs (pathOf k rs) c ↔ n = c ∧ t.exists (rs ++ [c]) = true := by
  have hne : pathOf k rs ≠ [] := by rcases hk with rfl | rfl <;> simp [pathOf, List.replicate]
  have hx : ∀ x ∈ rs ++ [c], Normal x := by
    intro x hx
    rcases List.mem_append.1 hx with h | h
    · exact hr x h
    · simp at h; subst h; exact hc
  unfold glob0 globJoin
  rw [if_pos hc.1.1, if_neg hne, if_neg hc.1.1, join_pathOf hk (fun x hx => (hr x hx).1) hc.1, ha.lex k _ hk hx]
  cases t.exists (rs ++ [c]) <;> simp

/-- What `_iglob` yields for a path of components: sound, and complete for what it is used for. -/
theorem iglob_spec {fnm : Str → Str → Bool} {fs : Fs} {t : Tree} (ha : Agrees fs t) {k : Nat} (hk : k = 1 ∨ k = 2) :
    ∀ (n : Nat) (cs : List Str), cs.length = n → (∀ c ∈ cs, Normal c) → cs.any hasMagic = true → ∀ (f : Nat) (dironly : Bool), n < f →
      (∀ r ∈ iglob fnm fs f (pathOf k cs) dironly, ∃ rs, (∀ c ∈ rs, Normal c) ∧ r = pathOf k rs ∧ Pointwise (CompMatch fnm) cs rs ∧ t.exists rs = true) ∧
      (∀ rs, (∀ c ∈ rs, Normal c) → Pointwise (CompMatch fnm) cs rs → t.exists rs = true → (dironly = true → t.isDir rs = true) →
        pathOf k rs ∈ iglob fnm fs f (pathOf k cs) dironly) := by
  intro n
  induction n with
  | zero =>
    intro cs hl _ hm
    have := List.length_eq_zero_iff.1 hl
    subst this
    simp at hm
  | succ n ih =>
    intro cs hl hcs hm f dironly hf
    obtain ⟨init, c, e⟩ := exists_snoc (l := cs) (by intro e; subst e; simp at hl)
    subst e
    have hinit : ∀ x ∈ init, Normal x := fun x hx => hcs x (by simp [hx])
    have hc : Normal c := hcs c (by simp)
    have hlen : init.length = n := by simpa using hl
    cases f with
    | zero => omega
    | succ f =>
      have hne : pathOf k init ≠ [] := by rcases hk with rfl | rfl <;> simp [pathOf, List.replicate]
      have hlt : pathOf k init ≠ pathOf k (init ++ [c]) := by
        intro he
        have := pathOf_inj hk (fun x hx => (hinit x hx).1) (fun x hx => (hcs x hx).1) he
        have := congrArg List.length this
        simp at this
      -- the directories
      have hdirs : ∃ dirs, (if pathOf k init ≠ pathOf k (init ++ [c]) ∧ hasMagic (pathOf k init) = true then iglob fnm fs f (pathOf k init) true else [pathOf k init]) = dirs ∧
          (∀ d ∈ dirs, ∃ rs, (∀ c ∈ rs, Normal c) ∧ d = pathOf k rs ∧ Pointwise (CompMatch fnm) init rs) ∧
          (∀ rs, (∀ c ∈ rs, Normal c) → Pointwise (CompMatch fnm) init rs → t.exists rs = true → t.isDir rs = true → pathOf k rs ∈ dirs) := by
        by_cases him : init.any hasMagic = true
        · refine ⟨_, if_pos ⟨hlt, by rw [hasMagic_pathOf hk]; exact him⟩, ?_, ?_⟩
          · intro d hd
            obtain ⟨rs, h1, h2, h3, _⟩ := (ih init hlen hinit him f true (by omega)).1 d hd
            exact ⟨rs, h1, h2, h3⟩
          · intro rs h1 h2 h3 h4
            exact (ih init hlen hinit him f true (by omega)).2 rs h1 h2 h3 (fun _ => h4)
        · have him : init.any hasMagic = false := by simpa using him
          refine ⟨_, if_neg (by rw [hasMagic_pathOf hk, him]; simp), ?_, ?_⟩
          · intro d hd
            simp only [List.mem_singleton] at hd
            exact ⟨init, hinit, hd, (pointwise_literal him).2 rfl⟩
          · intro rs _ h2 _ _
            rw [(pointwise_literal him).1 h2]
            simp
      obtain ⟨dirs, hde, hd1, hd2⟩ := hdirs
      have hmag : hasMagic (pathOf k (init ++ [c])) = true := by rw [hasMagic_pathOf hk]; exact hm
      have heq : iglob fnm fs (f + 1) (pathOf k (init ++ [c])) dironly =
          dirs.flatMap (fun dir => (if hasMagic c then glob1 fnm fs dir c dironly else glob0 fs dir c).map (fun name => join dir name)) := by
        simp only [iglob, split_pathOf hk (fun x hx => (hinit x hx).1) hc.1, hmag, Bool.not_true, Bool.false_eq_true, ↓reduceIte, hne]
        rw [hde]
      rw [heq]
      have hname : ∀ rs, (∀ x ∈ rs, Normal x) → ∀ m, m ∈ (if hasMagic c then glob1 fnm fs (pathOf k rs) c dironly else glob0 fs (pathOf k rs) c) →
          Normal m ∧ CompMatch fnm c m ∧ t.exists (rs ++ [m]) = true := by
        intro rs hrs m hmm
        by_cases hcm : hasMagic c = true
        · rw [if_pos hcm] at hmm
          obtain ⟨a, b, c', _⟩ := (glob1_mem ha hk hrs hcm hc dironly m).1 hmm
          exact ⟨a, b, c'⟩
        · rw [if_neg hcm] at hmm
          obtain ⟨rfl, b⟩ := (glob0_mem ha hk hrs hc m).1 hmm
          exact ⟨hc, by simp [CompMatch, wild_eq, hcm], b⟩
      refine ⟨?_, ?_⟩
      · intro r hr
        obtain ⟨d, hd, hr⟩ := List.mem_flatMap.1 hr
        obtain ⟨m, hm', rfl⟩ := List.mem_map.1 hr
        obtain ⟨rs, h1, rfl, h3⟩ := hd1 d hd
        obtain ⟨g1, g2, g3⟩ := hname rs h1 m hm'
        refine ⟨rs ++ [m], ?_, join_pathOf hk (fun x hx => (h1 x hx).1) g1.1, pointwise_snoc h3 g2, g3⟩
        intro x hx
        rcases List.mem_append.1 hx with h | h
        · exact h1 x h
        · simp at h; subst h; exact g1
      · intro rs hrs hpw hex hdir
        obtain ⟨rs', m, rfl, hp1, hp2⟩ := pointwise_snoc_inv hpw
        have h1 : ∀ x ∈ rs', Normal x := fun x hx => hrs x (by simp [hx])
        have hm1 : Normal m := hrs m (by simp)
        obtain ⟨u1, u2⟩ := ha.up rs' m hex
        refine List.mem_flatMap.2 ⟨pathOf k rs', hd2 rs' h1 hp1 u1 u2, List.mem_map.2 ⟨m, ?_, join_pathOf hk (fun x hx => (h1 x hx).1) hm1.1⟩⟩
        by_cases hcm : hasMagic c = true
        · rw [if_pos hcm]
          exact (glob1_mem ha hk h1 hcm hc dironly m).2 ⟨hm1, hp2, hex, hdir⟩
        · rw [if_neg hcm]
          simp only [CompMatch, wild_eq, hcm] at hp2
          simp at hp2
          subst hp2
          exact (glob0_mem ha hk h1 hc m).2 ⟨rfl, hex⟩

theorem glob_spec {fnm : Str → Str → Bool} {fs : Fs} {t : Tree} (ha : Agrees fs t) {k : Nat} (hk : k = 1 ∨ k = 2) {cs : List Str}
    (hcs : ∀ c ∈ cs, Normal c) (hm : cs.any hasMagic = true) (r : Str) :
    r ∈ glob fnm fs (pathOf k cs) ↔ ∃ rs, (∀ c ∈ rs, Normal c) ∧ r = pathOf k rs ∧ Pointwise (CompMatch fnm) cs rs ∧ t.exists rs = true := by
  have := iglob_spec (fnm := fnm) ha hk cs.length cs rfl hcs hm ((pathOf k cs).length + 1) false (by have := pathOf_length k (fun x hx => (hcs x hx).1); omega)
  constructor
  · exact this.1 r
  · rintro ⟨rs, h1, rfl, h3, h4⟩
    exact this.2 rs h1 h3 h4 (by simp)

/-- Results of globbing an absolute pattern are absolute, whatever the file system answers. -/
theorem iglob_abs (fnm : Str → Str → Bool) (fs : Fs) (f : Nat) (p : Str) (dironly : Bool) (h : isAbs p = true) :
    ∀ r ∈ iglob fnm fs f p dironly, isAbs r = true := by
  induction f generalizing p dironly with
  | zero => simp [iglob]
  | succ f ih =>
    intro r hr
    simp only [iglob] at hr
    split at hr
    · split at hr <;> split at hr <;> simp at hr
      all_goals subst hr; exact h
    · have hd : isAbs (split p).1 = true := by
        -- the head of an absolute path is absolute
        cases p with
        | nil => cases h
        | cons c p =>
          simp [isAbs] at h
          subst h
          have key : ∀ s : Str, ∃ u, ((s ++ ['/']).dropWhile (· ≠ '/')) = u ++ ['/'] := by
            intro s
            induction s with
            | nil => exact ⟨[], by simp⟩
            | cons x s ihs =>
              by_cases hx : x = '/'
              · subst hx; exact ⟨'/' :: s, by simp⟩
              · obtain ⟨u, hu⟩ := ihs
                exact ⟨u, by simpa [hx] using hu⟩
          obtain ⟨u, hu⟩ := key p.reverse
          have hhead : (('/' :: p).reverse.dropWhile (· ≠ '/')).reverse = '/' :: u.reverse := by
            rw [List.reverse_cons, hu]; simp
          unfold split
          simp only [hhead]
          split
          · rfl
          · next hall =>
            unfold rstripSlash
            rw [List.reverse_cons, List.reverse_reverse]
            have : ∃ v, ((u ++ ['/']).dropWhile (· = '/')) = v ++ ['/'] := by
              have hu' : ¬ ∀ x ∈ u, x = '/' := by
                intro hh
                apply hall
                simp only [List.all_cons, decide_true, Bool.true_and, List.all_eq_true, List.mem_reverse, decide_eq_true_eq]
                exact hh
              clear hall hhead hu
              induction u with
              | nil => exact absurd (by simp) hu'
              | cons x u ihu =>
                by_cases hx : x = '/'
                · subst hx
                  obtain ⟨v, hv⟩ := ihu (fun hh => hu' (by simpa using hh))
                  exact ⟨v, by simpa using hv⟩
                · exact ⟨x :: u, by simp [hx]⟩
            obtain ⟨v, hv⟩ := this
            rw [hv]
            simp [isAbs]
      split at hr
      · next he => rw [he] at hd; cases hd
      · obtain ⟨d, hd', hr⟩ := List.mem_flatMap.1 hr
        obtain ⟨m, hm, rfl⟩ := List.mem_map.1 hr
        refine join_isAbs ?_
        split at hd'
        · exact ih _ _ hd d hd'
        · simp at hd'; subst hd'; exact hd

end Pieshell.Path
