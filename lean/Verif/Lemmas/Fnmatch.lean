import Verif.Model.Fnmatch
import Verif.Spec.Fnmatch
/-! # Lemmas for C98 -/
namespace Pieshell.Fnm

def consHead (c : Char) : List Str → List Str
  | [] => [[c]]
  | a :: l => (c :: a) :: l

theorem cutDash_lt {n : Nat} {s a r : Str} (h : cutDash n s = some (a, r)) : r.length < s.length := by
  induction s generalizing n a r with
  | nil => cases n <;> simp [cutDash] at h
  | cons c s ih =>
    cases n with
    | zero =>
      simp only [cutDash] at h
      split at h
      · simp only [Option.some.injEq, Prod.mk.injEq] at h; simp [h.2]
      · split at h
        · cases h
        · rename_i he
          simp only [Option.some.injEq, Prod.mk.injEq] at h
          have := ih he
          rw [h.2] at this
          simp; omega
    | succ n =>
      simp only [cutDash] at h
      split at h
      · cases h
      · rename_i he
        simp only [Option.some.injEq, Prod.mk.injEq] at h
        have := ih he
        rw [h.2] at this
        simp; omega

theorem cut01 {s : Str} (h : s.head? ≠ some '-') : cutDash 0 s = cutDash 1 s := by
  cases s with
  | nil => rfl
  | cons c s => simp only [List.head?_cons, ne_eq, Option.some.injEq] at h; simp [cutDash, h]

theorem chunks_cons (f n : Nat) (c : Char) (s : Str) : chunks f (n + 1) (c :: s) = consHead c (chunks f n s) := by
  cases f with
  | zero => rfl
  | succ f =>
    simp only [chunks, cutDash]
    cases cutDash n s with
    | none => rfl
    | some ar => by_cases h : ar.2 = [] <;> simp [h, consHead]

theorem chunks_fuel {f g n : Nat} {s : Str} (hf : s.length ≤ f) (hg : s.length ≤ g) : chunks f n s = chunks g n s := by
  induction f generalizing g n s with
  | zero =>
    have : s = [] := List.length_eq_zero_iff.1 (by omega)
    subst this
    cases g <;> cases n <;> simp [chunks, cutDash]
  | succ f ih =>
    cases g with
    | zero =>
      have : s = [] := List.length_eq_zero_iff.1 (by omega)
      subst this
      cases n <;> simp [chunks, cutDash]
    | succ g =>
      simp only [chunks]
      split
      · rfl
      · rename_i a r he
        have := cutDash_lt he
        rw [ih (g := g) (n := 2) (by omega) (by omega)]

/-- no two neighbours are joined -/
def NoJoin : List Str → Prop
  | a :: b :: t => (∀ x y, a.getLast? = some x → b.head? = some y → ¬ x > y) ∧ NoJoin (b :: t)
  | _ => True

theorem joinEmpty_of {l : List Str} (h : NoJoin l) : joinEmpty l = l := by
  induction l with
  | nil => rfl
  | cons a t ih =>
    cases t with
    | nil => rfl
    | cons b t =>
      obtain ⟨h1, h2⟩ := h
      rw [joinEmpty, ih h2]
      simp only
      split
      · rename_i x y hx hy
        rw [if_neg (h1 x y hx hy)]
      · rfl

theorem noJoin_consHead {c : Char} {h : Str} {t : List Str} (hj : NoJoin (h :: t)) (hh : t ≠ [] → h ≠ []) : NoJoin (consHead c (h :: t)) := by
  cases t with
  | nil => trivial
  | cons b t =>
    refine ⟨fun x y hx hy => hj.1 x y ?_ hy, hj.2⟩
    have := hh (by simp)
    rw [List.getLast?_cons] at hx
    cases h with
    | nil => exact absurd rfl this
    | cons d h =>
      rw [List.getLast?_cons] at hx ⊢
      simpa using hx

theorem mark_consHead {c : Char} {h : Str} {t : List Str} (hh : t ≠ [] → h ≠ []) : mark (consHead c (h :: t)) = (c, false) :: mark (h :: t) := by
  cases t with
  | nil => rfl
  | cons b t =>
    cases h with
    | nil => exact absurd rfl (hh (by simp))
    | cons d h => simp [mark, consHead]

theorem pairs_false (c : Char) (m : List (Char × Bool)) : pairs ((c, false) :: m) = (c, c) :: pairs m := by
  cases m with
  | nil => rfl
  | cons x m => simp [pairs]

structure Good (s : Str) (l : List Str) : Prop where
  ranges : ranges l = readRanges s
  join : (∀ r ∈ readRanges s, r.1 ≤ r.2) → NoJoin l
  shape : ∃ h t, l = h :: t ∧ (t ≠ [] → h ≠ []) ∧ (s ≠ [] → h.head? = s.head?)

theorem Good.cons {c : Char} {s : Str} {l : List Str} (g : Good s l) (hr : readRanges (c :: s) = (c, c) :: readRanges s) :
    Good (c :: s) (consHead c l) := by
  obtain ⟨h, t, rfl, h1, -⟩ := g.shape
  refine ⟨?_, fun hn => noJoin_consHead (g.join (fun r hrr => hn r (by rw [hr]; simp [hrr]))) h1, _, _, rfl, fun _ => by simp, fun _ => by simp⟩
  rw [Fnm.ranges, mark_consHead h1, pairs_false, hr]
  exact congrArg _ g.ranges

theorem chunks_good : (s : Str) → (f : Nat) → s.length ≤ f → Good s (chunks f 1 s)
  | [], f, _ => by
    have : chunks f 1 [] = [[]] := by cases f <;> rfl
    rw [this]
    exact ⟨rfl, fun _ => trivial, _, _, rfl, by simp, by simp⟩
  | [a], f, h => by
    rw [chunks_cons]
    have : chunks f 0 [] = [[]] := by cases f <;> rfl
    rw [this]
    exact ⟨rfl, fun _ => trivial, _, _, rfl, by simp, by simp⟩
  | [a, b], f, h => by
    by_cases hb : b = '-'
    · subst hb
      have : chunks f 1 [a, '-'] = [[a, '-']] := by
        cases f with
        | zero => simp at h
        | succ f => simp [chunks, cutDash]
      rw [this]
      exact ⟨rfl, fun _ => trivial, _, _, rfl, by simp, by simp⟩
    · have := chunks_good [b] f (by simp at h ⊢; omega)
      have e : chunks f 1 [a, b] = consHead a (chunks f 1 [b]) := by
        rw [chunks_cons]
        congr 1
        cases f with
        | zero => rfl
        | succ f => simp only [chunks]; rw [cut01 (by simpa using hb)]
      rw [e]
      exact this.cons rfl
  | a :: b :: c :: s, f, h => by
    by_cases hb : b = '-'
    · subst hb
      cases f with
      | zero => simp at h
      | succ f =>
        have e : chunks (f + 1) 1 (a :: '-' :: c :: s) = [a] :: consHead c (chunks f 1 s) := by
          simp only [chunks, cutDash]
          simp only [if_pos]
          rw [if_neg (by simp), chunks_cons]
        have ih := chunks_good s f (by simp at h; omega)
        rw [e]
        obtain ⟨hd, t, hl, h1, -⟩ := ih.shape
        have hrr : readRanges (a :: '-' :: c :: s) = (a, c) :: readRanges s := by simp [readRanges]
        refine ⟨?_, fun hn => ?_, _, _, rfl, by simp, by simp⟩
        · rw [hrr, ← ih.ranges, hl]
          show pairs (mark ([a] :: (consHead c (hd :: t)))) = _
          have : mark ([a] :: consHead c (hd :: t)) = (a, true) :: mark (consHead c (hd :: t)) := by
            simp [consHead, mark]
          rw [this, mark_consHead h1]
          simp [pairs, Fnm.ranges]
        · rw [hrr] at hn
          have hj := ih.join (fun r hr => hn r (by simp [hr]))
          rw [hl] at hj ⊢
          refine ⟨fun x y hx hy => ?_, noJoin_consHead hj h1⟩
          simp at hx hy
          subst hx hy
          have h2 := hn (a, c) (by simp)
          exact fun hgt => absurd h2 (by simpa [Char.not_le] using hgt)
    · have := chunks_good (b :: c :: s) f (by simp at h ⊢; omega)
      have e : chunks f 1 (a :: b :: c :: s) = consHead a (chunks f 1 (b :: c :: s)) := by
        rw [chunks_cons]
        congr 1
        cases f with
        | zero => rfl
        | succ f => simp only [chunks]; rw [cut01 (by simpa using hb)]
      rw [e]
      exact this.cons (by simp [readRanges, hb])

/-! brackets -/

theorem bracket_pos {x : Char} {ys : Str} (hx : x ≠ '!') (hp : ∀ r ∈ readRanges (x :: ys), r.1 ≤ r.2) {f : Nat} (hf : (x :: ys).length ≤ f) :
    bracket (joinEmpty (chunks f 1 (x :: ys))) = .set (readRanges (x :: ys)) := by
  have g := chunks_good (x :: ys) f hf
  rw [joinEmpty_of (g.join hp), ← g.ranges]
  obtain ⟨h, t, e, -, h2⟩ := g.shape
  have := h2 (by simp)
  rw [e]
  cases h with
  | nil => simp at this
  | cons d h =>
    simp at this; subst this
    unfold bracket
    split
    · rename_i a rest he; simp at he; exact absurd he.1.1 hx
    · simp

theorem bracket_neg {x : Char} {ys : Str} (hp : ∀ r ∈ readRanges (x :: ys), r.1 ≤ r.2) {f : Nat} (hf : (x :: ys).length ≤ f) :
    bracket (joinEmpty (chunks f 2 ('!' :: x :: ys))) = .nset (readRanges (x :: ys)) := by
  have g := chunks_good (x :: ys) f hf
  rw [chunks_cons]
  obtain ⟨h, t, e, h1, h2⟩ := g.shape
  have := h2 (by simp)
  have hj := g.join hp
  rw [e] at hj
  rw [← g.ranges, e, joinEmpty_of (noJoin_consHead hj h1)]
  cases h with
  | nil => simp at this
  | cons d h => simp [bracket, consHead]

theorem closing_iff {s a r : Str} : closing s = some (a, r) ↔ s = a ++ ']' :: r ∧ ']' ∉ a := by
  induction s generalizing a with
  | nil => simp [closing]
  | cons c s ih =>
    by_cases hc : c = ']'
    · subst hc
      simp only [closing, if_true]
      cases a with
      | nil => simp [eq_comm]
      | cons d a =>
        simp only [Option.some.injEq, Prod.mk.injEq, List.cons_append, List.cons.injEq, List.mem_cons, not_or]
        constructor
        · rintro ⟨h, -⟩; cases h
        · rintro ⟨⟨h, -⟩, h2, -⟩; exact absurd h h2
    · simp only [closing, if_neg hc]
      cases a with
      | nil =>
        simp only [List.nil_append, List.cons.injEq]
        constructor
        · split <;> simp
        · rintro ⟨⟨h, -⟩, -⟩; exact absurd h hc
      | cons d a =>
        cases hs : closing s with
        | none =>
          simp only [reduceCtorEq, false_iff]
          rintro ⟨h, h2⟩
          simp only [List.cons_append, List.cons.injEq, List.mem_cons, not_or] at h h2
          have := (ih (a := a)).2 ⟨h.2, h2.2⟩
          rw [hs] at this; cases this
        | some br =>
          obtain ⟨b, r'⟩ := br
          have key := (ih (a := b)).1
          simp only [Option.some.injEq, Prod.mk.injEq, List.cons.injEq, List.cons_append, List.mem_cons, not_or]
          constructor
          · rintro ⟨⟨rfl, rfl⟩, rfl⟩
            have := ih.1 hs
            exact ⟨⟨rfl, this.1⟩, fun h => hc h.symm, this.2⟩
          · rintro ⟨⟨rfl, h1⟩, -, h2⟩
            have := ih.2 ⟨h1, h2⟩
            rw [hs] at this
            simp at this
            exact ⟨⟨rfl, this.1⟩, this.2⟩

theorem closing_append (a r : Str) (h : ']' ∉ a) : closing (a ++ ']' :: r) = some (a, r) := closing_iff.2 ⟨rfl, h⟩

theorem inside_pos {x : Char} {ys p : Str} (hx : x ≠ '!') (hy : ']' ∉ ys) : inside (x :: ys ++ ']' :: p) = some (x :: ys, p) := by
  by_cases h : x = ']'
  · subst h
    simp [inside, closing_append ys p hy]
  · simp only [inside, List.cons_append, List.head?_cons, Option.some.injEq, hx, h, if_false, List.length_nil, List.drop_zero]
    have := closing_append (x :: ys) p (by simp [hy, Ne.symm h])
    simp only [List.cons_append] at this
    rw [this]; rfl

theorem inside_neg {x : Char} {ys p : Str} (hy : ']' ∉ ys) : inside ('!' :: x :: ys ++ ']' :: p) = some ('!' :: x :: ys, p) := by
  by_cases h : x = ']'
  · subst h
    simp [inside, closing_append ys p hy]
  · simp only [inside, List.cons_append, List.head?_cons, Option.some.injEq, if_true, h, if_false, List.length_nil, List.drop_zero, List.length_cons,
      List.drop_succ_cons]
    have := closing_append (x :: ys) p (by simp [hy, Ne.symm h])
    simp only [List.cons_append] at this
    rw [this]; rfl

theorem closed_of_inside {p stuff r : Str} (h : inside p = some (stuff, r)) : Closed p := by
  unfold inside at h
  simp only at h
  split at h
  · cases h
  rename_i a r' hc
  rw [closing_iff] at hc
  obtain ⟨hc, ha⟩ := hc
  cases p with
  | nil => simp at hc
  | cons c p =>
    by_cases h1 : c = '!'
    · subst h1
      simp only [List.head?_cons, if_true, List.length_cons, List.length_nil, List.drop_succ_cons, List.drop_zero] at hc
      cases p with
      | nil => simp at hc
      | cons d p =>
        by_cases h2 : d = ']'
        · subst h2
          simp at hc; subst hc
          exact .neg ']' a r' ha
        · simp only [List.head?_cons, Option.some.injEq, h2, if_false, List.length_nil, List.drop_zero] at hc
          cases a with
          | nil => simp at hc; exact absurd hc.1 h2
          | cons e a =>
            rw [hc]
            exact .neg e a r' (fun h => ha (by simp [h]))
    · simp only [List.head?_cons, Option.some.injEq, h1, if_false, List.length_nil, List.drop_zero] at hc
      by_cases h2 : c = ']'
      · subst h2
        simp at hc; subst hc
        exact .pos ']' a r' (by decide) ha
      · simp only [h2, if_false, List.length_nil, List.drop_zero] at hc
        cases a with
        | nil => simp at hc; exact absurd hc.1 h2
        | cons e a =>
          simp only [List.cons_append, List.cons.injEq] at hc
          rw [hc.2]
          exact .pos c a r' h1 (fun h => ha (by simp [h]))

theorem inside_none_iff {p : Str} : inside p = none ↔ ¬ Closed p := by
  constructor
  · intro h hc
    cases hc with
    | pos x ys p h1 h2 => rw [inside_pos h1 h2] at h; cases h
    | neg x ys p h2 => rw [inside_neg h2] at h; cases h
  · intro h
    cases hi : inside p with
    | none => rfl
    | some v => exact absurd (closed_of_inside hi) h

/-! matching -/

theorem anySuffix_iff (f : Str → Bool) (s : Str) : anySuffix f s = true ↔ ∃ t s', s = t ++ s' ∧ f s' = true := by
  induction s with
  | nil =>
    constructor
    · intro h; exact ⟨[], [], rfl, h⟩
    · rintro ⟨t, s', h, hf⟩
      simp at h; obtain ⟨rfl, rfl⟩ := h; exact hf
  | cons c s ih =>
    simp only [anySuffix, Bool.or_eq_true, ih]
    constructor
    · rintro (h | ⟨t, s', h, hf⟩)
      · exact ⟨[], _, rfl, h⟩
      · exact ⟨c :: t, s', by rw [h]; rfl, hf⟩
    · rintro ⟨t, s', h, hf⟩
      cases t with
      | nil => simp at h; left; rw [h]; exact hf
      | cons d t => simp at h; right; exact ⟨t, s', h.2, hf⟩

theorem wild_star {p n : Str} : Wild ('*' :: p) n ↔ ∃ t s, n = t ++ s ∧ Wild p s := by
  constructor
  · intro h
    generalize hq : '*' :: p = q at h
    cases h with
    | star t h => cases hq; exact ⟨_, _, rfl, h⟩
    | lit c h1 => simp at hq; exact absurd hq.1.symm h1
    | _ => simp at hq
  · rintro ⟨t, s, rfl, h⟩; exact .star t h

theorem wild_one {p n : Str} : Wild ('?' :: p) n ↔ ∃ c s, n = c :: s ∧ Wild p s := by
  constructor
  · intro h
    generalize hq : '?' :: p = q at h
    cases h with
    | one c h => cases hq; exact ⟨_, _, rfl, h⟩
    | lit c h1 h2 => simp at hq; exact absurd hq.1.symm h2
    | _ => simp at hq
  · rintro ⟨c, s, rfl, h⟩; exact .one c h

theorem wild_lit {d : Char} (h1 : d ≠ '*') (h2 : d ≠ '?') (h3 : d ≠ '[') {p n : Str} : Wild (d :: p) n ↔ ∃ s, n = d :: s ∧ Wild p s := by
  constructor
  · intro h
    generalize hq : d :: p = q at h
    cases h with
    | done => cases hq
    | lit c h1 h2 h3 h => cases hq; exact ⟨_, rfl, h⟩
    | _ => simp at hq; simp_all
  · rintro ⟨s, rfl, h⟩; exact .lit d h1 h2 h3 h

theorem wild_bare {p n : Str} (hc : ¬ Closed p) : Wild ('[' :: p) n ↔ ∃ s, n = '[' :: s ∧ Wild p s := by
  constructor
  · intro h
    generalize hq : '[' :: p = q at h
    cases h with
    | bare h1 h => cases hq; exact ⟨_, rfl, h⟩
    | lit c h1 h2 h3 h => simp at hq; exact absurd hq.1.symm h3
    | set x ys c h1 h2 => simp at hq; rw [hq] at hc; exact absurd (Closed.pos x ys _ h1 h2) hc
    | nset x ys c h2 => simp at hq; rw [hq] at hc; exact absurd (Closed.neg x ys _ h2) hc
    | _ => simp at hq
  · rintro ⟨s, rfl, h⟩; exact .bare hc h

theorem wild_set {x : Char} {ys p n : Str} (hx : x ≠ '!') (hy : ']' ∉ ys) :
    Wild ('[' :: x :: ys ++ ']' :: p) n ↔ ∃ c s, n = c :: s ∧ InBrackets (x :: ys) c ∧ Wild p s := by
  constructor
  · intro h
    generalize hq : '[' :: x :: ys ++ ']' :: p = q at h
    cases h with
    | lit c h1 h2 h3 h => simp at hq; exact absurd hq.1.symm h3
    | bare h1 h =>
      simp at hq
      exact absurd (hq ▸ Closed.pos x ys p hx hy) h1
    | @set x' ys' p' c s' h1 h2 h3 h =>
      simp only [List.cons_append, List.cons.injEq, true_and] at hq
      have e1 := inside_pos (p := p) hx hy
      have e2 := inside_pos (x := x') (ys := ys') (p := p') h1 h2
      simp only [List.cons_append] at e1 e2
      rw [hq.1, hq.2, e2] at e1
      simp only [Option.some.injEq, Prod.mk.injEq, List.cons.injEq] at e1
      obtain ⟨⟨-, rfl⟩, rfl⟩ := e1
      obtain ⟨rfl, -⟩ := hq
      exact ⟨_, _, rfl, h3, h⟩
    | nset x' ys' c h2 h3 h => simp at hq; exact absurd hq.1 hx
    | _ => simp at hq
  · rintro ⟨c, s, rfl, h1, h⟩; exact .set x ys c hx hy h1 h

theorem wild_nset {x : Char} {ys p n : Str} (hy : ']' ∉ ys) :
    Wild ('[' :: '!' :: x :: ys ++ ']' :: p) n ↔ ∃ c s, n = c :: s ∧ ¬ InBrackets (x :: ys) c ∧ Wild p s := by
  constructor
  · intro h
    generalize hq : '[' :: '!' :: x :: ys ++ ']' :: p = q at h
    cases h with
    | lit c h1 h2 h3 h => simp at hq; exact absurd hq.1.symm h3
    | bare h1 h =>
      simp at hq
      exact absurd (hq ▸ Closed.neg x ys p hy) h1
    | set x' ys' c h1 h2 h3 h => simp at hq; exact absurd hq.1.symm h1
    | @nset x' ys' p' c s' h2 h3 h =>
      simp only [List.cons_append, List.cons.injEq, true_and] at hq
      have e1 := inside_neg (x := x) (p := p) hy
      have e2 := inside_neg (x := x') (ys := ys') (p := p') h2
      simp only [List.cons_append] at e1 e2
      rw [hq.1, hq.2, e2] at e1
      simp only [Option.some.injEq, Prod.mk.injEq, List.cons.injEq, true_and] at e1
      obtain ⟨⟨-, rfl⟩, rfl⟩ := e1
      obtain ⟨rfl, -⟩ := hq
      exact ⟨_, _, rfl, h3, h⟩
    | _ => simp at hq
  · rintro ⟨c, s, rfl, h1, h⟩; exact .nset x ys c hy h1 h

theorem any_iff (rs : List (Char × Char)) (c : Char) :
    rs.any (fun r => decide (r.1 ≤ c) && decide (c ≤ r.2)) = true ↔ ∃ r ∈ rs, r.1 ≤ c ∧ c ≤ r.2 := by
  rw [List.any_eq_true]; simp

theorem match_iff {p : Str} (hp : Proper p) : ∀ (f : Nat), p.length ≤ f → ∀ n, matchT (translate f p) n = true ↔ Wild p n := by
  induction hp with
  | done =>
    intro f _ n
    have : translate f [] = [] := by cases f <;> rfl
    rw [this]
    constructor
    · intro h; cases n with
      | nil => exact .done
      | cons => simp [matchT] at h
    · intro h; cases h; rfl
  | @other c p hc hp ih =>
    intro f hf n
    cases f with
    | zero => simp at hf
    | succ f =>
      have ih := ih f (by simp at hf; omega)
      by_cases h1 : c = '*'
      · subst h1
        rw [wild_star]
        simp only [translate, if_true, matchT, anySuffix_iff, ih]
      by_cases h2 : c = '?'
      · subst h2
        rw [wild_one]
        simp only [translate, h1, if_true, if_false]
        cases n with
        | nil => simp [matchT]
        | cons d n =>
          simp only [matchT, ih, List.cons.injEq]
          exact ⟨fun h => ⟨_, _, ⟨rfl, rfl⟩, h⟩, fun ⟨_, _, ⟨_, e⟩, h⟩ => e ▸ h⟩
      · rw [wild_lit h1 h2 hc]
        simp only [translate, h1, h2, hc, if_false]
        cases n with
        | nil => simp [matchT]
        | cons d n =>
          simp only [matchT, Bool.and_eq_true, decide_eq_true_eq, ih, List.cons.injEq]
          constructor
          · rintro ⟨rfl, h⟩; exact ⟨_, ⟨rfl, rfl⟩, h⟩
          · rintro ⟨s, ⟨rfl, rfl⟩, h⟩; exact ⟨rfl, h⟩
  | @bare p hc hp ih =>
    intro f hf n
    cases f with
    | zero => simp at hf
    | succ f =>
      have ih := ih f (by simp at hf; omega)
      rw [wild_bare hc]
      simp only [translate, inside_none_iff.2 hc, (by decide : '[' ≠ '*'), (by decide : '[' ≠ '?'), if_true, if_false]
      cases n with
      | nil => simp [matchT]
      | cons d n =>
        simp only [matchT, Bool.and_eq_true, decide_eq_true_eq, ih, List.cons.injEq]
        constructor
        · rintro ⟨rfl, h⟩; exact ⟨_, ⟨rfl, rfl⟩, h⟩
        · rintro ⟨s, ⟨rfl, rfl⟩, h⟩; exact ⟨rfl, h⟩
  | @set x ys p hx hy hr hp ih =>
    intro f hf n
    cases f with
    | zero => simp at hf
    | succ f =>
      have ih := ih f (by simp at hf; omega)
      rw [wild_set hx hy]
      have e : translate (f + 1) ('[' :: x :: ys ++ ']' :: p) = .set (readRanges (x :: ys)) :: translate f p := by
        have hi := inside_pos (p := p) hx hy
        simp only [List.cons_append] at hi ⊢
        simp only [translate, hi, (by decide : '[' ≠ '*'), (by decide : '[' ≠ '?'), if_true, if_false, List.head?_cons, Option.some.injEq, hx]
        rw [bracket_pos hx hr (Nat.le_refl _)]
      rw [e]
      cases n with
      | nil => simp [matchT]
      | cons d n =>
        simp only [matchT, Bool.and_eq_true, any_iff, ih, List.cons.injEq]
        constructor
        · rintro ⟨h1, h⟩; exact ⟨_, _, ⟨rfl, rfl⟩, h1, h⟩
        · rintro ⟨c, s, ⟨rfl, rfl⟩, h1, h⟩; exact ⟨h1, h⟩
  | @nset x ys p hy hr hp ih =>
    intro f hf n
    cases f with
    | zero => simp at hf
    | succ f =>
      have ih := ih f (by simp at hf; omega)
      rw [wild_nset hy]
      have e : translate (f + 1) ('[' :: '!' :: x :: ys ++ ']' :: p) = .nset (readRanges (x :: ys)) :: translate f p := by
        have hi := inside_neg (x := x) (p := p) hy
        simp only [List.cons_append] at hi ⊢
        simp only [translate, hi, (by decide : '[' ≠ '*'), (by decide : '[' ≠ '?'), if_true, if_false, List.head?_cons]
        rw [bracket_neg hr (by simp)]
      rw [e]
      cases n with
      | nil => simp [matchT]
      | cons d n =>
        simp only [matchT, Bool.and_eq_true, Bool.not_eq_true', ih, List.cons.injEq]
        have hb : (readRanges (x :: ys)).any (fun r => decide (r.1 ≤ d) && decide (d ≤ r.2)) = false ↔ ¬ InBrackets (x :: ys) d := by
          rw [← Bool.not_eq_true, any_iff]; rfl
        rw [hb]
        constructor
        · rintro ⟨h1, h⟩; exact ⟨_, _, ⟨rfl, rfl⟩, h1, h⟩
        · rintro ⟨c, s, ⟨rfl, rfl⟩, h1, h⟩; exact ⟨h1, h⟩

end Pieshell.Fnm
