import Verif.Lemmas.Subst
import Verif.Lemmas.Flow3
/-!
# How the items of a tree are wired
-/
namespace Pieshell.Subst
open Flow (Bytes Net Proc upd close)
variable {sys : Sys} {cwd : Str}

/-- `ob` is not an end of a pipe with a number from `lo`. -/
def Foreign (lo : Nat) (ob : Obj) : Prop := ∀ q, lo ≤ q → ob ≠ .pipeW q ∧ ob ≠ .pipeR q

/-- What stands behind input `j` of a reference item. -/
def rslot : RItem → Nat → Option Obj
  | it, 0 => it.inp
  | .proc _ ws _ _ _, j + 1 => (devObjs ws)[j]?
  | .func .., _ + 1 => none

/-- Item `x` writes to pipe `q`. -/
def Writes (G : List RItem) (x q : Nat) : Prop := ∃ y, G[x]? = some y ∧ y.out = .pipeW q

/-- `R` stands at position `n` of `G`. -/
def At (G : List RItem) (n : Nat) (R : List RItem) : Prop := ∀ k x, R[k]? = some x → G[n + k]? = some x

theorem At.left {G : List RItem} {n : Nat} {a b : List RItem} (h : At G n (a ++ b)) : At G n a := by
  intro k x hk
  refine h k x ?_
  rw [List.getElem?_append_left (List.getElem?_eq_some_iff.1 hk).1]; exact hk

theorem At.right {G : List RItem} {n : Nat} {a b : List RItem} (h : At G n (a ++ b)) : At G (n + a.length) b := by
  intro k x hk
  rw [Nat.add_assoc]
  refine h (a.length + k) x ?_
  rw [List.getElem?_append_right (by omega), Nat.add_sub_cancel_left]; exact hk

theorem At.get {G : List RItem} {n : Nat} {a : List RItem} (h : At G n a) {k : Nat} (h1 : n ≤ k) (h2 : k < n + a.length) : G[k]? = a[k - n]? := by
  obtain ⟨y, hy⟩ : ∃ y, a[k - n]? = some y := ⟨a[k - n], by simp⟩
  have := h (k - n) y hy
  rw [show n + (k - n) = k by omega] at this
  rw [this, hy]

/-- What is known of the items at positions `n`, ..., `n + k - 1`, which have been started with the pipes `cp`, ..., `cp' - 1`. -/
structure Seg (G : List RItem) (lo n k cp cp' : Nat) (ff : Nat → Nat → Option Nat) (qs : List Nat) : Prop where
  outs : ∀ x y, n ≤ x → x < n + k → G[x]? = some y → (∃ q, y.out = .pipeW q ∧ cp ≤ q ∧ q < cp') ∨ Foreign lo y.out
  inj : ∀ x x' q, n ≤ x → x < n + k → n ≤ x' → x' < n + k → lo ≤ q → Writes G x q → Writes G x' q → x = x'
  lt : ∀ m j x, ff m j = some x → n ≤ m ∧ m < n + k ∧ x < m
  slotF : ∀ m j x, ff m j = some x → ∃ y q, G[m]? = some y ∧ rslot y j = some (.pipeR q) ∧ Writes G x q
  slotN : ∀ m j y ob, n ≤ m → m < n + k → ff m j = none → (j = 0 → m ∉ qs) → G[m]? = some y → rslot y j = some ob → Foreign lo ob
  uniq : ∀ m j m' j' x, ff m j = some x → ff m' j' = some x → m = m' ∧ j = j'
  hold : ∀ m y ob, n ≤ m → m < n + k → G[m]? = some y → ob ∈ y.objs →
    Foreign lo ob ∨ (∃ q, ob = .pipeW q ∧ y.out = ob) ∨ ∃ x q, x < m ∧ ob = .pipeR q ∧ Writes G x q
  kind : ∀ m id inp ob, n ≤ m → m < n + k → G[m]? = some (.func id inp ob) → m ∉ qs
  qsR : ∀ m ∈ qs, n ≤ m ∧ m < n + k

theorem Seg.append {G : List RItem} {lo n k k' a b a' b' A B : Nat} {f1 f2 : Nat → Nat → Option Nat} {q1 q2 : List Nat}
    (h1 : Seg G lo n k a b f1 q1) (h2 : Seg G lo (n + k) k' a' b' f2 q2) (hd : b ≤ a' ∨ b' ≤ a) (hA : A ≤ a ∧ A ≤ a') (hB : b ≤ B ∧ b' ≤ B)
    (hx : ∀ m j m' j' x, f1 m j = some x → f2 m' j' = some x → False) {ff : Nat → Nat → Option Nat}
    (hff : ∀ m j, ff m j = if m < n + k then f1 m j else f2 m j) : Seg G lo n (k + k') A B ff (q1 ++ q2) := by
  have r1 : ∀ {m j x}, m < n + k → ff m j = x → f1 m j = x := by intro m j x hm h; rw [hff, if_pos hm] at h; exact h
  have r2 : ∀ {m j x}, ¬ m < n + k → ff m j = x → f2 m j = x := by intro m j x hm h; rw [hff, if_neg hm] at h; exact h
  constructor
  · intro x y hn hk hy
    by_cases hm : x < n + k
    · rcases h1.outs x y hn hm hy with ⟨q, e1, e2, e3⟩ | h
      · exact .inl ⟨q, e1, by omega, by omega⟩
      · exact .inr h
    · rcases h2.outs x y (by omega) (by omega) hy with ⟨q, e1, e2, e3⟩ | h
      · exact .inl ⟨q, e1, by omega, by omega⟩
      · exact .inr h
  · have cross : ∀ x x' q, n ≤ x → x < n + k → n + k ≤ x' → x' < n + (k + k') → lo ≤ q → Writes G x q → Writes G x' q → False := by
      rintro x x' q g1 g2 g3 g4 hlo ⟨y, e1, e2⟩ ⟨y', e1', e2'⟩
      rcases h1.outs x y g1 g2 e1 with ⟨q', d1, d2, d3⟩ | h
      · rw [e2] at d1; cases d1
        rcases h2.outs x' y' g3 (by omega) e1' with ⟨q', d1', d2', d3'⟩ | h
        · rw [e2'] at d1'; cases d1'; omega
        · exact (h q hlo).1 e2'
      · exact (h q hlo).1 e2
    intro x x' q g1 g2 g3 g4 hlo e e'
    by_cases hm : x < n + k <;> by_cases hm' : x' < n + k
    · exact h1.inj x x' q g1 hm g3 hm' hlo e e'
    · exact (cross x x' q g1 hm (by omega) g4 hlo e e').elim
    · exact (cross x' x q g3 hm' (by omega) g2 hlo e' e).elim
    · exact h2.inj x x' q (by omega) (by omega) (by omega) (by omega) hlo e e'
  · intro m j x h
    by_cases hm : m < n + k
    · have := h1.lt m j x (r1 hm h); omega
    · have := h2.lt m j x (r2 hm h); omega
  · intro m j x h
    by_cases hm : m < n + k
    · exact h1.slotF m j x (r1 hm h)
    · exact h2.slotF m j x (r2 hm h)
  · intro m j y ob hn hk h hq hy hs
    by_cases hm : m < n + k
    · exact h1.slotN m j y ob hn hm (r1 hm h) (fun hj hh => hq hj (by simp [hh])) hy hs
    · exact h2.slotN m j y ob (by omega) (by omega) (r2 hm h) (fun hj hh => hq hj (by simp [hh])) hy hs
  · intro m j m' j' x h h'
    by_cases hm : m < n + k <;> by_cases hm' : m' < n + k
    · exact h1.uniq m j m' j' x (r1 hm h) (r1 hm' h')
    · exact (hx m j m' j' x (r1 hm h) (r2 hm' h')).elim
    · exact (hx m' j' m j x (r1 hm' h') (r2 hm h)).elim
    · exact h2.uniq m j m' j' x (r2 hm h) (r2 hm' h')
  · intro m y ob hn hk hy hob
    by_cases hm : m < n + k
    · exact h1.hold m y ob hn hm hy hob
    · exact h2.hold m y ob (by omega) (by omega) hy hob
  · intro m id inp ob hn hk hy
    rw [List.mem_append, not_or]
    by_cases hm : m < n + k
    · exact ⟨h1.kind m id inp ob hn hm hy, fun h => by have := h2.qsR m h; omega⟩
    · exact ⟨fun h => by have := h1.qsR m h; omega, h2.kind m id inp ob (by omega) (by omega) hy⟩
  · intro m hm
    rcases List.mem_append.1 hm with h | h
    · have := h1.qsR m h; omega
    · have := h2.qsR m h; omega

theorem Seg.congr {G : List RItem} {lo n k a b : Nat} {f1 f2 : Nat → Nat → Option Nat} {q1 q2 : List Nat} (h : Seg G lo n k a b f1 q1)
    (hf : ∀ m j, f2 m j = f1 m j) (hq : q1 = q2) : Seg G lo n k a b f2 q2 := by
  subst hq
  obtain rfl : f2 = f1 := funext fun m => funext (hf m)
  exact h

/-- One command. -/
theorem seg_command {G : List RItem} {lo n cp cp' : Nat} {id : Nat} {ws : List RWord} {i o e : Obj} {g : Nat → Option Nat} {qs : List Nat}
    (hG : G[n]? = some (.proc id ws i o e))
    (ho : (∃ q, o = .pipeW q ∧ cp ≤ q ∧ q < cp') ∨ Foreign lo o) (he : Foreign lo e)
    (hi : Foreign lo i ∨ ∃ x q, x < n ∧ i = .pipeR q ∧ Writes G x q)
    (g0 : ∀ x, g 0 = some x → x < n ∧ ∃ q, i = .pipeR q ∧ Writes G x q)
    (g0' : g 0 = none → n ∉ qs → Foreign lo i)
    (gs : ∀ j x, g (j + 1) = some x → x < n ∧ ∃ q, (devObjs ws)[j]? = some (.pipeR q) ∧ Writes G x q)
    (gs' : ∀ j, g (j + 1) = none → (devObjs ws)[j]? = none)
    (gu : ∀ j j' x, g j = some x → g j' = some x → j = j') (hqs : ∀ x ∈ qs, x = n) :
    Seg G lo n 1 cp cp' (fun m j => if m = n then g j else none) qs := by
  have hm : ∀ m, n ≤ m → m < n + 1 → m = n := by intro m _ _; omega
  constructor
  · intro x y h1 h2 hy
    obtain rfl := hm x h1 h2
    rw [hG] at hy; cases hy; exact ho
  · intro x x' q h1 h2 h3 h4 _ _ _; omega
  · intro m j x h
    split at h
    · next hmn =>
      subst hmn
      refine ⟨Nat.le_refl _, by omega, ?_⟩
      cases j with
      | zero => exact (g0 x h).1
      | succ j => exact (gs j x h).1
    · cases h
  · intro m j x h
    split at h
    · next hmn =>
      subst hmn
      cases j with
      | zero => obtain ⟨-, q, e1, e2⟩ := g0 x h; exact ⟨_, q, hG, by rw [← e1]; rfl, e2⟩
      | succ j => obtain ⟨-, q, e1, e2⟩ := gs j x h; exact ⟨_, q, hG, e1, e2⟩
    · cases h
  · intro m j y ob h1 h2 h hq hy hs
    obtain rfl := hm m h1 h2
    rw [hG] at hy; cases hy
    rw [if_pos rfl] at h
    cases j with
    | zero => cases hs; exact g0' h (hq rfl)
    | succ j => have := gs' j h; rw [show (devObjs ws)[j]? = some ob from hs] at this; cases this
  · intro m j m' j' x h h'
    split at h
    · next hmn =>
      split at h'
      · next hmn' => subst hmn; subst hmn'; exact ⟨rfl, gu j j' x h h'⟩
      · cases h'
    · cases h
  · intro m y ob h1 h2 hy hob
    obtain rfl := hm m h1 h2
    rw [hG] at hy; cases hy
    simp only [RItem.objs, List.mem_cons] at hob
    rcases hob with rfl | rfl | rfl | hob
    · rcases hi with hi | hi
      · exact .inl hi
      · exact .inr (.inr hi)
    · rcases ho with ⟨q, rfl, -⟩ | ho
      · exact .inr (.inl ⟨q, rfl, rfl⟩)
      · exact .inl ho
    · exact .inl he
    · obtain ⟨j, hj⟩ := List.mem_iff_getElem?.1 hob
      cases hg : g (j + 1) with
      | none => rw [gs' j hg] at hj; cases hj
      | some x =>
        obtain ⟨hx, q, e1, e2⟩ := gs j x hg
        rw [hj] at e1; cases e1
        exact .inr (.inr ⟨x, q, hx, rfl, e2⟩)
  · intro m id inp ob h1 h2 hy
    obtain rfl := hm m h1 h2
    rw [hG] at hy; cases hy
  · intro m hm; have := hqs m hm; omega

theorem seg_iter {G : List RItem} {lo n cp cp' : Nat} {id : Nat} {o : Obj}
    (hG : G[n]? = some (.func id none o)) (ho : (∃ q, o = .pipeW q ∧ cp ≤ q ∧ q < cp') ∨ Foreign lo o) :
    Seg G lo n 1 cp cp' (fun _ _ => none) [] := by
  have hm : ∀ m, n ≤ m → m < n + 1 → m = n := by intro m _ _; omega
  constructor
  · intro x y h1 h2 hy
    obtain rfl := hm x h1 h2
    rw [hG] at hy; cases hy; exact ho
  · intro x x' q h1 h2 h3 h4 _ _ _; omega
  · intro m j x h; cases h
  · intro m j x h; cases h
  · intro m j y ob h1 h2 h hq hy hs
    obtain rfl := hm m h1 h2
    rw [hG] at hy; cases hy
    cases j <;> cases hs
  · intro m j m' j' x h; cases h
  · intro m y ob h1 h2 hy hob
    obtain rfl := hm m h1 h2
    rw [hG] at hy; cases hy
    simp only [RItem.objs, Option.toList, List.nil_append, List.mem_singleton] at hob
    subst hob
    rcases ho with ⟨q, rfl, -⟩ | ho
    · exact .inr (.inl ⟨q, rfl, rfl⟩)
    · exact .inl ho
  · intro m id inp ob h1 h2 hy
    obtain rfl := hm m h1 h2
    simp
  · intro m h; cases h

/-- One function. -/
theorem seg_func {G : List RItem} {lo n cp cp' : Nat} {id : Nat} {i o : Obj} {f : Option Nat}
    (hG : G[n]? = some (.func id (some i) o)) (ho : (∃ q, o = .pipeW q ∧ cp ≤ q ∧ q < cp') ∨ Foreign lo o)
    (hf : ∀ x, f = some x → x < n ∧ ∃ q, i = .pipeR q ∧ Writes G x q) (hi0 : f = none → Foreign lo i) :
    Seg G lo n 1 cp cp' (fun m j => if m = n ∧ j = 0 then f else none) [] := by
  have hm : ∀ m, n ≤ m → m < n + 1 → m = n := by intro m _ _; omega
  constructor
  · intro x y h1 h2 hy
    obtain rfl := hm x h1 h2
    rw [hG] at hy; cases hy; exact ho
  · intro x x' q h1 h2 h3 h4 _ _ _; omega
  · intro m j x h
    split at h
    · next hmn => obtain ⟨rfl, rfl⟩ := hmn; exact ⟨Nat.le_refl _, by omega, (hf x h).1⟩
    · cases h
  · intro m j x h
    split at h
    · next hmn => obtain ⟨rfl, rfl⟩ := hmn; obtain ⟨-, q, e1, e2⟩ := hf x h; exact ⟨_, q, hG, by rw [← e1]; rfl, e2⟩
    · cases h
  · intro m j y ob h1 h2 h hq hy hs
    obtain rfl := hm m h1 h2
    rw [hG] at hy; cases hy
    cases j with
    | zero => rw [if_pos ⟨rfl, rfl⟩] at h; cases hs; exact hi0 h
    | succ j => cases hs
  · intro m j m' j' x h h'
    split at h
    · next hmn =>
      split at h'
      · next hmn' => exact ⟨by omega, by omega⟩
      · cases h'
    · cases h
  · intro m y ob h1 h2 hy hob
    obtain rfl := hm m h1 h2
    rw [hG] at hy; cases hy
    simp only [RItem.objs, Option.toList, List.cons_append, List.nil_append, List.mem_cons, List.not_mem_nil, or_false] at hob
    rcases hob with rfl | rfl
    · cases hfx : f with
      | none => exact .inl (hi0 hfx)
      | some x => obtain ⟨g1, q, g2, g3⟩ := hf x hfx; exact .inr (.inr ⟨x, q, g1, g2, g3⟩)
    · rcases ho with ⟨q, rfl, -⟩ | ho
      · exact .inr (.inl ⟨q, rfl, rfl⟩)
      · exact .inl ho
  · intro m id inp ob h1 h2 hy
    simp
  · intro m h; cases h

theorem Seg.nil (G : List RItem) (lo n cp cp' : Nat) : Seg G lo n 0 cp cp' (fun _ _ => none) [] := by
  refine ⟨?_, ?_, ?_, ?_, ?_, ?_, ?_, ?_, ?_⟩
  · intro x y _ _; omega
  · intro x x' q _ _; omega
  · intro m j x h; cases h
  · intro m j x h; cases h
  · intro m j y ob _ _; omega
  · intro m j m' j' x h; cases h
  · intro m y ob _ _; omega
  · intro m id inp ob _ _; omega
  · intro m h; cases h

theorem size_pos : (p : Pipeline) → 0 < p.size
  | .command id args => by simp [Pipeline.size, Pipeline.ids]
  | .func id => by simp [Pipeline.size, Pipeline.ids]
  | .iter id => by simp [Pipeline.size, Pipeline.ids]
  | .pipe a b => by have := size_pos a; simp only [Pipeline.size, Pipeline.ids, List.length_append] at *; omega
  | .group a b => by have := size_pos a; simp only [Pipeline.size, Pipeline.ids, List.length_append] at *; omega
  | .redirect p crs => by have := size_pos p; simpa only [Pipeline.size, Pipeline.ids] using this

theorem refRun_size (p : Pipeline) (i : Obj) (o e : Want) (c : Ctr) : (refRun cwd p i o e c).items.length = p.size := by
  have := congrArg List.length (refRun_ids (cwd := cwd) p i o e c)
  simpa [Pipeline.size] using this

theorem refArgs_size (a : Args) (i o e : Obj) (c : Ctr) : (refArgs cwd a i o e c).items.length = a.size := by
  have := congrArg List.length (refArgs_ids (cwd := cwd) a i o e c)
  simpa [Args.size] using this

theorem foreign_file (lo : Nat) (d p : Str) (f m : Nat) : Foreign lo (.file d p f m) := by intro q _; simp

theorem foreign_err {lo : Nat} {e : Want} (he : e.Plain) (hf : ∀ ob, e = .obj ob → Foreign lo ob) (c : Ctr) : Foreign lo (e.pick c).1 := by
  cases e with
  | obj b => exact hf b rfl
  | tmp => intro q _; simp [Want.pick]
  | pipeOut => exact he.elim
  | pipeIn => exact he.elim

theorem out_cases {lo : Nat} {o : Want} (ho : o.Out) (hf : ∀ ob, o = .obj ob → Foreign lo ob) (c : Ctr) :
    (∃ q, (o.pick c).1 = .pipeW q ∧ c.p ≤ q ∧ q < (o.pick c).2.p) ∨ Foreign lo (o.pick c).1 := by
  cases o with
  | obj b => exact .inr (hf b rfl)
  | tmp => exact .inr (by intro q _; simp [Want.pick])
  | pipeOut => exact .inl ⟨c.p, rfl, Nat.le_refl _, by simp [Want.pick]⟩
  | pipeIn => exact ho.elim

/-- What is known of a started pipeline, see `Seg`. -/
structure TreeOk (G : List RItem) (lo n : Nat) (f : Option Nat) (sh : Bool) (cwd : Str) (p : Pipeline) (i : Obj) (o e : Want) (c : Ctr) : Prop where
  seg : Seg G lo n p.size c.p (refRun cwd p i o e c).ctr.p (feed p n f) (sharers p n sh)
  low : ∀ m j x, feed p n f m j = some x → n ≤ x ∨ f = some x
  piped : ∀ x, n ≤ x → x + 1 < n + p.size → ∃ q, Writes G x q ∧ c.p ≤ q
  last : p.outWant cwd o = .pipeOut → Writes G (n + p.size - 1) (refRun cwd p i o e c).out
  reader : ∀ x, n ≤ x → x + 1 < n + p.size → ∃ m j, feed p n f m j = some x
  head : ∀ x, f = some x → Fed p → ∃ m, feed p n f m 0 = some x
  leaks : (refRun cwd p i o e c).leaks = []

/-- ... of the pipelines among arguments -/
structure ArgsTree (G : List RItem) (lo n : Nat) (cwd : Str) (a : Args) (i o e : Obj) (c : Ctr) : Prop where
  seg : Seg G lo n a.size c.p (refArgs cwd a i o e c).ctr.p (feedArgs a n) (sharersArgs a n)
  low : ∀ m j x, feedArgs a n m j = some x → n ≤ x
  piped : ∀ x, n ≤ x → x < n + a.size → ∃ q, Writes G x q ∧ c.p ≤ q
  reader : ∀ x, n ≤ x → x < n + a.size → (∃ m j, feedArgs a n m j = some x) ∨ ∃ j : Nat, (lasts a n)[j]? = some x
  lastR : ∀ (j x : Nat), (lasts a n)[j]? = some x → n ≤ x ∧ x < n + a.size
  lastU : ∀ (j j' x : Nat), (lasts a n)[j]? = some x → (lasts a n)[j']? = some x → j = j'
  lastN : ∀ (j x m j' : Nat), (lasts a n)[j]? = some x → feedArgs a n m j' ≠ some x
  words : ∀ (j x : Nat), (lasts a n)[j]? = some x → ∃ q, (devObjs (refArgs cwd a i o e c).words)[j]? = some (.pipeR q) ∧ Writes G x q
  wordsN : ∀ (j : Nat), (lasts a n)[j]? = none → (devObjs (refArgs cwd a i o e c).words)[j]? = none
  leaks : (refArgs cwd a i o e c).leaks = []

theorem over_in {p : Pipeline} {crs : Redirects} (hp : (Pipeline.redirect p crs).Redirectable sys cwd) (i : Obj) :
    (Dict.mem crs 0 = false ∧ crs.overIn cwd i = i) ∨ (Dict.mem crs 0 = true ∧ ∃ d p f m, crs.overIn cwd i = .file d p f m) := by
  simp only [Pipeline.Redirectable] at hp
  obtain ⟨-, hb, hs⟩ := hp
  cases hg : Dict.get? crs 0 with
  | none => exact .inl ⟨by simp [Dict.mem, hg], by simp [Redirects.overIn, orIn, orWant, hg]⟩
  | some r =>
    refine .inr ⟨by simp [Dict.mem, hg], ?_⟩
    have hv := hb.wf.value_of_get? hg
    obtain ⟨pth, hpth⟩ := (hs r hv.1).zero hv.2
    exact ⟨cwd, pth, r.flag, r.mode, by simp [Redirects.overIn, orIn, orWant, hg, Redirect.want, hpth]⟩

theorem fed_takes : (p : Pipeline) → Fed p → p.takes 0 = false
  | .command _ _, _ => rfl
  | .pipe _ _, _ => rfl
  | .redirect p crs, h => by
    simp only [Fed] at h
    simp only [Pipeline.takes, h.1, fed_takes p h.2, Bool.or_false]
  | .iter _, h => h.elim
  | .func _, _ => rfl
  | .group _ _, h => h.elim

mutual
theorem tree_run {G : List RItem} {lo : Nat} : (p : Pipeline) → {sh : Bool} → Nested p sh → p.Redirectable sys cwd → {n : Nat} → {f : Option Nat} →
    {i : Obj} → {o e : Want} → {c : Ctr} → lo ≤ c.p → o.Out → (∀ ob, o = .obj ob → Foreign lo ob) → e.Plain → (∀ ob, e = .obj ob → Foreign lo ob) →
    (Foreign lo i ∨ ∃ x q, x < n ∧ i = .pipeR q ∧ Writes G x q) →
    (∀ x, f = some x → x < n ∧ ∃ q, i = .pipeR q ∧ Writes G x q) → (f = none → sh = false → Foreign lo i) →
    At G n (refRun cwd p i o e c).items → TreeOk G lo n f sh cwd p i o e c
  | .command id args, sh, hN, hR, n, f, i, o, e, c, hlo, ho, hof, he, hef, hi, hf, hi0, hat => by
    have h1 := pick_le o c
    have h2 := pick_le e (o.pick c).2
    simp only [refRun] at hat
    have hef' := foreign_err he hef (o.pick c).2
    have A := tree_args (G := G) (lo := lo) args (by simpa only [Nested] using hN) (by simpa only [Pipeline.Redirectable] using hR)
      (n := n) (i := i) (o := (o.pick c).1) (e := (e.pick (o.pick c).2).1) (c := (e.pick (o.pick c).2).2) (by omega) hef' hi hat.left
    have hsz : (Pipeline.command id args).size = args.size + 1 := by simp [Pipeline.size, Pipeline.ids, Args.size]
    have hG := hat.right
    rw [refArgs_size] at hG
    have hG := hG 0 _ rfl
    rw [Nat.add_zero] at hG
    have h3 := refArgs_mono (cwd := cwd) args i (o.pick c).1 (e.pick (o.pick c).2).1 (e.pick (o.pick c).2).2
    have hfeed : ∀ m j, feed (.command id args) n f m j = if m = n + args.size then (if j = 0 then f else (lasts args n)[j - 1]?) else feedArgs args n m j := by
      intro m j; simp only [feed]
    refine ⟨?_, ?_, ?_, ?_, ?_, ?_, ?_⟩
    · rw [hsz]
      simp only [sharers]
      refine A.seg.append (seg_command (cp := c.p) (cp' := (o.pick c).2.p) (g := fun j => if j = 0 then f else (lasts args n)[j - 1]?)
        (qs := if sh = true then [n + args.size] else []) hG (out_cases ho hof c) hef' ?_ ?_ ?_ ?_ ?_ ?_ ?_) (.inr (by omega)) ⟨by omega, by omega⟩ ?_ ?_ ?_
      · rcases hi with hi | ⟨x, q, g1, g2⟩
        · exact .inl hi
        · exact .inr ⟨x, q, by omega, g2⟩
      · intro x hx
        obtain ⟨g1, g2⟩ := hf x hx
        exact ⟨by omega, g2⟩
      · intro hx hq
        refine hi0 hx ?_
        cases sh with
        | false => rfl
        | true => simp at hq
      · intro j x hx
        have hx : (lasts args n)[j]? = some x := hx
        exact ⟨(A.lastR j x hx).2, A.words j x hx⟩
      · intro j hx; exact A.wordsN j hx
      · intro j j' x hx hx'
        cases j with
        | zero =>
          cases j' with
          | zero => rfl
          | succ j' => have := (hf x hx).1; have := (A.lastR j' x hx').1; omega
        | succ j =>
          cases j' with
          | zero => have := (hf x hx').1; have := (A.lastR j x hx).1; omega
          | succ j' => rw [A.lastU j j' x hx hx']
      · intro x hx
        split at hx
        · simpa using hx
        · cases hx
      · simp only [refRun]; exact ⟨Nat.le_refl _, by omega⟩
      · intro m j m' j' x hx hx'
        split at hx'
        · cases j' with
          | zero => have := (hf x hx').1; have := A.low m j x hx; omega
          | succ j' => exact A.lastN j' x m j hx' hx
        · cases hx'
      · intro m j
        rw [hfeed]
        by_cases hm : m = n + args.size
        · subst hm
          simp only [if_true, Nat.lt_irrefl, if_false]
        · rw [if_neg hm]
          by_cases hm' : m < n + args.size
          · rw [if_pos hm']
          · rw [if_neg hm']
            show _ = if m = n + args.size then _ else _
            rw [if_neg hm]
            cases hx : feedArgs args n m j with
            | none => rfl
            | some x => have := A.seg.lt m j x hx; omega
    · intro m j x hx
      rw [hfeed] at hx
      split at hx
      · split at hx
        · exact .inr hx
        · exact .inl (A.lastR _ x hx).1
      · exact .inl (A.low m j x hx)
    · intro x g1 g2
      rw [hsz] at g2
      obtain ⟨q, e1, e2⟩ := A.piped x g1 (by omega)
      exact ⟨q, e1, by omega⟩
    · intro hw
      simp only [Pipeline.outWant] at hw
      subst hw
      rw [hsz]
      simp only [refRun]
      exact ⟨_, hG, rfl⟩
    · intro x g1 g2
      rw [hsz] at g2
      rcases A.reader x g1 (by omega) with ⟨m, j, hx⟩ | ⟨j, hx⟩
      · refine ⟨m, j, ?_⟩
        rw [hfeed, if_neg]
        · exact hx
        · have := A.seg.lt m j x hx; omega
      · exact ⟨n + args.size, j + 1, by rw [hfeed, if_pos rfl]; exact hx⟩
    · intro x hx _
      exact ⟨n + args.size, by rw [hfeed, if_pos rfl, if_pos rfl]; exact hx⟩
    · simp only [refRun]; exact A.leaks
  | .iter id, sh, hN, hR, n, f, i, o, e, c, hlo, ho, hof, he, hef, hi, hf, hi0, hat => by
    have h1 := pick_le o c
    have h2 := pick_le e (o.pick c).2
    simp only [refRun] at hat
    have hG := hat 0 _ rfl
    rw [Nat.add_zero] at hG
    have hsz : (Pipeline.iter id).size = 1 := rfl
    refine ⟨?_, ?_, ?_, ?_, ?_, ?_, ?_⟩
    · rw [hsz]
      simp only [refRun]
      refine (seg_iter hG ?_).congr (fun m j => by simp only [feed]) (by simp only [sharers])
      rcases out_cases ho hof c with ⟨q, g1, g2, g3⟩ | g
      · exact .inl ⟨q, g1, g2, by omega⟩
      · exact .inr g
    · intro m j x hx; simp only [feed] at hx; cases hx
    · intro x g1 g2; rw [hsz] at g2; omega
    · intro hw
      simp only [Pipeline.outWant] at hw
      subst hw
      simp only [refRun]
      exact ⟨_, hG, rfl⟩
    · intro x g1 g2; rw [hsz] at g2; omega
    · intro x _ h; exact h.elim
    · simp only [refRun]
  | .func id, sh, hN, hR, n, f, i, o, e, c, hlo, ho, hof, he, hef, hi, hf, hi0, hat => by
    have h1 := pick_le o c
    have h2 := pick_le e (o.pick c).2
    simp only [refRun] at hat
    simp only [Nested] at hN
    have hG := hat 0 _ rfl
    rw [Nat.add_zero] at hG
    have hsz : (Pipeline.func id).size = 1 := rfl
    have hfeed : ∀ m j, feed (.func id) n f m j = if m = n ∧ j = 0 then f else none := by intro m j; simp only [feed]
    refine ⟨?_, ?_, ?_, ?_, ?_, ?_, ?_⟩
    · rw [hsz]
      simp only [refRun]
      refine (seg_func hG ?_ hf (fun h => hi0 h hN)).congr hfeed (by simp only [sharers])
      rcases out_cases ho hof c with ⟨q, g1, g2, g3⟩ | g
      · exact .inl ⟨q, g1, g2, by omega⟩
      · exact .inr g
    · intro m j x hx
      rw [hfeed] at hx
      split at hx
      · exact .inr hx
      · cases hx
    · intro x g1 g2; rw [hsz] at g2; omega
    · intro hw
      simp only [Pipeline.outWant] at hw
      subst hw
      simp only [refRun]
      exact ⟨_, hG, rfl⟩
    · intro x g1 g2; rw [hsz] at g2; omega
    · intro x hx _; exact ⟨n, by rw [hfeed, if_pos ⟨rfl, rfl⟩]; exact hx⟩
    · simp only [refRun]
  | .pipe a b, sh, hN, hR, n, f, i, o, e, c, hlo, ho, hof, he, hef, hi, hf, hi0, hat => by
    simp only [Nested] at hN
    simp only [Pipeline.Redirectable] at hR
    obtain ⟨hNa, hNb, hFb⟩ := hN
    obtain ⟨hRa, hRb, hOa⟩ := hR
    simp only [refRun] at hat
    have hma := refRun_mono (cwd := cwd) a i .pipeOut e c
    have hoa := refRun_out (cwd := cwd) a i .pipeOut e c
    have hpa := size_pos a
    have hpb := size_pos b
    have A := tree_run (G := G) (lo := lo) a hNa hRa (n := n) (f := f) (sh := sh) (i := i) (o := .pipeOut) (e := e) (c := c) hlo trivial (by simp) he hef
      hi hf hi0 hat.left
    have hat2 := hat.right
    rw [refRun_size] at hat2
    have hw := A.last hOa
    have B := tree_run (G := G) (lo := lo) b hNb hRb (n := n + a.size) (f := some (n + a.size - 1)) (sh := false)
      (i := .pipeR (refRun cwd a i .pipeOut e c).out) (o := o) (e := e) (c := (refRun cwd a i .pipeOut e c).ctr) (by omega) ho hof he hef
      (.inr ⟨n + a.size - 1, _, by omega, rfl, hw⟩) (by intro x hx; cases hx; exact ⟨by omega, _, rfl, hw⟩) (by simp) hat2
    have hmb := refRun_mono (cwd := cwd) b (.pipeR (refRun cwd a i .pipeOut e c).out) o e (refRun cwd a i .pipeOut e c).ctr
    have hsz : (Pipeline.pipe a b).size = a.size + b.size := by simp [Pipeline.size, Pipeline.ids]
    have hfeed : ∀ m j, feed (.pipe a b) n f m j = if m < n + a.size then feed a n f m j else feed b (n + a.size) (some (n + a.size - 1)) m j := by
      intro m j; simp only [feed]
    refine ⟨?_, ?_, ?_, ?_, ?_, ?_, ?_⟩
    · rw [hsz]
      simp only [sharers]
      refine A.seg.append B.seg (.inl (Nat.le_refl _)) ⟨Nat.le_refl _, by omega⟩ (by simp only [refRun]; exact ⟨by omega, Nat.le_refl _⟩) ?_ hfeed
      intro m j m' j' x hx hx'
      have h1 := A.seg.lt m j x hx
      rcases B.low m' j' x hx' with h | h
      · omega
      · cases h; omega
    · intro m j x hx
      rw [hfeed] at hx
      split at hx
      · exact A.low m j x hx
      · rcases B.low m j x hx with h | h
        · exact .inl (by omega)
        · cases h; exact .inl (by omega)
    · intro x g1 g2
      rw [hsz] at g2
      rcases Nat.lt_trichotomy (x + 1) (n + a.size) with h | h | h
      · exact A.piped x g1 h
      · exact ⟨_, by rw [show x = n + a.size - 1 by omega]; exact hw, hoa.1⟩
      · obtain ⟨q, e1, e2⟩ := B.piped x (by omega) (by omega)
        exact ⟨q, e1, by omega⟩
    · intro hwb
      simp only [Pipeline.outWant] at hwb
      rw [hsz, ← Nat.add_assoc]
      simp only [refRun]
      exact B.last hwb
    · intro x g1 g2
      rw [hsz] at g2
      rcases Nat.lt_trichotomy (x + 1) (n + a.size) with h | h | h
      · obtain ⟨m, j, hx⟩ := A.reader x g1 h
        refine ⟨m, j, ?_⟩
        rw [hfeed, if_pos (A.seg.lt m j x hx).2.1]; exact hx
      · obtain ⟨m, hx⟩ := B.head (n + a.size - 1) rfl hFb
        refine ⟨m, 0, ?_⟩
        rw [hfeed, if_neg, show x = n + a.size - 1 by omega]
        · exact hx
        · have := (B.seg.lt m 0 _ hx).1; omega
      · obtain ⟨m, j, hx⟩ := B.reader x (by omega) (by omega)
        refine ⟨m, j, ?_⟩
        rw [hfeed, if_neg]
        · exact hx
        · have := (B.seg.lt m j _ hx).1; omega
    · intro x hx hfed
      simp only [Fed] at hfed
      obtain ⟨m, hm⟩ := A.head x hx hfed
      exact ⟨m, by rw [hfeed, if_pos (A.seg.lt m 0 x hm).2.1]; exact hm⟩
    · simp only [refRun, A.leaks, B.leaks, fed_takes b hFb]; rfl
  | .redirect p crs, sh, hN, hR, n, f, i, o, e, c, hlo, ho, hof, he, hef, hi, hf, hi0, hat => by
    have hin := over_in hR i
    simp only [Nested] at hN
    simp only [Pipeline.Redirectable] at hR
    obtain ⟨hRp, hb, hs⟩ := hR
    simp only [refRun] at hat
    have P := tree_run (G := G) (lo := lo) p hN hRp (n := n) (f := if Dict.mem crs 0 then none else f) (sh := sh && !Dict.mem crs 0)
      (i := crs.overIn cwd i) (o := crs.over cwd 1 o) (e := crs.over cwd 2 e) (c := c) hlo (orWant_out ho)
      (by
        intro ob h
        rcases orWant_obj h with h | ⟨_, _, _, rfl⟩
        · exact hof ob h
        · exact foreign_file _ _ _ _ _)
      (orWant_plain he fun r hr => by
        have hv := hb.wf.value_of_get? hr
        exact (hs r hv.1).two hv.2)
      (by
        intro ob h
        rcases orWant_obj h with h | ⟨_, _, _, rfl⟩
        · exact hef ob h
        · exact foreign_file _ _ _ _ _)
      (by
        rcases hin with ⟨-, h⟩ | ⟨-, _, _, _, _, h⟩
        · rw [h]; exact hi
        · rw [h]; exact .inl (foreign_file _ _ _ _ _))
      (by
        intro x hx
        rcases hin with ⟨h', h⟩ | ⟨h', -⟩
        · rw [h'] at hx; rw [h]; exact hf x hx
        · rw [h'] at hx; cases hx)
      (by
        intro h1 h2
        rcases hin with ⟨h', h⟩ | ⟨h', _, _, _, _, h⟩
        · rw [h'] at h1 h2; rw [h]; exact hi0 h1 (by simpa using h2)
        · rw [h]; exact foreign_file _ _ _ _ _)
      hat
    have hsz : (Pipeline.redirect p crs).size = p.size := by simp only [Pipeline.size, Pipeline.ids]
    have hfeed : ∀ m j, feed (.redirect p crs) n f m j = feed p n (if Dict.mem crs 0 then none else f) m j := by
      intro m j; simp only [feed]
    refine ⟨?_, ?_, ?_, ?_, ?_, ?_, ?_⟩
    · rw [hsz]
      simp only [sharers, refRun]
      exact P.seg.congr hfeed rfl
    · intro m j x hx
      rw [hfeed] at hx
      rcases P.low m j x hx with h | h
      · exact .inl h
      · split at h
        · cases h
        · exact .inr h
    · rw [hsz]; exact P.piped
    · rw [hsz]; simp only [Pipeline.outWant, refRun]; exact P.last
    · rw [hsz]; intro x g1 g2
      obtain ⟨m, j, h⟩ := P.reader x g1 g2
      exact ⟨m, j, by rw [hfeed]; exact h⟩
    · intro x hx hfed
      simp only [Fed] at hfed
      obtain ⟨m, h⟩ := P.head x (by rw [hfed.1]; exact hx) hfed.2
      exact ⟨m, by rw [hfeed]; exact h⟩
    · simp only [refRun]; exact P.leaks
  | .group _ _, _, hN, _, _, _, _, _, _, _, _, _, _, _, _, _, _, _, _ => hN.elim
theorem tree_args {G : List RItem} {lo : Nat} : (a : Args) → NestedArgs a → a.Redirectable sys cwd → {n : Nat} →
    {i o e : Obj} → {c : Ctr} → lo ≤ c.p → Foreign lo e →
    (Foreign lo i ∨ ∃ x q, x < n ∧ i = .pipeR q ∧ Writes G x q) →
    At G n (refArgs cwd a i o e c).items → ArgsTree G lo n cwd a i o e c
  | .nil, hN, hR, n, i, o, e, c, hlo, he, hi, hat => by
    have hsz : Args.nil.size = 0 := rfl
    refine ⟨?_, ?_, ?_, ?_, ?_, ?_, ?_, ?_, ?_, ?_⟩
    · rw [hsz]; exact (Seg.nil G lo n _ _).congr (fun m j => by simp only [feedArgs]) (by simp only [sharersArgs])
    · intro m j x hx; simp only [feedArgs] at hx; cases hx
    · intro x g1 g2; rw [hsz] at g2; omega
    · intro x g1 g2; rw [hsz] at g2; omega
    · intro j x hx; simp [lasts] at hx
    · intro j j' x hx; simp [lasts] at hx
    · intro j x m j' hx; simp [lasts] at hx
    · intro j x hx; simp [lasts] at hx
    · intro j _; simp [refArgs, devObjs]
    · simp only [refArgs]
  | .word ws rest, hN, hR, n, i, o, e, c, hlo, he, hi, hat => by
    simp only [refArgs] at hat
    have A := tree_args (G := G) (lo := lo) rest (by simpa only [NestedArgs] using hN) (by simpa only [Args.Redirectable] using hR)
      (n := n) (i := i) (o := o) (e := e) (c := c) hlo he hi hat
    have hsz : (Args.word ws rest).size = rest.size := by simp only [Args.size, Args.ids]
    have hfeed : ∀ m j, feedArgs (.word ws rest) n m j = feedArgs rest n m j := by intro m j; simp only [feedArgs]
    have hl : lasts (.word ws rest) n = lasts rest n := by simp only [lasts]
    refine ⟨?_, ?_, ?_, ?_, ?_, ?_, ?_, ?_, ?_, ?_⟩
    · rw [hsz]; simp only [sharersArgs, refArgs]; exact A.seg.congr hfeed rfl
    · intro m j x hx; rw [hfeed] at hx; exact A.low m j x hx
    · rw [hsz]; exact A.piped
    · rw [hsz, hl]; intro x g1 g2
      rcases A.reader x g1 g2 with ⟨m, j, h⟩ | h
      · exact .inl ⟨m, j, by rw [hfeed]; exact h⟩
      · exact .inr h
    · rw [hsz, hl]; exact A.lastR
    · rw [hl]; exact A.lastU
    · rw [hl]; intro j x m j' h; rw [hfeed]; exact A.lastN j x m j' h
    · rw [hl]; simp only [refArgs, devObjs_lits]; exact A.words
    · rw [hl]; simp only [refArgs, devObjs_lits]; exact A.wordsN
    · simp only [refArgs]; exact A.leaks
  | .pipeArg pre p rest, hN, hR, n, i, o, e, c, hlo, he, hi, hat => by
    simp only [NestedArgs] at hN
    simp only [Args.Redirectable] at hR
    obtain ⟨hNp, hNr⟩ := hN
    obtain ⟨hRp, hOp, hRr⟩ := hR
    simp only [refArgs] at hat
    have hpp := size_pos p
    have hmp := refRun_mono (cwd := cwd) p i .pipeOut (.obj e) c
    have hop := refRun_out (cwd := cwd) p i .pipeOut (.obj e) c
    have P := tree_run (G := G) (lo := lo) p hNp hRp (n := n) (f := none) (sh := true) (i := i) (o := .pipeOut) (e := .obj e) (c := c) hlo trivial (by simp)
      trivial (by rintro ob ⟨⟩; exact he) hi (by simp) (by simp) hat.left
    have hat2 := hat.right
    rw [refRun_size] at hat2
    have A := tree_args (G := G) (lo := lo) rest hNr hRr (n := n + p.size) (i := i) (o := o) (e := e) (c := (refRun cwd p i .pipeOut (.obj e) c).ctr) (by omega) he
      (by
        rcases hi with hi | ⟨x, q, g1, g2⟩
        · exact .inl hi
        · exact .inr ⟨x, q, by omega, g2⟩) hat2
    have hma := refArgs_mono (cwd := cwd) rest i o e (refRun cwd p i .pipeOut (.obj e) c).ctr
    have hw := P.last hOp
    have hsz : (Args.pipeArg pre p rest).size = p.size + rest.size := by simp [Args.size, Args.ids, Pipeline.size]
    have hfeed : ∀ m j, feedArgs (.pipeArg pre p rest) n m j = if m < n + p.size then feed p n none m j else feedArgs rest (n + p.size) m j := by
      intro m j; simp only [feedArgs]
    have hl : lasts (.pipeArg pre p rest) n = (n + p.size - 1) :: lasts rest (n + p.size) := by simp only [lasts]
    have hlowP : ∀ m j x, feed p n none m j = some x → n ≤ x ∧ x + 1 < n + p.size := by
      intro m j x hx
      have h1 := P.seg.lt m j x hx
      rcases P.low m j x hx with h | h
      · omega
      · cases h
    refine ⟨?_, ?_, ?_, ?_, ?_, ?_, ?_, ?_, ?_, ?_⟩
    · rw [hsz]
      simp only [sharersArgs]
      refine P.seg.append A.seg (.inl (Nat.le_refl _)) ⟨Nat.le_refl _, by omega⟩ (by simp only [refArgs]; exact ⟨by omega, Nat.le_refl _⟩) ?_ hfeed
      intro m j m' j' x hx hx'
      have := hlowP m j x hx
      have := A.low m' j' x hx'
      omega
    · intro m j x hx
      rw [hfeed] at hx
      split at hx
      · exact (hlowP m j x hx).1
      · have := A.low m j x hx; omega
    · intro x g1 g2
      rw [hsz] at g2
      rcases Nat.lt_trichotomy (x + 1) (n + p.size) with h | h | h
      · exact P.piped x g1 h
      · exact ⟨_, by rw [show x = n + p.size - 1 by omega]; exact hw, hop.1⟩
      · obtain ⟨q, e1, e2⟩ := A.piped x (by omega) (by omega)
        exact ⟨q, e1, by omega⟩
    · intro x g1 g2
      rw [hsz] at g2
      rw [hl]
      rcases Nat.lt_trichotomy (x + 1) (n + p.size) with h | h | h
      · obtain ⟨m, j, hx⟩ := P.reader x g1 h
        exact .inl ⟨m, j, by rw [hfeed, if_pos (P.seg.lt m j x hx).2.1]; exact hx⟩
      · exact .inr ⟨0, by rw [show x = n + p.size - 1 by omega]; rfl⟩
      · rcases A.reader x (by omega) (by omega) with ⟨m, j, hx⟩ | ⟨j, hx⟩
        · refine .inl ⟨m, j, ?_⟩
          rw [hfeed, if_neg]
          · exact hx
          · have := (A.seg.lt m j x hx).1; omega
        · exact .inr ⟨j + 1, hx⟩
    · intro j x hx
      rw [hl] at hx; rw [hsz]
      cases j with
      | zero => simp only [List.getElem?_cons_zero, Option.some.injEq] at hx; omega
      | succ j => have := A.lastR j x hx; omega
    · intro j j' x hx hx'
      rw [hl] at hx hx'
      cases j with
      | zero =>
        cases j' with
        | zero => rfl
        | succ j' =>
          simp only [List.getElem?_cons_zero, Option.some.injEq] at hx
          have := A.lastR j' x hx'; omega
      | succ j =>
        cases j' with
        | zero =>
          simp only [List.getElem?_cons_zero, Option.some.injEq] at hx'
          have := A.lastR j x hx; omega
        | succ j' => rw [A.lastU j j' x hx hx']
    · intro j x m j' hx hx'
      rw [hl] at hx
      rw [hfeed] at hx'
      cases j with
      | zero =>
        simp only [List.getElem?_cons_zero, Option.some.injEq] at hx
        split at hx'
        · have := hlowP _ _ _ hx'; omega
        · have := A.low _ _ _ hx'; omega
      | succ j =>
        split at hx'
        · have := hlowP _ _ _ hx'; have := A.lastR j x hx; omega
        · exact A.lastN j x m j' hx hx'
    · intro j x hx
      rw [hl] at hx
      simp only [refArgs, devObjs]
      cases j with
      | zero =>
        simp only [List.getElem?_cons_zero, Option.some.injEq] at hx
        subst hx
        exact ⟨_, rfl, hw⟩
      | succ j => exact A.words j x hx
    · intro j hx
      rw [hl] at hx
      simp only [refArgs, devObjs]
      cases j with
      | zero => cases hx
      | succ j => exact A.wordsN j hx
    · simp only [refArgs, P.leaks, A.leaks]; rfl
  | .funcArg _ _ _, hN, _, _, _, _, _, _, _, _, _, _ => hN.elim
end

end Pieshell.Subst
