import Verif.Lemmas.Copy
/-! # C19: running a pipeline never changes the pipeline object -/
namespace Pieshell.Copy

/-- C19, first half: for every object graph whatsoever (any sharing), copying an object that has a finite tree
succeeds; the copy is the same tree; every occurrence of a sub-object in the copy is a distinct object
(`Nodup`), none of which existed before (`h.next ≤ x`); and no existing object has changed. -/
theorem C19_copy_is_fresh_and_equal (h : Heap) (fuel : Nat) (p : Nat) (t : Tree) (hw : h.WF) (ht : unfold h fuel p = some t) :
    ∃ c h', deepcopy fuel [] p h = some (c, [], h') ∧
      unfold h' fuel c = some t ∧
      (∃ l, cells h' fuel c = some l ∧ l.Nodup ∧ ∀ x ∈ l, h.next ≤ x) ∧
      (∀ a, a < h.next → h'.get a = h.get a) := by
  obtain ⟨c, h', e, C⟩ := deepcopy_ok fuel h p t hw ht
  obtain ⟨l, h1, h2, h3⟩ := C.cells
  exact ⟨c, h', e, C.tree, ⟨l, h1, h2, fun x hx => (h3 x hx).1⟩, C.ext.same⟩

/-- C19: no object of the copy has been started, whatever has happened to the original: the copy of a pipeline that is
running or has run can be run. -/
theorem C19_copy_not_started (h : Heap) (fuel p : Nat) (hw : h.WF) (c : Nat) (m : Memo) (h' : Heap) (hd : deepcopy fuel [] p h = some (c, m, h'))
    (a : Nat) (n : Node) (ha : h.next ≤ a) (hn : h'.get a = some n) : ¬ n.kind.Started := by
  rcases (deepcopy_adds fuel _ _ _ _ _ _ hd).2 a n hn with e | e
  · rw [hw.bound a ha] at e; cases e
  · exact e.2

/-- The only way copying can fail is that the object has no finite tree (a cyclic structure, or nesting beyond the
recursion limit). -/
theorem C19_copy_fails_iff (h : Heap) (fuel : Nat) (p : Nat) (hw : h.WF) (hp : p < h.next) :
    deepcopy fuel [] p h = none ↔ unfold h fuel p = none := by
  constructor
  · intro hd
    rcases Option.eq_none_or_eq_some (unfold h fuel p) with hu | ⟨t, hu⟩
    · exact hu
    · obtain ⟨c, h', e, _⟩ := deepcopy_ok fuel h p t hw hu
      rw [hd] at e; cases e
  · intro hu
    rcases Option.eq_none_or_eq_some (deepcopy fuel [] p h) with hd | ⟨⟨c, m, h'⟩, hd⟩
    · exact hd
    · obtain ⟨t, ht⟩ := deepcopy_tree fuel h p c m h' hw hp hd
      rw [hu] at ht; cases ht

/-- C19, second half: whatever pipeline is run (`run` succeeding), every object that existed before and is not a
one-shot iterator is exactly as it was (in particular `_started` of no existing pipeline changes); the object run is
new; and it has the structure of the original. -/
theorem C19_originals_unchanged_partial (h h' : Heap) (fuel : Nat) (p c : Nat) (hw : h.WF) (hp : p < h.next)
    (hr : run fuel p h = some (c, h')) :
    (∀ (a : Nat) (n : Node), h.get a = some n → (∀ r, n.kind ≠ .iter r) → h'.get a = some n) ∧
    (∀ (f a : Nat), a < h.next → unfold h' f a = unfold h f a) ∧
    unfold h' fuel c = unfold h fuel p ∧
    (∀ n, h.get p = some n → n.kind.shared = false → h.next ≤ c) ∧
    h'.WF ∧ h.next ≤ h'.next := by
  simp only [run] at hr
  split at hr
  · cases hr
  · next c0 m h1 hd =>
    split at hr
    · cases hr
    · next h2 hr2 =>
      have hr := Option.some.inj hr
      have e1 := congrArg Prod.fst hr
      have e2 := congrArg Prod.snd hr
      simp only at e1 e2
      subst e1 e2
      obtain ⟨t, ht⟩ := deepcopy_tree fuel h p c0 m h1 hw hp hd
      obtain ⟨c', h1', e, C⟩ := deepcopy_ok fuel h p t hw ht
      rw [hd] at e
      cases e
      obtain ⟨l, hl, _, hb⟩ := C.cells
      have T := runObj_touched (S := fun x => h.next ≤ x) fuel fuel h1 h2 c0 l hl (fun x hx => (hb x hx).1) hr2
      refine ⟨fun a n hn hi => ?_, fun f a ha => ?_, ?_, fun n hn hs => ?_, T.wf C.wf, ?_⟩
      · have ha : a < h.next := by
          rcases Nat.lt_or_ge a h.next with h | h
          · exact h
          · rw [hw.bound a h] at hn; cases hn
        exact T.only a n (by rw [C.ext.same a ha]; exact hn) (by omega) hi
      · rw [T.unfold, unfold_ext hw C.ext f a ha]
      · rw [T.unfold, C.tree, ht]
      · cases fuel with
        | zero => cases ht
        | succ f =>
          have ht' := C.tree
          simp only [unfold, leaf_eq, unstarted_eq, hn, hs, Bool.false_eq_true, ↓reduceIte] at ht
          simp only [unfold, leaf_eq, unstarted_eq] at ht'
          simp only [cells, leaf_eq, leaf_eq] at hl
          cases hn' : h1.get c0 with
          | none => rw [hn'] at hl; cases hl
          | some n' =>
            rw [hn'] at hl ht'
            simp only at hl ht'
            by_cases hs' : n'.kind.shared = true
            · rw [if_pos hs'] at ht'
              rw [← ht'] at ht
              split at ht <;> cases ht
            · rw [if_neg hs'] at hl
              split at hl
              · cases hl
              · have hl := Option.some.inj hl
                exact (hb c0 (by rw [← hl]; simp)).1
      · rw [T.next]; exact C.ext.le

/-- run each of the objects, one after the other; the results in order -/
def runAll (fuel : Nat) : List Nat → Heap → Option (List Nat × Heap)
  | [], h => some ([], h)
  | p :: ps, h => match run fuel p h with
    | none => none
    | some (c, h1) => match runAll fuel ps h1 with
      | none => none
      | some (cs, h2) => some (c :: cs, h2)

/-- Every sequence of runs leaves everything that existed before it unchanged (iterators apart). -/
theorem C19_any_sequence_of_runs_partial (fuel : Nat) (ps : List Nat) : ∀ (h h' : Heap) (cs : List Nat), h.WF →
    (∀ p ∈ ps, p < h.next) → runAll fuel ps h = some (cs, h') →
    (∀ (a : Nat) (n : Node), h.get a = some n → (∀ r, n.kind ≠ .iter r) → h'.get a = some n) ∧
    (∀ (f a : Nat), a < h.next → unfold h' f a = unfold h f a) ∧
    Pointwise (fun p c => unfold h' fuel c = unfold h fuel p) ps cs := by
  induction ps with
  | nil => intro h h' cs _ _ hr; simp only [runAll] at hr; cases hr; exact ⟨fun a n hn _ => hn, fun _ _ _ => rfl, .nil⟩
  | cons p ps ih =>
    intro h h' cs hw hp hr
    simp only [runAll] at hr
    split at hr
    · cases hr
    · next c h1 h1e =>
      split at hr
      · cases hr
      · next cs' h2 h2e =>
        cases hr
        obtain ⟨A, B, Ceq, D, W, L⟩ := C19_originals_unchanged_partial h h1 fuel p c hw (hp p (by simp)) h1e
        obtain ⟨A', B', C'⟩ := ih h1 h' cs' W (fun q hq => Nat.lt_of_lt_of_le (hp q (by simp [hq])) L) h2e
        refine ⟨fun a n hn hi => A' a n (A a n hn hi) hi, fun f a ha => ?_, ?_⟩
        · rw [B' f a (Nat.lt_of_lt_of_le ha L), B f a ha]
        · refine .cons ?_ ?_
          · rcases Nat.lt_or_ge c h1.next with hc | hc
            · rw [B' fuel c hc, Ceq]
            · exfalso
              have hn := W.bound c hc
              have hu : unfold h1 fuel c = none := by
                cases fuel with
                | zero => rfl
                | succ f => simp [unfold, hn]
              simp only [run] at h1e
              split at h1e
              · cases h1e
              · next c0 m h1' hd =>
                obtain ⟨t, ht⟩ := deepcopy_tree fuel h p c0 m h1' hw (hp p (by simp)) hd
                rw [hu, ht] at Ceq
                cases Ceq
          · have : ∀ (ps cs : List Nat), (∀ p ∈ ps, p < h.next) → Pointwise (fun p c => unfold h' fuel c = unfold h1 fuel p) ps cs →
                Pointwise (fun p c => unfold h' fuel c = unfold h fuel p) ps cs := by
              intro ps cs hps hpw
              induction hpw with
              | nil => exact .nil
              | cons hx _ ih' => exact .cons (by rw [hx, B fuel _ (hps _ (by simp))]) (ih' (fun q hq => hps q (by simp [hq])))
            exact this ps cs' (fun q hq => hp q (by simp [hq])) C'

/-- Corollary: running the same pipeline again gives a pipeline of the same structure. -/
theorem C19_run_again_partial (fuel : Nat) (p c1 c2 : Nat) (h h1 h2 : Heap) (hw : h.WF) (hp : p < h.next)
    (r1 : run fuel p h = some (c1, h1)) (r2 : run fuel p h1 = some (c2, h2)) :
    unfold h2 fuel c2 = unfold h fuel p ∧ ∀ n, h.get p = some n → n.kind.shared = false → c1 ≠ c2 := by
  obtain ⟨A, B, C, D, W, L⟩ := C19_originals_unchanged_partial h h1 fuel p c1 hw hp r1
  obtain ⟨A', B', C', D', W', L'⟩ := C19_originals_unchanged_partial h1 h2 fuel p c2 W (Nat.lt_of_lt_of_le hp L) r2
  refine ⟨by rw [C', B fuel p hp], fun n hn hs => ?_⟩
  have h1' := D' n (A p n hn (fun r hr => by rw [hr] at hs; cases hs)) hs
  have : c1 < h1.next := by
    rcases Nat.lt_or_ge c1 h1.next with hc | hc
    · exact hc
    · exfalso
      have hu : unfold h1 fuel c1 = none := by
        cases fuel with
        | zero => rfl
        | succ f => simp [unfold, W.bound c1 hc]
      simp only [run] at r1
      split at r1
      · cases r1
      · next c0 m h1'' hd =>
        obtain ⟨t, ht⟩ := deepcopy_tree fuel h p c0 m h1'' hw hp hd
        rw [hu, ht] at C
        cases C
  omega

/-- a pipeline object: it can be run -/
def Kind.Runs : Kind → Prop
  | .command _ | .func _ _ | .pipe _ | .group _ | .redirect _ => True
  | _ => False

/-- from `h` to `h'`, no object that has been started becomes one that has not -/
def KeepsStarted (h h' : Heap) : Prop := ∀ a n, h.get a = some n → n.kind.Started → ∃ n', h'.get a = some n' ∧ n'.kind.Started

theorem KeepsStarted.put {h : Heap} {a : Nat} {n m : Node} (hn : h.get a = some n) (hm : n.kind.Started → m.kind.Started) :
    KeepsStarted h (h.put a m) := by
  intro b k hk hs
  by_cases e : b = a
  · subst e; rw [hn] at hk; cases hk
    exact ⟨m, by simp [Heap.put], hm hs⟩
  · exact ⟨k, by simp [Heap.put, e, hk], hs⟩

theorem KeepsStarted.trans {h1 h2 h3 : Heap} (a : KeepsStarted h1 h2) (b : KeepsStarted h2 h3) : KeepsStarted h1 h3 := by
  intro x n hn hs
  obtain ⟨n', h1, h2⟩ := a x n hn hs
  exact b x n' h1 h2

theorem forEach_keeps (f : Nat → Heap → Option Heap) (hf : ∀ a h h', f a h = some h' → KeepsStarted h h') (l : List Nat) :
    ∀ h h', forEach f l h = some h' → KeepsStarted h h' := by
  induction l with
  | nil => intro h h' e; cases e; exact fun a n hn hs => ⟨n, hn, hs⟩
  | cons a l ih =>
    intro h h' e
    simp only [forEach] at e
    split at e
    · cases e
    · next h1 e1 => exact (hf a h h1 e1).trans (ih h1 h' e)

theorem start_started {k : Kind} (h : k.Runs) : k.start.Started := by cases k <;> simp_all [Kind.Runs, Kind.start, Kind.Started]

theorem runObj_keeps (f : Nat) : ∀ a h h', runObj f a h = some h' → KeepsStarted h h' := by
  induction f with
  | zero => intro a h h' e; cases e
  | succ f ih =>
    intro a h h' e
    simp only [runObj] at e
    split at e
    · cases e
    · next n hn =>
      have st : n.kind.Started → n.kind.start.Started := by
        intro h; apply start_started; revert h; cases n.kind <;> simp [Kind.Started, Kind.Runs]
      split at e
      · cases e; exact fun a n hn hs => ⟨n, hn, hs⟩
      · cases e; exact fun a n hn hs => ⟨n, hn, hs⟩
      · next hk => cases e; exact KeepsStarted.put hn (by rw [hk]; simp [Kind.Started])
      · exact forEach_keeps _ ih _ _ _ e
      · have k1 := KeepsStarted.put (m := { n with kind := n.kind.start }) hn st
        split at e
        · next r cs hfn =>
          cases e
          exact k1.trans (KeepsStarted.put hfn (by simp [Kind.Started]))
        · cases e; exact k1
      · exact (KeepsStarted.put hn st).trans (forEach_keeps _ ih _ _ _ e)

/-- C19: what `run` makes of a pipeline has been started: showing it (base.py:197-199) does not run it again. -/
theorem C19_running_is_started (h h' : Heap) (fuel p c : Nat) (n : Node) (hn : h.get p = some n) (hk : n.kind.Runs)
    (hr : run fuel p h = some (c, h')) : ∃ m, h'.get c = some m ∧ m.kind.Started := by
  simp only [run] at hr
  split at hr
  · cases hr
  · next c0 m h1 hd =>
    split at hr
    · cases hr
    · next h2 hr2 =>
      cases hr
      cases fuel with
      | zero => cases hd
      | succ f =>
        have hs : n.kind.shared = false := by revert hk; cases n.kind <;> simp [Kind.Runs, Kind.shared]
        have hf : n.kind.fresh.Runs := by revert hk; cases n.kind <;> simp [Kind.Runs, Kind.fresh]
        simp only [deepcopy, Dict.get?, hn, hs, Bool.false_eq_true, ↓reduceIte] at hd
        split at hd
        · cases hd
        · next cs m1 h3 _ =>
          cases hd
          have hg : (h3.alloc { kind := n.kind.fresh, children := cs }).2.get (h3.alloc { kind := n.kind.fresh, children := cs }).1 =
              some { kind := n.kind.fresh, children := cs } := by simp [Heap.alloc]
          have st := start_started hf
          generalize (h3.alloc { kind := n.kind.fresh, children := cs }).2 = h4 at *
          generalize (h3.alloc { kind := n.kind.fresh, children := cs }).1 = c at *
          have key : ∀ hh, KeepsStarted (h4.put c { kind := n.kind.fresh.start, children := cs }) hh → ∃ m, hh.get c = some m ∧ m.kind.Started :=
            fun hh k => k c _ (by simp [Heap.put]; rfl) st
          simp only [runObj, hg] at hr2
          split at hr2
          · next e => rw [e] at hf; exact hf.elim
          · next e => rw [e] at hf; exact hf.elim
          · next e => rw [e] at hf; exact hf.elim
          · next e => rw [e] at hf; exact hf.elim
          · apply key
            split at hr2
            · next r cs' hfn =>
              cases hr2
              exact KeepsStarted.put hfn (by simp [Kind.Started])
            · cases hr2; exact fun a n hn hs => ⟨n, hn, hs⟩
          · exact key _ (forEach_keeps _ (runObj_keeps f) _ _ _ hr2)

/-- a heap given by a list -/
def ofList (l : List Node) : Heap := { get := fun a => l[a]?, next := l.length }

/-- `c = env.cat("x"); (c | c)` : the same command object twice, and it has been started by hand -/
def exHeap : Heap := ofList [⟨.atom 7, []⟩, ⟨.command true, [0]⟩, ⟨.pipe false, [1, 1]⟩]

theorem exHeap_wf : exHeap.WF := by
  refine ⟨fun a ha => ?_, fun a n hn c hc => ?_, fun a n f s hn hk => ?_⟩
  · simp only [exHeap, ofList] at ha ⊢; simp at ha ⊢; omega
  · match a with
    | 0 => simp [exHeap, ofList] at hn; subst hn; simp at hc
    | 1 => simp [exHeap, ofList] at hn; subst hn; simp at hc; subst hc; decide
    | 2 => simp [exHeap, ofList] at hn; subst hn; simp at hc; subst hc; decide
    | a + 3 => simp [exHeap, ofList] at hn
  · match a with
    | 0 => simp [exHeap, ofList] at hn; subst hn; cases hk
    | 1 => simp [exHeap, ofList] at hn; subst hn; cases hk
    | 2 => simp [exHeap, ofList] at hn; subst hn; cases hk
    | a + 3 => simp [exHeap, ofList] at hn

/-- the hypotheses are met, and the two occurrences of the one command object are copied to two objects -/
example : exHeap.WF ∧ (unfold exHeap 5 2).isSome ∧
    (deepcopy 5 [] 2 exHeap).map (fun r => (r.1, cells r.2.2 5 r.1)) = some (5, some [5, 3, 4]) ∧
    cells exHeap 5 2 = some [2, 1, 1] ∧
    (run 5 2 exHeap).map (fun r => (r.1, r.2.get 2, r.2.get 5)) = some (5, some ⟨.pipe false, [1, 1]⟩, some ⟨.pipe true, [3, 4]⟩) ∧
    ((runAll 5 [2, 2, 1] exHeap).map (·.1)) = some [5, 8, 9] :=
  ⟨exHeap_wf, rfl, rfl, rfl, rfl, rfl⟩

/-- `g = iter([1, 2]); p = Function(env, g)` -/
def exIter : Heap := ofList [⟨.iter [1, 2], []⟩, ⟨.func 0 false, []⟩]

/-- C19 in full is false: an iterator used in a pipeline is not copied, the first run consumes it and the second
produces nothing. -/
theorem C19_refuted_iterator : ∃ (h : Heap) (fuel p : Nat) (c : Nat) (h' : Heap), p < h.next ∧ run fuel p h = some (c, h') ∧
    h.get 0 = some ⟨.iter [1, 2], []⟩ ∧ h'.get 0 = some ⟨.iter [], []⟩ :=
  ⟨exIter, 3, 1, 2, _, by decide, rfl, rfl, rfl⟩

end Pieshell.Copy
