import Verif.Spec.Copy
/-! Helper lemmas for C19. -/
namespace Pieshell.Copy

/-- `h'` extends `h`: nothing that existed has changed. -/
structure Ext (h h' : Heap) : Prop where
  le : h.next ≤ h'.next
  same : ∀ a, a < h.next → h'.get a = h.get a

/-- What the code shares and what it resets is what may be shared and must be reset. -/
theorem leaf_eq : Kind.leaf = Kind.shared := by funext k; cases k <;> rfl
theorem unstarted_eq : Kind.unstarted = Kind.fresh := by funext k; cases k <;> rfl

theorem Ext.refl (h : Heap) : Ext h h := ⟨Nat.le_refl _, fun _ _ => rfl⟩
theorem Ext.trans {a b c : Heap} (h1 : Ext a b) (h2 : Ext b c) : Ext a c :=
  ⟨Nat.le_trans h1.le h2.le, fun x hx => by rw [h2.same x (Nat.lt_of_lt_of_le hx h1.le), h1.same x hx]⟩

theorem allSome_congr {α β : Type} {f g : α → Option β} {l : List α} (h : ∀ a ∈ l, f a = g a) : allSome f l = allSome g l := by
  induction l with
  | nil => rfl
  | cons a l ih =>
    simp only [allSome]
    rw [h a (by simp), ih (fun b hb => h b (by simp [hb]))]

theorem unfold_ext {h h' : Heap} (hw : h.WF) (he : Ext h h') (f : Nat) (a : Nat) (ha : a < h.next) : unfold h' f a = unfold h f a := by
  induction f generalizing a with
  | zero => rfl
  | succ f ih =>
    simp only [unfold, leaf_eq, unstarted_eq]
    rw [he.same a ha]
    cases hn : h.get a with
    | none => rfl
    | some n =>
      simp only
      rw [allSome_congr (fun c hc => ih c (hw.closed a n hn c hc))]

theorem cells_ext {h h' : Heap} (hw : h.WF) (he : Ext h h') (f : Nat) (a : Nat) (ha : a < h.next) : cells h' f a = cells h f a := by
  induction f generalizing a with
  | zero => rfl
  | succ f ih =>
    simp only [cells, leaf_eq, leaf_eq]
    rw [he.same a ha]
    cases hn : h.get a with
    | none => rfl
    | some n =>
      simp only
      rw [allSome_congr (fun c hc => ih c (hw.closed a n hn c hc))]

theorem alloc_ext (h : Heap) (n : Node) : Ext h (h.alloc n).2 := by
  refine ⟨Nat.le_succ _, fun a ha => ?_⟩
  simp only [Heap.alloc]
  rw [if_neg (by omega)]

theorem alloc_wf {h : Heap} {n : Node} (hw : h.WF) (hc : ∀ c ∈ n.children, c < h.next) (hf : ∀ f s, n.kind = .func f s → f < h.next) :
    (h.alloc n).2.WF := by
  refine ⟨fun a ha => ?_, fun a m hm c hc' => ?_, fun a m f s hm hk => ?_⟩
  · simp only [Heap.alloc] at ha ⊢
    rw [if_neg (by omega)]; exact hw.bound a (by omega)
  · simp only [Heap.alloc] at hm ⊢
    split at hm
    · cases hm; have := hc c hc'; omega
    · have := hw.closed a m hm c hc'; omega
  · simp only [Heap.alloc] at hm ⊢
    split at hm
    · cases hm; have := hf f s hk; omega
    · have := hw.fns a m f s hm hk; omega

/-- What copying one object achieves. -/
structure Copied (h : Heap) (f : Nat) (t : Tree) (c : Nat) (h' : Heap) : Prop where
  ext : Ext h h'
  wf : h'.WF
  lt : c < h'.next
  tree : unfold h' f c = some t
  cells : ∃ l, cells h' f c = some l ∧ l.Nodup ∧ ∀ x ∈ l, h.next ≤ x ∧ x < h'.next

theorem unfold_lt {h : Heap} (hw : h.WF) {f : Nat} {a : Nat} {t : Tree} (ht : unfold h f a = some t) : a < h.next := by
  cases f with
  | zero => cases ht
  | succ f =>
    rcases Nat.lt_or_ge a h.next with h1 | h1
    · exact h1
    · simp [unfold, hw.bound a h1] at ht

theorem copyList_ok {f : Nat} (ih : ∀ (h : Heap) (a : Nat) (t : Tree), h.WF → unfold h f a = some t →
      ∃ c h', deepcopy f [] a h = some (c, [], h') ∧ Copied h f t c h') :
    ∀ (l : List Nat) (h : Heap) (ts : List Tree), h.WF → allSome (unfold h f) l = some ts →
      ∃ cs h' ls, copyList (deepcopy f) [] l h = some (cs, [], h') ∧ Ext h h' ∧ h'.WF ∧ (∀ c ∈ cs, c < h'.next) ∧
        allSome (unfold h' f) cs = some ts ∧ allSome (cells h' f) cs = some ls ∧ ls.flatten.Nodup ∧
        ∀ x ∈ ls.flatten, h.next ≤ x ∧ x < h'.next := by
  intro l
  induction l with
  | nil =>
    intro h ts hw hts
    simp only [allSome] at hts
    cases hts
    exact ⟨[], h, [], rfl, Ext.refl h, hw, by simp, rfl, rfl, by simp, by simp⟩
  | cons a l ihl =>
    intro h ts hw hts
    simp only [allSome] at hts
    split at hts
    · cases hts
    · next t ht =>
      split at hts
      · cases hts
      · next ts' hts' =>
        cases hts
        obtain ⟨c, h1, e1, C⟩ := ih h a t hw ht
        have hcl : allSome (unfold h1 f) l = some ts' := by
          rw [← hts']
          refine allSome_congr fun b hb => unfold_ext hw C.ext f b ?_
          -- every element has a tree in h
          have : ∀ (l : List Nat) (ts : List Tree), allSome (unfold h f) l = some ts → ∀ b ∈ l, b < h.next := by
            intro l
            induction l with
            | nil => intro ts _ b hb; simp at hb
            | cons x l ihx =>
              intro ts hs b hb
              simp only [allSome] at hs
              split at hs
              · cases hs
              · next tx htx =>
                split at hs
                · cases hs
                · next tl htl =>
                  rcases List.mem_cons.1 hb with rfl | hb
                  · exact unfold_lt hw htx
                  · exact ihx tl htl b hb
          exact this l ts' hts' b hb
        obtain ⟨cs, h2, ls, e2, E2, W2, L2, T2, K2, N2, B2⟩ := ihl h1 ts' C.wf hcl
        obtain ⟨lc, hlc1, hlc2, hlc3⟩ := C.cells
        refine ⟨c :: cs, h2, lc :: ls, ?_, C.ext.trans E2, W2, ?_, ?_, ?_, ?_, ?_⟩
        · simp only [copyList, e1, e2]
        · intro x hx
          rcases List.mem_cons.1 hx with rfl | hx
          · exact Nat.lt_of_lt_of_le C.lt E2.le
          · exact L2 x hx
        · simp only [allSome]
          rw [unfold_ext C.wf E2 f c C.lt, C.tree, T2]
        · simp only [allSome]
          rw [cells_ext C.wf E2 f c C.lt, hlc1, K2]
        · rw [List.flatten_cons, List.nodup_append]
          refine ⟨hlc2, N2, fun x hx y hy e => ?_⟩
          have h1 := hlc3 x hx
          have h2 := B2 y hy
          omega
        · intro x hx
          rw [List.flatten_cons, List.mem_append] at hx
          have := C.ext.le
          have := E2.le
          rcases hx with hx | hx
          · have := hlc3 x hx; omega
          · have := B2 x hx; omega

theorem deepcopy_ok (f : Nat) : ∀ (h : Heap) (a : Nat) (t : Tree), h.WF → unfold h f a = some t →
    ∃ c h', deepcopy f [] a h = some (c, [], h') ∧ Copied h f t c h' := by
  induction f with
  | zero => intro h a t _ ht; cases ht
  | succ f ih =>
    intro h a t hw ht
    have hlt := unfold_lt hw ht
    simp only [unfold, leaf_eq, unstarted_eq] at ht
    cases hn : h.get a with
    | none => rw [hn] at ht; cases ht
    | some n =>
      rw [hn] at ht
      simp only at ht
      by_cases hs : n.kind.shared = true
      · rw [if_pos hs] at ht
        cases ht
        refine ⟨a, h, ?_, Ext.refl h, hw, hlt, ?_, [], ?_, by simp, by simp⟩
        · simp only [deepcopy, Dict.get?, hn, hs, ↓reduceIte]
        · simp only [unfold, leaf_eq, unstarted_eq, hn, hs, ↓reduceIte]
        · simp only [cells, leaf_eq, hn, hs, ↓reduceIte]
      · rw [if_neg hs] at ht
        split at ht
        · cases ht
        · next ts hts =>
          cases ht
          obtain ⟨cs, h1, ls, e1, E1, W1, L1, T1, K1, N1, B1⟩ := copyList_ok ih n.children h ts hw hts
          have hfr : n.kind.fresh.shared = false := by
            cases hk : n.kind <;> rw [hk] at hs <;> simp_all [Kind.shared, Kind.fresh]
          have hff : n.kind.fresh.fresh = n.kind.fresh := by cases n.kind <;> rfl
          have hfn : ∀ g s, n.kind.fresh = .func g s → g < h1.next := by
            intro g s hg
            have : ∃ s', n.kind = .func g s' := by
              cases hk : n.kind <;> rw [hk] at hg <;> simp [Kind.fresh] at hg
              obtain ⟨rfl, rfl⟩ := hg
              exact ⟨_, rfl⟩
            obtain ⟨s', hs'⟩ := this
            exact Nat.lt_of_lt_of_le (hw.fns a n g s' hn hs') E1.le
          have EA := alloc_ext h1 { kind := n.kind.fresh, children := cs }
          have WA := alloc_wf (n := { kind := n.kind.fresh, children := cs }) W1 L1 hfn
          have hget : (h1.alloc { kind := n.kind.fresh, children := cs }).2.get h1.next = some { kind := n.kind.fresh, children := cs } := by
            simp [Heap.alloc]
          refine ⟨h1.next, (h1.alloc { kind := n.kind.fresh, children := cs }).2, ?_, E1.trans EA, WA, ?_, ?_, ?_⟩
          · simp only [deepcopy, Dict.get?, hn, e1, ↓reduceIte]
            rw [if_neg hs]
            rfl
          · simp [Heap.alloc]
          · simp only [unfold, leaf_eq, unstarted_eq, hget, hfr]
            rw [allSome_congr (fun c hc => unfold_ext W1 EA f c (L1 c hc)), T1]
            simp [hff]
          · refine ⟨h1.next :: ls.flatten, ?_, ?_, ?_⟩
            · simp only [cells, leaf_eq, hget, hfr]
              rw [allSome_congr (fun c hc => cells_ext W1 EA f c (L1 c hc)), K1]
              simp
            · rw [List.nodup_cons]
              refine ⟨fun hm => ?_, N1⟩
              have := B1 _ hm; omega
            · intro x hx
              have := E1.le
              rcases List.mem_cons.1 hx with rfl | hx
              · simp [Heap.alloc]; omega
              · have := B1 x hx; simp [Heap.alloc]; omega

/-- Conversely, copying succeeds only if the object has a tree. -/
theorem copyList_tree {f : Nat} (ih : ∀ (h : Heap) (a c : Nat) (m : Memo) (h' : Heap), h.WF → a < h.next → deepcopy f [] a h = some (c, m, h') → ∃ t, unfold h f a = some t) :
    ∀ (l : List Nat) (h : Heap) (cs : List Nat) (m : Memo) (h' : Heap), h.WF → (∀ x ∈ l, x < h.next) → copyList (deepcopy f) [] l h = some (cs, m, h') →
      ∃ ts, allSome (unfold h f) l = some ts := by
  intro l
  induction l with
  | nil => intro h cs m h' _ _ _; exact ⟨[], rfl⟩
  | cons a l ihl =>
    intro h cs m h' hw hlt hc
    simp only [copyList] at hc
    split at hc
    · cases hc
    · next b m1 h1 hb =>
      obtain ⟨t, ht⟩ := ih h a b m1 h1 hw (hlt a (by simp)) hb
      obtain ⟨c', h1', e1, C⟩ := deepcopy_ok f h a t hw ht
      rw [hb] at e1
      cases e1
      split at hc
      · cases hc
      · next bs m2 h2 hbs =>
        obtain ⟨ts, hts⟩ := ihl h1 bs m2 h2 C.wf (fun x hx => Nat.lt_of_lt_of_le (hlt x (by simp [hx])) C.ext.le) hbs
        refine ⟨t :: ts, ?_⟩
        simp only [allSome, ht]
        rw [← allSome_congr (fun x hx => unfold_ext hw C.ext f x (hlt x (by simp [hx]))), hts]

theorem deepcopy_tree (f : Nat) : ∀ (h : Heap) (a c : Nat) (m : Memo) (h' : Heap), h.WF → a < h.next →
    deepcopy f [] a h = some (c, m, h') → ∃ t, unfold h f a = some t := by
  induction f with
  | zero => intro h a c m h' _ _ hc; cases hc
  | succ f ih =>
    intro h a c m h' hw hlt hc
    simp only [deepcopy, Dict.get?] at hc
    cases hn : h.get a with
    | none => rw [hn] at hc; cases hc
    | some n =>
      rw [hn] at hc
      simp only at hc
      by_cases hs : n.kind.shared = true
      · exact ⟨.leaf a, by simp only [unfold, leaf_eq, unstarted_eq, hn, hs, ↓reduceIte]⟩
      · rw [if_neg hs] at hc
        split at hc
        · cases hc
        · next cs m1 h1 hcs =>
          obtain ⟨ts, hts⟩ := copyList_tree ih n.children h cs m1 h1 hw (hw.closed a n hn) hcs
          exact ⟨.node n.kind.fresh ts, by simp only [unfold, leaf_eq, unstarted_eq, hn, hts]; rw [if_neg hs]⟩

/-! ### running -/

/-- one object against itself later -/
structure Kept (n n' : Node) : Prop where
  children : n'.children = n.children
  shared : n'.kind.shared = n.kind.shared
  fresh : n.kind.shared = false → n'.kind.fresh = n.kind.fresh
  iter : (∃ r, n'.kind = .iter r) ↔ ∃ r, n.kind = .iter r

theorem Kept.refl (n : Node) : Kept n n := ⟨rfl, rfl, fun _ => rfl, Iff.rfl⟩
theorem Kept.trans {a b c : Node} (h1 : Kept a b) (h2 : Kept b c) : Kept a c :=
  ⟨h2.children.trans h1.children, h2.shared.trans h1.shared,
   fun h => (h2.fresh (by rw [h1.shared]; exact h)).trans (h1.fresh h), h2.iter.trans h1.iter⟩

/-- same objects with the same structure; changes only at `S` or at iterators -/
structure Touched (S : Nat → Prop) (h h' : Heap) : Prop where
  next : h'.next = h.next
  shape : ∀ a, (h.get a = none ∧ h'.get a = none) ∨ ∃ n n', h.get a = some n ∧ h'.get a = some n' ∧ Kept n n'
  only : ∀ a n, h.get a = some n → ¬ S a → (∀ r, n.kind ≠ .iter r) → h'.get a = some n

theorem Touched.refl (S : Nat → Prop) (h : Heap) : Touched S h h := by
  refine ⟨rfl, fun a => ?_, fun a n hn _ _ => hn⟩
  cases hn : h.get a with
  | none => exact .inl ⟨rfl, rfl⟩
  | some n => exact .inr ⟨n, n, rfl, rfl, Kept.refl n⟩

theorem Touched.trans {S : Nat → Prop} {a b c : Heap} (h1 : Touched S a b) (h2 : Touched S b c) : Touched S a c := by
  refine ⟨h2.next.trans h1.next, fun x => ?_, fun x n hn hs hi => ?_⟩
  · rcases h1.shape x with ⟨p, q⟩ | ⟨n, n', p, q, k⟩
    · rcases h2.shape x with ⟨p', q'⟩ | ⟨m, m', p', q', k'⟩
      · exact .inl ⟨p, q'⟩
      · rw [q] at p'; cases p'
    · rcases h2.shape x with ⟨p', q'⟩ | ⟨m, m', p', q', k'⟩
      · rw [q] at p'; cases p'
      · rw [q] at p'; cases p'; exact .inr ⟨n, m', p, q', k.trans k'⟩
  · exact h2.only x n (h1.only x n hn hs hi) hs hi

theorem Touched.mono {S T : Nat → Prop} {h h' : Heap} (ht : Touched S h h') (hST : ∀ a, S a → T a) : Touched T h h' :=
  ⟨ht.next, ht.shape, fun a n hn hT hi => ht.only a n hn (fun hS => hT (hST a hS)) hi⟩

theorem touched_put {S : Nat → Prop} {h : Heap} {a : Nat} {n n' : Node} (hn : h.get a = some n) (hk : Kept n n')
    (hS : S a ∨ ∃ r, n.kind = .iter r) : Touched S h (h.put a n') := by
  refine ⟨rfl, fun x => ?_, fun x m hm hs hi => ?_⟩
  · by_cases hx : x = a
    · subst hx; exact .inr ⟨n, n', hn, by simp [Heap.put], hk⟩
    · cases hm : h.get x with
      | none => exact .inl ⟨rfl, by simp [Heap.put, hx, hm]⟩
      | some m => exact .inr ⟨m, m, rfl, by simp [Heap.put, hx, hm], Kept.refl m⟩
  · by_cases hx : x = a
    · subst hx
      rw [hn] at hm; cases hm
      rcases hS with hS | ⟨r, hr⟩
      · exact absurd hS hs
      · exact absurd hr (hi r)
    · simp [Heap.put, hx, hm]

theorem Touched.wf {S : Nat → Prop} {h h' : Heap} (ht : Touched S h h') (hw : h.WF) : h'.WF := by
  refine ⟨fun a ha => ?_, fun a n hn c hc => ?_, fun a n g s hn hk => ?_⟩
  · rcases ht.shape a with ⟨_, q⟩ | ⟨n, n', p, q, k⟩
    · exact q
    · rw [ht.next] at ha; rw [hw.bound a ha] at p; cases p
  · rcases ht.shape a with ⟨_, q⟩ | ⟨m, m', p, q, k⟩
    · rw [q] at hn; cases hn
    · rw [q] at hn; cases hn
      rw [ht.next]; exact hw.closed a m p c (k.children ▸ hc)
  · rcases ht.shape a with ⟨_, q⟩ | ⟨m, m', p, q, k⟩
    · rw [q] at hn; cases hn
    · rw [q] at hn; cases hn
      rw [ht.next]
      have hsh : m.kind.shared = false := by rw [← k.shared, hk]; rfl
      have hfr := k.fresh hsh
      rw [hk] at hfr
      have : ∃ s', m.kind = .func g s' := by
        cases hk' : m.kind <;> rw [hk'] at hfr <;> simp [Kind.fresh] at hfr
        subst hfr; exact ⟨_, rfl⟩
      obtain ⟨s', hs'⟩ := this
      exact hw.fns a m g s' p hs'

theorem Touched.unfold {S : Nat → Prop} {h h' : Heap} (ht : Touched S h h') (f : Nat) (a : Nat) :
    Copy.unfold h' f a = Copy.unfold h f a := by
  induction f generalizing a with
  | zero => rfl
  | succ f ih =>
    simp only [Copy.unfold, leaf_eq, unstarted_eq]
    rcases ht.shape a with ⟨p, q⟩ | ⟨n, n', p, q, k⟩
    · rw [p, q]
    · rw [p, q]
      simp only
      rw [k.shared, k.children, allSome_congr (fun c _ => ih c)]
      by_cases hs : n.kind.shared = true
      · rw [if_pos hs, if_pos hs]
      · rw [if_neg hs, if_neg hs, k.fresh (by simpa using hs)]

theorem Touched.cells {S : Nat → Prop} {h h' : Heap} (ht : Touched S h h') (f : Nat) (a : Nat) :
    Copy.cells h' f a = Copy.cells h f a := by
  induction f generalizing a with
  | zero => rfl
  | succ f ih =>
    simp only [Copy.cells, leaf_eq]
    rcases ht.shape a with ⟨p, q⟩ | ⟨n, n', p, q, k⟩
    · rw [p, q]
    · rw [p, q]
      simp only
      rw [k.shared, k.children, allSome_congr (fun c _ => ih c)]

theorem start_fresh (k : Kind) : k.start.fresh = k.fresh := by cases k <;> rfl
theorem start_shared (k : Kind) : k.start.shared = k.shared := by cases k <;> rfl

theorem kept_start (n : Node) : Kept n { n with kind := n.kind.start } := by
  refine ⟨rfl, start_shared _, fun _ => start_fresh _, ?_⟩
  cases hk : n.kind <;> simp [Kind.start, hk]

/-- what `allSome` says about members -/
theorem allSome_mem {α β : Type} {f : α → Option β} {l : List α} {bs : List β} (h : allSome f l = some bs) {a : α} (ha : a ∈ l) :
    ∃ b ∈ bs, f a = some b := by
  induction l generalizing bs with
  | nil => simp at ha
  | cons x l ih =>
    simp only [allSome] at h
    split at h
    · cases h
    · next b hb =>
      split at h
      · cases h
      · next bs' hbs =>
        cases h
        rcases List.mem_cons.1 ha with rfl | ha
        · exact ⟨b, by simp, hb⟩
        · obtain ⟨b', h1, h2⟩ := ih hbs ha
          exact ⟨b', by simp [h1], h2⟩

theorem forEach_touched {S : Nat → Prop} {f g : Nat} (ih : ∀ (h h' : Heap) (a : Nat) (l : List Nat), cells h g a = some l →
      (∀ x ∈ l, S x) → runObj f a h = some h' → Touched S h h') :
    ∀ (as : List Nat) (h h' : Heap), (∀ a ∈ as, ∃ l, cells h g a = some l ∧ ∀ x ∈ l, S x) →
      forEach (runObj f) as h = some h' → Touched S h h' := by
  intro as
  induction as with
  | nil => intro h h' _ hr; cases hr; exact Touched.refl S h
  | cons a as iha =>
    intro h h' hc hr
    simp only [forEach] at hr
    split at hr
    · cases hr
    · next h1 h1e =>
      obtain ⟨l, hl, hS⟩ := hc a (by simp)
      have t1 := ih h h1 a l hl hS h1e
      have t2 := iha h1 h' (fun b hb => by
        obtain ⟨l', hl', hS'⟩ := hc b (by simp [hb])
        exact ⟨l', by rw [t1.cells]; exact hl', hS'⟩) hr
      exact t1.trans t2

theorem runObj_touched {S : Nat → Prop} (f : Nat) : ∀ (g : Nat) (h h' : Heap) (a : Nat) (l : List Nat), cells h g a = some l →
    (∀ x ∈ l, S x) → runObj f a h = some h' → Touched S h h' := by
  induction f with
  | zero => intro g h h' a l _ _ hr; cases hr
  | succ f ih =>
    intro g h h' a l hl hS hr
    cases g with
    | zero => cases hl
    | succ g =>
      simp only [runObj] at hr
      cases hn : h.get a with
      | none => rw [hn] at hr; cases hr
      | some n =>
        rw [hn] at hr
        simp only [cells, leaf_eq, hn] at hl
        simp only at hr
        have hkids : ∀ ls, allSome (cells h g) n.children = some ls → (∀ x ∈ ls.flatten, S x) →
            ∀ b ∈ n.children, ∃ l, cells h g b = some l ∧ ∀ x ∈ l, S x := by
          intro ls hls hSl b hb
          obtain ⟨lb, hlb, hcb⟩ := allSome_mem hls hb
          exact ⟨lb, hcb, fun x hx => hSl x (List.mem_flatten.2 ⟨lb, hlb, hx⟩)⟩
        have pipes : n.kind.shared = false → forEach (runObj f) n.children (h.put a { n with kind := n.kind.start }) = some h' →
            Touched S h h' := by
          intro hsh hr'
          simp only [hsh, Bool.false_eq_true, ↓reduceIte] at hl
          split at hl
          · cases hl
          · next ls hls =>
            cases hl
            have t1 := touched_put (S := S) hn (kept_start n) (.inl (hS a (by simp)))
            have t2 := forEach_touched (S := S) (f := f) (g := g) (ih g) n.children _ h' (fun b hb => by
              obtain ⟨lb, h1, h2⟩ := hkids ls hls (fun x hx => hS x (by simp [hx])) b hb
              exact ⟨lb, by rw [t1.cells]; exact h1, h2⟩) hr'
            exact t1.trans t2
        cases hk : n.kind with
        | atom x => rw [hk] at hr; cases hr; exact Touched.refl S h
        | list => rw [hk] at hr; cases hr; exact Touched.refl S h
        | iter r =>
          rw [hk] at hr
          cases hr
          exact touched_put hn ⟨rfl, by rw [hk]; rfl, (fun h => by rw [hk] at h; cases h), by simp [hk]⟩ (.inr ⟨r, hk⟩)
        | dict =>
          rw [hk] at hr hl
          simp only [Kind.shared, Bool.false_eq_true, ↓reduceIte] at hl
          split at hl
          · cases hl
          · next ls hls =>
            cases hl
            exact forEach_touched (S := S) (f := f) (g := g) (ih g) n.children h h' (hkids ls hls (fun x hx => hS x (by simp [hx]))) hr
        | func fn s =>
          rw [hk] at hr hl
          simp only [Kind.shared, Bool.false_eq_true, ↓reduceIte] at hl
          split at hl
          · cases hl
          · next ls hls =>
            cases hl
            have t1 := touched_put (S := S) (n' := { n with kind := Kind.start (.func fn s) }) hn (by have := kept_start n; rw [hk] at this; exact this) (.inl (hS a (by simp)))
            simp only at hr
            split at hr
            · next r cs hfn =>
              have hr := Option.some.inj hr
              subst hr
              exact t1.trans (touched_put hfn ⟨rfl, rfl, (fun h => by cases h), by simp⟩ (.inr ⟨r, rfl⟩))
            · have hr := Option.some.inj hr
              subst hr
              exact t1
        | command s => rw [hk] at hr; exact pipes (by rw [hk]; rfl) (by rw [hk]; exact hr)
        | pipe s => rw [hk] at hr; exact pipes (by rw [hk]; rfl) (by rw [hk]; exact hr)
        | group s => rw [hk] at hr; exact pipes (by rw [hk]; rfl) (by rw [hk]; exact hr)
        | redirect s => rw [hk] at hr; exact pipes (by rw [hk]; rfl) (by rw [hk]; exact hr)

theorem fresh_not_started (k : Kind) : ¬ k.fresh.Started := by cases k <;> simp [Kind.fresh, Kind.Started]

/-- from `h` to `h'`, only objects that have not been started were added -/
def Adds (h h' : Heap) : Prop := h.next ≤ h'.next ∧ ∀ a n, h'.get a = some n → h.get a = some n ∨ (h.next ≤ a ∧ ¬ n.kind.Started)

theorem Adds.refl (h : Heap) : Adds h h := ⟨Nat.le_refl _, fun _ _ e => .inl e⟩
theorem Adds.trans {h1 h2 h3 : Heap} (a : Adds h1 h2) (b : Adds h2 h3) : Adds h1 h3 := by
  refine ⟨Nat.le_trans a.1 b.1, fun x n e => ?_⟩
  rcases b.2 x n e with e | e
  · exact a.2 x n e
  · exact .inr ⟨Nat.le_trans a.1 e.1, e.2⟩

theorem copyList_adds (f : Memo → Nat → Heap → Option (Nat × Memo × Heap)) (hf : ∀ m a h b m' h', f m a h = some (b, m', h') → Adds h h') (l : List Nat) :
    ∀ m h bs m' h', copyList f m l h = some (bs, m', h') → Adds h h' := by
  induction l with
  | nil => intro m h bs m' h' e; simp only [copyList, Option.some.injEq, Prod.mk.injEq] at e; rw [← e.2.2]; exact Adds.refl h
  | cons a l ih =>
    intro m h bs m' h' e
    simp only [copyList] at e
    split at e
    · cases e
    · rename_i b m1 h1 e1
      split at e
      · cases e
      · rename_i bs' m2 h2 e2
        simp only [Option.some.injEq, Prod.mk.injEq] at e
        rw [← e.2.2]
        exact (hf _ _ _ _ _ _ e1).trans (ih _ _ _ _ _ e2)

theorem deepcopy_adds (f : Nat) : ∀ m a h b m' h', deepcopy f m a h = some (b, m', h') → Adds h h' := by
  induction f with
  | zero => intro m a h b m' h' e; cases e
  | succ f ih =>
    intro m a h b m' h' e
    simp only [deepcopy] at e
    split at e
    · simp only [Option.some.injEq, Prod.mk.injEq] at e; rw [← e.2.2]; exact Adds.refl h
    · split at e
      · cases e
      · rename_i n _
        split at e
        · simp only [Option.some.injEq, Prod.mk.injEq] at e; rw [← e.2.2]; exact Adds.refl h
        · split at e
          · cases e
          · rename_i cs m1 h1 e1
            simp only [Option.some.injEq, Prod.mk.injEq] at e
            rw [← e.2.2]
            refine (copyList_adds _ ih _ _ _ _ _ _ e1).trans ⟨Nat.le_succ _, fun x n' e => ?_⟩
            simp only [Heap.alloc] at e
            split at e
            · rename_i hx
              cases e
              exact .inr ⟨by rw [hx]; exact Nat.le_refl _, fresh_not_started _⟩
            · exact .inl e

end Pieshell.Copy
