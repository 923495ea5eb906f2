import Verif.Lemmas.Subst2
/-!
# A started pipeline is a tree of programs
-/
namespace Pieshell.Subst
open Flow (Bytes Net Proc upd close started userPipe)
variable {sys : Sys} {cwd : Str}

theorem devFds_get {fds : Nat → Option Obj} {ws : List Word} {rws : List RWord} (h : Pointwise (WordOk fds) ws rws) (j : Nat) :
    ((devFds ws)[j]?).bind fds = (devObjs rws)[j]? := by
  induction h generalizing j with
  | nil => simp [devFds, devObjs]
  | @cons a b l l' h1 _ ih =>
    cases a <;> cases b <;> simp only [WordOk] at h1
    · simpa [devFds, devObjs] using ih j
    · cases j with
      | zero => simp [devFds, devObjs, h1.2.2]
      | succ j => simpa [devFds, devObjs] using ih j

theorem slotObj_eq {lf : Nat} {lg : Option Obj} {w : World} {x : Item} {y : RItem} (h : ItemOk lf lg w.fds.get x y) (j : Nat) :
    slotObj w x j = rslot y j := by
  cases j with
  | zero => cases x <;> exact h.stdin
  | succ j =>
    cases x with
    | proc id argv fds rs =>
      cases y with
      | proc => simp only [ItemOk] at h; exact devFds_get h.2.2.2.2.1 j
      | func => simp only [ItemOk] at h
    | func =>
      cases y with
      | proc => simp only [ItemOk] at h
      | func => rfl

theorem mem_heldFds_get {its : List Item} {n : Nat} (h : n ∈ heldFds its) :
    ∃ (k id : Nat) (inFd : Option Nat) (outFd : Nat) (rs : Redirects), its[k]? = some (.func id inFd outFd rs) ∧ (inFd = some n ∨ outFd = n) := by
  induction its with
  | nil => simp [heldFds] at h
  | cons x its ih =>
    cases x with
    | proc id argv fds rs =>
      obtain ⟨k, id, inFd, outFd, rs, h1, h2⟩ := ih (by simpa [heldFds] using h)
      exact ⟨k + 1, id, inFd, outFd, rs, h1, h2⟩
    | func id inFd outFd rs =>
      simp only [heldFds, List.mem_append, List.mem_cons, Option.mem_toList] at h
      rcases h with h | rfl | h
      · exact ⟨0, id, inFd, outFd, rs, rfl, .inl h⟩
      · exact ⟨0, id, inFd, n, rs, rfl, .inr rfl⟩
      · obtain ⟨k, id, inFd, outFd, rs, h1, h2⟩ := ih h
        exact ⟨k + 1, id, inFd, outFd, rs, h1, h2⟩

theorem held_mem {its : List Item} {k id outFd : Nat} {inFd : Option Nat} {rs : Redirects} (h : its[k]? = some (.func id inFd outFd rs)) : outFd ∈ heldFds its := by
  induction its generalizing k with
  | nil => simp at h
  | cons x its ih =>
    cases k with
    | zero =>
      simp only [List.getElem?_cons_zero, Option.some.injEq] at h
      subst h
      simp [heldFds]
    | succ k =>
      have := ih (k := k) h
      cases x <;> simp [heldFds, this]

theorem held_mem_in {its : List Item} {k id outFd n : Nat} {inFd : Option Nat} {rs : Redirects} (h : its[k]? = some (.func id inFd outFd rs))
    (hn : inFd = some n) : n ∈ heldFds its := by
  induction its generalizing k with
  | nil => simp at h
  | cons x its ih =>
    cases k with
    | zero =>
      simp only [List.getElem?_cons_zero, Option.some.injEq] at h
      subst h; subst hn
      simp [heldFds]
    | succ k =>
      have := ih (k := k) h
      cases x <;> simp [heldFds, this]

/-- A function with an input. -/
def _root_.Pieshell.RItem.reads : RItem → Bool
  | .func _ (some _) _ => true
  | _ => false

mutual
theorem refRun_funcs : (p : Pipeline) → (i : Obj) → (o e : Want) → (c : Ctr) → (refRun cwd p i o e c).items.map RItem.reads = funcs p
  | .command id args, i, o, e, c => by
    simp only [refRun, List.map_append, funcs, refArgs_funcs args]; rfl
  | .func id, i, o, e, c => by simp [refRun, funcs, RItem.reads]
  | .iter id, i, o, e, c => by simp [refRun, funcs, RItem.reads]
  | .pipe a b, i, o, e, c => by simp only [refRun, List.map_append, funcs, refRun_funcs a, refRun_funcs b]
  | .group a b, i, o, e, c => by simp only [refRun, List.map_append, funcs, refRun_funcs a, refRun_funcs b]
  | .redirect p crs, i, o, e, c => by simp only [refRun, funcs, refRun_funcs p]
theorem refArgs_funcs : (a : Args) → (i o e : Obj) → (c : Ctr) → (refArgs cwd a i o e c).items.map RItem.reads = funcsArgs a
  | .nil, i, o, e, c => by simp [refArgs, funcsArgs]
  | .word ws rest, i, o, e, c => by simp only [refArgs, funcsArgs, refArgs_funcs rest]
  | .pipeArg pre p rest, i, o, e, c => by simp only [refArgs, List.map_append, funcsArgs, refRun_funcs p, refArgs_funcs rest]
  | .funcArg pre id rest, i, o, e, c => by simp only [refArgs, List.map_cons, funcsArgs, refArgs_funcs rest]; rfl
end

/-- The pipe that item `x` writes to; `hi` if it does not write to one with a number from `lo`. -/
def pipeOf (G : List RItem) (lo hi x : Nat) : Nat :=
  match G[x]? with
  | some y => match y.out with
    | .pipeW q => if lo ≤ q then q else hi
    | _ => hi
  | none => hi

theorem pipeOf_writes {G : List RItem} {lo hi x q : Nat} (h : Writes G x q) (hq : lo ≤ q) : pipeOf G lo hi x = q := by
  obtain ⟨y, h1, h2⟩ := h
  simp only [pipeOf, h1, h2, if_pos hq]

theorem started_tree {w : World} {rs : Redirects} {p : Pipeline} {i : Obj} {o e : Want}
    (hs : Startable sys cwd w rs p i o e) (hp : Nested p false) (hm : w.PipesMade) :
    ∃ items rs' w' q, runP sys cwd p rs w = (.ok (items, rs'), w') ∧ items.map Item.id = p.ids ∧
      (p.outWant cwd o = .pipeOut → userPipe w' rs' = some (q (p.size - 1))) ∧
      ∀ cap : Nat → Nat, (∀ k, 0 < cap k) → IsTree (started cwd w p o items rs' w' cap) p.size q (feed p 0 none) (sharers p 0 false) ∧
        ∀ k, (started cwd w p o items rs' w' cap).inFd k ≠ none ↔ IsFunc p k := by
  obtain ⟨⟨H, L, hr, hl, hstd⟩, ho, he, hsh, hlow, hpo⟩ := hs
  obtain ⟨items, rs', w', ul, lk, hrun, P⟩ := run_spec sys cwd p hsh hr hl hstd ho he hlow hpo
  obtain ⟨oi, oo, oe⟩ := hstd.old
  have hold : ∀ ob, OldIn w.fds ob → Foreign w.nextPipe ob := fun ob h q hq => (h.notPipe hm q hq).symm
  obtain ⟨G, hG⟩ : ∃ G, G = (refRun cwd p i o e w.ctr).items := ⟨_, rfl⟩
  have T : TreeOk G w.nextPipe 0 none false cwd p i o e w.ctr :=
    tree_run p hp hsh (Nat.le_refl _) ho (fun ob h => hold ob (oo ob h)) he (fun ob h => hold ob (oe ob h)) (.inl (hold i (oi i rfl)))
      (by simp) (fun _ _ => hold i (oi i rfl)) (by intro k x h; rw [Nat.zero_add, hG]; exact h)
  have S := T.seg
  have hsize : G.length = p.size := by rw [hG]; exact refRun_size p i o e w.ctr
  have hlen : items.length = p.size := by rw [P.itemsOk.length, ← hG]; exact hsize
  have hpos := size_pos p
  have hok : ∀ (k : Nat) (x : Item), items[k]? = some x → ∃ y, G[k]? = some y ∧ ItemOk sys.logfd (execTable w.fds sys.logfd) w'.fds.get x y ∧ k < p.size := by
    intro k x hk
    obtain ⟨y, h1, h2⟩ := P.itemsOk.get' hk
    exact ⟨y, by rw [hG]; exact h1, h2, by rw [← hlen]; exact (List.getElem?_eq_some_iff.1 hk).1⟩
  have hokG : ∀ (k : Nat), k < p.size → ∃ x y, items[k]? = some x ∧ G[k]? = some y ∧ ItemOk sys.logfd (execTable w.fds sys.logfd) w'.fds.get x y := by
    intro k hk
    have hx : items[k]? = some (items[k]'(by omega)) := by simp [hlen, hk]
    obtain ⟨y, h1, h2, -⟩ := hok k _ hx
    exact ⟨_, y, hx, h1, h2⟩
  have hlo : ∀ q, (∃ c : Nat, w.ctr.p ≤ q) → w.nextPipe ≤ q := fun q ⟨_, h⟩ => h
  -- the pipe of each item
  obtain ⟨q, hq⟩ : ∃ q, q = pipeOf G w.nextPipe (refRun cwd p i o e w.ctr).ctr.p := ⟨_, rfl⟩
  have hqW : ∀ x n, Writes G x n → w.nextPipe ≤ n → q x = n := by intro x n h1 h2; rw [hq]; exact pipeOf_writes h1 h2
  have hqn : ∀ x, x + 1 < p.size → Writes G x (q x) ∧ w.nextPipe ≤ q x := by
    intro x hx
    obtain ⟨n, h1, h2⟩ := T.piped x (Nat.zero_le _) (by omega)
    rw [hqW x n h1 h2]; exact ⟨h1, h2⟩
  have houtlo := (refRun_out (cwd := cwd) p i o e w.ctr).1
  have hql : p.outWant cwd o = .pipeOut → Writes G (p.size - 1) (q (p.size - 1)) ∧ q (p.size - 1) = (refRun cwd p i o e w.ctr).out ∧ w.nextPipe ≤ q (p.size - 1) := by
    intro hw
    have h1 := T.last hw
    rw [Nat.zero_add] at h1
    rw [hqW _ _ h1 houtlo]; exact ⟨h1, rfl, houtlo⟩
  have hinjW : ∀ x x' n, x < p.size → x' < p.size → w.nextPipe ≤ n → Writes G x n → Writes G x' n → x = x' :=
    fun x x' n h1 h2 h3 h4 h5 => S.inj x x' n (Nat.zero_le _) (by omega) (Nat.zero_le _) (by omega) h3 h4 h5
  have hqlast : ∀ x, x + 1 < p.size → q x ≠ q (p.size - 1) := by
    intro x hx heq
    obtain ⟨h1, h2⟩ := hqn x hx
    obtain ⟨_, y, _, hy, _⟩ := hokG (p.size - 1) (by omega)
    rcases S.outs (p.size - 1) y (Nat.zero_le _) (by omega) hy with ⟨n, e1, e2, e3⟩ | hF
    · have hw : Writes G (p.size - 1) n := ⟨y, hy, e1⟩
      rw [hqW _ n hw e2] at heq
      rw [heq] at h1
      have := hinjW x (p.size - 1) n (by omega) (by omega) e2 h1 hw
      omega
    · have hhi : q (p.size - 1) = (refRun cwd p i o e w.ctr).ctr.p := by
        rw [hq]
        simp only [pipeOf, hy]
        split
        · next n hn =>
          split
          · next hle => exact absurd hn (hF n hle).1
          · rfl
        · rfl
      obtain ⟨y', hy', e1⟩ := h1
      rcases S.outs x y' (Nat.zero_le _) (by omega) hy' with ⟨n, d1, d2, d3⟩ | hF'
      · rw [e1] at d1; cases d1; omega
      · exact (hF' _ h2).1 e1
  have hinj : ∀ j k, j < p.size → k < p.size → q j = q k → j = k := by
    intro j k hj hk heq
    by_cases h1 : j + 1 < p.size
    · by_cases h2 : k + 1 < p.size
      · obtain ⟨a1, a2⟩ := hqn j h1
        obtain ⟨b1, b2⟩ := hqn k h2
        rw [heq] at a1
        exact hinjW j k _ hj hk b2 a1 b1
      · obtain rfl : k = p.size - 1 := by omega
        exact absurd heq (hqlast j h1)
    · by_cases h2 : k + 1 < p.size
      · obtain rfl : j = p.size - 1 := by omega
        exact absurd heq.symm (hqlast k h2)
      · omega
  have huser : p.outWant cwd o = .pipeOut → userPipe w' rs' = some (q (p.size - 1)) := by
    intro hw
    obtain ⟨r, g1, g2⟩ := P.r1
    obtain ⟨u, -, g3, g4⟩ := g2 hw
    rw [(hql hw).2.1]
    simp only [userPipe, g1, g3, g4, Option.map_some]
  have hlk : lk = [] := by
    have := P.leaks.length
    rw [T.leaks] at this
    exact List.length_eq_zero_iff.1 this
  -- who holds which pipe
  have hholdP : ∀ (k : Nat) (x : Item) (ob : Obj), items[k]? = some x → x.Holds w' ob → Foreign w.nextPipe ob ∨
      (∃ n, ob = .pipeW n ∧ Writes G k n) ∨ ∃ x n, x < k ∧ ob = .pipeR n ∧ Writes G x n := by
    intro k x ob hk hx
    obtain ⟨y, h1, h2, h3⟩ := hok k x hk
    rcases h2.holds hx with h | h
    · rcases S.hold k y ob (Nat.zero_le _) (by omega) h1 h with h | ⟨n, rfl, h⟩ | h
      · exact .inl h
      · exact .inr (.inl ⟨n, rfl, y, h1, h⟩)
      · exact .inr (.inr h)
    · exact .inl (hold ob (OldIn.log h))
  have hkind : ∀ (k id : Nat) (inFd : Option Nat) (outFd : Nat) (rsx : Redirects), items[k]? = some (.func id inFd outFd rsx) →
      ∃ y, G[k]? = some y ∧ (w'.fds.get outFd).map Entry.obj = some y.out ∧ k < p.size ∧ k ∉ sharers p 0 false := by
    intro k id inFd outFd rsx hk
    obtain ⟨y, h1, h2, h3⟩ := hok k _ hk
    cases y with
    | proc => simp only [ItemOk] at h2
    | func id' inp ob =>
      have := S.kind k id' inp ob (Nat.zero_le _) (by omega) h1
      simp only [ItemOk] at h2
      exact ⟨_, h1, h2.2.2.2, h3, this⟩
  have hinObj : ∀ (k id : Nat) (n outFd : Nat) (rsx : Redirects), items[k]? = some (.func id (some n) outFd rsx) →
      ∃ ob, (w'.fds.get n).map Entry.obj = some ob ∧ (∀ x, feed p 0 none k 0 = some x → ob = .pipeR (q x)) ∧
        (feed p 0 none k 0 = none → Foreign w.nextPipe ob) := by
    intro k id n outFd rsx hk
    obtain ⟨y, h1, h2, h3⟩ := hok k _ hk
    cases y with
    | proc => simp only [ItemOk] at h2
    | func id' inp ob =>
      have hq := S.kind k id' inp ob (Nat.zero_le _) (by omega) h1
      simp only [ItemOk, Option.bind_some] at h2
      cases inp with
      | none => have := h2.2.2.1.2 rfl; cases this
      | some i' =>
        refine ⟨i', h2.2.1, ?_, ?_⟩
        · intro x hx
          obtain ⟨y, n', e1, e2, e3⟩ := S.slotF k 0 x hx
          rw [h1] at e1; cases e1
          have e2 : some i' = some (.pipeR n') := e2
          cases e2
          have hlt := S.lt k 0 x hx
          obtain ⟨a1, a2⟩ := hqn x (by omega)
          obtain ⟨y1, b1, b2⟩ := a1
          obtain ⟨y2, c1, c2⟩ := e3
          rw [b1] at c1; cases c1
          rw [b2] at c2; injection c2 with c2; rw [c2]
        · intro hx
          exact S.slotN k 0 _ i' (Nat.zero_le _) (by omega) hx (fun _ => hq) h1 rfl
  have hshell : ∀ fd en n, w'.fds.get fd = some en → w.nextPipe ≤ n → (en.obj = .pipeW n ∨ en.obj = .pipeR n) →
      (∃ (k id outFd : Nat) (inFd : Option Nat) (rsx : Redirects), items[k]? = some (.func id inFd outFd rsx) ∧ outFd = fd) ∨
      (∃ (k id outFd : Nat) (rsx : Redirects), items[k]? = some (.func id (some fd) outFd rsx)) ∨
      (p.outWant cwd o = .pipeOut ∧ en.obj = .pipeR (q (p.size - 1))) := by
    intro fd en n hfd hn hor
    have hfresh : w.fds.get fd = none := by
      rcases Option.eq_none_or_eq_some (w.fds.get fd) with h | ⟨en', h⟩
      · exact h
      · exfalso
        have heq : w'.fds.get fd = w.fds.get fd := by
          by_cases hcl : fd ∈ usedFds p rs
          · have := (P.delta.closed fd hcl).2; rw [this] at hfd; cases hfd
          · exact P.delta.kept fd (by simp [h]) hcl
        rw [heq] at hfd
        have := hm fd en _ hfd hn
        rcases hor with h | h
        · exact this.2 h
        · exact this.1 h
    have hmem := P.delta.only fd (by simp [hfd]) hfresh
    rw [hlk, List.append_nil] at hmem
    rcases List.mem_append.1 hmem with hmem | hmem
    · obtain ⟨k, id, inFd, outFd, rsx, h1, h2⟩ := mem_heldFds_get hmem
      rcases h2 with h2 | h2
      · subst h2; exact .inr (.inl ⟨k, id, outFd, rsx, h1⟩)
      · exact .inl ⟨k, id, outFd, inFd, rsx, h1, h2⟩
    · by_cases hw : p.outWant cwd o = .pipeOut
      · obtain ⟨r, g1, g2⟩ := P.r1
        obtain ⟨u, g3, g4, g5⟩ := g2 hw
        rw [g3, List.mem_singleton] at hmem
        subst hmem
        rw [g5] at hfd
        cases hfd
        exact .inr (.inr ⟨hw, by rw [(hql hw).2.1]⟩)
      · rw [P.r1' hw] at hmem; cases hmem
  have hids : items.map Item.id = p.ids := by rw [ItemOk.ids P.itemsOk, refRun_ids]
  refine ⟨items, rs', w', q, hrun, hids, huser, fun cap hcap => ?_⟩
  have houtP : ∀ x n, x < p.size → Writes G x n → w.nextPipe ≤ n → (started cwd w p o items rs' w' cap).outPipe x = some n := by
    intro x n hx ⟨y, h1, h2⟩ hn
    obtain ⟨it, y', g1, g2, g3⟩ := hokG x hx
    rw [h1] at g2; cases g2
    simp only [Net.outPipe, started, g1, Option.bind_some, g3.stdout, h2]
    exact if_pos hn
  have hfeedlt : ∀ m j x, feed p 0 none m j = some x → x < m ∧ m < p.size := by
    intro m j x h
    have := S.lt m j x h
    omega
  have hfin : ∀ k n, (started cwd w p o items rs' w' cap).inFd k = some n → ∃ id outFd rsx, items[k]? = some (.func id (some n) outFd rsx) := by
    intro k n h
    simp only [Net.inFd, started] at h
    split at h
    · next id inFd outFd rsx hx => subst h; exact ⟨id, outFd, rsx, hx⟩
    · cases h
  have hfout : ∀ k n, (started cwd w p o items rs' w' cap).outFd k = some n → ∃ id inFd rsx, items[k]? = some (.func id inFd n rsx) := by
    intro k n h
    simp only [Net.outFd, started] at h
    split at h
    · next id inFd outFd rsx hx => cases h; exact ⟨id, inFd, rsx, hx⟩
    · cases h
  -- what a function reads from is no write end
  have hinW : ∀ (k id n outFd : Nat) (rsx : Redirects) (ob : Obj), items[k]? = some (.func id (some n) outFd rsx) → (w'.fds.get n).map Entry.obj = some ob →
      ∀ q', w.nextPipe ≤ q' → ob ≠ .pipeW q' := by
    intro k id n outFd rsx ob h1 h2 q' hq' heq
    obtain ⟨ob', e1, e2, e3⟩ := hinObj k id n outFd rsx h1
    rw [h2] at e1; cases e1
    cases hf : feed p 0 none k 0 with
    | none => exact (e3 hf q' hq').1 heq
    | some x => rw [e2 x hf] at heq; cases heq
  refine ⟨⟨hlen, hpos, hinj, hfeedlt, fun x hx => T.reader x (Nat.zero_le _) (by omega), S.uniq, ?_, ?_, ?_, ?_, ?_, ?_, ?_, ?_, ?_, ?_, ?_, ?_, hcap⟩, ?_⟩
  · -- slotF
    intro m j x h
    obtain ⟨h1, h2⟩ := hfeedlt m j x h
    obtain ⟨y, n, e1, e2, e3⟩ := S.slotF m j x h
    obtain ⟨it, y', g1, g2, g3⟩ := hokG m h2
    rw [e1] at g2; cases g2
    obtain ⟨a1, a2⟩ := hqn x (by omega)
    have hn : n = q x := by
      obtain ⟨y1, b1, b2⟩ := a1
      obtain ⟨y2, c1, c2⟩ := e3
      rw [b1] at c1; cases c1
      rw [b2] at c2; injection c2 with c2; exact c2.symm
    simp only [slot, started, g1, Option.bind_some, slotObj_eq g3, e2]
    rw [hn]; exact if_pos a2
  · -- slotN
    intro m j hmm hf hqt
    obtain ⟨it, y', g1, g2, g3⟩ := hokG m hmm
    simp only [slot, started, g1, Option.bind_some, slotObj_eq g3]
    split
    · next n hn =>
      refine if_neg fun hle => ?_
      exact (S.slotN m j y' _ (Nat.zero_le _) (by omega) hf hqt g2 hn n hle).2 rfl
    · rfl
  · intro x hx
    obtain ⟨a1, a2⟩ := hqn x hx
    exact houtP x _ (by omega) a1 a2
  · -- last
    by_cases hw : p.outWant cwd o = .pipeOut
    · obtain ⟨a1, a2, a3⟩ := hql hw
      rw [houtP _ _ (by omega) a1 a3]
      simp only [started, if_pos hw]
      exact (huser hw).symm
    · obtain ⟨it, y, g1, g2, g3⟩ := hokG (p.size - 1) (by omega)
      simp only [Net.outPipe, started, g1, Option.bind_some, g3.stdout, if_neg hw]
      split
      · next n hn =>
        refine if_neg fun hle => ?_
        have hn := Option.some.inj hn
        obtain ⟨m, k1, k2⟩ := refRun_last (cwd := cwd) p i o e w.ctr ho
        rw [List.getLast?_eq_getElem?, ← hG, hsize, g2] at k1
        cases k1
        cases hwt : p.outWant cwd o with
        | pipeOut => exact hw hwt
        | pipeIn => rw [hwt] at k2; exact k2.elim
        | tmp => rw [hwt] at k2; obtain ⟨_, _, k2⟩ := k2; rw [hn] at k2; cases k2
        | obj b =>
          rw [hwt] at k2
          have k2 : y.out = b := k2
          obtain ⟨l', f1, f2⟩ := last_link (cwd := cwd) p
          have hfor : ∀ (p : Pipeline) (o : Want), (∀ ob, o = .obj ob → Foreign w.nextPipe ob) → ∀ ob, p.outWant cwd o = .obj ob → Foreign w.nextPipe ob := by
            intro p
            induction p using Pipeline.rec (motive_2 := fun _ => True) with
            | command => intro o h ob h'; exact h ob h'
            | func => intro o h ob h'; exact h ob h'
            | iter => intro o h ob h'; exact h ob h'
            | pipe a b _ ih => intro o h ob h'; exact ih o h ob h'
            | group a b _ ih => intro o h ob h'; exact ih o h ob h'
            | redirect p crs ih =>
              intro o h ob h'
              refine ih (crs.over cwd 1 o) ?_ ob h'
              intro ob' h''
              rcases orWant_obj h'' with h'' | ⟨_, _, _, rfl⟩
              · exact h ob' h''
              · exact foreign_file _ _ _ _ _
            | nil => trivial
            | word => trivial
            | pipeArg => trivial
            | funcArg => trivial
          have := hfor p o (fun ob h => hold ob (oo ob h)) b hwt
          rw [hn] at k2
          exact (this n hle).1 k2.symm
      · rfl
  · intro u hu
    simp only [started] at hu
    split at hu
    · next hw => rw [huser hw] at hu; exact (Option.some.inj hu).symm
    · cases hu
  · -- openW
    intro x hx
    obtain ⟨a1, a2⟩ := hqn x hx
    obtain ⟨it, y, g1, g2, g3⟩ := hokG x (by omega)
    have hy : y.out = .pipeW (q x) := by
      obtain ⟨y', b1, b2⟩ := a1
      rw [g2] at b1; cases b1; exact b2
    have hproc : ∀ (k : Nat) (it' : Item), items[k]? = some it' → it'.Holds w' (.pipeW (q x)) → k = x := by
      intro k it' hk hh
      rcases hholdP k it' _ hk hh with h | ⟨n, h, h'⟩ | ⟨_, _, _, h, _⟩
      · exact absurd rfl (h _ a2).1
      · cases h
        exact hinjW k x _ (hok k it' hk).choose_spec.2.2 (by omega) a2 h' a1
      · cases h
    have hsh : ∀ fd en, w'.fds.get fd = some en → en.obj = .pipeW (q x) → ∃ id inFd rsx, items[x]? = some (.func id inFd fd rsx) := by
      intro fd en hfd hen
      rcases hshell fd en (q x) hfd a2 (.inl hen) with ⟨k, id, outFd, inFd, rsx, h1, rfl⟩ | ⟨k, id, outFd, rsx, h1⟩ | ⟨_, h⟩
      · have := hproc k _ h1 ⟨outFd, .inr rfl, by rw [hfd, Option.map_some, hen]⟩
        subst this
        exact ⟨id, inFd, rsx, h1⟩
      · exact absurd hen (hinW k id fd outFd rsx _ h1 (by rw [hfd]; rfl) _ a2)
      · rw [hen] at h; cases h
    cases it with
    | proc id argv fds rsx =>
      refine .inl ⟨by simp [Net.outFd, started, g1], fun s => ⟨?_, ?_⟩⟩
      · rintro (⟨k, id', argv', fds', rs'', n, st, f1, f2, f3⟩ | ⟨fd, en, f1, f2, -⟩)
        · obtain rfl := hproc k _ f1 ⟨n, f3⟩
          exact ⟨st, f2⟩
        · obtain ⟨id', inFd', rsx', h⟩ := hsh fd en f1 f2
          rw [g1] at h; cases h
      · rintro ⟨st, f2⟩
        have := g3.stdout
        rw [hy] at this
        exact .inl ⟨x, _, _, _, _, 1, st, g1, f2, this⟩
    | func id inFd outFd rsx =>
      refine .inr ⟨outFd, by simp [Net.outFd, started, g1], fun s => ⟨?_, ?_⟩⟩
      · rintro (⟨k, id', argv', fds', rs'', n, st, f1, f2, f3⟩ | ⟨fd, en, f1, f2, f5⟩)
        · obtain rfl := hproc k _ f1 ⟨n, f3⟩
          rw [show items[k]? = some _ from f1] at g1; cases g1
        · obtain ⟨id', inFd', rsx', h⟩ := hsh fd en f1 f2
          rw [g1] at h; cases h; exact f5
      · intro hs
        have := g3.stdout
        rw [hy] at this
        simp only [Item.stdout] at this
        cases hg : w'.fds.get outFd with
        | none => rw [hg] at this; cases this
        | some en => rw [hg] at this; exact .inr ⟨outFd, en, hg, Option.some.inj this, hs⟩
  · -- openR
    intro x hx σ s hop
    obtain ⟨a1, a2⟩ := hqn x hx
    rcases hop with ⟨k, id', argv', fds', rs'', n, st, f1, f2, f3⟩ | ⟨fd, en, f1, f2, f5⟩
    · have hk := (hok k _ f1).choose_spec.2.2
      rcases hholdP k _ _ f1 ⟨n, f3⟩ with h | ⟨n', h, h'⟩ | ⟨x', n', h1, h2, h3⟩
      · exact absurd rfl (h _ a2).2
      · cases h
      · cases h2
        have := hinjW x' x _ (by omega) (by omega) a2 h3 a1
        subst this
        exact .inl ⟨k, st, h1, hk, f2⟩
    · rcases hshell fd en (q x) f1 a2 (.inr f2) with ⟨k, id, outFd, inFd, rsx, h1, rfl⟩ | ⟨k, id, outFd, rsx, h1⟩ | ⟨_, h⟩
      · exfalso
        obtain ⟨y, e1, e2, e3, -⟩ := hkind k id inFd outFd rsx h1
        have f1 : w'.fds.get outFd = some en := f1
        rw [f1, Option.map_some, f2] at e2
        have e2 := Option.some.inj e2
        rcases S.outs k y (Nat.zero_le _) (by omega) e1 with ⟨n, d1, -⟩ | hF
        · rw [← e2] at d1; cases d1
        · exact (hF _ a2).2 e2.symm
      · obtain ⟨ob, e1, e2, e3⟩ := hinObj k id fd outFd rsx h1
        have f1 : w'.fds.get fd = some en := f1
        rw [f1, Option.map_some, f2] at e1
        have e1 := Option.some.inj e1
        cases hf : feed p 0 none k 0 with
        | none => exact absurd e1.symm (e3 hf _ a2).2
        | some x' =>
          rw [e2 x' hf] at e1
          injection e1 with e1
          have hlt := hfeedlt k 0 x' hf
          have := hinj x x' (by omega) (by omega) e1
          subst this
          exact .inr ⟨k, fd, hf, by simp [Net.inFd, started, h1], f5⟩
      · exfalso
        rw [f2] at h
        injection h with h
        have := hinj x (p.size - 1) (by omega) (by omega) h
        omega
  · -- openF
    intro m j x h
    obtain ⟨h1, h2⟩ := hfeedlt m j x h
    obtain ⟨y, n, e1, e2, e3⟩ := S.slotF m j x h
    obtain ⟨it, y', g1, g2, g3⟩ := hokG m h2
    rw [e1] at g2; cases g2
    obtain ⟨a1, a2⟩ := hqn x (by omega)
    have hn : n = q x := by
      obtain ⟨y1, b1, b2⟩ := a1
      obtain ⟨y2, c1, c2⟩ := e3
      rw [b1] at c1; cases c1
      rw [b2] at c2; injection c2 with c2; exact c2.symm
    have hsl := slotObj_eq g3 j
    rw [e2, hn] at hsl
    cases it with
    | proc id argv fds rsx =>
      refine .inl ⟨by simp [Net.inFd, started, g1], fun s st hr => ?_⟩
      cases j with
      | zero => exact .inl ⟨m, _, _, _, _, 0, st, g1, hr, hsl⟩
      | succ j =>
        simp only [slotObj] at hsl
        cases hd : (devFds argv)[j]? with
        | none => rw [hd] at hsl; cases hsl
        | some n' => rw [hd] at hsl; exact .inl ⟨m, _, _, _, _, n', st, g1, hr, hsl⟩
    | func id inFd outFd rsx =>
      cases j with
      | succ j => cases hsl
      | zero =>
        cases inFd with
        | none => cases hsl
        | some n' =>
          refine .inr ⟨rfl, n', by simp [Net.inFd, started, g1], fun s hs => ?_⟩
          have hsl : (w'.fds.get n').map Entry.obj = some (.pipeR (q x)) := hsl
          cases hg : w'.fds.get n' with
          | none => rw [hg] at hsl; cases hsl
          | some en => rw [hg] at hsl; exact .inr ⟨n', en, hg, Option.some.inj hsl, hs⟩
  · -- openU
    intro u hu
    simp only [started] at hu
    split at hu
    · next hw =>
      rw [huser hw] at hu
      obtain rfl := Option.some.inj hu
      obtain ⟨r, g1, g2⟩ := P.r1
      obtain ⟨u', g3, g4, g5⟩ := g2 hw
      refine ⟨u', ?_, ?_⟩
      · intro k
        constructor
        · intro h
          obtain ⟨id, inFd, rsx, hx⟩ := hfout k u' h
          exact (P.disj u' (by rw [g3]; simp)).1 (held_mem hx)
        · intro h
          obtain ⟨id, outFd, rsx, hx⟩ := hfin k u' h
          exact (P.disj u' (by rw [g3]; simp)).1 (held_mem_in hx rfl)
      · intro σ s hs
        exact .inr ⟨u', _, g5, by rw [(hql hw).2.1], hs⟩
    · cases hu
  · -- fdOut
    intro x n hx hn
    obtain ⟨id, inFd, rsx, hit⟩ := hfout x n hn
    obtain ⟨a1, a2⟩ := hqn x hx
    obtain ⟨y, e1, e2, e3, -⟩ := hkind x _ _ _ _ hit
    have hy : y.out = .pipeW (q x) := by
      obtain ⟨y1, b1, b2⟩ := a1
      rw [e1] at b1; cases b1; exact b2
    rw [hy] at e2
    constructor
    · intro k hk
      obtain ⟨id', inFd', rsx', hit'⟩ := hfout k n hk
      obtain ⟨y', e1', e2', e3', -⟩ := hkind k _ _ _ _ hit'
      rw [e2] at e2'
      exact hinjW k x _ e3' e3 a2 ⟨y', e1', (Option.some.inj e2').symm⟩ a1
    · intro k hk
      obtain ⟨id', outFd', rsx', hit'⟩ := hfin k n hk
      exact hinW k id' n outFd' rsx' _ hit' e2 _ a2 rfl
  · -- fdIn
    intro m x n hf hn
    obtain ⟨id, outFd, rsx, hit⟩ := hfin m n hn
    obtain ⟨ob, e1, e2, -⟩ := hinObj m id n outFd rsx hit
    have hlt := hfeedlt m 0 x hf
    obtain ⟨a1, a2⟩ := hqn x (by omega)
    obtain rfl := e2 x hf
    constructor
    · intro k hk
      obtain ⟨id', outFd', rsx', hit'⟩ := hfin k n hk
      obtain ⟨ob', e1', e2', e3'⟩ := hinObj k id' n outFd' rsx' hit'
      rw [e1] at e1'; cases e1'
      cases hf' : feed p 0 none k 0 with
      | none => exact absurd rfl (e3' hf' _ a2).2
      | some x' =>
        have hlt' := hfeedlt k 0 x' hf'
        have h := e2' x' hf'
        injection h with h
        have := hinj x x' (by omega) (by omega) h
        subst this
        exact (S.uniq k 0 m 0 x hf' hf).1
    · intro k hk
      obtain ⟨id', inFd', rsx', hit'⟩ := hfout k n hk
      obtain ⟨y', e1', e2', e3', -⟩ := hkind k _ _ _ _ hit'
      rw [e1] at e2'
      have e2' := Option.some.inj e2'
      rcases S.outs k y' (Nat.zero_le _) (by omega) e1' with ⟨n, d1, -⟩ | hF
      · rw [← e2'] at d1; cases d1
      · exact (hF _ a2).2 e2'.symm
  · -- quietP
    intro m hq
    cases h : (started cwd w p o items rs' w' cap).inFd m with
    | none => rfl
    | some n =>
      obtain ⟨id, outFd, rsx, hit⟩ := hfin m n h
      exact absurd hq (hkind m _ _ _ _ hit).choose_spec.2.2.2
  · -- the functions
    intro k
    have hfs : funcs p = G.map RItem.reads := by rw [hG, refRun_funcs]
    rw [IsFunc, hfs, List.getElem?_map]
    by_cases hk : k < p.size
    · obtain ⟨x, y, g1, g2, g3⟩ := hokG k hk
      rw [g2]
      simp only [Net.inFd, started, g1, Option.map_some, Option.some.injEq]
      cases x with
      | proc => cases y with
        | proc => simp [RItem.reads]
        | func => simp only [ItemOk] at g3
      | func id inFd outFd rsx => cases y with
        | proc => simp only [ItemOk] at g3
        | func id' inp ob =>
          simp only [ItemOk] at g3
          cases inp with
          | none => rw [g3.2.2.1.2 rfl]; simp [RItem.reads]
          | some i' =>
            have : inFd ≠ none := fun h => by have := g3.2.2.1.1 h; cases this
            simp [RItem.reads, this]
    · have h1 : G[k]? = none := List.getElem?_eq_none (by omega)
      have h2 : items[k]? = none := List.getElem?_eq_none (by omega)
      simp [h1, Net.inFd, started, h2]

end Pieshell.Subst
