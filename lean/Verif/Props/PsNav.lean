import Verif.Model.PsNav
import Verif.Props.Tree
/-! C140: going from process to process by attribute names. -/
namespace Pieshell.Ps
open Tree Dict

/-! ### Specification -/

/-- `b` is `a`, or a child of it, or a child of a child, ... -/
inductive Below (M : Machine) : Rec → Rec → Prop
  | refl {a} : Below M a a
  | step {a b c} : Below M a b → c ∈ M.procs → c.ppid = b.pid → Below M a c

/-- What is used of `slugify`: it leaves `pid_123` alone, and makes no capital letters. -/
structure Slug (slug : Str → Str) : Prop where
  pids : KeepsPids slug
  lower : ∀ s, ∀ c ∈ slug s, c.isUpper = false

/-- The name of a process at a level: program, path of the program, command line, number. -/
def Rec.name (slug : Str → Str) (r : Rec) (level : Nat) : Str := finalKey slug ((r.key level).getD [])

/-- No process is called `children`. -/
def NoneNamedChildren (slug : Str → Str) (M : Machine) : Prop := ∀ r ∈ M.procs, ∀ l < 4, r.name slug l ≠ c!"children"

/-- The numbers of processes are different. -/
def Distinct (M : Machine) : Prop := (M.procs.map Rec.pid).Nodup

/-! ### Trees -/

theorem find_mem (M : Machine) (hd : Distinct M) {r : Rec} (h : r ∈ M.procs) : M.find r.pid = some r := by
  unfold Machine.find
  cases e : M.procs.find? (fun q => decide (q.pid = r.pid)) with
  | none => exact absurd (List.find?_eq_none.1 e r h) (by simp)
  | some q =>
    have h1 := List.find?_some e
    have h2 := List.mem_of_find?_eq_some e
    exact congrArg some (eq_of_map_nodup Rec.pid M.procs hd q h2 r h (of_decide_eq_true h1))

theorem find_some {M : Machine} {n : Nat} {r : Rec} (h : M.find n = some r) : r ∈ M.procs ∧ r.pid = n :=
  ⟨List.mem_of_find?_eq_some h, of_decide_eq_true (List.find?_some (p := fun q : Rec => decide (q.pid = n)) h)⟩

theorem key_some (r : Rec) (l : Nat) (hl : l ≤ 3) : ∃ k, r.key l = some k := by
  match l, hl with
  | 0, _ => simp only [Rec.key, Proc.key]; cases r.proc.exe <;> cases r.proc.cmdline <;> exact ⟨_, rfl⟩
  | 1, _ => simp only [Rec.key, Proc.key]; cases r.proc.exe <;> cases r.proc.cmdline <;> exact ⟨_, rfl⟩
  | 2, _ => simp only [Rec.key, Proc.key]; cases r.proc.cmdline <;> exact ⟨_, rfl⟩
  | 3, _ => exact ⟨_, rfl⟩
  | n + 4, h => omega

theorem ident_nodup {l : List Rec} (h : (l.map Rec.pid).Nodup) : (l.map Rec.ident).Nodup := by
  rw [List.nodup_iff_pairwise_ne, List.pairwise_map] at *
  exact h.imp (fun h e => h (ident_inj e))

theorem children_nodup {M : Machine} (hd : Distinct M) (r : Rec) : ((M.childrenOf r).map Rec.pid).Nodup :=
  hd.sublist (List.filter_sublist.map _)

/-- Which names the root of a tree has. -/
theorem build_root {α : Type} (slug : Str → Str) (key : α → Nat → Option Str) (ident : α → Str) (name : α → Nat → Str) (n level : Nat) (items : List α)
    (t : Tree α) (hk : ∀ a ∈ items, ∃ k, key a level = some k ∧ name a level = finalKey slug k) (hi : (items.map ident).Nodup)
    (h : build slug key ident (n + 1) level items = some t) :
    ∃ ch, t = .group ch ∧ ∀ k, k ∈ ch.map Prod.fst ↔ ∃ a ∈ items, name a level = k := by
  obtain ⟨procs, h1, h2, h3⟩ := collect_spec slug key ident name level items hk hi
  rw [build_succ, h1] at h
  simp only [Option.map_eq_some_iff] at h
  obtain ⟨ch, h4, rfl⟩ := h
  refine ⟨ch, rfl, fun k => ?_⟩
  have e : ch.map Prod.fst = procs.map Prod.fst := by
    clear h1 h2 h3
    induction procs generalizing ch with
    | nil => simp at h4; subst h4; rfl
    | cons x procs ih =>
      rw [List.mapM_cons] at h4
      cases e1 : sub slug key ident n level x.2 with
      | none => simp [e1] at h4
      | some t1 =>
        cases e2 : procs.mapM (fun kv : Str × Dict Str α => (sub slug key ident n level kv.2).map (fun t => (kv.1, t))) with
        | none => simp [e1, e2] at h4
        | some ch' =>
          simp [e1, e2] at h4
          rw [← h4]
          simp [ih ch' e2]
  rw [e]
  have hm : k ∈ procs.map Prod.fst ↔ ∃ v, procs.get? k = some v := mem_keys_iff procs k
  rw [hm]
  constructor
  · rintro ⟨v, hv⟩
    rw [h3] at hv
    split at hv
    · cases hv
    · rename_i hne
      cases e : items.filter (fun a => name a level = k) with
      | nil => exact absurd (by simp [filed, e]) hne
      | cons a l =>
        have : a ∈ items.filter (fun a => name a level = k) := by rw [e]; simp
        simp only [List.mem_filter, decide_eq_true_eq] at this
        exact ⟨a, this.1, this.2⟩
  · rintro ⟨a, ha, he⟩
    refine ⟨filed ident name level k items, ?_⟩
    rw [h3, if_neg]
    intro hf
    have : a ∈ items.filter (fun a => name a level = k) := by simp [ha, he]
    simp only [filed, List.map_eq_nil_iff] at hf
    rw [hf] at this
    cases this

theorem rec_tree {M : Machine} (hd : Distinct M) {slug : Str → Str} (hs : Slug slug) (r : Rec) :
    ∃ ch, tree M slug r = some (.group ch) ∧
      (∀ p a, Leads (.group ch) p a ↔ a ∈ M.childrenOf r ∧ ShortestPath (Rec.name slug) 0 (M.childrenOf r) a p) ∧
      (∀ a ∈ M.childrenOf r, ∃ p, Leads (.group ch) p a ∧ p.length ≤ 4 ∧ ∀ q, Leads (.group ch) q a → q = p) ∧
      ∀ k, k ∈ ch.map Prod.fst ↔ ∃ a ∈ M.childrenOf r, a.name slug 0 = k := by
  have hn := children_nodup hd r
  have hinj : ∀ a ∈ M.childrenOf r, ∀ b ∈ M.childrenOf r, Rec.name slug a 3 = Rec.name slug b 3 → a = b := by
    intro a ha b hb e
    simp only [Rec.name, Rec.key, Proc.key, Option.getD_some, Proc.ident, finalKey_pid hs.pids] at e
    exact eq_of_map_nodup Rec.pid _ hn a ha b hb (ident_inj e)
  have hk : ∀ a ∈ M.childrenOf r, ∀ l ≤ 3, ∃ k, Rec.key a l = some k ∧ Rec.name slug a l = finalKey slug k := by
    intro a _ l hl
    obtain ⟨k, hk⟩ := key_some a l hl
    exact ⟨k, hk, by simp [Rec.name, hk]⟩
  obtain ⟨t, ht, htw⟩ := build_spec slug Rec.key Rec.ident (Rec.name slug) 3 1000 0 (M.childrenOf r) (by omega) (by omega) hk
    (ident_nodup hn) hinj
  obtain ⟨ch, rfl, hroot⟩ := build_root slug Rec.key Rec.ident (Rec.name slug) 999 0 (M.childrenOf r) t (fun a ha => hk a ha 0 (by omega)) (ident_nodup hn) ht
  refine ⟨ch, ht, fun p a => htw a p, fun a ha => ?_, hroot⟩
  obtain ⟨p, hp, hlen⟩ := shortest_exists (Rec.name slug) (M.childrenOf r) a 3 (fun b hb => hinj a ha b hb)
  exact ⟨p, (htw a p).2 ⟨ha, hp⟩, hlen, fun q hq => shortest_unique (Rec.name slug) (M.childrenOf r) a q p ((htw a q).1 hq).2 hp⟩

/-- A walk in a group of processes, as attribute access. -/
theorem path_group (M : Machine) (slug : Str → Str) (ps det : Str → Bool) (t : Tree Rec) (p : List Str) (hc : c!"children" ∉ p) (a : Rec)
    (h : Leads t p a) : path M slug ps det (ofTree t) p = .ok (.proc (some a)) := by
  induction p generalizing t with
  | nil =>
    obtain ⟨t', h1, rfl⟩ := h
    simp only [walk, Option.some.injEq] at h1
    subst h1; rfl
  | cons k p ih =>
    obtain ⟨t', h1, rfl⟩ := h
    cases t with
    | leaf b => simp [walk] at h1
    | group ch =>
      simp only [List.mem_cons, not_or] at hc
      simp only [walk, show nothing k = false from rfl, Bool.false_eq_true, if_false] at h1
      cases e : get? ch k with
      | none => simp [e] at h1
      | some t1 =>
        simp only [e] at h1
        simp only [path, ofTree, attr, groupAttr, if_neg (Ne.symm hc.1), e]
        exact ih t1 hc.2 ⟨_, h1, rfl⟩

theorem finalKey_lower {slug : Str → Str} (hs : Slug slug) (k : Str) : ∀ c ∈ finalKey slug k, c.isUpper = false := by
  intro c hc
  unfold finalKey at hc
  simp only at hc
  split at hc
  · rcases List.mem_cons.1 hc with rfl | hc
    · decide
    · exact hs.lower k c hc
  · exact hs.lower k c hc

theorem shortest_names {slug : Str → Str} {items : List Rec} {a : Rec} {p : List Str} (h : ShortestPath (Rec.name slug) 0 items a p)
    (hlen : p.length ≤ 4) : p ≠ [] ∧ ∀ k ∈ p, ∃ l < 4, k = a.name slug l := by
  obtain ⟨m, rfl, -, -⟩ := h
  refine ⟨by simp [Tree.names], ?_⟩
  have aux : ∀ (n level : Nat), ∀ k ∈ Tree.names (Rec.name slug) a level n, ∃ l < level + n, k = a.name slug l := by
    intro n
    induction n with
    | zero => intro level k hk; simp [Tree.names] at hk
    | succ n ih =>
      intro level k hk
      simp only [Tree.names, List.mem_cons] at hk
      rcases hk with rfl | hk
      · exact ⟨level, by omega, rfl⟩
      · obtain ⟨l, h1, h2⟩ := ih (level + 1) k hk
        exact ⟨l, by omega, h2⟩
  have hl : (Tree.names (Rec.name slug) a 0 (m + 1)).length = m + 1 := by
    have : ∀ n level, (Tree.names (Rec.name slug) a level n).length = n := by
      intro n; induction n with
      | zero => intro; rfl
      | succ n ih => intro level; simp [Tree.names, ih]
    exact this _ _
  intro k hk
  obtain ⟨l, h1, h2⟩ := aux (m + 1) 0 k hk
  exact ⟨l, by omega, h2⟩

theorem upper_ne {slug : Str → Str} (hs : Slug slug) (a : Rec) (l : Nat) (w : Str) (hw : ∃ c ∈ w, c.isUpper = true) : a.name slug l ≠ w := by
  rintro rfl
  obtain ⟨c, h1, h2⟩ := hw
  rw [finalKey_lower hs _ c h1] at h2
  cases h2

/-- Attributes with small letters are looked up among the children first. -/
theorem procAttr_low (M : Machine) (slug : Str → Str) (ps : Str → Bool) (r : Rec) (k : Str) (hk : k ≠ c!"INFO" ∧ k ≠ c!"PARENT" ∧ k ≠ c!"GROUP" ∧ k ≠ c!"SESS") :
    procAttr M slug ps (some r) k = fallback M slug ps r k := by
  simp [procAttr, hk.1, hk.2.1, hk.2.2.1, hk.2.2.2]

/-- One step down: each child has one path. -/
theorem down (M : Machine) (hd : Distinct M) (slug : Str → Str) (hs : Slug slug) (hc : NoneNamedChildren slug M) (ps det : Str → Bool)
    (r a : Rec) (ha : a ∈ M.procs) (hp : a.ppid = r.pid) :
    ∃ p, p ≠ [] ∧ p.length ≤ 4 ∧ ShortestPath (Rec.name slug) 0 (M.childrenOf r) a p ∧ path M slug ps det (.proc (some r)) p = .ok (.proc (some a)) := by
  obtain ⟨ch, h1, h2, h3, -⟩ := rec_tree hd hs r
  have hm : a ∈ M.childrenOf r := List.mem_filter.2 ⟨ha, by simpa using hp⟩
  obtain ⟨p, h4, hlen, -⟩ := h3 a hm
  have hsp := ((h2 p a).1 h4).2
  obtain ⟨hne, hnames⟩ := shortest_names hsp hlen
  refine ⟨p, hne, hlen, hsp, ?_⟩
  have hch : c!"children" ∉ p := by
    intro h
    obtain ⟨l, hl, e⟩ := hnames _ h
    exact hc a ha l hl e.symm
  have hpg := path_group M slug ps det (.group ch) p hch a h4
  cases p with
  | nil => exact absurd rfl hne
  | cons k p =>
    obtain ⟨l, hl, rfl⟩ := hnames k (by simp)
    have hk : procAttr M slug ps (some r) (a.name slug l) = fallback M slug ps r (a.name slug l) :=
      procAttr_low M slug ps r _ ⟨upper_ne hs a l _ ⟨'I', by decide, by decide⟩, upper_ne hs a l _ ⟨'P', by decide, by decide⟩,
        upper_ne hs a l _ ⟨'G', by decide, by decide⟩, upper_ne hs a l _ ⟨'S', by decide, by decide⟩⟩
    simp only [path, ofTree, attr] at hpg
    simp only [path, attr, hk, fallback, h1]
    cases e : groupAttr ch (a.name slug l) with
    | error x => simp [e] at hpg
    | ok o => simpa [e] using hpg

theorem path_append (M : Machine) (slug : Str → Str) (ps det : Str → Bool) (o o' : Obj) (p q : List Str) (h : path M slug ps det o p = .ok o') :
    path M slug ps det o (p ++ q) = path M slug ps det o' q := by
  induction p generalizing o with
  | nil => simp only [path, Except.ok.injEq] at h; subst h; rfl
  | cons k p ih =>
    simp only [path, List.cons_append] at h ⊢
    cases e : attr M slug ps det o k with
    | error x => simp [e] at h
    | ok o1 => simp only [e] at h ⊢; exact ih o1 h

/-! ### The theorems -/

/-- C140: each child of a process is reached by its shortest path of names (program, path of the program, command line, number),
provided no process is called `children`. -/
theorem C140_child_partial (M : Machine) (hd : Distinct M) (slug : Str → Str) (hs : Slug slug) (hc : NoneNamedChildren slug M) (ps det : Str → Bool)
    (r a : Rec) (ha : a ∈ M.procs) (hp : a.ppid = r.pid) (p : List Str) (h : ShortestPath (Rec.name slug) 0 (M.childrenOf r) a p) :
    path M slug ps det (.proc (some r)) p = .ok (.proc (some a)) := by
  obtain ⟨q, -, -, h1, h2⟩ := down M hd slug hs hc ps det r a ha hp
  rw [shortest_unique (Rec.name slug) (M.childrenOf r) a p q h h1]
  exact h2

/-- C140: every process below a process is reached by names, whatever else runs. -/
theorem C140_down_partial (M : Machine) (hd : Distinct M) (slug : Str → Str) (hs : Slug slug) (hc : NoneNamedChildren slug M) (ps det : Str → Bool)
    (a b : Rec) (h : Below M a b) : ∃ p, path M slug ps det (.proc (some a)) p = .ok (.proc (some b)) ∧ ∀ k ∈ p, ∀ c ∈ k, c.isUpper = false := by
  induction h with
  | refl => exact ⟨[], rfl, by simp⟩
  | @step b c _ hm hp ih =>
    obtain ⟨p, h1, h2⟩ := ih
    obtain ⟨q, -, hlen, hsp, h3⟩ := down M hd slug hs hc ps det b c hm hp
    refine ⟨p ++ q, by rw [path_append M slug ps det _ _ p q h1, h3], ?_⟩
    intro k hk
    rcases List.mem_append.1 hk with hk | hk
    · exact h2 k hk
    · obtain ⟨l, -, rfl⟩ := (shortest_names hsp hlen).2 k hk
      exact finalKey_lower hs _

/-- C140: `PARENT` is the parent; the object without a process if there is none. -/
theorem C140_parent (M : Machine) (hd : Distinct M) (slug : Str → Str) (ps det : Str → Bool) (r : Rec) :
    (∀ q ∈ M.procs, q.pid = r.ppid → path M slug ps det (.proc (some r)) [c!"PARENT"] = .ok (.proc (some q))) ∧
    ((∀ q ∈ M.procs, q.pid ≠ r.ppid) → path M slug ps det (.proc (some r)) [c!"PARENT"] = .ok (.proc none)) := by
  have e : path M slug ps det (.proc (some r)) [c!"PARENT"] = .ok (.proc (M.find r.ppid)) := by
    simp [path, attr, procAttr]
  rw [e]
  constructor
  · intro q hq hp
    rw [← hp, find_mem M hd hq]
  · intro h
    cases ef : M.find r.ppid with
    | none => rfl
    | some q => exact absurd (find_some ef).2 (h q (find_some ef).1)

/-- C140: going down and up again: `PARENT` as often as there are generations leads back. -/
theorem C140_up (M : Machine) (hd : Distinct M) (slug : Str → Str) (ps det : Str → Bool) (a b : Rec) (ha : a ∈ M.procs) (h : Below M a b) :
    ∃ n, path M slug ps det (.proc (some b)) (List.replicate n c!"PARENT") = .ok (.proc (some a)) := by
  have key : ∀ b, Below M a b → b ∈ M.procs ∧ ∃ n, path M slug ps det (.proc (some b)) (List.replicate n c!"PARENT") = .ok (.proc (some a)) := by
    intro b h
    induction h with
    | refl => exact ⟨ha, 0, rfl⟩
    | @step b c _ hm hp ih =>
      obtain ⟨hb, n, h1⟩ := ih
      refine ⟨hm, n + 1, ?_⟩
      have := (C140_parent M hd slug ps det c).1 b hb hp.symm
      have h2 := path_append M slug ps det _ _ [c!"PARENT"] (List.replicate n c!"PARENT") this
      rw [h1] at h2
      simpa [List.replicate_succ] using h2
  exact (key b h).2

/-- C140: from every process to every other that has a common ancestor with it (from `CURRENT` to all that `INIT` started). -/
theorem C140_anywhere_partial (M : Machine) (hd : Distinct M) (slug : Str → Str) (hs : Slug slug) (hc : NoneNamedChildren slug M) (ps det : Str → Bool)
    (init a b : Rec) (hi : init ∈ M.procs) (ha : Below M init a) (hb : Below M init b) :
    ∃ p, path M slug ps det (.proc (some a)) p = .ok (.proc (some b)) := by
  obtain ⟨n, h1⟩ := C140_up M hd slug ps det init a hi ha
  obtain ⟨p, h2, -⟩ := C140_down_partial M hd slug hs hc ps det init b hb
  exact ⟨_, by rw [path_append M slug ps det _ _ _ p h1, h2]⟩

/-- Attributes of a process: a child of that name, else the attribute of the process itself. -/
theorem fallback_eq {M : Machine} (hd : Distinct M) {slug : Str → Str} (hs : Slug slug) (ps : Str → Bool) (r : Rec) (k : Str) (hk : k ≠ c!"children") :
    ((∃ a ∈ M.procs, a.ppid = r.pid ∧ a.name slug 0 = k) → ∃ o, fallback M slug ps r k = .ok o ∧ ((∃ a, o = .proc (some a)) ∨ ∃ ch, o = .group ch)) ∧
    ((∀ a ∈ M.procs, a.ppid = r.pid → a.name slug 0 ≠ k) → fallback M slug ps r k = infoAttr ps r k) := by
  obtain ⟨ch, h1, -, -, h4⟩ := rec_tree hd hs r
  simp only [fallback, h1, groupAttr, if_neg hk]
  have hm := mem_keys_iff ch k
  constructor
  · rintro ⟨a, h5, h6, h7⟩
    have : k ∈ ch.map Prod.fst := (h4 k).2 ⟨a, List.mem_filter.2 ⟨h5, by simpa using h6⟩, h7⟩
    obtain ⟨t, ht⟩ := hm.1 this
    rw [ht]
    cases t with
    | leaf a => exact ⟨_, rfl, .inl ⟨a, rfl⟩⟩
    | group c => exact ⟨_, rfl, .inr ⟨c, rfl⟩⟩
  · intro h
    cases e : get? ch k with
    | none => rfl
    | some t =>
      obtain ⟨a, h5, h6⟩ := (h4 k).1 (hm.2 ⟨t, e⟩)
      simp only [Machine.childrenOf, List.mem_filter, decide_eq_true_eq] at h5
      exact absurd h6 (h a h5.1 h5.2)

/-- C140: `GROUP` and `SESS` lead to the leaders exactly if these still run and no child of the process is a program called `pid`. -/
theorem C140_leaders_partial (M : Machine) (hd : Distinct M) (slug : Str → Str) (hs : Slug slug) (ps det : Str → Bool) (r g : Rec) (hr : r ∈ M.procs) :
    (path M slug ps det (.proc (some r)) [c!"GROUP"] = .ok (.proc (some g)) ↔
      g ∈ M.procs ∧ g.pid = r.pgid ∧ ∀ a ∈ M.procs, a.ppid = r.pid → a.name slug 0 ≠ c!"pid") ∧
    (path M slug ps det (.proc (some r)) [c!"SESS"] = .ok (.proc (some g)) ↔
      g ∈ M.procs ∧ g.pid = r.sid ∧ ∀ a ∈ M.procs, a.ppid = r.pid → a.name slug 0 ≠ c!"pid") := by
  have key : ∀ which : Rec → Nat, (leader M slug ps which r = .ok (.proc (some g)) ↔
      g ∈ M.procs ∧ g.pid = which r ∧ ∀ a ∈ M.procs, a.ppid = r.pid → a.name slug 0 ≠ c!"pid") := by
    intro which
    obtain ⟨f1, f2⟩ := fallback_eq hd hs ps r c!"pid" (by decide)
    by_cases h : ∀ a ∈ M.procs, a.ppid = r.pid → a.name slug 0 ≠ c!"pid"
    · have e : fallback M slug ps r c!"pid" = .ok (.number r.pid) := by rw [f2 h]; simp [infoAttr]
      simp only [leader, e, find_mem M hd hr]
      cases ef : M.find (which r) with
      | none =>
        simp only [reduceCtorEq, false_iff, not_and]
        intro h1 h2
        rw [← h2, find_mem M hd h1] at ef
        cases ef
      | some q =>
        have hq := find_some ef
        simp only [Except.ok.injEq, Obj.proc.injEq, Option.some.injEq]
        constructor
        · rintro rfl; exact ⟨hq.1, hq.2, h⟩
        · rintro ⟨h1, h2, -⟩
          exact eq_of_map_nodup Rec.pid M.procs hd q hq.1 g h1 (hq.2.trans h2.symm)
    · have h' : ∃ a ∈ M.procs, a.ppid = r.pid ∧ a.name slug 0 = c!"pid" := by
        simpa only [Classical.not_forall, not_imp, Decidable.not_not, exists_prop] using h
      obtain ⟨o, e, ho⟩ := f1 h'
      have hne : leader M slug ps which r = .error .typeError := by
        rcases ho with ⟨a, rfl⟩ | ⟨ch, rfl⟩ <;> simp [leader, e]
      rw [hne]
      simp only [reduceCtorEq, false_iff, not_and]
      intro _ _ h3
      exact h h3
  constructor
  · rw [← key Rec.pgid]
    have : path M slug ps det (.proc (some r)) [c!"GROUP"] = match leader M slug ps Rec.pgid r with
        | .ok o => .ok o | .error e => .error e := by simp [path, attr, procAttr]; rfl
    rw [this]; cases leader M slug ps Rec.pgid r <;> simp
  · rw [← key Rec.sid]
    have : path M slug ps det (.proc (some r)) [c!"SESS"] = match leader M slug ps Rec.sid r with
        | .ok o => .ok o | .error e => .error e := by simp [path, attr, procAttr]; rfl
    rw [this]; cases leader M slug ps Rec.sid r <;> simp

/-- C140: attributes of the process itself (`p.cwd`, `p.username`, ...) are available exactly if no child is a program of that name,
and `children` never is. -/
theorem C140_members_partial (M : Machine) (hd : Distinct M) (slug : Str → Str) (hs : Slug slug) (ps det : Str → Bool) (r : Rec) (m : Str) (hm : ps m = true)
    (hn : m ∉ [c!"pid", c!"INFO", c!"PARENT", c!"GROUP", c!"SESS"]) :
    path M slug ps det (.proc (some r)) [m] = .ok (.member r.pid m) ↔
      m ≠ c!"children" ∧ ∀ a ∈ M.procs, a.ppid = r.pid → a.name slug 0 ≠ m := by
  simp only [List.mem_cons, List.not_mem_nil, or_false, not_or] at hn
  have e : path M slug ps det (.proc (some r)) [m] = match fallback M slug ps r m with
      | .ok o => .ok o | .error e => .error e := by
    simp [path, attr, procAttr_low M slug ps r m hn.2]; rfl
  rw [e]
  by_cases hc : m = c!"children"
  · obtain ⟨ch, h1, -⟩ := rec_tree hd hs r
    simp [hc, fallback, h1, groupAttr]
  · obtain ⟨f1, f2⟩ := fallback_eq hd hs ps r m hc
    by_cases h : ∀ a ∈ M.procs, a.ppid = r.pid → a.name slug 0 ≠ m
    · rw [f2 h]
      simp only [infoAttr, if_neg hn.1, hm, if_true, true_iff]
      exact ⟨hc, h⟩
    · have h' : ∃ a ∈ M.procs, a.ppid = r.pid ∧ a.name slug 0 = m := by
        simpa only [Classical.not_forall, not_imp, Decidable.not_not, exists_prop] using h
      obtain ⟨o, eo, ho⟩ := f1 h'
      rw [eo]
      rcases ho with ⟨a, rfl⟩ | ⟨ch, rfl⟩ <;> simp [h]

/-- C140: completion lists exactly the first names of the children. -/
theorem C140_names (M : Machine) (hd : Distinct M) (slug : Str → Str) (hs : Slug slug) (r : Rec) :
    ∃ l, names M slug r = some l ∧ ∀ k, k ∈ l ↔ ∃ a ∈ M.procs, a.ppid = r.pid ∧ a.name slug 0 = k := by
  obtain ⟨ch, h1, -, -, h4⟩ := rec_tree hd hs r
  refine ⟨ch.map Prod.fst, by simp [names, h1], fun k => ?_⟩
  rw [h4]
  simp only [Machine.childrenOf, List.mem_filter, decide_eq_true_eq]
  exact ⟨fun ⟨a, ⟨h5, h6⟩, h7⟩ => ⟨a, h5, h6, h7⟩, fun ⟨a, h5, h6, h7⟩ => ⟨a, ⟨h5, h6⟩, h7⟩⟩

/-- C140: from a program started by the shell, which has its `details`, the same paths lead to the same places, unless they begin
with a name of the item itself. -/
theorem C140_item (M : Machine) (slug : Str → Str) (ps det : Str → Bool) (r : Rec) (k : Str) (hk : k ∉ itemMembers) :
    itemAttr M slug ps (some r) k = attr M slug ps det (.proc (some r)) k := by
  simp [itemAttr, hk, attr]

/-- **C140.** `details` is the process itself, if it was found when the program was started; a program that was not found has only its own attributes; own attributes are never hidden. -/
theorem C140_item_details (M : Machine) (slug : Str → Str) (ps : Str → Bool) (r : Rec) (k : Str) :
    itemAttr M slug ps (some r) c!"details" = .ok (.proc (some r)) ∧ itemAttr M slug ps none c!"details" = .ok (.own c!"details") ∧
    (k ∉ itemMembers → itemAttr M slug ps none k = .error .attributeError) ∧ (k ∈ itemMembers → k ≠ c!"details" → ∀ d, itemAttr M slug ps d k = .ok (.own k)) := by
  have hm : c!"details" ∈ itemMembers := by decide
  refine ⟨by simp [itemAttr, hm], by simp [itemAttr, hm], fun h => by simp [itemAttr, h], fun h1 h2 d => ?_⟩
  simp only [itemAttr, if_pos h1, if_neg h2]

/-! ### A machine -/

/-- `init`, a shell with its own session, three of its programs (two of them `sleep`), and what is left of a group without leader. -/
def machine : Machine where
  procs :=
    [⟨⟨1, some c!"/sbin/init", some [c!"init"]⟩, 0, 1, 1⟩, ⟨⟨7, some c!"/bin/bash", some [c!"bash"]⟩, 1, 7, 7⟩,
     ⟨⟨8, some c!"/bin/sleep", some [c!"sleep", c!"1"]⟩, 7, 8, 7⟩, ⟨⟨9, some c!"/bin/sleep", some [c!"sleep", c!"2"]⟩, 7, 8, 7⟩,
     ⟨⟨10, none, some [c!"sudo", c!"ls"]⟩, 7, 5, 7⟩]
  users := [⟨c!"ann", c!"tty1", 7⟩]

/-- A `slugify` for examples: capital letters and everything strange become `_`. -/
def toySlug (s : Str) : Str := s.map (fun c => if c.isLower || c.isDigit then c else '_')

theorem toySlug_ok : Slug toySlug where
  pids n := by
    have h : ∀ c ∈ Nat.toDigits 10 n, c.isDigit = true := fun c hc => Nat.isDigit_of_mem_toDigits (by omega) (by omega) hc
    simp only [toySlug, List.map_append]
    congr 1
    conv => rhs; rw [← List.map_id (Nat.toDigits 10 n)]
    apply List.map_congr_left
    intro c hc
    simp [h c hc]
  lower s c hc := by
    simp only [toySlug, List.mem_map] at hc
    obtain ⟨a, -, rfl⟩ := hc
    split
    · rename_i h
      simp only [Bool.or_eq_true, Char.isLower, Char.isDigit, Bool.and_eq_true, decide_eq_true_eq] at h
      simp only [Char.isUpper, decide_eq_false_iff_not, not_and]
      have e1 : ('a'.val).toNat = 97 := rfl
      have e2 : ('9'.val).toNat = 57 := rfl
      have e3 : ('A'.val).toNat = 65 := rfl
      have e4 : ('Z'.val).toNat = 90 := rfl
      simp only [ge_iff_le, UInt32.le_iff_toNat_le, e1, e2, e3, e4] at h ⊢
      omega
    · decide

theorem below_init (r : Rec) (h : r ∈ machine.procs) : Below machine ⟨⟨1, some c!"/sbin/init", some [c!"init"]⟩, 0, 1, 1⟩ r := by
  have h7 : Below machine ⟨⟨1, some c!"/sbin/init", some [c!"init"]⟩, 0, 1, 1⟩ ⟨⟨7, some c!"/bin/bash", some [c!"bash"]⟩, 1, 7, 7⟩ :=
    .step .refl (by decide) rfl
  simp only [machine, List.mem_cons, List.not_mem_nil, or_false] at h
  rcases h with rfl | rfl | rfl | rfl | rfl
  · exact .refl
  · exact h7
  · exact .step h7 (by decide) rfl
  · exact .step h7 (by decide) rfl
  · exact .step h7 (by decide) rfl

/-- The hypotheses of the theorems hold of this machine. -/
example : Distinct machine ∧ Slug toySlug ∧ NoneNamedChildren toySlug machine ∧ ∀ r ∈ machine.procs, Below machine ⟨⟨1, some c!"/sbin/init", some [c!"init"]⟩, 0, 1, 1⟩ r := by
  refine ⟨by unfold Distinct; decide, toySlug_ok, ?_, below_init⟩
  unfold NoneNamedChildren
  decide +kernel

/-- Paths in it. -/
example (ps det : Str → Bool) : let go := path machine toySlug ps det (.proc (machine.find 1))
    go [c!"bash", c!"sleep", c!"_bin_sleep", c!"sleep_2"] = .ok (.proc (machine.find 9)) ∧
    go [c!"bash", c!"sudo_ls"] = .ok (.proc (machine.find 10)) ∧
    go [c!"bash", c!"sudo_ls", c!"PARENT", c!"sleep", c!"_bin_sleep", c!"sleep_1", c!"GROUP"] = .ok (.proc (machine.find 8)) ∧
    go [c!"bash", c!"sudo_ls", c!"SESS", c!"pid"] = .ok (.number 7) ∧
    go [c!"bash", c!"sudo_ls", c!"GROUP"] = .error .other ∧
    go [c!"PARENT"] = .ok (.proc none) :=
  ⟨rfl, rfl, rfl, rfl, rfl, rfl⟩

/-! ### Where it fails -/

/-- C140 fails for programs called `children`: what is found is not a process, whatever else runs. -/
theorem C140_children_refuted (M : Machine) (hd : Distinct M) (slug : Str → Str) (hs : Slug slug) (ps det : Str → Bool) (r : Rec) :
    path M slug ps det (.proc (some r)) [c!"children"] = .ok .dict := by
  obtain ⟨ch, h1, -⟩ := rec_tree hd hs r
  simp [path, attr, procAttr, fallback, h1, groupAttr]

/-- C140 fails: a group that has outlived its leader has no `GROUP`; a session likewise. -/
theorem C140_leader_gone_refuted (M : Machine) (hd : Distinct M) (slug : Str → Str) (hs : Slug slug) (ps det : Str → Bool) (r : Rec) (hr : r ∈ M.procs)
    (hp : ∀ a ∈ M.procs, a.ppid = r.pid → a.name slug 0 ≠ c!"pid") :
    ((∀ g ∈ M.procs, g.pid ≠ r.pgid) → path M slug ps det (.proc (some r)) [c!"GROUP"] = .error .other) ∧
    ((∀ g ∈ M.procs, g.pid ≠ r.sid) → path M slug ps det (.proc (some r)) [c!"SESS"] = .error .other) := by
  have e : fallback M slug ps r c!"pid" = .ok (.number r.pid) := by
    rw [(fallback_eq hd hs ps r c!"pid" (by decide)).2 hp]; simp [infoAttr]
  have key : ∀ which : Rec → Nat, (∀ g ∈ M.procs, g.pid ≠ which r) → leader M slug ps which r = .error .other := by
    intro which h
    simp only [leader, e, find_mem M hd hr]
    cases ef : M.find (which r) with
    | none => rfl
    | some q => exact absurd (find_some ef).2 (h q (find_some ef).1)
  constructor
  · intro h; simp [path, attr, procAttr, key Rec.pgid h]
  · intro h; simp [path, attr, procAttr, key Rec.sid h]

/-- C140 fails: while a program called `pid` runs as a child, `GROUP` and `SESS` are errors. -/
theorem C140_pid_refuted (M : Machine) (hd : Distinct M) (slug : Str → Str) (hs : Slug slug) (ps det : Str → Bool) (r a : Rec) (ha : a ∈ M.procs)
    (hp : a.ppid = r.pid) (hn : a.name slug 0 = c!"pid") :
    path M slug ps det (.proc (some r)) [c!"GROUP"] = .error .typeError ∧ path M slug ps det (.proc (some r)) [c!"SESS"] = .error .typeError := by
  obtain ⟨o, e, ho⟩ := (fallback_eq hd hs ps r c!"pid" (by decide)).1 ⟨a, ha, hp, hn⟩
  have key : ∀ which, leader M slug ps which r = .error .typeError := by
    intro which
    rcases ho with ⟨a, rfl⟩ | ⟨ch, rfl⟩ <;> simp [leader, e]
  simp [path, attr, procAttr, key]

/-- C140 fails at the top: the parent of a process without one is an object that cannot even be printed, and every name asked of it is an error. -/
theorem C140_top_refuted (M : Machine) (hd : Distinct M) (slug : Str → Str) (ps det : Str → Bool) (pr : Char → Bool) (r : Rec)
    (h : ∀ q ∈ M.procs, q.pid ≠ r.ppid) :
    path M slug ps det (.proc (some r)) [c!"PARENT"] = .ok (.proc none) ∧ shown slug pr none = .error .attributeError ∧
    ∀ k, k ≠ c!"INFO" → path M slug ps det (.proc (some r)) [c!"PARENT", k] = .error .attributeError := by
  have h1 := (C140_parent M hd slug ps det r).2 h
  refine ⟨h1, rfl, fun k hk => ?_⟩
  have := path_append M slug ps det _ _ [c!"PARENT"] [k] h1
  rw [List.singleton_append] at this
  rw [this]
  simp [path, attr, procAttr, hk]

/-- These cases exist. -/
example : (∀ q ∈ machine.procs, q.pid ≠ 0) ∧ (∀ g ∈ machine.procs, g.pid ≠ 5) ∧
    (∃ r : Rec, r.name toySlug 0 = c!"pid") ∧ ∃ r : Rec, r.name toySlug 0 = c!"children" :=
  ⟨by decide, by decide, ⟨⟨⟨1, some c!"/bin/pid", none⟩, 0, 0, 0⟩, by decide⟩, ⟨⟨⟨1, some c!"/bin/children", none⟩, 0, 0, 0⟩, by decide⟩⟩

/-! ### Logins -/

/-- The name of a login at a level: user, host, and the names of its process. -/
def loginName (slug : Str → Str) (x : User × Rec) (level : Nat) : Str := finalKey slug ((loginKey x level).getD [])

theorem login_tree {slug : Str → Str} (hs : Slug slug) (l : List (User × Rec)) (hn : (l.map (fun x => x.2.pid)).Nodup) :
    ∃ ch, build slug loginKey loginIdent 1000 0 l = some (.group ch) ∧
      (∀ p a, Leads (.group ch) p a ↔ a ∈ l ∧ ShortestPath (loginName slug) 0 l a p) ∧
      ∀ a ∈ l, ∃ p, Leads (.group ch) p a ∧ p.length ≤ 6 ∧ ∀ q, Leads (.group ch) q a → q = p := by
  have hinj : ∀ a ∈ l, ∀ b ∈ l, loginName slug a 5 = loginName slug b 5 → a = b := by
    intro a ha b hb e
    simp only [loginName, loginKey, Login.key, Proc.key, Option.getD_some, Proc.ident, finalKey_pid hs.pids] at e
    exact eq_of_map_nodup (fun x : User × Rec => x.2.pid) _ hn a ha b hb (ident_inj e)
  have hk : ∀ a ∈ l, ∀ n ≤ 5, ∃ k, loginKey a n = some k ∧ loginName slug a n = finalKey slug k := by
    intro a _ n hl
    have : ∃ k, loginKey a n = some k := by
      match n, hl with
      | 0, _ => exact ⟨_, rfl⟩
      | 1, _ => exact ⟨_, rfl⟩
      | n + 2, h => exact key_some a.2 n (by omega)
    obtain ⟨k, hk⟩ := this
    exact ⟨k, hk, by simp [loginName, hk]⟩
  have hid : (l.map loginIdent).Nodup := by
    rw [List.nodup_iff_pairwise_ne, List.pairwise_map] at *
    exact hn.imp (fun h e => h (ident_inj e))
  obtain ⟨t, ht, htw⟩ := build_spec slug loginKey loginIdent (loginName slug) 5 1000 0 l (by omega) (by omega) hk hid hinj
  obtain ⟨ch, rfl, -⟩ := build_root slug loginKey loginIdent (loginName slug) 999 0 l t (fun a ha => hk a ha 0 (by omega)) hid ht
  refine ⟨ch, ht, fun p a => htw a p, fun a ha => ?_⟩
  obtain ⟨p, hp, hlen⟩ := shortest_exists (loginName slug) l a 5 (fun b hb => hinj a ha b hb)
  exact ⟨p, (htw a p).2 ⟨ha, hp⟩, hlen, fun q hq => shortest_unique (loginName slug) l a q p ((htw a q).1 hq).2 hp⟩

theorem path_logins (M : Machine) (slug : Str → Str) (ps det : Str → Bool) (ch : List (Str × Tree (User × Rec))) (p : List Str) (hc : c!"children" ∉ p) (a : User × Rec)
    (h : Leads (.group ch) p a) : path M slug ps det (.logins ch) p = .ok (.login a.1 a.2) := by
  induction p generalizing ch with
  | nil => obtain ⟨t', h1, rfl⟩ := h; simp [walk] at h1
  | cons k p ih =>
    obtain ⟨t', h1, rfl⟩ := h
    simp only [List.mem_cons, not_or] at hc
    simp only [walk, show nothing k = false from rfl, Bool.false_eq_true, if_false] at h1
    cases e : get? ch k with
    | none => simp [e] at h1
    | some t1 =>
      simp only [e] at h1
      simp only [path, attr, loginsAttr, if_neg (Ne.symm hc.1), e]
      cases t1 with
      | leaf x =>
        cases p with
        | nil => simp only [walk, Option.some.injEq, Tree.leaf.injEq] at h1; subst h1; rfl
        | cons k' p => simp [walk] at h1
      | group c => exact ih c hc.2 ⟨_, h1, rfl⟩

/-- C140: every login is reached from `USERS`, by its shortest path of at most six names, if the processes of all logins exist and none of its names is
`children`; and from it, by the name of a child, the processes of that session. -/
theorem C140_users_partial (M : Machine) (slug : Str → Str) (hs : Slug slug) (ps det : Str → Bool) (l : List (User × Rec)) (hl : M.sessions = some l)
    (hn : (l.map (fun x => x.2.pid)).Nodup) (a : User × Rec) (ha : a ∈ l) (hc : ∀ n < 6, loginName slug a n ≠ c!"children") :
    ∃ p, p.length ≤ 6 ∧ ShortestPath (loginName slug) 0 l a p ∧ usersPath M slug ps det p = .ok (.login a.1 a.2) ∧
      ∀ k o, k ∉ [c!"details", c!"process"] → attr M slug ps det (.proc (some a.2)) k = .ok o → usersPath M slug ps det (p ++ [k]) = .ok o := by
  obtain ⟨ch, h1, h2, h3⟩ := login_tree hs l hn
  obtain ⟨p, h4, hlen, -⟩ := h3 a ha
  have hsp := ((h2 p a).1 h4).2
  have hch : c!"children" ∉ p := by
    obtain ⟨m, rfl, -, -⟩ := hsp
    have aux : ∀ (n level : Nat), ∀ k ∈ Tree.names (loginName slug) a level n, ∃ l < level + n, k = loginName slug a l := by
      intro n
      induction n with
      | zero => intro level k hk; simp [Tree.names] at hk
      | succ n ih =>
        intro level k hk
        simp only [Tree.names, List.mem_cons] at hk
        rcases hk with rfl | hk
        · exact ⟨level, by omega, rfl⟩
        · obtain ⟨l, h1, h2⟩ := ih (level + 1) k hk
          exact ⟨l, by omega, h2⟩
    have hl : (Tree.names (loginName slug) a 0 (m + 1)).length = m + 1 := by
      have : ∀ n level, (Tree.names (loginName slug) a level n).length = n := by
        intro n; induction n with
        | zero => intro; rfl
        | succ n ih => intro level; simp [Tree.names, ih]
      exact this _ _
    intro hm
    obtain ⟨n, hlt, e⟩ := aux _ _ _ hm
    exact hc n (by omega) e.symm
  have hp := path_logins M slug ps det ch p hch a h4
  have hu : usersTree M slug = .ok ch := by simp [usersTree, hl, h1]
  refine ⟨p, hlen, hsp, by simp [usersPath, hu, hp], fun k o hk ho => ?_⟩
  simp only [List.mem_cons, List.not_mem_nil, or_false, not_or] at hk
  simp only [attr] at ho
  simp only [usersPath, hu, path_append M slug ps det _ _ p [k] hp]
  simp [path, attr, loginAttr, hk.1, hk.2, ho]

/-- C140 fails: one login whose process has gone, and `USERS` leads nowhere. -/
theorem C140_stale_refuted (M : Machine) (slug : Str → Str) (ps det : Str → Bool) (u : User) (hu : u ∈ M.users) (h : ∀ r ∈ M.procs, r.pid ≠ u.pid) (p : List Str) :
    usersPath M slug ps det p = .error .other := by
  have hf : M.find u.pid = none := by
    cases e : M.find u.pid with
    | none => rfl
    | some q => exact absurd (find_some e).2 (h q (find_some e).1)
  have hs : M.sessions = none := by
    unfold Machine.sessions
    have : ∀ l : List User, u ∈ l → l.mapM (fun u => (M.find u.pid).map (fun r => (u, r))) = none := by
      intro l
      induction l with
      | nil => intro h; cases h
      | cons v l ih =>
        intro hm
        rw [List.mapM_cons]
        rcases List.mem_cons.1 hm with rfl | hm
        · simp [hf]
        · cases (M.find v.pid) <;> simp [ih hm]
    exact this _ hu
  simp [usersPath, usersTree, hs]

/-- C140: an attribute of the entry itself (`host`, `started`, ...) is hidden by every child and every attribute of the process of that name:
`USERS.ann.name` is the method `name` of the process. -/
theorem C140_detail_refuted (M : Machine) (slug : Str → Str) (ps det : Str → Bool) (u : User) (r : Rec) (k : Str) (o : Obj) (hk : k ∉ [c!"details", c!"process"])
    (h : attr M slug ps det (.proc (some r)) k = .ok o) : attr M slug ps det (.login u r) k = .ok o := by
  simp only [List.mem_cons, List.not_mem_nil, or_false, not_or] at hk
  simp only [attr] at h
  simp [attr, loginAttr, hk.1, hk.2, h]

example : let go := usersPath machine toySlug (fun k => k = c!"name") (fun k => k = c!"host" || k = c!"name")
    go [c!"ann"] = .ok (.login ⟨c!"ann", c!"tty1", 7⟩ ⟨⟨7, some c!"/bin/bash", some [c!"bash"]⟩, 1, 7, 7⟩) ∧
    go [c!"ann", c!"sudo_ls"] = .ok (.proc (machine.find 10)) ∧
    go [c!"ann", c!"name"] = .ok (.member 7 c!"name") ∧
    go [c!"ann", c!"host"] = .ok (.detail ⟨c!"ann", c!"tty1", 7⟩ c!"host") ∧
    go [c!"bob"] = .error .attributeError ∧
    usersPath { machine with users := ⟨c!"bob", c!"tty2", 99⟩ :: machine.users } toySlug (fun _ => true) (fun _ => true) [c!"ann"] = .error .other :=
  ⟨rfl, rfl, rfl, rfl, rfl, rfl⟩

example : ∃ l, machine.sessions = some l ∧ (l.map (fun x => x.2.pid)).Nodup ∧ l ≠ [] ∧ ∀ a ∈ l, ∀ n < 6, loginName toySlug a n ≠ c!"children" :=
  ⟨_, rfl, by decide, by simp, by decide +kernel⟩

/-- Attributes of a process, what completion lists, and the same from a started program. -/
example : let r : Rec := ⟨⟨7, some c!"/bin/bash", some [c!"bash"]⟩, 1, 7, 7⟩
    path machine toySlug (fun k => k = c!"cwd") (fun _ => false) (.proc (some r)) [c!"cwd"] = .ok (.member 7 c!"cwd") ∧
    names machine toySlug r = some [c!"sleep", c!"sudo_ls"] ∧
    c!"sudo_ls" ∉ itemMembers ∧ c!"PARENT" ∉ itemMembers ∧
    itemAttr machine toySlug (fun _ => false) (some r) c!"PARENT" = .ok (.proc (machine.find 1)) ∧
    shown toySlug (fun _ => true) (some r) = .ok c!"bash as 7" :=
  ⟨rfl, rfl, by decide, by decide, rfl, rfl⟩

end Pieshell.Ps
