import Verif.Lemmas.Tree
/-! # C55: browsing processes by attribute names -/
namespace Pieshell.Tree
open Dict

/-- A path of attribute names leads to the item `a`. -/
def Leads {α : Type} (t : Tree α) (p : List Str) (a : α) : Prop := ∃ t', walk nothing t p = some t' ∧ t' = .leaf a

/-- The same from a running pipeline, whose own members hide children of the same name. -/
def Browses {α : Type} (t : Tree α) (p : List Str) (a : α) : Prop := ∃ t', browse t p = some t' ∧ t' = .leaf a

theorem names_getElem {α : Type} (name : α → Nat → Str) (a : α) (level n i : Nat) (h : i < n) :
    (names name a level n)[i]? = some (name a (level + i)) := by
  induction n generalizing level i with
  | zero => omega
  | succ n ih =>
    cases i with
    | zero => simp [names]
    | succ i =>
      simp only [names, List.getElem?_cons_succ]
      rw [ih (level + 1) i (by omega)]
      congr 2; omega

/-- The shortest path exists if some level tells all items apart. -/
theorem shortest_exists {α : Type} (name : α → Nat → Str) (items : List α) (a : α) (N : Nat)
    (hN : ∀ b ∈ items, name a N = name b N → a = b) : ∃ p, ShortestPath name 0 items a p ∧ p.length ≤ N + 1 := by
  have hlen : ∀ level n, (names name a level n).length = n := by
    intro level n
    induction n generalizing level with
    | zero => rfl
    | succ n ih => simp [names, ih]
  have hex : ∃ m, m ≤ N ∧ ∀ b ∈ items, names name b 0 (m + 1) = names name a 0 (m + 1) → b = a := by
    refine ⟨N, Nat.le_refl _, fun b hb h => ?_⟩
    have h1 := names_getElem name b 0 (N + 1) N (by omega)
    rw [h, names_getElem name a 0 (N + 1) N (by omega)] at h1
    simp only [Nat.zero_add, Option.some.injEq] at h1
    exact (hN b hb h1).symm
  -- the least such number
  have key : ∀ k m, m ≤ k → (∀ b ∈ items, names name b 0 (m + 1) = names name a 0 (m + 1) → b = a) →
      ∃ m' ≤ m, (∀ b ∈ items, names name b 0 (m' + 1) = names name a 0 (m' + 1) → b = a) ∧
        ∀ j < m', ∃ b ∈ items, b ≠ a ∧ names name b 0 (j + 1) = names name a 0 (j + 1) := by
    intro k
    induction k with
    | zero =>
      intro m hm h
      exact ⟨m, Nat.le_refl _, h, by intro j hj; omega⟩
    | succ k ih =>
      intro m hm h
      by_cases hs : ∃ j, j < m ∧ ∀ b ∈ items, names name b 0 (j + 1) = names name a 0 (j + 1) → b = a
      · obtain ⟨j, hj, hju⟩ := hs
        obtain ⟨m', h1, h2⟩ := ih j (by omega) hju
        exact ⟨m', by omega, h2⟩
      · refine ⟨m, Nat.le_refl _, h, fun j hj => ?_⟩
        refine Classical.byContradiction fun hno => hs ⟨j, hj, fun b hb hn => ?_⟩
        exact Classical.byContradiction fun hba => hno ⟨b, hb, hba, hn⟩
  obtain ⟨m, hm, hmu⟩ := hex
  obtain ⟨m', h1, h2, h3⟩ := key m m (Nat.le_refl _) hmu
  exact ⟨_, ⟨m', rfl, h2, h3⟩, by rw [hlen]; omega⟩

theorem names_prefix {α : Type} (name : α → Nat → Str) (a b : α) (level m j : Nat) (h : j ≤ m)
    (e : names name a level m = names name b level m) : names name a level j = names name b level j := by
  induction j generalizing level m with
  | zero => rfl
  | succ j ih =>
    cases m with
    | zero => omega
    | succ m =>
      simp only [names, List.cons.injEq] at e ⊢
      exact ⟨e.1, ih (level + 1) m (by omega) e.2⟩

/-- An item has at most one shortest path. -/
theorem shortest_unique {α : Type} (name : α → Nat → Str) (items : List α) (a : α) (p q : List Str)
    (hp : ShortestPath name 0 items a p) (hq : ShortestPath name 0 items a q) : p = q := by
  obtain ⟨m, rfl, h1, h2⟩ := hp
  obtain ⟨n, rfl, h3, h4⟩ := hq
  rcases Nat.lt_trichotomy m n with h | rfl | h
  · obtain ⟨b, hb, hba, hbn⟩ := h4 m h
    exact absurd (h1 b hb hbn) hba
  · rfl
  · obtain ⟨b, hb, hba, hbn⟩ := h2 n h
    exact absurd (h3 b hb hbn) hba

theorem digits_inj {n m : Nat} (h : Nat.toDigits 10 n = Nat.toDigits 10 m) : n = m := by
  rw [← Nat.ofDigitChars_ten_toDigits (n := n), h, Nat.ofDigitChars_ten_toDigits]

theorem finalKey_digits {slug : Str → Str} (hs : KeepsDigits slug) (n : Nat) :
    finalKey slug (Nat.toDigits 10 n) = 'n' :: Nat.toDigits 10 n := by
  have h : startsWithDigit (Nat.toDigits 10 n) = true := by
    cases e : Nat.toDigits 10 n with
    | nil => exact absurd e Nat.toDigits_ne_nil
    | cons c s =>
      have : c.isDigit := Nat.isDigit_of_mem_toDigits (b := 10) (by decide) (by decide) (n := n) (by rw [e]; simp)
      simpa [startsWithDigit] using this
  simp [finalKey, hs n, h]

def Item.id : Item → Nat
  | .proc id _ _ => id
  | .func id _ _ => id
  | .base id => id

theorem Item.ident_eq (a : Item) : a.ident = Nat.toDigits 10 a.id := by cases a <;> rfl

/-- The name of an item at a level, as an attribute. -/
def Item.name (slug : Str → Str) (a : Item) (level : Nat) : Str := finalKey slug ((a.key level).getD [])

theorem Item.key_some (a : Item) (l : Nat) : ∃ k, a.key l = some k := by
  cases a with
  | base id => exact ⟨_, rfl⟩
  | func id n s => match l with
    | 0 | 1 | 2 | _ + 3 => exact ⟨_, rfl⟩
  | proc id args s =>
    simp only [Item.key]
    generalize args.take (Cmd.splitIdx args) = pre
    match pre with
    | [] => simp only [List.length_nil]; match l with
      | 0 | _ + 1 => exact ⟨_, rfl⟩
    | [x] => match l with
      | 0 => exact ⟨_, rfl⟩
      | 1 => exact ⟨_, rfl⟩
      | _ + 2 => exact ⟨_, rfl⟩
    | x :: y :: r =>
      simp only [show ¬ ((x :: y :: r).length = 1 ∧ l ≥ 1) from by simp,
        show ¬ (x :: y :: r).length = 0 from by simp, if_false]
      match l with
      | 0 | 1 | 2 | _ + 3 => exact ⟨_, rfl⟩

theorem Item.key_three (a : Item) : a.key 3 = some (Nat.toDigits 10 a.id) := by
  cases a with
  | base id => rfl
  | func id n s => rfl
  | proc id args s =>
    simp only [Item.key, Item.id]
    generalize args.take (Cmd.splitIdx args) = pre
    match pre with
    | [] => rfl
    | [x] => rfl
    | x :: y :: r => simp

theorem eq_of_map_nodup {α β : Type} (f : α → β) (l : List α) (hid : (l.map f).Nodup) :
    ∀ a ∈ l, ∀ b ∈ l, f a = f b → a = b := by
  induction l with
  | nil => intro a ha; cases ha
  | cons x l ih =>
    intro a ha b hb e
    simp only [List.map_cons, List.nodup_cons, List.mem_map, not_exists, not_and] at hid
    by_cases h1 : a = x <;> by_cases h2 : b = x
    · rw [h1, h2]
    · have hb' := (List.mem_cons.1 hb).resolve_left h2
      rw [h1] at e
      exact absurd e.symm (hid.1 b hb')
    · have ha' := (List.mem_cons.1 ha).resolve_left h1
      rw [h2] at e
      exact absurd e (hid.1 a ha')
    · exact ih hid.2 a ((List.mem_cons.1 ha).resolve_left h1) b ((List.mem_cons.1 hb).resolve_left h2) e

/-- C55: whatever the names of the processes of a pipeline are, the tree can be built, and it leads to each process by
exactly one path, and to nothing else.  The path consists of the first names of the process, as many as are needed to
tell it from the others, at most four. -/
theorem C55_paths (slug : Str → Str) (hs : KeepsDigits slug) (items : List Item) (hid : (items.map Item.id).Nodup)
    (limit : Nat) (hlim : 4 ≤ limit) : ∃ t, children slug limit items = some t ∧
      (∀ a ∈ items, ∃ p, Leads t p a ∧ p.length ≤ 4 ∧ ∀ q, Leads t q a → q = p) ∧
      (∀ p a, Leads t p a → a ∈ items) ∧
      ∀ p a, Leads t p a ↔ a ∈ items ∧ ShortestPath (Item.name slug) 0 items a p := by
  have hi : (items.map Item.ident).Nodup := by
    rw [show Item.ident = (fun n => Nat.toDigits 10 n) ∘ Item.id from funext fun a => a.ident_eq, ← List.map_map]
    rw [List.nodup_iff_pairwise_ne, List.pairwise_map]
    exact hid.imp (fun h e => h (digits_inj e))
  have hinj : ∀ a ∈ items, ∀ b ∈ items, Item.name slug a 3 = Item.name slug b 3 → a = b := by
    intro a ha b hb e
    simp only [Item.name, Item.key_three, Option.getD_some, finalKey_digits hs, List.cons.injEq, true_and] at e
    exact eq_of_map_nodup Item.id items hid a ha b hb (digits_inj e)
  obtain ⟨t, ht, htw⟩ := build_spec slug Item.key Item.ident (Item.name slug) 3 limit 0 items (by omega) (by omega)
    (fun a _ l _ => by
      obtain ⟨k, hk⟩ := a.key_some l
      exact ⟨k, hk, by simp [Item.name, hk]⟩) hi hinj
  refine ⟨t, ht, ?_, ?_, ?_⟩
  · intro a ha
    obtain ⟨p, hp, hlen⟩ := shortest_exists (Item.name slug) items a 3 (fun b hb => hinj a ha b hb)
    refine ⟨p, (htw a p).2 ⟨ha, hp⟩, hlen, fun q hq => ?_⟩
    exact shortest_unique (Item.name slug) items a q p ((htw a q).1 hq).2 hp
  · intro p a h; exact ((htw a p).1 h).1
  · intro p a; exact htw a p

/-- Attribute access from the pipeline is the walk unless a component is hidden by a member. -/
theorem walk_hidden {α : Type} (t : Tree α) (p : List Str) :
    walk groupReserved t p = if p.any groupReserved && (walk nothing t p).isSome then none else walk nothing t p := by
  induction p generalizing t with
  | nil => simp [walk]
  | cons k p ih =>
    cases t with
    | leaf a => simp [walk]
    | group ch =>
      simp only [walk, show nothing k = false from rfl, Bool.false_eq_true, if_false, List.any_cons]
      by_cases h : groupReserved k = true
      · simp only [h, if_true, Bool.true_or, Bool.true_and]
        cases get? ch k with
        | none => simp
        | some t' =>
          simp only
          cases walk nothing t' p <;> simp
      · simp only [Bool.not_eq_true] at h
        simp only [h, Bool.false_eq_true, if_false, Bool.false_or]
        cases get? ch k with
        | none => simp
        | some t' => exact ih t'

/-- C55, seen from the pipeline object: `pipeline.a.b` is the process whose shortest path is `a.b`, provided that `a` is not
a member of the pipeline object itself, and no component is `children`. -/
theorem C55_browse_partial (slug : Str → Str) (hs : KeepsDigits slug) (items : List Item)
    (hid : (items.map Item.id).Nodup) (limit : Nat) (hlim : 4 ≤ limit) : ∃ t, children slug limit items = some t ∧
      ∀ p a, Browses t p a ↔ a ∈ items ∧ ShortestPath (Item.name slug) 0 items a p ∧
        c!"children" ∉ p ∧ ∀ k, p.head? = some k → k ∉ pipelineMembers := by
  obtain ⟨t, ht, -, -, h⟩ := C55_paths slug hs items hid limit hlim
  refine ⟨t, ht, fun p a => ?_⟩
  unfold Browses
  cases p with
  | nil =>
    constructor
    · rintro ⟨t', h1, -⟩; cases h1
    · rintro ⟨-, ⟨m, h1, -⟩, -⟩; simp [names] at h1
  | cons k p =>
    have hany : ((k :: p).any groupReserved = true) ↔ c!"children" ∈ k :: p := by
      simp only [List.any_eq_true, groupReserved, decide_eq_true_eq]
      exact ⟨fun ⟨x, hx, e⟩ => e ▸ hx, fun hx => ⟨_, hx, rfl⟩⟩
    simp only [browse, List.head?_cons, Option.some.injEq, forall_eq']
    by_cases hm : k ∈ pipelineMembers
    · simp [hm]
    · simp only [hm, if_false, not_false_eq_true, and_true]
      rw [walk_hidden, ← hany, ← and_assoc, ← h]
      unfold Leads
      by_cases ha : (k :: p).any groupReserved = true
      · simp only [ha, Bool.true_and, not_true_eq_false, and_false, iff_false]
        rintro ⟨t', h1, h2⟩
        cases e : walk nothing t (k :: p) with
        | none => simp [e] at h1
        | some x => simp [e] at h1
      · simp [Bool.eq_false_iff.2 ha]

/-- C55 fails for processes named like a member of the pipeline object: no path leads to them. -/
theorem C55_hidden_refuted (slug : Str → Str) (hs : KeepsDigits slug) (items : List Item)
    (hid : (items.map Item.id).Nodup) (limit : Nat) (hlim : 4 ≤ limit) (a : Item)
    (hm : Item.name slug a 0 ∈ pipelineMembers ∨ Item.name slug a 0 = c!"children") :
    ∃ t, children slug limit items = some t ∧ ∀ p, ¬ Browses t p a := by
  obtain ⟨t, ht, h⟩ := C55_browse_partial slug hs items hid limit hlim
  refine ⟨t, ht, fun p hb => ?_⟩
  obtain ⟨-, ⟨m, rfl, -⟩, h1, h2⟩ := (h p a).1 hb
  rcases hm with hm | hm
  · exact h2 _ rfl hm
  · exact h1 (by simp [names, hm])

/-- The names that hide processes in a pipeline: a function `m.NAME` with one of these names cannot be reached, whatever else runs.
(The public methods and properties of running pipelines, and their attributes.) -/
theorem C55_hidden_names_refuted (name : Str) (hn : name ∈ [c!"children", c!"pipeline", c!"processes", c!"failed_processes", c!"running_processes", c!"is_running",
      c!"is_failed", c!"exit_code", c!"wait", c!"restart", c!"suspend", c!"iterbytes", c!"finished", c!"handle_finish", c!"finish_future",
      c!"pipeline_suspended", c!"remove_output_files"]) (others : List Item) (id : Nat) (mod shown : Str) (hid : (id :: others.map Item.id).Nodup) :
    ∃ t, children (fun s => s) 4 (.func id (mod ++ '.' :: name) shown :: others) = some t ∧ ∀ p, ¬ Browses t p (.func id (mod ++ '.' :: name) shown) := by
  have dot : ∀ (m : Str) (n : Str), '.' ∉ n → n ≠ [] → afterDot (m ++ '.' :: n) = n := by
    intro m
    induction m with
    | nil =>
      intro n h1 h2
      simp only [List.nil_append, afterDot, ↓reduceIte]
      cases n with
      | nil => exact absurd rfl h2
      | cons c n =>
        simp only [List.mem_cons, not_or] at h1
        simp [afterDot, Ne.symm h1.1, h1.2]
    | cons c m ih => intro n h1 h2; simp [afterDot, ih n h1 h2]
  refine C55_hidden_refuted _ (fun _ => rfl) (.func id (mod ++ '.' :: name) shown :: others) hid 4 (Nat.le_refl _) _ ?_
  have e : Item.name (fun s => s) (.func id (mod ++ '.' :: name) shown) 0 = name := by
    have h1 : '.' ∉ name := by
      simp only [List.mem_cons, List.not_mem_nil, or_false] at hn
      rcases hn with rfl | rfl | rfl | rfl | rfl | rfl | rfl | rfl | rfl | rfl | rfl | rfl | rfl | rfl | rfl | rfl | rfl <;> decide
    have h2 : name ≠ [] ∧ startsWithDigit name = false := by
      simp only [List.mem_cons, List.not_mem_nil, or_false] at hn
      rcases hn with rfl | rfl | rfl | rfl | rfl | rfl | rfl | rfl | rfl | rfl | rfl | rfl | rfl | rfl | rfl | rfl | rfl <;> decide
    simp only [Item.name, Item.key, dot mod name h1 h2.1, finalKey, Option.getD_some, h2.2, Bool.false_eq_true, ↓reduceIte]
  rw [e]
  simp only [List.mem_cons, List.not_mem_nil, or_false] at hn
  rcases hn with rfl | rfl | rfl | rfl | rfl | rfl | rfl | rfl | rfl | rfl | rfl | rfl | rfl | rfl | rfl | rfl | rfl <;> decide

example : (7 :: ([.proc 8 [c!"ls"] c!"ls"] : List Item).map Item.id).Nodup ∧ c!"wait" ∈ [c!"restart", c!"wait"] := by decide

/-- The witness: `env.wait(...)`, or a function called `wait`; here `suspend` as a function of a module. -/
theorem C55_refuted : ∃ (items : List Item) (a : Item), a ∈ items ∧ ∀ limit ≥ 4,
    ∃ t, children (fun s => s) limit items = some t ∧ ∀ p, ¬ Browses t p a := by
  refine ⟨[.func 7 c!"jobs.suspend" c!"jobs.suspend()", .proc 8 [c!"ls"] c!"ls"], .func 7 c!"jobs.suspend" c!"jobs.suspend()",
    by simp, fun limit hlim => ?_⟩
  exact C55_hidden_refuted _ (fun _ => rfl) _ (by decide) limit hlim _ (.inl (by decide))

def sample : List Item :=
  [.proc 10 [c!"git", c!"status"] c!"git.status", .proc 11 [c!"git", c!"log", c!"-p"] c!"git.log('-p')",
   .proc 12 [c!"git", c!"log", c!"-p"] c!"git.log('-p')", .func 13 c!"m.git" c!"m.git()", .proc 14 [c!"./x"] c!"_('./x')"]

/-- Hypotheses and conclusion on a case with collisions on three levels. -/
example : KeepsDigits (fun s => s) ∧ (sample.map Item.id).Nodup ∧
    (∃ t, children (fun s => s) 4 sample = some t ∧
      Browses t [c!"git", c!"git.status"] (.proc 10 [c!"git", c!"status"] c!"git.status") ∧
      Browses t [c!"git", c!"git.log", c!"git.log('-p')", c!"n12"] (.proc 12 [c!"git", c!"log", c!"-p"] c!"git.log('-p')") ∧
      Browses t [c!"git", c!"m.git"] (.func 13 c!"m.git" c!"m.git()")) := by
  refine ⟨fun _ => rfl, by decide, _, rfl, ⟨_, rfl, rfl⟩, ⟨_, rfl, rfl⟩, ⟨_, rfl, rfl⟩⟩

/-! ### Process trees and logins -/

def Proc.name (slug : Str → Str) (a : Proc) (level : Nat) : Str := finalKey slug ((a.key level).getD [])
def Login.nameAt (slug : Str → Str) (a : Login) (level : Nat) : Str := finalKey slug ((a.key level).getD [])

theorem finalKey_pid {slug : Str → Str} (hs : KeepsPids slug) (n : Nat) :
    finalKey slug (c!"pid_" ++ Nat.toDigits 10 n) = c!"pid_" ++ Nat.toDigits 10 n := by
  have h : startsWithDigit (c!"pid_" ++ Nat.toDigits 10 n) = false := by
    simp only [List.cons_append, startsWithDigit]; decide
  simp only [finalKey, hs n, h, Bool.false_eq_true, if_false]

theorem ident_inj {a b : Proc} (h : a.ident = b.ident) : a.pid = b.pid := by
  simp only [Proc.ident, List.append_cancel_left_eq] at h
  exact digits_inj h

/-- C55 for the tree of operating system processes: the children of a process, whatever their programs and command lines
are and whichever of these are unreadable. -/
theorem C55_process_tree (slug : Str → Str) (hs : KeepsPids slug) (procs : List Proc) (hid : (procs.map Proc.pid).Nodup)
    (limit : Nat) (hlim : 4 ≤ limit) : ∃ t, build slug Proc.key Proc.ident limit 0 procs = some t ∧
      (∀ a ∈ procs, ∃ p, Leads t p a ∧ p.length ≤ 4 ∧ ∀ q, Leads t q a → q = p) ∧ ∀ p a, Leads t p a → a ∈ procs := by
  have hi : (procs.map Proc.ident).Nodup := by
    rw [List.nodup_iff_pairwise_ne, List.pairwise_map] at *
    exact hid.imp (fun h e => h (ident_inj e))
  have hinj : ∀ a ∈ procs, ∀ b ∈ procs, Proc.name slug a 3 = Proc.name slug b 3 → a = b := by
    intro a ha b hb e
    simp only [Proc.name, Proc.key, Option.getD_some, Proc.ident, finalKey_pid hs] at e
    exact eq_of_map_nodup Proc.pid procs hid a ha b hb (ident_inj e)
  obtain ⟨t, ht, htw⟩ := build_spec slug Proc.key Proc.ident (Proc.name slug) 3 limit 0 procs (by omega) (by omega)
    (fun a _ l hl => by
      have : ∃ k, a.key l = some k := by
        match l, hl with
        | 0, _ => simp only [Proc.key]; cases a.exe <;> cases a.cmdline <;> exact ⟨_, rfl⟩
        | 1, _ => simp only [Proc.key]; cases a.exe <;> cases a.cmdline <;> exact ⟨_, rfl⟩
        | 2, _ => simp only [Proc.key]; cases a.cmdline <;> exact ⟨_, rfl⟩
        | 3, _ => exact ⟨_, rfl⟩
        | n + 4, h => omega
      obtain ⟨k, hk⟩ := this
      exact ⟨k, hk, by simp [Proc.name, hk]⟩) hi hinj
  refine ⟨t, ht, ?_, fun p a h => ((htw a p).1 h).1⟩
  intro a ha
  obtain ⟨p, hp, hlen⟩ := shortest_exists (Proc.name slug) procs a 3 (fun b hb => hinj a ha b hb)
  exact ⟨p, (htw a p).2 ⟨ha, hp⟩, hlen, fun q hq =>
    shortest_unique (Proc.name slug) procs a q p ((htw a q).1 hq).2 hp⟩

/-- C55 for logins: user names, hosts and processes. -/
theorem C55_logins (slug : Str → Str) (hs : KeepsPids slug) (logins : List Login)
    (hid : (logins.map (fun l => l.process.pid)).Nodup) (limit : Nat) (hlim : 6 ≤ limit) :
    ∃ t, build slug Login.key Login.ident limit 0 logins = some t ∧
      (∀ a ∈ logins, ∃ p, Leads t p a ∧ p.length ≤ 6 ∧ ∀ q, Leads t q a → q = p) ∧ ∀ p a, Leads t p a → a ∈ logins := by
  have hi : (logins.map Login.ident).Nodup := by
    rw [List.nodup_iff_pairwise_ne, List.pairwise_map] at *
    exact hid.imp (fun h e => h (ident_inj e))
  have hinj : ∀ a ∈ logins, ∀ b ∈ logins, Login.nameAt slug a 5 = Login.nameAt slug b 5 → a = b := by
    intro a ha b hb e
    simp only [Login.nameAt, Login.key, Proc.key, Option.getD_some, Proc.ident, finalKey_pid hs] at e
    exact eq_of_map_nodup (fun l : Login => l.process.pid) logins hid a ha b hb (ident_inj e)
  obtain ⟨t, ht, htw⟩ := build_spec slug Login.key Login.ident (Login.nameAt slug) 5 limit 0 logins (by omega) (by omega)
    (fun a _ l hl => by
      have : ∃ k, a.key l = some k := by
        match l, hl with
        | 0, _ => exact ⟨_, rfl⟩
        | 1, _ => exact ⟨_, rfl⟩
        | 2, _ => simp only [Login.key, Proc.key]; cases a.process.exe <;> cases a.process.cmdline <;> exact ⟨_, rfl⟩
        | 3, _ => simp only [Login.key, Proc.key]; cases a.process.exe <;> cases a.process.cmdline <;> exact ⟨_, rfl⟩
        | 4, _ => simp only [Login.key, Proc.key]; cases a.process.cmdline <;> exact ⟨_, rfl⟩
        | 5, _ => exact ⟨_, rfl⟩
        | n + 6, h => omega
      obtain ⟨k, hk⟩ := this
      exact ⟨k, hk, by simp [Login.nameAt, hk]⟩) hi hinj
  refine ⟨t, ht, ?_, fun p a h => ((htw a p).1 h).1⟩
  intro a ha
  obtain ⟨p, hp, hlen⟩ := shortest_exists (Login.nameAt slug) logins a 5 (fun b hb => hinj a ha b hb)
  exact ⟨p, (htw a p).2 ⟨ha, hp⟩, hlen, fun q hq =>
    shortest_unique (Login.nameAt slug) logins a q p ((htw a q).1 hq).2 hp⟩

example : ∃ t, build (fun s => s) Proc.key Proc.ident 4 0
      [⟨1, some c!"/bin/sh", some [c!"sh"]⟩, ⟨2, some c!"/usr/bin/sh", none⟩, ⟨3, none, none⟩, ⟨4, some c!"/bin/sh", some [c!"sh"]⟩] = some t ∧
    Leads t [c!"sh", c!"/usr/bin/sh"] ⟨2, some c!"/usr/bin/sh", none⟩ ∧
    Leads t [c!"sh", c!"/bin/sh", c!"sh", c!"pid_4"] ⟨4, some c!"/bin/sh", some [c!"sh"]⟩ ∧
    Leads t [c!"pid_3"] ⟨3, none, none⟩ :=
  ⟨_, rfl, ⟨_, rfl, rfl⟩, ⟨_, rfl, rfl⟩, ⟨_, rfl, rfl⟩⟩

example : ∃ t, build (fun s => s) Login.key Login.ident 6 0
      [⟨c!"al", c!"h", ⟨1, none, none⟩⟩, ⟨c!"al", c!"h", ⟨2, none, none⟩⟩, ⟨c!"bo", c!"h", ⟨3, none, none⟩⟩] = some t ∧
    Leads t [c!"bo"] ⟨c!"bo", c!"h", ⟨3, none, none⟩⟩ ∧
    Leads t [c!"al", c!"h", c!"pid_2"] ⟨c!"al", c!"h", ⟨2, none, none⟩⟩ :=
  ⟨_, rfl, ⟨_, rfl, rfl⟩, ⟨_, rfl, rfl⟩⟩

/-- Processes of other users, of which only the command line is known: their names are the words with spaces between them. -/
example : ∃ t, build (fun s => s) Proc.key Proc.ident 4 0
      [⟨1, none, some [c!"ssh", c!"-v", c!"host"]⟩, ⟨2, none, some [c!"ssh"]⟩, ⟨3, some c!"/bin/sh", some [c!"sh", c!"a"]⟩,
       ⟨4, some c!"/bin/sh", some [c!"sh", c!"b"]⟩] = some t ∧
    Leads t [c!"ssh -v host"] ⟨1, none, some [c!"ssh", c!"-v", c!"host"]⟩ ∧
    Leads t [c!"ssh"] ⟨2, none, some [c!"ssh"]⟩ ∧
    Leads t [c!"sh", c!"/bin/sh", c!"sh b"] ⟨4, some c!"/bin/sh", some [c!"sh", c!"b"]⟩ :=
  ⟨_, rfl, ⟨_, rfl, rfl⟩, ⟨_, rfl, rfl⟩, ⟨_, rfl, rfl⟩⟩

end Pieshell.Tree
