import Verif.Lemmas.Path
/-! # File systems for examples: a tree from a list of its entries -/
namespace Pieshell.Path

/-- the components of a path -/
def compsOf (p : Str) : List Str := (splitSlash p).filter (fun w => w ≠ [])

/-- the tree with the given entries (`true`: a directory) below the root -/
def Tree.ofList (l : List (List Str × Bool)) : Tree where
  «exists» cs := decide (cs = []) || l.any (fun e => decide (e.1 = cs))
  isDir cs := decide (cs = []) || l.contains (cs, true)

/-- the same as answers of the operating system -/
def Fs.ofList (l : List (List Str × Bool)) : Fs where
  listdir p := l.filterMap (fun e => if e.1.dropLast = compsOf p then some (e.1.getLastD [], e.2) else none)
  lexists p := (Tree.ofList l).exists (compsOf p)
  isdir p := (Tree.ofList l).isDir (compsOf p)

/-- entries that make a tree -/
structure GoodEntries (l : List (List Str × Bool)) : Prop where
  normal : ∀ e ∈ l, e.1 ≠ [] ∧ ∀ c ∈ e.1, Normal c
  parent : ∀ e ∈ l, e.1.dropLast = [] ∨ (e.1.dropLast, true) ∈ l
  keys : (l.map Prod.fst).Nodup

theorem compsOf_pathOf {k : Nat} (hk : k = 1 ∨ k = 2) {cs : List Str} (h : ∀ c ∈ cs, Normal c) : compsOf (pathOf k cs) = cs := by
  unfold compsOf
  rw [splitSlash_pathOf hk]
  have e : List.filter (fun w => decide (w ≠ [])) (List.replicate k ([] : Str)) = [] := by
    rcases hk with rfl | rfl <;> rfl
  rw [List.filter_append, e, List.nil_append]
  cases cs with
  | nil => rfl
  | cons c cs =>
    rw [splitSlash_joinSlash (by simp) (fun c hc => (h c hc).1.2)]
    exact List.filter_eq_self.2 (fun c hc => by simpa using (h c hc).1.1)

theorem unique_entry {l : List (List Str × Bool)} (h : (l.map Prod.fst).Nodup) {cs : List Str} {a b : Bool} (ha : (cs, a) ∈ l) (hb : (cs, b) ∈ l) : a = b := by
  induction l with
  | nil => simp at ha
  | cons e l ih =>
    rw [List.map_cons, List.nodup_cons] at h
    rcases List.mem_cons.1 ha with rfl | ha'
    · rcases List.mem_cons.1 hb with e | hb
      · cases e; rfl
      · exact absurd (List.mem_map.2 ⟨_, hb, rfl⟩) h.1
    · rcases List.mem_cons.1 hb with rfl | hb
      · exact absurd (List.mem_map.2 ⟨(cs, a), ha', rfl⟩ : cs ∈ l.map Prod.fst) h.1
      · exact ih h.2 ha' hb

theorem ofList_agrees {l : List (List Str × Bool)} (h : GoodEntries l) : Agrees (Fs.ofList l) (Tree.ofList l) := by
  refine ⟨?_, ?_, ?_, ?_⟩
  · intro k cs n d hk hcs
    have hmem : (n, d) ∈ (Fs.ofList l).listdir (pathOf k cs) ↔ (cs ++ [n], d) ∈ l := by
      simp only [Fs.ofList, compsOf_pathOf hk hcs, List.mem_filterMap]
      constructor
      · rintro ⟨⟨ds, b⟩, h1, h2⟩
        split at h2
        · rename_i h3
          simp only [Option.some.injEq, Prod.mk.injEq] at h2
          obtain ⟨rfl, rfl⟩ := h2
          have hne := (h.normal _ h1).1
          have : cs ++ [ds.getLastD []] = ds := by
            rw [← h3, List.getLastD_eq_getLast?, List.getLast?_eq_some_getLast hne]
            exact List.dropLast_concat_getLast hne
          rw [this]
          exact h1
        · cases h2
      · intro h1
        exact ⟨_, h1, by simp [List.getLastD_eq_getLast?]⟩
    rw [hmem]
    simp only [Tree.ofList]
    have hne : cs ++ [n] ≠ [] := by simp
    constructor
    · intro h1
      refine ⟨(h.normal _ h1).2 n (by simp), ?_, ?_⟩
      · simp only [hne, decide_false, Bool.false_or, List.any_eq_true]
        exact ⟨_, h1, by simp⟩
      · simp only [hne, decide_false, Bool.false_or]
        cases d with
        | true => exact (List.contains_iff_mem.2 h1).symm
        | false =>
          cases hc : l.contains (cs ++ [n], true) with
          | false => rfl
          | true => exact unique_entry h.keys h1 (List.contains_iff_mem.1 hc)
    · rintro ⟨_, h1, h2⟩
      simp only [hne, decide_false, Bool.false_or] at h1 h2
      obtain ⟨⟨ds, b⟩, h3, h4⟩ := List.any_eq_true.1 h1
      have h4 : ds = cs ++ [n] := by simpa using h4
      subst h4
      cases b with
      | true =>
        rw [List.contains_iff_mem.2 h3] at h2
        rw [h2]; exact h3
      | false =>
        cases d with
        | false => exact h3
        | true => exact absurd (unique_entry h.keys h3 (List.contains_iff_mem.1 h2.symm)) (by decide)
  · intro k cs hk hcs
    simp only [Fs.ofList, compsOf_pathOf hk hcs]
  · refine ⟨rfl, ?_⟩
    intro k hk
    simp only [Fs.ofList, compsOf_pathOf hk (cs := []) (by simp)]
    rfl
  · intro cs n h1
    have hne : cs ++ [n] ≠ [] := by simp
    simp only [Tree.ofList, hne, decide_false, Bool.false_or] at h1
    obtain ⟨⟨ds, b⟩, h3, h4⟩ := List.any_eq_true.1 h1
    have h4 : ds = cs ++ [n] := by simpa using h4
    subst h4
    have hp := h.parent _ h3
    simp only [List.dropLast_concat] at hp
    simp only [Tree.ofList, Bool.or_eq_true, decide_eq_true_eq, List.any_eq_true, List.contains_iff_mem]
    rcases hp with rfl | hp
    · exact ⟨.inl rfl, .inl rfl⟩
    · exact ⟨.inr ⟨_, hp, rfl⟩, .inr hp⟩

theorem ofList_nodup {l : List (List Str × Bool)} (h : GoodEntries l) (p : Str) : (((Fs.ofList l).listdir p).map Prod.fst).Nodup := by
  obtain ⟨h1, h2, h3⟩ := h
  clear h2
  simp only [Fs.ofList]
  induction l with
  | nil => simp
  | cons e l ih =>
    rw [List.map_cons, List.nodup_cons] at h3
    have ih := ih (fun e he => h1 e (by simp [he])) h3.2
    rw [List.filterMap_cons]
    split
    · exact ih
    · rename_i x hx
      split at hx
      · rename_i hd
        cases hx
        rw [List.map_cons, List.nodup_cons]
        refine ⟨?_, ih⟩
        rw [List.mem_map]
        rintro ⟨⟨n, d⟩, hm, e1⟩
        rw [List.mem_filterMap] at hm
        obtain ⟨f, hf, h5⟩ := hm
        split at h5
        · rename_i hd'
          cases h5
          have n1 := (h1 e (by simp)).1
          have n2 := (h1 f (by simp [hf])).1
          simp only [List.getLastD_eq_getLast?, List.getLast?_eq_some_getLast n1, List.getLast?_eq_some_getLast n2] at e1
          have : f.1 = e.1 := by
            rw [← List.dropLast_concat_getLast n1, ← List.dropLast_concat_getLast n2, hd, hd']
            simp at e1
            rw [e1]
          exact h3.1 (List.mem_map.2 ⟨f, hf, this⟩)
        · cases h5
      · cases hx

end Pieshell.Path
