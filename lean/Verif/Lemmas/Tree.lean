import Verif.Spec.Tree
import Verif.Lemmas.Dict
namespace Pieshell.Tree
open Dict
variable {α : Type}

theorem set_new {κ β : Type} [DecidableEq κ] (d : Dict κ β) (k : κ) (v : β) (h : k ∉ d.keys) :
    d.set k v = d ++ [(k, v)] := by
  induction d with
  | nil => rfl
  | cons x d ih =>
    obtain ⟨k', v'⟩ := x
    simp only [keys, List.map_cons, List.mem_cons, not_or] at h
    simp [Dict.set, Ne.symm h.1, ih h.2]

variable (slug : Str → Str) (key : α → Nat → Option Str) (ident : α → Str) (name : α → Nat → Str)

/-- One dictionary of the loop: the items filed under `k`, in order. -/
def filed (level : Nat) (k : Str) (l : List α) : Dict Str α :=
  (l.filter (fun a => name a level = k)).map (fun a => (ident a, a))

theorem collect_append (level : Nat) (l r : List α) (procs : Dict Str (Dict Str α)) :
    collect slug key ident level (l ++ r) procs =
      (collect slug key ident level l procs).bind (collect slug key ident level r) := by
  induction l generalizing procs with
  | nil => rfl
  | cons a l ih =>
    simp only [List.cons_append, collect]
    cases key a level with
    | none => rfl
    | some k => exact ih _

theorem snoc_rec {β : Type} {P : List β → Prop} (h0 : P []) (h1 : ∀ l a, P l → P (l ++ [a])) (l : List β) : P l := by
  rw [← List.reverse_reverse l]
  induction l.reverse with
  | nil => exact h0
  | cons a l ih => rw [List.reverse_cons]; exact h1 _ _ ih

theorem collect_spec (level : Nat) (items : List α)
    (hk : ∀ a ∈ items, ∃ k, key a level = some k ∧ name a level = finalKey slug k)
    (hi : (items.map ident).Nodup) :
    ∃ procs, collect slug key ident level items [] = some procs ∧ procs.Uniq ∧
      ∀ k, procs.get? k = if filed ident name level k items = [] then none else some (filed ident name level k items) := by
  induction items using snoc_rec with
  | h0 => exact ⟨[], rfl, uniq_nil, fun k => by simp [filed, get?]⟩
  | h1 l a ih =>
    rw [List.map_append, List.nodup_append] at hi
    obtain ⟨procs, h1, h2, h3⟩ := ih (fun b hb => hk b (by simp [hb])) hi.1
    obtain ⟨k, hk1, hk2⟩ := hk a (by simp)
    rw [collect_append, h1]
    simp only [Option.bind_some, collect, hk1]
    refine ⟨_, rfl, uniq_set _ h2 _ _, fun k' => ?_⟩
    have happ : filed ident name level k' (l ++ [a]) =
        filed ident name level k' l ++ (if name a level = k' then [(ident a, a)] else []) := by
      by_cases e : name a level = k' <;> simp [filed, List.filter_append, e]
    rw [file, get?_set, happ]
    have hg : (procs.get? (finalKey slug k)).getD [] = filed ident name level (finalKey slug k) l := by
      rw [h3]; split
      · rename_i e; simp [e]
      · rfl
    split
    · rename_i e; subst e
      have hn : ident a ∉ (filed ident name level (finalKey slug k) l).keys := by
        intro hm
        simp only [keys, filed, List.map_map, List.mem_map, List.mem_filter, Function.comp] at hm
        obtain ⟨b, ⟨hb, -⟩, e⟩ := hm
        exact hi.2.2 (ident b) (List.mem_map.2 ⟨b, hb, rfl⟩) (ident a) (by simp) e
      rw [hg, set_new _ _ _ hn]
      simp [hk2]
    · rename_i e
      rw [h3, hk2]
      simp [e]

theorem mapM_spec {β γ : Type} (g : β → Option γ) (d : Dict Str β) (h : ∀ k v, (k, v) ∈ d → ∃ t, g v = some t) :
    ∃ ch : Dict Str γ, d.mapM (fun kv : Str × β => (g kv.2).map (fun t => (kv.1, t))) = some ch ∧
      ∀ k, ch.get? k = (d.get? k).bind g := by
  induction d with
  | nil => exact ⟨[], rfl, fun k => rfl⟩
  | cons x d ih =>
    obtain ⟨k, v⟩ := x
    obtain ⟨ch, h1, h2⟩ := ih (fun k v hm => h k v (List.mem_cons_of_mem _ hm))
    obtain ⟨t, ht⟩ := h k v (by simp)
    refine ⟨(k, t) :: ch, ?_, ?_⟩
    · rw [List.mapM_cons, h1]; simp [ht]
    · intro k'
      simp only [get?]
      split
      · simp [ht]
      · exact h2 k'

/-- What is made of the items filed under one key. -/
def sub (n level : Nat) (v : Dict Str α) : Option (Tree α) :=
  match v with
  | [(_, a)] => some (.leaf a)
  | v => build slug key ident n (level + 1) v.values

theorem build_succ (n level : Nat) (items : List α) :
    build slug key ident (n + 1) level items = match collect slug key ident level items [] with
      | none => none
      | some procs => (procs.mapM (fun kv : Str × Dict Str α =>
          (sub slug key ident n level kv.2).map (fun t => (kv.1, t)))).map Tree.group := by
  simp only [build]
  cases collect slug key ident level items [] with
  | none => rfl
  | some procs =>
    have e : (fun kv : Str × Dict Str α => match kv.2 with
        | [(_, child)] => some (kv.1, Tree.leaf child)
        | value => (build slug key ident n (level + 1) value.values).map (fun t => (kv.1, t))) =
      (fun kv : Str × Dict Str α => (sub slug key ident n level kv.2).map (fun t => (kv.1, t))) := by
      funext kv
      obtain ⟨k, v⟩ := kv
      match v with
      | [] => rfl
      | [(_, a)] => rfl
      | _ :: _ :: _ => rfl
    exact congrArg (fun f => (procs.mapM f).map Tree.group) e

theorem filed_values (level : Nat) (k : Str) (l : List α) :
    (filed ident name level k l).values = l.filter (fun a => name a level = k) := by
  simp [filed, values, Function.comp_def]

theorem length_filed (level : Nat) (k : Str) (l : List α) :
    (filed ident name level k l).length = (l.filter (fun a => name a level = k)).length := by simp [filed]

/-- The tree leads to each item by its shortest path only. -/
theorem build_spec (N : Nat) (n level : Nat) (items : List α) (hl : level ≤ N) (hn : N - level < n)
    (hk : ∀ a ∈ items, ∀ l ≤ N, ∃ k, key a l = some k ∧ name a l = finalKey slug k)
    (hi : (items.map ident).Nodup)
    (hN : ∀ a ∈ items, ∀ b ∈ items, name a N = name b N → a = b) :
    ∃ t, build slug key ident n level items = some t ∧
      ∀ a p, (∃ t', walk nothing t p = some t' ∧ t' = .leaf a) ↔ a ∈ items ∧ ShortestPath name level items a p := by
  induction n generalizing level items with
  | zero => omega
  | succ n ih =>
    obtain ⟨procs, h1, h2, h3⟩ := collect_spec slug key ident name level items (fun a ha => hk a ha level hl) hi
    -- the items of one group
    have hsub : ∀ k v, (k, v) ∈ procs → v = filed ident name level k items ∧ v ≠ [] := by
      intro k v hm
      have := get?_of_mem procs h2 hm
      rw [h3] at this
      split at this
      · cases this
      · rename_i hne
        simp only [Option.some.injEq] at this
        rw [← this]; exact ⟨rfl, hne⟩
    have hg : ∀ k v, (k, v) ∈ procs → ∃ t, sub slug key ident n level v = some t ∧
        ∀ a p, (∃ t', walk nothing t p = some t' ∧ t' = .leaf a) ↔ a ∈ items ∧ name a level = k ∧
          ShortestPath name level items a (k :: p) := by
      intro k v hm
      obtain ⟨rfl, hne⟩ := hsub k v hm
      have hmem : ∀ b, b ∈ items.filter (fun a => name a level = k) ↔ b ∈ items ∧ name b level = k := by simp
      match e : filed ident name level k items with
      | [] => exact absurd e hne
      | [(i, a)] =>
        refine ⟨.leaf a, rfl, ?_⟩
        have ev : items.filter (fun a => name a level = k) = [a] := by
          rw [← filed_values ident name level k items, e]; rfl
        rw [ev] at hmem
        intro b p
        constructor
        · rintro ⟨t', hw, rfl⟩
          cases p with
          | cons x p => simp [walk] at hw
          | nil =>
            simp only [walk, Option.some.injEq, Tree.leaf.injEq] at hw
            subst hw
            have ha := (hmem a).1 (by simp)
            refine ⟨ha.1, ha.2, 0, by simp [names, ha.2], ?_, by simp⟩
            intro b hb hp
            simp only [names, List.cons.injEq, and_true] at hp
            have := (hmem b).2 ⟨hb, hp⟩
            simpa using this
        · rintro ⟨hb, hbk, m, hp, hu, hs⟩
          have hba : b = a := by
            have := (hmem b).2 ⟨hb, hbk⟩; simpa using this
          subst hba
          cases m with
          | zero =>
            simp only [names, List.cons.injEq] at hp
            rw [hp.2]
            exact ⟨_, rfl, rfl⟩
          | succ m =>
            obtain ⟨c, hc, hca, hcn⟩ := hs 0 (by omega)
            simp only [names, List.cons.injEq, and_true] at hcn
            have := (hmem c).2 ⟨hc, by rw [hcn]; exact hbk⟩
            simp only [List.mem_singleton] at this
            exact absurd this hca
      | x :: y :: r =>
        have ev : items.filter (fun a => name a level = k) = values (x :: y :: r) := by
          rw [← filed_values ident name level k items, e]
        have hsb : sub slug key ident n level (x :: y :: r) =
            build slug key ident n (level + 1) (items.filter (fun a => name a level = k)) := by
          rw [ev]; rfl
        -- two different items in the group: not at the last level
        have hlt : level < N := by
          rcases Nat.lt_or_ge level N with h | h
          · exact h
          · have hNl : level = N := Nat.le_antisymm hl h
            subst hNl
            have hx : x.2 ∈ items.filter (fun a => name a level = k) := by rw [ev]; simp [values]
            have hy : y.2 ∈ items.filter (fun a => name a level = k) := by rw [ev]; simp [values]
            rw [hmem] at hx hy
            have exy := hN _ hx.1 _ hy.1 (hx.2.trans hy.2.symm)
            have hnd : (items.filter (fun a => name a level = k)).Nodup := by
              apply List.Pairwise.filter
              exact List.Pairwise.of_map (f := ident) (fun a b h e => h (by rw [e])) hi
            rw [ev] at hnd
            simp only [values, List.map_cons, List.nodup_cons, List.mem_cons, not_or] at hnd
            exact absurd exy hnd.1.1
        obtain ⟨t, ht, htw⟩ := ih (level + 1) (items.filter (fun a => name a level = k)) (by omega) (by omega)
          (fun a ha l hl' => hk a ((hmem a).1 ha).1 l hl')
          (hi.sublist (List.filter_sublist.map ident))
          (fun a ha b hb => hN a ((hmem a).1 ha).1 b ((hmem b).1 hb).1)
        rw [hsb]
        refine ⟨t, ht, fun a p => ?_⟩
        rw [htw a p, hmem]
        constructor
        · rintro ⟨⟨ha, hak⟩, m, rfl, hu, hs⟩
          refine ⟨ha, hak, m + 1, by simp [names, hak], ?_, ?_⟩
          · intro b hb hbn
            rw [names] at hbn
            simp only [List.cons.injEq] at hbn
            exact hu b ((hmem b).2 ⟨hb, hbn.1⟩) hbn.2
          · intro j hj
            cases j with
            | zero =>
              have hx : x.2 ∈ items.filter (fun a => name a level = k) := by rw [ev]; simp [values]
              have hy : y.2 ∈ items.filter (fun a => name a level = k) := by rw [ev]; simp [values]
              have hne' : x.2 ≠ y.2 := by
                have hnd : (items.filter (fun a => name a level = k)).Nodup := by
                  apply List.Pairwise.filter
                  exact List.Pairwise.of_map (f := ident) (fun a b h e => h (by rw [e])) hi
                rw [ev] at hnd
                simp only [values, List.map_cons, List.nodup_cons, List.mem_cons, not_or] at hnd
                exact hnd.1.1
              rw [hmem] at hx hy
              by_cases hxa : x.2 = a
              · exact ⟨y.2, hy.1, fun h => hne' (hxa.trans h.symm), by simp [names, hy.2, hak]⟩
              · exact ⟨x.2, hx.1, hxa, by simp [names, hx.2, hak]⟩
            | succ j =>
              obtain ⟨b, hb, hba, hbn⟩ := hs j (by omega)
              rw [hmem] at hb
              refine ⟨b, hb.1, hba, ?_⟩
              rw [show names name b level (j + 1 + 1) = name b level :: names name b (level + 1) (j + 1) from rfl,
                show names name a level (j + 1 + 1) = name a level :: names name a (level + 1) (j + 1) from rfl, hbn, hb.2, hak]
        · rintro ⟨ha, hak, m, hp, hu, hs⟩
          refine ⟨⟨ha, hak⟩, ?_⟩
          rw [names] at hp
          simp only [List.cons.injEq] at hp
          cases m with
          | zero =>
            -- one name does not suffice here
            exfalso
            have hx : x.2 ∈ items.filter (fun a => name a level = k) := by rw [ev]; simp [values]
            have hy : y.2 ∈ items.filter (fun a => name a level = k) := by rw [ev]; simp [values]
            have hnd : (items.filter (fun a => name a level = k)).Nodup := by
              apply List.Pairwise.filter
              exact List.Pairwise.of_map (f := ident) (fun a b h e => h (by rw [e])) hi
            rw [ev] at hnd
            simp only [values, List.map_cons, List.nodup_cons, List.mem_cons, not_or] at hnd
            rw [hmem] at hx hy
            have hp2 : p = [] := by simpa [names] using hp.2
            subst hp2
            have e1 := hu x.2 hx.1 (by simp [names, hx.2])
            have e2 := hu y.2 hy.1 (by simp [names, hy.2])
            exact hnd.1.1 (e1.trans e2.symm)
          | succ m =>
            refine ⟨m, hp.2, ?_, ?_⟩
            · intro b hb hbn
              rw [hmem] at hb
              exact hu b hb.1 (by rw [names, hbn, hb.2])
            · intro j hj
              obtain ⟨b, hb, hba, hbn⟩ := hs (j + 1) (by omega)
              rw [names] at hbn
              rw [names.eq_def name a level (j + 1 + 1)] at hbn
              simp only [List.cons.injEq] at hbn
              exact ⟨b, (hmem b).2 ⟨hb, hbn.1.trans hak⟩, hba, hbn.2⟩
    obtain ⟨ch, hc1, hc2⟩ := mapM_spec (sub slug key ident n level) procs
      (fun k v hm => (hg k v hm).imp (fun t ht => ht.1))
    refine ⟨.group ch, ?_, ?_⟩
    · rw [build_succ, h1]
      simp only
      rw [hc1]; rfl
    · intro a p
      cases p with
      | nil =>
        constructor
        · rintro ⟨t', hw, rfl⟩; simp [walk] at hw
        · rintro ⟨-, m, hp, -⟩; simp [names] at hp
      | cons k p =>
        simp only [walk, show nothing k = false from rfl, Bool.false_eq_true, if_false, hc2]
        cases e : procs.get? k with
        | none =>
          simp only [Option.bind_none]
          constructor
          · rintro ⟨t', hw, -⟩; cases hw
          · rintro ⟨ha, m, hp, -⟩
            rw [names] at hp
            simp only [List.cons.injEq] at hp
            rw [h3] at e
            split at e
            · rename_i h0
              have : a ∈ items.filter (fun a => name a level = k) := by simp [ha, hp.1]
              rw [← filed_values ident name level k items, h0] at this
              cases this
            · cases e
        | some v =>
          obtain ⟨t, ht, htw⟩ := hg k v (mem_of_get? procs e)
          simp only [Option.bind_some, ht]
          rw [htw a p]
          constructor
          · rintro ⟨ha, -, hs⟩; exact ⟨ha, hs⟩
          · rintro ⟨ha, hs⟩
            refine ⟨ha, ?_, hs⟩
            obtain ⟨m, hp, -⟩ := hs
            rw [names] at hp
            simp only [List.cons.injEq] at hp
            exact hp.1.symm

end Pieshell.Tree
