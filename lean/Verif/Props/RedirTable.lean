import Verif.Lemmas.MakePipes
import Verif.Model.RedirHeap
import Verif.Props.Redir
/-!
# C06, C08: redirection tables as maps; materialising pipes
-/
namespace Pieshell

/-! ## C06 -/

/-- **C06 (a).** A table built from redirections and tables maps each descriptor to the last redirection
given for it (removed if that one has source None). -/
theorem C06_last_redirection_wins (args : List RArg) (rs : Redirects) (h : Redirects.new args = .ok rs) (n : Nat) :
    Dict.get? rs n = afterAll (fun _ => none) (args.flatMap RArg.list) n := new_get? h n

/-- **C06 (b).** Registering one more redirection changes only that descriptor. -/
theorem C06_register (rs rs' : Redirects) (r : Redirect) (hb : rs.Built) (h : rs.register r = .ok rs') :
    Dict.get? rs' r.fd = (if r.source = .none then none else some r) ∧
    ∀ n, n ≠ r.fd → Dict.get? rs' n = Dict.get? rs n := by
  refine ⟨by rw [register_get? hb.wf h]; simp, fun n hn => ?_⟩
  rw [register_get? hb.wf h, if_neg (Ne.symm hn)]

/-- **C06 (c).** Construction fails exactly when some None source finds nothing to remove. -/
theorem C06_construction_fails_iff (args : List RArg) (e : Exn) :
    Redirects.new args = .error e ↔ e = .keyError ∧ ∃ l1 r l2, args.flatMap RArg.list = l1 ++ r :: l2 ∧
      r.source = .none ∧ afterAll (fun _ => none) l1 r.fd = none := by
  have := registerAll_error_iff (rs := []) (l := args.flatMap RArg.list) (e := e) wf_nil
  have hg : Dict.get? ([] : Redirects) = fun _ => none := rfl
  rw [hg] at this; exact this

/-- **C06 (d).** Merging two tables always succeeds; the second one has precedence. -/
theorem C06_merge (a b : Redirects) (ha : a.Built) (hb : b.Built) :
    ∃ c, a.merge b = .ok c ∧ c.Built ∧
      ∀ n, Dict.get? c n = match Dict.get? b n with | some r => some r | none => Dict.get? a n := by
  have hn : ∀ r ∈ Dict.values a ++ Dict.values b, r.source ≠ .none := by
    intro r hr
    rcases List.mem_append.1 hr with h | h
    · exact values_source_ne_none ha.wf h
    · exact values_source_ne_none hb.wf h
  obtain ⟨c, hc⟩ := registerAll_ok_of_no_none (rs := []) hn
  have hm : a.merge b = .ok c := by
    simpa [Redirects.merge, Redirects.new, RArg.list] using hc
  refine ⟨c, hm, .new hm, fun n => ?_⟩
  rw [registerAll_get? wf_nil hc n]
  have hlast : lastFor n (Dict.values a ++ Dict.values b) =
      match lastFor n (Dict.values b) with | some r => some r | none => lastFor n (Dict.values a) := by
    unfold lastFor
    rw [List.reverse_append, List.find?_append]
    cases List.find? (fun r => r.fd == n) (Dict.values b).reverse <;> rfl
  unfold afterAll
  rw [hlast, lastFor_values ha.wf, lastFor_values hb.wf]
  cases hgb : Dict.get? b n with
  | some r =>
    have := values_source_ne_none hb.wf (hb.wf.value_of_get? hgb).1
    simp [this]
  | none =>
    cases hga : Dict.get? a n with
    | some r =>
      have := values_source_ne_none ha.wf (ha.wf.value_of_get? hga).1
      simp [this]
    | none => simp [Dict.get?]

/-- **C06 (e).** Copying a table gives the same table, in the same order; borrowing marks every redirection
and changes nothing else. -/
theorem C06_copy_and_borrow (rs : Redirects) (hb : rs.Built) :
    Redirects.new [.table rs] = .ok rs ∧
    ∀ n, Dict.get? rs.borrow n = (Dict.get? rs n).map (fun r => { r with borrowed := true }) :=
  ⟨new_table hb.wf, fun n => borrow_get? rs n⟩

example : ∃ c, RedirEx.swap.merge RedirEx.mixed = .ok c ∧ Dict.get? c 0 = some (RedirEx.toPath 0 c!"in" 0) ∧
    Dict.get? c 7 = some (RedirEx.toFd 7 0 0) := by
  obtain ⟨c, h, -, h2⟩ := C06_merge _ _ RedirEx.swap_built RedirEx.mixed_built
  exact ⟨c, h, by rw [h2]; rfl, by rw [h2]; rfl⟩
example : Redirects.new [.one (RedirEx.toFd 1 2 65), .one { RedirEx.toFd 0 2 65 with source := .none }] = .error .keyError :=
  (C06_construction_fails_iff _ _).2 ⟨rfl, [RedirEx.toFd 1 2 65], _, [], rfl, rfl, rfl⟩
example : Redirects.new [.one (RedirEx.toFd 1 2 65), .one { RedirEx.toFd 1 2 65 with source := .none }] = .ok [] := rfl

/-! ### independence of copies (object level) -/

namespace RHeap

theorem view_get (h : RHeap) (t : RTable) (n : Nat) : Dict.get? (h.view t) n = (Dict.get? t n).map h.objs := by
  induction t with
  | nil => rfl
  | cons p t ih =>
    obtain ⟨a, b⟩ := p
    simp only [view, List.map_cons, Dict.get?] at ih ⊢
    split
    · rfl
    · exact ih

theorem view_congr (h h' : RHeap) (t : RTable) (hc : ∀ p ∈ t, h.objs p.2 = h'.objs p.2) : h.view t = h'.view t := by
  apply List.map_congr_left; intro p hp; rw [hc p hp]

theorem view_set (h : RHeap) (t : RTable) (k a : Nat) :
    h.view (Dict.set t k a) = Dict.set (h.view t) k (h.objs a) := by
  induction t with
  | nil => rfl
  | cons p t ih =>
    obtain ⟨c, d⟩ := p
    simp only [Dict.set, view, List.map_cons] at ih ⊢
    split
    · rfl
    · rw [List.map_cons, ih]

theorem view_erase (h : RHeap) (t : RTable) (k : Nat) : h.view (Dict.erase t k) = Dict.erase (h.view t) k := by
  induction t with
  | nil => rfl
  | cons p t ih =>
    obtain ⟨c, d⟩ := p
    simp only [Dict.erase, view, List.map_cons] at ih ⊢
    split
    · rfl
    · rw [List.map_cons, ih]

theorem view_register (h : RHeap) (t : RTable) (a : Nat) :
    (match h.register t a with | .ok t' => .ok (h.view t') | .error e => .error e) =
      (h.view t).register (h.objs a) := by
  unfold register Redirects.register
  cases (h.objs a).source <;> simp only [view_set]
  have : Dict.mem (h.view t) (h.objs a).fd = Dict.mem t (h.objs a).fd := by
    simp [Dict.mem, view_get]
  rw [this]
  split
  · rename_i h1; split at h1
    · cases h1; simp [view_erase, *]
    · cases h1
  · rename_i h1; split at h1
    · cases h1
    · cases h1; simp [*]

theorem register_mem {h : RHeap} {t t' : RTable} {a : Nat} (hr : h.register t a = .ok t') :
    ∀ p ∈ t', p ∈ t ∨ p.2 = a := by
  unfold register at hr
  intro p hp
  split at hr
  · split at hr
    · cases hr; exact .inl (Dict.mem_erase hp)
    · cases hr
  · cases hr
    rcases Dict.mem_set hp with h | h
    · exact .inr (by rw [h])
    · exact .inl h

theorem registerCopies_spec (l : List Nat) (h : RHeap) (t : RTable)
    (hl : ∀ a ∈ l, a < h.next) (ht : ∀ p ∈ t, p.2 < h.next) (lo : Nat) (hlo : lo ≤ h.next)
    (htlo : ∀ p ∈ t, lo ≤ p.2) :
    (∀ a, a < h.next → (h.registerCopies t l).2.objs a = h.objs a) ∧ h.next ≤ (h.registerCopies t l).2.next ∧
    (match (h.registerCopies t l).1 with
      | .ok t' => (h.view t).registerAll (l.map h.objs) = .ok ((h.registerCopies t l).2.view t') ∧
          (∀ p ∈ t', lo ≤ p.2)
      | .error e => (h.view t).registerAll (l.map h.objs) = .error e) := by
  induction l generalizing h t with
  | nil => exact ⟨fun _ _ => rfl, Nat.le_refl _, rfl, htlo⟩
  | cons a l ih =>
    simp only [registerCopies, alloc, List.map_cons, Redirects.registerAll]
    let h1 : RHeap := { objs := fun x => if x = h.next then h.objs a else h.objs x, next := h.next + 1 }
    have hobj : ∀ x, x < h.next → h1.objs x = h.objs x := by
      intro x hx; have : x ≠ h.next := by omega
      simp [h1, this]
    have hnew : h1.objs h.next = h.objs a := by simp [h1]
    have hview : h1.view t = h.view t := view_congr _ _ _ (fun p hp => hobj _ (ht p hp))
    have hreg := view_register h1 t h.next
    rw [hview, hnew] at hreg
    show _ ∧ _ ∧ _
    cases hr : h1.register t h.next with
    | error e =>
      rw [hr] at hreg
      simp only [h1] at hr
      simp only [hr, ← hreg]
      exact ⟨fun x hx => hobj x hx, by simp, trivial⟩
    | ok t1 =>
      rw [hr] at hreg
      have hr' := hr
      simp only [h1] at hr'
      simp only [hr', ← hreg]
      have hmem := register_mem hr
      obtain ⟨i1, i2, i3⟩ := ih h1 t1
        (fun b hb => by have := hl b (by simp [hb]); simp only [h1]; omega)
        (fun p hp => by
          rcases hmem p hp with h | h
          · have := ht p h; simp only [h1]; omega
          · rw [h]; simp [h1])
        (by simp only [h1]; omega)
        (fun p hp => by
          rcases hmem p hp with h | h
          · exact htlo p h
          · rw [h]; exact hlo)
      have hmap : l.map h1.objs = l.map h.objs :=
        List.map_congr_left (fun b hb => hobj b (hl b (by simp [hb])))
      rw [hmap] at i3
      refine ⟨fun x hx => ?_, ?_, i3⟩
      · rw [i1 x (by simp only [h1]; omega), hobj x hx]
      · simp only [h1] at i2; omega

theorem borrow_objs (l : List Nat) (h : RHeap) (a : Nat) :
    (l.foldl borrowObj h).objs a = if a ∈ l then (h.objs a).borrow else h.objs a := by
  induction l generalizing h with
  | nil => simp
  | cons b l ih =>
    rw [List.foldl_cons, ih]
    by_cases hab : a = b
    · subst hab; by_cases hm : a ∈ l <;> simp [hm, borrowObj, Redirect.borrow]
    · by_cases hm : a ∈ l <;> simp [hm, hab, borrowObj]

end RHeap

/-- **C06 (f), object level.** Building a table from existing tables and redirections (as the constructor and
`merge` do), and then marking it borrowed, leaves every existing table as it was; the new table is what the
value-level constructor says, with every redirection marked borrowed. -/
theorem C06_copies_are_independent (h : RHeap) (args : List (RTable ⊕ Nat)) (t' : RTable)
    (halloc : ∀ a ∈ args, match a with | .inl t => ∀ p ∈ t, p.2 < h.next | .inr a => a < h.next)
    (hok : (h.new args).1 = .ok t') :
    (∀ t : RTable, (∀ p ∈ t, p.2 < h.next) → ((h.new args).2.borrow t').view t = h.view t) ∧
    Redirects.new (args.map (fun a => match a with | .inl t => .table (h.view t) | .inr a => .one (h.objs a)))
      = .ok ((h.new args).2.view t') ∧
    ((h.new args).2.borrow t').view t' = ((h.new args).2.view t').borrow := by
  let l := args.flatMap (fun a => match a with | .inl t => Dict.values t | .inr a => [a])
  have hl : ∀ a ∈ l, a < h.next := by
    intro a ha
    obtain ⟨x, hx, hax⟩ := List.mem_flatMap.1 ha
    have := halloc x hx
    cases x with
    | inl t =>
      simp only at hax this
      obtain ⟨p, hp, rfl⟩ := List.mem_map.1 hax
      exact this p hp
    | inr b => simp at hax; rw [hax]; exact this
  obtain ⟨h1, -, h3⟩ := RHeap.registerCopies_spec l h [] hl (by simp) h.next (Nat.le_refl _) (by simp)
  have hnew : h.new args = h.registerCopies [] l := rfl
  rw [← hnew] at h1 h3
  rw [hok] at h3
  refine ⟨?_, ?_, ?_⟩
  · intro t ht
    apply RHeap.view_congr
    intro p hp
    unfold RHeap.borrow
    rw [RHeap.borrow_objs, if_neg, h1 _ (ht p hp)]
    intro hm
    obtain ⟨q, hq, he⟩ := List.mem_map.1 hm
    have := h3.2 q hq
    have := ht p hp
    omega
  · have hmap : (args.map (fun a => match a with | .inl t => RArg.table (h.view t) | .inr a => .one (h.objs a))).flatMap RArg.list
        = l.map h.objs := by
      simp only [l]
      clear hok halloc hl h1 h3 hnew l
      induction args with
      | nil => rfl
      | cons x args ih =>
        simp only [List.map_cons, List.flatMap_cons, List.map_append, ih]
        congr 1
        cases x with
        | inl t => simp [RArg.list, RHeap.view, Dict.values]
        | inr b => rfl
    simp only [Redirects.new, hmap]
    exact h3.1
  · unfold RHeap.borrow RHeap.view Redirects.borrow
    rw [List.map_map]
    apply List.map_congr_left
    intro p hp
    simp only [Function.comp, Prod.mk.injEq, true_and]
    have hm : p.2 ∈ Dict.values t' := List.mem_map.2 ⟨p, hp, rfl⟩
    rw [RHeap.borrow_objs, if_pos hm]

/-- A heap with two redirections in one table; copying it and borrowing the copy leaves it unborrowed. -/
example : ∃ (h : RHeap) (t t' : RTable), (h.new [.inl t]).1 = .ok t' ∧ (h.view t) ≠ [] ∧
    ((h.new [.inl t]).2.borrow t').view t = h.view t ∧ ((h.new [.inl t]).2.borrow t').view t' ≠ h.view t := by
  let h : RHeap := { objs := fun a => { RedirEx.toFd a 5 65 with borrowed := false }, next := 3 }
  refine ⟨h, [(1, 1), (2, 2)], [(1, 3), (2, 4)], by rfl, by decide, ?_, by decide⟩
  exact (C06_copies_are_independent h [.inl [(1, 1), (2, 2)]] [(1, 3), (2, 4)] (by
    intro a ha; simp at ha; subst ha; intro p hp; simp at hp; rcases hp with rfl | rfl <;> decide) rfl).1 _
    (by intro p hp; simp at hp; rcases hp with rfl | rfl <;> decide)

/-! ## C08 -/

/-- **C08.** Materialising a table: if every TMP/STRING redirection is for writing, it succeeds and turns
each redirection into its materialised form (see `Materialises`), keeping descriptors and their order, and
leaves everything that was open as it was. -/
theorem C08_make_pipes (rs : Redirects) (w : World) (hbuilt : rs.Built) (hb : w.fds.Bounded)
    (hok : ∀ n r, Dict.get? rs n = some r → r.source = .TMP ∨ r.source = .STRING → Writing r.flag) :
    ∃ rs' w', rs.makePipes w = (.ok rs', w') ∧ Dict.keys rs' = Dict.keys rs ∧
      (∀ n r, Dict.get? rs n = some r → ∃ r', Dict.get? rs' n = some r' ∧ Materialises w w' r r') ∧
      (∀ n e, w.fds.get n = some e → w'.fds.get n = some e) := by
  have hwf := hbuilt.wf
  obtain ⟨l', w', h1, h2, h3, h4, -⟩ := makePipes_spec hwf w hb
    (fun r hr h => hok r.fd r (hwf.get?_of_value hr) h)
  have hwf' : Redirects.WF (l'.map (fun r => (r.fd, r))) := makePipes_wf (w := w) (rs := rs) (by rw [h1])
  refine ⟨_, w', h1, by simpa [Dict.keys, Function.comp_def] using h4, ?_, h2.keep⟩
  intro n r hr
  obtain ⟨hv, hn⟩ := hwf.value_of_get? hr
  have : ∀ {l l' : List Redirect}, Pointwise (Materialises w w') l l' → ∀ r ∈ l, ∃ r' ∈ l', Materialises w w' r r' := by
    intro l l' h
    induction h with
    | nil => intro r hr; simp at hr
    | cons h _ ih =>
      intro r hr
      rcases List.mem_cons.1 hr with hr | hr
      · subst hr; exact ⟨_, by simp, h⟩
      · obtain ⟨r', h1, h2⟩ := ih r hr; exact ⟨r', by simp [h1], h2⟩
  obtain ⟨r', hr', hm⟩ := this h3 r hv
  refine ⟨r', ?_, hm⟩
  have := hwf'.get?_of_value (r := r') (by simpa [Dict.values, Function.comp_def] using hr')
  rw [hm.fd_eq, hn] at this; exact this

/-- **C08, refusal.** A TMP or STRING redirection that is not for writing is refused. -/
theorem C08_tmp_for_reading_refused (rs : Redirects) (w : World) (n : Nat) (r : Redirect) (hbuilt : rs.Built)
    (hr : Dict.get? rs n = some r) (hs : r.source = .TMP ∨ r.source = .STRING) (hw : ¬ Writing r.flag) :
    ∃ e, (rs.makePipes w).1 = .error e := by
  obtain ⟨e, w', he⟩ := makePipesList_error (Dict.values rs) w ⟨r, (hbuilt.wf.value_of_get? hr).1, hs, hw⟩
  exact ⟨e, by simp [Redirects.makePipes, he]⟩

example : ∃ rs' w', Redirects.makePipes [(1, { RedirEx.toFd 1 0 65 with source := .PIPE }),
      (2, { RedirEx.toFd 2 0 65 with source := .STRING }), (0, RedirEx.toFd 0 0 0)] ⟨RedirEx.tbl, 3, 4, []⟩ = (.ok rs', w') ∧
    Dict.get? rs' 0 = some (RedirEx.toFd 0 0 0) := by
  obtain ⟨rs', w', h, -, h2, -⟩ := C08_make_pipes [(1, { RedirEx.toFd 1 0 65 with source := .PIPE }),
      (2, { RedirEx.toFd 2 0 65 with source := .STRING }), (0, RedirEx.toFd 0 0 0)] ⟨RedirEx.tbl, 3, 4, []⟩
    (.new (args := [.one { RedirEx.toFd 1 0 65 with source := .PIPE }, .one { RedirEx.toFd 2 0 65 with source := .STRING },
      .one (RedirEx.toFd 0 0 0)]) rfl) (FdTable.bounded_ofList _)
    (by
      intro n r h h'
      have := RedirEx.get?_cases h
      simp at this
      rcases this with ⟨rfl, rfl⟩ | ⟨rfl, rfl⟩ | ⟨rfl, rfl⟩
      · decide
      · decide
      · rcases h' with h' | h' <;> cases h')
  obtain ⟨r', h3, h4⟩ := h2 0 _ rfl
  exact ⟨rs', w', h, by rw [h3]; exact congrArg some h4⟩
example : ∃ e, (Redirects.makePipes [(0, { RedirEx.toFd 0 0 0 with source := .TMP })] ⟨RedirEx.tbl, 3, 4, []⟩).1 = .error e :=
  C08_tmp_for_reading_refused _ _ 0 _ (.new (args := [.one { RedirEx.toFd 0 0 0 with source := .TMP }]) rfl) rfl (.inl rfl) (by decide)

end Pieshell
