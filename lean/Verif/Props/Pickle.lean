import Verif.Spec.Pickle
import Verif.Lemmas.Dict
/-!
# Sending pipelines with `remote` (C87)
-/
namespace Pieshell.Pickle

theorem hidden_iff (a : Str) : hidden a = true ↔ (c!"__" <+: a ∨ a = c!"_running_process" ∨ a = c!"_running_processes") := by
  have h1 : (a.take 2 == c!"__") = true ↔ c!"__" <+: a := by
    rw [List.prefix_iff_eq_take]
    simp only [beq_iff_eq]
    exact eq_comm
  simp only [hidden, Bool.or_eq_true, h1, beq_iff_eq, or_assoc]

theorem get?_filter (d : Dict Str Ref) (f : Str → Bool) (a : Str) : Dict.get? (d.filter fun p => f p.1) a = if f a then Dict.get? d a else none := by
  induction d with
  | nil => simp [Dict.get?]
  | cons p d ih =>
    obtain ⟨k, v⟩ := p
    by_cases hk : f k
    · simp only [List.filter_cons, hk, ↓reduceIte, Dict.get?]
      by_cases hka : k = a
      · subst hka; simp [hk]
      · simp only [hka, ↓reduceIte]; exact ih
    · simp only [List.filter_cons, hk, Bool.false_eq_true, ↓reduceIte, Dict.get?]
      rw [ih]
      by_cases hka : k = a
      · subst hka; simp [hk]
      · simp [hka]

theorem getstate_keys (h : Heap) : ∀ (d d' : Dict Str Ref), getstate h d = .ok d' → Dict.keys d' = Dict.keys d := by
  intro d
  induction d with
  | nil => intro d' hd; cases hd; rfl
  | cons p d ih =>
    obtain ⟨k, v⟩ := p
    intro d' hd
    simp only [getstate] at hd
    split at hd
    · cases hd
    · split at hd
      · cases hd
      · next h2 => cases hd; simp only [Dict.keys, List.map_cons, List.cons.injEq, true_and]; exact ih _ h2

theorem getstate_get? (h : Heap) (a : Str) : ∀ (d d' : Dict Str Ref), getstate h d = .ok d' →
    (Dict.get? d a = none ∧ Dict.get? d' a = none) ∨ ∃ v v', Dict.get? d a = some v ∧ mangle h a v = .ok v' ∧ Dict.get? d' a = some v' := by
  intro d
  induction d with
  | nil => intro d' hd; cases hd; exact .inl ⟨rfl, rfl⟩
  | cons p d ih =>
    obtain ⟨k, v⟩ := p
    intro d' hd
    simp only [getstate] at hd
    split at hd
    · cases hd
    · next h1 =>
      split at hd
      · cases hd
      · next h2 =>
        cases hd
        by_cases hka : k = a
        · subst hka; exact .inr ⟨v, _, by simp [Dict.get?], h1, by simp [Dict.get?]⟩
        · simp only [Dict.get?, hka, ↓reduceIte]; exact ih _ h2

/-- `getstate` fails only at the last pipeline -/
theorem getstate_error (h : Heap) (e : Exn) : ∀ (d : Dict Str Ref), Dict.Uniq d → getstate h d = .error e →
    ∃ v, Dict.get? d c!"last_pipeline" = some v ∧ pipelineOf h v = .error e := by
  intro d
  induction d with
  | nil => intro _ hd; cases hd
  | cons p d ih =>
    obtain ⟨k, v⟩ := p
    intro hu hd
    simp only [getstate] at hd
    split at hd
    · next h1 =>
      cases hd
      simp only [mangle] at h1
      split at h1
      · cases h1
      · split at h1
        · next hk => subst hk; exact ⟨v, by simp [Dict.get?], h1⟩
        · cases h1
    · split at hd
      · next h2 =>
        cases hd
        simp only [Dict.Uniq, Dict.keys, List.map_cons, List.nodup_cons] at hu
        obtain ⟨v', h3, h4⟩ := ih hu.2 h2
        refine ⟨v', ?_, h4⟩
        have hne : k ≠ c!"last_pipeline" := by
          rintro rfl
          exact hu.1 ((Dict.mem_keys_iff d _).2 ⟨v', h3⟩)
        simp only [Dict.get?, hne, ↓reduceIte]; exact h3
      · cases hd

theorem pipelineOf_eq (h : Heap) (v r : Ref) : pipelineOf h v = .ok r ↔ (match v with
    | .obj j => (h[j]?).bind fun job => job.attrs.get? c!"pipeline"
    | .imm _ => none) = some r := by
  cases v with
  | imm s => simp [pipelineOf]
  | obj j =>
    simp only [pipelineOf]
    cases hg : (h[j]?).bind fun job => job.attrs.get? c!"pipeline" with
    | none => simp
    | some x => simp

theorem state_uniq {h : Heap} (hu : Uniq h) {b : Bool} {o : Obj} (ho : o ∈ h) {st : Dict Str Ref} (hs : state b h o = .ok st) : Dict.Uniq st := by
  unfold state at hs
  split at hs
  · unfold reduce at hs
    split at hs
    · cases hs
    · cases hs
      exact (hu o ho).sublist (List.filter_sublist.map _)
  · unfold Dict.Uniq; rw [getstate_keys h _ _ hs]; exact hu o ho
  · cases hs; exact hu o ho
  · cases hs; simp [Dict.Uniq, Dict.keys]
  · cases hs

/-- what is written is what should be sent -/
theorem state_get? {h : Heap} {b : Bool} {m : Nat} {o : Obj} (ho : h[m]? = some o) {st : Dict Str Ref} (hs : state b h o = .ok st) (a : Str) :
    Dict.get? st a = sent h m a := by
  unfold state at hs
  simp only [sent, ho]
  cases hk : o.kind with
  | pipeline c =>
    simp only [hk, reduce] at hs ⊢
    split at hs
    · cases hs
    · cases hs
      rw [get?_filter o.attrs (fun k => !hidden k)]
      by_cases hh : hidden a = true
      · rw [if_pos ((hidden_iff a).1 hh)]; simp [hh]
      · rw [if_neg (fun hc => hh ((hidden_iff a).2 hc))]
        have : hidden a = false := by simpa using hh
        simp [this]
  | env =>
    simp only [hk] at hs ⊢
    rcases getstate_get? h a _ _ hs with ⟨h1, h2⟩ | ⟨v, v', h1, h2, h3⟩
    · rw [h1, h2]
    · simp only [h1, h3]
      unfold mangle at h2
      split at h2
      · next e => cases h2; simp [e]
      · next e =>
        rw [if_neg e]
        split at h2
        · next e2 => rw [if_pos e2]; exact ((pipelineOf_eq h v v').1 h2).symm
        · next e2 => cases h2; rw [if_neg e2]
  | plain c => simp only [hk] at hs ⊢; cases hs; rfl
  | «global» c => simp only [hk] at hs ⊢; cases hs; rfl
  | refused => simp only [hk] at hs; cases hs

/-- whether an object can be written -/
theorem state_ok_iff {h : Heap} (hu : Uniq h) {m : Nat} {o : Obj} (ho : h[m]? = some o) :
    (∃ st, state false h o = .ok st) ↔
      o.kind ≠ .refused ∧ (o.kind = .env → ∀ v, o.attrs.get? c!"last_pipeline" = some v → sent h m c!"last_pipeline" ≠ none) := by
  constructor
  · rintro ⟨st, hs⟩
    refine ⟨fun hk => by simp [state, hk] at hs, fun hk v hv => ?_⟩
    rw [← state_get? ho hs]
    simp only [state, hk] at hs
    rcases getstate_get? h c!"last_pipeline" _ _ hs with ⟨h1, -⟩ | ⟨v, v', -, -, h3⟩
    · rw [h1] at hv; cases hv
    · rw [h3]; simp
  · rintro ⟨h1, h2⟩
    cases hk : o.kind with
    | refused => exact absurd hk h1
    | pipeline c => exact ⟨_, by simp only [state, hk, reduce]; rfl⟩
    | plain c => exact ⟨_, by simp only [state, hk]; rfl⟩
    | «global» c => exact ⟨_, by simp only [state, hk]; rfl⟩
    | env =>
      simp only [state, hk]
      cases hg : getstate h o.attrs with
      | ok st => exact ⟨st, rfl⟩
      | error e =>
        obtain ⟨v, h3, h4⟩ := getstate_error h e o.attrs (hu o (List.mem_of_getElem? ho)) hg
        have h5 := h2 hk v h3
        simp only [sent, ho, hk, h3] at h5
        rw [if_neg (by decide), if_pos trivial] at h5
        obtain ⟨r, hr⟩ := Option.ne_none_iff_exists'.1 h5
        rw [(pipelineOf_eq h v r).2 hr] at h4; cases h4

theorem sent_closed {h : Heap} (hc : Closed h) {n k : Nat} {a : Str} (hs : sent h n a = some (.obj k)) : k < h.length := by
  unfold sent at hs
  split at hs
  · cases hs
  · next o ho =>
    split at hs
    · split at hs
      · cases hs
      · exact hc n o ho a k (Dict.mem_of_get? _ hs)
    · split at hs
      · cases hs
      · next v hv =>
        split at hs
        · cases hs
        · split at hs
          · split at hs
            · next j =>
              cases hj : h[j]? with
              | none => simp [hj] at hs
              | some job => simp only [hj, Option.bind_some] at hs; exact hc j job hj _ k (Dict.mem_of_get? _ hs)
            · cases hs
          · cases hs; exact hc n o ho a k (Dict.mem_of_get? _ hv)
    · exact hc n o ho a k (Dict.mem_of_get? _ hs)
    · cases hs
    · cases hs

theorem follow_append (get : Nat → Str → Option Ref) (a : Str) (m : Nat) : ∀ (p : List Str) (r : Ref), follow get r p = some (.obj m) → follow get r (p ++ [a]) = get m a := by
  intro p
  induction p with
  | nil =>
    intro r hr
    simp only [follow, Option.some.injEq] at hr
    subst hr
    simp only [List.nil_append, follow]
    split
    · next h => rw [h]
    · next h => rw [h]
  | cons b p ih =>
    intro r hr
    cases r with
    | imm s => simp [follow] at hr
    | obj n =>
      simp only [follow] at hr
      simp only [List.cons_append, follow]
      split at hr
      · exact ih _ hr
      · cases hr

theorem mem_refs {d : Dict Str Ref} {k : Nat} : k ∈ refs d ↔ ∃ a, (a, Ref.obj k) ∈ d := by
  unfold refs
  rw [List.mem_filterMap]
  constructor
  · rintro ⟨⟨a, r⟩, h1, h2⟩
    cases r with
    | imm s => simp at h2
    | obj n => simp at h2; subst h2; exact ⟨a, h1⟩
  · rintro ⟨a, h⟩; exact ⟨_, h, rfl⟩

/-- what has been written up to now -/
structure Inv (b : Bool) (h : Heap) (n : Nat) (left todo : List Nat) (acc : List (Nat × Obj)) : Prop where
  leftIff : ∀ m, m ∈ left ↔ m < h.length ∧ m ∉ acc.map Prod.fst
  nodupLeft : left.Nodup
  nodup : (acc.map Prod.fst).Nodup
  recs : ∀ m r, (m, r) ∈ acc → ∃ o, h[m]? = some o ∧ state b h o = .ok r.attrs ∧ r.kind = o.kind
  closed : ∀ m r, (m, r) ∈ acc → ∀ k ∈ refs r.attrs, k ∈ acc.map Prod.fst ∨ k ∈ todo
  small : ∀ k ∈ todo, k < h.length
  reachT : ∀ k ∈ todo, Reached h n k
  reachA : ∀ k ∈ acc.map Prod.fst, Reached h n k

theorem collect_spec {b : Bool} {h : Heap} (hc : Closed h) (hu : Uniq h) {n : Nat} (left todo : List Nat) (acc : List (Nat × Obj)) :
    Inv b h n left todo acc →
    (∃ l left', collect b h left todo acc = .ok l ∧ acc <+: l ∧ Inv b h n left' [] l) ∨
    ∃ m o e, Reached h n m ∧ h[m]? = some o ∧ state b h o = .error e ∧ collect b h left todo acc = .error e := by
  induction left, todo, acc using collect.induct (py311 := b) (h := h) with
  | case1 left acc => intro hi; exact .inl ⟨acc, left, by rw [collect], List.prefix_refl _, hi⟩
  | case2 left acc n' todo hn ho =>
    intro hi
    have := ((hi.leftIff n').1 hn).1
    simp at ho; omega
  | case3 left acc n' todo hn o ho e hs =>
    intro hi
    exact .inr ⟨n', o, e, hi.reachT n' (by simp), ho, hs, by rw [collect]; simp [hn, ho, hs]⟩
  | case4 left acc n' todo hn o ho st hs ih =>
    intro hi
    have hst := state_uniq hu (List.mem_of_getElem? ho) hs
    have hsent : ∀ k ∈ refs st, ∃ a, sent h n' a = some (.obj k) := by
      intro k hk
      obtain ⟨a, ha⟩ := mem_refs.1 hk
      exact ⟨a, by rw [← state_get? ho hs]; exact Dict.get?_of_mem st hst ha⟩
    have hr : ∀ k ∈ refs st, Reached h n k := by
      intro k hk
      obtain ⟨a, ha⟩ := hsent k hk
      obtain ⟨p, hp⟩ := hi.reachT n' (by simp)
      exact ⟨p ++ [a], by rw [follow_append _ _ _ _ _ hp]; exact ha⟩
    have hl := (hi.leftIff n').1 hn
    have := ih {
      leftIff := fun m => by
        rw [List.Nodup.mem_erase_iff hi.nodupLeft, hi.leftIff m]
        simp only [List.map_append, List.map_cons, List.map_nil, List.mem_append, List.mem_singleton, not_or]
        exact ⟨fun h => ⟨h.2.1, h.2.2, h.1⟩, fun h => ⟨h.2.2, h.1, h.2.1⟩⟩
      nodupLeft := hi.nodupLeft.erase _
      nodup := by
        simp only [List.map_append, List.map_cons, List.map_nil]
        refine List.nodup_append.2 ⟨hi.nodup, by simp, ?_⟩
        intro a ha c hcc
        simp only [List.mem_singleton] at hcc
        rintro rfl
        subst hcc
        exact hl.2 ha
      recs := fun m r hm => by
        rcases List.mem_append.1 hm with hm | hm
        · exact hi.recs m r hm
        · simp only [List.mem_singleton, Prod.mk.injEq] at hm
          obtain ⟨rfl, rfl⟩ := hm
          exact ⟨o, ho, hs, rfl⟩
      closed := fun m r hm k hk => by
        simp only [List.map_append, List.map_cons, List.map_nil, List.mem_append, List.mem_singleton]
        rcases List.mem_append.1 hm with hm | hm
        · rcases hi.closed m r hm k hk with h | h
          · exact .inl (.inl h)
          · rcases List.mem_cons.1 h with h | h
            · exact .inl (.inr h)
            · exact .inr (.inr h)
        · simp only [List.mem_singleton, Prod.mk.injEq] at hm
          obtain ⟨rfl, rfl⟩ := hm
          exact .inr (.inl hk)
      small := fun k hk => by
        rcases List.mem_append.1 hk with hk | hk
        · obtain ⟨a, ha⟩ := hsent k hk; exact sent_closed hc ha
        · exact hi.small k (by simp [hk])
      reachT := fun k hk => by
        rcases List.mem_append.1 hk with hk | hk
        · exact hr k hk
        · exact hi.reachT k (by simp [hk])
      reachA := fun k hk => by
        simp only [List.map_append, List.map_cons, List.map_nil, List.mem_append, List.mem_singleton] at hk
        rcases hk with hk | hk
        · exact hi.reachA k hk
        · subst hk; exact hi.reachT _ (by simp) }
    have e : collect b h left (n' :: todo) acc = collect b h (left.erase n') (refs st ++ todo) (acc ++ [(n', { kind := o.kind, attrs := st })]) := by
      conv => lhs; rw [collect]
      simp [hn, ho, hs]
    rw [e]
    rcases this with ⟨l, left', h1, h2, h3⟩ | h
    · exact .inl ⟨l, left', h1, (List.prefix_append _ _).trans h2, h3⟩
    · exact .inr h
  | case5 left acc n' todo hn ih =>
    intro hi
    have e : collect b h left (n' :: todo) acc = collect b h left todo acc := by
      conv => lhs; rw [collect]
      simp [hn]
    rw [e]
    refine ih { hi with closed := fun m r hm k hk => ?_, small := fun k hk => hi.small k (by simp [hk]), reachT := fun k hk => hi.reachT k (by simp [hk]) }
    rcases hi.closed m r hm k hk with h | h
    · exact .inl h
    · rcases List.mem_cons.1 h with h | h
      · subst h
        by_cases hm' : k ∈ acc.map Prod.fst
        · exact .inl hm'
        · exact absurd ((hi.leftIff k).2 ⟨hi.small k (by simp), hm'⟩) hn
      · exact .inr h

theorem dumps_spec {b : Bool} {h : Heap} (hc : Closed h) (hu : Uniq h) {n : Nat} (hn : n < h.length) :
    (∃ l left', dumps b h n = .ok l ∧ Inv b h n left' [] l ∧ (∃ r t, l = (n, r) :: t)) ∨
    ∃ m o e, Reached h n m ∧ h[m]? = some o ∧ state b h o = .error e ∧ dumps b h n = .error e := by
  have hi : Inv b h n (List.range h.length) [n] [] :=
    { leftIff := by simp, nodupLeft := List.nodup_range, nodup := by simp, recs := by simp, closed := by simp, small := by simpa using hn,
      reachT := by simp; exact ⟨[], rfl⟩, reachA := by simp }
  rcases collect_spec hc hu _ _ _ hi with ⟨l, left', h1, -, h3⟩ | h
  · refine .inl ⟨l, left', h1, h3, ?_⟩
    obtain ⟨o, ho⟩ : ∃ o, h[n]? = some o := ⟨h[n], by simp [hn]⟩
    cases hs : state b h o with
    | error e =>
      rw [collect] at h1
      simp only [List.mem_range, hn, ↓reduceDIte, ho, hs] at h1
      cases h1
    | ok st =>
      have h2 := h1
      rw [collect] at h2
      simp only [List.mem_range, hn, ↓reduceDIte, ho, hs] at h2
      have key : ∀ left todo acc, ∀ l, collect b h left todo acc = .ok l → acc <+: l := by
        intro left todo acc
        induction left, todo, acc using collect.induct (py311 := b) (h := h) with
        | case1 left acc => intro l hl; rw [collect] at hl; cases hl; exact List.prefix_refl _
        | case2 left acc n' todo hn ho => intro l hl; rw [collect] at hl; simp only [hn, ↓reduceDIte, ho] at hl; cases hl
        | case3 left acc n' todo hn o ho e hs => intro l hl; rw [collect] at hl; simp only [hn, ↓reduceDIte, ho, hs] at hl; cases hl
        | case4 left acc n' todo hn o ho st hs ih =>
          intro l hl; rw [collect] at hl; simp only [hn, ↓reduceDIte, ho, hs] at hl
          exact (List.prefix_append _ _).trans (ih l hl)
        | case5 left acc n' todo hn ih => intro l hl; rw [collect] at hl; simp only [hn, ↓reduceDIte] at hl; exact ih l hl
      obtain ⟨t, ht⟩ := key _ _ _ _ h2
      exact ⟨_, t, ht.symm⟩
  · exact .inr h

theorem position_spec {l : List (Nat × Obj)} {m : Nat} (hm : m ∈ l.map Prod.fst) : ∃ r, l[position l m]? = some (m, r) := by
  obtain ⟨⟨k, r⟩, hp, he⟩ := List.mem_map.1 hm
  have hlt : position l m < l.length := List.findIdx_lt_length_of_exists ⟨(k, r), hp, by simpa using he⟩
  have := List.findIdx_getElem (p := fun p : Nat × Obj => p.1 == m) (xs := l) (w := hlt)
  refine ⟨(l[position l m]).2, ?_⟩
  rw [List.getElem?_eq_getElem hlt]
  have e : (l[position l m]).1 = m := eq_of_beq this
  exact congrArg some (Prod.ext e rfl)

theorem loads_at {b : Bool} {h : Heap} {n : Nat} {left : List Nat} {l : List (Nat × Obj)} (hi : Inv b h n left [] l) {m : Nat} (hm : m ∈ l.map Prod.fst) :
    ∃ o st, h[m]? = some o ∧ state b h o = .ok st ∧ (loads l)[position l m]? = some { kind := o.kind, attrs := st.map fun q => (q.1, there l q.2) } := by
  obtain ⟨r, hr⟩ := position_spec hm
  obtain ⟨o, h1, h2, h3⟩ := hi.recs m r (List.mem_of_getElem? hr)
  refine ⟨o, r.attrs, h1, h2, ?_⟩
  simp only [loads, List.getElem?_map, hr, Option.map_some, h3]

theorem get?_map_there (l : List (Nat × Obj)) (d : Dict Str Ref) (a : Str) : Dict.get? (d.map fun q => (q.1, there l q.2)) a = (Dict.get? d a).map (there l) := by
  induction d with
  | nil => rfl
  | cons p d ih =>
    obtain ⟨k, v⟩ := p
    simp only [List.map_cons, Dict.get?]
    split
    · rfl
    · exact ih

theorem attr_there {b : Bool} {h : Heap} {n : Nat} {left : List Nat} {l : List (Nat × Obj)} (hi : Inv b h n left [] l) {m : Nat} (hm : m ∈ l.map Prod.fst) (a : Str) :
    attr (loads l) (position l m) a = (sent h m a).map (there l) := by
  obtain ⟨o, st, h1, h2, h3⟩ := loads_at hi hm
  simp only [attr, h3, Option.bind_some, get?_map_there, state_get? h1 h2]

theorem sent_in {b : Bool} {h : Heap} {n : Nat} {left : List Nat} {l : List (Nat × Obj)} (hi : Inv b h n left [] l) {m : Nat} (hm : m ∈ l.map Prod.fst) {a : Str} {k : Nat}
    (hs : sent h m a = some (.obj k)) : k ∈ l.map Prod.fst := by
  obtain ⟨⟨m', r⟩, hp, rfl⟩ := List.mem_map.1 hm
  obtain ⟨o, h1, h2, h3⟩ := hi.recs _ r hp
  rw [← state_get? h1 h2] at hs
  rcases hi.closed _ r hp k (mem_refs.2 ⟨a, Dict.mem_of_get? _ hs⟩) with h | h
  · exact h
  · cases h

theorem follow_there {b : Bool} {h : Heap} {n : Nat} {left : List Nat} {l : List (Nat × Obj)} (hi : Inv b h n left [] l) :
    ∀ (p : List Str) (r : Ref), (∀ m, r = .obj m → m ∈ l.map Prod.fst) →
      follow (attr (loads l)) (there l r) p = (follow (sent h) r p).map (there l) := by
  intro p
  induction p with
  | nil => exact fun r _ => rfl
  | cons a p ih =>
    intro r hr
    cases r with
    | imm s => rfl
    | obj m =>
      have hm := hr m rfl
      simp only [there, follow, attr_there hi hm]
      cases hs : sent h m a with
      | none => rfl
      | some r' => exact ih r' (fun k hk => by subst hk; exact sent_in hi hm hs)

theorem reached_in {b : Bool} {h : Heap} {n : Nat} {left : List Nat} {l : List (Nat × Obj)} (hi : Inv b h n left [] l) :
    ∀ (p : List Str) (r : Ref), (∀ m, r = .obj m → m ∈ l.map Prod.fst) → ∀ k, follow (sent h) r p = some (.obj k) → k ∈ l.map Prod.fst := by
  intro p
  induction p with
  | nil => intro r hr k hk; simp only [follow, Option.some.injEq] at hk; exact hr k hk
  | cons a p ih =>
    intro r hr k hk
    cases r with
    | imm s => cases hk
    | obj m =>
      simp only [follow] at hk
      split at hk
      · next r' hs => exact ih r' (fun j hj => by subst hj; exact sent_in hi (hr m rfl) hs) k hk
      · cases hk

/-- **C87.** What arrives is what was sent: following the same attributes from the pipeline leads to the same values here and there, to objects of the same
class, and to the same object there exactly if it is the same object here.  (`f` says which object there stands for an object here.) -/
theorem C87_arrives (h : Heap) (hc : Closed h) (hu : Uniq h) (n : Nat) (hn : n < h.length) (l : List (Nat × Obj)) (hl : dumps false h n = .ok l) :
    ∃ f : Nat → Nat, f n = 0 ∧
      (∀ m m', Reached h n m → Reached h n m' → f m = f m' → m = m') ∧
      (∀ p, follow (attr (loads l)) (.obj 0) p = match follow (sent h) (.obj n) p with
        | some (.obj m) => some (.obj (f m))
        | some (.imm s) => some (.imm s)
        | none => none) ∧
      (∀ m, Reached h n m → ((loads l)[f m]?).map Obj.kind = (h[m]?).map Obj.kind) ∧
      ∀ i, i < (loads l).length → ∃ m, Reached h n m ∧ f m = i := by
  rcases dumps_spec (b := false) hc hu hn with ⟨l', left, h1, hi, r, t, he⟩ | ⟨m, o, e, -, -, -, h2⟩
  · rw [hl] at h1; cases h1
    have hnin : n ∈ l.map Prod.fst := by rw [he]; simp
    have h0 : position l n = 0 := by rw [he]; simp [position, List.findIdx_cons]
    have hin : ∀ m, Reached h n m → m ∈ l.map Prod.fst := fun m ⟨p, hp⟩ => reached_in hi p (.obj n) (fun k hk => by cases hk; exact hnin) m hp
    refine ⟨position l, h0, ?_, ?_, ?_, ?_⟩
    · intro m m' hm hm' hpos
      obtain ⟨r1, e1⟩ := position_spec (hin m hm)
      obtain ⟨r2, e2⟩ := position_spec (hin m' hm')
      rw [hpos, e2] at e1
      cases e1; rfl
    · intro p
      have := follow_there hi p (.obj n) (fun k hk => by cases hk; exact hnin)
      simp only [there, h0] at this
      rw [this]
      cases follow (sent h) (.obj n) p with
      | none => rfl
      | some r => cases r <;> rfl
    · intro m hm
      obtain ⟨o, st, e1, -, e2⟩ := loads_at hi (hin m hm)
      rw [e1, e2]; rfl
    · intro i hilt
      simp only [loads, List.length_map] at hilt
      have hm : (l[i]).1 ∈ l.map Prod.fst := List.mem_map_of_mem (List.getElem_mem hilt)
      refine ⟨(l[i]).1, hi.reachA _ hm, ?_⟩
      obtain ⟨r, hr⟩ := position_spec hm
      have hlt : position l (l[i]).1 < l.length := (List.getElem?_eq_some_iff.1 hr).1
      have e1 : (l.map Prod.fst)[position l (l[i]).1]? = (l.map Prod.fst)[i]? := by
        rw [List.getElem?_map, List.getElem?_map, hr, List.getElem?_eq_getElem hilt]; rfl
      exact (List.getElem?_inj (by simpa using hlt) hi.nodup).1 e1
  · rw [hl] at h2; cases h2

/-- **C87.** Exactly what can be sent: before python 3.11, pipelines from which nothing can be reached that pickle refuses. -/
theorem C87_sendable (h : Heap) (hc : Closed h) (hu : Uniq h) (n : Nat) (hn : n < h.length) : (∃ l, dumps false h n = .ok l) ↔ Sendable h n := by
  rcases dumps_spec (b := false) hc hu hn with ⟨l, left, h1, hi, r, t, he⟩ | ⟨m, o, e, h1, h2, h3, h4⟩
  · refine ⟨fun _ m o hm ho => ?_, fun _ => ⟨l, h1⟩⟩
    obtain ⟨p, hp⟩ := hm
    have hin := reached_in hi p (.obj n) (fun k hk => by cases hk; rw [he]; simp) m hp
    obtain ⟨o', st, e1, e2, -⟩ := loads_at hi hin
    rw [ho] at e1; cases e1
    exact (state_ok_iff hu ho).1 ⟨st, e2⟩
  · refine ⟨fun ⟨l, hl⟩ => by (rw [hl] at h4; cases h4), fun hs => ?_⟩
    obtain ⟨st, hst⟩ := (state_ok_iff hu h2).2 (hs m o h1 h2)
    rw [hst] at h3; cases h3

/-- **C87 is false from python 3.11 on:** no pipeline can be sent. -/
theorem C87_refuted_python (h : Heap) (n : Nat) (o : Obj) (c : Str) (ho : h[n]? = some o) (hk : o.kind = .pipeline c) : dumps true h n = .error .typeError := by
  have hn : n < h.length := (List.getElem?_eq_some_iff.1 ho).1
  unfold dumps
  rw [collect]
  simp only [List.mem_range, hn, ↓reduceDIte, ho, state, hk, reduce, ↓reduceIte]

/-- **C87 is false while a job is running in the environment of the pipeline:** any job that is in the list of jobs of the environment and has a future that pickle
refuses (its processes have) prevents sending, whatever the pipeline is. -/
theorem C87_refuted_running_job (h : Heap) (hc : Closed h) (hu : Uniq h) (n : Nat) (hn : n < h.length) (p : List Str) (m : Nat) (o : Obj)
    (hp : follow (sent h) (.obj n) (c!"_env" :: c!"running_pipelines" :: p) = some (.obj m)) (ho : h[m]? = some o) (hr : o.kind = .refused) :
    ¬ ∃ l, dumps false h n = .ok l := by
  rw [C87_sendable h hc hu n hn]
  exact fun hs => (hs m o ⟨_, hp⟩ ho).1 hr

/-! ### examples -/

/-- a pipeline (`_env.ls`) whose environment has a running job: the job, its list of processes, the process, and the future for its end -/
def busy : Heap := [
  { kind := .pipeline c!"Command", attrs := [(c!"_env", .obj 1)] },
  { kind := .env, attrs := [(c!"running_pipelines", .obj 2)] },
  { kind := .plain c!"LineList", attrs := [(c!"0", .obj 3)] },
  { kind := .plain c!"RunningPipeline", attrs := [(c!"processes", .obj 4)] },
  { kind := .plain c!"list", attrs := [(c!"0", .obj 5)] },
  { kind := .plain c!"RunningProcess", attrs := [(c!"end_future", .obj 6)] },
  { kind := .refused, attrs := [] }]

theorem busy_closed : Closed busy := by
  intro n o ho a m hm
  have h1 : ∀ x ∈ busy, ∀ q ∈ x.attrs, (match q.2 with | .obj m => decide (m < busy.length) | .imm _ => true) = true := by decide
  simpa using h1 o (List.mem_of_getElem? ho) (a, .obj m) hm

theorem busy_uniq : Uniq busy := by
  unfold Uniq Dict.Uniq
  decide

/-- with a running job, `remote(...)` of a pipeline that has nothing to do with the job fails -/
theorem C87_refuted_busy : ¬ ∃ l, dumps false busy 0 = .ok l :=
  C87_refuted_running_job busy busy_closed busy_uniq 0 (by decide) [c!"0", c!"processes", c!"0", c!"end_future"] 6 _ rfl rfl rfl

/-- `_env.ls` with arguments, the list of jobs of `_env`, the last pipeline (a job that has ended) -/
def heap : Heap := [
  { kind := .pipeline c!"Pipe", attrs := [(c!"_env", .obj 3), (c!"src", .obj 1), (c!"dst", .obj 1), (c!"_started", .imm c!"False"), (c!"__module__", .imm c!"None")] },
  { kind := .pipeline c!"Command", attrs := [(c!"_env", .obj 3), (c!"_arg", .obj 2), (c!"_running_process", .obj 6)] },
  { kind := .plain c!"list", attrs := [(c!"0", .imm c!"ls"), (c!"1", .imm c!"-l")] },
  { kind := .env, attrs := [(c!"_scope", .obj 6), (c!"_cwd", .imm c!"/tmp"), (c!"running_pipelines", .obj 4), (c!"last_pipeline", .obj 5)] },
  { kind := .plain c!"LineList", attrs := [] },
  { kind := .plain c!"RunningPipeline", attrs := [(c!"pipeline", .obj 1), (c!"processes", .obj 6)] },
  { kind := .refused, attrs := [] }]

theorem heap_closed : Closed heap := by
  intro n o ho a m hm
  have h1 : ∀ x ∈ heap, ∀ q ∈ x.attrs, (match q.2 with | .obj m => decide (m < heap.length) | .imm _ => true) = true := by decide
  simpa using h1 o (List.mem_of_getElem? ho) (a, .obj m) hm

theorem heap_uniq : Uniq heap := by
  unfold Uniq Dict.Uniq
  decide

example : (dumps false heap 0).map loads = .ok [
    { kind := .pipeline c!"Pipe", attrs := [(c!"_env", .obj 1), (c!"src", .obj 3), (c!"dst", .obj 3), (c!"_started", .imm c!"False")] },
    { kind := .env, attrs := [(c!"_scope", .imm c!"None"), (c!"_cwd", .imm c!"/tmp"), (c!"running_pipelines", .obj 2), (c!"last_pipeline", .obj 3)] },
    { kind := .plain c!"LineList", attrs := [] },
    { kind := .pipeline c!"Command", attrs := [(c!"_env", .obj 1), (c!"_arg", .obj 4)] },
    { kind := .plain c!"list", attrs := [(c!"0", .imm c!"ls"), (c!"1", .imm c!"-l")] }] := by
  simp +decide [dumps, heap, collect, state, reduce, refs, getstate, mangle, pipelineOf, none_, loads, there, position, Dict.get?, List.range, List.range.loop, hidden]
  rfl

/-- the hypotheses of `C87_arrives` are met by it -/
example : ∃ l, dumps false heap 0 = .ok l := by
  simp +decide [dumps, heap, collect, state, reduce, refs, getstate, mangle, pipelineOf, none_, Dict.get?, List.range, List.range.loop, hidden]

example : Closed heap ∧ Uniq heap ∧ 0 < heap.length := ⟨heap_closed, heap_uniq, by decide⟩

end Pieshell.Pickle
