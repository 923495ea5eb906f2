import Verif.Spec.Repr
namespace Pieshell.Repr
open Pieshell.Cmd

/-- what `pipeline_repr` makes of it -/
def orFailed : Except Exn Str → Str
  | .ok t => t
  | .error _ => failedText

mutual
/-- What is printed inside of a `repr()`. -/
def qtext (w : World) : Obj → Option Nat → Except Exn Str
  | .leaf t, _ => .ok t
  | .broken, _ => .error .other
  | .native kids, cur =>
    match qtextN w kids cur with
    | .error e => .error e
    | .ok ts => .ok (c!"[" ++ joinWith c!", " ts ++ c!"]")
  | .viaRepr kids, cur => .ok (c!"[" ++ joinWith c!",\n " (qtextR w kids cur) ++ c!"]")
  | .catching kid t, cur =>
    match qtext w kid cur with
    | .error _ => .ok t
    | .ok t => .ok t
  | .command _ _ env c as, cur =>
    inEnv w cur env (match Command.repr (Expand.expandArgument (w.ctx env)) w.printable c with
        | .error e => .error e
        | .ok t => .ok (t ++ as))
  | .pipeline _ _ env form parts, cur => inEnv w cur env (.ok (glue form (qtextR w parts (some env))))
def qtextN (w : World) : List Obj → Option Nat → Except Exn (List Str)
  | [], _ => .ok []
  | o :: os, cur =>
    match qtext w o cur with
    | .error e => .error e
    | .ok t => match qtextN w os cur with
      | .error e => .error e
      | .ok ts => .ok (t :: ts)
def qtextR (w : World) : List Obj → Option Nat → List Str
  | [], _ => []
  | o :: os, cur => orFailed (qtext w o cur) :: qtextR w os cur
end

mutual
/-- What runs inside of a `repr()`. -/
def qevents (w : World) : Obj → Option Nat → List Event
  | .leaf _, _ => []
  | .broken, _ => []
  | .native kids, cur => qeventsN w kids cur
  | .viaRepr kids, cur => qeventsR w kids cur
  | .catching kid _, cur => qevents w kid cur
  | .command _ _ env c _, _ => lookups w env c
  | .pipeline _ _ env _ parts, _ => qeventsR w parts (some env)
def qeventsN (w : World) : List Obj → Option Nat → List Event
  | [], _ => []
  | o :: os, cur => qevents w o cur ++ (match qtext w o cur with
    | .error _ => []
    | .ok _ => qeventsN w os cur)
def qeventsR (w : World) : List Obj → Option Nat → List Event
  | [], _ => []
  | o :: os, cur => qevents w o cur ++ qeventsR w os cur
end

def St.add (st : St) (es : List Event) : St := { st with events := st.events ++ es }

theorem St.add_add (st : St) (a b : List Event) : (st.add a).add b = st.add (a ++ b) := by
  simp [St.add]

theorem St.add_nil (st : St) : st.add [] = st := by simp [St.add]

theorem shouldRun_deep {w : World} {started : Bool} {env : Nat} {st : St} (h : 0 < st.depth) :
    shouldRun w started env st = false := by
  have : ¬ st.depth < 1 := by omega
  simp [shouldRun, this]

theorem counted_eq {f : St → Except Exn Str × St} {st : St} {t : Except Exn Str} {es : List Event}
    (h : f { st with depth := st.depth + 1 } = (t, ({ st with depth := st.depth + 1 } : St).add es)) :
    counted f st = (orFailed t, st.add es) := by
  unfold counted
  rw [h]
  cases t <;> simp [St.add, orFailed]

mutual
theorem standard_quiet (w : World) : ∀ (o : Obj) (st : St), 0 < st.depth →
    standardRepr w o st = (qtext w o st.cur, st.add (qevents w o st.cur))
  | .leaf t, st, _ => by simp [standardRepr, qtext, qevents, St.add_nil]
  | .broken, st, _ => by simp [standardRepr, qtext, qevents, St.add_nil]
  | .native kids, st, h => by
    simp only [standardRepr, qtext, qevents, nativeList_quiet w kids st h]
    cases qtextN w kids st.cur <;> rfl
  | .viaRepr kids, st, _ => by
    simp only [standardRepr, qtext, qevents, reprList_quiet w kids st]
  | .catching kid t, st, h => by
    simp only [standardRepr, qtext, qevents, standard_quiet w kid st h]
    cases qtext w kid st.cur <;> rfl
  | .command id started env c as, st, h => by
    simp only [standardRepr, qtext, qevents, shouldRun_deep h]
    rfl
  | .pipeline id started env form parts, st, h => by
    simp only [standardRepr, qtext, qevents, shouldRun_deep h, reprList_quiet w parts { st with cur := some env }]
    rfl
theorem nativeList_quiet (w : World) : ∀ (os : List Obj) (st : St), 0 < st.depth →
    nativeList w os st = (qtextN w os st.cur, st.add (qeventsN w os st.cur))
  | [], st, _ => by simp [nativeList, qtextN, qeventsN, St.add_nil]
  | o :: os, st, h => by
    simp only [nativeList, qtextN, qeventsN, standard_quiet w o st h]
    cases ht : qtext w o st.cur with
    | error e => simp
    | ok t =>
      simp only [nativeList_quiet w os (st.add (qevents w o st.cur)) h, St.add_add]
      show _ = _
      have hc : (st.add (qevents w o st.cur)).cur = st.cur := rfl
      rw [hc]
      cases qtextN w os st.cur <;> rfl
theorem reprList_quiet (w : World) : ∀ (os : List Obj) (st : St),
    reprList w os st = (qtextR w os st.cur, st.add (qeventsR w os st.cur))
  | [], st => by simp [reprList, qtextR, qeventsR, St.add_nil]
  | o :: os, st => by
    have h := counted_eq (f := standardRepr w o) (st := st)
      (standard_quiet w o { st with depth := st.depth + 1 } (Nat.succ_pos _))
    simp only [reprList, qtextR, qeventsR, h, reprList_quiet w os]
    rw [St.add_add]
    rfl
end

theorem repr_quiet (w : World) (o : Obj) (st : St) :
    repr w o st = (orFailed (qtext w o st.cur), st.add (qevents w o st.cur)) :=
  counted_eq (standard_quiet w o { st with depth := st.depth + 1 } (Nat.succ_pos _))

def OnlyLookups (w : World) (es : List Event) : Prop := ∀ e ∈ es, ∃ env name, e = .lookup env name ∧ w.runs env name = true

theorem OnlyLookups.append {w : World} {a b : List Event} (ha : OnlyLookups w a) (hb : OnlyLookups w b) :
    OnlyLookups w (a ++ b) := by
  intro e he
  rcases List.mem_append.1 he with h | h
  · exact ha e h
  · exact hb e h

theorem OnlyLookups.nil {w : World} : OnlyLookups w [] := by intro e he; cases he

theorem lookups_only (w : World) (env : Nat) (c : Command) : OnlyLookups w (lookups w env c) := by
  intro e he
  simp only [lookups, List.mem_map, List.mem_filter] at he
  obtain ⟨n, ⟨_, hn⟩, rfl⟩ := he
  exact ⟨env, n, rfl, hn⟩

mutual
theorem qevents_only (w : World) : ∀ (o : Obj) (cur : Option Nat), OnlyLookups w (qevents w o cur)
  | .leaf _, _ => by simp only [qevents]; exact .nil
  | .broken, _ => by simp only [qevents]; exact .nil
  | .native kids, cur => by simp only [qevents]; exact qeventsN_only w kids cur
  | .viaRepr kids, cur => by simp only [qevents]; exact qeventsR_only w kids cur
  | .catching kid _, cur => by simp only [qevents]; exact qevents_only w kid cur
  | .command _ _ env c _, _ => by simp only [qevents]; exact lookups_only w env c
  | .pipeline _ _ env _ parts, _ => by simp only [qevents]; exact qeventsR_only w parts (some env)
theorem qeventsN_only (w : World) : ∀ (os : List Obj) (cur : Option Nat), OnlyLookups w (qeventsN w os cur)
  | [], _ => by simp only [qeventsN]; exact .nil
  | o :: os, cur => by
    simp only [qeventsN]
    refine (qevents_only w o cur).append ?_
    cases qtext w o cur with
    | error e => exact .nil
    | ok t => exact qeventsN_only w os cur
theorem qeventsR_only (w : World) : ∀ (os : List Obj) (cur : Option Nat), OnlyLookups w (qeventsR w os cur)
  | [], _ => by simp only [qeventsR]; exact .nil
  | o :: os, cur => by simp only [qeventsR]; exact (qevents_only w o cur).append (qeventsR_only w os cur)
end

/-! ## Without templates nothing is looked up -/

/-- `pctNames` lists every name that `pctFormat` looks up: the result depends on no other. -/
theorem pctFormat_names (lookup lookup' : Str → Except Exn Str) (whole : Str) : ∀ (f : Nat) (used : Bool) (s : Str),
    (∀ n ∈ pctNames lookup f used s, lookup n = lookup' n) →
    Expand.pctFormat lookup whole f used s = Expand.pctFormat lookup' whole f used s
  | 0, _, _, _ => rfl
  | _ + 1, _, [], _ => rfl
  | f + 1, used, c :: s, h => by
    unfold pctNames at h
    unfold Expand.pctFormat
    by_cases hc : c ≠ '%'
    · rw [if_pos hc] at h
      rw [if_pos hc, if_pos hc, pctFormat_names lookup lookup' whole f used s h]
    · rw [if_neg hc] at h
      rw [if_neg hc, if_neg hc]
      split
      · rfl
      · rename_i s'
        rw [pctFormat_names lookup lookup' whole f used s' h]
      · rename_i s'
        cases used with
        | true => rfl
        | false => rw [pctFormat_names lookup lookup' whole f true s' h]
      · rename_i s'
        simp only at h
        cases hk : Expand.readKey 0 s' with
        | none => rfl
        | some kr =>
          obtain ⟨key, r⟩ := kr
          rw [hk] at h
          simp only [List.mem_cons, forall_eq_or_imp] at h
          simp only
          rw [← h.1]
          cases hl : lookup key with
          | error e => rfl
          | ok v =>
            rw [hl] at h
            have h2 := h.2
            simp only at h2 ⊢
            split
            · rfl
            · rename_i r'
              rw [pctFormat_names lookup lookup' whole f used r' h2]
            · rename_i r'
              rw [pctFormat_names lookup lookup' whole f used r' h2]
            · rfl
      · rfl

theorem pctNames_none (lookup : Str → Except Exn Str) : ∀ (f : Nat) (used : Bool) (s : Str), '%' ∉ s →
    pctNames lookup f used s = []
  | 0, _, _, _ => rfl
  | _ + 1, _, [], _ => rfl
  | f + 1, used, c :: s, h => by
    simp only [List.mem_cons, not_or] at h
    have : c ≠ '%' := fun hc => h.1 hc.symm
    simp [pctNames, this, pctNames_none lookup f used s h.2]

theorem allNames_none (x : Expand.Ctx) : ∀ (l : List Str), (∀ s ∈ l, '%' ∉ s) → allNames x l = []
  | [], _ => rfl
  | s :: l, h => by
    simp only [allNames, expandNames, pctNames_none _ _ _ _ (h s List.mem_cons_self), List.nil_append]
    cases Expand.expandArgument x s with
    | error e => rfl
    | ok t => exact allNames_none x l (fun s hs => h s (List.mem_cons_of_mem _ hs))

theorem mem_strings : ∀ (l : List Elem) (s : Str), s ∈ strings l →
    (.val (.str s) ∈ l ∨ ∃ kvs k, .dict kvs ∈ l ∧ (k, .str s) ∈ kvs)
  | [], s, h => by simp [strings] at h
  | .val v :: l, s, h => by
    have step : s ∈ strings l → (.val (.str s) ∈ Elem.val v :: l ∨ ∃ kvs k, .dict kvs ∈ Elem.val v :: l ∧ (k, .str s) ∈ kvs) := by
      intro h
      rcases mem_strings l s h with h | ⟨kvs, k, h1, h2⟩
      · exact .inl (List.mem_cons_of_mem _ h)
      · exact .inr ⟨kvs, k, List.mem_cons_of_mem _ h1, h2⟩
    cases v with
    | str t =>
      simp only [strings, List.mem_cons] at h
      rcases h with rfl | h
      · exact .inl List.mem_cons_self
      · exact step h
    | raw t => exact step h
    | bool t => exact step h
    | piped i hh => exact step h
    | obj t => exact step h
  | .dict kvs :: l, s, h => by
    simp only [strings, List.mem_append, List.mem_filterMap] at h
    rcases h with ⟨⟨k, v⟩, hm, hv⟩ | h
    · cases v <;> simp at hv
      subst hv
      exact .inr ⟨kvs, k, List.mem_cons_self, hm⟩
    · rcases mem_strings l s h with h | ⟨kvs', k, h1, h2⟩
      · exact .inl (List.mem_cons_of_mem _ h)
      · exact .inr ⟨kvs', k, List.mem_cons_of_mem _ h1, h2⟩

theorem lookups_none (w : World) (env : Nat) (c : Command)
    (h : ∀ s, (.val (.str s) ∈ c.args ∨ ∃ kvs k, .dict kvs ∈ c.args ∧ (k, .str s) ∈ kvs) → '%' ∉ s) :
    lookups w env c = [] := by
  simp [lookups, allNames_none _ _ (fun s hs => h s (mem_strings _ _ hs))]

mutual
theorem qevents_none (w : World) : ∀ (o : Obj) (cur : Option Nat), Spec.NoTemplates o → qevents w o cur = []
  | .leaf _, _, _ => by simp only [qevents]
  | .broken, _, _ => by simp only [qevents]
  | .native kids, cur, h => by
    simp only [Spec.NoTemplates] at h
    simp only [qevents]; exact qeventsN_none w kids cur h
  | .viaRepr kids, cur, h => by
    simp only [Spec.NoTemplates] at h
    simp only [qevents]; exact qeventsR_none w kids cur h
  | .catching kid _, cur, h => by
    simp only [Spec.NoTemplates] at h
    simp only [qevents]; exact qevents_none w kid cur h
  | .command _ _ env c _, _, h => by
    simp only [Spec.NoTemplates] at h
    simp only [qevents]; exact lookups_none w env c h
  | .pipeline _ _ env _ parts, _, h => by
    simp only [Spec.NoTemplates] at h
    simp only [qevents]; exact qeventsR_none w parts (some env) h
theorem qeventsN_none (w : World) : ∀ (os : List Obj) (cur : Option Nat), Spec.NoTemplatesL os → qeventsN w os cur = []
  | [], _, _ => by simp only [qeventsN]
  | o :: os, cur, h => by
    simp only [Spec.NoTemplatesL] at h
    simp only [qeventsN, qevents_none w o cur h.1, List.nil_append]
    cases qtext w o cur with
    | error e => rfl
    | ok t => exact qeventsN_none w os cur h.2
theorem qeventsR_none (w : World) : ∀ (os : List Obj) (cur : Option Nat), Spec.NoTemplatesL os → qeventsR w os cur = []
  | [], _, _ => by simp only [qeventsR]
  | o :: os, cur, h => by
    simp only [Spec.NoTemplatesL] at h
    simp only [qeventsR, qevents_none w o cur h.1, qeventsR_none w os cur h.2, List.nil_append]
end

/-! ## Showing -/

theorem starts_append (a b : List Event) : Spec.starts (a ++ b) = Spec.starts a ++ Spec.starts b := by
  induction a with
  | nil => rfl
  | cons e a ih => cases e <;> simp [Spec.starts, ih]

theorem starts_only {w : World} {es : List Event} (h : OnlyLookups w es) : Spec.starts es = [] := by
  induction es with
  | nil => rfl
  | cons e es ih =>
    obtain ⟨env, n, rfl, _⟩ := h e List.mem_cons_self
    exact ih (fun e he => h e (List.mem_cons_of_mem _ he))

/-- Events are added, the counter and the environment are restored, and these pipelines ran. -/
def Shows (st : St) (r : Except Exn α × St) (s : List Nat × Bool) : Prop :=
  ∃ es, r.2 = st.add es ∧ Spec.starts es = s.1 ∧ (s.2 = true ↔ ∃ t, r.1 = .ok t)

theorem ok_or_error {α : Type} (r : Except Exn α) : (∃ t, r = .ok t) ∨ (∃ e, r = .error e) := by
  cases r with
  | ok t => exact .inl ⟨t, rfl⟩
  | error e => exact .inr ⟨e, rfl⟩

theorem shouldRun_zero {w : World} {started : Bool} {env : Nat} {st : St} (h : st.depth = 0) :
    shouldRun w started env st = decide (started = false ∧ w.interactive env = true) := by
  cases started <;> cases hi : w.interactive env <;> simp [shouldRun, h, hi]

theorem runAndPrint_shows (w : World) (id : Nat) (st : St) :
    Shows st (runAndPrint w id st) ([id], w.outcome id != .failed) := by
  refine ⟨[.start id], ?_, rfl, ?_⟩
  · unfold runAndPrint
    cases w.outcome id <;> rfl
  · unfold runAndPrint
    cases w.outcome id <;> simp

mutual
theorem standard_shows (w : World) : ∀ (o : Obj) (st : St), st.depth = 0 →
    Shows st (standardRepr w o st) (Spec.shown w.interactive w.outcome (Spec.printable w) o)
  | .leaf t, st, _ => ⟨[], by simp [standardRepr, St.add_nil], by simp [Spec.starts, Spec.shown], by
      simp [standardRepr, Spec.shown]⟩
  | .broken, st, _ => ⟨[], by simp [standardRepr, St.add_nil], by simp [Spec.starts, Spec.shown], by
      simp [standardRepr, Spec.shown]⟩
  | .native kids, st, h => by
    obtain ⟨es, h1, h2, h3⟩ := nativeList_shows w kids st h
    simp only [standardRepr, Spec.shown]
    revert h1 h3
    cases hr : nativeList w kids st with
    | mk r st' =>
      intro h1 h3
      cases r with
      | ok ts => exact ⟨es, h1, h2, by simpa using h3⟩
      | error e => exact ⟨es, h1, h2, by simpa using h3⟩
  | .viaRepr kids, st, _ => by
    simp only [standardRepr, Spec.shown, reprList_quiet w kids st]
    exact ⟨_, rfl, starts_only (qeventsR_only w kids st.cur), by simp⟩
  | .catching kid t, st, h => by
    obtain ⟨es, h1, h2, h3⟩ := standard_shows w kid st h
    simp only [standardRepr, Spec.shown]
    revert h1 h3
    cases hr : standardRepr w kid st with
    | mk r st' =>
      intro h1 h3
      cases r with
      | ok ts => exact ⟨es, h1, h2, by simp⟩
      | error e => exact ⟨es, h1, h2, by simp⟩
  | .command id started env c as, st, h => by
    simp only [standardRepr, Spec.shown, shouldRun_zero h, decide_eq_true_eq]
    by_cases hc : started = false ∧ w.interactive env = true
    · rw [if_pos hc, if_pos hc]; exact runAndPrint_shows w id st
    · rw [if_neg hc, if_neg hc]
      refine ⟨lookups w env c, rfl, starts_only (lookups_only w env c), ?_⟩
      simp only [Spec.printable]
      cases Command.repr (Expand.expandArgument (w.ctx env)) w.printable c with
      | error e => simp [inEnv]
      | ok t =>
        simp only [inEnv, true_iff]
        split
        · exact ⟨_, rfl⟩
        · exact ⟨_, rfl⟩
  | .pipeline id started env form parts, st, h => by
    simp only [standardRepr, Spec.shown, shouldRun_zero h, decide_eq_true_eq]
    by_cases hc : started = false ∧ w.interactive env = true
    · rw [if_pos hc, if_pos hc]; exact runAndPrint_shows w id st
    · rw [if_neg hc, if_neg hc]
      simp only [reprList_quiet w parts { st with cur := some env }]
      refine ⟨_, rfl, starts_only (qeventsR_only w parts (some env)), ?_⟩
      simp only [inEnv, true_iff]
      split
      · exact ⟨_, rfl⟩
      · exact ⟨_, rfl⟩
theorem nativeList_shows (w : World) : ∀ (os : List Obj) (st : St), st.depth = 0 →
    Shows st (nativeList w os st) (Spec.shownL w.interactive w.outcome (Spec.printable w) os)
  | [], st, _ => ⟨[], by simp [nativeList, St.add_nil], by simp [Spec.starts, Spec.shownL], by
      simp [nativeList, Spec.shownL]⟩
  | o :: os, st, h => by
    obtain ⟨es, h1, h2, h3⟩ := standard_shows w o st h
    simp only [nativeList, Spec.shownL]
    revert h1 h2 h3
    cases hr : standardRepr w o st with
    | mk r st' =>
      cases hs : Spec.shown w.interactive w.outcome (Spec.printable w) o with
      | mk ids fin =>
      intro h1 h2 h3
      simp only at h1 h2 h3
      subst h1
      cases r with
      | error e =>
        cases fin with
        | true => simp at h3
        | false => exact ⟨es, rfl, h2, by simp⟩
      | ok t =>
        cases fin with
        | false => simp at h3
        | true =>
          obtain ⟨es', k1, k2, k3⟩ := nativeList_shows w os (st.add es) h
          simp only
          revert k1 k3
          cases hr' : nativeList w os (st.add es) with
          | mk r' st'' =>
            intro k1 k3
            simp only at k1 k3
            subst k1
            cases r' with
            | ok ts =>
              refine ⟨es ++ es', ?_, ?_, ?_⟩
              · simp [St.add_add]
              · simp only [starts_append, h2, k2]
              · simpa using k3
            | error e =>
              refine ⟨es ++ es', ?_, ?_, ?_⟩
              · simp [St.add_add]
              · simp only [starts_append, h2, k2]
              · simpa using k3
end

/-! ## Text -/

theorem keyed_eq : ∀ (keys : List (Option Str)) (ts : List Str) (n : Nat) (all : List (Option Str)), all.drop n = keys →
    keyed keys ts = (ts.zipIdx n).map (Spec.argument all)
  | [], ts, n, all, h => by
    have hl : all.length ≤ n := by simpa using h
    have : keyed [] ts = ts := by simp [keyed]
    rw [this]
    induction ts generalizing n with
    | nil => rfl
    | cons t ts ih =>
      have hn : all[n]? = none := by simp [hl]
      simp only [List.zipIdx_cons, List.map_cons, Spec.argument, hn]
      rw [← ih (n + 1) (by simp; omega) (by omega) (by simp [keyed])]
  | k :: ks, [], n, all, h => by cases k <;> simp [keyed]
  | k :: ks, t :: ts, n, all, h => by
    have hk : all[n]? = some k := by
      have : (all.drop n)[0]? = some k := by rw [h]; rfl
      simpa using this
    have hd : all.drop (n + 1) = ks := by
      rw [← List.drop_drop, h]; rfl
    cases k with
    | none => simp [keyed, Spec.argument, hk, keyed_eq ks ts (n + 1) all hd]
    | some k => simp [keyed, Spec.argument, hk, keyed_eq ks ts (n + 1) all hd]

theorem inEnv_naming (w : World) (cur : Option Nat) (env : Nat) (t : Str) :
    inEnv w cur env (.ok t) = .ok (t ++ Spec.naming w cur env) := by
  unfold inEnv Spec.naming
  by_cases h : cur = some env <;> simp [h]

mutual
theorem qtext_described (w : World) : ∀ (o : Obj) (cur : Option Nat), Spec.Prints w o →
    qtext w o cur = .ok (Spec.described w cur o)
  | .leaf t, _, _ => by simp [qtext, Spec.described]
  | .broken, _, h => by simp [Spec.Prints] at h
  | .native kids, cur, h => by
    simp only [Spec.Prints] at h
    simp [qtext, Spec.described, qtextN_described w kids cur h]
  | .viaRepr kids, cur, h => by
    simp only [Spec.Prints] at h
    simp [qtext, Spec.described, qtextR_described w kids cur h]
  | .catching kid _, cur, h => by
    simp only [Spec.Prints] at h
    simp [qtext, Spec.described, qtext_described w kid cur h]
  | .command _ _ env c _, cur, h => by
    simp only [Spec.Prints] at h
    obtain ⟨t, ht⟩ := h
    simp [qtext, Spec.described, ht, inEnv_naming]
  | .pipeline _ _ env form parts, cur, h => by
    simp only [Spec.Prints] at h
    cases form with
    | call name keys =>
      simp [qtext, Spec.described, inEnv_naming, glue, qtextR_described w parts (some env) h, Spec.arguments,
        keyed_eq keys (Spec.describedL w (some env) parts) 0 keys rfl]
    | _ => simp [qtext, Spec.described, inEnv_naming, glue, qtextR_described w parts (some env) h]
theorem qtextN_described (w : World) : ∀ (os : List Obj) (cur : Option Nat), Spec.PrintsL w os →
    qtextN w os cur = .ok (Spec.describedL w cur os)
  | [], _, _ => by simp [qtextN, Spec.describedL]
  | o :: os, cur, h => by
    simp only [Spec.PrintsL] at h
    simp [qtextN, Spec.describedL, qtext_described w o cur h.1, qtextN_described w os cur h.2]
theorem qtextR_described (w : World) : ∀ (os : List Obj) (cur : Option Nat), Spec.PrintsL w os →
    qtextR w os cur = Spec.describedL w cur os
  | [], _, _ => by simp [qtextR, Spec.describedL]
  | o :: os, cur, h => by
    simp only [Spec.PrintsL] at h
    simp [qtextR, orFailed, Spec.describedL, qtext_described w o cur h.1, qtextR_described w os cur h.2]
end

mutual
theorem described_plain (w : World) (e : Nat) : ∀ (o : Obj), Spec.Within w e o →
    Spec.Prints w o ∧ Spec.described w (some e) o = Spec.plain w o
  | .leaf t, _ => by simp [Spec.Prints, Spec.described, Spec.plain]
  | .broken, h => by simp [Spec.Within] at h
  | .native kids, h => by
    simp only [Spec.Within] at h
    have ih := describedL_plain w e kids h
    simp [Spec.Prints, Spec.described, Spec.plain, ih]
  | .viaRepr kids, h => by
    simp only [Spec.Within] at h
    have ih := describedL_plain w e kids h
    simp [Spec.Prints, Spec.described, Spec.plain, ih]
  | .catching kid _, h => by
    simp only [Spec.Within] at h
    have ih := described_plain w e kid h
    simp [Spec.Prints, Spec.described, Spec.plain, ih]
  | .command _ _ env c _, h => by
    simp only [Spec.Within] at h
    obtain ⟨rfl, t, ht⟩ := h
    simp [Spec.Prints, Spec.described, Spec.plain, ht, Spec.naming]
  | .pipeline _ _ env form parts, h => by
    simp only [Spec.Within] at h
    obtain ⟨rfl, h⟩ := h
    have ih := describedL_plain w env parts h
    cases form <;> simp [Spec.Prints, Spec.described, Spec.plain, ih, Spec.naming]
theorem describedL_plain (w : World) (e : Nat) : ∀ (os : List Obj), Spec.WithinL w e os →
    Spec.PrintsL w os ∧ Spec.describedL w (some e) os = Spec.plainL w os
  | [], _ => by simp [Spec.PrintsL, Spec.describedL, Spec.plainL]
  | o :: os, h => by
    simp only [Spec.WithinL] at h
    have ih := described_plain w e o h.1
    have ih' := describedL_plain w e os h.2
    simp [Spec.PrintsL, Spec.describedL, Spec.plainL, ih, ih']
end

end Pieshell.Repr
