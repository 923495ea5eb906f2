import Verif.Spec.SigIter
import Verif.Props.Signal
/-!
# Signals as an iterator (C85)
-/
namespace Pieshell.Sig

section
variable {α : Type}

theorem dropLast_append_getLast? {l : List α} {e : α} (h : l.getLast? = some e) : l.dropLast ++ [e] = l := by
  have hne : l ≠ [] := by rintro rfl; cases h
  rw [List.getLast?_eq_some_getLast hne] at h
  cases h
  exact List.dropLast_concat_getLast hne

theorem pop_events {s : It α} (k : Nat) (h : s.out ++ s.buffer.reverse = s.events) :
    (s.pop k).out ++ (s.pop k).buffer.reverse = (s.pop k).events := by
  unfold It.pop
  split
  · exact h
  · next e he =>
    have := dropLast_append_getLast? he
    show (s.out ++ [e]) ++ s.buffer.dropLast.reverse = s.events
    rw [← h]
    conv => rhs; rw [← this]
    simp

theorem handle_fields (s : It α) (e : α) : (s.handle e).1.buffer = e :: s.buffer ∧ (s.handle e).1.events = s.events ++ [e] ∧
    (s.handle e).1.out = s.out ∧ (s.handle e).1.future = s.future := by
  simp only [It.handle]
  split
  · simp
  · split <;> simp

theorem step_events {s : It α} (a : IAct α) (h : s.out ++ s.buffer.reverse = s.events) :
    (s.step a).out ++ (s.step a).buffer.reverse = (s.step a).events := by
  cases a with
  | event e =>
    obtain ⟨h1, h2, h3, -⟩ := handle_fields s e
    simp only [It.step, h1, h2, h3, ← h]; simp
  | call =>
    simp only [It.step]
    split
    · exact h
    · exact pop_events _ h
  | resume k =>
    simp only [It.step]
    split
    · exact pop_events _ h
    · exact h
  | cancel k =>
    simp only [It.step]
    split <;> exact h

theorem run_append (s : It α) (as bs : List (IAct α)) : s.run (as ++ bs) = (s.run as).run bs := by
  simp [It.run]

/-- **C85.** Whatever the order of events, calls, resumptions and cancellations, what the calls return is, in the order of their returning, the
beginning of the sequence of events: each event at most once, in the order of arrival, none left out; the others are kept. -/
theorem C85_in_order (as : List (IAct α)) :
    ((It.init α).run as).out ++ ((It.init α).run as).buffer.reverse = ((It.init α).run as).events := by
  suffices h : ∀ s : It α, s.out ++ s.buffer.reverse = s.events → (s.run as).out ++ (s.run as).buffer.reverse = (s.run as).events from h _ rfl
  induction as with
  | nil => exact fun s h => h
  | cons a as ih => exact fun s h => ih _ (step_events a h)

/-- The events are exactly those that were dispatched to it. -/
theorem C85_events (as : List (IAct α)) :
    ((It.init α).run as).events = as.filterMap fun a => match a with | .event e => some e | _ => none := by
  suffices h : ∀ s : It α, (s.run as).events = s.events ++ as.filterMap fun a => match a with | .event e => some e | _ => none from h _
  induction as with
  | nil => intro s; simp [It.run]
  | cons a as ih =>
    intro s
    show ((s.step a).run as).events = _
    rw [ih]
    cases a with
    | event e => rw [show (s.step (.event e)).events = s.events ++ [e] from (handle_fields s e).2.1]; simp
    | call =>
      have : (s.step .call).events = s.events := by
        simp only [It.step, It.pop]; split
        · rfl
        · split <;> rfl
      rw [this]; simp
    | resume k =>
      have : (s.step (.resume k)).events = s.events := by
        simp only [It.step, It.pop]; split
        · split <;> rfl
        · rfl
      rw [this]; simp
    | cancel k =>
      have : (s.step (.cancel k)).events = s.events := by
        simp only [It.step]; split <;> rfl
      rw [this]; simp

/-- At most the last call is under way, and it waits only while there is no event; if it will be resumed, there is one. -/
structure InTurn (s : It α) : Prop where
  early : ∀ (k : Nat) c, s.calls[k]? = some c → k + 1 < s.calls.length → c.ended
  wait : ∀ (k : Nat), s.calls[k]? = some .waiting → s.buffer = [] ∧ s.future = some k
  ready : ∀ (k : Nat), s.calls[k]? = some .ready → s.buffer ≠ []
  good : Call.indexError ∉ s.calls

theorem seq_pop {s : It α} (k : Nat) (hk : s.calls.length = k + 1) (h1 : ∀ (j : Nat) c, s.calls[j]? = some c → j + 1 < s.calls.length → c.ended)
    (hb : s.buffer ≠ []) (hg : Call.indexError ∉ s.calls) : InTurn (s.pop k) := by
  unfold It.pop
  split
  · next he => exact absurd (List.getLast?_eq_none_iff.1 he) hb
  · next e he =>
    have hget : ∀ (j : Nat) c, (s.calls.set k (.got e))[j]? = some c → c.ended := by
      intro j c hc
      by_cases hj : j = k
      · subst hj; rw [List.getElem?_set_self (by omega)] at hc; cases hc; trivial
      · rw [List.getElem?_set_ne (Ne.symm hj)] at hc
        have : j < s.calls.length := (List.getElem?_eq_some_iff.1 hc).1
        exact h1 j c hc (by omega)
    refine ⟨fun j c hc _ => hget j c hc, fun j hj => (hget j _ hj).elim, fun j hj => (hget j _ hj).elim, fun hm => ?_⟩
    rcases List.mem_or_eq_of_mem_set hm with h | h
    · exact hg h
    · cases h

theorem seq_step {s : It α} (h : InTurn s) (a : IAct α) (ha : match a with | .call => ∀ c ∈ s.calls, c.ended | _ => True) : InTurn (s.step a) := by
  cases a with
  | event e =>
    simp only [It.step, It.handle]
    split
    · next hf =>
      exact ⟨h.early, fun k hk => (by rw [(h.wait k hk).2] at hf; cases hf), fun k hk => by simp, h.good⟩
    · next k hf =>
      split
      · next hk =>
        have hlast : k + 1 = s.calls.length := by
          have h1 : k < s.calls.length := (List.getElem?_eq_some_iff.1 hk).1
          by_cases h2 : k + 1 < s.calls.length
          · exact (h.early k _ hk h2).elim
          · omega
        refine ⟨fun j c hc hl => ?_, fun j hj => ?_, fun j hj => by simp, fun hm => ?_⟩
        · rw [List.length_set] at hl
          rw [List.getElem?_set_ne (by omega)] at hc
          exact h.early j c hc hl
        · by_cases e : j = k
          · subst e; rw [List.getElem?_set_self (by omega)] at hj; cases hj
          · rw [List.getElem?_set_ne (Ne.symm e)] at hj
            have := (h.wait j hj).2
            rw [hf] at this; cases this; exact absurd rfl e
        · rcases List.mem_or_eq_of_mem_set hm with h' | h'
          · exact h.good h'
          · cases h'
      · next hk =>
        refine ⟨h.early, fun j hj => ?_, fun k hk => by simp, h.good⟩
        have := (h.wait j hj).2
        rw [hf] at this; cases this
        exact absurd hj hk
  | call =>
    simp only at ha
    have hget : ∀ (x : Call α) (j : Nat) c, (s.calls ++ [x])[j]? = some c → j + 1 < (s.calls ++ [x]).length → c.ended := by
      intro x j c hc hl
      rw [List.length_append] at hl
      rw [List.getElem?_append_left (by simp at hl; omega)] at hc
      exact ha c (List.mem_of_getElem? hc)
    simp only [It.step]
    split
    · next hb =>
      refine ⟨hget _, fun k hk => ⟨hb, ?_⟩, fun k hk => ?_, ?_⟩
      · by_cases hl : k < s.calls.length
        · rw [List.getElem?_append_left hl] at hk
          exact (ha _ (List.mem_of_getElem? hk)).elim
        · have := (List.getElem?_eq_some_iff.1 hk).1
          rw [List.length_append] at this
          simp at this
          have : k = s.calls.length := by omega
          rw [this]
      · by_cases hl : k < s.calls.length
        · rw [List.getElem?_append_left hl] at hk
          exact (ha _ (List.mem_of_getElem? hk)).elim
        · rw [List.getElem?_append_right (by omega)] at hk
          have := (List.getElem?_eq_some_iff.1 hk).1
          simp at this
          have : k - s.calls.length = 0 := by omega
          rw [this] at hk; cases hk
      · simp only [List.mem_append, List.mem_singleton, not_or]; exact ⟨h.good, by simp⟩
    · next x l hb =>
      refine seq_pop _ (by simp) (hget _) (by show s.buffer ≠ []; rw [hb]; simp) ?_
      show Call.indexError ∉ s.calls ++ [Call.ready]
      simp only [List.mem_append, List.mem_singleton, not_or]; exact ⟨h.good, by simp⟩
  | resume k =>
    simp only [It.step]
    split
    · next hk =>
      refine seq_pop _ ?_ h.early (h.ready k hk) h.good
      have h1 : k < s.calls.length := (List.getElem?_eq_some_iff.1 hk).1
      by_cases h2 : k + 1 < s.calls.length
      · exact (h.early k _ hk h2).elim
      · omega
    · exact h
  | cancel k =>
    have key : ∀ c, s.calls[k]? = some c → InTurn { s with calls := s.calls.set k .cancelled } := by
      intro c hk
      have hkl : k < s.calls.length := (List.getElem?_eq_some_iff.1 hk).1
      have hc : ∀ (j : Nat) c, (s.calls.set k .cancelled)[j]? = some c → (j = k ∧ c = .cancelled) ∨ s.calls[j]? = some c := by
        intro j c hc
        by_cases e : j = k
        · subst e; rw [List.getElem?_set_self hkl] at hc; cases hc; exact .inl ⟨rfl, rfl⟩
        · rw [List.getElem?_set_ne (Ne.symm e)] at hc; exact .inr hc
      refine ⟨fun j c hj hl => ?_, fun j hj => ?_, fun j hj => ?_, fun hm => ?_⟩
      · rw [List.length_set] at hl
        rcases hc j c hj with ⟨rfl, rfl⟩ | h'
        · trivial
        · exact h.early j c h' hl
      · rcases hc j _ hj with ⟨_, h'⟩ | h'
        · cases h'
        · exact h.wait j h'
      · rcases hc j _ hj with ⟨_, h'⟩ | h'
        · cases h'
        · exact h.ready j h'
      · rcases List.mem_or_eq_of_mem_set hm with h' | h'
        · exact h.good h'
        · cases h'
    simp only [It.step]
    split
    · next hk => exact key _ hk
    · next hk => exact key _ hk
    · exact h

/-- **C85.** If the calls are made one after the other, none fails, and none is left waiting while there is an event: a call that waits is
the one that the next event wakes up. -/
theorem C85_one_at_a_time (as : List (IAct α)) (h : OneAtATime (It.init α) as) :
    Call.indexError ∉ ((It.init α).run as).calls ∧
    ∀ (k : Nat), ((It.init α).run as).calls[k]? = some .waiting → ((It.init α).run as).buffer = [] ∧
      ∀ e, (((It.init α).run as).handle e).2 = false ∧ (((It.init α).run as).handle e).1.calls[k]? = some .ready := by
  suffices hs : ∀ s : It α, InTurn s → OneAtATime s as → InTurn (s.run as) by
    have hi : InTurn (It.init α) := ⟨by simp [It.init], by simp [It.init], by simp [It.init], by simp [It.init]⟩
    have hq := hs _ hi h
    refine ⟨hq.good, fun k hk => ⟨(hq.wait k hk).1, fun e => ?_⟩⟩
    have hl : k < ((It.init α).run as).calls.length := (List.getElem?_eq_some_iff.1 hk).1
    simp only [It.handle, (hq.wait k hk).2, hk, List.getElem?_set_self hl, and_self]
  clear h
  induction as with
  | nil => exact fun s hs _ => hs
  | cons a as ih =>
    intro s hs ho
    exact ih _ (seq_step hs a ho.1) ho.2

/-- C85, exactly: an event makes the iterator raise if and only if a call has waited before, and that call does not wait any more. -/
theorem C85_raises_iff (s : It α) (e : α) : (s.handle e).2 = true ↔ ∃ k, s.future = some k ∧ s.calls[k]? ≠ some .waiting := by
  cases hf : s.future with
  | none => simp [It.handle, hf]
  | some k => by_cases h : s.calls[k]? = some .waiting <;> simp [It.handle, hf, h]

/-- An iterator that has been waited for, and has got an event since. -/
theorem C85_spent_step {s : It α} {k : Nat} (hf : s.future = some k) (hk : k < s.calls.length) (hw : s.calls[k]? ≠ some .waiting) (a : IAct α)
    (ha : a ≠ .call) : (s.step a).future = some k ∧ k < (s.step a).calls.length ∧ (s.step a).calls[k]? ≠ some .waiting := by
  have hset : ∀ (j : Nat) (c : Call α), c ≠ .waiting → k < (s.calls.set j c).length ∧ (s.calls.set j c)[k]? ≠ some .waiting := by
    intro j c hc
    refine ⟨by rw [List.length_set]; exact hk, ?_⟩
    by_cases e : j = k
    · subst e; rw [List.getElem?_set_self hk]; simpa using hc
    · rw [List.getElem?_set_ne e]; exact hw
  cases a with
  | event e =>
    have : s.step (.event e) = { s with buffer := e :: s.buffer, events := s.events ++ [e] } := by
      simp only [It.step, It.handle, hf]
    rw [this]
    exact ⟨hf, hk, hw⟩
  | call => exact absurd rfl ha
  | resume j =>
    simp only [It.step, It.pop]
    split
    · split
      · exact ⟨hf, hset _ _ (by simp)⟩
      · exact ⟨hf, hset _ _ (by simp)⟩
    · exact ⟨hf, hk, hw⟩
  | cancel j =>
    simp only [It.step]
    split
    · exact ⟨hf, hset _ _ (by simp)⟩
    · exact ⟨hf, hset _ _ (by simp)⟩
    · exact ⟨hf, hk, hw⟩

/-- **C85 is false in what concerns others:** after a call that had to wait, the first event is handled, but every further one makes
`handle_event` raise an exception, until the next call that has to wait; whether the first call has been resumed or not, and
also if it was cancelled instead. -/
theorem C85_refuted_second_event (s : It α) (a b : α) (first : IAct α) (as : List (IAct α)) (hb : s.buffer = [])
    (hf : first = .event a ∨ first = .cancel s.calls.length) (ha : IAct.call ∉ as) :
    ((s.run (.call :: first :: as)).handle b).2 = true := by
  have h0 : ∀ (s1 : It α) (k : Nat) (as : List (IAct α)), IAct.call ∉ as → s1.future = some k → k < s1.calls.length → s1.calls[k]? ≠ some .waiting →
      ((s1.run as).handle b).2 = true := by
    intro s1 k as
    induction as generalizing s1 with
    | nil =>
      intro _ h1 h2 h3
      show (s1.handle b).2 = true
      simp [It.handle, h1]
    | cons x as ih =>
      intro hx h1 h2 h3
      simp only [List.mem_cons, not_or] at hx
      obtain ⟨g1, g2, g3⟩ := C85_spent_step h1 h2 h3 x (Ne.symm hx.1)
      exact ih _ hx.2 g1 g2 g3
  have hc : s.step .call = { s with calls := s.calls ++ [.waiting], future := some s.calls.length } := by simp only [It.step, hb]
  have hg : (s.calls ++ [Call.waiting])[s.calls.length]? = some Call.waiting := by simp
  refine h0 ((s.step .call).step first) s.calls.length as ha ?_ ?_ ?_
  · rw [hc]
    rcases hf with rfl | rfl
    · simp only [It.step, It.handle, hg]
    · simp only [It.step, hg]
  · rw [hc]
    rcases hf with rfl | rfl
    · simp [It.step, It.handle]
    · simp [It.step]
  · rw [hc]
    rcases hf with rfl | rfl
    · simp [It.step, It.handle]
    · simp [It.step]

/-- With two calls at the same time, the first one is left waiting, whatever happens later. -/
theorem C85_refuted_two_calls (s : It α) (as : List (IAct α)) (hb : s.buffer = []) (hc : IAct.cancel s.calls.length ∉ as) :
    ((s.run (.call :: .call :: as)).calls[s.calls.length]?) = some .waiting := by
  have h0 : ∀ (as : List (IAct α)) (s1 : It α) (k j : Nat), IAct.cancel k ∉ as → s1.calls[k]? = some .waiting → s1.future = some j → k < j →
      (s1.run as).calls[k]? = some .waiting := by
    intro as
    induction as with
    | nil => exact fun s1 k j _ h _ _ => h
    | cons a as ih =>
      intro s1 k j hn hk hj hkj
      simp only [List.mem_cons, not_or] at hn
      have hkl : k < s1.calls.length := (List.getElem?_eq_some_iff.1 hk).1
      have hset : ∀ (m : Nat) (c : Call α), m ≠ k → (s1.calls.set m c)[k]? = some .waiting := by
        intro m c hm; rw [List.getElem?_set_ne hm]; exact hk
      have : (s1.step a).calls[k]? = some .waiting ∧ ∃ j, (s1.step a).future = some j ∧ k < j := by
        cases a with
        | event e =>
          simp only [It.step, It.handle, hj]
          split
          · exact ⟨hset _ _ (by omega), j, rfl, hkj⟩
          · exact ⟨hk, j, rfl, hkj⟩
        | call =>
          simp only [It.step, It.pop]
          split
          · exact ⟨by rw [List.getElem?_append_left hkl]; exact hk, _, rfl, hkl⟩
          · split
            · refine ⟨?_, j, hj, hkj⟩
              show ((s1.calls ++ [Call.ready]).set s1.calls.length _)[k]? = _
              rw [List.getElem?_set_ne (by omega), List.getElem?_append_left hkl]; exact hk
            · refine ⟨?_, j, hj, hkj⟩
              show ((s1.calls ++ [Call.ready]).set s1.calls.length _)[k]? = _
              rw [List.getElem?_set_ne (by omega), List.getElem?_append_left hkl]; exact hk
        | resume m =>
          have hm : s1.calls[m]? = some .ready → m ≠ k := by rintro h rfl; rw [hk] at h; cases h
          simp only [It.step, It.pop]
          split
          · next h =>
            split
            · exact ⟨hset _ _ (hm h), j, hj, hkj⟩
            · exact ⟨hset _ _ (hm h), j, hj, hkj⟩
          · exact ⟨hk, j, hj, hkj⟩
        | cancel m =>
          have hm : m ≠ k := by rintro rfl; exact hn.1 rfl
          simp only [It.step]
          split
          · exact ⟨hset _ _ hm, j, hj, hkj⟩
          · exact ⟨hset _ _ hm, j, hj, hkj⟩
          · exact ⟨hk, j, hj, hkj⟩
      obtain ⟨h1, j', h2, h3⟩ := this
      exact ih _ k j' hn.2 h1 h2 h3
  have e1 : s.step .call = { s with calls := s.calls ++ [.waiting], future := some s.calls.length } := by simp only [It.step, hb]
  have e2 : (s.step .call).step .call = { s with calls := s.calls ++ [.waiting] ++ [.waiting], future := some (s.calls.length + 1) } := by
    rw [e1]; simp [It.step, hb]
  show (((s.step .call).step .call).run as).calls[s.calls.length]? = _
  rw [e2]
  refine h0 as _ s.calls.length (s.calls.length + 1) hc (by simp) rfl (by omega)

end

/-- **C85, partial.** As long as the iterator raises nothing, the other handlers get exactly what they would get without it.
Missing: `C85_refuted_dispatch`. -/
theorem C85_others_partial (i : SigInfo) (hs : List (Filter × Option HId)) (s : St) (it : It SigInfo)
    (h : (dispatchWith s it i hs).2 = false) : (dispatchWith s it i hs).1.1 = deliverAll s i hs := by
  induction hs generalizing s it with
  | nil => rfl
  | cons kv hs ih =>
    obtain ⟨flt, hd⟩ := kv
    simp only [dispatchWith, deliverAll, List.foldl_cons] at h ⊢
    by_cases hm : matchSignal i flt = true
    · simp only [hm, if_true] at h ⊢
      cases hd with
      | some hd => exact ih _ _ h
      | none =>
        simp only at h ⊢
        split at h
        · cases h
        · next it' e => exact ih _ _ h
    · simp only [hm] at h ⊢
      cases hd with
      | some hd => exact ih _ _ h
      | none => exact ih _ _ h

/-- Without a signal iterator among the handlers no exception is raised, and everybody gets the event. -/
theorem C85_none_partial (i : SigInfo) (hs : List (Filter × Option HId)) (s : St) (it : It SigInfo)
    (h : ∀ kv ∈ hs, kv.2 ≠ none) : dispatchWith s it i hs = ((deliverAll s i hs, it), false) := by
  induction hs generalizing s with
  | nil => rfl
  | cons kv hs ih =>
    obtain ⟨flt, hd⟩ := kv
    have hd' : hd ≠ none := h (flt, hd) (by simp)
    cases hd with
    | none => exact absurd rfl hd'
    | some hd =>
      simp only [dispatchWith, deliverAll, List.foldl_cons]
      split
      · exact ih _ fun kv k => h kv (by simp [k])
      · exact ih _ fun kv k => h kv (by simp [k])

example (s : St) (it : It SigInfo) : dispatchWith s it (chldInfo 8 (.exited 0)) [(stopFilter, some .stop), (procFilter 8, some (.proc 8))] =
    ((deliverAll s (chldInfo 8 (.exited 0)) [(stopFilter, some .stop), (procFilter 8, some (.proc 8))], it), false) :=
  C85_none_partial _ _ _ _ (by simp)

/-- **C85 is false in what concerns others:** when the iterator raises, the handlers that were registered after it do not get the event. -/
theorem C85_refuted_dispatch (i : SigInfo) (before after : List (Filter × Option HId)) (flt : Filter) (s : St) (it : It SigInfo)
    (hb : ∀ kv ∈ before, kv.2 ≠ none) (hm : matchSignal i flt = true) (hr : (it.handle i).2 = true) :
    (dispatchWith s it i (before ++ (flt, none) :: after)).1.1 = deliverAll s i before ∧
    (dispatchWith s it i (before ++ (flt, none) :: after)).2 = true := by
  induction before generalizing s with
  | nil =>
    simp only [List.nil_append, dispatchWith, hm, if_true, deliverAll, List.foldl_nil]
    rw [show it.handle i = ((it.handle i).1, true) by rw [← hr]]
    exact ⟨rfl, rfl⟩
  | cons kv before ih =>
    obtain ⟨f, hd⟩ := kv
    have hd' : hd ≠ none := hb (f, hd) (by simp)
    cases hd with
    | none => exact absurd rfl hd'
    | some hd =>
      simp only [List.cons_append, dispatchWith, deliverAll, List.foldl_cons]
      split
      · exact ih _ fun kv h => hb kv (by simp [h])
      · exact ih _ fun kv h => hb kv (by simp [h])

/-! ### examples -/

/-- one call after the other: the first waits, two events arrive, the second call finds an event -/
def iterEx : List (IAct Nat) := [.call, .event 1, .event 2, .resume 0, .call, .call, .event 3, .resume 2]

example : OneAtATime (It.init Nat) iterEx := by
  simp [iterEx, OneAtATime, It.step, It.init, It.handle, It.pop, Call.ended]

example : ((It.init Nat).run iterEx).out = [1, 2, 3] ∧ ((It.init Nat).run iterEx).calls = [.got 1, .got 2, .got 3] ∧
    (((It.init Nat).run [.call, .event 1]).handle 2).2 = true := by decide

/-- Someone waits for the next `SIGCHLD`; then two processes end, and only the first is noticed: the exit of process 8 is
reaped, but its handler is never told, so it seems to run for ever. -/
example :
    let it := (It.init SigInfo).run [.call, .event (chldInfo 7 (.exited 0))]
    let s := run (init .signalfd) [.spawn 7 true, .spawn 8 true]
    let hs : List (Filter × Option HId) := [(stopFilter, some .stop), ([(.signo, SIGCHLD)], none), (procFilter 7, some (.proc 7)), (procFilter 8, some (.proc 8))]
    (dispatchWith s it (chldInfo 8 (.exited 0)) hs).2 = true ∧
    ((dispatchWith s it (chldInfo 8 (.exited 0)) hs).1.1.procs.get? 8).map ProcSt.isRunning = some true ∧
    ((deliverAll s (chldInfo 8 (.exited 0)) hs).procs.get? 8).map ProcSt.isRunning = some false := by decide

end Pieshell.Sig
