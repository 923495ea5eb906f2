import Verif.Lemmas.Signal2
/-! Progress of the managers; deliveries of stop signals. -/
namespace Pieshell.Sig
open Dict

/-! ### Stop signals -/

theorem stops_eq (s : St) : stops s = (s.deliv.filter (fun d => d.1 == HId.stop)).length := rfl

theorem stops_handleEvent (s : St) (h : HId) (i : SigInfo) :
    stops (handleEvent s h i) = stops s + (if h = .stop then 1 else 0) := by
  cases h with
  | stop => simp [stops, handleEvent]
  | proc p =>
    simp only [stops, handleEvent]
    split <;> simp

theorem handlers_tstp_filter (q : Nat) (l : Dict Filter HId) (hw : WF l) (s : St) :
    stops (l.foldl (fun s kv => if matchSignal (tstpInfo q) kv.1 then handleEvent s kv.2 (tstpInfo q) else s) s)
      = stops s + (l.filter (fun kv => kv.2 == HId.stop)).length := by
  induction l generalizing s with
  | nil => simp
  | cons kv l ih =>
    obtain ⟨f, h⟩ := kv
    have hw' : WF l := fun f h hm => hw f h (by simp [hm])
    simp only [List.foldl_cons]
    rw [ih hw']
    rcases hw f h (by simp) with ⟨rfl, rfl⟩ | ⟨p, rfl, rfl⟩
    · rw [match_tstp_stop]
      simp only [if_true, stops_handleEvent]
      simp
      omega
    · rw [match_tstp_proc]
      have : stops (if (q == p) = true then handleEvent s (.proc p) (tstpInfo q) else s) = stops s := by
        split
        · simp [stops_handleEvent]
        · rfl
      rw [this]
      simp

theorem one_stop (l : Dict Filter HId) (hw : WF l) (hu : Uniq l) (hs : l.get? stopFilter = some .stop) :
    (l.filter (fun kv => kv.2 == HId.stop)).length = 1 := by
  induction l with
  | nil => simp [get?] at hs
  | cons kv l ih =>
    obtain ⟨f, h⟩ := kv
    have hw' : WF l := fun f h hm => hw f h (by simp [hm])
    have hu' : Uniq l := by simp [Uniq, keys] at hu ⊢; exact hu.2
    rcases hw f h (by simp) with ⟨rfl, rfl⟩ | ⟨p, rfl, rfl⟩
    · have hn : stopFilter ∉ keys l := by simp [Uniq, keys] at hu ⊢; exact hu.1
      have : l.filter (fun kv => kv.2 == HId.stop) = [] := by
        rw [List.filter_eq_nil_iff]
        intro kv hkv
        obtain ⟨f, h⟩ := kv
        rcases hw' f h hkv with ⟨rfl, rfl⟩ | ⟨r, rfl, rfl⟩
        · exact absurd (by simp [keys]; exact ⟨_, hkv⟩) hn
        · simp
      simp [this]
    · have hp : procFilter p ≠ stopFilter := Ne.symm stop_ne_proc
      simp only [get?, hp, if_false] at hs
      simpa using ih hw' hu' hs

theorem stops_dispatch_tstp {s : St} (hi : Inv s) (q : Nat) : stops (dispatch s (tstpInfo q)) = stops s + 1 := by
  have h1 := handlers_tstp_filter q s.handlers hi.wf s
  rw [one_stop _ hi.wf hi.uniq hi.stop] at h1
  exact h1

theorem stops_dispatch_chld {s : St} (hw : WF s.handlers) (hu : Uniq s.handlers) (p : Nat) (ch : Change) :
    stops (dispatch s (chldInfo p ch)) = stops s := by
  rw [dispatch_chld s hw hu]
  split
  · simp [stops_handleEvent]
  · rfl

theorem handleEvent_static (s : St) (h : HId) (i : SigInfo) :
    (handleEvent s h i).mgr = s.mgr ∧ (handleEvent s h i).phase = s.phase ∧ (handleEvent s h i).tstp = s.tstp ∧
    (handleEvent s h i).sigchld = s.sigchld ∧ (handleEvent s h i).inbox = s.inbox ∧ (handleEvent s h i).kids = s.kids := by
  cases h with
  | stop => simp [handleEvent]
  | proc p => simp only [handleEvent]; split <;> simp

theorem dispatch_static (s : St) (i : SigInfo) :
    (dispatch s i).mgr = s.mgr ∧ (dispatch s i).phase = s.phase ∧ (dispatch s i).tstp = s.tstp ∧
    (dispatch s i).sigchld = s.sigchld ∧ (dispatch s i).inbox = s.inbox ∧ (dispatch s i).kids = s.kids := by
  have : ∀ (l : Dict Filter HId) (s : St), let t := l.foldl (fun s kv => if matchSignal i kv.1 then handleEvent s kv.2 i else s) s
      t.mgr = s.mgr ∧ t.phase = s.phase ∧ t.tstp = s.tstp ∧ t.sigchld = s.sigchld ∧ t.inbox = s.inbox ∧ t.kids = s.kids := by
    intro l
    induction l with
    | nil => intro s; simp
    | cons kv l ih =>
      intro s
      simp only [List.foldl_cons]
      obtain ⟨a, b, c, d, e, f⟩ := ih (if matchSignal i kv.1 then handleEvent s kv.2 i else s)
      have g := handleEvent_static s kv.2 i
      split at a <;> simp_all
  exact this s.handlers s

/-- The effect of a step on the parts that matter for stop signals. -/
theorem reap_eq (s : St) (p : Nat) (ch : Change) (k : Kid) (h : s.phase = .waiting) (hk : s.kids.get? p = some k)
    (hp : k.pending = some ch) :
    step s (.reap p) = dispatch { s with kids := s.kids.set p ⟨none, k.ended⟩ } (chldInfo p ch) := by
  simp only [step, h, hk, Option.bind_some, hp, Option.map_some, Option.getD_some]

theorem readStop_eq (s : St) (q : Nat) (h : s.phase = .reading) (ht : s.tstp = some q) :
    step s .readStop = dispatch { s with tstp := none } (tstpInfo q) := by
  simp only [step, h, ht]

theorem reap_cases (s : St) (p : Nat) : step s (.reap p) = s ∨
    ∃ ch k, s.phase = .waiting ∧ s.kids.get? p = some k ∧ k.pending = some ch ∧
      step s (.reap p) = dispatch { s with kids := s.kids.set p ⟨none, k.ended⟩ } (chldInfo p ch) := by
  by_cases hph : s.phase = .waiting
  · cases hk : s.kids.get? p with
    | none => exact Or.inl (by simp only [step, hph, hk, Option.bind_none])
    | some k =>
      cases hp : k.pending with
      | none => exact Or.inl (by simp only [step, hph, hk, Option.bind_some, hp])
      | some ch => exact Or.inr ⟨ch, k, hph, rfl, hp, reap_eq s p ch k hph hk hp⟩
  · left
    cases e : s.phase with
    | waiting => exact absurd e hph
    | idle => simp only [step, e]
    | reading => simp only [step, e]

theorem readStop_cases (s : St) : step s .readStop = s ∨
    ∃ q, s.phase = .reading ∧ s.tstp = some q ∧ step s .readStop = dispatch { s with tstp := none } (tstpInfo q) := by
  by_cases hph : s.phase = .reading
  · cases ht : s.tstp with
    | none => exact Or.inl (by simp only [step, hph, ht])
    | some q => exact Or.inr ⟨q, hph, rfl, readStop_eq s q hph ht⟩
  · left
    cases e : s.phase with
    | reading => exact absurd e hph
    | idle => simp only [step, e]
    | waiting => simp only [step, e]

def nPend (s : St) : Nat := (s.kids.filter (fun kv => kv.2.pending.isSome)).length

theorem begin_fields (s : St) : (begin s).mgr = s.mgr ∧ (begin s).deliv = s.deliv ∧ (begin s).tstp = s.tstp := by
  cases hm : s.mgr with
  | signalfd => rw [begin_signalfd s hm]; split <;> simp [hm]
  | asyncio => rw [begin_asyncio s hm]; cases s.inbox <;> simp [hm]

theorem stops_congr {s t : St} (h : t.deliv = s.deliv) : stops t = stops s := by simp [stops, h]

/-- What a step does to the manager kind, the pending stop signal and the number of deliveries. -/
theorem step_stop {s : St} (hi : Inv s) (a : Act) : (step s a).mgr = s.mgr ∧
    ((stops (step s a) = stops s ∧
        (step s a).tstp.isSome = (s.tstp.isSome || decide (tstpsIn [a] = 1)))
     ∨ (s.mgr = .asyncio ∧ stops (step s a) = stops s ∧ (step s a).tstp = none)
     ∨ (a = .readStop ∧ s.phase = .reading ∧ s.tstp.isSome = true ∧ (step s a).tstp = none ∧
          stops (step s a) = stops s + 1)) := by
  have same : ∀ t : St, t.mgr = s.mgr → t.deliv = s.deliv → t.tstp = s.tstp → tstpsIn [a] = 0 →
      t.mgr = s.mgr ∧ ((stops t = stops s ∧ t.tstp.isSome = (s.tstp.isSome || decide (tstpsIn [a] = 1)))
     ∨ (s.mgr = .asyncio ∧ stops t = stops s ∧ t.tstp = none)
     ∨ (a = .readStop ∧ s.phase = .reading ∧ s.tstp.isSome = true ∧ t.tstp = none ∧ stops t = stops s + 1)) :=
    fun t h1 h2 h3 h4 => ⟨h1, Or.inl ⟨stops_congr h2, by simp [h3, h4]⟩⟩
  cases a with
  | spawn p reg =>
    refine same _ ?_ ?_ ?_ rfl <;> (cases h : s.kids.get? p <;> cases reg <;> simp only [step, h] <;> rfl)
  | change p ch =>
    refine same _ ?_ ?_ ?_ rfl <;> (cases h : s.kids.get? p <;> simp only [step, h] <;> (try split) <;> rfl)
  | tstp q =>
    have h1 : (step s (.tstp q)).mgr = s.mgr ∧ (step s (.tstp q)).deliv = s.deliv ∧ (step s (.tstp q)).tstp.isSome = true := by
      cases h : s.tstp <;> simp [step, h]
    exact ⟨h1.1, Or.inl ⟨stops_congr h1.2.1, by rw [h1.2.2]; simp [tstpsIn]⟩⟩
  | catchChld =>
    refine same _ ?_ ?_ ?_ rfl <;> (cases h : s.mgr <;> simp only [step, h] <;> (try split) <;> first | rfl | exact h)
  | catchTstp =>
    cases h : s.mgr with
    | signalfd =>
      have e : step s .catchTstp = s := by simp only [step, h]
      rw [← h, e]
      exact same _ rfl rfl rfl rfl
    | asyncio =>
      by_cases hc : s.tstp.isSome = true
      · have e : step s .catchTstp = { s with tstp := none, inbox := s.inbox ++ [SIGTSTP] } := by
          simp only [step, h, hc, if_true]
        rw [e]
        exact ⟨h, Or.inr (Or.inl ⟨rfl, rfl, rfl⟩)⟩
      · have e : step s .catchTstp = s := by simp only [step, h, hc]; simp
        rw [e]
        exact ⟨h, Or.inl ⟨rfl, by simp [tstpsIn]⟩⟩
  | event =>
    have e : step s .event = s ∨ step s .event = begin s := by
      cases h : s.phase <;> simp [step, h]
    rcases e with e | e <;> rw [e]
    · exact same _ rfl rfl rfl rfl
    · obtain ⟨h1, h2, h3⟩ := begin_fields s
      exact same _ h1 h2 h3 rfl
  | readChld =>
    refine same _ ?_ ?_ ?_ rfl <;> (cases h : s.phase <;> simp only [step, h] <;> (try split) <;> rfl)
  | readNone =>
    refine same _ ?_ ?_ ?_ rfl <;> (cases h : s.phase <;> simp only [step, h] <;> (try split) <;> rfl)
  | waitEnd =>
    refine same _ ?_ ?_ ?_ rfl <;> (cases h : s.phase <;> simp only [step, h] <;> (try split) <;> rfl)
  | reap p =>
    rcases reap_cases s p with h | ⟨ch, k, h1, h2, h3, h4⟩
    · rw [h]; exact same _ rfl rfl rfl rfl
    · rw [h4]
      have h5 := dispatch_static { s with kids := s.kids.set p ⟨none, k.ended⟩ } (chldInfo p ch)
      have h6 := @stops_dispatch_chld { s with kids := s.kids.set p ⟨none, k.ended⟩ } hi.wf hi.uniq p ch
      refine ⟨h5.1, Or.inl ⟨h6, ?_⟩⟩
      rw [h5.2.2.1]
      simp [tstpsIn]
  | readStop =>
    rcases readStop_cases s with h | ⟨q, h1, h2, h4⟩
    · rw [h]; exact same _ rfl rfl rfl rfl
    · rw [h4]
      have hi' : Inv { s with tstp := none } := inv_frame hi rfl rfl rfl rfl rfl hi.wake
      have h5 := dispatch_static { s with tstp := none } (tstpInfo q)
      have h6 := stops_dispatch_tstp hi' q
      exact ⟨h5.1, Or.inr (Or.inr ⟨rfl, h1, by simp [h2], h5.2.2.1, h6⟩)⟩

theorem mgr_run {s : St} (hi : Inv s) (as : List Act) : (run s as).mgr = s.mgr := by
  induction as generalizing s with
  | nil => rfl
  | cons a as ih => exact (ih (inv_step hi a)).trans (step_stop hi a).1

/-- Under asyncio the callback never reads single signals. -/
theorem asyncio_phase {s : St} (hi : Inv s) (hm : s.mgr = .asyncio) (hp : s.phase ≠ .reading) (a : Act) :
    (step s a).phase ≠ .reading := by
  cases a with
  | spawn p reg => cases h : s.kids.get? p <;> cases reg <;> simp only [step, h] <;> exact hp
  | change p ch =>
    cases h : s.kids.get? p with
    | none => simp only [step, h]; exact hp
    | some k => simp only [step, h]; split <;> exact hp
  | tstp q => cases h : s.tstp <;> simp only [step, h] <;> exact hp
  | catchChld => simp only [step, hm]; split <;> exact hp
  | catchTstp => simp only [step, hm]; split <;> exact hp
  | event =>
    cases h : s.phase with
    | idle =>
      simp only [step, h]
      rw [begin_asyncio s hm]
      cases s.inbox with
      | nil => simp [h]
      | cons _ _ => simp
    | reading => exact absurd h hp
    | waiting => simp only [step, h]; simp
  | readChld => cases h : s.phase <;> simp only [step, h] <;> first | exact absurd h hp | simp
  | readNone => cases h : s.phase <;> simp only [step, h] <;> first | exact absurd h hp | simp
  | waitEnd =>
    cases h : s.phase with
    | idle => simp only [step, h]; simp
    | reading => exact absurd h hp
    | waiting =>
      simp only [step, h]
      split
      · simp [hm, afterWait]
      · exact hp
  | reap p =>
    rcases reap_cases s p with h | ⟨ch, k, h1, h2, h3, h4⟩
    · rw [h]; exact hp
    · rw [h4, (dispatch_static _ _).2.1]; exact hp
  | readStop =>
    rcases readStop_cases s with h | ⟨q, h1, h2, h4⟩
    · rw [h]; exact hp
    · exact absurd h1 hp

theorem asyncio_stops {s : St} (hi : Inv s) (hm : s.mgr = .asyncio) (hp : s.phase ≠ .reading) (as : List Act) :
    stops (run s as) = stops s := by
  induction as generalizing s with
  | nil => rfl
  | cons a as ih =>
    obtain ⟨h1, h2⟩ := step_stop hi a
    have := ih (inv_step hi a) (h1.trans hm) (asyncio_phase hi hm hp a)
    refine Eq.trans this ?_
    rcases h2 with h | h | h
    · exact h.1
    · exact h.2.1
    · exact absurd h.2.1 hp

/-- Deliveries so far plus the pending one. -/
def stopsDue (s : St) : Nat := stops s + (if s.tstp.isSome then 1 else 0)

theorem stopsDue_step {s : St} (hi : Inv s) (hm : s.mgr = .signalfd) (a : Act) :
    stopsDue s ≤ stopsDue (step s a) ∧ stopsDue (step s a) ≤ stopsDue s + tstpsIn [a] ∧ stops s ≤ stops (step s a) := by
  obtain ⟨_, h2⟩ := step_stop hi a
  rcases h2 with ⟨h, h'⟩ | h | ⟨rfl, _, h1, h2, h3⟩
  · simp only [stopsDue, h, h']
    have hle : tstpsIn [a] ≤ 1 := by simp only [tstpsIn]; exact List.length_filter_le _ _
    cases s.tstp.isSome
    · by_cases e : tstpsIn [a] = 1
      · simp [e]
      · have : tstpsIn [a] = 0 := by omega
        simp [this]
    · simp
  · rw [hm] at h; cases h.1
  · simp [stopsDue, h1, h2, h3]

theorem stopsDue_run {s : St} (hi : Inv s) (hm : s.mgr = .signalfd) (as : List Act) :
    stopsDue s ≤ stopsDue (run s as) ∧ stopsDue (run s as) ≤ stopsDue s + tstpsIn as := by
  induction as generalizing s with
  | nil => simp [run, tstpsIn]
  | cons a as ih =>
    have h1 := stopsDue_step hi hm a
    have h2 := ih (inv_step hi a) ((step_stop hi a).1.trans hm)
    have e : run s (a :: as) = run (step s a) as := rfl
    have e2 : tstpsIn (a :: as) = tstpsIn [a] + tstpsIn as := by
      show tstpsIn ([a] ++ as) = _
      simp only [tstpsIn, List.filter_append, List.length_append]
    rw [e, e2]
    omega

/-! ### Progress -/

def phaseCost (s : St) : Nat :=
  match s.phase with
  | .idle => if s.sigchld || s.tstp.isSome then 5 else 0
  | .reading => 4
  | .waiting => 6

/-- A bound on the number of steps the manager can still make by itself. -/
def work (s : St) : Nat :=
  (if s.sigchld then 10 else 0) + (if s.tstp.isSome then 10 else 0) + 8 * s.inbox.length + nPend s + phaseCost s

theorem nPend_set_none (ks : Dict Nat Kid) (p : Nat) (k : Kid) (b : Bool) (h : ks.get? p = some k)
    (hp : k.pending.isSome = true) :
    ((ks.set p ⟨none, b⟩).filter (fun kv => kv.2.pending.isSome)).length + 1 =
      (ks.filter (fun kv => kv.2.pending.isSome)).length := by
  induction ks with
  | nil => simp [get?] at h
  | cons kv ks ih =>
    obtain ⟨a, c⟩ := kv
    simp only [get?] at h
    by_cases e : a = p
    · simp only [e, if_true] at h
      cases h
      simp [Dict.set, e, hp]
    · simp only [e, if_false] at h
      have := ih h
      simp only [Dict.set, e, if_false]
      cases hc : c.pending.isSome <;> simp [hc] <;> omega

theorem work_reap {s : St} (p : Nat) : step s (.reap p) = s ∨ work (step s (.reap p)) < work s := by
  rcases reap_cases s p with h | ⟨ch, k, h1, h2, h3, h4⟩
  · exact Or.inl h
  · right
    have key : ∀ t : St, t.phase = s.phase → t.tstp = s.tstp → t.sigchld = s.sigchld → t.inbox = s.inbox →
        t.kids = s.kids.set p ⟨none, k.ended⟩ → work t < work s := by
      intro t b c d e f
      have hn := nPend_set_none s.kids p k k.ended h2 (by simp [h3])
      simp only [work, phaseCost, nPend, b, c, d, e, f]
      omega
    rw [h4]
    obtain ⟨a, b, c, d, e, f⟩ := dispatch_static { s with kids := s.kids.set p ⟨none, k.ended⟩ } (chldInfo p ch)
    exact key _ b c d e f

theorem work_readStop {s : St} : step s .readStop = s ∨ work (step s .readStop) < work s := by
  rcases readStop_cases s with h | ⟨q, h1, h2, h4⟩
  · exact Or.inl h
  · right
    have key : ∀ t : St, t.phase = s.phase → t.tstp = none → t.sigchld = s.sigchld → t.inbox = s.inbox →
        t.kids = s.kids → work t < work s := by
      intro t b c d e f
      simp only [work, phaseCost, nPend, b, c, d, e, f, h1, h2]
      simp
    rw [h4]
    obtain ⟨a, b, c, d, e, f⟩ := dispatch_static { s with tstp := none } (tstpInfo q)
    exact key _ b c d e f

theorem work_step (s : St) (a : Act) (ha : a.own = true) : step s a = s ∨ work (step s a) < work s := by
  cases a with
  | spawn p reg => cases ha
  | change p ch => cases ha
  | tstp q => cases ha
  | reap p => exact work_reap p
  | readStop => exact work_readStop
  | catchChld =>
    cases hm : s.mgr with
    | signalfd => left; simp only [step, hm]
    | asyncio =>
      by_cases hc : s.sigchld = true
      · right
        simp only [step, hm, hc, if_true, work, phaseCost, nPend]
        cases s.phase <;> cases s.tstp.isSome <;> cases s.sigchld <;> simp <;> omega
      · left; simp only [step, hm, hc]; simp
  | catchTstp =>
    cases hm : s.mgr with
    | signalfd => left; simp only [step, hm]
    | asyncio =>
      by_cases hc : s.tstp.isSome = true
      · right
        simp only [step, hm, hc, if_true, work, phaseCost, nPend]
        cases s.phase <;> cases s.tstp.isSome <;> cases s.sigchld <;> simp <;> omega
      · left; simp only [step, hm, hc]; simp
  | event =>
    cases hp : s.phase with
    | reading => left; simp only [step, hp]
    | waiting => left; simp only [step, hp]
    | idle =>
      have e : step s .event = begin s := by simp only [step, hp]
      rw [e]
      cases hm : s.mgr with
      | signalfd =>
        rw [begin_signalfd s hm]
        by_cases hc : (s.sigchld || s.tstp.isSome) = true
        · right
          simp only [hc, if_true, work, phaseCost, nPend, hp]
          omega
        · left; simp only [hc]; simp
      | asyncio =>
        rw [begin_asyncio s hm]
        cases hib : s.inbox with
        | nil => left; rfl
        | cons x rest =>
          right
          simp only [work, phaseCost, nPend, hp, hib]
          simp
          omega
  | readChld =>
    cases hp : s.phase with
    | idle => left; simp only [step, hp]
    | waiting => left; simp only [step, hp]
    | reading =>
      by_cases hc : s.sigchld = true
      · right
        simp only [step, hp, hc, if_true, work, phaseCost, nPend]
        simp
        omega
      · left; simp only [step, hp, hc]; simp
  | readNone =>
    cases hp : s.phase with
    | idle => left; simp only [step, hp]
    | waiting => left; simp only [step, hp]
    | reading =>
      by_cases hc : (s.sigchld || s.tstp.isSome) = true
      · left; simp only [step, hp, hc, if_true]
      · right
        simp only [step, hp, hc]
        simp at hc
        simp [work, phaseCost, nPend, hp, hc]
  | waitEnd =>
    cases hp : s.phase with
    | idle => left; simp only [step, hp]
    | reading => left; simp only [step, hp]
    | waiting =>
      by_cases hc : s.nothing = true
      · right
        simp only [step, hp, hc, if_true, work, phaseCost, nPend]
        cases s.mgr <;> simp [afterWait]
        split <;> omega
      · left; simp only [step, hp, hc]; simp

theorem ownWork_bound (s : St) (as : List Act) (h : OwnWork s as) : as.length + work (run s as) ≤ work s := by
  induction as generalizing s with
  | nil => simp [run]
  | cons a as ih =>
    obtain ⟨h1, h2, h3⟩ := h
    have := ih _ h3
    have h4 := (work_step s a h1).resolve_left h2
    have e : run s (a :: as) = run (step s a) as := rfl
    rw [e]
    simp only [List.length_cons]
    omega

/-- What a step adds to the deliveries. -/
theorem step_deliv {s : St} (hi : Inv s) (a : Act) : ∃ d, (step s a).deliv = s.deliv ++ d ∧
    ∀ x ∈ d, x.2.signo = SIGTSTP ∨ ∃ p ch, x = (.proc p, chldInfo p ch) := by
  have same : (step s a).deliv = s.deliv → ∃ d, (step s a).deliv = s.deliv ++ d ∧
    ∀ x ∈ d, x.2.signo = SIGTSTP ∨ ∃ p ch, x = (.proc p, chldInfo p ch) := fun h => ⟨[], by simp [h], by simp⟩
  cases a with
  | spawn p reg => refine same ?_; cases h : s.kids.get? p <;> cases reg <;> simp only [step, h] <;> rfl
  | change p ch => refine same ?_; cases h : s.kids.get? p <;> simp only [step, h] <;> (try split) <;> rfl
  | tstp q => refine same ?_; cases h : s.tstp <;> simp only [step, h]
  | catchChld => refine same ?_; cases h : s.mgr <;> simp only [step, h] <;> (try split) <;> rfl
  | catchTstp => refine same ?_; cases h : s.mgr <;> simp only [step, h] <;> (try split) <;> rfl
  | event =>
    refine same ?_
    cases h : s.phase with
    | idle => simp only [step, h]; exact (begin_fields s).2.1
    | reading => simp only [step, h]
    | waiting => simp only [step, h]
  | readChld => refine same ?_; cases h : s.phase <;> simp only [step, h] <;> (try split) <;> rfl
  | readNone => refine same ?_; cases h : s.phase <;> simp only [step, h] <;> (try split) <;> rfl
  | waitEnd => refine same ?_; cases h : s.phase <;> simp only [step, h] <;> (try split) <;> rfl
  | reap p =>
    rcases reap_cases s p with h | ⟨ch, k, h1, h2, h3, h4⟩
    · exact same (by rw [h])
    · rw [h4, dispatch_chld { s with kids := s.kids.set p ⟨none, k.ended⟩ } hi.wf hi.uniq]
      split
      · refine ⟨[(.proc p, chldInfo p ch)], ?_, fun x hx => Or.inr ⟨p, ch, by simpa using hx⟩⟩
        simp only [handleEvent]
        split <;> rfl
      · exact ⟨[], by simp, by simp⟩
  | readStop =>
    rcases readStop_cases s with h | ⟨q, h1, h2, h4⟩
    · exact same (by rw [h])
    · rw [h4]
      have hi' : Inv { s with tstp := none } := inv_frame hi rfl rfl rfl rfl rfl hi.wake
      obtain ⟨d, h5, h6⟩ := (dispatch_tstp hi' q).deliv
      exact ⟨d, h5, fun x hx => Or.inl (h6 x hx)⟩

theorem deliv_run (m : Mgr) (as : List Act) : ∀ x ∈ (run (init m) as).deliv,
    x.2.signo = SIGTSTP ∨ ∃ p ch, x = (.proc p, chldInfo p ch) := by
  have : ∀ (as : List Act) (s : St), Inv s → (∀ x ∈ s.deliv, x.2.signo = SIGTSTP ∨ ∃ p ch, x = (.proc p, chldInfo p ch)) →
      ∀ x ∈ (run s as).deliv, x.2.signo = SIGTSTP ∨ ∃ p ch, x = (.proc p, chldInfo p ch) := by
    intro as
    induction as with
    | nil => intro s _ h; exact h
    | cons a as ih =>
      intro s hi h
      refine ih (step s a) (inv_step hi a) ?_
      obtain ⟨d, h1, h2⟩ := step_deliv hi a
      intro x hx
      rw [h1] at hx
      rcases List.mem_append.1 hx with h3 | h3
      · exact h x h3
      · exact h2 x h3
  exact this as _ (inv_init m) (by simp [init])

theorem inbox_step {s : St} (hm : s.mgr = .signalfd) (h0 : s.inbox = []) (a : Act) : (step s a).inbox = [] := by
  cases a with
  | spawn p reg => cases h : s.kids.get? p <;> cases reg <;> simp only [step, h] <;> exact h0
  | change p ch => cases h : s.kids.get? p <;> simp only [step, h] <;> (try split) <;> exact h0
  | tstp q => cases h : s.tstp <;> simp only [step, h] <;> exact h0
  | catchChld => simp only [step, hm]; exact h0
  | catchTstp => simp only [step, hm]; exact h0
  | event =>
    cases h : s.phase with
    | idle => simp only [step, h]; rw [begin_signalfd s hm]; split <;> exact h0
    | reading => simp only [step, h]; exact h0
    | waiting => simp only [step, h]; exact h0
  | readChld => cases h : s.phase <;> simp only [step, h] <;> (try split) <;> exact h0
  | readNone => cases h : s.phase <;> simp only [step, h] <;> (try split) <;> exact h0
  | waitEnd => cases h : s.phase <;> simp only [step, h] <;> (try split) <;> exact h0
  | reap p =>
    rcases reap_cases s p with h | ⟨ch, k, h1, h2, h3, h4⟩
    · rw [h]; exact h0
    · rw [h4, (dispatch_static _ _).2.2.2.2.1]; exact h0
  | readStop =>
    rcases readStop_cases s with h | ⟨q, h1, h2, h4⟩
    · rw [h]; exact h0
    · rw [h4, (dispatch_static _ _).2.2.2.2.1]; exact h0

theorem inbox_run (as : List Act) : (run (init .signalfd) as).inbox = [] := by
  have : ∀ (as : List Act) (s : St), Inv s → s.mgr = .signalfd → s.inbox = [] → (run s as).inbox = [] := by
    intro as
    induction as with
    | nil => intro s _ _ h; exact h
    | cons a as ih =>
      intro s hi hm h
      exact ih (step s a) (inv_step hi a) ((step_stop hi a).1.trans hm) (inbox_step hm h a)
  exact this as _ (inv_init _) rfl rfl

theorem ne_of_phase {s t : St} (h : t.phase ≠ s.phase) : t ≠ s := fun e => h (by rw [e])

/-- Unless everything is quiet, the loop or the manager can do something. -/
theorem not_stuck {s : St} (hi : Inv s) (hib : s.mgr = .signalfd → s.inbox = []) (hq : ¬ Quiet s) :
    ∃ a : Act, a.own = true ∧ step s a ≠ s := by
  cases hp : s.phase with
  | waiting =>
    by_cases hn : s.nothing = true
    · refine ⟨.waitEnd, rfl, ne_of_phase ?_⟩
      simp only [step, hp, hn, if_true]
      cases s.mgr <;> simp [afterWait]
    · rw [nothing_iff s hi.kuniq] at hn
      have ⟨p, h⟩ := Classical.not_forall.1 hn
      refine ⟨.reap p, rfl, ?_⟩
      cases hk : s.kids.get? p with
      | none => rw [hk] at h; exact absurd rfl h
      | some k =>
        rw [hk] at h
        cases hpd : k.pending with
        | none => simp [hpd] at h
        | some ch =>
          rw [reap_eq s p ch k hp hk hpd]
          intro e
          have := (dispatch_static { s with kids := s.kids.set p ⟨none, k.ended⟩ } (chldInfo p ch)).2.2.2.2.2
          rw [e] at this
          simp only at this
          rw [this, get?_set] at hk
          simp at hk
          rw [← hk] at hpd
          cases hpd
  | reading =>
    by_cases h1 : s.sigchld = true
    · refine ⟨.readChld, rfl, ne_of_phase ?_⟩
      simp [step, hp, h1]
    · cases h2 : s.tstp with
      | some q =>
        refine ⟨.readStop, rfl, ?_⟩
        rw [readStop_eq s q hp h2]
        intro e
        have := (dispatch_static { s with tstp := none } (tstpInfo q)).2.2.1
        rw [e, h2] at this
        cases this
      | none =>
        refine ⟨.readNone, rfl, ne_of_phase ?_⟩
        simp [step, hp, h1, h2]
  | idle =>
    cases hm : s.mgr with
    | signalfd =>
      have h3 := hib hm
      refine ⟨.event, rfl, ne_of_phase ?_⟩
      have : (s.sigchld || s.tstp.isSome) = true := by
        cases h1 : s.sigchld with
        | true => rfl
        | false =>
          cases h2 : s.tstp with
          | some _ => rfl
          | none => exact absurd ⟨h1, h2, h3, hp⟩ hq
      simp only [step, hp]
      rw [begin_signalfd s hm]
      simp [this]
    | asyncio =>
      cases hib : s.inbox with
      | cons x rest =>
        refine ⟨.event, rfl, ne_of_phase ?_⟩
        simp only [step, hp]
        rw [begin_asyncio s hm, hib]
        simp
      | nil =>
        by_cases h1 : s.sigchld = true
        · refine ⟨.catchChld, rfl, ?_⟩
          simp only [step, hm, h1, if_true]
          intro e
          have := congrArg St.inbox e
          simp at this
        · cases h2 : s.tstp with
          | some q =>
            refine ⟨.catchTstp, rfl, ?_⟩
            simp only [step, hm, h2]
            intro e
            have := congrArg St.inbox e
            simp at this
          | none => exact absurd ⟨by simpa using h1, h2, hib, hp⟩ hq

/-- The report of a change tells which change it was. -/
theorem chldInfo_inj (p : Nat) (a b : Change) (ha : a.valid = true) (hb : b.valid = true)
    (h : chldInfo p a = chldInfo p b) : a = b := by
  have hd : decode a.status = decode b.status := by
    simp only [chldInfo, SigInfo.mk.injEq, true_and] at h
    exact Prod.ext h.1 h.2
  have hcont : decode Change.continued.status = (CLD_DUMPED, 127) := by decide
  have key : ∀ x : Change, x.valid = true → x ≠ .continued → decode x.status ≠ (CLD_DUMPED, 127) := by
    intro x hx hc
    rw [decode_of_valid x hx hc]
    cases x with
    | exited c => simp [expected, CLD_DUMPED, CLD_EXITED]
    | killed sig core =>
      simp [Change.valid] at hx
      cases core <;> simp [expected, CLD_DUMPED, CLD_KILLED]
      omega
    | stopped sig => simp [expected, CLD_DUMPED, CLD_STOPPED]
    | continued => exact absurd rfl hc
  by_cases h1 : a = .continued
  · by_cases h2 : b = .continued
    · rw [h1, h2]
    · subst h1; rw [hcont] at hd; exact absurd hd.symm (key b hb h2)
  · by_cases h2 : b = .continued
    · subst h2; rw [hcont] at hd; exact absurd hd (key a ha h1)
    · rw [decode_of_valid a ha h1, decode_of_valid b hb h2] at hd
      cases a <;> cases b <;> simp [expected, CLD_EXITED, CLD_KILLED, CLD_DUMPED, CLD_STOPPED] at hd h1 h2 ⊢
      · exact hd
      · split at hd <;> simp at hd
      · split at hd <;> simp at hd
      · rename_i c1 _ c2; cases c1 <;> cases c2 <;> simp at hd <;> simp [hd]
      · split at hd <;> simp at hd
      · split at hd <;> simp at hd
      · exact hd

theorem deliv_foldl (i : SigInfo) (l : Dict Filter HId) (s : St) :
    (l.foldl (fun s kv => if matchSignal i kv.1 then handleEvent s kv.2 i else s) s).deliv =
      s.deliv ++ (l.filter (fun kv => matchSignal i kv.1)).map (fun kv => (kv.2, i)) := by
  induction l generalizing s with
  | nil => simp
  | cons kv l ih =>
    simp only [List.foldl_cons]
    rw [ih]
    by_cases h : matchSignal i kv.1 = true
    · have : (handleEvent s kv.2 i).deliv = s.deliv ++ [(kv.2, i)] := by
        cases hk : kv.2 with
        | stop => simp [handleEvent]
        | proc p => simp only [handleEvent]; split <;> rfl
      simp [h, this]
    · simp [h]

end Pieshell.Sig
