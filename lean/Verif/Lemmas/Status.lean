import Verif.Lemmas.Signal4
import Verif.Spec.Status

/-! The last event of a process is the last one pieshell was told of. -/
namespace Pieshell.Status
open Pieshell.Sig Dict

/-- Events are recorded. -/
def Rec (g : St) : Prop := ∀ p, (g.procs.get? p = none → told g p = []) ∧ lastEvent g p = (told g p).getLast?

theorem rec_congr {g g' : St} (h : Rec g) (h1 : g'.procs = g.procs) (h2 : g'.deliv = g.deliv) : Rec g' := by
  intro p
  have := h p
  simp only [told, lastEvent, h1, h2] at *
  exact this

theorem told_append (g g' : St) (h : HId) (i : SigInfo) (hd : g'.deliv = g.deliv ++ [(h, i)]) (p : Nat) :
    told g' p = told g p ++ (if h = .proc p then [i] else []) := by
  simp only [told, hd, List.filter_append, List.map_append]
  congr 1
  by_cases e : h = .proc p
  · simp [e]
  · simp [e]

theorem rec_handleEvent {g : St} (hr : Rec g) (h : HId) (i : SigInfo) : Rec (handleEvent g h i) := by
  cases h with
  | stop =>
    intro p
    have := told_append g (handleEvent g .stop i) .stop i rfl p
    simp only [reduceCtorEq, if_false, List.append_nil] at this
    rw [this]
    exact hr p
  | proc q =>
    intro p
    have hd : (handleEvent g (.proc q) i).deliv = g.deliv ++ [(.proc q, i)] := by
      simp only [handleEvent]; split <;> rfl
    have ht := told_append g _ _ i hd p
    have hp : ∃ b, (handleEvent g (.proc q) i).procs = g.procs.set q ⟨some i, b⟩ := by
      simp only [handleEvent]; split
      · exact ⟨_, rfl⟩
      · exact ⟨_, rfl⟩
    obtain ⟨b, hp⟩ := hp
    rw [ht]
    simp only [lastEvent, hp, Dict.get?_set, HId.proc.injEq]
    by_cases e : q = p
    · simp [e]
    · simp only [if_neg e, List.append_nil]
      exact hr p

theorem rec_dispatch {g : St} (hr : Rec g) (i : SigInfo) : Rec (dispatch g i) := by
  have : ∀ (l : Dict Filter HId) (s : St), Rec s →
      Rec (l.foldl (fun s kv => if matchSignal i kv.1 then handleEvent s kv.2 i else s) s) := by
    intro l
    induction l with
    | nil => intro s h; exact h
    | cons kv l ih =>
      intro s h
      simp only [List.foldl_cons]
      apply ih
      split
      · exact rec_handleEvent h _ _
      · exact h
  exact this _ _ hr

theorem rec_begin {g : St} (hr : Rec g) : Rec (begin g) := by
  unfold begin
  split
  · split
    · exact rec_congr hr rfl rfl
    · exact hr
  · split
    · exact hr
    · dsimp only
      split
      · exact rec_congr hr rfl rfl
      · refine rec_dispatch ?_ _; exact rec_congr hr rfl rfl

theorem rec_step {g : St} (hi : Inv g) (hr : Rec g) (a : Act) : Rec (step g a) := by
  cases a with
  | spawn q reg =>
    cases hk : g.kids.get? q with
    | some k => simp only [step, hk]; exact hr
    | none =>
      cases reg with
      | false => simp only [step, hk]; exact rec_congr hr rfl rfl
      | true =>
        simp only [step, hk]
        intro p
        have h0 := (hr p)
        have hq : told g q = [] := (hr q).1 ((hi.pi q).known hk).1
        simp only [told, lastEvent] at h0 hq ⊢
        by_cases e : q = p
        · subst e; simp [Dict.get?_set, hq]
        · simpa [Dict.get?_set, e] using h0
  | change q ch =>
    simp only [step]
    split
    · exact hr
    · split
      · exact hr
      · exact rec_congr hr rfl rfl
  | tstp q => simp only [step]; split <;> first | exact hr | exact rec_congr hr rfl rfl
  | catchChld => simp only [step]; split <;> (try split) <;> first | exact hr | exact rec_congr hr rfl rfl
  | catchTstp => simp only [step]; split <;> (try split) <;> first | exact hr | exact rec_congr hr rfl rfl
  | event => simp only [step]; split <;> first | exact rec_begin hr | exact hr
  | readChld => simp only [step]; split <;> (try split) <;> first | exact hr | exact rec_congr hr rfl rfl
  | readStop =>
    rcases readStop_cases g with h | ⟨q, h1, h2, h4⟩
    · rw [h]; exact hr
    · rw [h4]; refine rec_dispatch ?_ _; exact rec_congr hr rfl rfl
  | readNone => simp only [step]; split <;> (try split) <;> first | exact hr | exact rec_congr hr rfl rfl
  | reap p =>
    rcases reap_cases g p with h | ⟨ch, k, h1, h2, h3, h4⟩
    · rw [h]; exact hr
    · rw [h4]; refine rec_dispatch ?_ _; exact rec_congr hr rfl rfl
  | waitEnd => simp only [step]; split <;> (try split) <;> first | exact hr | exact rec_congr hr rfl rfl

theorem rec_run (m : Mgr) (as : List Act) : Rec (run (init m) as) := by
  have : ∀ (as : List Act) (s : St), Inv s → Rec s → Rec (run s as) := by
    intro as
    induction as with
    | nil => intro s _ h; exact h
    | cons a as ih => intro s hi h; exact ih (step s a) (inv_step hi a) (rec_step hi h a)
  exact this as _ (inv_init m) (fun p => ⟨fun _ => rfl, rfl⟩)

/-- Being told of an exit. -/
theorem toldExit_received {g : St} {p c : Nat} (h : ToldExit g p c) : (⟨SIGCHLD, CLD_EXITED, p, c⟩ : SigInfo) ∈ receivedBy g p := by
  simp only [ToldExit, told, List.mem_map, List.mem_filter] at h
  obtain ⟨d, ⟨h1, h2⟩, h3⟩ := h
  simp only [receivedBy, List.mem_map, List.mem_filter]
  exact ⟨d, ⟨h1, by rw [h2, h3]; rfl⟩, h3⟩

theorem toldExit_changes {g : St} (hi : Inv g) {p c : Nat} (h : ToldExit g p c) : Change.exited c ∈ changesOf g p := by
  have hr := toldExit_received h
  have hs := (sublist_of_append_left (hi.pi p).sub).subset hr
  obtain ⟨ch, h1, h2⟩ := List.mem_map.1 hs
  have hv := (hi.pi p).valid ch h1
  have hc : (decode ch.status).1 = CLD_EXITED := congrArg SigInfo.code h2
  obtain ⟨c', rfl⟩ := (decode_exited ch hv).1 hc
  have h3 : (decode (Change.exited c').status).2 = c := congrArg SigInfo.status h2
  rw [decode_of_valid _ hv (fun e => by cases e)] at h3
  simp only [expected] at h3
  rw [← h3]; exact h1

/-- A program that is not running any more: told of its exit, and this is the last event. -/
theorem not_running {g : St} (hi : Inv g) (hr : Rec g) {p : Nat} (hp : Registered g p) (h : procRunning g p = false) :
    ∃ c, ToldExit g p c ∧ lastEvent g p = some ⟨SIGCHLD, CLD_EXITED, p, c⟩ := by
  cases hps : g.procs.get? p with
  | none => simp [Registered, hps] at hp
  | some ps =>
    have hd : ps.done = true := by simpa [procRunning, hps, ProcSt.isRunning] using h
    obtain ⟨c, h1, h2⟩ := done_exited hi hps hd
    have hl : lastEvent g p = some ⟨SIGCHLD, CLD_EXITED, p, c⟩ := by simp [lastEvent, hps, h2]
    refine ⟨c, ?_, hl⟩
    rw [(hr p).2] at hl
    exact List.mem_of_getLast? hl

theorem toldExit_not_running {g : St} (hi : Inv g) {p c : Nat} (hp : Registered g p) (h : ToldExit g p c) : procRunning g p = false := by
  cases hps : g.procs.get? p with
  | none => simp [Registered, hps] at hp
  | some ps =>
    cases hd : ps.done with
    | true => simp [procRunning, hps, ProcSt.isRunning, hd]
    | false => exact absurd rfl ((hi.pi p).notdone ps hps hd _ (toldExit_received h))

theorem toldExit_unique {g : St} (hi : Inv g) {p c c' : Nat} (h : ToldExit g p c) (h' : ToldExit g p c') : c = c' := by
  have := final_unique hi (toldExit_changes hi h) (toldExit_changes hi h') rfl rfl
  cases this; rfl

theorem running_iff {g : St} (hi : Inv g) (hr : Rec g) {p : Nat} (hp : Registered g p) :
    procRunning g p = true ↔ ¬ ∃ c, ToldExit g p c := by
  constructor
  · rintro h ⟨c, hc⟩
    rw [toldExit_not_running hi hp hc] at h; cases h
  · intro h
    cases h1 : procRunning g p with
    | true => rfl
    | false => obtain ⟨c, h2, _⟩ := not_running hi hr hp h1; exact absurd ⟨c, h2⟩ h

theorem exit_of_told {g : St} (hi : Inv g) (hr : Rec g) {p c : Nat} (hp : Registered g p) (h : ToldExit g p c) :
    procExit g p = .ok c := by
  obtain ⟨c', h1, h2⟩ := not_running hi hr hp (toldExit_not_running hi hp h)
  rw [toldExit_unique hi h h1]
  simp [procExit, h2]

mutual
theorem isRunning_iff {g : St} (hi : Inv g) (hr : Rec g) : ∀ it : Item, Known g it → (isRunning g it = true ↔ Active g it)
  | .proc _, hk => by simp only [isRunning, Active]; exact running_iff hi hr hk
  | .func st, _ => by simp [isRunning, Active]
  | .fg l, hk => by simp only [isRunning, Active]; exact anyRunning_iff hi hr l hk
theorem anyRunning_iff {g : St} (hi : Inv g) (hr : Rec g) : ∀ l : List Item, AllKnown g l → (anyRunning g l = true ↔ SomeActive g l)
  | [], _ => by simp [anyRunning, SomeActive]
  | it :: l, hk => by
    simp only [anyRunning, SomeActive, Bool.or_eq_true]
    rw [isRunning_iff hi hr it hk.1, anyRunning_iff hi hr l hk.2]
end

theorem not_isRunning_iff {g : St} (hi : Inv g) (hr : Rec g) (it : Item) (h : Known g it) : isRunning g it = false ↔ ¬ Active g it := by
  rw [← isRunning_iff hi hr it h]; simp

mutual
/-- Something that has ended well or badly is not active. -/
theorem bad_not_active {g : St} : ∀ it : Item, Bad g it → ¬ Active g it
  | .proc p, h => by
    simp only [Bad, Active] at *
    obtain ⟨c, _, h1⟩ := h
    exact fun h2 => h2 ⟨c, h1⟩
  | .func st, h => by simp only [Bad, Active] at *; rw [h]; simp
  | .fg l, h => by simp only [Bad, Active] at *; exact h.1
end

open Classical in
theorem filter_ne_nil {g : St} : ∀ l : List Item, l.filter (fun it => decide (Bad g it)) ≠ [] ↔ SomeBad g l
  | [] => by simp [SomeBad]
  | it :: l => by
    rw [SomeBad, ← filter_ne_nil l, List.filter_cons]
    by_cases h : Bad g it <;> simp [h]

open Classical in
mutual
theorem isFailed_spec {g : St} (hi : Inv g) (hr : Rec g) : ∀ it : Item, Known g it → ¬ Active g it →
    isFailed g it = .ok (decide (Bad g it))
  | .proc p, hk, hn => by
    simp only [Active, Classical.not_not] at hn
    obtain ⟨c, hc⟩ := hn
    have : Bad g (.proc p) ↔ c ≠ 0 := by
      simp only [Bad]
      exact ⟨fun ⟨c', h1, h2⟩ => by rw [toldExit_unique hi hc h2]; exact h1, fun h => ⟨c, h, hc⟩⟩
    simp [isFailed, exit_of_told hi hr hk hc, Except.map, this]
  | .func st, _, _ => by simp only [isFailed, Bad]; congr
  | .fg l, hk, hn => by
    simp only [Active] at hn
    have : Bad g (.fg l) ↔ SomeBad g l := by simp [Bad, hn]
    simp only [isFailed, failedItems_spec hi hr l hk, Except.map, this, ← filter_ne_nil]
    cases l.filter (fun it => decide (Bad g it)) <;> simp
theorem failedItems_spec {g : St} (hi : Inv g) (hr : Rec g) : ∀ l : List Item, AllKnown g l →
    failedItems g l = .ok (l.filter (fun it => decide (Bad g it)))
  | [], _ => rfl
  | it :: l, hk => by
    have h1 := failedItems_spec hi hr l hk.2
    simp only [failedItems]
    by_cases ha : Active g it
    · rw [if_pos ((isRunning_iff hi hr it hk.1).2 ha), h1, List.filter_cons]
      rw [if_neg (by simp only [decide_eq_true_eq]; exact fun hb => bad_not_active it hb ha)]
    · rw [if_neg (by rw [isRunning_iff hi hr it hk.1]; exact ha), isFailed_spec hi hr it hk.1 ha, h1, List.filter_cons]
      rfl
end

/-! ### Processes that never sent a stop signal to the shell -/

def NoStops (p : Nat) (g : St) : Prop := g.tstp ≠ some p ∧ ∀ i ∈ told g p, i.signo = SIGCHLD

theorem told_sub {g g' : St} {d : List (HId × SigInfo)} (hd : g'.deliv = g.deliv ++ d) (p : Nat) :
    told g' p = told g p ++ (d.filter (fun x => x.1 == HId.proc p)).map Prod.snd := by
  simp only [told, hd, List.filter_append, List.map_append]

theorem noStops_frame {p : Nat} {g g' : St} (h : NoStops p g) (h1 : g'.tstp = g.tstp ∨ g'.tstp = none) (h2 : g'.deliv = g.deliv) :
    NoStops p g' := by
  refine ⟨?_, ?_⟩
  · rcases h1 with e | e <;> rw [e]
    · exact h.1
    · simp
  · simp only [told, h2]; exact h.2

theorem noStops_step {g : St} (hi : Inv g) {p : Nat} (h : NoStops p g) (a : Act) (ha : a ≠ .tstp p) : NoStops p (step g a) := by
  cases a with
  | spawn q reg =>
    cases hk : g.kids.get? q with
    | some k => simp only [step, hk]; exact h
    | none => cases reg <;> simp only [step, hk] <;> exact noStops_frame h (.inl rfl) rfl
  | change q ch =>
    simp only [step]
    split
    · exact h
    · split
      · exact h
      · exact noStops_frame h (.inl rfl) rfl
  | tstp q =>
    simp only [step]
    split
    · exact h
    · refine ⟨?_, h.2⟩
      intro e
      cases e
      exact ha rfl
  | catchChld => simp only [step]; split <;> (try split) <;> first | exact h | exact noStops_frame h (.inl rfl) rfl
  | catchTstp => simp only [step]; split <;> (try split) <;> first | exact h | exact noStops_frame h (.inr rfl) rfl
  | event =>
    simp only [step]
    split
    · obtain ⟨_, h1, h2⟩ := begin_fields g
      exact noStops_frame h (.inl h2) h1
    · exact h
  | readChld => simp only [step]; split <;> (try split) <;> first | exact h | exact noStops_frame h (.inl rfl) rfl
  | readNone => simp only [step]; split <;> (try split) <;> first | exact h | exact noStops_frame h (.inl rfl) rfl
  | waitEnd => simp only [step]; split <;> (try split) <;> first | exact h | exact noStops_frame h (.inl rfl) rfl
  | readStop =>
    rcases readStop_cases g with h0 | ⟨q, h1, h2, h4⟩
    · rw [h0]; exact h
    · rw [h4]
      have hqp : q ≠ p := by rintro rfl; exact h.1 h2
      refine ⟨?_, ?_⟩
      · rw [(dispatch_static _ _).2.2.1]; simp
      · unfold dispatch; rw [told_sub (deliv_foldl (tstpInfo q) g.handlers { g with tstp := none })]
        intro i hm
        rcases List.mem_append.1 hm with hm | hm
        · exact h.2 i hm
        · simp only [List.mem_map, List.mem_filter, beq_iff_eq] at hm
          obtain ⟨x, ⟨⟨kv, ⟨h5, h6⟩, rfl⟩, h7⟩, rfl⟩ := hm
          obtain ⟨f, hd⟩ := kv
          simp only at h7 h6
          subst h7
          rcases hi.wf f _ h5 with ⟨_, h8⟩ | ⟨p', h8, h9⟩
          · cases h8
          · cases h9
            rw [h8, match_tstp_proc] at h6
            exact absurd (by simpa using h6) hqp
  | reap q =>
    rcases reap_cases g q with h0 | ⟨ch, k, h1, h2, h3, h4⟩
    · rw [h0]; exact h
    · rw [h4]
      refine ⟨?_, ?_⟩
      · rw [(dispatch_static _ _).2.2.1]; exact h.1
      · unfold dispatch; rw [told_sub (deliv_foldl (chldInfo q ch) g.handlers { g with kids := g.kids.set q ⟨none, k.ended⟩ })]
        intro i hm
        rcases List.mem_append.1 hm with hm | hm
        · exact h.2 i hm
        · simp only [List.mem_map, List.mem_filter, beq_iff_eq] at hm
          obtain ⟨x, ⟨⟨kv, _, rfl⟩, _⟩, rfl⟩ := hm
          rfl

theorem noStops_run (m : Mgr) {p : Nat} (as : List Act) (h : Act.tstp p ∉ as) : NoStops p (run (init m) as) := by
  have : ∀ (as : List Act) (s : St), Act.tstp p ∉ as → Inv s → NoStops p s → NoStops p (run s as) := by
    intro as
    induction as with
    | nil => intro s _ _ h; exact h
    | cons a as ih =>
      intro s hn hi h
      exact ih (step s a) (fun hm => hn (.tail _ hm)) (inv_step hi a) (noStops_step hi h a (fun e => hn (e ▸ .head _)))
  exact this as _ h (inv_init m) ⟨by simp [init], by simp [told, init]⟩

theorem told_eq_received {g : St} {p : Nat} (h : NoStops p g) : told g p = receivedBy g p := by
  simp only [told, receivedBy]
  congr 1
  apply List.filter_congr
  intro d hd
  by_cases e : d.1 = .proc p
  · have : d.2 ∈ told g p := List.mem_map.2 ⟨d, List.mem_filter.2 ⟨hd, by simp [e]⟩, rfl⟩
    simp [e, h.2 _ this]
  · simp [e]

end Pieshell.Status
