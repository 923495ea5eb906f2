import Verif.Model.Pids
/-! C93: signals go to the job's own processes. -/
namespace Pieshell.Pids

/-- Item `i` of job `j` was given the number `pid`. -/
def Item (s : St) (j i pid : Nat) : Prop := ∃ l, s.jobs[j]? = some l ∧ l[i]? = some pid

/-- The process of item `i` of job `j` still has its number: it is running, stopped, or has ended but has not been waited for. -/
def Present (s : St) (j i pid : Nat) : Prop := Item s j i pid ∧ ∃ p, s.table pid = some p ∧ p.who = .ours j i

/-- Nothing of the shell's own: the beginning. -/
def Initial (s : St) : Prop := s.jobs = [] ∧ ∀ n p, s.table n = some p → ∃ id may, p.who = .other id may

/-! ### Lemmas -/

theorem put_get (s : St) (pid n : Nat) (p : Option Proc) : (s.put pid p).table n = if n = pid then p else s.table n := rfl

theorem on_who (g : Sig) (p : Proc) : (g.on p).who = p.who := by
  simp only [Sig.on]; split <;> rfl
theorem on_zombie (g : Sig) (p : Proc) : (g.on p).zombie = p.zombie := by
  simp only [Sig.on]; split <;> rfl

/-- A signal to one item: nothing changes but that process, which keeps its owner; jobs are the same. -/
theorem signalItem_spec (s : St) (g : Sig) (pid : Nat) :
    (signalItem s g pid).1.jobs = s.jobs ∧
    (∀ n, n ≠ pid → (signalItem s g pid).1.table n = s.table n) ∧
    (s.table pid = none → signalItem s g pid = (s, .ok ())) ∧
    (∀ p, s.table pid = some p → (∃ id, p.who = .other id false) ∧ signalItem s g pid = (s, .error (.osError 1)) ∨
      (∀ id, p.who ≠ .other id false) ∧ signalItem s g pid = (s.put pid (some (g.on p)), .ok ())) := by
  cases hp : s.table pid with
  | none =>
    have e : signalItem s g pid = (s, .ok ()) := by simp [signalItem, kill, hp]
    rw [e]
    exact ⟨rfl, fun _ _ => rfl, fun _ => rfl, fun p h => by cases h⟩
  | some p =>
    by_cases hw : ∃ id, p.who = .other id false
    · have e : signalItem s g pid = (s, .error (.osError 1)) := by
        obtain ⟨id, hw⟩ := hw
        simp [signalItem, kill, hp, hw]
      rw [e]
      refine ⟨rfl, fun _ _ => rfl, (by intro h; cases h), ?_⟩
      rintro q h; cases h
      exact .inl ⟨hw, rfl⟩
    · have e : signalItem s g pid = (s.put pid (some (g.on p)), .ok ()) := by
        obtain ⟨w, st, z⟩ := p
        cases w with
        | ours j i => simp [signalItem, kill, hp]
        | other id may =>
          cases may with
          | true => simp [signalItem, kill, hp]
          | false => exact absurd ⟨id, rfl⟩ hw
      rw [e]
      refine ⟨rfl, fun n hn => by rw [put_get, if_neg hn], (by intro h; cases h), ?_⟩
      rintro q h; cases h
      exact .inr ⟨fun id h => hw ⟨id, h⟩, rfl⟩

/-- Signals to all items. -/
theorem signalAll_spec (g : Sig) (l : List Nat) (s : St) :
    (signalAll g l s).1.jobs = s.jobs ∧
    (∀ n, n ∉ l → (signalAll g l s).1.table n = s.table n) ∧
    (∀ n, s.table n = none → (signalAll g l s).1.table n = none) ∧
    (∀ n p, s.table n = some p → (signalAll g l s).1.table n = some p ∨ (signalAll g l s).1.table n = some (g.on p)) ∧
    ((∀ n ∈ l, ∀ p, s.table n = some p → ∀ id, p.who ≠ .other id false) → (signalAll g l s).2 = .ok () ∧
      ∀ n ∈ l, ∀ p, s.table n = some p → (signalAll g l s).1.table n = some (g.on p)) := by
  induction l generalizing s with
  | nil => exact ⟨rfl, fun _ _ => rfl, fun _ h => h, fun _ _ h => .inl h, fun _ => ⟨rfl, fun n h => by cases h⟩⟩
  | cons a l ih =>
    obtain ⟨h1, h2, h3, h4⟩ := signalItem_spec s g a
    have hidem : ∀ p : Proc, g.on (g.on p) = g.on p := by
      intro p; simp only [Sig.on]
      split
      · rename_i h; simp [h]
      · rfl
    cases ha : s.table a with
    | none =>
      have e := h3 ha
      have : signalAll g (a :: l) s = signalAll g l s := by simp only [signalAll, e]
      rw [this]
      obtain ⟨i1, i2, i3, i4, i5⟩ := ih s
      refine ⟨i1, fun n hn => i2 n (by simp only [List.mem_cons, not_or] at hn; exact hn.2), i3, i4, fun hall => ?_⟩
      obtain ⟨j1, j2⟩ := i5 (fun n hn => hall n (by simp [hn]))
      refine ⟨j1, fun n hn p hp => ?_⟩
      rcases List.mem_cons.1 hn with rfl | hn
      · rw [ha] at hp; cases hp
      · exact j2 n hn p hp
    | some q =>
      rcases h4 q ha with ⟨⟨id, hid⟩, e⟩ | ⟨hno, e⟩
      · have : signalAll g (a :: l) s = (s, .error (.osError 1)) := by simp only [signalAll, e]
        rw [this]
        refine ⟨rfl, fun _ _ => rfl, fun _ h => h, fun _ _ h => .inl h, fun hall => ?_⟩
        exact absurd hid (hall a (by simp) q ha id)
      · have : signalAll g (a :: l) s = signalAll g l (s.put a (some (g.on q))) := by simp only [signalAll, e]
        rw [this]
        obtain ⟨i1, i2, i3, i4, i5⟩ := ih (s.put a (some (g.on q)))
        have hget : ∀ n p, s.table n = some p → (s.put a (some (g.on q))).table n = some p ∨ (s.put a (some (g.on q))).table n = some (g.on p) := by
          intro n p hp
          rw [put_get]
          split
          · rename_i e; subst e; rw [ha] at hp; cases hp; exact .inr rfl
          · exact .inl hp
        refine ⟨i1, fun n hn => ?_, fun n hn => ?_, fun n p hp => ?_, fun hall => ?_⟩
        · simp only [List.mem_cons, not_or] at hn
          rw [i2 n hn.2, put_get, if_neg hn.1]
        · refine i3 n ?_
          rw [put_get]; split
          · rename_i e; subst e; rw [ha] at hn; cases hn
          · exact hn
        · rcases hget n p hp with h | h
          · exact i4 n p h
          · rcases i4 n _ h with h' | h'
            · exact .inr h'
            · rw [hidem] at h'; exact .inr h'
        · obtain ⟨j1, j2⟩ := i5 (by
            intro n hn p hp id
            rw [put_get] at hp
            split at hp
            · cases hp; rw [on_who]; exact hno id
            · exact hall n (by simp [hn]) p hp id)
          refine ⟨j1, fun n hn p hp => ?_⟩
          by_cases hl : n ∈ l
          · rcases hget n p hp with h | h
            · exact j2 n hl p h
            · rw [j2 n hl _ h, hidem]
          · have hna : n = a := by
              rcases List.mem_cons.1 hn with h | h
              · exact h
              · exact absurd h hl
            subst hna
            rw [i2 n hl, put_get, if_pos rfl]
            rw [ha] at hp; cases hp; rfl

theorem startItems_spec (job : Nat) (l : List Nat) (i : Nat) (s : St) (hn : l.Nodup) :
    (startItems job i l s).jobs = s.jobs ∧
    (∀ n, n ∉ l → (startItems job i l s).table n = s.table n) ∧
    (∀ k pid, l[k]? = some pid → (startItems job i l s).table pid = some { who := .ours job (i + k) }) := by
  induction l generalizing i s with
  | nil => exact ⟨rfl, fun _ _ => rfl, fun k pid h => by simp at h⟩
  | cons a l ih =>
    rw [List.nodup_cons] at hn
    obtain ⟨h1, h2, h3⟩ := ih (i + 1) (s.put a (some { who := .ours job i })) hn.2
    simp only [startItems]
    refine ⟨h1, fun n hnm => ?_, fun k pid hk => ?_⟩
    · simp only [List.mem_cons, not_or] at hnm
      rw [h2 n hnm.2, put_get, if_neg hnm.1]
    · cases k with
      | zero =>
        simp only [List.getElem?_cons_zero, Option.some.injEq] at hk
        subst hk
        rw [h2 a hn.1, put_get, if_pos rfl]; rfl
      | succ k =>
        simp only [List.getElem?_cons_succ] at hk
        rw [h3 k pid hk]
        have : i + 1 + k = i + (k + 1) := by omega
        rw [this]

/-- Numbers of the items of a job belong to nobody else, unless the item has been waited for. -/
theorem jobs_step (s : St) (op : Op) (j i pid : Nat) (h : Item s j i pid) : Item (step s op) j i pid := by
  obtain ⟨l, h1, h2⟩ := h
  have keep : ∀ s' : St, s'.jobs = s.jobs → Item s' j i pid := fun s' e => ⟨l, by rw [e]; exact h1, h2⟩
  cases op with
  | start pids =>
    simp only [step]
    split
    · rename_i hf
      refine ⟨l, ?_, h2⟩
      simp only [(startItems_spec s.jobs.length pids 0 s hf.1).1]
      have := (List.getElem?_eq_some_iff.1 h1).1
      rw [List.getElem?_append_left this]; exact h1
    · exact keep _ rfl
  | fork pid' id may => simp only [step]; split <;> exact keep _ rfl
  | exit pid' => simp only [step]; split; (· exact keep _ rfl); split <;> exact keep _ rfl
  | reap => exact keep _ rfl
  | restart j' => exact keep _ (signalAll_spec _ _ s).1
  | suspend j' => exact keep _ (signalAll_spec _ _ s).1

/-! ### C93 -/

/-- **C93**: stopping or continuing a job of which no process has been waited for reaches every one of its processes that has not ended, and
nothing else; there is no exception.  Missing: jobs some of whose processes have ended and been waited for, see below. -/
theorem C93_own_partial (s : St) (j : Nat) (l : List Nat) (hj : s.jobs[j]? = some l)
    (hp : ∀ (i : Nat) pid, l[i]? = some pid → Present s j i pid) (g : Sig) (op : Op) (hop : op = match g with | .cont => .restart j | .stop => .suspend j) :
    (signalAll g l s).2 = .ok () ∧ step s op = (signalAll g l s).1 ∧
    (∀ (i : Nat) pid p, l[i]? = some pid → s.table pid = some p → p.zombie = false → (step s op).table pid = some { p with stopped := g = .stop }) ∧
    (∀ n, (step s op).table n ≠ s.table n → ∃ i p, l[i]? = some n ∧ s.table n = some p ∧ p.who = .ours j i) := by
  have e : step s op = (signalAll g l s).1 := by
    subst hop
    cases g <;> simp [step, hj]
  obtain ⟨h1, h2, h3, h4, h5⟩ := signalAll_spec g l s
  have hall : ∀ n ∈ l, ∀ p, s.table n = some p → ∀ id, p.who ≠ .other id false := by
    intro n hn p hpn id
    obtain ⟨i, hi, hin⟩ := List.getElem_of_mem hn
    obtain ⟨-, q, hq, hw⟩ := hp i n (by rw [List.getElem?_eq_getElem hi, hin])
    rw [hpn] at hq; cases hq; rw [hw]; simp
  obtain ⟨h6, h7⟩ := h5 hall
  refine ⟨h6, e, ?_, ?_⟩
  · intro i pid p hi hpid hz
    rw [e, h7 pid (List.mem_of_getElem? hi) p hpid]
    simp [Sig.on, hz]
  · intro n hn
    rw [e] at hn
    by_cases hl : n ∈ l
    · obtain ⟨i, hi, hin⟩ := List.getElem_of_mem hl
      have hi' : l[i]? = some n := by rw [List.getElem?_eq_getElem hi, hin]
      obtain ⟨-, q, hq, hw⟩ := hp i n hi'
      exact ⟨i, q, hi', hq, hw⟩
    · exact absurd (h2 n hl) hn

/-- **C93**: a process keeps its number until it has ended and the shell has waited for it. -/
theorem C93_present (s : St) (op : Op) (j i pid : Nat) (h : Present s j i pid) :
    Present (step s op) j i pid ∨ (op = .reap ∧ ∃ p, s.table pid = some p ∧ p.zombie = true) := by
  obtain ⟨hi, p, hp, hw⟩ := h
  have hi' := jobs_step s op j i pid hi
  cases op with
  | start pids =>
    refine .inl ⟨hi', p, ?_, hw⟩
    simp only [step]
    split
    · rename_i hf
      have : pid ∉ pids := fun hm => by have := hf.2 pid hm; rw [hp] at this; cases this
      exact ((startItems_spec s.jobs.length pids 0 s hf.1).2.1 pid this).trans hp
    · exact hp
  | fork pid' id may =>
    refine .inl ⟨hi', p, ?_, hw⟩
    simp only [step]
    split
    · rename_i hn
      rw [put_get, if_neg]
      · exact hp
      · rintro rfl; rw [hn] at hp; cases hp
    · exact hp
  | exit pid' =>
    left
    by_cases e : pid = pid'
    · subst e
      refine ⟨hi', { p with zombie := true }, ?_, hw⟩
      simp only [step, hp, hw, put_get, if_true]
    · refine ⟨hi', p, ?_, hw⟩
      simp only [step]
      split
      · exact hp
      · split <;> rw [put_get, if_neg e] <;> exact hp
  | reap =>
    cases hz : p.zombie with
    | true => exact .inr ⟨rfl, p, hp, hz⟩
    | false =>
      refine .inl ⟨hi', p, ?_, hw⟩
      obtain ⟨w, st, z⟩ := p
      simp only at hz; subst hz
      simp only [step, hp]
  | restart j' =>
    refine .inl ⟨hi', ?_⟩
    rcases (signalAll_spec .cont ((s.jobs[j']?).getD []) s).2.2.2.1 pid p hp with h | h
    · exact ⟨p, h, hw⟩
    · exact ⟨_, h, by rw [on_who]; exact hw⟩
  | suspend j' =>
    refine .inl ⟨hi', ?_⟩
    rcases (signalAll_spec .stop ((s.jobs[j']?).getD []) s).2.2.2.1 pid p hp with h | h
    · exact ⟨p, h, hw⟩
    · exact ⟨_, h, by rw [on_who]; exact hw⟩

/-- ... and has it from the start. -/
theorem C93_present_start (s : St) (pids : List Nat) (hf : Fresh s pids) (i pid : Nat) (h : pids[i]? = some pid) :
    Present (step s (.start pids)) s.jobs.length i pid := by
  obtain ⟨h1, h2, h3⟩ := startItems_spec s.jobs.length pids 0 s hf.1
  simp only [step, if_pos hf]
  refine ⟨⟨pids, ?_, h⟩, _, h3 i pid h, ?_⟩
  · simp [h1]
  · simp

/-- Operations that do not give a number of one of the shell's jobs to another process. -/
def NoReuse (s : St) : Op → Prop
  | .start pids => ∀ j i pid, Item s j i pid → pid ∉ pids
  | .fork pid _ _ => ∀ j i, ¬ Item s j i pid
  | _ => True

def NoReuseAll (s : St) : List Op → Prop
  | [] => True
  | op :: ops => NoReuse s op ∧ NoReuseAll (step s op) ops

/-- The numbers of the jobs' items are free or theirs. -/
def Owned (s : St) : Prop := ∀ j i pid p, Item s j i pid → s.table pid = some p → p.who = .ours j i

theorem owned_step (s : St) (op : Op) (h : Owned s) (hn : NoReuse s op) : Owned (step s op) := by
  intro j i pid p hi hp
  cases op with
  | start pids =>
    simp only [step] at hi hp
    split at hp
    · rename_i hf
      rw [if_pos hf] at hi
      obtain ⟨h1, h2, h3⟩ := startItems_spec s.jobs.length pids 0 s hf.1
      obtain ⟨l, hl, hli⟩ := hi
      simp only [h1] at hl
      by_cases hj : j < s.jobs.length
      · rw [List.getElem?_append_left hj] at hl
        have hit : Item s j i pid := ⟨l, hl, hli⟩
        have := hn j i pid hit
        simp only at hp
        rw [h2 pid this] at hp
        exact h j i pid p hit hp
      · rw [List.getElem?_append_right (by omega)] at hl
        have hj' : j = s.jobs.length := by
          have := (List.getElem?_eq_some_iff.1 hl).1
          simp at this; omega
        subst hj'
        simp only [Nat.sub_self, List.getElem?_cons_zero, Option.some.injEq] at hl
        subst hl
        simp only at hp
        rw [h3 i pid hli] at hp
        cases hp
        simp
    · rename_i hf
      rw [if_neg hf] at hi
      exact h j i pid p hi hp
  | fork pid' id may =>
    have hi' : Item s j i pid := by
      obtain ⟨l, hl, hli⟩ := hi
      refine ⟨l, ?_, hli⟩
      simp only [step] at hl; split at hl <;> exact hl
    have : pid ≠ pid' := by rintro rfl; exact hn j i hi'
    simp only [step] at hp
    split at hp
    · rw [put_get, if_neg this] at hp; exact h j i pid p hi' hp
    · exact h j i pid p hi' hp
  | exit pid' =>
    have hi' : Item s j i pid := by
      obtain ⟨l, hl, hli⟩ := hi
      refine ⟨l, ?_, hli⟩
      simp only [step] at hl; split at hl; (· exact hl); split at hl <;> exact hl
    simp only [step] at hp
    split at hp
    · exact h j i pid p hi' hp
    · rename_i q hq
      split at hp
      · rw [put_get] at hp
        split at hp
        · rename_i e; subst e; cases hp; exact h j i pid q hi' hq
        · exact h j i pid p hi' hp
      · rw [put_get] at hp
        split at hp
        · cases hp
        · exact h j i pid p hi' hp
  | reap =>
    simp only [step] at hp
    split at hp
    · cases hp
    · exact h j i pid p hi hp
  | restart j' =>
    obtain ⟨h1, -, h3, h4, -⟩ := signalAll_spec .cont ((s.jobs[j']?).getD []) s
    have hi' : Item s j i pid := by obtain ⟨l, hl, hli⟩ := hi; exact ⟨l, by rw [← h1]; exact hl, hli⟩
    have hp' : (signalAll .cont ((s.jobs[j']?).getD []) s).1.table pid = some p := hp
    cases hq : s.table pid with
    | none => rw [h3 pid hq] at hp'; cases hp'
    | some q =>
      have hw := h j i pid q hi' hq
      rcases h4 pid q hq with e | e <;> rw [e] at hp' <;> cases hp'
      · exact hw
      · rw [on_who]; exact hw
  | suspend j' =>
    obtain ⟨h1, -, h3, h4, -⟩ := signalAll_spec .stop ((s.jobs[j']?).getD []) s
    have hi' : Item s j i pid := by obtain ⟨l, hl, hli⟩ := hi; exact ⟨l, by rw [← h1]; exact hl, hli⟩
    have hp' : (signalAll .stop ((s.jobs[j']?).getD []) s).1.table pid = some p := hp
    cases hq : s.table pid with
    | none => rw [h3 pid hq] at hp'; cases hp'
    | some q =>
      have hw := h j i pid q hi' hq
      rcases h4 pid q hq with e | e <;> rw [e] at hp' <;> cases hp'
      · exact hw
      · rw [on_who]; exact hw

/-- **C93**: in every history in which the kernel does not give the number of one of the shell's processes to another process, stopping and
continuing a job never raises an exception, changes none but the job's own processes, and reaches each of them that has not ended. -/
theorem C93_no_reuse_partial (s : St) (hs : Initial s) (ops : List Op) (hn : NoReuseAll s ops) (j : Nat) (l : List Nat) (g : Sig)
    (hj : (run s ops).jobs[j]? = some l) :
    (signalAll g l (run s ops)).2 = .ok () ∧
    (∀ n, (signalAll g l (run s ops)).1.table n ≠ (run s ops).table n → ∃ i p, l[i]? = some n ∧ (run s ops).table n = some p ∧ p.who = .ours j i) ∧
    (∀ (i : Nat) pid p, l[i]? = some pid → (run s ops).table pid = some p → p.zombie = false →
      (signalAll g l (run s ops)).1.table pid = some { p with stopped := g = .stop }) := by
  have hown : Owned (run s ops) := by
    have h0 : Owned s := by
      rintro j i pid p ⟨l, hl, -⟩ _
      rw [hs.1] at hl; simp at hl
    clear hj hs
    induction ops generalizing s with
    | nil => exact h0
    | cons op ops ih => exact ih (step s op) hn.2 (owned_step s op h0 hn.1)
  generalize run s ops = t at *
  obtain ⟨h1, h2, h3, h4, h5⟩ := signalAll_spec g l t
  have hall : ∀ n ∈ l, ∀ p, t.table n = some p → ∀ id, p.who ≠ .other id false := by
    intro n hn' p hpn id
    obtain ⟨i, hi, hin⟩ := List.getElem_of_mem hn'
    rw [hown j i n p ⟨l, hj, by rw [List.getElem?_eq_getElem hi, hin]⟩ hpn]; simp
  obtain ⟨h6, h7⟩ := h5 hall
  refine ⟨h6, fun n hne => ?_, fun i pid p hi hp hz => ?_⟩
  · by_cases hl : n ∈ l
    · obtain ⟨i, hi, hin⟩ := List.getElem_of_mem hl
      have hi' : l[i]? = some n := by rw [List.getElem?_eq_getElem hi, hin]
      cases hq : t.table n with
      | none => rw [h3 n hq, hq] at hne; exact absurd rfl hne
      | some q => exact ⟨i, q, hi', rfl, hown j i n q ⟨l, hj, hi'⟩ hq⟩
    · exact absurd (h2 n hl) hne
  · rw [h7 pid (List.mem_of_getElem? hi) p hp]
    simp [Sig.on, hz]

/-- A kernel with somebody else's process 1. -/
def exInit : St := { table := fun n => if n = 1 then some { who := .other 0 false } else none }
theorem exInit_ok : Initial exInit := by
  refine ⟨rfl, ?_⟩
  intro n p h
  simp only [exInit] at h
  split at h
  · cases h; exact ⟨0, false, rfl⟩
  · cases h

example : NoReuseAll exInit [.start [10, 11], .exit 10, .reap, .fork 12 7 true, .suspend 0] := by
  refine ⟨?_, trivial, trivial, ?_, trivial, trivial⟩
  · rintro j i pid ⟨l, hl, -⟩; simp [exInit] at hl
  · rintro j i ⟨l, hl, hi⟩
    have e : (step (step (step exInit (.start [10, 11])) (.exit 10)) .reap).jobs = [[10, 11]] := by decide
    rw [e] at hl
    match j, hl with
    | 0, hl =>
      simp only [List.getElem?_cons_zero, Option.some.injEq] at hl
      subst hl
      match i, hi with
      | 0, hi => simp at hi
      | 1, hi => simp at hi
      | i + 2, hi => simp at hi
    | j + 1, hl => simp at hl

example : (run exInit [.start [10, 11], .exit 10, .reap, .suspend 0]).table 11 = some ⟨.ours 0 1, true, false⟩ := by decide

/-- The conditions of `C93_own_partial` are met by every job that has just been started. -/
example (s : St) (pids : List Nat) (hf : Fresh s pids) : ∀ (i : Nat) pid, pids[i]? = some pid → Present (step s (.start pids)) s.jobs.length i pid :=
  fun i pid h => C93_present_start s pids hf i pid h
example : Fresh exInit [10, 11] := by decide

/-- C93 is false: once a process of a job has been waited for, stopping or continuing the job is done to whoever has got its number. -/
theorem C93_refuted (s : St) (g : Sig) (pid id : Nat) (l : List Nat) (p : Proc) (hp : s.table pid = some p) (hw : p.who = .other id true)
    (hz : p.zombie = false) : (signalAll g (pid :: l) s).1.table pid = some { p with stopped := g = .stop } := by
  obtain ⟨-, -, -, h4⟩ := signalItem_spec s g pid
  have hon : g.on p = { p with stopped := g = .stop } := by simp [Sig.on, hz]
  rcases h4 p hp with ⟨⟨id', h⟩, -⟩ | ⟨-, e⟩
  · rw [hw] at h; cases h
  · have : signalAll g (pid :: l) s = signalAll g l (s.put pid (some (g.on p))) := by simp only [signalAll, e]
    rw [this]
    rcases (signalAll_spec g l (s.put pid (some (g.on p)))).2.2.2.1 pid (g.on p) (by rw [put_get, if_pos rfl]) with h | h <;> rw [h]
    · rw [hon]
    · congr 1
      rw [← hon]
      simp [Sig.on, hz]

/-- ... which happens: here process 10 of somebody else is stopped by CTRL-Z. -/
theorem C93_refuted_history :
    (run exInit [.start [10, 11], .exit 10, .reap, .fork 10 7 true, .suspend 0]).table 10 = some ⟨.other 7 true, true, false⟩ := by decide

/-- C93 is false: if the number has gone to a process of another user, `wait()` raises PermissionError, and the rest of the job is not continued. -/
theorem C93_refuted_permission :
    let s := run exInit [.start [10, 11], .suspend 0, .exit 10, .reap, .fork 10 7 false]
    (signalAll .cont [10, 11] s).2 = .error (.osError 1) ∧ s.jobs[0]? = some [10, 11] ∧
    (step s (.restart 0)).table 11 = some ⟨.ours 0 1, true, false⟩ := ⟨rfl, by decide, by decide⟩

end Pieshell.Pids
