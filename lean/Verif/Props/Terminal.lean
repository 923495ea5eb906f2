import Verif.Spec.Terminal
/-!
# Signals of programs, CTRL-C and CTRL-Z (C102, C103, C104)
-/
namespace Pieshell.Term
open Pieshell.Sig (Mgr SIGCHLD SIGTSTP)

/-! ### sending signals changes neither signals nor group -/

theorem deliver_env (x : Proc) (n : Nat) : (x.deliver n).env = x.env ∧ (x.deliver n).pgrp = x.pgrp := by
  unfold Proc.deliver
  split
  · exact ⟨rfl, rfl⟩
  · exact ⟨rfl, rfl⟩
  · split
    · exact ⟨rfl, rfl⟩
    · split <;> exact ⟨rfl, rfl⟩

theorem send_env (x : Proc) (n : Nat) : (x.send n).env = x.env ∧ (x.send n).pgrp = x.pgrp := by
  unfold Proc.send
  split
  · exact deliver_env x n
  · split
    · exact ⟨rfl, rfl⟩
    · split <;> exact ⟨rfl, rfl⟩

theorem sends_env (l : List Nat) (x : Proc) : (l.foldl Proc.send x).env = x.env ∧ (l.foldl Proc.send x).pgrp = x.pgrp := by
  induction l generalizing x with
  | nil => exact ⟨rfl, rfl⟩
  | cons n l ih =>
    rw [List.foldl_cons, (ih _).1, (ih _).2]
    exact send_env x n

theorem flush_env (x : Proc) : x.flush.env = x.env ∧ x.flush.pgrp = x.pgrp := sends_env _ _

theorem stop_env (x : Proc) : x.stop.env = x.env ∧ x.stop.pgrp = x.pgrp := by
  unfold Proc.stop; split <;> exact ⟨rfl, rfl⟩

theorem cont_env (x : Proc) : x.cont.env = x.env ∧ x.cont.pgrp = x.pgrp := by
  unfold Proc.cont
  split
  · exact ⟨rfl, rfl⟩
  · rw [(send_env _ _).1, (send_env _ _).2, (flush_env _).1, (flush_env _).2]; exact ⟨rfl, rfl⟩

/-- Process `p` is there with these signals and this group. -/
def Has (s : St) (p : Nat) (e : Env) (g : Nat) : Prop := ∃ x, s.procs p = some x ∧ x.env = e ∧ x.pgrp = g

theorem change_has {s : St} {p q : Nat} {e : Env} {g : Nat} {f : Proc → Proc} (h : Has s p e g)
    (hf : q = p → ∀ x : Proc, x.env = e → x.pgrp = g → (f x).env = e ∧ (f x).pgrp = g) : Has (s.change q f) p e g := by
  obtain ⟨x, hx, he, hg⟩ := h
  by_cases e1 : p = q
  · subst e1
    exact ⟨f x, by simp [St.change, upd, hx], hf rfl x he hg⟩
  · exact ⟨x, by simp [St.change, upd, e1, hx], he, hg⟩

theorem step_has {s : St} {p : Nat} {e : Env} {g : Nat} {a : Act} (h : Has s p e g) (ha : LeavesAlone p a) : Has (step s a) p e g := by
  cases a with
  | start q j =>
    obtain ⟨x, hx, h2⟩ := h
    simp only [step]
    split
    · split
      · refine ⟨x, ?_, h2⟩
        have : p ≠ q := by rintro rfl; simp_all
        simp [upd, this, hx]
      · exact ⟨x, hx, h2⟩
    · exact ⟨x, hx, h2⟩
  | fork r q =>
    obtain ⟨x, hx, h2⟩ := h
    simp only [step]
    split
    · split
      · refine ⟨x, ?_, h2⟩
        have : p ≠ q := by rintro rfl; simp_all
        simp [upd, this, hx]
      · exact ⟨x, hx, h2⟩
    · exact ⟨x, hx, h2⟩
  | exec q => exact change_has h fun e => absurd e ha
  | disp q n d => exact change_has h fun e => absurd e ha
  | block q n => exact change_has h fun e => absurd e ha
  | unblock q n => exact change_has h fun e => absurd e ha
  | setpgid q n => exact change_has h fun e => absurd e ha
  | tcsetpgrp g => exact h
  | key c =>
    obtain ⟨x, hx, he, hg⟩ := h
    refine ⟨if x.pgrp = s.fg then x.send c.sig else x, by simp [step, hx], ?_⟩
    split
    · rw [(send_env _ _).1, (send_env _ _).2]; exact ⟨he, hg⟩
    · exact ⟨he, hg⟩
  | stop q => exact change_has h fun _ x he hg => by rw [(stop_env _).1, (stop_env _).2]; exact ⟨he, hg⟩
  | cont q => exact change_has h fun _ x he hg => by rw [(cont_env _).1, (cont_env _).2]; exact ⟨he, hg⟩
  | exit q => exact change_has h fun _ x he hg => by split <;> exact ⟨he, hg⟩

theorem run_has {p : Nat} {e : Env} {g : Nat} (as : List Act) {s : St} (h : Has s p e g) (ha : ∀ a ∈ as, LeavesAlone p a) : Has (run s as) p e g := by
  induction as generalizing s with
  | nil => exact h
  | cons a as ih => exact ih (step_has h (ha a List.mem_cons_self)) fun b hb => ha b (List.mem_cons_of_mem _ hb)

theorem step_fg {s : St} {a : Act} (ha : KeepsTerminal a) : (step s a).fg = s.fg ∧ (step s a).sh = s.sh := by
  cases a with
  | start q j =>
    simp only [step]
    split
    · split <;> exact ⟨rfl, rfl⟩
    · exact ⟨rfl, rfl⟩
  | fork r q =>
    simp only [step]
    split
    · split <;> exact ⟨rfl, rfl⟩
    · exact ⟨rfl, rfl⟩
  | tcsetpgrp g => exact absurd ha id
  | _ => exact ⟨rfl, rfl⟩

theorem run_fg (as : List Act) {s : St} (ha : ∀ a ∈ as, KeepsTerminal a) : (run s as).fg = s.fg ∧ (run s as).sh = s.sh := by
  induction as generalizing s with
  | nil => exact ⟨rfl, rfl⟩
  | cons a as ih =>
    have := ih (s := step s a) fun b hb => ha b (List.mem_cons_of_mem _ hb)
    have h2 := step_fg (s := s) (ha a List.mem_cons_self)
    exact ⟨this.1.trans h2.1, this.2.trans h2.2⟩

theorem step_sh (s : St) (a : Act) : (step s a).sh = s.sh := by
  cases a with
  | start q j =>
    simp only [step]
    split
    · split <;> rfl
    · rfl
  | fork r q =>
    simp only [step]
    split
    · split <;> rfl
    · rfl
  | _ => rfl

theorem run_sh (as : List Act) (s : St) : (run s as).sh = s.sh := by
  induction as generalizing s with
  | nil => rfl
  | cons a as ih => exact (ih _).trans (step_sh s a)

theorem run_append (s : St) (as bs : List Act) : run s (as ++ bs) = run (run s as) bs := by simp [run]

/-- A program that has just been started. -/
theorem start_new {m : Mgr} {sh : Nat} {e : Env} {as before after : List Act} {p j : Nat} (h : StartedIn (boot m sh e) as p j before after)
    (hs : ∀ a ∈ before, LeavesAlone sh a) :
    run (boot m sh e) as = run (step (run (boot m sh e) before) (.start p j)) after ∧
    ∃ x, (step (run (boot m sh e) before) (.start p j)).procs p = some x ∧ x.env = ((e.exec.python).manager m).exec ∧ x.pgrp = sh ∧
      x.life = .running ∧ x.pending = [] ∧ x.handled = [] := by
  obtain ⟨rfl, h0, h1⟩ := h
  refine ⟨by rw [run_append]; rfl, ?_⟩
  obtain ⟨x, hx, he, hg⟩ : Has (run (boot m sh e) before) sh ((e.exec.python).manager m) sh :=
    run_has before ⟨_, if_pos rfl, rfl, rfl⟩ hs
  have hsh : (run (boot m sh e) before).sh = sh := run_sh _ _
  simp only [step, hsh, hx, h0] at h1 ⊢
  split
  · refine ⟨_, by simp [upd]; rfl, ?_, ?_, rfl, rfl, rfl⟩
    · simp [Proc.child, he]
    · simp [Proc.child, hg]
  · rename_i hn
    rw [if_neg hn] at h1
    exact absurd h0 h1

/-! ### C102 -/

/-- **C102.** The signal environment of every program that is started, whatever has happened before, and as long as it does not change it itself, compared to the usual one: two
signals are ignored; two are blocked, or have their default action whatever was asked for; all others are as usual.  (The shell's program must not have changed the signals of the
shell.) -/
theorem C102_environment (m : Mgr) (sh : Nat) (e : Env) (as before after : List Act) (p j : Nat)
    (h : StartedIn (boot m sh e) as p j before after) (hs : ∀ a ∈ before, LeavesAlone sh a) (hp : ∀ a ∈ after, LeavesAlone p a) :
    ∃ x, (run (boot m sh e) as).procs p = some x ∧ ∀ n,
      x.env.disp n = (if n = SIGPIPE ∨ n = SIGXFSZ then .ignored
        else if m = .asyncio ∧ (n = SIGCHLD ∨ n = SIGTSTP) then .default else (usual e).disp n) ∧
      x.env.blocked n = ((usual e).blocked n || decide (m = .signalfd ∧ (n = SIGCHLD ∨ n = SIGTSTP))) := by
  obtain ⟨h1, x, hx, he, hg, -⟩ := start_new h hs
  obtain ⟨y, hy, hye, -⟩ := run_has after ⟨x, hx, he, hg⟩ hp
  rw [h1]
  refine ⟨y, hy, fun n => ?_⟩
  rw [hye]
  have hu : (usual e).disp n = (e.disp n).exec := by
    simp only [usual]
    generalize e.disp n = d
    cases d <;> rfl
  rw [hu]
  have hc : e.disp n = .default ∨ e.disp n = .ignored ∨ e.disp n = .caught := by
    generalize e.disp n = d
    cases d <;> simp
  cases m with
  | signalfd =>
    constructor
    · simp only [Env.exec, Env.manager, Env.python]
      by_cases h1 : n = SIGPIPE ∨ n = SIGXFSZ
      · simp [h1, Disp.exec]
      · by_cases h2 : n = SIGINT
        · rcases hc with hd | hd | hd <;> simp_all [Disp.exec]
        · rcases hc with hd | hd | hd <;> simp_all [Disp.exec]
    · simp [Env.exec, Env.manager, Env.python, usual, Sig.mask]
  | asyncio =>
    constructor
    · simp only [Env.exec, Env.manager, Env.python]
      by_cases h1 : n = SIGPIPE ∨ n = SIGXFSZ
      · have : ¬ (n = SIGCHLD ∨ n = SIGTSTP) := by
          rcases h1 with rfl | rfl <;> decide
        simp [h1, Sig.mask, this, Disp.exec]
      · by_cases h3 : n = SIGCHLD ∨ n = SIGTSTP
        · simp [h1, h3, Sig.mask, Disp.exec]
        · by_cases h2 : n = SIGINT
          · rcases hc with hd | hd | hd <;> simp_all [Disp.exec, Sig.mask]
          · rcases hc with hd | hd | hd <;> simp_all [Disp.exec, Sig.mask]
    · simp [Env.exec, Env.manager, Env.python, usual]

/-- **C102, what remains true**: all signals but these four are as usual. -/
theorem C102_others_partial (m : Mgr) (sh : Nat) (e : Env) (as before after : List Act) (p j : Nat)
    (h : StartedIn (boot m sh e) as p j before after) (hs : ∀ a ∈ before, LeavesAlone sh a) (hp : ∀ a ∈ after, LeavesAlone p a) :
    ∃ x, (run (boot m sh e) as).procs p = some x ∧ ∀ n, n ≠ SIGPIPE → n ≠ SIGXFSZ → n ≠ SIGCHLD → n ≠ SIGTSTP →
      x.env.disp n = (usual e).disp n ∧ x.env.blocked n = (usual e).blocked n := by
  obtain ⟨x, hx, h1⟩ := C102_environment m sh e as before after p j h hs hp
  refine ⟨x, hx, fun n a b c d => ?_⟩
  rw [(h1 n).1, (h1 n).2]
  simp [a, b, c, d]

/-- **C102 is false**: in every program that a plain shell starts, at any time, `SIGPIPE` is ignored, and, with `signalfd`, `SIGTSTP` is blocked. -/
theorem C102_refuted (m : Mgr) (sh : Nat) (e : Env) (he : Plain e) (as before after : List Act) (p j : Nat)
    (h : StartedIn (boot m sh e) as p j before after) (hs : ∀ a ∈ before, LeavesAlone sh a) (hp : ∀ a ∈ after, LeavesAlone p a) :
    ∃ x, (run (boot m sh e) as).procs p = some x ∧
      x.env.disp SIGPIPE = .ignored ∧ (usual e).disp SIGPIPE = .default ∧
      (m = .signalfd → x.env.blocked SIGTSTP = true) ∧ (usual e).blocked SIGTSTP = false := by
  obtain ⟨x, hx, h1⟩ := C102_environment m sh e as before after p j h hs hp
  refine ⟨x, hx, ?_, ?_, ?_, (he _).2⟩
  · rw [(h1 _).1]; simp
  · simp [usual, (he SIGPIPE).1]
  · rintro rfl; rw [(h1 _).2]; simp

/-! ### C103 -/

/-- What a key does to a process of the foreground group. -/
theorem key_proc {s : St} {p : Nat} {x : Proc} (hx : s.procs p = some x) (hg : x.pgrp = s.fg) (c : Key) :
    (step s (.key c)).procs p = some (x.send c.sig) := by simp [step, hx, hg]

/-- **C103, the first half**: CTRL-C interrupts every program that is running and has left its signals and its group as they were, and the shell's
program gets a `KeyboardInterrupt`.

**C103, the second half, is false**: this is so for every program of every job, whether it is in the foreground, or runs in the background. -/
theorem C103_refuted_background (m : Mgr) (sh : Nat) (e : Env) (hd : e.disp SIGINT ≠ .ignored) (hb : e.blocked SIGINT = false) (as : List Act)
    (hs : ∀ a ∈ as, LeavesAlone sh a) (ht : ∀ a ∈ as, KeepsTerminal a) :
    (∀ p j before after, StartedIn (boot m sh e) as p j before after → (∀ a ∈ after, LeavesAlone p a) →
      ∃ x y, (run (boot m sh e) as).procs p = some x ∧ (run (boot m sh e) (as ++ [.key .ctrlC])).procs p = some y ∧
        (x.life = .running → y.life = .ended (some SIGINT)) ∧ (x.life = .stopped → SIGINT ∈ y.pending) ∧ (∀ r, x.life = .ended r → y = x)) ∧
    ∃ x y, (run (boot m sh e) as).procs sh = some x ∧ (run (boot m sh e) (as ++ [.key .ctrlC])).procs sh = some y ∧
      (x.life = .running → y.life = .running ∧ y.handled = x.handled ++ [SIGINT]) := by
  obtain ⟨hfg, -⟩ := run_fg as (s := boot m sh e) ht
  have hfg : (run (boot m sh e) as).fg = sh := hfg
  have hdd : (usual e).disp SIGINT = .default := by simp [usual, hd]
  refine ⟨?_, ?_⟩
  · intro p j before after h hp
    have hs' : ∀ a ∈ before, LeavesAlone sh a := fun a ha => hs a (by rw [h.1]; exact List.mem_append_left _ ha)
    obtain ⟨x0, hx0, hc⟩ := C102_environment m sh e as before after p j h hs' hp
    obtain ⟨h1, x1, hx1, he1, hg1, -⟩ := start_new h hs'
    obtain ⟨x, hx, hxe, hg⟩ := run_has after ⟨x1, hx1, he1, hg1⟩ hp
    rw [← h1] at hx
    have e0 : x = x0 := Option.some.inj (hx.symm.trans hx0)
    subst e0
    have hdi : x.env.disp SIGINT = .default := by rw [(hc _).1, hdd, if_neg (by decide)]; simp
    have hbl : x.env.blocked SIGINT = false := by rw [(hc _).2, decide_eq_false (by rintro ⟨-, h⟩; revert h; decide)]; simp [usual, hb]
    refine ⟨x, _, hx, by rw [run_append]; exact key_proc hx (by rw [hfg]; exact hg) .ctrlC, fun hr => ?_, fun hst => ?_, fun r hr => ?_⟩
    · simp [Key.sig, Proc.send, hr, hbl, Proc.deliver, hdi, show stops SIGINT = false by decide, show harmless SIGINT = false by decide]
    · simp only [Key.sig, Proc.send, hst]
      simp only [reduceCtorEq, false_and, if_false]
      split
      · assumption
      · simp
    · simp [Proc.send, hr]
  · obtain ⟨x, hx, he, hg⟩ : Has (run (boot m sh e) as) sh ((e.exec.python).manager m) sh := run_has as ⟨_, if_pos rfl, rfl, rfl⟩ hs
    have hdi : x.env.disp SIGINT = .caught := by
      have : (e.disp SIGINT).exec = .default := by
        generalize e.disp SIGINT = d at hd
        cases d with
        | ignored => exact absurd rfl hd
        | default => rfl
        | caught => rfl
      have h1 : ¬ (SIGINT = SIGPIPE ∨ SIGINT = SIGXFSZ) := by decide
      have h2 : SIGINT ∉ Sig.mask := by decide
      rw [he]
      cases m <;> simp [Env.manager, Env.python, Env.exec, this, h1, h2]
    have hbl : x.env.blocked SIGINT = false := by
      have h2 : SIGINT ∉ Sig.mask := by decide
      rw [he]
      cases m <;> simp [Env.manager, Env.python, Env.exec, hb, h2]
    refine ⟨x, _, hx, by rw [run_append]; exact key_proc hx (by rw [hfg]; exact hg) .ctrlC, fun hr => ?_⟩
    simp [Key.sig, Proc.send, hr, hbl, Proc.deliver, hdi]

/-- **C103 for CTRL-\\**: it ends every program of every job that has left its signals and its group as they were, in the foreground or not, and the shell itself, which neither
handles nor ignores it. -/
theorem C103_refuted_quit (m : Mgr) (sh : Nat) (e : Env) (hd : e.disp SIGQUIT ≠ .ignored) (hb : e.blocked SIGQUIT = false) (as : List Act)
    (hs : ∀ a ∈ as, LeavesAlone sh a) (ht : ∀ a ∈ as, KeepsTerminal a) :
    (∀ p j before after, StartedIn (boot m sh e) as p j before after → (∀ a ∈ after, LeavesAlone p a) →
      ∃ x y, (run (boot m sh e) as).procs p = some x ∧ (run (boot m sh e) (as ++ [.key .ctrlBackslash])).procs p = some y ∧
        (x.life = .running → y.life = .ended (some SIGQUIT)) ∧ (∀ r, x.life = .ended r → y = x)) ∧
    ∃ x y, (run (boot m sh e) as).procs sh = some x ∧ (run (boot m sh e) (as ++ [.key .ctrlBackslash])).procs sh = some y ∧
      (x.life = .running → y.life = .ended (some SIGQUIT)) := by
  have hfg : (run (boot m sh e) as).fg = sh := (run_fg as (s := boot m sh e) ht).1
  have hdd : (usual e).disp SIGQUIT = .default := by simp [usual, hd]
  refine ⟨?_, ?_⟩
  · intro p j before after h hp
    have hs' : ∀ a ∈ before, LeavesAlone sh a := fun a ha => hs a (by rw [h.1]; exact List.mem_append_left _ ha)
    obtain ⟨x0, hx0, hc⟩ := C102_environment m sh e as before after p j h hs' hp
    obtain ⟨h1, x1, hx1, he1, hg1, -⟩ := start_new h hs'
    obtain ⟨x, hx, hxe, hg⟩ := run_has after ⟨x1, hx1, he1, hg1⟩ hp
    rw [← h1] at hx
    have e0 : x = x0 := Option.some.inj (hx.symm.trans hx0)
    subst e0
    have hdi : x.env.disp SIGQUIT = .default := by rw [(hc _).1, hdd, if_neg (by decide)]; simp
    have hbl : x.env.blocked SIGQUIT = false := by rw [(hc _).2, decide_eq_false (by rintro ⟨-, h⟩; revert h; decide)]; simp [usual, hb]
    refine ⟨x, _, hx, by rw [run_append]; exact key_proc hx (by rw [hfg]; exact hg) .ctrlBackslash, fun hr => ?_, fun r hr => ?_⟩
    · simp [Key.sig, Proc.send, hr, hbl, Proc.deliver, hdi, show stops SIGQUIT = false by decide, show harmless SIGQUIT = false by decide]
    · simp [Proc.send, hr]
  · obtain ⟨x, hx, he, hg⟩ : Has (run (boot m sh e) as) sh ((e.exec.python).manager m) sh := run_has as ⟨_, if_pos rfl, rfl, rfl⟩ hs
    have h1 : ¬ (SIGQUIT = SIGPIPE ∨ SIGQUIT = SIGXFSZ) := by decide
    have h2 : SIGQUIT ∉ Sig.mask := by decide
    have h3 : SIGQUIT ≠ SIGINT := by decide
    have hdi : x.env.disp SIGQUIT = .default := by
      have : (e.disp SIGQUIT).exec = .default := by
        generalize e.disp SIGQUIT = d at hd
        cases d with
        | ignored => exact absurd rfl hd
        | default => rfl
        | caught => rfl
      rw [he]
      cases m <;> simp [Env.manager, Env.python, Env.exec, this, h1, h2, h3]
    have hbl : x.env.blocked SIGQUIT = false := by
      rw [he]
      cases m <;> simp [Env.manager, Env.python, Env.exec, hb, h2]
    refine ⟨x, _, hx, by rw [run_append]; exact key_proc hx (by rw [hfg]; exact hg) .ctrlBackslash, fun hr => ?_⟩
    simp [Key.sig, Proc.send, hr, hbl, Proc.deliver, hdi, show stops SIGQUIT = false by decide, show harmless SIGQUIT = false by decide]

/-! ### C104 -/

/-- A process that has blocked `SIGTSTP` all the time. -/
structure Deaf (x : Proc) : Prop where
  blocked : x.env.blocked SIGTSTP = true
  handled : SIGTSTP ∉ x.handled
  pending : ∀ n ∈ x.pending, n = SIGTSTP ∨ stops n = false
  life : x.life ≠ .stopped

theorem Deaf.send {x : Proc} (h : Deaf x) {n : Nat} (hn : n = SIGTSTP ∨ stops n = false) : Deaf (x.send n) := by
  unfold Proc.send
  split
  · rename_i hr
    have hns : n ≠ SIGTSTP := by rintro rfl; rw [h.blocked] at hr; cases hr.2
    have hs : stops n = false := hn.resolve_left hns
    unfold Proc.deliver
    split
    · exact h
    · exact ⟨h.blocked, by simp [h.handled, Ne.symm hns], h.pending, h.life⟩
    · rw [hs]
      simp only [Bool.false_eq_true, if_false]
      split
      · exact h
      · exact ⟨h.blocked, h.handled, h.pending, by simp⟩
  · split
    · exact h
    · split
      · exact h
      · refine ⟨h.blocked, h.handled, ?_, h.life⟩
        intro k hk
        rcases List.mem_append.1 hk with hk | hk
        · exact h.pending k hk
        · rw [List.mem_singleton] at hk; subst hk; exact hn

theorem Deaf.sends (l : List Nat) {x : Proc} (h : Deaf x) (hl : ∀ n ∈ l, n = SIGTSTP ∨ stops n = false) : Deaf (l.foldl Proc.send x) := by
  induction l generalizing x with
  | nil => exact h
  | cons n l ih => exact ih (h.send (hl n List.mem_cons_self)) fun k hk => hl k (List.mem_cons_of_mem _ hk)

theorem Deaf.flush {x : Proc} (h : Deaf x) : Deaf x.flush :=
  Deaf.sends _ ⟨h.blocked, h.handled, by simp, h.life⟩ h.pending

theorem Deaf.cont {x : Proc} (h : Deaf x) : Deaf x.cont := by
  unfold Proc.cont
  split
  · exact h
  · refine Deaf.send (n := SIGCONT) (Deaf.flush (x := { x with life := .running, pending := x.pending.filter fun n => !stops n }) ?_) (.inr (by decide))
    exact ⟨h.blocked, h.handled, fun n hn => h.pending n (List.mem_filter.1 hn).1, by simp⟩

/-- Process `p` is there and deaf. -/
def IsDeaf (s : St) (p : Nat) : Prop := ∃ x, s.procs p = some x ∧ Deaf x

theorem change_deaf {s : St} {p q : Nat} {f : Proc → Proc} (h : IsDeaf s p) (hf : q = p → ∀ x : Proc, Deaf x → Deaf (f x)) :
    IsDeaf (s.change q f) p := by
  obtain ⟨x, hx, hd⟩ := h
  by_cases e1 : p = q
  · subst e1
    exact ⟨f x, by simp [St.change, upd, hx], hf rfl x hd⟩
  · exact ⟨x, by simp [St.change, upd, e1, hx], hd⟩

theorem step_deaf {s : St} {p : Nat} {a : Act} (h : IsDeaf s p) (h1 : a ≠ .unblock p SIGTSTP) (h2 : a ≠ .stop p) : IsDeaf (step s a) p := by
  cases a with
  | start q j =>
    obtain ⟨x, hx, hd⟩ := h
    simp only [step]
    split
    · split
      · refine ⟨x, ?_, hd⟩
        have : p ≠ q := by rintro rfl; simp_all
        simp [upd, this, hx]
      · exact ⟨x, hx, hd⟩
    · exact ⟨x, hx, hd⟩
  | fork r q =>
    obtain ⟨x, hx, hd⟩ := h
    simp only [step]
    split
    · split
      · refine ⟨x, ?_, hd⟩
        have : p ≠ q := by rintro rfl; simp_all
        simp [upd, this, hx]
      · exact ⟨x, hx, hd⟩
    · exact ⟨x, hx, hd⟩
  | exec q => exact change_deaf h fun _ x hd => by split <;> first | exact ⟨hd.blocked, hd.handled, hd.pending, hd.life⟩ | exact hd
  | disp q n d => exact change_deaf h fun _ x hd => by split <;> first | exact ⟨hd.blocked, hd.handled, hd.pending, hd.life⟩ | exact hd
  | block q n =>
    refine change_deaf h fun _ x hd => ?_
    split
    · exact ⟨by simp [hd.blocked], hd.handled, hd.pending, hd.life⟩
    · exact hd
  | unblock q n =>
    refine change_deaf h fun e x hd => ?_
    split
    · refine Deaf.flush ⟨?_, hd.handled, hd.pending, hd.life⟩
      have : SIGTSTP ≠ n := by rintro rfl; subst e; exact h1 rfl
      simp [hd.blocked, this]
    · exact hd
  | setpgid q n => exact change_deaf h fun _ x hd => ⟨hd.blocked, hd.handled, hd.pending, hd.life⟩
  | tcsetpgrp g => exact h
  | key c =>
    obtain ⟨x, hx, hd⟩ := h
    refine ⟨if x.pgrp = s.fg then x.send c.sig else x, by simp [step, hx], ?_⟩
    split
    · exact hd.send (by cases c <;> decide)
    · exact hd
  | stop q => exact change_deaf h fun e => by subst e; exact absurd rfl h2
  | cont q => exact change_deaf h fun _ x hd => hd.cont
  | exit q =>
    refine change_deaf h fun _ x hd => ?_
    split
    · exact ⟨hd.blocked, hd.handled, hd.pending, by simp⟩
    · exact hd

theorem run_deaf {p : Nat} (as : List Act) {s : St} (h : IsDeaf s p) (h1 : .unblock p SIGTSTP ∉ as) (h2 : .stop p ∉ as) : IsDeaf (run s as) p := by
  induction as generalizing s with
  | nil => exact h
  | cons a as ih =>
    exact ih (step_deaf h (fun e => h1 (e ▸ List.mem_cons_self)) (fun e => h2 (e ▸ List.mem_cons_self)))
      (fun e => h1 (List.mem_cons_of_mem _ e)) (fun e => h2 (List.mem_cons_of_mem _ e))

/-- **C104 is false with signalfd**: a program that does not itself unblock `SIGTSTP` is never told about CTRL-Z, even if it has a handler for it; and CTRL-Z alone stops no program: the
programs stop only if the shell stops them. -/
theorem C104_refuted_signalfd (sh : Nat) (e : Env) (as before after : List Act) (p j : Nat)
    (h : StartedIn (boot .signalfd sh e) as p j before after) (hs : ∀ a ∈ before, LeavesAlone sh a) (hp : .unblock p SIGTSTP ∉ after)
    (hk : .stop p ∉ after) :
    ∃ x, (run (boot .signalfd sh e) as).procs p = some x ∧ SIGTSTP ∉ x.handled ∧ x.life ≠ .stopped := by
  obtain ⟨h1, x, hx, he, -, hl, hpe, hh⟩ := start_new h hs
  have hd : Deaf x := by
    refine ⟨?_, by rw [hh]; simp, by rw [hpe]; simp, by rw [hl]; simp⟩
    rw [he]; simp [Env.manager, Env.exec, Sig.mask]
  rw [h1]
  obtain ⟨y, hy, hyd⟩ := run_deaf after ⟨x, hx, hd⟩ hp hk
  exact ⟨y, hy, hyd.handled, hyd.life⟩

/-- **C104 is false without signalfd**: CTRL-Z stops every program of every job that has left its signals and its group as they were, whether it is in the foreground or
not. -/
theorem C104_refuted_asyncio (sh : Nat) (e : Env) (hb : e.blocked SIGTSTP = false) (as before after : List Act) (p j : Nat)
    (h : StartedIn (boot .asyncio sh e) as p j before after) (hs : ∀ a ∈ as, LeavesAlone sh a) (ht : ∀ a ∈ as, KeepsTerminal a)
    (hp : ∀ a ∈ after, LeavesAlone p a) :
    ∃ x y, (run (boot .asyncio sh e) as).procs p = some x ∧ (run (boot .asyncio sh e) (as ++ [.key .ctrlZ])).procs p = some y ∧
      (x.life = .running → y.life = .stopped) := by
  have hs' : ∀ a ∈ before, LeavesAlone sh a := fun a ha => hs a (by rw [h.1]; exact List.mem_append_left _ ha)
  obtain ⟨x0, hx0, hc⟩ := C102_environment .asyncio sh e as before after p j h hs' hp
  obtain ⟨h1, x1, hx1, he1, hg1, -⟩ := start_new h hs'
  obtain ⟨x, hx, hxe, hg⟩ := run_has after ⟨x1, hx1, he1, hg1⟩ hp
  rw [← h1] at hx
  have e0 : x = x0 := Option.some.inj (hx.symm.trans hx0)
  subst e0
  have hfg : (run (boot .asyncio sh e) as).fg = sh := (run_fg as (s := boot .asyncio sh e) ht).1
  have hdi : x.env.disp SIGTSTP = .default := by rw [(hc _).1, if_neg (by decide)]; simp
  have hbl : x.env.blocked SIGTSTP = false := by rw [(hc _).2]; simp [usual, hb]
  refine ⟨x, _, hx, by rw [run_append]; exact key_proc hx (by rw [hfg]; exact hg) .ctrlZ, fun hr => ?_⟩
  simp [Key.sig, Proc.send, hr, hbl, Proc.deliver, hdi, stops]

/-- **C104, what remains true**: what the shell itself does works in any case: `suspend()` stops each of its processes that runs, and `restart()` continues it, unless a signal that
waited ends or stops it. -/
theorem C104_suspend_partial (s : St) (p : Nat) (x : Proc) (hx : s.procs p = some x) :
    (∃ y, (step s (.stop p)).procs p = some y ∧ (x.life = .running → y.life = .stopped)) ∧
    ∃ y, (step s (.cont p)).procs p = some y ∧ (x.life ≠ .running → x.pending = [] → y.life = match x.life with | .stopped => .running | l => l) := by
  refine ⟨⟨_, by simp [step, St.change, upd, hx]; rfl, fun h => by simp [Proc.stop, h]⟩, _, by simp [step, St.change, upd, hx]; rfl, ?_⟩
  intro h1 h2
  unfold Proc.cont
  cases hl : x.life with
  | running => exact absurd hl h1
  | ended r => simp [hl]
  | stopped =>
    simp only [h2, List.filter_nil, Proc.flush, List.foldl_nil]
    unfold Proc.send
    split
    · unfold Proc.deliver
      split <;> simp [stops, harmless, SIGCONT, SIGTSTP]
    · split <;> simp_all

/-- **C104, what remains true with signalfd**: a program of the foreground group that handles `SIGTSTP` and unblocks it itself is told about CTRL-Z, once: at once if it has unblocked the
signal already, and else as soon as it does. -/
theorem C104_unblock_partial (s : St) (p : Nat) (x : Proc) (hx : s.procs p = some x) (hg : x.pgrp = s.fg) (hl : x.life = .running) (hp : x.pending = [])
    (hb : x.env.blocked SIGTSTP = true) (hd : x.env.disp SIGTSTP = .caught) :
    (∃ y, (run s [.key .ctrlZ]).procs p = some y ∧ y.life = .running ∧ y.handled = x.handled) ∧
    (∃ y, (run s [.key .ctrlZ, .unblock p SIGTSTP]).procs p = some y ∧ y.life = .running ∧ y.handled = x.handled ++ [SIGTSTP]) ∧
    ∃ y, (run s [.unblock p SIGTSTP, .key .ctrlZ]).procs p = some y ∧ y.life = .running ∧ y.handled = x.handled ++ [SIGTSTP] := by
  refine ⟨⟨_, by simp [run, step, hx, hg]; rfl, ?_⟩, ⟨_, by simp [run, step, St.change, upd, hx, hg]; rfl, ?_⟩, ⟨_, by simp [run, step, St.change, upd, hx, hg]; rfl, ?_⟩⟩
  · simp [Key.sig, Proc.send, hl, hb, hp]
  · simp [Key.sig, Proc.send, Proc.flush, Proc.deliver, hl, hb, hp, hd]
  · simp [Key.sig, Proc.send, Proc.flush, Proc.deliver, hl, hb, hp, hd, hg]

/-- Changing the size of the terminal (`SIGWINCH`), urgent data (`SIGURG`), and children that end (`SIGCHLD`) neither stop nor end a process, whatever it does with these signals: it only
handles them, at once or later, if it wants to. -/
theorem harmless_signals (x : Proc) (n : Nat) (hn : n = 28 ∨ n = 23 ∨ n = SIGCHLD) :
    (x.send n).life = x.life ∧ ((x.send n).handled = x.handled ∨ x.env.disp n = .caught ∧ (x.send n).handled = x.handled ++ [n]) := by
  have h1 : stops n = false := by rcases hn with rfl | rfl | rfl <;> decide
  have h2 : harmless n = true := by rcases hn with rfl | rfl | rfl <;> decide
  unfold Proc.send
  split
  · unfold Proc.deliver
    split
    · exact ⟨rfl, .inl rfl⟩
    · exact ⟨rfl, .inr ⟨‹_›, rfl⟩⟩
    · simp [h1, h2]
  · split
    · exact ⟨rfl, .inl rfl⟩
    · split
      · exact ⟨rfl, .inl rfl⟩
      · exact ⟨rfl, .inl rfl⟩

/-! ### examples -/

namespace TermEx

def plain : Env := ⟨fun _ => .default, fun _ => false⟩
theorem plain_plain : Plain plain := fun _ => ⟨by simp [plain], rfl⟩

/-- `sleep 100 &` as job 1 (process 11), then `cat` as job 2 (process 12), which handles CTRL-Z. -/
def as : List Act := [.start 11 1, .start 12 2, .disp 12 SIGTSTP .caught, .key .ctrlZ]
def as0 : List Act := [.start 11 1, .start 12 2]

end TermEx

/-- The hypotheses of C102, C103 and C104 are met by the program in the background. -/
example (m : Mgr) : Plain TermEx.plain ∧ StartedIn (boot m 1 TermEx.plain) TermEx.as0 11 1 [] [.start 12 2] ∧
    (∀ a ∈ TermEx.as0, LeavesAlone 1 a) ∧ (∀ a ∈ TermEx.as0, KeepsTerminal a) ∧ (∀ a ∈ [Act.start 12 2], LeavesAlone 11 a) ∧
    ((run (boot m 1 TermEx.plain) TermEx.as0).procs 11).map (·.life) = some .running ∧
    ((run (boot m 1 TermEx.plain) (TermEx.as0 ++ [.key .ctrlC])).procs 11).map (·.life) = some (.ended (some SIGINT)) := by
  refine ⟨TermEx.plain_plain, ⟨rfl, rfl, by cases m <;> simp [run, step, boot, upd]⟩, ?_, ?_, ?_, ?_, ?_⟩
  · simp [TermEx.as0, LeavesAlone]
  · simp [TermEx.as0, KeepsTerminal]
  · simp [LeavesAlone]
  · cases m <;> rfl
  · cases m <;> rfl

/-- CTRL-Z, with and without signalfd: the program that handles it does not get it, or does; the other one is not stopped, or is. -/
example : (.unblock 12 SIGTSTP : Act) ∉ TermEx.as ∧
    ((run (boot .signalfd 1 TermEx.plain) TermEx.as).procs 12).map (·.handled) = some [] ∧
    ((run (boot .signalfd 1 TermEx.plain) TermEx.as).procs 11).map (·.life) = some .running ∧
    ((run (boot .asyncio 1 TermEx.plain) TermEx.as).procs 12).map (·.handled) = some [SIGTSTP] ∧
    ((run (boot .asyncio 1 TermEx.plain) TermEx.as).procs 11).map (·.life) = some .stopped := by
  refine ⟨by decide, rfl, rfl, rfl, rfl⟩

/-- Programs that meet the hypotheses of C104_unblock_partial exist. -/
example : let s := run (boot .signalfd 1 TermEx.plain) [.start 11 1, .start 12 2, .disp 12 SIGTSTP .caught]
    (s.procs 12).map (fun x => (x.pgrp == s.fg, x.life, x.pending, x.env.blocked SIGTSTP, x.env.disp SIGTSTP)) = some (true, .running, [], true, .caught) := rfl

/-- CTRL-\\ ends the shell and its programs. -/
example (m : Mgr) : ((run (boot m 1 TermEx.plain) (TermEx.as0 ++ [.key .ctrlBackslash])).procs 11).map (·.life) = some (.ended (some SIGQUIT)) ∧
    ((run (boot m 1 TermEx.plain) (TermEx.as0 ++ [.key .ctrlBackslash])).procs 1).map (·.life) = some (.ended (some SIGQUIT)) := by
  cases m <;> exact ⟨rfl, rfl⟩

/-- `suspend()` and `restart()` of a program. -/
example : ((run (boot .signalfd 1 TermEx.plain) [.start 11 1, .stop 11]).procs 11).map (·.life) = some .stopped ∧
    ((run (boot .signalfd 1 TermEx.plain) [.start 11 1, .stop 11]).procs 11).map (·.pending) = some [] ∧
    ((run (boot .signalfd 1 TermEx.plain) [.start 11 1, .stop 11, .cont 11]).procs 11).map (·.life) = some .running := ⟨rfl, rfl, rfl⟩

end Pieshell.Term
