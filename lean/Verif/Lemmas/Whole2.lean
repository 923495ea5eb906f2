import Verif.Lemmas.Whole
import Verif.Spec.Whole
import Verif.Props.Job
import Verif.Props.Signal
import Verif.Props.Flow
/-! What the invariant says about the items. -/
namespace Pieshell.Whole

variable {σ : Type} {next : Flow.Prog σ} {L : Link} {init : Nat → σ} {src : Nat → Flow.Bytes} {b : Bool} {m : Sig.Mgr} {s : St σ}

theorem sig_inv (h : Inv next L init src b m s) : Sig.Inv s.sig := by
  obtain ⟨as, e⟩ := h.sig; rw [e]; exact Sig.inv_run m as

/-- A program that has ended, as far as the job knows. -/
theorem prog_state (h : Inv next L init src b m s) {k : Nat} (hk : L.isProg k = true) :
    Job.stateAt s.job L.job k = some (.proc, .running) ∨
    ∃ c, s.flow.proc k = .exited c ∧ Job.stateAt s.job L.job k = some (.proc, .exited (c % 256)) := by
  obtain ⟨p1, p2, p3, p4, p5, p6⟩ := h.prog k hk
  obtain ⟨ps, hps⟩ := Option.isSome_iff_exists.1 p1
  cases hd : ps.done with
  | false => exact .inl (p5 ps hps hd)
  | true =>
    right
    obtain ⟨c, hc, hl⟩ := Sig.done_exited (sig_inv h) hps hd
    obtain ⟨la, d⟩ := ps
    cases hl; cases hd
    have hst := p6 _ hps
    cases e : s.flow.proc k with
    | running st => have := p2 st e _ hc; cases this
    | killed => have := Sig.final_unique (sig_inv h) hc (p4 e) rfl rfl; cases this
    | exited c' =>
      have := Sig.final_unique (sig_inv h) hc (p3 c' e) rfl rfl
      cases this
      exact ⟨c', rfl, hst⟩

/-- Nothing is pending: the job knows of the end of a program. -/
theorem prog_known (h : Inv next L init src b m s) (hq : Sig.Quiet s.sig) {k c : Nat} (hk : L.isProg k = true) (hc : s.flow.proc k = .exited c) :
    Job.stateAt s.job L.job k = some (.proc, .exited (c % 256)) := by
  obtain ⟨p1, p2, p3, p4, p5, p6⟩ := h.prog k hk
  obtain ⟨as, e⟩ := h.sig
  have h3 := p3 c hc
  rw [e] at hq p1 h3
  obtain ⟨ps, h1, h2, h4⟩ := Sig.C46_exited_partial m as (L.pid k) (c % 256) hq p1 h3
  rw [← e] at h1
  obtain ⟨la, d⟩ := ps
  simp only [Sig.ProcSt.isRunning, Bool.not_eq_false'] at h2
  cases h2
  cases h4
  exact p6 _ h1

theorem item_some {j : Job.St} {p k : Nat} {x : Job.Kind × Job.State} (h : Job.stateAt j p k = some x) :
    ∃ it, (Job.itemsOf j.pipes p)[k]? = some it ∧ it.kind = x.1 ∧ it.state = x.2 := by
  simp only [Job.stateAt, Option.map_eq_some_iff] at h
  obtain ⟨it, h1, rfl⟩ := h
  exact ⟨it, h1, rfl, rfl⟩

theorem item_lt (h : Inv next L init src b m s) {it : Job.Item} {k : Nat} (hk : (Job.itemsOf s.job.pipes L.job)[k]? = some it) :
    k < L.net.items.length := by
  rw [← h.len]; exact (List.getElem?_eq_some_iff.1 hk).1

theorem item_state {j : Job.St} {p k : Nat} {it : Job.Item} (hk : (Job.itemsOf j.pipes p)[k]? = some it) :
    Job.stateAt j p k = some (it.kind, it.state) := by
  show ((Job.itemsOf j.pipes p)[k]?).map _ = _
  rw [hk]; rfl

/-- Each item of the job is a program or a function. -/
theorem item_kind (h : Inv next L init src b m s) {it : Job.Item} {k : Nat} (hk : (Job.itemsOf s.job.pipes L.job)[k]? = some it) :
    it.kind = if L.isProg k then .proc else .func := by
  have hs := item_state hk
  cases hp : L.isProg k with
  | true =>
    rcases prog_state h hp with h1 | ⟨c, -, h1⟩ <;> rw [hs] at h1 <;> simp only [Option.some.injEq, Prod.mk.injEq] at h1 <;> simp [h1.1]
  | false =>
    have h1 : Job.stateAt s.job L.job k = _ := h.func k (item_lt h hk) hp
    rw [hs] at h1
    simp only [Option.some.injEq, Prod.mk.injEq] at h1
    simp [h1.1]

theorem no_fg (h : Inv next L init src b m s) {it : Job.Item} (hm : it ∈ Job.itemsOf s.job.pipes L.job) (t : Nat) : it.kind ≠ .fg t := by
  obtain ⟨k, hk⟩ := List.getElem?_of_mem hm
  rw [item_kind h hk]
  split <;> simp

theorem brings_self (h : Inv next L init src b m s) {q : Nat} (hq : Job.Brings s.job.pipes L.job q) : q = L.job := by
  cases hq with
  | refl => rfl
  | fg h1 h2 _ => exact absurd h2 (no_fg h h1 _)

/-- If no item of the job is running, all have ended. -/
theorem not_alive (h : Inv next L init src b m s) (ha : ¬ Job.Alive s.job.pipes L.job) (k : Nat) (hk : k < L.net.items.length) :
    (L.isProg k = true → ∃ c, s.flow.proc k = .exited c ∧ Job.stateAt s.job L.job k = some (.proc, .exited (c % 256))) ∧
    (L.isProg k = false → ∀ st, s.flow.proc k ≠ .running st) := by
  constructor
  · intro hp
    rcases prog_state h hp with h1 | h1
    · obtain ⟨it, h2, h3, h4⟩ := item_some h1
      exact absurd (.mk (List.mem_of_getElem? h2) (.own (.inl h3) h4)) ha
    · exact h1
  · intro hp st hst
    have h1 : Job.stateAt s.job L.job k = _ := h.func k hk hp
    rw [hst] at h1
    obtain ⟨it, h2, h3, h4⟩ := item_some h1
    exact absurd (.mk (List.mem_of_getElem? h2) (.own (.inr h3) h4)) ha

/-- If all items have ended, the programs by themselves, and nothing is pending, no item of the job is running. -/
theorem dead (h : Inv next L init src b m s) (hq : Sig.Quiet s.sig)
    (hp : ∀ k, L.isProg k = true → ∃ c, s.flow.proc k = .exited c)
    (hf : ∀ k, k < L.net.items.length → ∀ st, s.flow.proc k ≠ .running st) : ¬ Job.Alive s.job.pipes L.job := by
  intro ha
  cases ha with
  | mk hm hi =>
    obtain ⟨k, hk⟩ := List.getElem?_of_mem hm
    have hlt := item_lt h hk
    have hs := item_state hk
    cases hi with
    | fg h1 _ => exact no_fg h hm _ h1
    | own _ hr =>
      cases hpk : L.isProg k with
      | true =>
        obtain ⟨c, hc⟩ := hp k hpk
        rw [prog_known h hq hpk hc] at hs
        simp only [Option.some.injEq, Prod.mk.injEq] at hs
        rw [hr] at hs
        cases hs.2
      | false =>
        have h1 : Job.stateAt s.job L.job k = _ := h.func k hlt hpk
        rw [hs] at h1
        cases e : s.flow.proc k with
        | running st => exact hf k hlt st e
        | exited c => rw [e] at h1; simp_all
        | killed => rw [e] at h1; simp_all

/-- The items listed in the exception. -/
theorem broken_iff (h : Inv next L init src b m s) (ha : ¬ Job.Alive s.job.pipes L.job) (k : Nat) :
    (∃ it, Job.itemAt s.job L.job k = some it ∧ Job.ItemBroken s.job.pipes it) ↔
    k < L.net.items.length ∧ ((L.isProg k = true ∧ ∃ c, s.flow.proc k = .exited c ∧ c % 256 ≠ 0) ∨ (L.isProg k = false ∧ s.flow.proc k = .killed)) := by
  constructor
  · rintro ⟨it, h1, h2⟩
    have h1 : (Job.itemsOf s.job.pipes L.job)[k]? = some it := h1
    have hlt := item_lt h h1
    have hs := item_state h1
    refine ⟨hlt, ?_⟩
    cases hp : L.isProg k with
    | true =>
      obtain ⟨c, hc, hst⟩ := (not_alive h ha k hlt).1 hp
      rw [hst] at hs
      simp only [Option.some.injEq, Prod.mk.injEq] at hs
      left
      refine ⟨rfl, c, hc, ?_⟩
      cases h2 with
      | exit _ e2 e3 => rw [e2] at hs; cases hs.2; exact e3
      | raise e1 _ => rw [e1] at hs; cases hs.1
      | fg e1 _ => rw [e1] at hs; cases hs.1
    | false =>
      have h3 : Job.stateAt s.job L.job k = _ := h.func k hlt hp
      rw [hs] at h3
      simp only [Option.some.injEq, Prod.mk.injEq] at h3
      right
      refine ⟨rfl, ?_⟩
      cases h2 with
      | exit e1 => rw [e1] at h3; cases h3.1
      | fg e1 _ => rw [e1] at h3; cases h3.1
      | raise _ e2 =>
        rw [e2] at h3
        cases e : s.flow.proc k with
        | killed => rfl
        | running => rw [e] at h3; cases h3.2
        | exited => rw [e] at h3; cases h3.2
  · rintro ⟨hlt, ⟨hp, c, hc, hne⟩ | ⟨hp, hc⟩⟩
    · obtain ⟨c', hc', hst⟩ := (not_alive h ha k hlt).1 hp
      rw [hc] at hc'; cases hc'
      obtain ⟨it, h1, h2, h3⟩ := item_some hst
      exact ⟨it, h1, .exit h2 h3 hne⟩
    · have h3 : Job.stateAt s.job L.job k = _ := h.func k hlt hp
      rw [hc] at h3
      obtain ⟨it, h1, h2, h4⟩ := item_some h3
      exact ⟨it, h1, .raise h2 h4⟩

/-- What a result of `wait()` says. -/
theorem result_items (h : Inv next L init src b m s) {w : Nat} {r : Job.Res} (hr : Result s L.job w r) :
    (r = .ok → ∀ k, k < L.net.items.length → ∃ c, s.flow.proc k = .exited c ∧ (L.isProg k = true → c % 256 = 0)) ∧
    ∀ l, r = .failed l →
      (∀ k, k < L.net.items.length → (L.isProg k = true → ∃ c, s.flow.proc k = .exited c) ∧ ∀ st, s.flow.proc k ≠ .running st) ∧
      l.Pairwise (· < ·) ∧ l ≠ [] ∧ ∀ k, k ∈ l ↔ k < L.net.items.length ∧
        ((L.isProg k = true ∧ ∃ c, s.flow.proc k = .exited c ∧ c % 256 ≠ 0) ∨ (L.isProg k = false ∧ s.flow.proc k = .killed)) := by
  obtain ⟨hw, he⟩ := hr
  obtain ⟨as, e⟩ := h.job
  have hal : r ≠ .suspended → r ≠ .cancelled → ¬ Job.Alive s.job.pipes L.job := by
    rw [e] at hw he ⊢
    exact Job.C47_only_when_done b as w L.job r hw he
  have hex : (r = .ok → ¬ Job.Broken s.job.pipes L.job) ∧ (∀ l : List Nat, r = .failed l → Job.Broken s.job.pipes L.job ∧ l.Pairwise (· < ·) ∧
      ∀ i, i ∈ l ↔ ∃ it, Job.itemAt s.job L.job i = some it ∧ Job.ItemBroken s.job.pipes it) := by
    rw [e] at hw he ⊢
    exact Job.C48_exact b as w L.job r hw he
  constructor
  · rintro rfl k hk
    have ha := hal (by simp) (by simp)
    have hb := hex.1 rfl
    have hnb : ¬ (∃ it, Job.itemAt s.job L.job k = some it ∧ Job.ItemBroken s.job.pipes it) := by
      rintro ⟨it, h1, h2⟩
      exact hb (.mk (List.mem_of_getElem? (show (Job.itemsOf s.job.pipes L.job)[k]? = some it from h1)) h2)
    rw [broken_iff h ha k] at hnb
    cases hp : L.isProg k with
    | true =>
      obtain ⟨c, hc, -⟩ := (not_alive h ha k hk).1 hp
      refine ⟨c, hc, fun _ => ?_⟩
      by_cases h0 : c % 256 = 0
      · exact h0
      · exact absurd ⟨hk, .inl ⟨hp, c, hc, h0⟩⟩ hnb
    | false =>
      cases e : s.flow.proc k with
      | running st => exact absurd e ((not_alive h ha k hk).2 hp st)
      | killed => exact absurd ⟨hk, .inr ⟨hp, e⟩⟩ hnb
      | exited c => exact ⟨c, rfl, fun h => by cases h⟩
  · rintro l rfl
    have ha := hal (by simp) (by simp)
    obtain ⟨h1, h2, h3⟩ := hex.2 l rfl
    refine ⟨fun k hk => ⟨fun hp => ?_, fun st hst => ?_⟩, h2, ?_, fun k => (h3 k).trans (broken_iff h ha k)⟩
    · obtain ⟨c, hc, -⟩ := (not_alive h ha k hk).1 hp
      exact ⟨c, hc⟩
    · cases hp : L.isProg k with
      | true => obtain ⟨c, hc, -⟩ := (not_alive h ha k hk).1 hp; rw [hst] at hc; cases hc
      | false => exact (not_alive h ha k hk).2 hp st hst
    · rintro rfl
      cases h1 with
      | mk hm hb =>
        obtain ⟨k, hk⟩ := List.getElem?_of_mem hm
        have := (h3 k).2 ⟨_, hk, hb⟩
        cases this

/-- All items have ended by themselves: nothing keeps the job from ending. -/
theorem rest_smooth (h : Inv next L init src b m s) (hx : ∀ k, k < L.net.items.length → ∃ c, s.flow.proc k = .exited c)
    (hd : Job.Decodable s.job L.job) : Job.Smooth s.job L.job := by
  have hcf : ∀ v, ¬ Job.FgOf s.job v L.job := by
    rintro v ⟨W, h1, h2⟩
    obtain ⟨as, e⟩ := h.job
    have hc := Job.contFg_run b as
    rw [← e] at hc
    obtain ⟨it, hm, hk⟩ := hc v W L.job h1 h2
    exact no_fg h hm _ hk
  intro q hq
  have := brings_self h hq
  subst this
  refine ⟨hd, ?_, fun v hv => absurd hv (hcf v)⟩
  rintro (⟨P, i, it, h1, h2, h3, h4⟩ | ⟨v, W, r, h1, h2, h3, h4⟩)
  · have hk : (Job.itemsOf s.job.pipes L.job)[i]? = some it := by simp [Job.itemsOf, h1, h3]
    have hlt := item_lt h hk
    have hs := item_state hk
    cases hp : L.isProg i with
    | true =>
      rcases prog_state h hp with h5 | ⟨c, -, h5⟩ <;> rw [hs] at h5 <;> simp_all
    | false =>
      have h5 : Job.stateAt s.job L.job i = _ := h.func i hlt hp
      obtain ⟨c, hc⟩ := hx i hlt
      rw [hs, hc] at h5
      simp_all
  · exact hcf v ⟨W, h1, h2⟩

theorem rest_dead (h : Inv next L init src b m s) (hsq : Sig.Quiet s.sig)
    (hx : ∀ k, k < L.net.items.length → ∃ c, s.flow.proc k = .exited c) : ¬ Job.Alive s.job.pipes L.job :=
  dead h hsq (fun k hk => hx k (isProg_lt hk)) (fun k hk st hst => by
    obtain ⟨c, hc⟩ := hx k hk
    rw [hst] at hc; cases hc)

/-- At rest, with all programs having ended by themselves and all functions having returned: the call has ended. -/
theorem rest_ended (h : Inv next L init src b m s) (hsq : Sig.Quiet s.sig) (hjq : Job.Quiet s.job)
    (hx : ∀ k, k < L.net.items.length → ∃ c, s.flow.proc k = .exited c) (hd : Job.Decodable s.job L.job) {w : Nat}
    (hw : Job.WaitsFor s.job w L.job) (ho : ¬ Job.Overtaken s.job w) : ∃ r, Job.Ended s.job w r := by
  have ha := rest_dead h hsq hx
  have hsm := rest_smooth h hx hd
  obtain ⟨as, e⟩ := h.job
  rw [e] at hw hjq ha hsm ho ⊢
  exact Job.C47_completes_partial b as w L.job hw hjq ha hsm ho

/-! ### Coming to rest -/

theorem Steps.trans {s t u : St σ} (h1 : Steps next L s t) (h2 : Steps next L t u) : Steps next L s u := by
  induction h2 with
  | nil => exact h1
  | snoc _ h ih => exact .snoc ih h

theorem own_foreign {a : Sig.Act} (h : a.own = true) : L.Foreign a := by
  intro k ch _ e
  subst e
  cases h

/-- The signal manager comes to rest. -/
theorem sig_rest (h : Inv next L init src b m s) : ∃ t, Steps next L s t ∧ t.flow = s.flow ∧ Sig.Quiet t.sig := by
  have key : ∀ (d : Nat) (s : St σ), Inv next L init src b m s → Sig.work s.sig ≤ d → ∃ t, Steps next L s t ∧ t.flow = s.flow ∧ Sig.Quiet t.sig := by
    intro d
    induction d with
    | zero =>
      intro s h hd
      by_cases hq : Sig.Quiet s.sig
      · exact ⟨s, .nil, rfl, hq⟩
      · exfalso
        obtain ⟨as, e⟩ := h.sig
        rw [e] at hq hd
        obtain ⟨a, ha, hne⟩ := (Sig.C45_reaches_quiet m as).2 hq
        have := Sig.ownWork_bound _ [a] ⟨ha, hne, trivial⟩
        simp at this
        omega
    | succ d ih =>
      intro s h hd
      by_cases hq : Sig.Quiet s.sig
      · exact ⟨s, .nil, rfl, hq⟩
      · obtain ⟨as, e⟩ := h.sig
        have hq' := hq
        rw [e] at hq'
        obtain ⟨a, ha, hne⟩ := (Sig.C45_reaches_quiet m as).2 hq'
        rw [← e] at hne
        have hb := Sig.ownWork_bound s.sig [a] ⟨ha, hne, trivial⟩
        have hst : Step next L s ⟨s.flow, Sig.step s.sig a, _⟩ := .sig (own_foreign ha)
        obtain ⟨t, h1, h2, h3⟩ := ih _ (inv_step h hst) (by
          show Sig.work (Sig.step s.sig a) ≤ d
          simp [Sig.run] at hb
          omega)
        exact ⟨t, Steps.trans (.snoc .nil hst) h1, h2, h3⟩
  exact key _ s h (Nat.le_refl _)

/-- The event loop comes to rest. -/
theorem job_rest (h : Inv next L init src b m s) : ∃ t, Steps next L s t ∧ t.flow = s.flow ∧ t.sig = s.sig ∧ Job.Quiet t.job := by
  obtain ⟨as, e⟩ := h.job
  obtain ⟨bs, h1, h2⟩ := (Job.C47_loop_ends b as).2
  rw [← e] at h1 h2
  have key : ∀ (bs : List Job.Act) (s : St σ), Job.LoopRun s.job bs → Steps next L s ⟨s.flow, s.sig, Job.run s.job bs⟩ := by
    intro bs
    induction bs with
    | nil => intro s _; exact .nil
    | cons a bs ih =>
      intro s ⟨h1, h2⟩
      have hst : Step next L s ⟨s.flow, s.sig, Job.step s.job a⟩ := .job (fun i o e => by subst e; exact h1)
      exact Steps.trans (.snoc .nil hst) (ih ⟨s.flow, s.sig, Job.step s.job a⟩ h2)
  exact ⟨_, key bs s h1, rfl, rfl, h2⟩

/-- The items come to rest, if there is a bound on the number of their steps. -/
theorem flow_rest {B : Nat} (hB : ∀ n t, Flow.Steps next L.net n (Flow.St.start init src) t → n ≤ B) (h : Inv next L init src b m s) :
    ∃ t, Steps next L s t ∧ ∀ u, ¬ Flow.Step next L.net t.flow u := by
  have key : ∀ (d n : Nat) (s : St σ), n + d = B + 1 → Inv next L init src b m s → Flow.Steps next L.net n (Flow.St.start init src) s.flow →
      ∃ t, Steps next L s t ∧ ∀ u, ¬ Flow.Step next L.net t.flow u := by
    intro d
    induction d with
    | zero => intro n s e _ hn; have := hB n _ hn; omega
    | succ d ih =>
      intro n s e h hn
      by_cases hx : ∃ u, Flow.Step next L.net s.flow u
      · obtain ⟨u, hu⟩ := hx
        have hst : Step next L s ⟨u, _, _⟩ := .flow hu
        obtain ⟨t, h1, h2⟩ := ih (n + 1) _ (by omega) (inv_step h hst) (.snoc hn hu)
        exact ⟨t, Steps.trans (.snoc .nil hst) h1, h2⟩
      · exact ⟨s, .nil, fun u hu => hx ⟨u, hu⟩⟩
  obtain ⟨n, hn⟩ := h.flow
  have := hB n _ hn
  exact key (B + 1 - n) n s (by omega) h hn

theorem inv_steps' {s t : St σ} (h : Inv next L init src b m s) (hs : Steps next L s t) : Inv next L init src b m t := by
  induction hs with
  | nil => exact h
  | snoc _ h2 ih => exact inv_step ih h2

theorem rest {B : Nat} (hB : ∀ n t, Flow.Steps next L.net n (Flow.St.start init src) t → n ≤ B) (h : Inv next L init src b m s) :
    ∃ t, Steps next L s t ∧ AtRest next L t := by
  obtain ⟨t, h1, h2⟩ := flow_rest hB h
  have ht := inv_steps' h h1
  obtain ⟨u, h3, h4, h5⟩ := sig_rest ht
  have hu := inv_steps' ht h3
  obtain ⟨v, h6, h7, h8, h9⟩ := job_rest hu
  exact ⟨v, (h1.trans h3).trans h6, by rw [h7, h4]; exact h2, by rw [h8]; exact h5, h9⟩

end Pieshell.Whole
