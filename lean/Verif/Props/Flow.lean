import Verif.Lemmas.Flow3
import Verif.Props.Run
/-!
# What a pipeline computes (C81, C82, C83)

`list(env.a | env.b | env.c)` yields what one gets by running the programs one after the other through files; likewise with python
functions among them.
-/
namespace Pieshell.Flow

/-- **C82.** A chain of programs and python functions computes what they compute when run one after the other through files:
whatever the schedule, the capacities of the pipes and the order in which the shell reads,
* it takes only a bounded number of steps, if no write fails or programs whose writes fail give up;
* what each item has written is always a part of what it should write, and all of it when it has ended and no write has failed, and its
  status is then the right one; the shell has always received a part of the output of the last item;
* a write of an item fails only if the one that should read its output is a program that has ended, and a signal or exception stops an item only in
  this case;
* when nothing can happen any more, the last item has ended by itself with the right status, having
  written all of its output, and the shell, if it reads it, has received all of it; an item that has not ended
  waits for a later python function that has (see C83). -/
theorem C82_as_if_through_files (sys : Sys) (cwd : Str) (w : World) (rs : Redirects) (p : Pipeline) (i : Obj) (o e : Want)
    (hs : Startable sys cwd w rs p i o e) (hp : Mixed p) (hm : w.PipesMade) :
    ∃ items rs' w', runP sys cwd p rs w = (.ok (items, rs'), w') ∧ items.map Item.id = p.ids ∧
      (p.outWant cwd o = .pipeOut → (userPipe w' rs').isSome) ∧
      ∀ {σ : Type} (next : Prog σ) (init : Nat → σ) (src : Nat → Bytes) (out : Nat → Bytes) (code : Nat → Nat),
        Sequentially next init p.links.length (src 0) out code →
        ∃ B : Nat → Nat, ∀ cap : Nat → Nat, (∀ k, 0 < cap k) →
          ∀ L s, Steps next (started cwd w p o items rs' w' cap) L (St.start init src) s →
            (∀ n, GivesUp next n ∨ (∀ k, k < p.links.length → s.cut k = false) → L ≤ B n) ∧
            (∀ k, k < p.links.length → s.out k <+: out k ∧ (∀ c, Done s k c → s.out k = out k ∧ c = code k) ∧
              (s.proc k = .killed → s.cut k = true) ∧
              (s.cut k = true → k + 1 < p.links.length ∧ ¬ IsFunc p (k + 1) ∧ ∀ st, s.proc (k + 1) ≠ .running st)) ∧
            (p.outWant cwd o = .pipeOut → s.got <+: out (p.links.length - 1)) ∧
            ((∀ t, ¬ Step next (started cwd w p o items rs' w' cap) s t) →
              Done s (p.links.length - 1) (code (p.links.length - 1)) ∧
              s.out (p.links.length - 1) = out (p.links.length - 1) ∧
              (p.outWant cwd o = .pipeOut → s.got = out (p.links.length - 1)) ∧
              ∀ k, k < p.links.length → ∀ st, s.proc k = .running st →
                ∃ j, k ≤ j ∧ IsFunc p (j + 1) ∧ (∃ st, s.proc j = .running st) ∧ ∀ st, s.proc (j + 1) ≠ .running st) := by
  obtain ⟨items, rs', w', q, h1, h2, h3, h4⟩ := started_chain hs hp hm
  have hlen0 : 0 < p.links.length := List.length_pos_iff.2 (links_ne_nil p)
  refine ⟨items, rs', w', h1, h2, fun h => by rw [h3 h]; rfl, ?_⟩
  intro σ next init src out code hseq
  obtain ⟨G, hG, hGo⟩ := sequentially_coh hseq
  refine ⟨fun n => sumTo p.links.length (fun k => G.cnt k + 1 + (if k = 0 then src 0 else out (k - 1)).length + 1 + (n + 1)) + (out (p.links.length - 1)).length, ?_⟩
  intro cap hcap L s hst
  obtain ⟨hn, hfd⟩ := h4 cap hcap
  obtain ⟨F, hI⟩ := inv_steps hn hst
  have hag := fun k hk => agree hI.coh hG k hk
  have hisf : ∀ k, k < p.links.length → (IsFunc p k ↔ ∃ fd, (started cwd w p o items rs' w' cap).inFd k = some fd) := by
    intro k hk
    have hl : p.links[k]? = some p.links[k] := by simp
    rw [hfd k _ hl]
    constructor
    · rintro ⟨l, id, e1, e2⟩; rw [hl] at e1; cases e1; exact ⟨id, e2⟩
    · rintro ⟨id, e2⟩; exact ⟨_, id, hl, e2⟩
  have hfin : ∀ k c, k < p.links.length → Done s k c → s.out k = out k ∧ c = code k := by
    intro k c hk hc
    have hf := hI.exited k c hk hc.1 hc.2
    have a1 := (hag k hk).left c hf
    have a2 := (hag k hk).right _ (hGo k hk).2
    rw [hI.out k hk, ← (hGo k hk).1]
    refine ⟨?_, a2.2.2 c hf⟩
    exact a2.1.eq_of_length (Nat.le_antisymm a2.1.length_le a1.1.length_le)
  have hpre : ∀ k, k < p.links.length → F.wr k <+: out k := by
    intro k hk
    rw [← (hGo k hk).1]; exact ((hag k hk).right _ (hGo k hk).2).1
  have huser : p.outWant cwd o = .pipeOut →
      s.got ++ s.buf (q (p.links.length - 1)) = F.wr (p.links.length - 1) ∧
      (started cwd w p o items rs' w' cap).user = some (q (p.links.length - 1)) := by
    intro hpo
    have hu : (started cwd w p o items rs' w' cap).user = some (q (p.links.length - 1)) := by
      simp only [started, if_pos hpo]; exact h3 hpo
    exact ⟨hI.got _ (by omega) hu, hu⟩
  have hgot : s.got.length ≤ (out (p.links.length - 1)).length := by
    by_cases hpo : p.outWant cwd o = .pipeOut
    · have := (huser hpo).1
      have h' := (hpre (p.links.length - 1) (by omega)).length_le
      rw [← this, List.length_append] at h'
      omega
    · have : ∀ (L : Nat) (t : St σ), Steps next (started cwd w p o items rs' w' cap) L (St.start init src) t → t.got = [] := by
        intro L t h
        generalize hx : St.start init src = s0 at h
        induction h with
        | nil => subst hx; rfl
        | snoc _ h2 ih =>
          have ih := ih hx
          cases h2 <;> first | exact ih | skip
          next hu _ => simp [started, if_neg hpo] at hu
      rw [this L s hst]; simp
  have hrd : ∀ k, k < p.links.length → (F.rd k).length + (s.ahead k).length ≤ (if k = 0 then src 0 else out (k - 1)).length := by
    intro k hk
    cases k with
    | zero =>
      have := congrArg List.length hI.src
      simp only [List.length_append] at this
      rw [if_pos rfl]; omega
    | succ k =>
      have h' := (hpre k (by omega)).length_le
      have := congrArg List.length (hI.mid k hk)
      simp only [List.length_append] at this
      rw [if_neg (by omega), Nat.add_sub_cancel]; omega
  refine ⟨?_, ?_, ?_, ?_⟩
  · intro n hn'
    refine Nat.le_trans hI.steps (Nat.add_le_add (sumTo_le _ fun k hk => ?_) hgot)
    have haft : F.aft k ≤ n + 1 := by
      rcases hn' with h | h
      · exact (hI.after.le n h k).1
      · rw [hI.after.zero k (h k hk)]; omega
    have a2 := ((hag k hk).right _ (hGo k hk).2).2.1
    have : (s.proc k).ended ≤ 1 := by cases s.proc k <;> simp [Proc.ended]
    have : (s.heof k).toNat ≤ 1 := by cases s.heof k <;> simp
    have := hrd k hk
    simp only [work]
    omega
  · intro k hk
    refine ⟨?_, fun c hc => hfin k c hk hc, hI.killed k hk, fun hki => ?_⟩
    · rw [hI.out k hk]; exact hpre k hk
    · obtain ⟨-, g1, g2, g3⟩ := hI.cut k hk hki
      refine ⟨g1, fun h => ?_, g3⟩
      obtain ⟨fd, h⟩ := (hisf _ g1).1 h
      rw [g2] at h; cases h
  · intro hpo
    exact List.IsPrefix.trans ⟨_, (huser hpo).1⟩ (hpre _ (by omega))
  · intro hstuck
    obtain ⟨c, hc⟩ := last_ended hn hI hstuck (p.links.length - 1) (by omega)
    have hd := last_done hI (by omega) hc
    obtain ⟨e1, e2⟩ := hfin _ c (by omega) hd
    refine ⟨by rw [← e2]; exact hd, e1, fun hpo => ?_, fun k hk st hp => ?_⟩
    · obtain ⟨e3, e4⟩ := huser hpo
      rw [all_read hstuck _ e4, List.append_nil] at e3
      rw [e3, ← hI.out _ (by omega), e1]
    · obtain ⟨j, g1, g2, g3, g4, g5⟩ := still_running hn hI hstuck k hk st hp
      exact ⟨j, g1, (hisf _ g2).2 g5, g3, g4⟩

/-- **C82.** If, from the first python function that reads from the pipeline on, all items read their input to the end, then an
execution comes to a halt only when all items have ended, and no write to these functions or between the items after them has failed. -/
theorem C82_all_end (sys : Sys) (cwd : Str) (w : World) (rs : Redirects) (p : Pipeline) (i : Obj) (o e : Want)
    (hs : Startable sys cwd w rs p i o e) (hp : Mixed p) (hm : w.PipesMade) :
    ∃ items rs' w', runP sys cwd p rs w = (.ok (items, rs'), w') ∧
      ∀ {σ : Type} (next : Prog σ) (init : Nat → σ) (src : Nat → Bytes),
        (∀ k, IsFunc p (k + 1) → ∀ j, k + 1 ≤ j → j < p.links.length → Greedy next (init j)) →
        ∀ cap : Nat → Nat, (∀ k, 0 < cap k) →
          ∀ L s, Steps next (started cwd w p o items rs' w' cap) L (St.start init src) s →
            (∀ t, ¬ Step next (started cwd w p o items rs' w' cap) s t) →
            (∀ k, k < p.links.length → ∀ st, s.proc k ≠ .running st) ∧
            ∀ k, IsFunc p (k + 1) → ∀ j, k ≤ j → j < p.links.length → s.proc j ≠ .killed ∧ s.cut j = false := by
  obtain ⟨items, rs', w', q, h1, h2, h3, h4⟩ := started_chain hs hp hm
  refine ⟨items, rs', w', h1, ?_⟩
  intro σ next init src hg cap hcap L s hst hstuck
  obtain ⟨hn, hfd⟩ := h4 cap hcap
  obtain ⟨F, hI⟩ := inv_steps hn hst
  constructor
  · refine all_ended hn hI (fun k fd hk j hj hjl => ?_) hstuck
    have hl : p.links[k + 1]? = some (p.links[k + 1]'(by omega)) := by simp
    obtain ⟨id, hid⟩ := (hfd _ _ hl).1 ⟨fd, hk⟩
    exact hg k ⟨_, id, hl, hid⟩ j hj hjl
  · intro k hk j hj hjl
    have h := none_cut hI (p.links.length - 1 - j) j (by omega) fun i hi hil => hg k hk i (by omega) hil
    exact ⟨fun h' => (by rw [hI.killed j hjl h'] at h; cases h), h⟩

/-- **C82.** The result does not depend on the schedule or on the capacities of the pipes, whether or not the items
would come to an end by themselves: of two executions, what an item has written in one is a part of what it has
written in the other (or the other way round), and the same holds for what the shell has received; if an item has
ended in both, without a failed write, it has written the same and has the same status; and an execution never comes to a halt
before the last item has ended and the shell has received everything. -/
theorem C82_schedule_does_not_matter (sys : Sys) (cwd : Str) (w : World) (rs : Redirects) (p : Pipeline) (i : Obj) (o e : Want)
    (hs : Startable sys cwd w rs p i o e) (hp : Mixed p) (hm : w.PipesMade) :
    ∃ items rs' w', runP sys cwd p rs w = (.ok (items, rs'), w') ∧
      ∀ {σ : Type} (next : Prog σ) (init : Nat → σ) (src : Nat → Bytes) (cap1 cap2 : Nat → Nat), (∀ k, 0 < cap1 k) → (∀ k, 0 < cap2 k) →
        ∀ L1 s1 L2 s2, Steps next (started cwd w p o items rs' w' cap1) L1 (St.start init src) s1 →
          Steps next (started cwd w p o items rs' w' cap2) L2 (St.start init src) s2 →
          (∀ k, k < p.links.length → (s1.out k <+: s2.out k ∨ s2.out k <+: s1.out k) ∧
            ∀ c, Done s1 k c → s2.out k <+: s1.out k ∧ ∀ d, Done s2 k d → c = d ∧ s1.out k = s2.out k) ∧
          (p.outWant cwd o = .pipeOut → s1.got <+: s2.got ∨ s2.got <+: s1.got) ∧
          ((∀ t, ¬ Step next (started cwd w p o items rs' w' cap1) s1 t) →
            (∃ c, Done s1 (p.links.length - 1) c) ∧
            (p.outWant cwd o = .pipeOut → s1.got = s1.out (p.links.length - 1) ∧ s2.got <+: s1.got) ∧
            ((∀ k, ¬ IsFunc p (k + 1)) → ∀ k, k < p.links.length → ∀ st, s1.proc k ≠ .running st)) := by
  obtain ⟨items, rs', w', q, h1, h2, h3, h4⟩ := started_chain hs hp hm
  have hlen0 : 0 < p.links.length := List.length_pos_iff.2 (links_ne_nil p)
  refine ⟨items, rs', w', h1, ?_⟩
  intro σ next init src cap1 cap2 hc1 hc2 L1 s1 L2 s2 hst1 hst2
  obtain ⟨hn1, hfd⟩ := h4 cap1 hc1
  obtain ⟨hn2, -⟩ := h4 cap2 hc2
  obtain ⟨F, hF⟩ := inv_steps hn1 hst1
  obtain ⟨G, hG⟩ := inv_steps hn2 hst2
  have hag := fun k hk => agree hF.coh hG.coh k hk
  have hu1 : p.outWant cwd o = .pipeOut → s1.got ++ s1.buf (q (p.links.length - 1)) = s1.out (p.links.length - 1) ∧
      (started cwd w p o items rs' w' cap1).user = some (q (p.links.length - 1)) := by
    intro hpo
    have hu : (started cwd w p o items rs' w' cap1).user = some (q (p.links.length - 1)) := by
      simp only [started, if_pos hpo]; exact h3 hpo
    exact ⟨by rw [hF.got _ (by omega) hu, hF.out _ (by omega)], hu⟩
  have hu2 : p.outWant cwd o = .pipeOut → s2.got ++ s2.buf (q (p.links.length - 1)) = s2.out (p.links.length - 1) := by
    intro hpo
    have hu : (started cwd w p o items rs' w' cap2).user = some (q (p.links.length - 1)) := by
      simp only [started, if_pos hpo]; exact h3 hpo
    rw [hG.got _ (by omega) hu, hG.out _ (by omega)]
  have hout : ∀ k, k < p.links.length → (s1.out k <+: s2.out k ∨ s2.out k <+: s1.out k) ∧
      ∀ c, Done s1 k c → s2.out k <+: s1.out k ∧ ∀ d, Done s2 k d → c = d ∧ s1.out k = s2.out k := by
    intro k hk
    rw [hF.out k hk, hG.out k hk]
    refine ⟨(hag k hk).cmp, fun c hc => ?_⟩
    have a1 := (hag k hk).left c (hF.exited k c hk hc.1 hc.2)
    refine ⟨a1.1, fun d hd => ?_⟩
    have hfd := hG.exited k d hk hd.1 hd.2
    have a2 := (hag k hk).right d hfd
    exact ⟨(a1.2.2 d hfd).symm, a2.1.eq_of_length (Nat.le_antisymm a2.1.length_le a1.1.length_le)⟩
  refine ⟨hout, ?_, ?_⟩
  · intro hpo
    exact cmp_of_prefix (hout (p.links.length - 1) (by omega)).1 ⟨_, (hu1 hpo).1⟩ ⟨_, hu2 hpo⟩
  · intro hstuck
    obtain ⟨c, hc⟩ := last_ended hn1 hF hstuck (p.links.length - 1) (by omega)
    have hc := last_done hF (by omega) hc
    refine ⟨⟨c, hc⟩, fun hpo => ?_, fun hnf => all_ended hn1 hF (fun k fd hk j hj hjl => ?_) hstuck⟩
    · obtain ⟨e1, e2⟩ := hu1 hpo
      rw [all_read hstuck _ e2, List.append_nil] at e1
      refine ⟨e1, ?_⟩
      rw [e1]
      exact List.IsPrefix.trans ⟨_, hu2 hpo⟩ ((hout _ (by omega)).2 c hc).1
    · have hl : p.links[k + 1]? = some (p.links[k + 1]'(by omega)) := by simp
      obtain ⟨id, hid⟩ := (hfd _ _ hl).1 ⟨fd, hk⟩
      exact absurd ⟨_, id, hl, hid⟩ (hnf k)

theorem programs_no_func {p : Pipeline} (h : Programs p) (k : Nat) : ¬ IsFunc p k := by
  rintro ⟨l, id, h1, h2⟩
  obtain ⟨id', args, h3, _⟩ := h.1 l (List.mem_of_getElem? h1)
  rw [h3] at h2; cases h2

/-- **C81.** A chain of programs computes what the programs compute when run one after the other through files: whatever
the schedule, the capacities of the pipes and the order in which the shell reads,
* it takes only a bounded number of steps, if no write fails or programs whose writes fail give up;
* what each program has written is always a part of what it should write, and all of it when it has ended and no write has failed, and its
  status is then the right one; the shell has always received a part of the output of the last program;
* a write of a program fails only if the one that should read its output has ended, and only in this case a program is killed by `SIGPIPE`;
* when nothing can happen any more, all programs have ended, the last one with the right status, having
  written all of its output, and the shell, if it reads it, has received all of it. -/
theorem C81_as_if_through_files (sys : Sys) (cwd : Str) (w : World) (rs : Redirects) (p : Pipeline) (i : Obj) (o e : Want)
    (hs : Startable sys cwd w rs p i o e) (hp : Programs p) (hm : w.PipesMade) :
    ∃ items rs' w', runP sys cwd p rs w = (.ok (items, rs'), w') ∧ items.map Item.id = p.ids ∧
      (p.outWant cwd o = .pipeOut → (userPipe w' rs').isSome) ∧
      ∀ {σ : Type} (next : Prog σ) (init : Nat → σ) (src : Nat → Bytes) (out : Nat → Bytes) (code : Nat → Nat),
        Sequentially next init p.links.length (src 0) out code →
        ∃ B : Nat → Nat, ∀ cap : Nat → Nat, (∀ k, 0 < cap k) →
          ∀ L s, Steps next (started cwd w p o items rs' w' cap) L (St.start init src) s →
            (∀ n, GivesUp next n ∨ (∀ k, k < p.links.length → s.cut k = false) → L ≤ B n) ∧
            (∀ k, k < p.links.length → s.out k <+: out k ∧ (∀ c, Done s k c → s.out k = out k ∧ c = code k) ∧
              (s.proc k = .killed → s.cut k = true) ∧
              (s.cut k = true → k + 1 < p.links.length ∧ ∀ st, s.proc (k + 1) ≠ .running st)) ∧
            (p.outWant cwd o = .pipeOut → s.got <+: out (p.links.length - 1)) ∧
            ((∀ t, ¬ Step next (started cwd w p o items rs' w' cap) s t) →
              (∀ k, k < p.links.length → ∀ st, s.proc k ≠ .running st) ∧
              Done s (p.links.length - 1) (code (p.links.length - 1)) ∧
              s.out (p.links.length - 1) = out (p.links.length - 1) ∧
              (p.outWant cwd o = .pipeOut → s.got = out (p.links.length - 1))) := by
  obtain ⟨items, rs', w', h1, h2, h3, h4⟩ := C82_as_if_through_files sys cwd w rs p i o e hs hp.mixed hm
  refine ⟨items, rs', w', h1, h2, h3, fun {σ} next init src out code hseq => ?_⟩
  obtain ⟨B, h5⟩ := h4 next init src out code hseq
  refine ⟨B, fun cap hcap L s hst => ?_⟩
  obtain ⟨h6, h7, h8, h9⟩ := h5 cap hcap L s hst
  refine ⟨h6, fun k hk => ⟨(h7 k hk).1, (h7 k hk).2.1, (h7 k hk).2.2.1, fun h => ?_⟩, h8, fun hstuck => ?_⟩
  · obtain ⟨a, -, b⟩ := (h7 k hk).2.2.2 h
    exact ⟨a, b⟩
  · obtain ⟨a, b, c, d⟩ := h9 hstuck
    refine ⟨fun k hk st h => ?_, a, b, c⟩
    obtain ⟨j, -, hj, -⟩ := d k hk st h
    exact programs_no_func hp _ hj

/-- **C81.** The result does not depend on the schedule or on the capacities of the pipes, whether or not the programs
would come to an end by themselves: of two executions, what a program has written in one is a part of what it has
written in the other (or the other way round), and the same holds for what the shell has received; if a program has
ended in both, without a failed write, it has written the same and has the same status; and an execution never comes to a halt
before all programs have ended and the shell has received everything. -/
theorem C81_schedule_does_not_matter (sys : Sys) (cwd : Str) (w : World) (rs : Redirects) (p : Pipeline) (i : Obj) (o e : Want)
    (hs : Startable sys cwd w rs p i o e) (hp : Programs p) (hm : w.PipesMade) :
    ∃ items rs' w', runP sys cwd p rs w = (.ok (items, rs'), w') ∧
      ∀ {σ : Type} (next : Prog σ) (init : Nat → σ) (src : Nat → Bytes) (cap1 cap2 : Nat → Nat), (∀ k, 0 < cap1 k) → (∀ k, 0 < cap2 k) →
        ∀ L1 s1 L2 s2, Steps next (started cwd w p o items rs' w' cap1) L1 (St.start init src) s1 →
          Steps next (started cwd w p o items rs' w' cap2) L2 (St.start init src) s2 →
          (∀ k, k < p.links.length → (s1.out k <+: s2.out k ∨ s2.out k <+: s1.out k) ∧
            ∀ c, Done s1 k c → s2.out k <+: s1.out k ∧ ∀ d, Done s2 k d → c = d ∧ s1.out k = s2.out k) ∧
          (p.outWant cwd o = .pipeOut → s1.got <+: s2.got ∨ s2.got <+: s1.got) ∧
          ((∀ t, ¬ Step next (started cwd w p o items rs' w' cap1) s1 t) →
            (∀ k, k < p.links.length → ∀ st, s1.proc k ≠ .running st) ∧ (∃ c, Done s1 (p.links.length - 1) c) ∧
            (p.outWant cwd o = .pipeOut → s1.got = s1.out (p.links.length - 1) ∧ s2.got <+: s1.got)) := by
  obtain ⟨items, rs', w', h1, h2⟩ := C82_schedule_does_not_matter sys cwd w rs p i o e hs hp.mixed hm
  refine ⟨items, rs', w', h1, fun {σ} next init src cap1 cap2 hc1 hc2 L1 s1 L2 s2 hst1 hst2 => ?_⟩
  obtain ⟨h3, h4, h5⟩ := h2 next init src cap1 cap2 hc1 hc2 L1 s1 L2 s2 hst1 hst2
  refine ⟨h3, h4, fun hstuck => ?_⟩
  obtain ⟨h6, h7, h8⟩ := h5 hstuck
  exact ⟨h8 fun k => programs_no_func hp _, h6, h7⟩

theorem outFd_iff {p : Pipeline} {items : List Item} {cwd : Str} {w w' : World} {o : Want} {rs' : Redirects} {cap : Nat → Nat}
    (hlen : items.length = p.links.length)
    (hkind : ∀ (k : Nat) (l : Pieshell.Link) (x : Item), p.links[k]? = some l → items[k]? = some x →
        ((∃ id argv fds rsx, x = .proc id argv fds rsx) ↔ ∃ id args, l.leaf = .command id args)) {k : Nat} (hk : k < p.links.length) :
    (started cwd w p o items rs' w' cap).outFd k = none ↔ IsProgram p k := by
  have hl : p.links[k]? = some p.links[k] := by simp
  have hlt : k < items.length := by omega
  have hx : items[k]? = some items[k] := by simp
  have hk := hkind k _ _ hl hx
  simp only [Net.outFd, started, hx]
  constructor
  · intro h
    cases e : items[k] with
    | proc id argv fds rsx => obtain ⟨id, args, g⟩ := hk.1 ⟨_, _, _, _, e⟩; exact ⟨_, id, args, hl, g⟩
    | func id a b c => rw [e] at h; cases h
  · rintro ⟨l, id, args, g1, g2⟩
    rw [hl] at g1; cases g1
    obtain ⟨_, _, _, _, g⟩ := hk.2 ⟨id, args, g2⟩
    rw [g]

/-- **C83.** When a program has ended, the item before it writes nothing any more, whatever happens; if it wants to write, the write fails,
and nothing else can happen to it. -/
theorem C83_program_ended_partial (sys : Sys) (cwd : Str) (w : World) (rs : Redirects) (p : Pipeline) (i : Obj) (o e : Want)
    (hs : Startable sys cwd w rs p i o e) (hp : Mixed p) (hm : w.PipesMade) :
    ∃ items rs' w', runP sys cwd p rs w = (.ok (items, rs'), w') ∧
      ∀ {σ : Type} (next : Prog σ) (init : Nat → σ) (src : Nat → Bytes) (cap : Nat → Nat), (∀ k, 0 < cap k) →
        ∀ L s, Steps next (started cwd w p o items rs' w' cap) L (St.start init src) s →
          ∀ k, k + 1 < p.links.length → ¬ IsFunc p (k + 1) → (∀ st, s.proc (k + 1) ≠ .running st) →
            (∀ t, Step next (started cwd w p o items rs' w' cap) s t → t.out k = s.out k ∧ ∀ st, t.proc (k + 1) ≠ .running st) ∧
            ∀ st b st', s.proc k = .running st → next st = .write b st' →
              (∃ t, Step next (started cwd w p o items rs' w' cap) s t ∧ t.cut k = true ∧ Fails next p k st (t.proc k)) ∧
              ∀ t, Step next (started cwd w p o items rs' w' cap) s t →
                t.proc k = .running st ∨ (t.cut k = true ∧ Fails next p k st (t.proc k)) := by
  obtain ⟨items, rs', w', q, h1, h2, h3, hkind, h4⟩ := started_chain_kinds hs hp hm
  refine ⟨items, rs', w', h1, ?_⟩
  intro σ next init src cap hcap L s hst k hk hnf hnr
  obtain ⟨hn, hfd⟩ := h4 cap hcap
  have hin : (started cwd w p o items rs' w' cap).inFd (k + 1) = none := by
    have hl : p.links[k + 1]? = some p.links[k + 1] := by simp
    cases h : (started cwd w p o items rs' w' cap).inFd (k + 1) with
    | none => rfl
    | some fd =>
      obtain ⟨id, hid⟩ := (hfd _ _ hl).1 ⟨fd, h⟩
      exact absurd ⟨_, id, hl, hid⟩ hnf
  have hnop : ¬ (started cwd w p o items rs' w' cap).Open s (.pipeR (q k)) := by
    rw [openR_prog hn hk hin]
    rintro ⟨st, h⟩; exact hnr st h
  have hstay : ∀ j x st, s.proc j = .running st → ∀ st', upd s.proc j x (k + 1) ≠ .running st' := by
    intro j x st hj st'
    by_cases e : k + 1 = j
    · subst e; exact absurd hj (hnr st)
    · rw [upd_ne _ _ e]; exact hnr st'
  have hprog := outFd_iff (cwd := cwd) (w := w) (w' := w') (o := o) (rs' := rs') (cap := cap) hn.len hkind (k := k) (by omega)
  constructor
  · intro t ht
    cases ht with
    | write hj hp' ho hop hcap hop' =>
      refine ⟨?_, hstay _ _ _ hp'⟩
      rename_i j st st' b p'
      by_cases e : k = j
      · subst e
        rw [hn.out k hk] at hop
        cases hop
        exact absurd hop' hnop
      · simp only [upd_ne _ _ e]
    | writeExt hj hp' ho hop =>
      refine ⟨?_, hstay _ _ _ hp'⟩
      rename_i j st st' b
      by_cases e : k = j
      · subst e; rw [hn.out k hk] at hop; cases hop
      · simp only [upd_ne _ _ e]
    | read _ hp' | eof _ hp' | readExt _ hp' | eofExt _ hp' | take _ hp' | takeEof _ hp' | sigpipe _ hp' | epipe _ hp' | exit _ hp' => exact ⟨rfl, hstay _ _ _ hp'⟩
    | fetch | hup | fetchExt | hupExt | user => exact ⟨rfl, hnr⟩
  · intro st b st' hp' ho
    have hfails : ∀ {x : Proc σ}, x = .killed → ((started cwd w p o items rs' w' cap).outFd k = none → next.epipe st = none) → Fails next p k st x := by
      rintro x rfl h
      by_cases e : IsProgram p k
      · exact .sigpipe e (h (hprog.2 e))
      · exact .func e
    constructor
    · by_cases e : (started cwd w p o items rs' w' cap).outFd k = none → next.epipe st = none
      · exact ⟨_, .sigpipe (by rw [hn.len]; omega) hp' ho (hn.out k hk) hnop e, upd_same _ _ _, hfails (upd_same _ _ _) e⟩
      · have hfd' : (started cwd w p o items rs' w' cap).outFd k = none := Classical.byContradiction fun h => e fun h' => absurd h' h
        have he' : next.epipe st ≠ none := fun h => e fun _ => h
        obtain ⟨st'', he'⟩ := Option.ne_none_iff_exists'.1 he'
        refine ⟨_, .epipe (by rw [hn.len]; omega) hp' ho (hn.out k hk) hnop hfd' he', upd_same _ _ _, ?_⟩
        simp only [upd_same]
        exact .epipe (hprog.1 hfd') he'
    intro t ht
    have other : ∀ j x, k ≠ j → upd s.proc j x k = .running st := by
      intro j x e; rw [upd_ne _ _ e]; exact hp'
    cases ht with
    | @read j _ _ _ _ _ _ hj | @eof j _ _ _ _ hj | @readExt j _ _ _ _ _ hj | @eofExt j _ _ _ hj | @take j _ _ _ _ _ _ hj | @takeEof j _ _ _ _ hj =>
      by_cases e : k = j
      · subst e; rw [hp'] at hj; cases hj; simp_all
      · exact .inl (other _ _ e)
    | @exit j _ _ _ hj ho' =>
      by_cases e : k = j
      · subst e; rw [hp'] at hj; cases hj; rw [ho] at ho'; cases ho'
      · exact .inl (other _ _ e)
    | @write j _ _ _ _ _ hj _ hop _ hop' =>
      by_cases e : k = j
      · subst e; rw [hn.out k hk] at hop; cases hop; exact absurd hop' hnop
      · exact .inl (other _ _ e)
    | @writeExt j _ _ _ _ hj _ hop =>
      by_cases e : k = j
      · subst e; rw [hn.out k hk] at hop; cases hop
      · exact .inl (other _ _ e)
    | @sigpipe j _ _ _ _ _ hj _ _ _ hcond =>
      by_cases e : k = j
      · subst e; rw [hp'] at hj; cases hj; exact .inr ⟨upd_same _ _ _, hfails (upd_same _ _ _) hcond⟩
      · exact .inl (other _ _ e)
    | @epipe j _ _ _ _ _ _ hj _ _ _ hfd' he' =>
      by_cases e : k = j
      · subst e; rw [hp'] at hj; cases hj
        refine .inr ⟨upd_same _ _ _, ?_⟩
        simp only [upd_same]
        exact .epipe (hprog.1 hfd') he'
      · exact .inl (other _ _ e)
    | fetch | hup | fetchExt | hupExt | user => exact .inl hp'

/-- A program that writes for ever is always running. -/
theorem endless_fin {σ : Type} {next : Prog σ} {s0 : σ} (hg : Endless next s0) {n : Nat} {rd : Bytes} {e : Bool} {wr : Bytes} {st : σ}
    (h : Trace next s0 n rd e wr st) (c : Nat) : next st ≠ .exit c := by
  obtain ⟨P, h0, hP⟩ := hg
  have key : P st := by
    induction h with
    | nil => exact h0
    | read _ ho ih => obtain ⟨b, st', e1, -⟩ := hP _ ih; rw [ho] at e1; cases e1
    | eof _ ho ih => obtain ⟨b, st', e1, -⟩ := hP _ ih; rw [ho] at e1; cases e1
    | write _ ho ih => obtain ⟨b, st', e1, e2⟩ := hP _ ih; rw [ho] at e1; cases e1; exact e2
  obtain ⟨b, st', e1, -⟩ := hP _ key
  rw [e1]; simp

/-- **C83 is false when the one that ends is a python function**: no write of the item before a python function fails, whatever the
function and the items after it do, also when all of them have ended; if it writes for ever, it is there for ever. -/
theorem C83_refuted_python_function (sys : Sys) (cwd : Str) (w : World) (rs : Redirects) (p : Pipeline) (i : Obj) (o e : Want)
    (hs : Startable sys cwd w rs p i o e) (hp : Mixed p) (hm : w.PipesMade) :
    ∃ items rs' w', runP sys cwd p rs w = (.ok (items, rs'), w') ∧
      ∀ {σ : Type} (next : Prog σ) (init : Nat → σ) (src : Nat → Bytes) (cap : Nat → Nat), (∀ k, 0 < cap k) →
        ∀ L s, Steps next (started cwd w p o items rs' w' cap) L (St.start init src) s →
          ∀ k, IsFunc p (k + 1) → s.proc k ≠ .killed ∧ s.cut k = false ∧ (Endless next (init k) → ∃ st, s.proc k = .running st) := by
  obtain ⟨items, rs', w', q, h1, h2, h3, h4⟩ := started_chain hs hp hm
  refine ⟨items, rs', w', h1, ?_⟩
  intro σ next init src cap hcap L s hst k hk
  obtain ⟨hn, hfd⟩ := h4 cap hcap
  obtain ⟨F, hI⟩ := inv_steps hn hst
  obtain ⟨l, id, hl, hid⟩ := hk
  have hlt : k + 1 < p.links.length := (List.getElem?_eq_some_iff.1 hl).1
  obtain ⟨fd, hfd⟩ := (hfd _ _ hl).2 ⟨id, hid⟩
  have hnc : s.cut k = false := by
    cases h : s.cut k with
    | false => rfl
    | true =>
      have := (hI.cut k (by omega) h).2.2.1
      rw [hfd] at this; cases this
  have hnk : s.proc k ≠ .killed := fun h => by rw [hI.killed k (by omega) h] at hnc; cases hnc
  refine ⟨hnk, hnc, fun hE => ?_⟩
  cases hpk : s.proc k with
  | running st => exact ⟨st, rfl⟩
  | killed => exact absurd hpk hnk
  | exited c =>
    exact absurd (hI.coh.fin k c (by omega) (hI.exited k c (by omega) hpk hnc)) (endless_fin hE (hI.coh.trace k (by omega)) c)

/-- **C83 is false for programs that take no notice of failing writes**, as `SIGPIPE` is ignored in all programs that pieshell starts: such a program is
there for ever, whatever the others do, also when all of them have ended (`env.bash("-c", "while true; do echo y; done") | env.head("-1")`). -/
theorem C83_refuted_sigpipe_ignored (sys : Sys) (cwd : Str) (w : World) (rs : Redirects) (p : Pipeline) (i : Obj) (o e : Want)
    (hs : Startable sys cwd w rs p i o e) (hp : Mixed p) (hm : w.PipesMade) :
    ∃ items rs' w', runP sys cwd p rs w = (.ok (items, rs'), w') ∧
      ∀ {σ : Type} (next : Prog σ) (init : Nat → σ) (src : Nat → Bytes) (cap : Nat → Nat), (∀ k, 0 < cap k) →
        ∀ L s, Steps next (started cwd w p o items rs' w' cap) L (St.start init src) s →
          ∀ k, IsProgram p k → Stubborn next (init k) → ∃ st, s.proc k = .running st := by
  obtain ⟨items, rs', w', q, h1, h2, h3, hkind, h4⟩ := started_chain_kinds hs hp hm
  refine ⟨items, rs', w', h1, ?_⟩
  intro σ next init src cap hcap L s hst k hk ⟨P, h0, hP⟩
  have hlt : k < p.links.length := by obtain ⟨l, _, _, hl, _⟩ := hk; exact (List.getElem?_eq_some_iff.1 hl).1
  have hfd := (outFd_iff (cwd := cwd) (w := w) (w' := w') (o := o) (rs' := rs') (cap := cap) (h4 cap hcap).1.len hkind hlt).2 hk
  have hq : ∀ st, P st → ∃ b st', next st = .write b st' ∧ P st' ∧ ∀ st2, next.epipe st = some st2 → P st2 := by
    intro st h
    obtain ⟨b, st', st'', g1, g2, g3, g4⟩ := hP st h
    exact ⟨b, st', g1, g3, fun st2 g => by rw [g2] at g; cases g; exact g4⟩
  rcases writes_forever (k := k) (P := P) hq h0 hst with ⟨st, h, -⟩ | ⟨-, st, g1, g2⟩
  · exact ⟨st, h⟩
  · obtain ⟨_, _, _, _, g3, _⟩ := hP st g1
    rw [g2 hfd] at g3; cases g3

/-! ### examples -/

namespace FlowEx

/-- States of some programs: `printf`, `cat`, `head -c`. -/
inductive S where
  | printf (l : Bytes)
  | cat
  | catPut (b : UInt8)
  | head (n : Nat)
  | headPut (b : UInt8) (n : Nat)
  | yes
  | done (code : Nat)

def op : S → Op S
  | .printf [] => .exit 0
  | .printf (b :: l) => .write b (.printf l)
  | .cat => .read fun x => match x with | some b => .catPut b | none => .done 0
  | .catPut b => .write b .cat
  | .head 0 => .exit 3
  | .head (n + 1) => .read fun x => match x with | some b => .headPut b n | none => .done 3
  | .headPut b n => .write b (.head n)
  | .yes => .write 121 .yes
  | .done c => .exit c

/-- When a write fails, they end with status 1. -/
def next : Prog S := ⟨op, fun _ => some (.done 1)⟩

theorem givesUp : GivesUp next 0 := by intro s b s' s'' _ h; cases h; exact ⟨1, rfl⟩

/-- `printf ... | cat | head -c 2` -/
def pl : Pipeline := .pipe (.pipe (.command 0 (.word [c!"printf"] .nil)) (.command 1 (.word [c!"cat"] .nil))) (.command 2 (.word [c!"head"] .nil))
def init : Nat → S
  | 0 => .printf [97, 98, 99]
  | 1 => .cat
  | _ => .head 2
def outs : Nat → Bytes
  | 2 => [97, 98]
  | _ => [97, 98, 99]
def codes : Nat → Nat
  | 2 => 3
  | _ => 0

theorem programs : Programs pl := by
  constructor
  · intro l hl
    simp only [pl, Pipeline.links, List.cons_append, List.nil_append, List.mem_cons, List.not_mem_nil, or_false] at hl
    rcases hl with rfl | rfl | rfl
    · exact ⟨_, _, rfl, trivial⟩
    · exact ⟨_, _, rfl, trivial⟩
    · exact ⟨_, _, rfl, trivial⟩
  · intro k l h
    match k, h with
    | 0, h => cases h; rfl
    | 1, h => cases h; rfl
    | k + 2, h => cases h

theorem shape (sys : Sys) : pl.Redirectable sys [] := by simp [pl, Pipeline.Redirectable, Args.Redirectable, Pipeline.outWant]

theorem cat_runs (l : Bytes) : Runs next .cat l l 0 := by
  induction l with
  | nil => exact .eof rfl (.exit rfl)
  | cons b l ih => exact .read rfl (.write rfl ih)

theorem sequentially : Sequentially next init pl.links.length [] outs codes := by
  intro k hk
  match k, hk with
  | 0, _ => exact .write rfl (.write rfl (.write rfl (.exit rfl)))
  | 1, _ => exact cat_runs _
  | 2, _ => exact .read rfl (.write rfl (.read rfl (.write rfl (.exit rfl))))

end FlowEx

/-- The hypotheses of C81 are met by `printf abc | cat | head -c 2`. -/
example : Startable RunEx.sys [] RunEx.world RunEx.iterRs FlowEx.pl (.inherited 0) .pipeOut .tmp ∧ Programs FlowEx.pl ∧
    RunEx.world.PipesMade ∧ FlowEx.pl.outWant [] .pipeOut = .pipeOut ∧
    Sequentially FlowEx.next FlowEx.init FlowEx.pl.links.length [] FlowEx.outs FlowEx.codes :=
  ⟨RunEx.startable _ (by decide) (FlowEx.shape _), FlowEx.programs, RunEx.made, rfl, FlowEx.sequentially⟩

/-- **C81.** The shell does get the result: with any capacities, if programs whose writes fail give up, there is an execution, and by C81 every execution ends like this,
in which it has received the whole output. -/
theorem C81_result_is_reached (sys : Sys) (cwd : Str) (w : World) (rs : Redirects) (p : Pipeline) (i : Obj) (o e : Want)
    (hs : Startable sys cwd w rs p i o e) (hp : Programs p) (hm : w.PipesMade) (ho : p.outWant cwd o = .pipeOut) :
    ∃ items rs' w', runP sys cwd p rs w = (.ok (items, rs'), w') ∧
      ∀ {σ : Type} (next : Prog σ) (init : Nat → σ) (src : Nat → Bytes) (out : Nat → Bytes) (code : Nat → Nat),
        Sequentially next init p.links.length (src 0) out code → ∀ n, GivesUp next n → ∀ cap : Nat → Nat, (∀ k, 0 < cap k) →
        ∀ L s, Steps next (started cwd w p o items rs' w' cap) L (St.start init src) s →
          ∃ L' s', Steps next (started cwd w p o items rs' w' cap) (L + L') (St.start init src) s' ∧
            s'.got = out (p.links.length - 1) ∧ Done s' (p.links.length - 1) (code (p.links.length - 1)) := by
  obtain ⟨items, rs', w', h1, h2, h3, h4⟩ := C81_as_if_through_files sys cwd w rs p i o e hs hp hm
  refine ⟨items, rs', w', h1, ?_⟩
  intro σ next init src out code hseq n hgu cap hcap L s hst
  obtain ⟨B', hB⟩ := h4 next init src out code hseq
  obtain ⟨B, hBn⟩ : ∃ B, B = B' n := ⟨_, rfl⟩
  have key : ∀ d L s, L + d = B + 1 → Steps next (started cwd w p o items rs' w' cap) L (St.start init src) s →
      ∃ L' s', Steps next (started cwd w p o items rs' w' cap) (L + L') (St.start init src) s' ∧
        ∀ t, ¬ Step next (started cwd w p o items rs' w' cap) s' t := by
    intro d
    induction d with
    | zero => intro L s hL h; have := (hB cap hcap L s h).1 n (.inl hgu); omega
    | succ d ih =>
      intro L s hL h
      by_cases hx : ∃ t, Step next (started cwd w p o items rs' w' cap) s t
      · obtain ⟨t, ht⟩ := hx
        obtain ⟨L', s', a, b⟩ := ih (L + 1) t (by omega) (.snoc h ht)
        exact ⟨L' + 1, s', by rw [show L + (L' + 1) = L + 1 + L' by omega]; exact a, b⟩
      · exact ⟨0, s, h, fun t ht => hx ⟨t, ht⟩⟩
  have hle := (hB cap hcap L s hst).1 n (.inl hgu)
  obtain ⟨L', s', a, b⟩ := key (B + 1 - L) L s (by omega) hst
  obtain ⟨-, -, -, c⟩ := hB cap hcap _ s' a
  obtain ⟨-, c1, -, c2⟩ := c b
  exact ⟨L', s', a, c2 ho, c1⟩

example : ∃ items rs' w', runP RunEx.sys [] FlowEx.pl RunEx.iterRs RunEx.world = (.ok (items, rs'), w') ∧ ∃ L s,
    Steps FlowEx.next (started [] RunEx.world FlowEx.pl .pipeOut items rs' w' fun _ => 1) L (St.start FlowEx.init fun _ => []) s ∧
    s.got = c!"ab".map (fun c => c.toNat.toUInt8) ∧ s.proc 2 = .exited 3 := by
  obtain ⟨items, rs', w', h1, h2⟩ := C81_result_is_reached _ _ _ _ _ _ _ _
    (RunEx.startable FlowEx.pl (by decide) (FlowEx.shape _)) FlowEx.programs RunEx.made rfl
  obtain ⟨L, s, h3, h4, h5⟩ := h2 FlowEx.next FlowEx.init (fun _ => []) FlowEx.outs FlowEx.codes FlowEx.sequentially 0 FlowEx.givesUp (fun _ => 1) (by simp) 0 _ .nil
  exact ⟨items, rs', w', h1, _, s, h3, h4, h5.1⟩

/-! ### examples with python functions -/

namespace FlowEx

/-- `printf abc | f | head -c 2`, where `f` is a python function -/
def plf : Pipeline := .pipe (.pipe (.command 0 (.word [c!"printf"] .nil)) (.func 1)) (.command 2 (.word [c!"head"] .nil))

/-- `yes | f` -/
def yesf : Pipeline := .pipe (.command 0 (.word [c!"yes"] .nil)) (.func 1)

theorem mixed : Mixed plf := by
  constructor
  · intro l hl
    simp only [plf, Pipeline.links, List.cons_append, List.nil_append, List.mem_cons, List.not_mem_nil, or_false] at hl
    rcases hl with rfl | rfl | rfl
    · exact .inl ⟨_, _, rfl, trivial⟩
    · exact .inr (.inl ⟨_, rfl⟩)
    · exact .inl ⟨_, _, rfl, trivial⟩
  · intro k l h
    match k, h with
    | 0, h => cases h; exact ⟨rfl, trivial⟩
    | 1, h => cases h; exact ⟨rfl, trivial⟩
    | k + 2, h => cases h

theorem mixed_yes : Mixed yesf := by
  constructor
  · intro l hl
    simp only [yesf, Pipeline.links, List.cons_append, List.nil_append, List.mem_cons, List.not_mem_nil, or_false] at hl
    rcases hl with rfl | rfl
    · exact .inl ⟨_, _, rfl, trivial⟩
    · exact .inr (.inl ⟨_, rfl⟩)
  · intro k l h
    match k, h with
    | 0, h => cases h; exact ⟨rfl, trivial⟩
    | k + 1, h => cases h

theorem shape_f (sys : Sys) : plf.Redirectable sys [] := by simp [plf, Pipeline.Redirectable, Args.Redirectable, Pipeline.outWant]
theorem shape_yes (sys : Sys) : yesf.Redirectable sys [] := by simp [yesf, Pipeline.Redirectable, Args.Redirectable, Pipeline.outWant]

theorem cat_greedy : Greedy next .cat := by
  refine ⟨fun st => st = .cat ∨ ∃ b, st = .catPut b, .inl rfl, ?_⟩
  rintro st (rfl | ⟨b, rfl⟩)
  · exact ⟨by simp [next, op], by simp [next, op], fun f b h => by cases h; exact .inr ⟨b, rfl⟩⟩
  · exact ⟨by simp [next, op], fun b st' h => by cases h; exact .inl rfl, by simp [next, op]⟩

theorem yes_endless : Endless next .yes := ⟨fun st => st = .yes, rfl, fun st h => ⟨121, .yes, by rw [h]; rfl, rfl⟩⟩

end FlowEx

/-- The hypotheses of C82 are met by `printf abc | f | head -c 2`, where `f` copies its input; -/
example : Startable RunEx.sys [] RunEx.world RunEx.iterRs FlowEx.plf (.inherited 0) .pipeOut .tmp ∧ Mixed FlowEx.plf ∧
    RunEx.world.PipesMade ∧ FlowEx.plf.outWant [] .pipeOut = .pipeOut ∧ IsFunc FlowEx.plf 1 ∧
    Sequentially FlowEx.next FlowEx.init FlowEx.plf.links.length [] FlowEx.outs FlowEx.codes :=
  ⟨RunEx.startable _ (by decide) (FlowEx.shape_f _), FlowEx.mixed, RunEx.made, rfl, ⟨_, 1, rfl, rfl⟩, FlowEx.sequentially⟩

/-- those of `C82_all_end` by `yes | f`, where `f` reads everything. -/
example : Startable RunEx.sys [] RunEx.world RunEx.iterRs FlowEx.yesf (.inherited 0) .pipeOut .tmp ∧ Mixed FlowEx.yesf ∧
    ∀ k, IsFunc FlowEx.yesf (k + 1) → ∀ j, k + 1 ≤ j → j < FlowEx.yesf.links.length →
      Greedy FlowEx.next ((fun n => if n = 0 then .yes else .cat : Nat → FlowEx.S) j) := by
  refine ⟨RunEx.startable _ (by decide) (FlowEx.shape_yes _), FlowEx.mixed_yes, fun k _ j hj hl => ?_⟩
  have : j ≠ 0 := by omega
  simp only [if_neg this]; exact FlowEx.cat_greedy

/-- `list(yes | f)`, where `f` returns at once: `f` ends, and `yes` stays there for ever. -/
example : ∃ items rs' w', runP RunEx.sys [] FlowEx.yesf RunEx.iterRs RunEx.world = (.ok (items, rs'), w') ∧
    (∃ s, Steps FlowEx.next (started [] RunEx.world FlowEx.yesf .pipeOut items rs' w' fun _ => 1) 1
      (St.start (fun k => if k = 0 then .yes else .head 0) fun _ => []) s ∧ s.proc 1 = .exited 3) ∧
    ∀ L s, Steps FlowEx.next (started [] RunEx.world FlowEx.yesf .pipeOut items rs' w' fun _ => 1) L
      (St.start (fun k => if k = 0 then .yes else .head 0) fun _ => []) s → ∃ st, s.proc 0 = .running st := by
  have hs := RunEx.startable FlowEx.yesf (by decide) (FlowEx.shape_yes _)
  obtain ⟨items, rs', w', h1, h2⟩ := C83_refuted_python_function _ _ _ _ _ _ _ _ hs FlowEx.mixed_yes RunEx.made
  obtain ⟨items', rs2, w2, h1', h3, -⟩ := C82_as_if_through_files _ _ _ _ _ _ _ _ hs FlowEx.mixed_yes RunEx.made
  rw [h1] at h1'
  cases h1'
  refine ⟨items, rs', w', h1, ⟨_, .snoc .nil (.exit (k := 1) (st := .head 0) (c := 3) ?_ rfl rfl), rfl⟩, fun L s h =>
    (h2 _ _ _ _ (by simp) L s h 0 ⟨_, 1, rfl, rfl⟩).2.2 FlowEx.yes_endless⟩
  have : items.length = 2 := by rw [← List.length_map (f := Item.id), h3]; rfl
  simp only [started, this]; decide

/-- `while true; do echo y; done`, in a shell: `yes` that goes on. -/
def FlowEx.loop : Prog FlowEx.S := ⟨FlowEx.op, fun st => some st⟩

/-- `yes | head -c 0` with such a `yes`: `head` ends, and the other one stays there for ever. -/
example : Startable RunEx.sys [] RunEx.world RunEx.iterRs FlowEx.pl (.inherited 0) .pipeOut .tmp ∧ Mixed FlowEx.pl ∧ IsProgram FlowEx.pl 0 ∧
    Stubborn FlowEx.loop .yes ∧ ¬ IsFunc FlowEx.pl 1 :=
  ⟨RunEx.startable _ (by decide) (FlowEx.shape _), FlowEx.programs.mixed, ⟨_, _, _, rfl, rfl⟩,
    ⟨fun st => st = .yes, rfl, fun st h => ⟨121, .yes, .yes, by rw [h]; rfl, by rw [h]; rfl, rfl, rfl⟩⟩, programs_no_func FlowEx.programs 1⟩

/-- The hypotheses of `C83_program_ended_partial`: in `printf abc | f | head -c 2`, item 2 is a program. -/
example : Startable RunEx.sys [] RunEx.world RunEx.iterRs FlowEx.plf (.inherited 0) .pipeOut .tmp ∧ Mixed FlowEx.plf ∧
    ¬ IsFunc FlowEx.plf (1 + 1) :=
  ⟨RunEx.startable _ (by decide) (FlowEx.shape_f _), FlowEx.mixed, by rintro ⟨l, id, h1, h2⟩; cases h1; cases h2⟩

/-! ### where it is false -/

/-- Nobody reads from pipe `u`, but the shell keeps its read end. -/
theorem unread {σ : Type} {next : Prog σ} {net : Net} {init : Nat → σ} {src : Nat → Bytes} {m u fd : Nat} {en : Entry}
    (hout : net.outPipe m = some u) (hin : ∀ j, net.inPipe j ≠ some u) (hus : net.user ≠ some u)
    (hg : net.w.fds.get fd = some en) (hob : en.obj = .pipeR u) (hfd : ∀ j, net.inFd j ≠ some fd ∧ net.outFd j ≠ some fd)
    {L : Nat} {s : St σ} (hs : Steps next net L (St.start init src) s) :
    (s.proc m ≠ .killed ∧ (s.out m).length ≤ (s.buf u).length ∧ (s.buf u).length ≤ net.cap u ∧
    (Endless next (init m) → ∃ st, s.proc m = .running st ∧ Endless next st)) ∧ s.shut fd = false ∧ s.cut m = false := by
  generalize hx : St.start init src = s0 at hs
  induction hs with
  | nil => subst hx; exact ⟨⟨by simp [St.start], by simp [St.start], by simp [St.start], fun h => ⟨_, rfl, h⟩⟩, rfl, rfl⟩
  | @snoc n s' t v h1 h2 ih =>
    obtain ⟨⟨i1, i2, i3, i4⟩, i5⟩ := ih hx
    -- item `k` takes a step that is not a write
    have quiet : ∀ {k : Nat} {st : σ} {x : Proc σ} {buf : Nat → Bytes}, t.proc k = .running st → (∀ b st', next st ≠ .write b st') → x ≠ .killed →
        buf u = t.buf u → upd t.proc k x m ≠ .killed ∧ (t.out m).length ≤ (buf u).length ∧ (buf u).length ≤ net.cap u ∧
        (Endless next (init m) → ∃ st, upd t.proc k x m = .running st ∧ Endless next st) := by
      intro k st x buf hp hno hxk hbuf
      rw [hbuf]
      by_cases e : m = k
      · subst e
        refine ⟨by rw [upd_same]; exact hxk, i2, i3, fun h => ?_⟩
        obtain ⟨st2, g1, P, g2, g3⟩ := i4 h
        rw [hp] at g1; cases g1
        obtain ⟨b', st', g4, _⟩ := g3 _ g2
        exact absurd g4 (hno _ _)
      · simp only [upd_ne _ _ e]; exact ⟨i1, i2, i3, i4⟩
    cases h2 with
    | @read k st f p b rest hk hp ho hnf hip hb =>
      have hpu : u ≠ p := by rintro rfl; exact hin k hip
      exact ⟨quiet hp (by simp [ho]) (by simp) (upd_ne _ _ hpu), i5⟩
    | @eof k st f p hk hp ho | @readExt k st f b rest hk hp ho | @eofExt k st f hk hp ho
    | @take k fd st f b rest hk hp ho | @takeEof k fd st f hk hp ho =>
      exact ⟨quiet hp (by simp [ho]) (by simp) rfl, i5⟩
    | @fetch k fd' p c rest hk hfk hh hnl hip =>
      have hpu : u ≠ p := by rintro rfl; exact hin k hip
      simp only [upd_ne _ _ hpu]; exact ⟨⟨i1, i2, i3, i4⟩, i5⟩
    | @fetchExt k fd' c rest hk hfk hh hnl hip => exact ⟨⟨i1, i2, i3, i4⟩, i5⟩
    | @hup k fd' p hk hfk | @hupExt k fd' hk hfk =>
      refine ⟨⟨i1, i2, i3, i4⟩, ?_⟩
      have : (some fd') ≠ some fd := by rw [← hfk]; exact (hfd k).1
      simp only [close_ne this]; exact i5
    | @write k st st' b p hk hp ho hop' hcap hw =>
      refine ⟨?_, i5⟩
      have hbuf : (upd t.buf p (t.buf p ++ [b]) u).length = (t.buf u).length + (if u = p then 1 else 0) := by
        by_cases e : u = p
        · subst e; simp [upd_same]
        · simp [upd_ne _ _ e, e]
      have hcap' : (upd t.buf p (t.buf p ++ [b]) u).length ≤ net.cap u := by
        rw [hbuf]; split
        · next e => subst e; omega
        · omega
      by_cases e : m = k
      · subst e
        rw [hout] at hop'
        cases hop'
        refine ⟨by simp [upd_same], ?_, hcap', fun h => ?_⟩
        · simp only [upd_same]; simp; omega
        · obtain ⟨st2, g1, P, g2, g3⟩ := i4 h
          rw [hp] at g1; cases g1
          obtain ⟨b', st3, g4, g5⟩ := g3 _ g2
          rw [ho] at g4; cases g4
          exact ⟨_, upd_same _ _ _, P, g5, g3⟩
      · refine ⟨by simp only [upd_ne _ _ e]; exact i1, ?_, hcap', by simp only [upd_ne _ _ e]; exact i4⟩
        rw [hbuf]; simp only [upd_ne _ _ e]; omega
    | @sigpipe k st st' b p hk hp ho hop' hw =>
      have e : m ≠ k := by
        rintro rfl
        rw [hout] at hop'
        cases hop'
        exact absurd (.inr ⟨fd, en, hg, hob, i5.1⟩) hw
      simp only [close_ne (hfd k).2, upd_ne _ _ e]; exact ⟨⟨i1, i2, i3, i4⟩, i5⟩
    | @epipe k st st' st'' b p hk hp ho hop' hw =>
      have e : m ≠ k := by
        rintro rfl
        rw [hout] at hop'
        cases hop'
        exact absurd (.inr ⟨fd, en, hg, hob, i5.1⟩) hw
      simp only [upd_ne _ _ e]; exact ⟨⟨i1, i2, i3, i4⟩, i5⟩
    | @writeExt k st st' b hk hp ho hop' =>
      refine ⟨?_, i5⟩
      by_cases e : m = k
      · subst e; rw [hout] at hop'; cases hop'
      · simp only [upd_ne _ _ e]; exact ⟨i1, i2, i3, i4⟩
    | @exit k st c hk hp ho =>
      exact ⟨quiet hp (by simp [ho]) (by simp) rfl, by simp only [close_ne (hfd k).2]; exact i5⟩
    | @user p b rest hu hb =>
      have hpu : u ≠ p := by rintro rfl; exact hus hu
      simp only [upd_ne _ _ hpu]; exact ⟨⟨i1, i2, i3, i4⟩, i5⟩

/-- **C81 is false for `a | b` when `b` is redirected for stdin**, as in `env.yes() | env.wc(redirect < "f")`: whatever `b` does, and
also after it has ended, no write of the last program of `a` fails, it is not killed, and it cannot write more than fits into the pipe; if it writes for
ever, it stays there for ever. -/
theorem C81_refuted_redirected_stdin (sys : Sys) (cwd : Str) (w : World) (rs : Redirects) (a b : Pipeline) (i : Obj) (o e : Want)
    (hs : Startable sys cwd w rs (.pipe a b) i o e) (hb : b.takes 0 = true) (hm : w.PipesMade) :
    ∃ items rs' w' m q, runP sys cwd (.pipe a b) rs w = (.ok (items, rs'), w') ∧ (items.take (m + 1)).map Item.id = a.ids ∧
      m + 1 = a.ids.length ∧
      ∀ {σ : Type} (next : Prog σ) (init : Nat → σ) (src : Nat → Bytes) (cap : Nat → Nat) L s,
        Steps next (started cwd w (.pipe a b) o items rs' w' cap) L (St.start init src) s →
          s.proc m ≠ .killed ∧ s.cut m = false ∧ (s.out m).length ≤ cap q ∧ (Endless next (init m) → ∃ st, s.proc m = .running st) := by
  obtain ⟨⟨H, L, hr, hl, hstd⟩, ho, he, hsh, hlow, hpo⟩ := hs
  obtain ⟨items, rs', w', ul, lk, hrun, P⟩ := run_spec sys cwd (.pipe a b) hsh hr hl hstd ho he hlow hpo
  obtain ⟨oi, oo, oe⟩ := hstd.old
  obtain ⟨F, F2⟩ := refRun_free (.pipe a b) hsh i o e w.ctr ho he ((oi i rfl).old hm) (fun b hb => (oo b hb).old hm) (fun b hb => (oe b hb).old hm)
  have hleak : Obj.pipeR (refRun cwd a i .pipeOut e w.ctr).out ∈ (refRun cwd (.pipe a b) i o e w.ctr).leaks := by simp [refRun, hb]
  obtain ⟨k, hk⟩ := List.mem_iff_getElem?.1 hleak
  obtain ⟨fd, hfd1, hfd2⟩ := P.leaks.get hk
  have hI := P.itemsOk
  simp only [refRun] at hI
  obtain ⟨xs, ys, rfl, hx, hy⟩ := items_split hI
  obtain ⟨m, hm1, hm2⟩ := refRun_last (cwd := cwd) a i .pipeOut e w.ctr trivial
  obtain ⟨m', hm1', hmok⟩ := hx.getLast hm1
  simp only [Pipeline.Redirectable] at hsh
  rw [hsh.2.2] at hm2
  have hids : xs.map Item.id = a.ids := by rw [ItemOk.ids hx, refRun_ids]
  have hxs : 0 < xs.length := by
    cases xs with
    | nil => cases hm1'
    | cons => simp
  have hget : (xs ++ ys)[xs.length - 1]? = some m' := by
    rw [List.getElem?_append_left (by omega), ← List.getLast?_eq_getElem?, hm1']
  have hnew : w.nextPipe ≤ (refRun cwd a i .pipeOut e w.ctr).out := (refRun_out a i .pipeOut e w.ctr).1
  have hnobody : ∀ x ∈ xs ++ ys, ¬ x.Holds w' (.pipeR (refRun cwd a i .pipeOut e w.ctr).out) := by
    intro x hx' hh
    obtain ⟨y, hy1, hy2⟩ := P.itemsOk.mem hx'
    rcases hy2.holds hh with h | h
    · exact F.unused _ hleak y hy1 h
    · exact ((OldIn.log h).notPipe hm _ hnew).1 rfl
  refine ⟨_, rs', w', xs.length - 1, (refRun cwd a i .pipeOut e w.ctr).out, hrun, ?_, ?_, ?_⟩
  · rw [show xs.length - 1 + 1 = xs.length by omega, List.take_left, hids]
  · rw [← hids, List.length_map]; omega
  · intro σ next init src cap L s hst
    have := unread (m := xs.length - 1) (u := (refRun cwd a i .pipeOut e w.ctr).out) (net := started cwd w (.pipe a b) o (xs ++ ys) rs' w' cap)
      ?_ ?_ ?_ hfd2 rfl (fun j => ⟨fun h => ?_, fun h => ?_⟩) hst
    · obtain ⟨⟨h1, h2, h3, h4⟩, -, h5⟩ := this
      exact ⟨h1, h5, Nat.le_trans h2 h3, fun h => let ⟨st, h, _⟩ := h4 h; ⟨st, h⟩⟩
    · have hst : m'.stdout w' = some (.pipeW (refRun cwd a i .pipeOut e w.ctr).out) := by rw [hmok.stdout]; exact congrArg some hm2
      simp only [Net.outPipe, started, hget, Option.bind_some, hst]
      exact if_pos hnew
    · intro j hj
      simp only [Net.inPipe, started] at hj
      split at hj
      · next u hu =>
        by_cases hle : w.nextPipe ≤ u
        · have hj := (if_pos hle).symm.trans hj
          cases hj
          obtain ⟨x, hx1, hx2⟩ := Option.bind_eq_some_iff.1 hu
          refine hnobody x (List.mem_of_getElem? hx1) ?_
          cases x with
          | proc id argv fds rsx => exact ⟨0, hx2⟩
          | func id inFd outFd rsx =>
            cases inFd with
            | none => cases hx2
            | some n => exact ⟨n, .inl rfl, hx2⟩
        · have hj := (if_neg hle).symm.trans hj
          cases hj
      · cases hj
    · intro hu
      simp only [started] at hu
      split at hu
      · next hpo =>
        obtain ⟨r, g1, g2⟩ := P.r1
        obtain ⟨u, g3, g4, g5⟩ := g2 hpo
        simp only [userPipe, g1, g4, g5, Option.map_some] at hu
        have hu := Option.some.inj hu
        refine (F2 hpo).2 ?_
        rw [hu]; exact hleak
      · cases hu
    · simp only [Net.inFd, started] at h
      split at h
      · next id inFd outFd rsx hx =>
        subst h
        exact hnobody _ (List.mem_of_getElem? hx) ⟨fd, .inl rfl, by rw [hfd2]; rfl⟩
      · cases h
    · simp only [Net.outFd, started] at h
      split at h
      · next id inFd outFd rsx hx =>
        cases h
        exact hnobody _ (List.mem_of_getElem? hx) ⟨fd, .inr rfl, by rw [hfd2]; rfl⟩
      · cases h

/-- `yes | (cat < "f")`: `yes` is there for ever -/
example : ∃ items rs' w', runP RunEx.sys [] RunEx.cut defaultRedirects RunEx.world = (.ok (items, rs'), w') ∧
    ∀ (src : Nat → Bytes) (cap : Nat → Nat) L s,
      Steps FlowEx.next (started [] RunEx.world RunEx.cut (.obj (.inherited 1)) items rs' w' cap) L
        (St.start (fun k => if k = 0 then .yes else .cat) src) s → ∃ st, s.proc 0 = .running st := by
  obtain ⟨items, rs', w', m, q, h1, -, h2, h3⟩ := C81_refuted_redirected_stdin _ _ _ _ _ _ _ _ _
    (RunEx.startable' RunEx.cut (by decide) RunEx.cut_shape) rfl RunEx.made
  obtain rfl : m = 0 := by simpa [Pipeline.ids, Args.ids] using h2
  exact ⟨items, rs', w', h1, fun src cap L s h => (h3 _ _ src cap L s h).2.2.2
    ⟨fun st => st = .yes, rfl, fun st h => ⟨121, .yes, by rw [h]; rfl, rfl⟩⟩⟩

end Pieshell.Flow
