import Verif.Lemmas.Whole2
/-!
# Running a pipeline and waiting for it (C95)

`await (env.a | f | env.b).run().wait()`: the pipeline is started (`Model/Run`), its items work (`Model/Flow`), the kernel reports the
ends of programs and the signal manager passes them on (`Model/Signal`), the event loop runs `wait()` (`Model/Job`); all of it
in any order.
-/
namespace Pieshell.Whole
open Pieshell.Flow (Mixed Sequentially Greedy EndlessDefault GivesUp KeepsSigpipe IsFunc Done Programs Op Prog Bytes)

theorem isProg_iff {p : Pipeline} {items : List Item} {cwd : Str} {w w' : World} {o : Want} {rs' : Redirects} {cap : Nat → Nat} {job : Nat} {pid : Nat → Nat}
    (hlen : items.length = p.links.length)
    (h : ∀ (k : Nat) (l : Pieshell.Link) (x : Item), p.links[k]? = some l → items[k]? = some x →
        ((∃ id argv fds rsx, x = .proc id argv fds rsx) ↔ ∃ id args, l.leaf = .command id args)) (k : Nat) :
    (theJob cwd w p o items rs' w' cap job pid).isProg k = true ↔ IsProgram p k := by
  show (match items[k]? with | some (.proc ..) => true | _ => false) = true ↔ _
  constructor
  · intro hk
    split at hk
    · rename_i id argv fds rsx e
      have hlt : k < p.links.length := by rw [← hlen]; exact (List.getElem?_eq_some_iff.1 e).1
      have hl : p.links[k]? = some p.links[k] := List.getElem?_eq_getElem hlt
      obtain ⟨id, args, e2⟩ := (h k _ _ hl e).1 ⟨_, _, _, _, rfl⟩
      exact ⟨_, id, args, hl, e2⟩
    · cases hk
  · rintro ⟨l, id, args, hl, e⟩
    have hlt : k < items.length := by rw [hlen]; exact (List.getElem?_eq_some_iff.1 hl).1
    obtain ⟨_, _, _, _, e2⟩ := (h k l _ hl (List.getElem?_eq_getElem hlt)).2 ⟨id, args, e⟩
    rw [List.getElem?_eq_getElem hlt, e2]

/-- **C95.** What the end of `wait()` says about a pipeline of programs and python functions: in every execution of pipeline, kernel, signal manager and event loop,
* if `wait()` has returned, every item has ended, the programs with status zero (modulo 256);
* if `wait()` has raised `PipelineFailed(l)`, every item has ended, and `l` lists, in order, exactly the programs that have ended with a
  status that is not zero (modulo 256) and the functions that failed;
* if the items write `out` and end with `code` when run one after the other through files, those that have ended and of which no write has failed have ended with that
  status, having written all of that output, and no item has written anything else before;
* writes fail only if the next item is a program that has ended, so that no write of the last item fails. -/
theorem C95_result (sys : Sys) (cwd : Str) (w : World) (rs : Redirects) (p : Pipeline) (i : Obj) (o e : Want)
    (hs : Startable sys cwd w rs p i o e) (hp : Mixed p) (hm : w.PipesMade) :
    ∃ items rs' w', runP sys cwd p rs w = (.ok (items, rs'), w') ∧ items.map Item.id = p.ids ∧
      ∀ {σ : Type} (next : Prog σ) (init : Nat → σ) (src : Nat → Bytes) (cap : Nat → Nat) (job : Nat) (pid : Nat → Nat), (∀ k, 0 < cap k) →
        ∀ s0 s, Start (theJob cwd w p o items rs' w' cap job pid) init src s0 →
          Steps next (theJob cwd w p o items rs' w' cap job pid) s0 s →
          (∀ (out : Nat → Bytes) (code : Nat → Nat), Sequentially next init p.links.length (src 0) out code →
            ∀ k, k < p.links.length → s.flow.out k <+: out k ∧ ∀ c, Done s.flow k c → c = code k ∧ s.flow.out k = out k) ∧
          (∀ k, k < p.links.length → s.flow.cut k = true →
            k + 1 < p.links.length ∧ ¬ IsFunc p (k + 1) ∧ ∀ st, s.flow.proc (k + 1) ≠ .running st) ∧
          ∀ wt r, Result s job wt r →
            (r = .ok → ∀ k, k < p.links.length → ∃ c, s.flow.proc k = .exited c ∧ (IsProgram p k → c % 256 = 0)) ∧
            (∀ l, r = .failed l →
              (∀ k, k < p.links.length → (IsProgram p k → ∃ c, s.flow.proc k = .exited c) ∧ ∀ st, s.flow.proc k ≠ .running st) ∧
              l ≠ [] ∧ l.Pairwise (· < ·) ∧
              ∀ k, k ∈ l ↔ k < p.links.length ∧
                ((IsProgram p k ∧ ∃ c, s.flow.proc k = .exited c ∧ c % 256 ≠ 0) ∨ (¬ IsProgram p k ∧ s.flow.proc k = .killed))) := by
  obtain ⟨items, rs', w', h1, h2, -, h4⟩ := Flow.C82_as_if_through_files sys cwd w rs p i o e hs hp hm
  obtain ⟨items', rs2, w2, q, g1, -, -, hk, hch⟩ := Flow.started_chain_kinds hs hp hm
  rw [h1] at g1
  cases g1
  have hlen : items.length = p.links.length := (hch (fun _ => 1) (by simp)).1.len
  refine ⟨items, rs', w', h1, h2, ?_⟩
  intro σ next init src cap job pid hcap s0 s h0 hst
  obtain ⟨b, m, hi⟩ := inv_steps h0 hst
  obtain ⟨n, hn⟩ := hi.flow
  have hprog := isProg_iff (cwd := cwd) (w := w) (w' := w') (o := o) (rs' := rs') (cap := cap) (job := job) (pid := pid) hlen hk
  refine ⟨fun out code hseq k hk => ?_, fun k hk hc => ?_, fun wt r hr => ?_⟩
  · obtain ⟨B, hB⟩ := h4 next init src out code hseq
    obtain ⟨-, hout, -⟩ := hB cap hcap n s.flow hn
    exact ⟨(hout k hk).1, fun c hc => ((hout k hk).2.1 c hc).symm⟩
  · obtain ⟨F, hI⟩ := Flow.inv_steps (hch cap hcap).1 hn
    obtain ⟨-, c1, c2, c3⟩ := hI.cut k hk hc
    refine ⟨c1, ?_, c3⟩
    rintro ⟨l, id, e1, e2⟩
    obtain ⟨fd, e3⟩ := ((hch cap hcap).2 _ _ e1).2 ⟨id, e2⟩
    rw [c2] at e3; cases e3
  obtain ⟨r1, r2⟩ := result_items hi hr
  have hlt : ∀ k, k < (theJob cwd w p o items rs' w' cap job pid).net.items.length ↔ k < p.links.length := fun k => by
    show k < items.length ↔ _
    rw [hlen]
  constructor
  · intro e k hk
    obtain ⟨c, hc, h0⟩ := r1 e k ((hlt k).2 hk)
    exact ⟨c, hc, fun h => h0 ((hprog k).2 h)⟩
  · intro l e
    obtain ⟨q1, q2, q3, q4⟩ := r2 l e
    refine ⟨fun k hk => ⟨fun h => (q1 k ((hlt k).2 hk)).1 ((hprog k).2 h), (q1 k ((hlt k).2 hk)).2⟩, q3, q2, fun k => ?_⟩
    rw [q4 k, hlt k, hprog k, ← Bool.not_eq_true, hprog k]

/-- **C95.** If every item after the first reads its input to the end, what `wait()` says is what the items do when run one after the other through files: if
it has returned, every item has ended with its status, which is zero (modulo 256) for programs, having written all of its output; if it has raised
`PipelineFailed(l)`, the programs have done so, too, and `l` lists, in order, exactly the programs whose status is not zero. -/
theorem C95_result_greedy (sys : Sys) (cwd : Str) (w : World) (rs : Redirects) (p : Pipeline) (i : Obj) (o e : Want)
    (hs : Startable sys cwd w rs p i o e) (hp : Mixed p) (hm : w.PipesMade) :
    ∃ items rs' w', runP sys cwd p rs w = (.ok (items, rs'), w') ∧
      ∀ {σ : Type} (next : Prog σ) (init : Nat → σ) (src : Nat → Bytes) (out : Nat → Bytes) (code : Nat → Nat),
        Sequentially next init p.links.length (src 0) out code →
        (∀ k, 0 < k → k < p.links.length → Greedy next (init k)) →
        ∀ (cap : Nat → Nat) (job : Nat) (pid : Nat → Nat), (∀ k, 0 < cap k) →
        ∀ s0 s, Start (theJob cwd w p o items rs' w' cap job pid) init src s0 →
          Steps next (theJob cwd w p o items rs' w' cap job pid) s0 s →
          ∀ wt r, Result s job wt r →
            (r = .ok → ∀ k, k < p.links.length → s.flow.proc k = .exited (code k) ∧ s.flow.out k = out k ∧
              (IsProgram p k → code k % 256 = 0)) ∧
            (∀ l, r = .failed l →
              (∀ k, k < p.links.length → s.flow.proc k = .exited (code k) ∧ s.flow.out k = out k) ∧
              l ≠ [] ∧ l.Pairwise (· < ·) ∧ ∀ k, k ∈ l ↔ k < p.links.length ∧ IsProgram p k ∧ code k % 256 ≠ 0) := by
  obtain ⟨items, rs', w', h1, -, h4⟩ := C95_result sys cwd w rs p i o e hs hp hm
  obtain ⟨items', rs2, w2, q, g1, -, -, hk, hch⟩ := Flow.started_chain_kinds hs hp hm
  rw [h1] at g1
  cases g1
  refine ⟨items, rs', w', h1, ?_⟩
  intro σ next init src out code hseq hg cap job pid hcap s0 s h0 hst wt r hr
  obtain ⟨b, m, hi⟩ := inv_steps h0 hst
  obtain ⟨n, hn⟩ := hi.flow
  obtain ⟨F, hI⟩ := Flow.inv_steps (hch cap hcap).1 hn
  have hnc : ∀ k, k < p.links.length → s.flow.cut k = false := fun k hk =>
    Flow.none_cut hI (p.links.length - 1 - k) k (by omega) fun j hj hjl => hg j (by omega) hjl
  have hnk : ∀ k, k < p.links.length → s.flow.proc k ≠ .killed := fun k hk h => by
    have := hnc k hk
    rw [hI.killed k hk h] at this; cases this
  obtain ⟨h5, -, h6⟩ := h4 next init src cap job pid hcap s0 s h0 hst
  obtain ⟨h7, h8⟩ := h6 wt r hr
  have hd : ∀ k c, k < p.links.length → s.flow.proc k = .exited c → c = code k ∧ s.flow.out k = out k := fun k c hk hc =>
    (h5 out code hseq k hk).2 c ⟨hc, hnc k hk⟩
  constructor
  · intro e k hk
    obtain ⟨c, hc, h0⟩ := h7 e k hk
    obtain ⟨e1, e2⟩ := hd k c hk hc
    rw [e1] at hc h0
    exact ⟨hc, e2, h0⟩
  · intro l e
    obtain ⟨q1, q2, q3, q4⟩ := h8 l e
    refine ⟨fun k hk => ?_, q2, q3, fun k => ?_⟩
    · cases e : s.flow.proc k with
      | running st => exact absurd e ((q1 k hk).2 st)
      | killed => exact absurd e (hnk k hk)
      | exited c => obtain ⟨e1, e2⟩ := hd k c hk e; exact ⟨by rw [e1], e2⟩
    · rw [q4 k]
      constructor
      · rintro ⟨hk, ⟨a, c, hc, hne⟩ | ⟨-, h⟩⟩
        · rw [(hd k c hk hc).1] at hne; exact ⟨hk, a, hne⟩
        · exact absurd h (hnk k hk)
      · rintro ⟨hk, a, hne⟩
        obtain ⟨c, hc⟩ := (q1 k hk).1 a
        rw [← (hd k c hk hc).1] at hne
        exact ⟨hk, .inl ⟨a, c, hc, hne⟩⟩

/-- Executions are bounded when programs give up, or all items read their input to the end. -/
theorem bounded {σ : Type} {next : Prog σ} {init : Nat → σ} {src : Nat → Bytes} {net : Flow.Net} {N : Nat} {q : Nat → Nat} {B : Nat → Nat}
    (hn : Flow.IsChain net N q) (hgu : (∃ n, GivesUp next n) ∨ ∀ k, 0 < k → k < N → Greedy next (init k))
    (hB : ∀ n t, Flow.Steps next net n (Flow.St.start init src) t → ∀ g, GivesUp next g ∨ (∀ k, k < N → t.cut k = false) → n ≤ B g) :
    ∃ B', ∀ n t, Flow.Steps next net n (Flow.St.start init src) t → n ≤ B' := by
  rcases hgu with ⟨g, hgu⟩ | hgu
  · exact ⟨B g, fun n t hn => hB n t hn g (.inl hgu)⟩
  · refine ⟨B 0, fun n t ht => hB n t ht 0 (.inr fun k hk => ?_)⟩
    obtain ⟨F, hI⟩ := Flow.inv_steps hn ht
    exact Flow.none_cut hI (N - 1 - k) k (by omega) fun j hj hjl => hgu j (by omega) hjl

/-- **C95.** Whatever has happened, pipeline, kernel, signal manager and event loop can go on by themselves until nothing is left to do, and whenever nothing
is left to do, all items have ended, and every call of `wait()` has ended (with a result as `C95_result` says, or because of CTRL-Z or a cancellation), provided that
* from the first python function that reads from the pipeline on, all items read their input to the end;
* items that are not programs, and programs that reset `SIGPIPE`, are followed only by items that read their input to the end;
* programs whose writes fail give up, or all items after the first read their input to the end.
Items whose readers all read their input to the end then have ended with their status, having written all of their output.  Missing (and refuted below and
in C83): programs that reset `SIGPIPE` and are killed; functions that end early; programs that take no notice of errors; functions whose writes fail; output to `STRING` that
is not text (C47); calls of `wait()` during which another one of the same pipeline begins (C47). -/
theorem C95_returns_partial (sys : Sys) (cwd : Str) (w : World) (rs : Redirects) (p : Pipeline) (i : Obj) (o e : Want)
    (hs : Startable sys cwd w rs p i o e) (hp : Mixed p) (hm : w.PipesMade) :
    ∃ items rs' w', runP sys cwd p rs w = (.ok (items, rs'), w') ∧
      ∀ {σ : Type} (next : Prog σ) (init : Nat → σ) (src : Nat → Bytes) (out : Nat → Bytes) (code : Nat → Nat),
        Sequentially next init p.links.length (src 0) out code →
        (∀ k, IsFunc p (k + 1) → ∀ j, k + 1 ≤ j → j < p.links.length → Greedy next (init j)) →
        (∀ k, k < p.links.length → (IsProgram p k ∧ KeepsSigpipe next (init k)) ∨ ∀ j, k < j → j < p.links.length → Greedy next (init j)) →
        ((∃ n, GivesUp next n) ∨ ∀ k, 0 < k → k < p.links.length → Greedy next (init k)) →
        ∀ (cap : Nat → Nat) (job : Nat) (pid : Nat → Nat), (∀ k, 0 < cap k) →
        ∀ s0 s, Start (theJob cwd w p o items rs' w' cap job pid) init src s0 →
          Steps next (theJob cwd w p o items rs' w' cap job pid) s0 s →
          (∃ t, Steps next (theJob cwd w p o items rs' w' cap job pid) s t ∧ AtRest next (theJob cwd w p o items rs' w' cap job pid) t) ∧
          (AtRest next (theJob cwd w p o items rs' w' cap job pid) s →
            (∀ k, k < p.links.length → (∃ c, s.flow.proc k = .exited c) ∧
              ((∀ j, k < j → j < p.links.length → Greedy next (init j)) → s.flow.proc k = .exited (code k) ∧ s.flow.out k = out k)) ∧
            ∀ wt, Job.WaitsFor s.job wt job → ¬ Job.Overtaken s.job wt → Job.Decodable s.job job → ∃ r, Result s job wt r) := by
  obtain ⟨items, rs', w', h1, h2, -, h4⟩ := Flow.C82_as_if_through_files sys cwd w rs p i o e hs hp hm
  obtain ⟨items', rs2, w2, h1', h5⟩ := Flow.C82_all_end sys cwd w rs p i o e hs hp hm
  obtain ⟨items', rs2, w2, q, g1, -, -, hk, hch⟩ := Flow.started_chain_kinds hs hp hm
  rw [h1] at g1 h1'
  cases g1; cases h1'
  have hlen : items.length = p.links.length := (hch (fun _ => 1) (by simp)).1.len
  refine ⟨items, rs', w', h1, ?_⟩
  intro σ next init src out code hseq hgf hgk hgu cap job pid hcap s0 s h0 hst
  obtain ⟨b, m, hi⟩ := inv_steps h0 hst
  obtain ⟨B, hB⟩ := h4 next init src out code hseq
  have hcut : ∀ n t, Flow.Steps next (Flow.started cwd w p o items rs' w' cap) n (Flow.St.start init src) t → ∀ k, k < p.links.length →
      (∀ j, k < j → j < p.links.length → Greedy next (init j)) → t.cut k = false := by
    intro n t hn k hk hg
    obtain ⟨F, hI⟩ := Flow.inv_steps (hch cap hcap).1 hn
    exact Flow.none_cut hI (p.links.length - 1 - k) k (by omega) hg
  obtain ⟨B', hB'⟩ := bounded (hch cap hcap).1 hgu fun n t hn => (hB cap hcap n t hn).1
  refine ⟨rest hB' hi, ?_⟩
  rintro ⟨r1, r2, r3⟩
  obtain ⟨n, hn⟩ := hi.flow
  obtain ⟨-, hout, -⟩ := hB cap hcap n s.flow hn
  have hend : ∀ k, k < p.links.length → ∃ c, s.flow.proc k = .exited c := by
    intro k hk'
    cases e : s.flow.proc k with
    | exited c => exact ⟨c, rfl⟩
    | killed =>
      exfalso
      rcases hgk k hk' with ⟨a, b⟩ | hg
      · exact Flow.keeps_run b ((Flow.outFd_iff (hch cap hcap).1.len hk hk').2 a) hn e
      · have := hcut n _ hn k hk' hg
        rw [(hout k hk').2.2.1 e] at this; cases this
    | running st => exact absurd e ((h5 next init src hgf cap hcap n s.flow hn r1).1 k hk' st)
  refine ⟨fun k hk => ⟨hend k hk, fun hg => ?_⟩, fun wt hw ho hd => ?_⟩
  · obtain ⟨c, hc⟩ := hend k hk
    obtain ⟨e1, e2⟩ := (hout k hk).2.1 c ⟨hc, hcut n _ hn k hk hg⟩
    subst e2
    exact ⟨hc, e1⟩
  · obtain ⟨r, hr⟩ := rest_ended hi r2 r3 (fun k hk => hend k (by
      have : k < items.length := hk
      omega)) hd hw ho
    exact ⟨r, hw, hr⟩

/-- **C95 is false for programs that reset `SIGPIPE`**: a program that is killed because nobody
reads its output is never seen to have ended: no call of `wait()` of its pipeline ever returns or raises `PipelineFailed`,
whatever happens afterwards.  In particular, if it writes for ever; and yet all programs end. -/
theorem C95_refuted_killed (sys : Sys) (cwd : Str) (w : World) (rs : Redirects) (p : Pipeline) (i : Obj) (o e : Want)
    (hs : Startable sys cwd w rs p i o e) (hp : Programs p) (hm : w.PipesMade) :
    ∃ items rs' w', runP sys cwd p rs w = (.ok (items, rs'), w') ∧
      ∀ {σ : Type} (next : Prog σ) (init : Nat → σ) (src : Nat → Bytes) (cap : Nat → Nat) (job : Nat) (pid : Nat → Nat), (∀ k, 0 < cap k) →
        ∀ s0 s, Start (theJob cwd w p o items rs' w' cap job pid) init src s0 →
          Steps next (theJob cwd w p o items rs' w' cap job pid) s0 s →
          (∀ k, k < p.links.length → s.flow.proc k = .killed → ∀ t, Steps next (theJob cwd w p o items rs' w' cap job pid) s t →
            ∀ wt r, Result t job wt r → r = .suspended ∨ r = .cancelled) ∧
          (∀ k, k < p.links.length → EndlessDefault next (init k) → ∀ wt r, Result s job wt r → r = .suspended ∨ r = .cancelled) ∧
          (AtRest next (theJob cwd w p o items rs' w' cap job pid) s → ∀ k, k < p.links.length → ∀ st, s.flow.proc k ≠ .running st) := by
  obtain ⟨items, rs', w', h1, h4⟩ := Flow.C81_schedule_does_not_matter sys cwd w rs p i o e hs hp hm
  obtain ⟨items', rs2, w2, q, g1, -, -, hk, hch⟩ := Flow.started_chain_kinds hs hp.mixed hm
  rw [h1] at g1
  cases g1
  have hlen : items.length = p.links.length := (hch (fun _ => 1) (by simp)).1.len
  refine ⟨items, rs', w', h1, ?_⟩
  intro σ next init src cap job pid hcap s0 s h0 hst
  have hprog := isProg_iff (cwd := cwd) (w := w) (w' := w') (o := o) (rs' := rs') (cap := cap) (job := job) (pid := pid) hlen hk
  have hisp : ∀ k, k < p.links.length → (theJob cwd w p o items rs' w' cap job pid).isProg k = true := by
    intro k hk
    refine (hprog k).2 ?_
    obtain ⟨id, args, e1, -⟩ := hp.1 p.links[k] (List.getElem_mem hk)
    exact ⟨_, id, args, List.getElem?_eq_getElem hk, e1⟩
  have hnot : ∀ t, Steps next (theJob cwd w p o items rs' w' cap job pid) s0 t → ∀ k, k < p.links.length → (∀ c, t.flow.proc k ≠ .exited c) →
      ∀ wt r, Result t job wt r → r = .suspended ∨ r = .cancelled := by
    intro t ht k hk hne wt r hr
    obtain ⟨b, m, hi⟩ := inv_steps h0 ht
    obtain ⟨r1, r2⟩ := result_items hi hr
    have hlt : k < (theJob cwd w p o items rs' w' cap job pid).net.items.length := by
      show k < items.length
      rw [hlen]; exact hk
    cases r with
    | suspended => exact .inl rfl
    | cancelled => exact .inr rfl
    | ok => obtain ⟨c, hc, -⟩ := r1 rfl k hlt; exact absurd hc (hne c)
    | failed l => obtain ⟨c, hc⟩ := ((r2 l rfl).1 k hlt).1 (hisp k hk); exact absurd hc (hne c)
  refine ⟨fun k hk hkill t ht => ?_, fun k hk hE => ?_, ?_⟩
  · refine hnot t (hst.trans ht) k hk (fun c hc => ?_)
    have : t.flow.proc k = .killed := by
      clear hc
      induction ht with
      | nil => exact hkill
      | snoc _ h ih =>
        cases h with
        | flow hf => exact (flow_ended hf k).2 ih
        | sig _ => exact ih
        | job _ => exact ih
    rw [this] at hc; cases hc
  · refine hnot s hst k hk (fun c hc => ?_)
    obtain ⟨b, m, hi⟩ := inv_steps h0 hst
    obtain ⟨n, hn⟩ := hi.flow
    obtain ⟨P, hP0, hP⟩ := hE
    have hq : ∀ st, P st → ∃ b st', next st = .write b st' ∧ P st' ∧ ∀ st2, next.epipe st = some st2 → P st2 := by
      intro st h
      obtain ⟨b, st', a1, a2, a3⟩ := hP st h
      exact ⟨b, st', a1, a3, fun st2 g => by rw [a2] at g; cases g⟩
    rcases Flow.writes_forever (k := k) (P := P) hq hP0 hn with ⟨st, h, -⟩ | ⟨h, -⟩
    · rw [hc] at h; cases h
    · rw [hc] at h; cases h
  · rintro ⟨r1, -, -⟩
    obtain ⟨b, m, hi⟩ := inv_steps h0 hst
    obtain ⟨n, hn⟩ := hi.flow
    obtain ⟨-, -, h5⟩ := h4 next init src cap cap hcap hcap n s.flow n s.flow hn hn
    exact (h5 r1).1

/-! ### examples -/

namespace Ex

/-- `false | cat` -/
def pl : Pipeline := .pipe (.command 0 (.word [c!"false"] .nil)) (.command 1 (.word [c!"cat"] .nil))
def init : Nat → Flow.FlowEx.S
  | 0 => .done 3
  | _ => .cat
def codes : Nat → Nat
  | 0 => 3
  | _ => 0

theorem programs : Programs pl := by
  constructor
  · intro l hl
    simp only [pl, Pipeline.links, List.cons_append, List.nil_append, List.mem_cons, List.not_mem_nil, or_false] at hl
    rcases hl with rfl | rfl
    · exact ⟨_, _, rfl, trivial⟩
    · exact ⟨_, _, rfl, trivial⟩
  · intro k l h
    match k, h with
    | 0, h => cases h; rfl
    | k + 1, h => cases h

theorem shape (sys : Sys) : pl.Redirectable sys [] := by simp [pl, Pipeline.Redirectable, Args.Redirectable, Pipeline.outWant]

theorem startable : Startable RunEx.sys [] RunEx.world RunEx.iterRs pl (.inherited 0) .pipeOut .tmp := RunEx.startable _ (by decide) (shape _)

theorem sequentially : Sequentially Flow.FlowEx.next init pl.links.length [] (fun _ => []) codes := by
  intro k hk
  match k, hk with
  | 0, _ => exact .exit rfl
  | 1, _ => exact Flow.FlowEx.cat_runs []

theorem greedy (k : Nat) (h : 0 < k) : Greedy Flow.FlowEx.next (init k) := by
  match k, h with
  | k + 1, _ => exact Flow.FlowEx.cat_greedy

/-- The process numbers. -/
def pid (k : Nat) : Nat := 100 + k

/-- Steps of the signal manager and of the event loop. -/
def go : List (Sig.Act ⊕ Job.Act) → Sig.St × Job.St → Sig.St × Job.St
  | [], x => x
  | .inl a :: l, x => go l (Sig.step x.1 a, Job.run x.2 ([0, 1].filterMap fun k =>
      (match x.1.procs.get? (pid k), (Sig.step x.1 a).procs.get? (pid k) with
        | some ⟨_, false⟩, some ⟨some i, true⟩ => some (.exited i.status)
        | _, _ => none : Option Job.State).map (Job.Act.finish 0 k)))
  | .inr a :: l, x => go l (x.1, Job.step x.2 a)

def fine : Sig.Act ⊕ Job.Act → Bool
  | .inl a => a.own
  | .inr (.finish ..) => false
  | _ => true

theorem go_steps {σ : Type} {next : Prog σ} {net : Flow.Net} (hl : net.items.length = 2) (h0 : (⟨net, 0, pid⟩ : Link).isProg 0 = true)
    (h1 : (⟨net, 0, pid⟩ : Link).isProg 1 = true) (l : List (Sig.Act ⊕ Job.Act)) (hf : ∀ a ∈ l, fine a = true) (f : Flow.St σ) (x : Sig.St × Job.St) :
    Steps next ⟨net, 0, pid⟩ ⟨f, x.1, x.2⟩ ⟨f, (go l x).1, (go l x).2⟩ := by
  induction l generalizing x with
  | nil => exact .nil
  | cons a l ih =>
    have hf' : ∀ a ∈ l, fine a = true := fun a h => hf a (List.mem_cons_of_mem _ h)
    have ha := hf a List.mem_cons_self
    cases a with
    | inl a =>
      have hst : Step next ⟨net, 0, pid⟩ ⟨f, x.1, x.2⟩ ⟨f, Sig.step x.1 a, _⟩ := .sig (own_foreign ha)
      have e : (⟨net, 0, pid⟩ : Link).finishes ((⟨net, 0, pid⟩ : Link).completed x.1 (Sig.step x.1 a)) = [0, 1].filterMap fun k =>
          (match x.1.procs.get? (pid k), (Sig.step x.1 a).procs.get? (pid k) with
            | some ⟨_, false⟩, some ⟨some i, true⟩ => some (.exited i.status)
            | _, _ => none : Option Job.State).map (Job.Act.finish 0 k) := by
        have hn : (⟨net, 0, pid⟩ : Link).numbers = [0, 1] := by simp [Link.numbers, hl]; rfl
        simp only [Link.finishes, hn, List.filterMap_cons, List.filterMap_nil, Link.completed, h0, h1, if_true]
        rfl
      have := hst
      simp only [e] at this
      exact (Steps.snoc .nil this).trans (ih hf' (Sig.step x.1 a, _))
    | inr a =>
      have hst : Step next ⟨net, 0, pid⟩ ⟨f, x.1, x.2⟩ ⟨f, x.1, Job.step x.2 a⟩ := .job (fun i o e => by subst e; cases ha)
      exact (Steps.snoc .nil hst).trans (ih hf' (x.1, Job.step x.2 a))

/-- What has happened to signals and jobs when `false | cat` has just been started. -/
def begun : Sig.St × Job.St := (Sig.run (Sig.init .asyncio) [.spawn 100 true, .spawn 101 true], Job.step (Job.init true) (.start [Job.proc, Job.proc]))

/-- ... `wait()` has been called, both programs have ended, and the event loop has come to rest. -/
def over : Sig.St × Job.St :=
  go [.inl .catchChld, .inl .event, .inl (.reap 100), .inl (.reap 101), .inl .waitEnd, .inr (.task 0 0), .inr (.task 0 1), .inr (.resume 0)]
    (Sig.run (Sig.run (go [.inr (.wait 0), .inr (.resume 0)] begun).1 [.change 100 (.exited 3)]) [.change 101 (.exited 0)],
      (go [.inr (.wait 0), .inr (.resume 0)] begun).2)

/-- `await (env.false | env.cat)` raises `PipelineFailed`, listing `false`. -/
theorem runs : ∃ items rs' w', runP RunEx.sys [] pl RunEx.iterRs RunEx.world = (.ok (items, rs'), w') ∧ ∃ s0 s,
    Start (theJob [] RunEx.world pl .pipeOut items rs' w' (fun _ => 1) 0 pid) init (fun _ => []) s0 ∧
    Steps Flow.FlowEx.next (theJob [] RunEx.world pl .pipeOut items rs' w' (fun _ => 1) 0 pid) s0 s ∧
    AtRest Flow.FlowEx.next (theJob [] RunEx.world pl .pipeOut items rs' w' (fun _ => 1) 0 pid) s ∧
    Result s 0 0 (.failed [0]) ∧ ¬ Job.Overtaken s.job 0 ∧ Job.Decodable s.job 0 := by
  obtain ⟨items, rs', w', q, g1, -, -, hk, hch⟩ := Flow.started_chain_kinds startable programs.mixed RunEx.made
  obtain ⟨hn, hfd⟩ := hch (fun _ => 1) (by simp)
  have hlen : items.length = pl.links.length := hn.len
  have hlen2 : items.length = 2 := hlen
  have hprog := isProg_iff (cwd := []) (w := RunEx.world) (w' := w') (o := .pipeOut) (rs' := rs') (cap := fun _ => 1) (job := 0) (pid := pid) hlen hk
  have p0 := (hprog 0).2 ⟨_, _, _, rfl, rfl⟩
  have p1 := (hprog 1).2 ⟨_, _, _, rfl, rfl⟩
  refine ⟨items, rs', w', g1, ?_⟩
  generalize hL : theJob [] RunEx.world pl .pipeOut items rs' w' (fun _ => 1) 0 pid = L at p0 p1
  obtain ⟨net, hnet⟩ : ∃ net, net = Flow.started [] RunEx.world pl .pipeOut items rs' w' (fun _ => 1) := ⟨_, rfl⟩
  have hL : L = ⟨net, 0, pid⟩ := by rw [← hL, hnet]; rfl
  rw [← hnet] at hn hfd
  subst hL
  have hl : net.items.length = 2 := hn.len
  have hnum : (⟨net, 0, pid⟩ : Link).numbers = [0, 1] := by simp [Link.numbers, hl]; rfl
  have hstart : Start ⟨net, 0, pid⟩ init (fun _ => []) ⟨Flow.St.start init (fun _ => []), begun.1, begun.2⟩ := by
    have := Start.mk (L := ⟨net, 0, pid⟩) (init := init) (src := fun _ => []) (b := true) (m := .asyncio) (as := []) (bs := [])
      (xs := [Job.proc, Job.proc]) (fun j k _ _ h => by simp only [pid] at h; omega) (fun k _ => rfl) rfl rfl
      (by rw [hnum]; simp [p0, p1, Job.proc])
    have hsp : (⟨net, 0, pid⟩ : Link).spawns = [.spawn 100 true, .spawn 101 true] := by
      simp [Link.spawns, hnum, p0, p1, pid]
    rw [hsp] at this
    exact this
  -- the items work
  have hin : net.inFd 1 = none := by
    cases e : net.inFd 1 with
    | none => rfl
    | some fd =>
      obtain ⟨id, hid⟩ := (hfd 1 _ rfl).1 ⟨fd, e⟩
      cases hid
  obtain ⟨s0, hs0⟩ : ∃ s0 : Flow.St Flow.FlowEx.S, s0 = Flow.St.start init (fun _ => []) := ⟨_, rfl⟩
  obtain ⟨s1, hs1⟩ : ∃ s1 : Flow.St Flow.FlowEx.S, s1 = { s0 with proc := Flow.upd s0.proc 0 (.exited 3), shut := Flow.close s0.shut (net.outFd 0) } := ⟨_, rfl⟩
  obtain ⟨s2, hs2⟩ : ∃ s2 : Flow.St Flow.FlowEx.S, s2 = { s1 with proc := Flow.upd s1.proc 1 (.running (.done 0)) } := ⟨_, rfl⟩
  obtain ⟨s3, hs3⟩ : ∃ s3 : Flow.St Flow.FlowEx.S, s3 = { s2 with proc := Flow.upd s2.proc 1 (.exited 0), shut := Flow.close s2.shut (net.outFd 1) } := ⟨_, rfl⟩
  have a00 : s0.proc 0 = .running (.done 3) := by rw [hs0]; rfl
  have a01 : s0.proc 1 = .running .cat := by rw [hs0]; rfl
  have a10 : s1.proc 0 = .exited 3 := by rw [hs1]; rfl
  have a11 : s1.proc 1 = .running .cat := by rw [hs1]; exact a01
  have a20 : s2.proc 0 = .exited 3 := by rw [hs2]; exact a10
  have a21 : s2.proc 1 = .running (.done 0) := by rw [hs2]; rfl
  have a30 : s3.proc 0 = .exited 3 := by rw [hs3]; exact a20
  have a31 : s3.proc 1 = .exited 0 := by rw [hs3]; rfl
  have f1 : Flow.Step Flow.FlowEx.next net s0 s1 := by rw [hs1]; exact .exit (k := 0) (st := .done 3) (c := 3) (by rw [hl]; decide) a00 rfl
  have f2 : Flow.Step Flow.FlowEx.next net s1 s2 := by
    rw [hs2]
    refine Flow.Step.eof (next := Flow.FlowEx.next) (s := s1) (k := 1) (st := Flow.FlowEx.S.cat) (q := q 0) (by rw [hl]; decide) a11 rfl hin (hn.inp 0 (by decide)) (by rw [hs1, hs0]; rfl) ?_
    rcases hn.openW 0 (by decide) with ⟨-, h⟩ | ⟨n, hn0, -, -, h⟩
    · rw [h s1]
      rintro ⟨st, hst⟩
      rw [a10] at hst; cases hst
    · rw [h s1, hs1]
      simp [Flow.close, hn0]
  have f3 : Flow.Step Flow.FlowEx.next net s2 s3 := by rw [hs3]; exact .exit (k := 1) (st := .done 0) (c := 0) (by rw [hl]; decide) a21 rfl
  have hret : ∀ s t : Flow.St Flow.FlowEx.S, (⟨net, 0, pid⟩ : Link).finishes ((⟨net, 0, pid⟩ : Link).returned s t) = [] := by
    intro s t
    simp [Link.finishes, hnum, Link.returned, p0, p1]
  have w1 : ∀ g j, Steps Flow.FlowEx.next ⟨net, 0, pid⟩ ⟨s0, g, j⟩ ⟨s3, Sig.run (Sig.run g [.change 100 (.exited 3)]) [.change 101 (.exited 0)], j⟩ := by
    intro g j
    have e1 := Step.flow (next := Flow.FlowEx.next) (L := ⟨net, 0, pid⟩) (s := ⟨s0, g, j⟩) f1
    have r1 : (⟨net, 0, pid⟩ : Link).changes ((⟨net, 0, pid⟩ : Link).report s0 s1) = [.change 100 (.exited 3)] := by
      simp [Link.changes, hnum, Link.report, p0, p1, a00, a01, a10, a11, pid]
    rw [hret, r1] at e1
    have e2 := Step.flow (next := Flow.FlowEx.next) (L := ⟨net, 0, pid⟩) (s := ⟨s1, Sig.run g [.change 100 (.exited 3)], j⟩) f2
    have r2 : (⟨net, 0, pid⟩ : Link).changes ((⟨net, 0, pid⟩ : Link).report s1 s2) = [] := by
      simp [Link.changes, hnum, Link.report, p0, p1, a10, a11, a20, a21]
    rw [hret, r2] at e2
    have e3 := Step.flow (next := Flow.FlowEx.next) (L := ⟨net, 0, pid⟩) (s := ⟨s2, Sig.run g [.change 100 (.exited 3)], j⟩) f3
    have r3 : (⟨net, 0, pid⟩ : Link).changes ((⟨net, 0, pid⟩ : Link).report s2 s3) = [.change 101 (.exited 0)] := by
      simp [Link.changes, hnum, Link.report, p0, p1, a20, a21, a30, a31, pid]
    rw [hret, r3] at e3
    exact .snoc (.snoc (.snoc .nil e1) e2) e3
  have hall := ((go_steps (next := Flow.FlowEx.next) hl p0 p1 [.inr (.wait 0), .inr (.resume 0)] (by decide) s0 begun).trans (w1 _ _)).trans
    (go_steps (next := Flow.FlowEx.next) hl p0 p1 [.inl .catchChld, .inl .event, .inl (.reap 100), .inl (.reap 101), .inl .waitEnd, .inr (.task 0 0), .inr (.task 0 1), .inr (.resume 0)]
      (by decide) s3 (_, _))
  have hstart' : Start ⟨net, 0, pid⟩ init (fun _ => []) ⟨s0, begun.1, begun.2⟩ := by rw [hs0]; exact hstart
  refine ⟨_, ⟨s3, over.1, over.2⟩, hstart', hall, ⟨?_, (by unfold Sig.Quiet; decide : Sig.Quiet over.1), ?_⟩, ⟨?_, ?_⟩, ?_, ?_⟩
  · -- nothing is left to do
    have hbuf : ∀ q, s3.buf q = [] := by intro q; rw [hs3, hs2, hs1, hs0]; rfl
    have hnr : ∀ k st, k < net.items.length → s3.proc k ≠ .running st := by
      intro k st hk h
      match k, hk, h with
      | 0, _, h => rw [a30] at h; cases h
      | 1, _, h => rw [a31] at h; cases h
      | k + 2, hk, _ => omega
    have hfn : ∀ k fd, k < net.items.length → net.inFd k ≠ some fd := by
      intro k fd hk h
      have hk2 : k < 2 := by omega
      match k, hk2, h with
      | 0, _, h => obtain ⟨id, hid⟩ := (hfd 0 _ rfl).1 ⟨fd, h⟩; cases hid
      | 1, _, h => rw [hin] at h; cases h
    intro t ht
    cases ht with
    | read h1 h2 => exact hnr _ _ h1 h2
    | eof h1 h2 => exact hnr _ _ h1 h2
    | readExt h1 h2 => exact hnr _ _ h1 h2
    | eofExt h1 h2 => exact hnr _ _ h1 h2
    | fetch h1 h2 => exact hfn _ _ h1 h2
    | hup h1 h2 => exact hfn _ _ h1 h2
    | fetchExt h1 h2 => exact hfn _ _ h1 h2
    | hupExt h1 h2 => exact hfn _ _ h1 h2
    | take h1 h2 => exact hnr _ _ h1 h2
    | takeEof h1 h2 => exact hnr _ _ h1 h2
    | write h1 h2 => exact hnr _ _ h1 h2
    | sigpipe h1 h2 => exact hnr _ _ h1 h2
    | epipe h1 h2 => exact hnr _ _ h1 h2
    | writeExt h1 h2 => exact hnr _ _ h1 h2
    | exit h1 h2 => exact hnr _ _ h1 h2
    | user h1 h2 => rw [hbuf] at h2; cases h2
  · exact Job.quiet_of_idle (by decide : Job.idle over.2 = true)
  · exact ⟨_, rfl, rfl⟩
  · exact ⟨_, rfl, by decide⟩
  · rintro ⟨W, h1, h2⟩
    have : over.2.waiters[0]? = some ⟨0, none, .over (.failed [0]), false⟩ := by decide
    rw [this] at h1
    cases h1; cases h2
  · intro it hm path hp
    have : (Job.itemsOf over.2.pipes 0).all (fun it => it.strings.isEmpty) = true := by decide
    have := List.all_eq_true.1 this it hm
    rw [List.isEmpty_iff] at this
    rw [this] at hp
    cases hp

/-- Programs that reset `SIGPIPE`. -/
def killable : Prog Flow.FlowEx.S := ⟨Flow.FlowEx.op, fun _ => none⟩

/-- `yes | head -c 0` -/
def yesHead : Pipeline := .pipe (.command 0 (.word [c!"yes"] .nil)) (.command 1 (.word [c!"head"] .nil))

theorem programs_yes : Programs yesHead := by
  constructor
  · intro l hl
    simp only [yesHead, Pipeline.links, List.cons_append, List.nil_append, List.mem_cons, List.not_mem_nil, or_false] at hl
    rcases hl with rfl | rfl
    · exact ⟨_, _, rfl, trivial⟩
    · exact ⟨_, _, rfl, trivial⟩
  · intro k l h
    match k, h with
    | 0, h => cases h; rfl
    | k + 1, h => cases h

theorem shape_yes (sys : Sys) : yesHead.Redirectable sys [] := by simp [yesHead, Pipeline.Redirectable, Args.Redirectable, Pipeline.outWant]

end Ex

/-- The hypotheses of `C95_result` and `C95_returns_partial` are met by `await (env.false | env.cat)`, and the call ends, listing `false`. -/
example : Startable RunEx.sys [] RunEx.world RunEx.iterRs Ex.pl (.inherited 0) .pipeOut .tmp ∧ Mixed Ex.pl ∧ RunEx.world.PipesMade ∧
    Sequentially Flow.FlowEx.next Ex.init Ex.pl.links.length [] (fun _ => []) Ex.codes ∧
    (∀ k, 0 < k → k < Ex.pl.links.length → Greedy Flow.FlowEx.next (Ex.init k)) ∧
    ∃ items rs' w', runP RunEx.sys [] Ex.pl RunEx.iterRs RunEx.world = (.ok (items, rs'), w') ∧ ∃ s0 s,
      Start (theJob [] RunEx.world Ex.pl .pipeOut items rs' w' (fun _ => 1) 0 Ex.pid) Ex.init (fun _ => []) s0 ∧
      Steps Flow.FlowEx.next (theJob [] RunEx.world Ex.pl .pipeOut items rs' w' (fun _ => 1) 0 Ex.pid) s0 s ∧
      AtRest Flow.FlowEx.next (theJob [] RunEx.world Ex.pl .pipeOut items rs' w' (fun _ => 1) 0 Ex.pid) s ∧
      Result s 0 0 (.failed [0]) ∧ ¬ Job.Overtaken s.job 0 ∧ Job.Decodable s.job 0 :=
  ⟨Ex.startable, Ex.programs.mixed, RunEx.made, Ex.sequentially, fun k h _ => Ex.greedy k h, Ex.runs⟩

/-- The hypotheses of `C95_returns_partial` are met by it, -/
example : (∀ k, IsFunc Ex.pl (k + 1) → ∀ j, k + 1 ≤ j → j < Ex.pl.links.length → Greedy Flow.FlowEx.next (Ex.init j)) ∧
    (∀ k, k < Ex.pl.links.length → (IsProgram Ex.pl k ∧ KeepsSigpipe Flow.FlowEx.next (Ex.init k)) ∨
      ∀ j, k < j → j < Ex.pl.links.length → Greedy Flow.FlowEx.next (Ex.init j)) ∧
    ((∃ n, GivesUp Flow.FlowEx.next n) ∨ ∀ k, 0 < k → k < Ex.pl.links.length → Greedy Flow.FlowEx.next (Ex.init k)) :=
  ⟨fun k _ j h _ => Ex.greedy j (by omega), fun k _ => .inr fun j h _ => Ex.greedy j (by omega), .inr fun k h _ => Ex.greedy k h⟩

/-- and by `printf abc | cat | head -c 2`, where writes can fail. -/
example : Startable RunEx.sys [] RunEx.world RunEx.iterRs Flow.FlowEx.pl (.inherited 0) .pipeOut .tmp ∧ Mixed Flow.FlowEx.pl ∧ RunEx.world.PipesMade ∧
    Sequentially Flow.FlowEx.next Flow.FlowEx.init Flow.FlowEx.pl.links.length [] Flow.FlowEx.outs Flow.FlowEx.codes ∧
    (∀ k, IsFunc Flow.FlowEx.pl (k + 1) → ∀ j, k + 1 ≤ j → j < Flow.FlowEx.pl.links.length → Greedy Flow.FlowEx.next (Flow.FlowEx.init j)) ∧
    (∀ k, k < Flow.FlowEx.pl.links.length → (IsProgram Flow.FlowEx.pl k ∧ KeepsSigpipe Flow.FlowEx.next (Flow.FlowEx.init k)) ∨
      ∀ j, k < j → j < Flow.FlowEx.pl.links.length → Greedy Flow.FlowEx.next (Flow.FlowEx.init j)) ∧
    (∃ n, GivesUp Flow.FlowEx.next n) := by
  refine ⟨RunEx.startable _ (by decide) (Flow.FlowEx.shape _), Flow.FlowEx.programs.mixed, RunEx.made, Flow.FlowEx.sequentially,
    fun k h => absurd h (Flow.programs_no_func Flow.FlowEx.programs _), fun k hk => .inl ⟨?_, fun _ => True, trivial, ?_⟩, 0, Flow.FlowEx.givesUp⟩
  · obtain ⟨id, args, e1, -⟩ := Flow.FlowEx.programs.1 _ (List.getElem_mem hk)
    exact ⟨_, id, args, List.getElem?_eq_getElem hk, e1⟩
  · exact fun st _ => ⟨fun _ _ _ => trivial, fun _ _ _ => ⟨trivial, _, rfl, trivial⟩⟩

/-- The hypotheses of `C95_refuted_killed` are met by `yes | head -c 0`, if `yes` resets `SIGPIPE`: it is killed. -/
example : Startable RunEx.sys [] RunEx.world RunEx.iterRs Ex.yesHead (.inherited 0) .pipeOut .tmp ∧ Programs Ex.yesHead ∧ RunEx.world.PipesMade ∧
    EndlessDefault Ex.killable .yes ∧
    ∃ items rs' w', runP RunEx.sys [] Ex.yesHead RunEx.iterRs RunEx.world = (.ok (items, rs'), w') ∧ ∃ s0 s,
      Start (theJob [] RunEx.world Ex.yesHead .pipeOut items rs' w' (fun _ => 1) 0 Ex.pid) (fun k => if k = 0 then .yes else .head 0) (fun _ => []) s0 ∧
      Steps Ex.killable (theJob [] RunEx.world Ex.yesHead .pipeOut items rs' w' (fun _ => 1) 0 Ex.pid) s0 s ∧
      s.flow.proc 0 = .killed ∧ (∃ c, s.flow.proc 1 = .exited c) := by
  have hs : Startable RunEx.sys [] RunEx.world RunEx.iterRs Ex.yesHead (.inherited 0) .pipeOut .tmp := RunEx.startable _ (by decide) (Ex.shape_yes _)
  refine ⟨hs, Ex.programs_yes, RunEx.made, ⟨fun st => st = .yes, rfl, fun st h => ⟨121, .yes, by rw [h]; rfl, rfl, rfl⟩⟩, ?_⟩
  obtain ⟨items, rs', w', h1, h2⟩ := Flow.C83_program_ended_partial _ _ _ _ _ _ _ _ hs Ex.programs_yes.mixed RunEx.made
  obtain ⟨items', rs2, w2, q, g1, -, -, hk, hch⟩ := Flow.started_chain_kinds hs Ex.programs_yes.mixed RunEx.made
  rw [h1] at g1
  cases g1
  have hlen : items.length = 2 := (hch (fun _ => 1) (by simp)).1.len
  have hprog := isProg_iff (cwd := []) (w := RunEx.world) (w' := w') (o := .pipeOut) (rs' := rs') (cap := fun _ => 1) (job := 0) (pid := Ex.pid) hlen hk
  have p0 := (hprog 0).2 ⟨_, _, _, rfl, rfl⟩
  have p1 := (hprog 1).2 ⟨_, _, _, rfl, rfl⟩
  have hnum : (theJob [] RunEx.world Ex.yesHead .pipeOut items rs' w' (fun _ => 1) 0 Ex.pid).numbers = [0, 1] := by
    show List.range items.length = _
    rw [hlen]; rfl
  refine ⟨items, rs', w', h1, ?_⟩
  have hstart := Start.mk (L := theJob [] RunEx.world Ex.yesHead .pipeOut items rs' w' (fun _ => 1) 0 Ex.pid)
    (init := fun k => if k = 0 then Flow.FlowEx.S.yes else .head 0) (src := fun _ => []) (b := true) (m := .asyncio) (as := []) (bs := [])
    (xs := [Job.proc, Job.proc]) (fun j k _ _ h => by
      have h : 100 + j = 100 + k := h
      omega) (fun k _ => rfl) rfl rfl
    (by rw [hnum]; simp [p0, p1, Job.proc])
  have f1 : Flow.Step Ex.killable (Flow.started [] RunEx.world Ex.yesHead .pipeOut items rs' w' (fun _ => 1))
      (Flow.St.start (fun k => if k = 0 then Flow.FlowEx.S.yes else .head 0) (fun _ => [])) _ :=
    .exit (k := 1) (st := .head 0) (c := 3) (by show 1 < items.length; rw [hlen]; decide) rfl rfl
  obtain ⟨-, h3⟩ := h2 Ex.killable _ (fun _ => []) (fun _ => 1) (by simp) 1 _ (.snoc .nil f1) 0 (by decide)
    (Flow.programs_no_func Ex.programs_yes _) (fun st h => by cases h)
  obtain ⟨⟨t, h4, h5⟩, -⟩ := h3 .yes 121 .yes rfl rfl
  have h6 : t.proc 0 = .killed := by
    have h5 := h5.2
    generalize t.proc 0 = x at h5
    cases h5 with
    | func => rfl
    | sigpipe => rfl
    | epipe _ h => cases h
  refine ⟨_, _, hstart, .snoc (.snoc .nil (.flow f1)) (.flow h4), h6, 3, ?_⟩
  exact (flow_ended h4 1).1 3 rfl

end Pieshell.Whole
