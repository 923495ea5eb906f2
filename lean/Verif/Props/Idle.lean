import Verif.Lemmas.Idle
import Verif.Props.Whole
/-!
# Pipelines in the background, while the event loop does not run (C107)

At the prompt, and while python code runs that does not wait for a pipeline, only the programs go on.
-/
namespace Pieshell.Whole
open Pieshell.Flow (Mixed Sequentially Greedy GivesUp Programs Prog Bytes Done)

section
variable {σ : Type} {next : Prog σ} {L : Link} {init : Nat → σ} {src : Nat → Bytes} {b : Bool} {m : Sig.Mgr} {s t : St σ}

theorem Idles.trans {s t u : St σ} (h1 : Idles next L s t) (h2 : Idles next L t u) : Idles next L s u := by
  induction h2 with
  | nil => exact h1
  | snoc _ h ih => exact .snoc ih h

theorem idle_job (hi : Inv next L init src b m s) (h : Idle next L s t) :
    (∀ p, p < s.job.pipes.length → p < t.job.pipes.length ∧ Job.seen t.job p = Job.seen s.job p) ∧ ∀ w, Job.Over t.job w → Job.Over s.job w := by
  cases h with
  | prog _ => exact ⟨fun p hp => ⟨hp, rfl⟩, fun w h => h⟩
  | kernel _ _ => exact ⟨fun p hp => ⟨hp, rfl⟩, fun w h => h⟩
  | @python a ha =>
    obtain ⟨as, e⟩ := hi.job
    have hj : Job.Inv s.job none := by rw [e]; exact Job.inv_run b as
    exact ⟨fun p hp => ⟨Nat.lt_of_lt_of_le hp (Job.length_mono hj a), Job.seen_step hj ha hp⟩, fun w => Job.over_step hj ha⟩

theorem idles_job (hi : Inv next L init src b m s) (h : Idles next L s t) :
    (∀ p, p < s.job.pipes.length → p < t.job.pipes.length ∧ Job.seen t.job p = Job.seen s.job p) ∧ ∀ w, Job.Over t.job w → Job.Over s.job w := by
  induction h with
  | nil => exact ⟨fun p hp => ⟨hp, rfl⟩, fun w h => h⟩
  | snoc h1 h2 ih =>
    obtain ⟨i1, i2⟩ := ih
    obtain ⟨j1, j2⟩ := idle_job (inv_steps' hi h1.steps) h2
    exact ⟨fun p hp => ⟨(j1 p (i1 p hp).1).1, by rw [(j1 p (i1 p hp).1).2, (i1 p hp).2]⟩, fun w h => i2 w (j2 w h)⟩

/-- While an item is at work, its pipeline is seen to be running, and is listed. -/
theorem seen_running (hi : Inv next L init src b m s) {k : Nat} (hk : k < L.net.items.length) {st : σ} (hr : s.flow.proc k = .running st) :
    (Job.seen s.job L.job).isRunning = true ∧ (Job.seen s.job L.job).listed = true := by
  obtain ⟨as, e⟩ := hi.job
  have hj : Job.Inv s.job none := by rw [e]; exact Job.inv_run b as
  have ha : Job.Alive s.job.pipes L.job := by
    apply Classical.byContradiction
    intro ha
    obtain ⟨h1, h2⟩ := not_alive hi ha k hk
    cases hp : L.isProg k with
    | true => obtain ⟨c, hc, -⟩ := h1 hp; rw [hr] at hc; cases hc
    | false => exact h2 hp st hr
  have h1 := (Job.running_iff hj.ranked L.job).2 ha
  refine ⟨h1, ?_⟩
  show s.job.running.contains L.job = true
  rw [List.contains_iff_mem, hj.runl]
  refine ⟨_, List.getElem?_eq_getElem hi.there, .inl ?_⟩
  cases h : (s.job.pipes[L.job]'hi.there).finished with
  | false => rfl
  | true => rw [hj.fin L.job _ (List.getElem?_eq_getElem hi.there) h] at h1; cases h1

theorem idle_func (h : Idle next L s t) {k : Nat} (hk : L.net.outFd k ≠ none) :
    t.flow.proc k = s.flow.proc k ∧ t.flow.out k = s.flow.out k ∧ t.flow.got = s.flow.got := by
  cases h with
  | prog h => obtain ⟨h1, h2, -, -, -, h3⟩ := h.func hk; exact ⟨h1, h2, h3⟩
  | kernel _ _ => exact ⟨rfl, rfl, rfl⟩
  | python _ => exact ⟨rfl, rfl, rfl⟩

theorem idles_func (h : Idles next L s t) {k : Nat} (hk : L.net.outFd k ≠ none) :
    t.flow.proc k = s.flow.proc k ∧ t.flow.out k = s.flow.out k ∧ t.flow.got = s.flow.got := by
  induction h with
  | nil => exact ⟨rfl, rfl, rfl⟩
  | snoc _ h ih =>
    obtain ⟨a, b, c⟩ := ih
    obtain ⟨a', b', c'⟩ := idle_func h hk
    exact ⟨a'.trans a, b'.trans b, c'.trans c⟩

theorem idles_got (h : Idles next L s t) : t.flow.got = s.flow.got := by
  induction h with
  | nil => rfl
  | snoc _ h ih =>
    refine Eq.trans ?_ ih
    cases h with
    | prog h => cases h <;> rfl
    | kernel _ _ => rfl
    | python _ => rfl

/-- Every step of a pipeline of programs that the shell does not read from is one of a program. -/
theorem all_prog {net : Flow.Net} {f f' : Flow.St σ} (hn : ∀ k, k < net.items.length → net.outFd k = none ∧ net.inFd k = none) (hu : net.user = none)
    (h : Flow.Step next net f f') : Flow.ProgStep next net f f' := by
  have cl : ∀ (f : Nat → Bool), Flow.close f none = f := fun f => by funext n; simp [Flow.close]
  cases h with
  | read h1 h2 h3 h4 h5 h6 => exact .read (hn _ h1).1 h1 h2 h3 h4 h5 h6
  | eof h1 h2 h3 h4 h5 h6 h7 => exact .eof (hn _ h1).1 h1 h2 h3 h4 h5 h6 h7
  | readExt h1 h2 h3 h4 h5 h6 => exact .readExt (hn _ h1).1 h1 h2 h3 h4 h5 h6
  | eofExt h1 h2 h3 h4 h5 h6 => exact .eofExt (hn _ h1).1 h1 h2 h3 h4 h5 h6
  | fetch h1 h2 => rw [(hn _ h1).2] at h2; cases h2
  | hup h1 h2 => rw [(hn _ h1).2] at h2; cases h2
  | fetchExt h1 h2 => rw [(hn _ h1).2] at h2; cases h2
  | hupExt h1 h2 => rw [(hn _ h1).2] at h2; cases h2
  | take h1 _ _ h2 => rw [(hn _ h1).2] at h2; cases h2
  | takeEof h1 _ _ h2 => rw [(hn _ h1).2] at h2; cases h2
  | write h1 h2 h3 h4 h5 h6 => exact .write (hn _ h1).1 h1 h2 h3 h4 h5 h6
  | sigpipe h1 h2 h3 h4 h5 h6 =>
    rw [(hn _ h1).1, cl]
    exact .sigpipe (hn _ h1).1 h1 h2 h3 h4 h5 (h6 (hn _ h1).1)
  | epipe h1 h2 h3 h4 h5 h6 h7 => exact .epipe h6 h1 h2 h3 h4 h5 h7
  | writeExt h1 h2 h3 h4 => exact .writeExt (hn _ h1).1 h1 h2 h3 h4
  | exit h1 h2 h3 =>
    rw [(hn _ h1).1, cl]
    exact .exit (hn _ h1).1 h1 h2 h3
  | user h1 => rw [hu] at h1; cases h1

theorem idle_rest {B : Nat} (hn : ∀ k, k < L.net.items.length → L.net.outFd k = none ∧ L.net.inFd k = none) (hu : L.net.user = none)
    (hB : ∀ n t, Flow.Steps next L.net n (Flow.St.start init src) t → n ≤ B) (h : Inv next L init src b m s) :
    ∃ t, Idles next L s t ∧ ∀ u, ¬ Flow.Step next L.net t.flow u := by
  have key : ∀ (d n : Nat) (s : St σ), n + d = B + 1 → Flow.Steps next L.net n (Flow.St.start init src) s.flow →
      ∃ t, Idles next L s t ∧ ∀ u, ¬ Flow.Step next L.net t.flow u := by
    intro d
    induction d with
    | zero => intro n s e hn; have := hB n _ hn; omega
    | succ d ih =>
      intro n s e hs
      by_cases hx : ∃ u, Flow.Step next L.net s.flow u
      · obtain ⟨u, hu'⟩ := hx
        have hst : Idle next L s ⟨u, _, _⟩ := .prog (all_prog hn hu hu')
        obtain ⟨t, h1, h2⟩ := ih (n + 1) ⟨u, _, _⟩ (by omega) (.snoc hs hu')
        exact ⟨t, Idles.trans (.snoc .nil hst) h1, h2⟩
      · exact ⟨s, .nil, fun u hu => hx ⟨u, hu⟩⟩
  obtain ⟨n, hn⟩ := h.flow
  have := hB n _ hn
  exact key (B + 1 - n) n s (by omega) hn

/-- Items that read their input to the end do not end before those that they read from. -/
theorem later_running {net : Flow.Net} {N : Nat} {q : Nat → Nat} {inp : Bytes} {n : Nat} {f : Flow.St σ} {F : Flow.Fam σ}
    (hI : Flow.Inv next init net N q inp n f F) {k : Nat} {st : σ} (hr : f.proc k = .running st)
    (hg : ∀ j, k < j → j < N → Greedy next (init j)) : ∀ j, k ≤ j → j < N → ∃ st, f.proc j = .running st := by
  intro j hj hN
  induction j with
  | zero => exact ⟨st, by rw [← hr]; congr 1; omega⟩
  | succ j ih =>
    by_cases e : k = j + 1
    · subst e; exact ⟨st, hr⟩
    · obtain ⟨st', h'⟩ := ih (by omega) (by omega)
      have hc := Flow.none_cut hI (N - 1 - (j + 1)) (j + 1) (by omega) fun i hi => hg i (by omega)
      cases hp : f.proc (j + 1) with
      | running st => exact ⟨st, rfl⟩
      | killed => rw [hI.killed _ hN hp] at hc; cases hc
      | exited c =>
        have hf := hI.exited (j + 1) c hN hp hc
        have he := Flow.greedy_eof (hg (j + 1) (by omega) hN) (hI.coh.trace (j + 1) hN) (hI.coh.fin _ _ hN hf)
        obtain ⟨_, c', hc⟩ := hI.coh.restEof j hN he
        rw [(hI.run j st' (by omega) h').1] at hc; cases hc

end

/-- **C107.** While the event loop does not run, whatever programs, kernel and python code do, the attributes of no pipeline change, and no call of `wait()` ends. -/
theorem C107_unnoticed {σ : Type} (next : Prog σ) (L : Link) (init : Nat → σ) (src : Nat → Bytes) (s0 s t : St σ)
    (h0 : Start L init src s0) (hs : Steps next L s0 s) (ht : Idles next L s t) :
    (∀ p, p < s.job.pipes.length → Job.seen t.job p = Job.seen s.job p) ∧ ∀ w, Job.Over t.job w → Job.Over s.job w := by
  obtain ⟨b, m, hi⟩ := inv_steps h0 hs
  obtain ⟨h1, h2⟩ := idles_job hi ht
  exact ⟨fun p hp => (h1 p hp).2, h2⟩

/-- **C107.** A pipeline of programs that the shell does not read from goes on while the event loop does not run, in the same way: it can go on
until all programs have ended; whenever it cannot go on any more, they have ended, the last one with the status and the output it has when they are run one after
the other through files.  Missing: functions, pipelines that the shell reads from (`C107_refuted_functions`). -/
theorem C107_programs_partial (sys : Sys) (cwd : Str) (w : World) (rs : Redirects) (p : Pipeline) (i : Obj) (o e : Want)
    (hs : Startable sys cwd w rs p i o e) (hp : Programs p) (hm : w.PipesMade) (ho : p.outWant cwd o ≠ .pipeOut) :
    ∃ items rs' w', runP sys cwd p rs w = (.ok (items, rs'), w') ∧
      ∀ {σ : Type} (next : Prog σ) (init : Nat → σ) (src : Nat → Bytes) (out : Nat → Bytes) (code : Nat → Nat),
        Sequentially next init p.links.length (src 0) out code →
        ((∃ n, GivesUp next n) ∨ ∀ k, 0 < k → k < p.links.length → Greedy next (init k)) →
        ∀ (cap : Nat → Nat) (job : Nat) (pid : Nat → Nat), (∀ k, 0 < cap k) →
        ∀ s0 s, Start (theJob cwd w p o items rs' w' cap job pid) init src s0 →
          Steps next (theJob cwd w p o items rs' w' cap job pid) s0 s →
          ∃ t, Idles next (theJob cwd w p o items rs' w' cap job pid) s t ∧
            (∀ k, k < p.links.length → ∀ st, t.flow.proc k ≠ .running st) ∧
            Done t.flow (p.links.length - 1) (code (p.links.length - 1)) ∧ t.flow.out (p.links.length - 1) = out (p.links.length - 1) := by
  obtain ⟨items, rs', w', h1, -, -, h4⟩ := Flow.C81_as_if_through_files sys cwd w rs p i o e hs hp hm
  obtain ⟨items', rs2, w2, q, g1, -, -, hk, hch⟩ := Flow.started_chain_kinds hs hp.mixed hm
  rw [h1] at g1
  cases g1
  refine ⟨items, rs', w', h1, ?_⟩
  intro σ next init src out code hseq hgu cap job pid hcap s0 s h0 hst
  obtain ⟨b, m, hi⟩ := inv_steps h0 hst
  obtain ⟨B, hB⟩ := h4 next init src out code hseq
  obtain ⟨hc, hfd⟩ := hch cap hcap
  obtain ⟨B', hB'⟩ := bounded hc hgu fun n t hn => (hB cap hcap n t hn).1
  have hn : ∀ k, k < (theJob cwd w p o items rs' w' cap job pid).net.items.length →
      (theJob cwd w p o items rs' w' cap job pid).net.outFd k = none ∧ (theJob cwd w p o items rs' w' cap job pid).net.inFd k = none := by
    intro k hkl
    have hkl : k < p.links.length := by rw [← hc.len]; exact hkl
    obtain ⟨id, args, e1, -⟩ := hp.1 _ (List.getElem_mem hkl)
    refine ⟨(Flow.outFd_iff hc.len hk hkl).2 ⟨_, id, args, List.getElem?_eq_getElem hkl, e1⟩, ?_⟩
    show (Flow.started cwd w p o items rs' w' cap).inFd k = none
    cases e2 : (Flow.started cwd w p o items rs' w' cap).inFd k with
    | none => rfl
    | some fd =>
      obtain ⟨id2, e3⟩ := (hfd k _ (List.getElem?_eq_getElem hkl)).1 ⟨fd, e2⟩
      rw [e1] at e3; cases e3
  have hu : (theJob cwd w p o items rs' w' cap job pid).net.user = none := if_neg ho
  obtain ⟨t, ht, hr⟩ := idle_rest hn hu hB' hi
  obtain ⟨n, hf⟩ := (inv_steps' hi ht.steps).flow
  obtain ⟨r1, r2, r3, -⟩ := (hB cap hcap n t.flow hf).2.2.2 hr
  exact ⟨t, ht, r1, r2, r3⟩

/-- **C107 is false**: a pipeline of programs, started in the background with `run()` at the prompt, ends, but nothing shows it, as long as only the prompt, or python code that does not
wait for a pipeline, runs: `is_running` stays true and it stays in `env.running_pipelines`, whatever else happens, and no call of `wait()` ends. -/
theorem C107_refuted (sys : Sys) (cwd : Str) (w : World) (rs : Redirects) (p : Pipeline) (i : Obj) (o e : Want)
    (hs : Startable sys cwd w rs p i o e) (hp : Programs p) (hm : w.PipesMade) (ho : p.outWant cwd o ≠ .pipeOut) :
    ∃ items rs' w', runP sys cwd p rs w = (.ok (items, rs'), w') ∧
      ∀ {σ : Type} (next : Prog σ) (init : Nat → σ) (src : Nat → Bytes) (out : Nat → Bytes) (code : Nat → Nat),
        Sequentially next init p.links.length (src 0) out code →
        ((∃ n, GivesUp next n) ∨ ∀ k, 0 < k → k < p.links.length → Greedy next (init k)) →
        ∀ (cap : Nat → Nat) (job : Nat) (pid : Nat → Nat), (∀ k, 0 < cap k) →
        ∀ s0, Start (theJob cwd w p o items rs' w' cap job pid) init src s0 →
          ∃ t, Idles next (theJob cwd w p o items rs' w' cap job pid) s0 t ∧
            (∀ k, k < p.links.length → ∀ st, t.flow.proc k ≠ .running st) ∧
            ∀ u, Idles next (theJob cwd w p o items rs' w' cap job pid) t u →
              (Job.seen u.job job).isRunning = true ∧ (Job.seen u.job job).listed = true ∧
              ∀ v, Job.Over u.job v → Job.Over s0.job v := by
  obtain ⟨items, rs', w', h1, h2⟩ := C107_programs_partial sys cwd w rs p i o e hs hp hm ho
  obtain ⟨items', rs2, w2, q, g1, -, -, hk, hch⟩ := Flow.started_chain_kinds hs hp.mixed hm
  rw [h1] at g1
  cases g1
  refine ⟨items, rs', w', h1, ?_⟩
  intro σ next init src out code hseq hgu cap job pid hcap s0 h0
  obtain ⟨t, ht, h3, -⟩ := h2 next init src out code hseq hgu cap job pid hcap s0 s0 h0 .nil
  refine ⟨t, ht, h3, fun u hu => ?_⟩
  obtain ⟨b, m, hi⟩ := inv_steps (next := next) h0 .nil
  have hlen0 : 0 < p.links.length := List.length_pos_iff.2 (links_ne_nil p)
  have hrun : s0.flow.proc 0 = .running (init 0) := by cases h0; rfl
  have hl : 0 < (theJob cwd w p o items rs' w' cap job pid).net.items.length := by
    have : (theJob cwd w p o items rs' w' cap job pid).net.items.length = p.links.length := (hch cap hcap).1.len
    omega
  obtain ⟨q1, q2⟩ := seen_running hi hl hrun
  obtain ⟨r1, r2⟩ := idles_job hi (ht.trans hu)
  have r1 := (r1 job hi.there).2
  exact ⟨by rw [r1]; exact q1, by rw [r1]; exact q2, r2⟩

/-- **C107 is false for python functions**: they do not go on while the event loop does not run: a function that is at work stays where it is, having written no more; and
what comes after it does not end, if it reads its input to the end; nor does the shell read from the pipeline. -/
theorem C107_refuted_functions (sys : Sys) (cwd : Str) (w : World) (rs : Redirects) (p : Pipeline) (i : Obj) (o e : Want)
    (hs : Startable sys cwd w rs p i o e) (hp : Mixed p) (hm : w.PipesMade) :
    ∃ items rs' w', runP sys cwd p rs w = (.ok (items, rs'), w') ∧
      ∀ {σ : Type} (next : Prog σ) (init : Nat → σ) (src : Nat → Bytes) (cap : Nat → Nat) (job : Nat) (pid : Nat → Nat), (∀ k, 0 < cap k) →
        ∀ s0 s t, Start (theJob cwd w p o items rs' w' cap job pid) init src s0 →
          Steps next (theJob cwd w p o items rs' w' cap job pid) s0 s →
          Idles next (theJob cwd w p o items rs' w' cap job pid) s t →
          t.flow.got = s.flow.got ∧
          ∀ k st, k < p.links.length → ¬ IsProgram p k → s.flow.proc k = .running st →
            t.flow.proc k = .running st ∧ t.flow.out k = s.flow.out k ∧
            ((∀ j, k < j → j < p.links.length → Greedy next (init j)) → ∀ j, k < j → j < p.links.length → ∃ st, t.flow.proc j = .running st) := by
  obtain ⟨items, rs', w', q, h1, -, -, hk, hch⟩ := Flow.started_chain_kinds hs hp hm
  refine ⟨items, rs', w', h1, ?_⟩
  intro σ next init src cap job pid hcap s0 s t h0 hst ht
  obtain ⟨b, m, hi⟩ := inv_steps h0 hst
  obtain ⟨hc, -⟩ := hch cap hcap
  refine ⟨idles_got ht, fun k st hkl hnp hr => ?_⟩
  have hfd : (theJob cwd w p o items rs' w' cap job pid).net.outFd k ≠ none := fun h => hnp ((Flow.outFd_iff hc.len hk hkl).1 h)
  obtain ⟨a, b, -⟩ := idles_func ht hfd
  rw [hr] at a
  refine ⟨a, b, fun hg j hj hN => ?_⟩
  obtain ⟨n, hf⟩ := (inv_steps' hi ht.steps).flow
  obtain ⟨F, hI⟩ := Flow.inv_steps hc hf
  exact later_running hI a hg j (by omega) hN

namespace Ex

/-- Any pipeline can be the first that is started. -/
theorem exists_start {σ : Type} (L : Link) (init : Nat → σ) (src : Nat → Bytes) (h0 : L.job = 0) (hpid : L.pid = pid) : ∃ s0, Start L init src s0 := by
  refine ⟨_, Start.mk (b := true) (m := .asyncio) (as := []) (bs := []) (xs := L.numbers.map fun k => if L.isProg k then Job.proc else Job.func)
    (fun j k _ _ h => ?_) (fun k _ => rfl) h0 ?_ ?_⟩
  · rw [hpid] at h; simp only [pid] at h; omega
  · simp only [Job.okSpecs, List.all_eq_true, List.mem_map]
    rintro x ⟨k, -, rfl⟩
    have : ∀ b : Bool, (if b then Job.proc else Job.func).target = none ∧ (if b then Job.proc else Job.func).strings = [] ∧
        (if b then Job.proc else Job.func).tmps = [] := by intro b; cases b <;> exact ⟨rfl, rfl, rfl⟩
    obtain ⟨a, b, c⟩ := this (L.isProg k)
    simp [a, b, c, Job.Spec.paths]
  · rw [List.map_map]
    apply List.map_congr_left
    intro k _
    simp only [Function.comp]
    cases L.isProg k <;> rfl

/-- `(env.false | env.cat).run()` -/
theorem startable' : Startable RunEx.sys [] RunEx.world defaultRedirects pl (.inherited 0) (.obj (.inherited 1)) .tmp := RunEx.startable' _ (by decide) (shape _)

/-- `((lambda: iter(..)) | env.cat).run()` -/
def plf : Pipeline := .pipe (.iter 0) (.command 1 (.word [c!"cat"] .nil))

theorem mixed_plf : Mixed plf := by
  constructor
  · intro l hl
    simp only [plf, Pipeline.links, List.cons_append, List.nil_append, List.mem_cons, List.not_mem_nil, or_false] at hl
    rcases hl with rfl | rfl
    · exact .inr (.inr ⟨_, rfl⟩)
    · exact .inl ⟨_, _, rfl, trivial⟩
  · intro k l h
    match k, h with
    | 0, h => cases h; exact ⟨rfl, trivial⟩
    | k + 1, h => cases h

theorem shape_plf (sys : Sys) : plf.Redirectable sys [] := by simp [plf, Pipeline.Redirectable, Args.Redirectable, Pipeline.outWant]

end Ex

/-- The hypotheses of `C107_programs_partial` and `C107_refuted` are met by `(env.false | env.cat).run()`, -/
example : Startable RunEx.sys [] RunEx.world defaultRedirects Ex.pl (.inherited 0) (.obj (.inherited 1)) .tmp ∧ Programs Ex.pl ∧ RunEx.world.PipesMade ∧
    Ex.pl.outWant [] (.obj (.inherited 1)) ≠ .pipeOut ∧
    Sequentially Flow.FlowEx.next Ex.init Ex.pl.links.length [] (fun _ => []) Ex.codes ∧
    (∀ k, 0 < k → k < Ex.pl.links.length → Greedy Flow.FlowEx.next (Ex.init k)) ∧
    ∀ items rs' w', ∃ s0, Start (theJob [] RunEx.world Ex.pl (.obj (.inherited 1)) items rs' w' (fun _ => 1) 0 Ex.pid) Ex.init (fun _ => []) s0 :=
  ⟨Ex.startable', Ex.programs, RunEx.made, by simp [Ex.pl, Pipeline.outWant], Ex.sequentially, fun k h _ => Ex.greedy k h,
    fun _ _ _ => Ex.exists_start _ _ _ rfl rfl⟩

/-- those of `C107_unnoticed` and `C107_refuted_functions` by `(lambda: iter(..)) | env.cat`, whose first item is at work when it has been started. -/
example : Startable RunEx.sys [] RunEx.world defaultRedirects Ex.plf (.inherited 0) (.obj (.inherited 1)) .tmp ∧ Mixed Ex.plf ∧ RunEx.world.PipesMade ∧
    ¬ IsProgram Ex.plf 0 ∧ (∀ j, 0 < j → j < Ex.plf.links.length → Greedy Flow.FlowEx.next (Ex.init j)) ∧
    ∀ items rs' w', ∃ s0, Start (theJob [] RunEx.world Ex.plf (.obj (.inherited 1)) items rs' w' (fun _ => 1) 0 Ex.pid) Ex.init (fun _ => []) s0 ∧
      s0.flow.proc 0 = .running (Ex.init 0) := by
  refine ⟨RunEx.startable' _ (by decide) (Ex.shape_plf _), Ex.mixed_plf, RunEx.made, ?_, fun k h _ => Ex.greedy k h, fun items rs' w' => ?_⟩
  · rintro ⟨l, id, args, h1, h2⟩
    cases h1; cases h2
  · obtain ⟨s0, h0⟩ := Ex.exists_start (theJob [] RunEx.world Ex.plf (.obj (.inherited 1)) items rs' w' (fun _ => 1) 0 Ex.pid) Ex.init (fun _ => []) rfl rfl
    exact ⟨s0, h0, by cases h0; rfl⟩

/-- All of this can be done by python code while the loop does not run. -/
example {σ : Type} (next : Flow.Prog σ) (L : Link) (s : St σ) (path : Job.Path) :
    ∀ a ∈ [Job.Act.start [], .wait 0, .cancel 0, .write 0 0 path [], .restart 0, .suspend 0, .bg, .fg, .removeFiles 0], Idle next L s ⟨s.flow, s.sig, Job.step s.job a⟩ := by
  intro a ha
  simp only [List.mem_cons, List.not_mem_nil, or_false] at ha
  rcases ha with rfl | rfl | rfl | rfl | rfl | rfl | rfl | rfl | rfl <;> exact .python rfl

/-- And this by the kernel, other processes and python's low level signal handler. -/
example {σ : Type} (next : Flow.Prog σ) (L : Link) (s : St σ) (p : Nat) (ch : Sig.Change) :
    ∀ a ∈ [Sig.Act.spawn p false, .change p ch, .tstp p, .catchChld, .catchTstp], L.Foreign a → Idle next L s ⟨s.flow, Sig.step s.sig a, s.job⟩ := by
  intro a ha hf
  simp only [List.mem_cons, List.not_mem_nil, or_false] at ha
  rcases ha with rfl | rfl | rfl | rfl | rfl <;> exact .kernel rfl hf

end Pieshell.Whole
