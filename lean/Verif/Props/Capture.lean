import Verif.Lemmas.Capture3
import Verif.Props.Whole
/-!
# The output of a pipeline, captured (C96)

`(env.a | f | env.b) > STRING`: pipeline, files, kernel, signal manager and event loop at work, in any order; what is in
`output_content[1]` of the last item, and in the file of `TMP`.
-/
namespace Pieshell.Whole
open Pieshell.Flow (Mixed Sequentially Greedy GivesUp KeepsSigpipe IsFunc Op Prog Bytes)

theorem file_of {cwd : Str} {w w' : World} {p : Pipeline} {o : Want} {items : List Item} {rs' : Redirects} {q : Nat → Nat} {cap : Nat → Nat}
    {job : Nat} {pid : Nat → Nat} {path : Nat → Job.Path}
    (hn : Flow.IsChain (Flow.started cwd w p o items rs' w' cap) p.links.length q) {x : Item} {n : Nat} (hx : items.getLast? = some x)
    (hst : x.stdout w' = some (.tmp n)) :
    items[p.links.length - 1]? = some x ∧ p.links.length - 1 < items.length ∧
    (theJob cwd w p o items rs' w' cap job pid).file path (p.links.length - 1) = some (path n) ∧
    (theJob cwd w p o items rs' w' cap job pid).net.outPipe (p.links.length - 1) = none ∧
    ∀ j g, (theJob cwd w p o items rs' w' cap job pid).file path j = some g → j = p.links.length - 1 := by
  have hlen : items.length = p.links.length := hn.len
  have hx : items[p.links.length - 1]? = some x := by rw [← hlen, ← List.getLast?_eq_getElem?]; exact hx
  have hlt := (List.getElem?_eq_some_iff.1 hx).1
  refine ⟨hx, hlt, ?_, ?_, ?_⟩
  · show (match (items[p.links.length - 1]?).bind (Item.stdout w') with | some (.tmp n) => some (path n) | _ => none) = _
    rw [hx, Option.bind_some, hst]
  · show (match (items[p.links.length - 1]?).bind (Item.stdout w') with | some (.pipeW q) => if w.nextPipe ≤ q then some q else none | _ => none) = _
    rw [hx, Option.bind_some, hst]
  · intro j g hj
    have hj : (match (items[j]?).bind (Item.stdout w') with | some (.tmp n) => some (path n) | _ => none) = some g := hj
    have hjl : j < items.length := by
      cases e : items[j]? with
      | none => rw [e] at hj; cases hj
      | some y => exact (List.getElem?_eq_some_iff.1 e).1
    by_cases e : j + 1 < p.links.length
    · exfalso
      have ho : (match (items[j]?).bind (Item.stdout w') with | some (.pipeW q) => if w.nextPipe ≤ q then some q else none | _ => none) = some (q j) := hn.out j e
      split at hj
      · rename_i e2; rw [e2] at ho; cases ho
      · cases hj
    · omega

/-- **C96.** A pipeline of programs and python functions whose stdout is redirected to `STRING`; the items, run one after the other through
files, write `out` and end with `code`.  At every moment of every execution, while what is in the `STRING` files of the pipeline is text,
either nothing has been captured, and the file has all that the last item has written so far, which is the beginning of `out`; or all items have ended, and
`output_content[1]` of the last item is the whole text (decoded, with universal newlines), and the file is gone.  Missing (and refuted by C49): output
that is not text. -/
theorem C96_exact_partial (sys : Sys) (cwd : Str) (w : World) (rs : Redirects) (p : Pipeline) (i : Obj) (o e : Want) (r1 : Redirect)
    (hs : Startable sys cwd w rs p i o e) (hp : Mixed p) (hm : w.PipesMade) (hr1 : Dict.get? rs 1 = some r1) (hstr : (p.lastOut r1).source = .STRING) :
    ∃ items rs' w', runP sys cwd p rs w = (.ok (items, rs'), w') ∧ items.map Item.id = p.ids ∧ ∃ n,
      ∀ {σ : Type} (next : Prog σ) (init : Nat → σ) (src : Nat → Bytes) (out : Nat → Bytes) (code : Nat → Nat),
        Sequentially next init p.links.length (src 0) out code →
        ∀ (cap : Nat → Nat) (job : Nat) (pid : Nat → Nat) (path : Nat → Job.Path), (∀ k, 0 < cap k) →
        ∀ s0 s, FStart (theJob cwd w p o items rs' w' cap job pid) path init src s0 →
          FSteps next (theJob cwd w p o items rs' w' cap job pid) path s0 s → Job.Decodable s.job job →
          (captured s job (p.links.length - 1) = none ∧
            ∃ part, s.job.fs.get? (path n) = some part ∧ part = s.flow.out (p.links.length - 1) ∧ part <+: out (p.links.length - 1)) ∨
          ((∀ k, k < p.links.length → ∀ st, s.flow.proc k ≠ .running st) ∧ s.job.fs.get? (path n) = none ∧
            ∃ t, Io.decode (out (p.links.length - 1)) = some t ∧ captured s job (p.links.length - 1) = some (Job.newlines t)) := by
  obtain ⟨items, rs', w', h1, h2, -, h4⟩ := Flow.C82_as_if_through_files sys cwd w rs p i o e hs hp hm
  obtain ⟨items', rs2, w2, q, g1, -, -, hk, hch⟩ := Flow.started_chain_kinds hs hp hm
  rw [h1] at g1
  cases g1
  obtain ⟨x, n, r, x1, x2, x3, x4⟩ := (capture_last hs h1 hr1).1 hstr
  refine ⟨items, rs', w', h1, h2, n, ?_⟩
  intro σ next init src out code hseq cap job pid path hcap s0 s h0 hst hd
  have hn := (hch cap hcap).1
  obtain ⟨f1, f2, f3, f4, f5⟩ := file_of (job := job) (pid := pid) (path := path) hn x1 x2
  have hget : Dict.get? (specOf path x).strings 1 = some (path n) := pick_get _ x3 (by rw [x4])
  have hmem : path n ∈ (specOf path x).strings.map Prod.snd := List.mem_map.2 ⟨_, Dict.mem_of_get? _ hget, rfl⟩
  obtain ⟨b, m, hi, hc⟩ := cap_steps (L := theJob cwd w p o items rs' w' cap job pid) f1 f3 f5 (.inl hmem) h0 hst
  obtain ⟨B, hB⟩ := h4 next init src out code hseq
  obtain ⟨nn, hnn⟩ := hi.flow
  obtain ⟨-, hout, -⟩ := hB cap hcap nn s.flow hnn
  have hlen : items.length = p.links.length := hn.len
  have hlt : p.links.length - 1 < p.links.length := by omega
  rcases captured_cases hi hc hget hd with ⟨c1, c2, c3⟩ | ⟨c1, c2, c3, t, c4, c5⟩
  · exact .inl ⟨c2, _, c3, rfl, (hout _ hlt).1⟩
  · right
    have hend : ∀ k, k < p.links.length → ∀ st, s.flow.proc k ≠ .running st := by
      intro k hk st hst
      obtain ⟨a1, a2⟩ := not_alive hi c2 k (by show k < items.length; omega)
      cases hp : (theJob cwd w p o items rs' w' cap job pid).isProg k with
      | true => obtain ⟨c, hc, -⟩ := a1 hp; rw [hst] at hc; cases hc
      | false => exact a2 hp st hst
    refine ⟨hend, c3, t, ?_, c5⟩
    cases e : s.flow.proc (p.links.length - 1) with
    | running st => exact absurd e (hend _ hlt st)
    | killed => exact absurd e (not_cut hnn f4).1
    | exited c => rw [← ((hout _ hlt).2.1 c ⟨e, (not_cut hnn f4).2⟩).1]; exact c4

/-- **C96.** Provided that the items end (see `C95_returns_partial`), pipeline, kernel, signal manager and event loop can always go on by
themselves until nothing is left to do, and whenever nothing is left to do, `output_content[1]` of the last item is the text of all that the pipeline
has to write, and the file is gone.  Missing (and refuted): output that is not text (C49), what is missing in `C95_returns_partial`. -/
theorem C96_captured_partial (sys : Sys) (cwd : Str) (w : World) (rs : Redirects) (p : Pipeline) (i : Obj) (o e : Want) (r1 : Redirect)
    (hs : Startable sys cwd w rs p i o e) (hp : Mixed p) (hm : w.PipesMade) (hr1 : Dict.get? rs 1 = some r1) (hstr : (p.lastOut r1).source = .STRING) :
    ∃ items rs' w', runP sys cwd p rs w = (.ok (items, rs'), w') ∧ ∃ n,
      ∀ {σ : Type} (next : Prog σ) (init : Nat → σ) (src : Nat → Bytes) (out : Nat → Bytes) (code : Nat → Nat),
        Sequentially next init p.links.length (src 0) out code →
        (∀ k, IsFunc p (k + 1) → ∀ j, k + 1 ≤ j → j < p.links.length → Greedy next (init j)) →
        (∀ k, k < p.links.length → (IsProgram p k ∧ KeepsSigpipe next (init k)) ∨ ∀ j, k < j → j < p.links.length → Greedy next (init j)) →
        ((∃ n, GivesUp next n) ∨ ∀ k, 0 < k → k < p.links.length → Greedy next (init k)) →
        ∀ (cap : Nat → Nat) (job : Nat) (pid : Nat → Nat) (path : Nat → Job.Path), (∀ k, 0 < cap k) →
        ∀ s0 s, FStart (theJob cwd w p o items rs' w' cap job pid) path init src s0 →
          FSteps next (theJob cwd w p o items rs' w' cap job pid) path s0 s →
          (∃ t, FSteps next (theJob cwd w p o items rs' w' cap job pid) path s t ∧ AtRest next (theJob cwd w p o items rs' w' cap job pid) t) ∧
          (AtRest next (theJob cwd w p o items rs' w' cap job pid) s → Job.Decodable s.job job →
            s.job.fs.get? (path n) = none ∧
            ∃ t, Io.decode (out (p.links.length - 1)) = some t ∧ captured s job (p.links.length - 1) = some (Job.newlines t)) := by
  obtain ⟨items, rs', w', h1, h2, n, h3⟩ := C96_exact_partial sys cwd w rs p i o e r1 hs hp hm hr1 hstr
  obtain ⟨items', rs2, w2, g1, hrest⟩ := C95_returns_partial sys cwd w rs p i o e hs hp hm
  rw [h1] at g1
  cases g1
  obtain ⟨items', rs2, w2, q, g1, -, -, hk, hch⟩ := Flow.started_chain_kinds hs hp hm
  rw [h1] at g1
  cases g1
  obtain ⟨items', rs2, w2, g1, -, -, h4⟩ := Flow.C82_as_if_through_files sys cwd w rs p i o e hs hp hm
  rw [h1] at g1
  cases g1
  refine ⟨items, rs', w', h1, n, ?_⟩
  intro σ next init src out code hseq hg1 hg2 hg3 cap job pid path hcap s0 s h0 hst
  have hn := (hch cap hcap).1
  have hlen : items.length = p.links.length := hn.len
  obtain ⟨b, m, hi⟩ := inv_steps (fstart_start h0) (fsteps_steps hst)
  obtain ⟨B, hB⟩ := h4 next init src out code hseq
  obtain ⟨B', hB'⟩ := bounded hn hg3 fun n t hn => (hB cap hcap n t hn).1
  refine ⟨frest hB' hi, fun hr hd => ?_⟩
  obtain ⟨hend, -⟩ := (hrest next init src out code hseq hg1 hg2 hg3 cap job pid hcap s0 s (fstart_start h0) (fsteps_steps hst)).2 hr
  have hx : ∀ k, k < (theJob cwd w p o items rs' w' cap job pid).net.items.length → ∃ c, s.flow.proc k = .exited c :=
    fun k hk => (hend k (by have hk : k < items.length := hk; omega)).1
  rcases h3 next init src out code hseq cap job pid path hcap s0 s h0 hst hd with ⟨c1, part, c2, -⟩ | ⟨-, c2, c3⟩
  · exfalso
    -- at rest, what is to be captured has been captured
    have ha := rest_dead hi hr.2.1 hx
    have hsm := rest_smooth hi hx hd
    have hth := hi.there
    obtain ⟨x, k, r, x1, x2, x3, x4⟩ := (capture_last hs h1 hr1).1 hstr
    obtain ⟨f1, f2, f3, f4, f5⟩ := file_of (job := job) (pid := pid) (path := path) hn x1 x2
    have hget : Dict.get? (specOf path x).strings 1 = some (path k) := pick_get _ x3 (by rw [x4])
    have hmem : path k ∈ (specOf path x).strings.map Prod.snd := List.mem_map.2 ⟨_, Dict.mem_of_get? _ hget, rfl⟩
    obtain ⟨b2, m2, hi2, hc⟩ := cap_steps (L := theJob cwd w p o items rs' w' cap job pid) f1 f3 f5 (.inl hmem) h0 hst
    obtain ⟨it, i1, i2, -⟩ := hc.item
    obtain ⟨as, e⟩ := hi.job
    have hm : it ∈ Job.itemsOf s.job.pipes job := List.mem_of_getElem? (show (Job.itemsOf s.job.pipes job)[_]? = some it from i1)
    have hq := hr.2.2
    have := (Job.C49_captured_partial b as job (by rw [← e]; exact hth) (by rw [← e]; exact hq) (by rw [← e]; exact ha) (by rw [← e]; exact hsm) it
      (by rw [← e]; exact hm)).1
    have i1 : Job.itemAt s.job job (p.links.length - 1) = some it := i1
    simp only [captured, i1, Option.bind_some, this, get?_map (fun q => Job.fileText (Job.run (Job.init b) as) q), i2, hget, Option.map_some] at c1
    cases c1
  · exact ⟨c2, c3⟩

/-- **C96.** The same with `TMP`: at every moment of every execution, the file named in `output_files[1]` of the last item, unless it has been removed, holds exactly
what the last item has written so far, which is the beginning of `out`, and all of it when the item has ended. -/
theorem C96_tmp (sys : Sys) (cwd : Str) (w : World) (rs : Redirects) (p : Pipeline) (i : Obj) (o e : Want) (r1 : Redirect)
    (hs : Startable sys cwd w rs p i o e) (hp : Mixed p) (hm : w.PipesMade) (hr1 : Dict.get? rs 1 = some r1) (htmp : (p.lastOut r1).source = .TMP) :
    ∃ items rs' w', runP sys cwd p rs w = (.ok (items, rs'), w') ∧ items.map Item.id = p.ids ∧ ∃ n,
      ∀ {σ : Type} (next : Prog σ) (init : Nat → σ) (src : Nat → Bytes) (out : Nat → Bytes) (code : Nat → Nat),
        Sequentially next init p.links.length (src 0) out code →
        ∀ (cap : Nat → Nat) (job : Nat) (pid : Nat → Nat) (path : Nat → Job.Path), (∀ k, 0 < cap k) →
        ∀ s0 s, FStart (theJob cwd w p o items rs' w' cap job pid) path init src s0 →
          FSteps next (theJob cwd w p o items rs' w' cap job pid) path s0 s →
          (∃ it, Job.itemAt s.job job (p.links.length - 1) = some it ∧ Dict.get? it.tmps 1 = some (path n)) ∧
          ∀ part, s.job.fs.get? (path n) = some part → part <+: out (p.links.length - 1) ∧
            ((∀ st, s.flow.proc (p.links.length - 1) ≠ .running st) → part = out (p.links.length - 1)) := by
  obtain ⟨items, rs', w', h1, h2, -, h4⟩ := Flow.C82_as_if_through_files sys cwd w rs p i o e hs hp hm
  obtain ⟨items', rs2, w2, q, g1, -, -, hk, hch⟩ := Flow.started_chain_kinds hs hp hm
  rw [h1] at g1
  cases g1
  obtain ⟨x, n, r, x1, x2, x3, x4⟩ := (capture_last hs h1 hr1).2 htmp
  refine ⟨items, rs', w', h1, h2, n, ?_⟩
  intro σ next init src out code hseq cap job pid path hcap s0 s h0 hst
  have hn := (hch cap hcap).1
  obtain ⟨f1, f2, f3, f4, f5⟩ := file_of (job := job) (pid := pid) (path := path) hn x1 x2
  have hget : Dict.get? (specOf path x).tmps 1 = some (path n) := pick_get _ x3 (by rw [x4])
  have hmem : path n ∈ (specOf path x).tmps.map Prod.snd := List.mem_map.2 ⟨_, Dict.mem_of_get? _ hget, rfl⟩
  obtain ⟨b, m, hi, hc⟩ := cap_steps (L := theJob cwd w p o items rs' w' cap job pid) f1 f3 f5 (.inr hmem) h0 hst
  obtain ⟨B, hB⟩ := h4 next init src out code hseq
  obtain ⟨nn, hnn⟩ := hi.flow
  obtain ⟨-, hout, -⟩ := hB cap hcap nn s.flow hnn
  have hlen : items.length = p.links.length := hn.len
  have hlt : p.links.length - 1 < p.links.length := by omega
  obtain ⟨⟨it, i1, i2, i3⟩, c, j1, j2⟩ := hc
  refine ⟨⟨it, i1, by rw [i3]; exact hget⟩, fun part hpart => ?_⟩
  obtain ⟨o', ho'⟩ := (good_of hi.job).files.cont _ _ hpart
  rw [j1] at ho'
  cases ho'
  have hc := j2 (.inl (by rw [hpart]; simp))
  subst hc
  refine ⟨(hout _ hlt).1, fun hst => ?_⟩
  cases e : s.flow.proc (p.links.length - 1) with
  | running st => exact absurd e (hst st)
  | killed => exact absurd e (not_cut hnn f4).1
  | exited c => exact ((hout _ hlt).2.1 c ⟨e, (not_cut hnn f4).2⟩).1

/-! ### examples -/

namespace CapEx
open Pieshell.Flow.FlowEx (next S)

/-- `STDOUT > STRING` -/
def toStr (src : Source) : Redirects := [(1, { fd := 1, source := src, flag := O_WRONLY ||| O_CREAT, mode := defaultMode, pipe := .none, borrowed := false })]

/-- the shell's own descriptors -/
def rs : Redirects :=
  [(0, { fd := 0, source := .fd 0, flag := O_RDONLY, mode := defaultMode, pipe := .none, borrowed := true }),
   (1, { fd := 1, source := .fd 1, flag := O_WRONLY ||| O_CREAT, mode := defaultMode, pipe := .none, borrowed := true }),
   (2, { fd := 2, source := .fd 2, flag := O_WRONLY ||| O_CREAT, mode := defaultMode, pipe := .none, borrowed := true })]

/-- `(printf 'h\r' | cat) > STRING`, or `> TMP` -/
def pl (src : Source) : Pipeline := .redirect (.pipe (.command 0 (.word [c!"printf"] .nil)) (.command 1 (.word [c!"cat"] .nil))) (toStr src)

def path (n : Nat) : Job.Path := List.replicate (n + 1) 't'
def pid (k : Nat) : Nat := 100 + k
def init : Nat → S | 0 => .printf [104, 13] | _ => .cat

theorem startable (src : Source) (hsrc : src = .STRING ∨ src = .TMP) :
    Startable RunEx.sys2 [] RunEx.world2 rs (pl src) (.inherited 0) (.obj (.inherited 1)) (.obj (.inherited 2)) where
  room := ⟨3, 40, RunEx.room2, (show 3 + 32 ≤ 40 by decide), ⟨_, _, _, rfl, rfl, rfl, rfl, .inl ⟨0, RunEx.inh 0, rfl, by rw [RunEx.get_world2]; rfl, rfl, by decide⟩,
    .inl ⟨1, RunEx.inh 1, rfl, by rw [RunEx.get_world2]; rfl, rfl, by decide⟩, .inl ⟨2, RunEx.inh 2, rfl, by rw [RunEx.get_world2]; rfl, rfl, by decide⟩⟩, by decide⟩
  out := trivial
  err := trivial
  shape := by
    refine ⟨by simp [Pipeline.Redirectable, Args.Redirectable, Pipeline.outWant], ?_, ?_⟩
    · refine .new (args := [.one { fd := 1, source := src, flag := O_WRONLY ||| O_CREAT, mode := defaultMode, pipe := .none, borrowed := false }]) ?_
      rcases hsrc with rfl | rfl <;> rfl
    · intro r hr
      simp [toStr, Dict.values] at hr
      subst hr
      exact .inr (.inr ⟨hsrc, by simp only; decide, .inl rfl⟩)
  low := .inr (RunEx.low2 rs (by decide))
  polls := by rcases hsrc with rfl | rfl <;> decide +kernel

theorem mixed (src : Source) : Mixed (pl src) := by
  constructor
  · intro l hl
    have hl : l ∈ [_, _] := hl
    simp only [List.mem_cons, List.not_mem_nil, or_false] at hl
    rcases hl with rfl | rfl
    · exact .inl ⟨_, _, rfl, trivial⟩
    · exact .inl ⟨_, _, rfl, trivial⟩
  · intro k l h
    match k, h with
    | 0, h => cases h; exact ⟨rfl, trivial⟩
    | k + 1, h => cases h

theorem specs : (match runP RunEx.sys2 [] (pl .STRING) rs RunEx.world2 with | (.ok (items, _), _) => items.map (specOf path) | _ => []) =
    [⟨.proc, [], []⟩, ⟨.proc, [(1, path 0)], []⟩] := by decide +kernel

theorem specs_tmp : (match runP RunEx.sys2 [] (pl .TMP) rs RunEx.world2 with | (.ok (items, _), _) => items.map (specOf path) | _ => []) =
    [⟨.proc, [], []⟩, ⟨.proc, [], [(1, path 0)]⟩] := by decide +kernel

theorem sequentially : Sequentially next init 2 [] (fun _ => [104, 13]) (fun _ => 0) := by
  intro k hk
  match k, hk with
  | 0, _ => exact .write rfl (.write rfl (.exit rfl))
  | 1, _ => exact Flow.FlowEx.cat_runs _

theorem greedy (k : Nat) (hk : 0 < k) : Greedy next (init k) := by
  match k, hk with
  | k + 1, _ => exact Flow.FlowEx.cat_greedy

/-- The history of the jobs goes on. -/
theorem fsteps_job {σ : Type} {next : Prog σ} {L : Link} {path : Nat → Job.Path} {s t : St σ} (h : FSteps next L path s t) :
    ∃ as, t.job = Job.run s.job as := by
  induction h with
  | nil => exact ⟨[], rfl⟩
  | snoc _ h ih =>
    obtain ⟨as, e⟩ := ih
    cases h with
    | flow => exact ⟨as ++ (_ ++ _), by rw [Job.run_append, Job.run_append, ← e]⟩
    | sig => exact ⟨as ++ _, by rw [Job.run_append, ← e]⟩
    | @job a => exact ⟨as ++ [a], by rw [Job.run_append, ← e]; rfl⟩

/-- There is an execution of `(printf 'h\r' | cat) > STRING` at the end of which the text `h\n` has been captured. -/
theorem runs : ∃ items rs' w', runP RunEx.sys2 [] (pl .STRING) rs RunEx.world2 = (.ok (items, rs'), w') ∧ ∃ s0 s,
    FStart (theJob [] RunEx.world2 (pl .STRING) (.obj (.inherited 1)) items rs' w' (fun _ => 1) 0 pid) path init (fun _ => []) s0 ∧
    FSteps next (theJob [] RunEx.world2 (pl .STRING) (.obj (.inherited 1)) items rs' w' (fun _ => 1) 0 pid) path s0 s ∧
    AtRest next (theJob [] RunEx.world2 (pl .STRING) (.obj (.inherited 1)) items rs' w' (fun _ => 1) 0 pid) s ∧ Job.Decodable s.job 0 ∧
    captured s 0 1 = some c!"h\n" := by
  have hst := startable .STRING (.inl rfl)
  obtain ⟨items, rs', w', h1, n, h2⟩ := C96_captured_partial _ _ _ rs (pl .STRING) _ _ _ _ hst (mixed _) RunEx.made2 rfl rfl
  have hsp := specs
  rw [h1] at hsp
  have hsp : items.map (specOf path) = [⟨.proc, [], []⟩, ⟨.proc, [(1, path 0)], []⟩] := hsp
  have hlen : items.length = 2 := by have := congrArg List.length hsp; simpa using this
  obtain ⟨s0, h0⟩ : ∃ s0, FStart (theJob [] RunEx.world2 (pl .STRING) (.obj (.inherited 1)) items rs' w' (fun _ => 1) 0 pid) path init (fun _ => []) s0 := by
    refine ⟨_, .mk (b := true) (m := .asyncio) (as := []) (bs := []) (fun j k _ _ h => ?_) (fun k _ => rfl) rfl ?_⟩
    · have h : 100 + j = 100 + k := h
      omega
    · show Job.okSpecs (Job.init true) (items.map (specOf path)) = true
      rw [hsp]; decide
  refine ⟨items, rs', w', h1, s0, ?_⟩
  obtain ⟨⟨s, hs1, hs2⟩, -⟩ := h2 next init (fun _ => []) _ _ sequentially (fun k _ j h _ => greedy j (by omega)) (fun k _ => .inr fun j h _ => greedy j (by omega)) (.inr fun k h _ => greedy k h) (fun _ => 1) 0 pid path (by simp) s0 s0 h0 .nil
  obtain ⟨-, h3⟩ := h2 next init (fun _ => []) _ _ sequentially (fun k _ j h _ => greedy j (by omega)) (fun k _ => .inr fun j h _ => greedy j (by omega)) (.inr fun k h _ => greedy k h) (fun _ => 1) 0 pid path (by simp) s0 s h0 hs1
  obtain ⟨x, k, r, x1, x2, x3, x4⟩ := (capture_last hst h1 (r1 := _) rfl).1 rfl
  obtain ⟨items', rs2, w2, q, g1, -, -, hk, hch⟩ := Flow.started_chain_kinds hst (mixed _) RunEx.made2
  rw [h1] at g1
  cases g1
  obtain ⟨f1, f2, f3, f4, f5⟩ := file_of (job := 0) (pid := pid) (path := path) (hch (fun _ => 1) (by simp)).1 x1 x2
  have f1 : items[1]? = some x := f1
  have hx : specOf path x = ⟨.proc, [(1, path 0)], []⟩ := by
    have := congrArg (fun l => l[1]?) hsp
    simpa [f1] using this
  have hget : Dict.get? (specOf path x).strings 1 = some (path k) := pick_get _ x3 (by rw [x4])
  rw [hx] at hget
  have hget : some (path 0) = some (path k) := hget
  have hpk : path k = path 0 := (Option.some.inj hget).symm
  obtain ⟨b, m, hi, hc⟩ := cap_steps (next := next) (L := theJob [] RunEx.world2 (pl .STRING) (.obj (.inherited 1)) items rs' w' (fun _ => 1) 0 pid)
    (k := 1) (x := x) f1 f3 f5 (.inl (by rw [hx, hpk]; exact List.mem_singleton.2 rfl)) h0 hs1
  rw [hx, hpk] at hc
  have hdec : Job.Decodable s.job 0 := by
    obtain ⟨as, e⟩ := fsteps_job hs1
    have hinv : Job.Inv s0.job none := by
      obtain ⟨b, m, hi⟩ := inv_start (next := next) (fstart_start h0)
      exact (good_of hi.job).inv
    have hz : 0 < s0.job.pipes.length := by
      obtain ⟨b, m, hi⟩ := inv_start (next := next) (fstart_start h0)
      exact hi.there
    have hb := Job.items_back (Job.ext_run hinv as) hz
    rw [← e] at hb
    have hs0 : (Job.itemsOf s0.job.pipes 0).map Job.kf = [(.proc, [], []), (.proc, [(1, path 0)], [])] := by
      cases h0 with
      | @mk b m as bs a1 a2 a3 a4 =>
        have hst : Job.step (Job.run (Job.init b) as) (.start (items.map (specOf path))) = Job.started (Job.run (Job.init b) as) (items.map (specOf path)) :=
          Job.start_eq (Job.inv_run b as) a4
        show (Job.itemsOf (Job.step _ (.start (items.map (specOf path)))).pipes 0).map Job.kf = _
        have a3 : 0 = (Job.run (Job.init b) as).pipes.length := a3
        have gen : ∀ (j : Job.St) (xs : List Job.Spec) (n : Nat), n = j.pipes.length →
            (Job.itemsOf (Job.started j xs).pipes n).map Job.kf = xs.map (fun x => Job.kf x.item) := by
          rintro j xs n rfl
          simp [Job.itemsOf, Job.started, Job.newPipe, Job.kf, Job.Spec.item]
        rw [hst, gen _ _ 0 a3, hsp]
        rfl
    rw [hs0] at hb
    intro it hit p hp
    have hm : Job.kf it ∈ ([(.proc, [], []), (.proc, [(1, path 0)], [])] : List (Job.Kind × Dict Nat Job.Path × Dict Nat Job.Path)) := by
      rw [← hb]; exact List.mem_map_of_mem hit
    simp only [List.mem_cons, List.not_mem_nil, or_false, Job.kf, Prod.mk.injEq] at hm
    rcases hm with ⟨-, hm, -⟩ | ⟨-, hm, -⟩
    · rw [hm] at hp; cases hp
    · rw [hm] at hp
      have hp : p = path 0 := List.mem_singleton.1 hp
      subst hp
      obtain ⟨bb, e1, e2⟩ := hc.held
      have e2 := e2 (.inr (List.mem_singleton.2 rfl))
      have hpre : s.flow.out 1 <+: [104, 13] := by
        obtain ⟨items', rs2, w2, g1, -, -, h4⟩ := Flow.C82_as_if_through_files _ _ _ _ _ _ _ _ hst (mixed _) RunEx.made2
        rw [h1] at g1
        cases g1
        obtain ⟨B, hB⟩ := h4 next init (fun _ => []) _ _ sequentially
        obtain ⟨nn, hnn⟩ := hi.flow
        exact ((hB (fun _ => 1) (by simp) nn s.flow hnn).2.1 1 (by decide)).1
      have hbb : Job.bytesOf s.job (path 0) = s.flow.out 1 := by simp [Job.bytesOf, e1, e2]
      rw [hbb]
      have hin : s.flow.out 1 ∈ [[], [104], [104, 13]] := by
        obtain ⟨u, hu⟩ := hpre
        match hv : s.flow.out 1, hu with
        | [], _ => simp
        | [a], hu => simp at hu; simp [hu.1]
        | [a, c], hu => simp at hu; simp [hu.1, hu.2.1]
        | a :: c :: d :: l, hu => simp at hu
      simp only [List.mem_cons, List.not_mem_nil, or_false] at hin
      rcases hin with e | e | e <;> rw [e]
      · exact ⟨[], by decide⟩
      · exact ⟨c!"h", by decide⟩
      · exact ⟨c!"h\r", by decide⟩
  refine ⟨s, h0, hs1, hs2, hdec, ?_⟩
  obtain ⟨-, t, d1, d2⟩ := h3 hs2 hdec
  have d1 : Io.decode [104, 13] = some t := d1
  have : Io.decode [104, 13] = some c!"h\r" := by decide
  rw [this] at d1
  cases d1
  exact d2

end CapEx

/-- The hypotheses of `C96_exact_partial` and `C96_captured_partial` are met by `(printf 'h\r' | cat) > STRING`, and the text `h\n` is captured. -/
example : Startable RunEx.sys2 [] RunEx.world2 CapEx.rs (CapEx.pl .STRING) (.inherited 0) (.obj (.inherited 1)) (.obj (.inherited 2)) ∧ Mixed (CapEx.pl .STRING) ∧
    RunEx.world2.PipesMade ∧ (∃ r1, Dict.get? CapEx.rs 1 = some r1 ∧ ((CapEx.pl .STRING).lastOut r1).source = .STRING) ∧
    Sequentially Flow.FlowEx.next CapEx.init (CapEx.pl .STRING).links.length [] (fun _ => [104, 13]) (fun _ => 0) ∧
    (∀ k, 0 < k → k < (CapEx.pl .STRING).links.length → Greedy Flow.FlowEx.next (CapEx.init k)) ∧
    ∃ items rs' w', runP RunEx.sys2 [] (CapEx.pl .STRING) CapEx.rs RunEx.world2 = (.ok (items, rs'), w') ∧ ∃ s0 s,
      FStart (theJob [] RunEx.world2 (CapEx.pl .STRING) (.obj (.inherited 1)) items rs' w' (fun _ => 1) 0 CapEx.pid) CapEx.path CapEx.init (fun _ => []) s0 ∧
      FSteps Flow.FlowEx.next (theJob [] RunEx.world2 (CapEx.pl .STRING) (.obj (.inherited 1)) items rs' w' (fun _ => 1) 0 CapEx.pid) CapEx.path s0 s ∧
      AtRest Flow.FlowEx.next (theJob [] RunEx.world2 (CapEx.pl .STRING) (.obj (.inherited 1)) items rs' w' (fun _ => 1) 0 CapEx.pid) s ∧ Job.Decodable s.job 0 ∧
      captured s 0 1 = some c!"h\n" :=
  ⟨CapEx.startable _ (.inl rfl), CapEx.mixed _, RunEx.made2, ⟨_, rfl, rfl⟩, CapEx.sequentially, fun k h _ => CapEx.greedy k h, CapEx.runs⟩

/-- Those of `C96_tmp` by `(printf 'h\r' | cat) > TMP`; when it has just been started the file is there. -/
example : Startable RunEx.sys2 [] RunEx.world2 CapEx.rs (CapEx.pl .TMP) (.inherited 0) (.obj (.inherited 1)) (.obj (.inherited 2)) ∧ Mixed (CapEx.pl .TMP) ∧
    (∃ r1, Dict.get? CapEx.rs 1 = some r1 ∧ ((CapEx.pl .TMP).lastOut r1).source = .TMP) ∧
    ∃ items rs' w', runP RunEx.sys2 [] (CapEx.pl .TMP) CapEx.rs RunEx.world2 = (.ok (items, rs'), w') ∧ ∃ s0,
      FStart (theJob [] RunEx.world2 (CapEx.pl .TMP) (.obj (.inherited 1)) items rs' w' (fun _ => 1) 0 CapEx.pid) CapEx.path CapEx.init (fun _ => []) s0 ∧
      s0.job.fs.get? (CapEx.path 0) = some [] := by
  refine ⟨CapEx.startable _ (.inr rfl), CapEx.mixed _, ⟨_, rfl, rfl⟩, ?_⟩
  obtain ⟨items, rs', w', h1, -⟩ := C96_tmp _ _ _ CapEx.rs (CapEx.pl .TMP) _ _ _ _ (CapEx.startable _ (.inr rfl)) (CapEx.mixed _) RunEx.made2 rfl rfl
  have hsp := CapEx.specs_tmp
  rw [h1] at hsp
  have hsp : items.map (specOf CapEx.path) = [⟨.proc, [], []⟩, ⟨.proc, [], [(1, CapEx.path 0)]⟩] := hsp
  refine ⟨items, rs', w', h1, _, .mk (b := true) (m := .asyncio) (as := []) (bs := []) (fun j k _ _ h => ?_) (fun k _ => rfl) rfl ?_, ?_⟩
  · have h : 100 + j = 100 + k := h
    omega
  · show Job.okSpecs (Job.init true) (items.map (specOf CapEx.path)) = true
    rw [hsp]; decide
  · show (Job.step (Job.init true) (.start (items.map (specOf CapEx.path)))).fs.get? _ = _
    rw [hsp]; decide

end Pieshell.Whole
