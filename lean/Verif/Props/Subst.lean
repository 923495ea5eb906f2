import Verif.Lemmas.Subst4
import Verif.Props.Run
/-!
# Pipelines among arguments (C116)

`list(env.paste(env.a("x") | env.b, env.c("y")))` yields what one gets by running `a`, `b` and `c` first and handing `paste` the names of files with their
outputs.
-/
namespace Pieshell.Subst
open Flow (Bytes Net Proc upd close started userPipe sumTo)

theorem inputs_eq (p : Pipeline) (src : Nat → Nat → Bytes) (out : Nat → Bytes) (k : Nat) : inputs p src out k = whole (feed p 0 none) src out k := by
  funext j; rfl

/-- **C116.** Commands with pipelines among their arguments compute what one gets by running these pipelines first, and handing the command files with
their outputs; likewise for chains of such commands, and arguments of arguments.  Whatever the schedule, the capacities of the pipes and the order in
which the programs read their inputs and the shell reads its own,
* it takes only a bounded number of steps, if no write fails or programs whose writes fail give up;
* what each program has written is always a part of what it should write, and all of it when it has ended and no write has failed, and its
  status is then the right one; the shell has always received a part of the output of the last program;
* a write of a program fails only if the one that should read its output is a program and has ended, and only in this case a program is killed by
  `SIGPIPE`;
* when nothing can happen any more, the last one has ended with the right status, having
  written all of its output, and the shell, if it reads it, has received all of it; if any program goes on for ever, this is because of a python function that
  has ended before it had read all of its input: the one that writes to it is still running.  (So if there are no python functions, all programs have
  ended.)

(The commands that pipelines among arguments begin with share the stdin of the command; they must not read it.) -/
theorem C116_as_if_through_files (sys : Sys) (cwd : Str) (w : World) (rs : Redirects) (p : Pipeline) (i : Obj) (o e : Want)
    (hs : Startable sys cwd w rs p i o e) (hp : Nested p false) (hm : w.PipesMade) :
    ∃ items rs' w', runP sys cwd p rs w = (.ok (items, rs'), w') ∧ items.map Item.id = p.ids ∧
      (p.outWant cwd o = .pipeOut → (userPipe w' rs').isSome) ∧
      ∀ {σ : Type} (prog : Prog σ) (init : Nat → σ) (src : Nat → Nat → Bytes) (out : Nat → Bytes) (code : Nat → Nat),
        ThroughFiles prog p init src out code → (∀ k ∈ sharers p 0 false, NoStdin prog (init k)) →
        ∃ B : Nat → Nat, ∀ cap : Nat → Nat, (∀ k, 0 < cap k) →
          ∀ L s, Steps prog (started cwd w p o items rs' w' cap) L (St.start init src) s →
            (∀ n, GivesUp prog n ∨ (∀ k, k < p.size → s.cut k = false) → L ≤ B n) ∧
            (∀ k, k < p.size → s.out k <+: out k ∧ (∀ c, Done s k c → s.out k = out k ∧ c = code k) ∧
              (s.proc k = .killed → s.cut k = true) ∧
              (s.cut k = true → k + 1 < p.size ∧ ∀ m j, feed p 0 none m j = some k → ¬ IsFunc p m ∧ ∀ st, s.proc m ≠ .running st)) ∧
            (p.outWant cwd o = .pipeOut → s.got <+: out (p.size - 1)) ∧
            ((∀ t, ¬ Step prog (started cwd w p o items rs' w' cap) s t) →
              Done s (p.size - 1) (code (p.size - 1)) ∧
              s.out (p.size - 1) = out (p.size - 1) ∧
              (p.outWant cwd o = .pipeOut → s.got = out (p.size - 1)) ∧
              ∀ k, k < p.size → ∀ st, s.proc k = .running st →
                ∃ x m, k ≤ x ∧ IsFunc p m ∧ feed p 0 none m 0 = some x ∧ (∃ st, s.proc x = .running st) ∧ ∀ st, s.proc m ≠ .running st) := by
  obtain ⟨items, rs', w', q, h1, h2, h3, h4⟩ := started_tree hs hp hm
  refine ⟨items, rs', w', h1, h2, fun h => by rw [h3 h]; rfl, ?_⟩
  intro σ prog init src out code hseq hq
  have hcnt : ∀ k, ∃ n, k < p.size → RunsN prog n (init k) (whole (feed p 0 none) src out k) (out k) (code k) := by
    intro k
    by_cases hk : k < p.size
    · obtain ⟨n, h⟩ := (hseq k hk).count
      rw [inputs_eq] at h
      exact ⟨n, fun _ => h⟩
    · exact ⟨0, fun h => absurd h hk⟩
  obtain ⟨c, hc⟩ := Classical.axiomOfChoice hcnt
  refine ⟨fun n => sumTo p.size (fun k => c k + n + 2) + sumTo p.size (fun k => (whole (feed p 0 none) src out k 0).length + 1) + (out (p.size - 1)).length, fun cap hcap L s hst => ?_⟩
  obtain ⟨hn, hfn⟩ := h4 cap hcap
  have hpos := hn.pos
  have hinv := fun n => inv_steps (n := n) (out := out) (code := code) hn (init := init) (src := src) (c := c) hc hq hst
  have huser : p.outWant cwd o = .pipeOut → (started cwd w p o items rs' w' cap).user = some (q (p.size - 1)) := by
    intro h; simp [started, h, h3 h]
  obtain ⟨left, hi⟩ := hinv 0
  refine ⟨fun n h => ?_, fun k hk => ?_, fun h => ?_, fun hstuck => ?_⟩
  · obtain ⟨left, hi⟩ := hinv n
    have := hi.budget h
    simp only at this ⊢
    omega
  · have hI := hi.items k hk
    refine ⟨hI.pre, fun c h => hI.exited c h.1 h.2, hI.killed, fun hcut => ⟨?_, fun m j hf => ?_⟩⟩
    · apply Classical.byContradiction
      intro hno
      obtain rfl : k = p.size - 1 := by omega
      rw [last_uncut hn hi] at hcut; cases hcut
    · obtain ⟨a, b⟩ := cut_reader hn hi hcut hf
      exact ⟨fun h => (hfn m).2 h a, b⟩
  · exact ⟨_, hi.got _ (huser h)⟩
  · have hend : ∀ st, s.proc (p.size - 1) ≠ .running st := by
      intro st h
      obtain ⟨x, m, e1, e2, -⟩ := stuck_running hn hi hstuck 0 (p.size - 1) (by omega) st h
      have := hn.feedlt m 0 x e2
      omega
    have hlast := hi.items (p.size - 1) (by omega)
    have hcut := last_uncut hn hi
    have hex : ∃ c, s.proc (p.size - 1) = .exited c := by
      cases hp : s.proc (p.size - 1) with
      | running st => exact absurd hp (hend st)
      | exited c => exact ⟨c, rfl⟩
      | killed => rw [hlast.killed hp] at hcut; cases hcut
    obtain ⟨c', hc'⟩ := hex
    obtain ⟨ho, rfl⟩ := hlast.exited c' hc' hcut
    refine ⟨⟨hc', hcut⟩, ho, fun h => ?_, fun k hk st hr => ?_⟩
    rotate_left
    · obtain ⟨x, m, e1, e2, e3, e4⟩ := stuck_running hn hi hstuck (p.size - 1 - k) k (by omega) st hr
      exact ⟨x, m, e1, (hfn m).1 e3, e2, e4⟩
    have hg := hi.got _ (huser h)
    have hbuf : s.buf (q (p.size - 1)) = [] := by
      cases hb : s.buf (q (p.size - 1)) with
      | nil => rfl
      | cons b rest => exact absurd (Step.user (huser h) hb) (hstuck _)
    rw [tail, hbuf, ho] at hg
    simpa using hg

/-- **C116.** If the python functions in such a pipeline, and all that their output gets to, read to the end, then nothing goes on for ever: when nothing can happen any
more, all have ended, and no write of a function, or of an item that its output gets to, has failed. -/
theorem C116_all_end (sys : Sys) (cwd : Str) (w : World) (rs : Redirects) (p : Pipeline) (i : Obj) (o e : Want)
    (hs : Startable sys cwd w rs p i o e) (hp : Nested p false) (hm : w.PipesMade) :
    ∃ items rs' w', runP sys cwd p rs w = (.ok (items, rs'), w') ∧
      ∀ {σ : Type} (prog : Prog σ) (init : Nat → σ) (src : Nat → Nat → Bytes) (out : Nat → Bytes) (code : Nat → Nat),
        ThroughFiles prog p init src out code → (∀ k ∈ sharers p 0 false, NoStdin prog (init k)) →
        (∀ m j, FromFunc p m j → Greedy prog j (init m)) →
        ∀ cap : Nat → Nat, (∀ k, 0 < cap k) →
          ∀ L s, Steps prog (started cwd w p o items rs' w' cap) L (St.start init src) s →
            (∀ m j, FromFunc p m j → s.cut m = false) ∧
            ((∀ t, ¬ Step prog (started cwd w p o items rs' w' cap) s t) → ∀ k, k < p.size → ∀ st, s.proc k ≠ .running st) := by
  obtain ⟨items, rs', w', q, h1, h2, h3, h4⟩ := started_tree hs hp hm
  refine ⟨items, rs', w', h1, ?_⟩
  intro σ prog init src out code hseq hq hg cap hcap L s hst
  have hcnt : ∀ k, ∃ n, k < p.size → RunsN prog n (init k) (whole (feed p 0 none) src out k) (out k) (code k) := by
    intro k
    by_cases hk : k < p.size
    · obtain ⟨n, h⟩ := (hseq k hk).count
      rw [inputs_eq] at h
      exact ⟨n, fun _ => h⟩
    · exact ⟨0, fun h => absurd h hk⟩
  obtain ⟨c, hc⟩ := Classical.axiomOfChoice hcnt
  obtain ⟨hn, hfn⟩ := h4 cap hcap
  obtain ⟨left, hi⟩ := inv_steps (n := 0) (out := out) (code := code) hn (init := init) (src := src) (c := c) hc hq hst
  have hw := waits_steps (G := FromFunc p) hn hc hq hg hst
  have hG : ∀ m j x i, FromFunc p x i → feed p 0 none m j = some x → FromFunc p m j := fun m j x i a b => .step a b
  refine ⟨fun m j h => ?_, fun hstuck => waits_ended hn hi hw hG (fun m j x a b => .func ((hfn m).1 a) b) hstuck⟩
  have hmN : m < p.size := by
    cases h with
    | func _ h => exact (hn.feedlt _ _ _ h).2
    | step _ h => exact (hn.feedlt _ _ _ h).2
  exact waits_uncut hn hi hw hG (p.size - 1 - m) m j (by omega) h

/-- **C116.** The shell does get the result: with any capacities, if programs whose writes fail give up, there is an execution, and by the theorem above every
execution ends like this, in which it has received the whole output. -/
theorem C116_result_is_reached (sys : Sys) (cwd : Str) (w : World) (rs : Redirects) (p : Pipeline) (i : Obj) (o e : Want)
    (hs : Startable sys cwd w rs p i o e) (hp : Nested p false) (hm : w.PipesMade) (ho : p.outWant cwd o = .pipeOut) :
    ∃ items rs' w', runP sys cwd p rs w = (.ok (items, rs'), w') ∧
      ∀ {σ : Type} (prog : Prog σ) (init : Nat → σ) (src : Nat → Nat → Bytes) (out : Nat → Bytes) (code : Nat → Nat),
        ThroughFiles prog p init src out code → (∀ k ∈ sharers p 0 false, NoStdin prog (init k)) →
        ∀ n, GivesUp prog n → ∀ cap : Nat → Nat, (∀ k, 0 < cap k) →
        ∀ L s, Steps prog (started cwd w p o items rs' w' cap) L (St.start init src) s →
          ∃ L' s', Steps prog (started cwd w p o items rs' w' cap) (L + L') (St.start init src) s' ∧
            s'.got = out (p.size - 1) ∧ Done s' (p.size - 1) (code (p.size - 1)) := by
  obtain ⟨items, rs', w', h1, h2, h3, h4⟩ := C116_as_if_through_files sys cwd w rs p i o e hs hp hm
  refine ⟨items, rs', w', h1, ?_⟩
  intro σ prog init src out code hseq hq n hgu cap hcap L s hst
  obtain ⟨B', hB⟩ := h4 prog init src out code hseq hq
  obtain ⟨B, hBn⟩ : ∃ B, B = B' n := ⟨_, rfl⟩
  have key : ∀ d L s, L + d = B + 1 → Steps prog (started cwd w p o items rs' w' cap) L (St.start init src) s →
      ∃ L' s', Steps prog (started cwd w p o items rs' w' cap) (L + L') (St.start init src) s' ∧
        ∀ t, ¬ Step prog (started cwd w p o items rs' w' cap) s' t := by
    intro d
    induction d with
    | zero => intro L s hL h; have := (hB cap hcap L s h).1 n (.inl hgu); omega
    | succ d ih =>
      intro L s hL h
      by_cases hx : ∃ t, Step prog (started cwd w p o items rs' w' cap) s t
      · obtain ⟨t, ht⟩ := hx
        obtain ⟨L', s', a, b⟩ := ih (L + 1) t (by omega) (.snoc h ht)
        exact ⟨L' + 1, s', by rw [show L + (L' + 1) = L + 1 + L' by omega]; exact a, b⟩
      · exact ⟨0, s, h, fun t ht => hx ⟨t, ht⟩⟩
  have hle := (hB cap hcap L s hst).1 n (.inl hgu)
  obtain ⟨L', s', a, b⟩ := key (B + 1 - L) L s (by omega) hst
  obtain ⟨-, -, -, c⟩ := hB cap hcap _ s' a
  obtain ⟨c1, -, c2, -⟩ := c b
  exact ⟨L', s', a, c2 ho, c1⟩

/-! ### examples -/

namespace SubstEx

/-- States of some programs: `printf`, `cat`, and `zip`, which writes bytes from its two arguments and its stdin in turn. -/
inductive S where
  | printf (l : Bytes)
  | cat
  | catPut (b : UInt8)
  | zip (j : Nat)
  | zipPut (b : UInt8) (j : Nat)
  | done (code : Nat)

def op : S → Op S
  | .printf [] => .exit 0
  | .printf (b :: l) => .write b (.printf l)
  | .cat => .read 0 fun x => match x with | some b => .catPut b | none => .done 0
  | .catPut b => .write b .cat
  | .zip 0 => .read 1 fun x => match x with | some b => .zipPut b 1 | none => .done 5
  | .zip 1 => .read 2 fun x => match x with | some b => .zipPut b 2 | none => .done 6
  | .zip _ => .read 0 fun x => match x with | some b => .zipPut b 0 | none => .done 7
  | .zipPut b j => .write b (.zip j)
  | .done c => .exit c

/-- When a write fails, they end with status 1. -/
def prog : Prog S := ⟨op, fun _ => some (.done 1)⟩

theorem givesUp : GivesUp prog 0 := by intro s b s' s'' _ h; cases h; exact ⟨1, rfl⟩

/-- `printf xyz | zip <(printf ab | cat | f) <(printf cd)`, where `f` is a python function that yields what it gets. -/
def pl : Pipeline := .pipe (.command 0 (.word [c!"printf"] .nil))
  (.command 5 (.word [c!"zip"]
    (.pipeArg [] (.pipe (.pipe (.command 1 (.word [c!"printf"] .nil)) (.command 2 (.word [c!"cat"] .nil))) (.func 3))
      (.pipeArg [] (.command 4 (.word [c!"printf"] .nil)) .nil))))
def init : Nat → S
  | 0 => .printf [120, 121, 122]
  | 1 => .printf [97, 98]
  | 2 => .cat
  | 3 => .cat
  | 4 => .printf [99, 100]
  | _ => .zip 0
def outs : Nat → Bytes
  | 0 => [120, 121, 122]
  | 1 => [97, 98]
  | 2 => [97, 98]
  | 3 => [97, 98]
  | 4 => [99, 100]
  | _ => [97, 99, 120, 98, 100, 121]
def codes : Nat → Nat
  | 5 => 5
  | _ => 0

theorem nested : Nested pl false := by simp [pl, Nested, NestedArgs, Fed]
theorem shape (sys : Sys) : pl.Redirectable sys [] := by simp [pl, Pipeline.Redirectable, Args.Redirectable, Pipeline.outWant]

theorem size : pl.size = 6 := rfl

theorem throughFiles : ThroughFiles prog pl init (fun _ _ => []) outs codes := by
  intro k hk
  rw [size] at hk
  match k, hk with
  | 0, _ => exact .write rfl (.write rfl (.write rfl (.exit rfl)))
  | 1, _ => exact .write rfl (.write rfl (.exit rfl))
  | 2, _ => exact .read rfl rfl (.write rfl (.read rfl rfl (.write rfl (.eof rfl rfl (.exit rfl)))))
  | 3, _ => exact .read rfl rfl (.write rfl (.read rfl rfl (.write rfl (.eof rfl rfl (.exit rfl)))))
  | 4, _ => exact .write rfl (.write rfl (.exit rfl))
  | 5, _ =>
    exact .read rfl rfl (.write rfl (.read rfl rfl (.write rfl (.read rfl rfl (.write rfl
      (.read rfl rfl (.write rfl (.read rfl rfl (.write rfl (.read rfl rfl (.write rfl (.eof rfl rfl (.exit rfl)))))))))))))

theorem sharers_eq : sharers pl 0 false = [1, 4] := rfl

theorem printf_quiet (l : Bytes) : NoStdin prog (.printf l) := by
  refine ⟨fun st => ∃ l, st = .printf l ∨ st = .done 1, ⟨l, .inl rfl⟩, ?_⟩
  rintro _ ⟨l, rfl | rfl⟩
  · cases l with
    | nil => exact ⟨(by intro j f h; cases h), (by intro b st' h; cases h)⟩
    | cons b l =>
      refine ⟨(by intro j f h; cases h), ?_⟩
      intro b st' h
      cases h
      exact ⟨⟨l, .inl rfl⟩, fun st'' h => by cases h; exact ⟨[], .inr rfl⟩⟩
  · exact ⟨(by intro j f h; cases h), (by intro b st' h; cases h)⟩

theorem quiet : ∀ k ∈ sharers pl 0 false, NoStdin prog (init k) := by
  rw [sharers_eq]
  intro k hk
  simp only [List.mem_cons, List.not_mem_nil, or_false] at hk
  rcases hk with rfl | rfl <;> exact printf_quiet _

/-- States of `printf`, of `cat`, which reads its input `j` (0: its stdin), and of functions like it. -/
inductive T where
  | printf (l : Bytes)
  | cat (j : Nat)
  | catPut (b : UInt8) (j : Nat)
  | done

def opT : T → Op T
  | .printf [] => .exit 0
  | .printf (b :: l) => .write b (.printf l)
  | .cat j => .read j fun x => match x with | some b => .catPut b j | none => .done
  | .catPut b j => .write b (.cat j)
  | .done => .exit 0

def progT : Prog T := ⟨opT, fun _ => none⟩

/-- `cat <(printf ab | f)` -/
def plT : Pipeline := .command 2 (.word [c!"cat"] (.pipeArg [] (.pipe (.command 0 (.word [c!"printf"] .nil)) (.func 1)) .nil))
def initT : Nat → T
  | 0 => .printf [97, 98]
  | 1 => .cat 0
  | _ => .cat 1

theorem shapeT (sys : Sys) : plT.Redirectable sys [] := by simp [plT, Pipeline.Redirectable, Args.Redirectable, Pipeline.outWant]

theorem throughFilesT : ThroughFiles progT plT initT (fun _ _ => []) (fun _ => [97, 98]) (fun _ => 0) := by
  intro k hk
  match k, hk with
  | 0, _ => exact .write rfl (.write rfl (.exit rfl))
  | 1, _ => exact .read rfl rfl (.write rfl (.read rfl rfl (.write rfl (.eof rfl rfl (.exit rfl)))))
  | 2, _ => exact .read rfl rfl (.write rfl (.read rfl rfl (.write rfl (.eof rfl rfl (.exit rfl)))))

theorem greedyT (j : Nat) : Greedy progT j (.cat j) := by
  refine ⟨fun st => st = .cat j ∨ ∃ b, st = .catPut b j, .inl rfl, ?_⟩
  rintro _ (rfl | ⟨b, rfl⟩)
  · refine ⟨(by intro c h; cases h), (by intro b st h; cases h), ?_⟩
    intro j' f h
    cases h
    exact ⟨fun b => .inr ⟨b, rfl⟩, fun h => absurd rfl h⟩
  · refine ⟨(by intro c h; cases h), ?_, (by intro j f h; cases h)⟩
    intro b st h
    cases h
    exact .inl rfl

theorem feedT {m j x : Nat} (h : feed plT 0 none m j = some x) : (m = 1 ∧ j = 0) ∨ (m = 2 ∧ j = 1) := by
  simp [plT, feed, feedArgs, lasts, Args.size, Pipeline.size, Args.ids, Pipeline.ids] at h
  split at h
  · split at h
    · simp at h
    · rename_i h1 h2
      right
      refine ⟨h1, ?_⟩
      match j, h, h2 with
      | 1, _, _ => rfl
      | j + 2, h, _ => simp at h
  · split at h
    · split at h
      · cases h
      · simp at h
        exact .inl h.1
    · simp at h

theorem fromFuncT : ∀ m j, FromFunc plT m j → Greedy progT j (initT m) := by
  intro m j h
  have : (m = 1 ∧ j = 0) ∨ (m = 2 ∧ j = 1) := by cases h <;> exact feedT ‹_›
  rcases this with ⟨rfl, rfl⟩ | ⟨rfl, rfl⟩ <;> exact greedyT _

theorem quietT : ∀ k ∈ sharers plT 0 false, NoStdin progT (initT k) := by
  have : sharers plT 0 false = [0] := rfl
  rw [this]
  intro k hk
  cases List.mem_singleton.1 hk
  refine ⟨fun st => ∃ l, st = .printf l, ⟨_, rfl⟩, ?_⟩
  rintro _ ⟨l, rfl⟩
  cases l with
  | nil => exact ⟨(by intro j f h; cases h), (by intro b st' h; cases h)⟩
  | cons b l =>
    refine ⟨(by intro j f h; cases h), ?_⟩
    intro b st' h
    cases h
    exact ⟨⟨l, rfl⟩, fun st'' h => by cases h⟩

end SubstEx

/-- The hypotheses of `C116_all_end` are met by `cat <(printf ab | f)`; the function and `cat` are what its fourth hypothesis is about. -/
example : Startable RunEx.sys [] RunEx.world RunEx.iterRs SubstEx.plT (.inherited 0) .pipeOut .tmp ∧ Nested SubstEx.plT false ∧
    ThroughFiles SubstEx.progT SubstEx.plT SubstEx.initT (fun _ _ => []) (fun _ => [97, 98]) (fun _ => 0) ∧
    (∀ k ∈ sharers SubstEx.plT 0 false, NoStdin SubstEx.progT (SubstEx.initT k)) ∧
    (∀ m j, FromFunc SubstEx.plT m j → Greedy SubstEx.progT j (SubstEx.initT m)) ∧ FromFunc SubstEx.plT 1 0 ∧ FromFunc SubstEx.plT 2 1 :=
  ⟨RunEx.startable _ (by decide) (SubstEx.shapeT _), by simp [SubstEx.plT, Nested, NestedArgs, Fed], SubstEx.throughFilesT, SubstEx.quietT,
    SubstEx.fromFuncT, .func (x := 0) rfl rfl, .step (x := 1) (i := 0) (.func (x := 0) rfl rfl) rfl⟩

/-- The hypotheses of C116 are met by `printf xyz | zip <(printf ab | cat | f) <(printf cd)`. -/
example : Startable RunEx.sys [] RunEx.world RunEx.iterRs SubstEx.pl (.inherited 0) .pipeOut .tmp ∧ Nested SubstEx.pl false ∧
    RunEx.world.PipesMade ∧ SubstEx.pl.outWant [] .pipeOut = .pipeOut ∧
    ThroughFiles SubstEx.prog SubstEx.pl SubstEx.init (fun _ _ => []) SubstEx.outs SubstEx.codes ∧
    (∀ k ∈ sharers SubstEx.pl 0 false, NoStdin SubstEx.prog (SubstEx.init k)) :=
  ⟨RunEx.startable _ (by decide) (SubstEx.shape _), SubstEx.nested, RunEx.made, rfl, SubstEx.throughFiles, SubstEx.quiet⟩

example : ∃ items rs' w', runP RunEx.sys [] SubstEx.pl RunEx.iterRs RunEx.world = (.ok (items, rs'), w') ∧ ∃ L s,
    Steps SubstEx.prog (started [] RunEx.world SubstEx.pl .pipeOut items rs' w' fun _ => 1) L (St.start SubstEx.init fun _ _ => []) s ∧
    s.got = c!"acxbdy".map (fun c => c.toNat.toUInt8) ∧ s.proc 5 = .exited 5 := by
  obtain ⟨items, rs', w', h1, h2⟩ := C116_result_is_reached _ _ _ _ _ _ _ _
    (RunEx.startable SubstEx.pl (by decide) (SubstEx.shape _)) SubstEx.nested RunEx.made rfl
  obtain ⟨L, s, h3, h4, h5⟩ := h2 SubstEx.prog SubstEx.init (fun _ _ => []) SubstEx.outs SubstEx.codes SubstEx.throughFiles SubstEx.quiet 0
    SubstEx.givesUp (fun _ => 1) (by simp) 0 _ .nil
  exact ⟨items, rs', w', h1, _, s, h3, h4, h5.1⟩

end Pieshell.Subst
