import Verif.Lemmas.FuncArg2
import Verif.Props.Run
/-!
# Functions among arguments (C141)

`list(env.bash("script.sh", f, g))`: each function gets what the program writes to the file named by its argument; the shell gets what the program writes to its stdout, mixed with
what the functions yield.
-/
namespace Pieshell.FuncArg
open Flow (Bytes Net Proc upd close started userPipe sumTo upd_same upd_ne close_same close_ne)
open Subst (slot handler)

theorem counts {σ : Type} {prog : Prog σ} {n : Nat} {init : Nat → σ} {src outs : Nat → Nat → Bytes} {code : Nat → Nat} (h : ThroughFiles prog n init src outs code) :
    ∃ c : Nat → Nat, ∀ k, k ≤ n → RunsN prog (c k) (init k) (inputs n src outs k) (outs k) (code k) := by
  apply Classical.axiomOfChoice (r := fun k c => k ≤ n → RunsN prog c (init k) (inputs n src outs k) (outs k) (code k))
  intro k
  by_cases hk : k ≤ n
  · obtain ⟨m, hm⟩ := (h k hk).count; exact ⟨m, fun _ => hm⟩
  · exact ⟨0, fun h => absurd h hk⟩

/-- **C141.** A command with functions among its arguments (and any words, but no pipelines) computes what one gets by running the program with
files for the functions, and then each function on the file that the program has written for it.  Whatever the schedule, the capacities of the pipes and the order in
which the program writes to its files,
* it takes only a bounded number of steps;
* what each of them has written, to each of its outputs, is always a part of what it should write, and all of it when it has ended, and its status is then the
  right one; no write ever fails, and nobody is killed by `SIGPIPE`;
* what the shell has received is always a part of what the program has written to its stdout, mixed with what the functions have yielded;
* when nothing can happen any more, either all have ended, the shell has received all of that, and nobody has the other end of the pipe that the shell reads from open any
  more, so it finds the end; or the program is waiting for a function to read, which has ended already. -/
theorem C141_functions_as_arguments (sys : Sys) (cwd : Str) (w : World) (rs : Redirects) (id : Nat) (args : Args) (i : Obj) (e : Want)
    (hs : Startable sys cwd w rs (.command id args) i .pipeOut e) (hf : FuncArgs args) (hm : w.PipesMade) :
    ∃ items rs' w', runP sys cwd (.command id args) rs w = (.ok (items, rs'), w') ∧ items.map Item.id = args.ids ++ [id] ∧
      ∃ u, userPipe w' rs' = some u ∧
      ∀ {σ : Type} (prog : Prog σ) (init : Nat → σ) (src outs : Nat → Nat → Bytes) (code : Nat → Nat),
        ThroughFiles prog (arity args) init src outs code →
        ∃ B, ∀ cap : Nat → Nat, (∀ k, 0 < cap k) →
          ∀ L s, Steps prog (started cwd w (.command id args) .pipeOut items rs' w' cap) L (St.start init src) s →
            L ≤ B ∧
            (∀ k, k ≤ arity args → (∀ j, s.out k j <+: outs k j) ∧ (∀ c, s.proc k = .exited c → c = code k ∧ ∀ j, s.out k j = outs k j) ∧
              s.proc k ≠ .killed ∧ s.cut k = false) ∧
            (∃ rest, Merged (arity args) (fun k => s.out k 0) (s.got ++ rest)) ∧
            ((∀ t, ¬ Step prog (started cwd w (.command id args) .pipeOut items rs' w' cap) s t) →
              ((∀ k, k ≤ arity args → s.proc k = .exited (code k)) ∧ Merged (arity args) (fun k => outs k 0) s.got ∧
                ¬ Open (started cwd w (.command id args) .pipeOut items rs' w' cap) s (.pipeW u)) ∨
              (∃ st k c x st', s.proc (arity args) = .running st ∧ k < arity args ∧ prog.next st = .write (k + 1) x st' ∧ s.proc k = .exited c)) := by
  obtain ⟨items, rs', w', h1, h2, h3, u, v, a, b, h4⟩ := started_star hs hf hm
  have hu : userPipe w' rs' = some u := by
    have := (h4 (fun _ => 1) (by simp)).user
    simpa [started, Pipeline.outWant] using this
  refine ⟨items, rs', w', h1, h2, u, hu, ?_⟩
  intro σ prog init src outs code hseq
  obtain ⟨c, hc⟩ := counts hseq
  refine ⟨sumTo (arity args + 1) (fun k => c k + 1) + sumTo (arity args) (fun k => (outs (arity args) (k + 1)).length + 1) + total (arity args) outs, fun cap hcap L s hst => ?_⟩
  have hn := h4 cap hcap
  obtain ⟨left, hi⟩ := inv_steps hn hst (inv_start (u := u) (v := v) (a := a) hc)
  refine ⟨?_, fun k hk => ⟨fun j => hi.pre k hk j, hi.exited k hk, hi.alive k hk, hi.cut k⟩, ⟨_, hi.merged⟩, fun hstuck => ?_⟩
  · have := hi.budget
    omega
  · rcases stuck hn hi hstuck with ⟨g1, g2⟩ | h
    · refine .inl ⟨g1, g2, fun hop => ?_⟩
      rcases hn.openB s hop with ⟨st, hr⟩ | ⟨k, hk, hsh⟩
      · rw [g1 _ (Nat.le_refl _)] at hr; cases hr
      · rw [shut_steps hn hst (by intro k hk c h; cases h) k hk _ (g1 k (by omega))] at hsh
        cases hsh
    · exact .inr h

/-- **C141.** If the functions read to the end, the second case is impossible: when nothing can happen any more, all have ended. -/
theorem C141_all_end (sys : Sys) (cwd : Str) (w : World) (rs : Redirects) (id : Nat) (args : Args) (i : Obj) (e : Want)
    (hs : Startable sys cwd w rs (.command id args) i .pipeOut e) (hf : FuncArgs args) (hm : w.PipesMade) :
    ∃ items rs' w', runP sys cwd (.command id args) rs w = (.ok (items, rs'), w') ∧
      ∀ {σ : Type} (prog : Prog σ) (init : Nat → σ) (src outs : Nat → Nat → Bytes) (code : Nat → Nat),
        ThroughFiles prog (arity args) init src outs code → (∀ k, k < arity args → Greedy prog (init k)) →
        ∀ cap : Nat → Nat, (∀ k, 0 < cap k) →
          ∀ L s, Steps prog (started cwd w (.command id args) .pipeOut items rs' w' cap) L (St.start init src) s →
            (∀ t, ¬ Step prog (started cwd w (.command id args) .pipeOut items rs' w' cap) s t) →
            (∀ k, k ≤ arity args → s.proc k = .exited (code k)) ∧ Merged (arity args) (fun k => outs k 0) s.got := by
  obtain ⟨items, rs', w', h1, h2, h3, u, v, a, b, h4⟩ := started_star hs hf hm
  refine ⟨items, rs', w', h1, ?_⟩
  intro σ prog init src outs code hseq hg cap hcap L s hst hstuck
  obtain ⟨c, hc⟩ := counts hseq
  have hn := h4 cap hcap
  obtain ⟨left, hi⟩ := inv_steps hn hst (inv_start (u := u) (v := v) (a := a) hc)
  rcases stuck hn hi hstuck with h | ⟨st, k, c', x, st', g1, g2, g3, g4⟩
  · exact h
  · exfalso
    obtain ⟨P, hP⟩ := Classical.axiomOfChoice (r := fun (k : Nat) (P : σ → Prop) => k < arity args → P (init k) ∧ ∀ st, P st → (∀ c, prog.next st ≠ .exit c) ∧
        (∀ j b st', prog.next st = .write j b st' → P st') ∧ ∀ j f, prog.next st = .read j f → (∀ b, P (f (some b))) ∧ (j ≠ 0 → P (f none))) (by
      intro k
      by_cases hk : k < arity args
      · obtain ⟨P, hP⟩ := hg k hk; exact ⟨P, fun _ => hP⟩
      · exact ⟨fun _ => True, fun h => absurd h hk⟩)
    rcases greedy_steps hn hst (inv_start (u := u) (v := v) (a := a) hc) (P := P) (fun k hk => (hP k hk).2) (fun k hk => .inr ⟨_, rfl, (hP k hk).1⟩) k g2 with h | ⟨st0, h, -⟩
    · exact (hi.heof k g2 h).2 st g1
    · rw [g4] at h; cases h

/-- **C141.** If the functions read to the end, the shell does get the result: every execution can be continued to one, and by the theorem above every execution ends like this, in
which all have ended and the shell has received everything. -/
theorem C141_result_is_reached (sys : Sys) (cwd : Str) (w : World) (rs : Redirects) (id : Nat) (args : Args) (i : Obj) (e : Want)
    (hs : Startable sys cwd w rs (.command id args) i .pipeOut e) (hf : FuncArgs args) (hm : w.PipesMade) :
    ∃ items rs' w', runP sys cwd (.command id args) rs w = (.ok (items, rs'), w') ∧
      ∀ {σ : Type} (prog : Prog σ) (init : Nat → σ) (src outs : Nat → Nat → Bytes) (code : Nat → Nat),
        ThroughFiles prog (arity args) init src outs code → (∀ k, k < arity args → Greedy prog (init k)) →
        ∀ cap : Nat → Nat, (∀ k, 0 < cap k) →
          ∀ L s, Steps prog (started cwd w (.command id args) .pipeOut items rs' w' cap) L (St.start init src) s →
            ∃ L' s', Steps prog (started cwd w (.command id args) .pipeOut items rs' w' cap) (L + L') (St.start init src) s' ∧
              (∀ k, k ≤ arity args → s'.proc k = .exited (code k)) ∧ Merged (arity args) (fun k => outs k 0) s'.got := by
  obtain ⟨items, rs', w', h1, h2, u, -, h3⟩ := C141_functions_as_arguments sys cwd w rs id args i e hs hf hm
  obtain ⟨items2, rs2, w2, h1', h4⟩ := C141_all_end sys cwd w rs id args i e hs hf hm
  rw [h1] at h1'; cases h1'
  refine ⟨items, rs', w', h1, ?_⟩
  intro σ prog init src outs code hseq hg cap hcap L s hst
  obtain ⟨B, hB⟩ := h3 prog init src outs code hseq
  have key : ∀ d L s, L + d = B + 1 → Steps prog (started cwd w (.command id args) .pipeOut items rs' w' cap) L (St.start init src) s →
      ∃ L' s', Steps prog (started cwd w (.command id args) .pipeOut items rs' w' cap) (L + L') (St.start init src) s' ∧
        ∀ t, ¬ Step prog (started cwd w (.command id args) .pipeOut items rs' w' cap) s' t := by
    intro d
    induction d with
    | zero => intro L s hL h; have := (hB cap hcap L s h).1; omega
    | succ d ih =>
      intro L s hL h
      by_cases hx : ∃ t, Step prog (started cwd w (.command id args) .pipeOut items rs' w' cap) s t
      · obtain ⟨t, ht⟩ := hx
        obtain ⟨L', s', a, b⟩ := ih (L + 1) t (by omega) (.snoc h ht)
        exact ⟨L' + 1, s', by rw [show L + (L' + 1) = L + 1 + L' by omega]; exact a, b⟩
      · exact ⟨0, s, h, fun t ht => hx ⟨t, ht⟩⟩
  have hle := (hB cap hcap L s hst).1
  obtain ⟨L', s', a, b⟩ := key (B + 1 - L) L s (by omega) hst
  obtain ⟨g1, g2⟩ := h4 prog init src outs code hseq hg cap hcap _ s' a b
  exact ⟨L', s', a, g1, g2⟩

/-- **C142.** Each python function in a started pipeline has descriptors of its own: the one it reads from and the one it writes to are different, no other function
has any of them, and the shell does not read the output of the pipeline from any of them.  (So a function that ends, and closes them, takes nothing away from the others.) -/
theorem C142_own_descriptors (sys : Sys) (cwd : Str) (w : World) (rs : Redirects) (p : Pipeline) (i : Obj) (o e : Want) (hs : Startable sys cwd w rs p i o e) :
    ∃ items rs' w', runP sys cwd p rs w = (.ok (items, rs'), w') ∧
      ∀ (k k' id id' outFd outFd' : Nat) (inFd inFd' : Option Nat) (rs1 rs2 : Redirects),
        items[k]? = some (.func id inFd outFd rs1) → items[k']? = some (.func id' inFd' outFd' rs2) →
          inFd ≠ some outFd' ∧ (outFd = outFd' → k = k') ∧ (∀ n, inFd = some n → inFd' = some n → k = k') ∧
          (p.outWant cwd o = .pipeOut → ∀ r u, Dict.get? rs' 1 = some r → r.pipe = .fd u → inFd ≠ some u ∧ outFd ≠ u) := by
  obtain ⟨⟨H, L, hr, hl, hstd⟩, ho, he, hsh, hlow, hpo⟩ := hs
  obtain ⟨items, rs', w', ul, lk, hrun, P⟩ := run_spec sys cwd p hsh hr hl hstd ho he hlow hpo
  refine ⟨items, rs', w', hrun, fun k k' id id' outFd outFd' inFd inFd' rs1 rs2 h h' => ?_⟩
  obtain ⟨a1, a2, a3⟩ := held_inj P.held h h'
  refine ⟨a3, a2, a1, fun hw r u hr hu => ?_⟩
  obtain ⟨r', g1, g2⟩ := P.r1
  obtain ⟨u', g3, g4, -⟩ := g2 hw
  rw [hr] at g1; cases g1
  rw [hu] at g4; cases g4
  have := (P.disj u (by rw [g3]; simp)).1
  exact ⟨fun h1 => this (Subst.held_mem_in h h1), fun h1 => this (h1 ▸ Subst.held_mem h)⟩

/-! ### a function that ends early -/

/-- States of a program that writes bytes for its first function. (The function ends at once: its state is the empty list.) -/
def early : Prog Bytes := ⟨fun l => match l with | [] => .exit 0 | b :: l => .write 1 b l, fun _ => none⟩

/-- Empty line, and more than a pipe of capacity `N` can hold. -/
def earlyOut (N : Nat) : Bytes := 10 :: List.replicate (N + 1) 97

def earlyInit (N : Nat) : Nat → Bytes
  | 0 => []
  | _ => earlyOut N

def earlyOuts (N : Nat) : Nat → Nat → Bytes
  | 1, 1 => earlyOut N
  | _, _ => []

theorem early_runs (inp : Nat → Bytes) : ∀ l : Bytes, Runs early l inp (upd (fun _ => []) 1 l) 0
  | [] => by
    have : upd (fun _ => ([] : Bytes)) 1 [] = fun _ => [] := by funext j; simp [upd]
    rw [this]; exact .exit rfl
  | b :: l => by
    have h := Runs.write (prog := early) (s := b :: l) rfl (early_runs inp l)
    rw [upd_same] at h
    have : upd (upd (fun _ => ([] : Bytes)) 1 l) 1 (b :: l) = upd (fun _ => []) 1 (b :: l) := by funext j; simp only [upd]; split <;> rfl
    rwa [this] at h

theorem early_through (N : Nat) : ThroughFiles early 1 (earlyInit N) (fun _ _ => []) (earlyOuts N) (fun _ => 0) := by
  intro k hk
  match k, hk with
  | 0, _ => exact .exit rfl
  | 1, _ =>
    have h := early_runs (inputs 1 (fun _ _ => []) (earlyOuts N) 1) (earlyOut N)
    have : upd (fun _ => ([] : Bytes)) 1 (earlyOut N) = earlyOuts N 1 := by
      funext j
      match j with
      | 0 => rfl
      | 1 => rfl
      | j + 2 => rfl
    rwa [this] at h

/-- The program has written `i` bytes more than the empty line. -/
theorem early_fill {net : Net} {u v N : Nat} {a b : Nat → Nat} (hn : IsStar net 1 u v a b) (hc : net.cap (u + 1) = N) : ∀ i, i ≤ N →
    ∃ s : St Bytes, Steps early net (3 + i) (St.start (earlyInit N) (fun _ _ => [])) s ∧ s.proc 0 = .exited 0 ∧
      s.proc 1 = .running (List.replicate (N + 1 - i) 97) ∧ s.buf u = [] ∧ s.buf (u + 1) = List.replicate i 97 ∧ s.ahead 0 = [10] ∧ s.heof 0 = false ∧ s.shut (a 0) = false
  | 0, _ => by
    have l0 : 0 < net.items.length := by rw [hn.len]; omega
    have l1 : 1 < net.items.length := by rw [hn.len]; omega
    have hcap := hn.cap (u + 1)
    have o1 : outSlot net 1 1 = some (u + 1) := by rw [hn.outP]; rfl
    refine ⟨_, .snoc (.snoc (.snoc .nil (.exit l0 (st := []) rfl rfl)) (.write l1 (st := earlyOut N) (st' := List.replicate (N + 1) 97) (b := 10) ?_ rfl o1 ?_ ?_))
      (.fetch l0 (hn.inF 0 (by omega)) rfl ?_ (hn.slotF 0 (by omega)) (c := [10]) (rest := []) ?_ (by simp) (by simp)), ?_⟩
    · rfl
    · exact hcap
    · refine hn.openR 0 (by omega) _ ?_
      simp only [hn.outF 0 (by omega)]
      rw [close_ne]
      · rfl
      · intro h; exact hn.disj 0 0 (by omega) (by omega) (Option.some.inj h).symm
    · simp [St.start]
    · simp [St.start, upd]
    · refine ⟨?_, ?_, ?_, ?_, ?_, ?_, ?_⟩
      · simp [upd]
      · simp [upd]
      · simp [upd, St.start]
      · simp [upd]
      · simp [upd, St.start]
      · simp [St.start]
      · simp only [hn.outF 0 (by omega)]
        rw [close_ne]
        · rfl
        · intro h; exact hn.disj 0 0 (by omega) (by omega) (Option.some.inj h).symm
  | i + 1, hi => by
    obtain ⟨s, h1, h2, h3, h4, h5, h6, h7, h8⟩ := early_fill hn hc i (by omega)
    have l1 : 1 < net.items.length := by rw [hn.len]; omega
    have o1 : outSlot net 1 1 = some (u + 1) := by rw [hn.outP]; rfl
    have hr : List.replicate (N + 1 - i) (97 : UInt8) = 97 :: List.replicate (N + 1 - (i + 1)) 97 := by
      rw [show N + 1 - i = (N + 1 - (i + 1)) + 1 by omega]; rfl
    rw [hr] at h3
    refine ⟨_, .snoc h1 (.write l1 h3 rfl o1 (by rw [h5, hc, List.length_replicate]; omega) (hn.openR 0 (by omega) s h8)), ?_⟩
    refine ⟨?_, ?_, ?_, ?_, h6, h7, h8⟩
    · simp only; rw [upd_ne _ _ (by omega)]; exact h2
    · simp only; rw [upd_same]
    · simp only; rw [upd_ne _ _ (by omega)]; exact h4
    · simp only; rw [upd_same, h5, ← List.replicate_succ']

/-- **C141, refuted** without `Greedy`: if a function among the arguments ends before it has read everything, the program waits for ever, although it would end if the function were replaced by a
file: for each capacity `N` of the pipes there is a program, with one function, that ends with status 0 when run alone, and an execution after which the function has
ended, the program is still running, and nothing can happen any more. -/
theorem C141_early_function_blocks (sys : Sys) (cwd : Str) (w : World) (rs : Redirects) (id : Nat) (args : Args) (i : Obj) (e : Want)
    (hs : Startable sys cwd w rs (.command id args) i .pipeOut e) (hf : FuncArgs args) (hm : w.PipesMade) (h1 : arity args = 1) (N : Nat) (hN : 0 < N) :
    ∃ items rs' w', runP sys cwd (.command id args) rs w = (.ok (items, rs'), w') ∧
      ∃ (prog : Prog Bytes) (init : Nat → Bytes) (outs : Nat → Nat → Bytes), ThroughFiles prog 1 init (fun _ _ => []) outs (fun _ => 0) ∧
        ∃ L s, Steps prog (started cwd w (.command id args) .pipeOut items rs' w' fun _ => N) L (St.start init fun _ _ => []) s ∧
          s.proc 0 = .exited 0 ∧ (∃ st, s.proc 1 = .running st) ∧ ∀ t, ¬ Step prog (started cwd w (.command id args) .pipeOut items rs' w' fun _ => N) s t := by
  obtain ⟨items, rs', w', r1, r2, r3, u, v, a, b, r4⟩ := started_star hs hf hm
  refine ⟨items, rs', w', r1, early, earlyInit N, earlyOuts N, early_through N, ?_⟩
  have hn := r4 (fun _ => N) (fun _ => hN)
  rw [h1] at hn
  generalize hnet : started cwd w (.command id args) .pipeOut items rs' w' (fun _ => N) = net at hn
  have hc : net.cap (u + 1) = N := by rw [← hnet]; rfl
  obtain ⟨s, g1, g2, g3, g4, g5, g6, g7, g8⟩ := early_fill hn hc N (Nat.le_refl _)
  refine ⟨_, s, g1, g2, ⟨_, g3⟩, ?_⟩
  have hr : List.replicate (N + 1 - N) (97 : UInt8) = [97] := by rw [show N + 1 - N = 1 by omega]; rfl
  rw [hr] at g3
  have hk : ∀ k, k < net.items.length → k = 0 ∨ k = 1 := by intro k h; rw [hn.len] at h; omega
  have hrun : ∀ k st, k < net.items.length → s.proc k = .running st → k = 1 ∧ st = [97] := by
    intro k st h h'
    rcases hk k h with rfl | rfl
    · rw [g2] at h'; cases h'
    · rw [g3] at h'; cases h'; exact ⟨rfl, rfl⟩
  have hnext : early.next [97] = .write 1 97 [] := rfl
  have hin : ∀ k fd, k < net.items.length → net.inFd k = some fd → k = 0 := by
    intro k fd h h'
    rcases hk k h with rfl | rfl
    · rfl
    · rw [hn.inN] at h'; cases h'
  have o1 : outSlot net 1 1 = some (u + 1) := by rw [hn.outP]; rfl
  intro t ht
  cases ht
  case read k j st f q x rest a1 a2 a3 _ _ _ => obtain ⟨rfl, rfl⟩ := hrun k st a1 a2; rw [hnext] at a3; cases a3
  case eof k j st f q a1 a2 a3 _ _ _ _ => obtain ⟨rfl, rfl⟩ := hrun k st a1 a2; rw [hnext] at a3; cases a3
  case readExt k j st f x rest a1 a2 a3 _ _ _ => obtain ⟨rfl, rfl⟩ := hrun k st a1 a2; rw [hnext] at a3; cases a3
  case eofExt k j st f a1 a2 a3 _ _ _ => obtain ⟨rfl, rfl⟩ := hrun k st a1 a2; rw [hnext] at a3; cases a3
  case take k j fd st f x rest a1 a2 a3 _ _ => obtain ⟨rfl, rfl⟩ := hrun k st a1 a2; rw [hnext] at a3; cases a3
  case takeEof k j fd st f a1 a2 a3 _ _ _ => obtain ⟨rfl, rfl⟩ := hrun k st a1 a2; rw [hnext] at a3; cases a3
  case exit k st c a1 a2 a3 => obtain ⟨rfl, rfl⟩ := hrun k st a1 a2; rw [hnext] at a3; cases a3
  case fetch k fd q c rest a1 a2 a3 a4 _ _ _ _ => obtain rfl := hin k fd a1 a2; rw [g6] at a4; simp at a4
  case hup k fd q a1 a2 a3 a4 _ _ _ => obtain rfl := hin k fd a1 a2; rw [g6] at a4; simp at a4
  case fetchExt k fd c rest a1 a2 a3 a4 _ _ _ _ => obtain rfl := hin k fd a1 a2; rw [g6] at a4; simp at a4
  case hupExt k fd a1 a2 a3 a4 _ _ => obtain rfl := hin k fd a1 a2; rw [g6] at a4; simp at a4
  case write k j st st' x q a1 a2 a3 a4 a5 a6 =>
    obtain ⟨rfl, rfl⟩ := hrun k st a1 a2; rw [hnext] at a3; cases a3
    rw [o1] at a4; cases a4
    rw [g5, hc, List.length_replicate] at a5; omega
  case sigpipe k j st st' x q a1 a2 a3 a4 a5 a6 =>
    obtain ⟨rfl, rfl⟩ := hrun k st a1 a2; rw [hnext] at a3; cases a3
    rw [o1] at a4; cases a4
    exact a5 (hn.openR 0 (by omega) s g8)
  case epipe k j st st' st'' x q a1 a2 a3 a4 a5 _ _ =>
    obtain ⟨rfl, rfl⟩ := hrun k st a1 a2; rw [hnext] at a3; cases a3
    rw [o1] at a4; cases a4
    exact a5 (hn.openR 0 (by omega) s g8)
  case writeExt k j st st' x a1 a2 a3 a4 =>
    obtain ⟨rfl, rfl⟩ := hrun k st a1 a2; rw [hnext] at a3; cases a3
    rw [o1] at a4; cases a4
  case user q x rest a1 a2 => rw [hn.user] at a1; cases a1; rw [g4] at a2; cases a2

/-! ### examples -/

namespace FuncArgEx

/-- States of a program that writes given bytes to given outputs, and of a function like the one in tests/argpipe_pipeline.pysh: it yields "Start", for each line it reads "Read " and the line,
and finally "End". -/
inductive S where
  | put (l : List (Nat × UInt8)) (k : Option Bool)

def bytes (s : Str) : Bytes := s.map (fun c => c.toNat.toUInt8)
def on (j : Nat) (l : Bytes) : List (Nat × UInt8) := l.map (fun b => (j, b))

def op : S → Op S
  | .put ((j, b) :: l) k => .write j b (.put l k)
  | .put [] none => .exit 0
  | .put [] (some bol) => .read 0 fun x => match x with
    | some b => .put (on 0 ((if bol then bytes c!"Read " else []) ++ [b])) (some (b == 10))
    | none => .put (on 0 (bytes c!"End\n")) none

def prog : Prog S := ⟨op, fun _ => none⟩

/-- `bash script.sh f`, where the script writes `FOO` to its stdout and `BAR` to its second argument. -/
def args : Args := .word [c!"bash", c!"script.sh"] (.funcArg [] 0 .nil)
def pl : Pipeline := .command 1 args

def init : Nat → S
  | 0 => .put (on 0 (bytes c!"Start\n")) (some true)
  | _ => .put (on 0 (bytes c!"FO") ++ on 1 (bytes c!"BAR\n") ++ on 0 (bytes c!"O\n")) none

def outs : Nat → Nat → Bytes
  | 0, 0 => bytes c!"Start\nRead BAR\nEnd\n"
  | 1, 0 => bytes c!"FOO\n"
  | 1, 1 => bytes c!"BAR\n"
  | _, _ => []

theorem shape (sys : Sys) : pl.Redirectable sys [] := by simp [pl, args, Pipeline.Redirectable, Args.Redirectable]
theorem funcArgs : FuncArgs args := trivial
theorem arity_eq : arity args = 1 := rfl

/-- All that a list of writes gives, for each output. -/
def puts : List (Nat × UInt8) → (Nat → Bytes) → Nat → Bytes
  | [], o => o
  | (j, b) :: l, o => upd (puts l o) j (b :: puts l o j)

theorem runs_puts {k : Option Bool} {inp o : Nat → Bytes} {c : Nat} (h : Runs prog (.put [] k) inp o c) : ∀ l, Runs prog (.put l k) inp (puts l o) c
  | [] => h
  | (_, _) :: l => .write rfl (runs_puts h l)

theorem puts_on (l : Bytes) (j : Nat) (o : Nat → Bytes) : puts (on j l) o = upd o j (l ++ o j) := by
  induction l with
  | nil => funext j'; simp only [on, List.map_nil, puts, List.nil_append, upd]; split <;> simp_all
  | cons b l ih =>
    have : on j (b :: l) = (j, b) :: on j l := rfl
    rw [this, puts, ih]
    funext j'; simp only [upd]; split <;> simp

theorem throughFiles : ThroughFiles prog (arity args) init (fun _ _ => []) outs (fun _ => 0) := by
  intro k hk
  rw [arity_eq] at hk
  match k, hk with
  | 1, _ =>
    have h := runs_puts (k := none) (inp := inputs (arity args) (fun _ _ => []) outs 1) (.exit (s := S.put [] none) rfl)
      (on 0 (bytes c!"FO") ++ on 1 (bytes c!"BAR\n") ++ on 0 (bytes c!"O\n"))
    have e : puts (on 0 (bytes c!"FO") ++ on 1 (bytes c!"BAR\n") ++ on 0 (bytes c!"O\n")) (fun _ => []) = outs 1 := by
      funext j
      match j with
      | 0 => decide
      | 1 => decide
      | j + 2 => rfl
    rw [e] at h
    exact h
  | 0, _ =>
    have h : Runs prog (init 0) (inputs (arity args) (fun _ _ => []) outs 0) _ 0 :=
      runs_puts (.read (rest := bytes c!"AR\n") rfl rfl (runs_puts (.read (rest := bytes c!"R\n") rfl rfl (runs_puts (.read (rest := bytes c!"\n") rfl rfl
        (runs_puts (.read (rest := []) rfl rfl (runs_puts (.eof rfl rfl (runs_puts (.exit rfl) _)) _)) _)) _)) _)) _
    simp only [puts_on] at h
    refine Eq.mp ?_ h
    congr 1
    funext j
    cases j with
    | zero => decide
    | succ j => rfl

theorem greedy : ∀ k, k < arity args → Greedy prog (init k) := by
  intro k hk
  rw [arity_eq] at hk
  obtain rfl : k = 0 := by omega
  refine ⟨fun st => ∃ l bol, st = .put l (some bol), ⟨_, true, rfl⟩, ?_⟩
  rintro _ ⟨l, bol, rfl⟩
  cases l with
  | nil =>
    refine ⟨(by intro c h; cases h), (by intro j b st' h; cases h), ?_⟩
    intro j f h
    cases h
    exact ⟨fun b => ⟨_, _, rfl⟩, fun h => absurd rfl h⟩
  | cons x l =>
    refine ⟨(by intro c h; cases h), ?_, (by intro j f h; cases h)⟩
    intro j b st' h
    cases h
    exact ⟨l, bol, rfl⟩

theorem two_funcs {lf : Nat} {lg : Option Obj} {g : Nat → Option Entry} {items : List Item} {x y : Nat} {a b c d : Obj}
    (h : Pointwise (ItemOk lf lg g) items [.func x (some a) b, .func y (some c) d]) :
    ∃ i0 o0 r0 i1 o1 r1, items = [.func x (some i0) o0 r0, .func y (some i1) o1 r1] := by
  cases h with
  | cons hx h =>
    cases h with
    | cons hy h =>
      cases h
      rename_i p q
      cases p with
      | proc => simp only [ItemOk] at hx
      | func id i0 o0 r0 =>
        cases q with
        | proc => simp only [ItemOk] at hy
        | func id' i1 o1 r1 =>
          simp only [ItemOk] at hx hy
          obtain ⟨rfl, -, e1, -⟩ := hx
          obtain ⟨rfl, -, e2, -⟩ := hy
          cases i0 with
          | none => simp at e1
          | some i0 =>
            cases i1 with
            | none => simp at e2
            | some i1 => exact ⟨i0, o0, r0, i1, o1, r1, rfl⟩

end FuncArgEx

/-- The hypotheses of C141 are met by the test of the repository. -/
example : Startable RunEx.sys [] RunEx.world RunEx.iterRs FuncArgEx.pl (.inherited 0) .pipeOut .tmp ∧ FuncArgs FuncArgEx.args ∧ RunEx.world.PipesMade ∧
    ThroughFiles FuncArgEx.prog (arity FuncArgEx.args) FuncArgEx.init (fun _ _ => []) FuncArgEx.outs (fun _ => 0) ∧
    ∀ k, k < arity FuncArgEx.args → Greedy FuncArgEx.prog (FuncArgEx.init k) :=
  ⟨RunEx.startable _ (by decide) (FuncArgEx.shape _), FuncArgEx.funcArgs, RunEx.made, FuncArgEx.throughFiles, FuncArgEx.greedy⟩

/-- ... and so are those of the refutation, with the usual capacity of a pipe. -/
example : ∃ items rs' w', runP RunEx.sys [] FuncArgEx.pl RunEx.iterRs RunEx.world = (.ok (items, rs'), w') ∧
    ∃ (prog : Prog Bytes) (init : Nat → Bytes) (outs : Nat → Nat → Bytes), ThroughFiles prog 1 init (fun _ _ => []) outs (fun _ => 0) ∧
      ∃ L s, Steps prog (started [] RunEx.world FuncArgEx.pl .pipeOut items rs' w' fun _ => 65536) L (St.start init fun _ _ => []) s ∧
        s.proc 0 = .exited 0 ∧ (∃ st, s.proc 1 = .running st) ∧ ∀ t, ¬ Step prog (started [] RunEx.world FuncArgEx.pl .pipeOut items rs' w' fun _ => 65536) s t :=
  C141_early_function_blocks _ _ _ _ _ _ _ _ (RunEx.startable FuncArgEx.pl (by decide) (FuncArgEx.shape _)) FuncArgEx.funcArgs RunEx.made rfl 65536 (by decide)

/-- C142, for a pipeline with two functions: its hypotheses are met, and it starts two functions. -/
example : Startable RunEx.sys [] RunEx.world RunEx.iterRs (.pipe (.func 0) (.func 1)) (.inherited 0) .pipeOut .tmp ∧
    ∃ items rs' w', runP RunEx.sys [] (.pipe (.func 0) (.func 1)) RunEx.iterRs RunEx.world = (.ok (items, rs'), w') ∧
      ∃ i0 o0 r0 i1 o1 r1, items = [.func 0 (some i0) o0 r0, .func 1 (some i1) o1 r1] ∧ i0 ≠ i1 ∧ o0 ≠ o1 ∧ i0 ≠ o1 ∧ i1 ≠ o0 := by
  have hs := RunEx.startable (.pipe (.func 0) (.func 1)) (by decide) (by simp [Pipeline.Redirectable, Pipeline.outWant])
  refine ⟨hs, ?_⟩
  obtain ⟨items, rs', w', h1, h2⟩ := C142_own_descriptors _ _ _ _ _ _ _ _ hs
  refine ⟨items, rs', w', h1, ?_⟩
  obtain ⟨⟨H, L, hr, hl, hstd⟩, ho, he, hsh, hlow, hpo⟩ := hs
  obtain ⟨items', rs'', w'', ul, lk, hrun, P⟩ := run_spec _ _ _ hsh hr hl hstd ho he hlow hpo
  rw [hrun] at h1
  simp only [Prod.mk.injEq, Except.ok.injEq] at h1
  obtain ⟨⟨rfl, -⟩, -⟩ := h1
  obtain ⟨i0, o0, r0, i1, o1, r1, rfl⟩ := FuncArgEx.two_funcs P.itemsOk
  refine ⟨i0, o0, r0, i1, o1, r1, rfl, ?_, ?_, ?_, ?_⟩
  · intro h; have := (h2 0 1 _ _ _ _ _ _ _ _ rfl rfl).2.2.1 i0 rfl (by rw [h]); cases this
  · intro h; have := (h2 0 1 _ _ _ _ _ _ _ _ rfl rfl).2.1 h; cases this
  · intro h; exact (h2 0 1 _ _ _ _ _ _ _ _ rfl rfl).1 (by rw [h])
  · intro h; exact (h2 1 0 _ _ _ _ _ _ _ _ rfl rfl).1 (by rw [h])

/-- What the shell gets there is the output of the script, mixed with the output of the function: 19 + 4 bytes. -/
example : ∃ items rs' w', runP RunEx.sys [] FuncArgEx.pl RunEx.iterRs RunEx.world = (.ok (items, rs'), w') ∧ ∃ L s,
    Steps FuncArgEx.prog (started [] RunEx.world FuncArgEx.pl .pipeOut items rs' w' fun _ => 1) L (St.start FuncArgEx.init fun _ _ => []) s ∧
    Merged 1 (fun k => FuncArgEx.outs k 0) s.got ∧ s.got.length = 23 ∧ s.proc 0 = .exited 0 ∧ s.proc 1 = .exited 0 := by
  obtain ⟨items, rs', w', h1, h2⟩ := C141_result_is_reached _ _ _ _ _ _ _ _
    (RunEx.startable FuncArgEx.pl (by decide) (FuncArgEx.shape _)) FuncArgEx.funcArgs RunEx.made
  obtain ⟨L, s, h3, h4, h5⟩ := h2 FuncArgEx.prog FuncArgEx.init (fun _ _ => []) FuncArgEx.outs _ FuncArgEx.throughFiles FuncArgEx.greedy (fun _ => 1) (by simp) 0 _ .nil
  refine ⟨items, rs', w', h1, _, s, h3, h5, ?_, h4 0 (by decide), h4 1 (by decide)⟩
  rw [Merged.length h5]; decide

end Pieshell.FuncArg
