import Verif.Lemmas.Jam2
import Verif.Props.Traffic
/-!
# Nobody waits for ever (C145)
-/
namespace Pieshell.FuncArg
open Flow (Bytes Net Proc upd close started userPipe)
open Subst (slot handler Foreign)
open Jam (Rd Wr Shut InOk AtIn AtOut Ctx)

/-- Item `k` has ended: by itself, or because what it has written to was closed. -/
def Ended {σ : Type} (s : St σ) (k : Nat) : Prop := (∃ c, s.proc k = .exited c) ∨ s.proc k = .killed

/-- Item `k` is a function that has ended before its handler has found the end of its input, which is a pipe that is full. -/
def Abandoned {σ : Type} (net : Net) (s : St σ) (k : Nat) : Prop :=
  Ended s k ∧ (net.inFd k).isSome = true ∧ s.heof k = false ∧ ∃ q, slot net k 0 = some q ∧ net.cap q ≤ (s.buf q).length

/-- The read end of pipe `q` has been left behind in the shell (for no function of the pipeline, nor for the reader of its output), and the pipe is full. -/
def LeftBehind {σ : Type} (net : Net) (s : St σ) (q : Nat) : Prop :=
  net.made ≤ q ∧ net.user ≠ some q ∧ (∃ fd en, net.w.fds.get fd = some en ∧ en.obj = .pipeR q ∧ ∀ k, net.inFd k ≠ some fd) ∧ net.cap q ≤ (s.buf q).length

theorem jam_of_stuck {σ : Type} {prog : Prog σ} {net : Net} {s : St σ} {G : List RItem} {lo : Nat} {uo : Option Nat} {lk : List Obj} (hw : Jam.Wired net G lo uo lk) (hsh : Shut net s)
    (hcap : ∀ q, 0 < net.cap q) (hn : ∀ t, ¬ Step prog net s t) (hab : ∀ k, ¬ Abandoned net s k) (hlb : ∀ q, ¬ LeftBehind net s q) :
    Jam.Jam G lo (fun k => k < net.items.length ∧ Waits prog net s k) (fun q => s.buf q = []) (fun q => net.cap q ≤ (s.buf q).length) := by
  obtain ⟨c1, c2⟩ := C144_stuck prog net s hn
  have hrun : ∀ k st, k < net.items.length → s.proc k = .running st → Waits prog net s k := by
    intro k st hk hp
    rcases c1 k hk with ⟨c, h⟩ | h | h
    · rw [hp] at h; cases h
    · rw [hp] at h; cases h
    · exact h
  have hlt : ∀ {k x}, net.items[k]? = some x → k < net.items.length := fun h => (List.getElem?_eq_some_iff.1 h).1
  constructor
  · intro q h1 h2
    have := hcap q
    rw [h1] at h2; simp only [List.length_nil] at h2; omega
  · rintro k ⟨hk, hW⟩
    cases hW with
    | @reader st j f q hp ho hq hb hop =>
      left
      obtain ⟨x, hx, hx', hm⟩ := Jam.slot_inv hq
      rw [hw.made] at hm
      refine ⟨q, hm, hw.holds k x _ q hx (Jam.slotObj_holds hx') hm (.inl rfl), hb, ?_⟩
      rcases hop with ⟨k', id, argv, fds, rs, n, st', g1, g2, g3⟩ | ⟨fd, en, g1, g2, g3⟩
      · exact ⟨k', ⟨hlt g1, hrun k' st' (hlt g1) g2⟩, hw.holds k' _ _ q g1 ⟨n, g3⟩ hm (.inr rfl)⟩
      · obtain ⟨k', hk'⟩ := hw.shellW fd en q g1 g2 hm
        obtain ⟨id, inFd, rs, hi⟩ := Jam.outFd_inv hk'
        have : ∃ st', s.proc k' = .running st' := by
          apply Classical.byContradiction
          intro h
          have := hsh.out k' fd hk' (fun st' h' => h ⟨st', h'⟩)
          rw [g3] at this; cases this
        obtain ⟨st', hr⟩ := this
        exact ⟨k', ⟨hlt hi, hrun k' st' (hlt hi) hr⟩, hw.holds k' _ _ q hi ⟨fd, .inr rfl, by rw [g1, Option.map_some, g2]⟩ hm (.inr rfl)⟩
    | @writer st st' j b q hp ho hq hfull hop =>
      right
      obtain ⟨x, hx, hx', hm⟩ := Jam.outSlot_inv hq
      rw [hw.made] at hm
      refine ⟨q, hm, hw.holds k x _ q hx (Jam.outObj_holds hx') hm (.inr rfl), hfull, ?_⟩
      rcases hop with ⟨k', id, argv, fds, rs, n, st', g1, g2, g3⟩ | ⟨fd, en, g1, g2, g3⟩
      · exact ⟨k', ⟨hlt g1, hrun k' st' (hlt g1) g2⟩, hw.holds k' _ _ q g1 ⟨n, g3⟩ hm (.inl rfl)⟩
      · have hcase : (∃ k', net.inFd k' = some fd) ∨ net.user = some q := by
          apply Classical.byContradiction
          intro h
          exact hlb q ⟨by rw [hw.made]; exact hm, fun hu => h (.inr hu), ⟨fd, en, g1, g2, fun k hk => h (.inl ⟨k, hk⟩)⟩, hfull⟩
        rcases hcase with ⟨k', hk'⟩ | hu
        · obtain ⟨id, outFd, rs, hi⟩ := Jam.inFd_inv hk'
          have hkl := hlt hi
          refine ⟨k', ⟨hkl, ?_⟩, hw.holds k' _ _ q hi ⟨fd, .inl rfl, by rw [g1, Option.map_some, g2]⟩ hm (.inl rfl)⟩
          have he : s.heof k' = false := by
            cases h : s.heof k' with
            | false => rfl
            | true => rw [hsh.inp k' fd hk' h] at g3; cases g3
          have hsl : slot net k' 0 = some q := by
            simp only [slot, hi, Option.bind_some, Subst.slotObj, Item.stdin, g1, Option.map_some, g2, hw.made, hm, if_true]
          rcases c1 k' hkl with h | h | h
          · exact absurd ⟨.inl h, by rw [hk']; rfl, he, q, hsl, hfull⟩ (hab k')
          · exact absurd ⟨.inr h, by rw [hk']; rfl, he, q, hsl, hfull⟩ (hab k')
          · exact h
        · have := c2 q hu
          have hc := hcap q
          rw [this] at hfull; simp only [List.length_nil] at hfull; omega

/-- **C145.** A pipeline of any shape (pipes, groups, redirections, functions and pipelines among the arguments of its commands, and of those in there) never comes to a standstill before all its items have
ended, unless one of its functions has ended before it has found the end of its input and what it should have read has filled the pipe, or the read end of one of the pipes has been left behind in
the shell, and the pipe is full. When it has come to an end, the shell has read everything from the pipe that it reads. -/
theorem C145_no_deadlock (sys : Sys) (cwd : Str) (w : World) (rs : Redirects) (p : Pipeline) (i : Obj) (o e : Want) (hs : Startable sys cwd w rs p i o e)
    (hm : w.PipesMade) :
    ∃ items rs' w', runP sys cwd p rs w = (.ok (items, rs'), w') ∧
      ∀ {σ : Type} (prog : Prog σ) (init : Nat → σ) (src : Nat → Nat → Bytes) (cap : Nat → Nat) (L : Nat) (s : St σ), (∀ q, 0 < cap q) →
        Steps prog (started cwd w p o items rs' w' cap) L (St.start init src) s → (∀ t, ¬ Step prog (started cwd w p o items rs' w' cap) s t) →
          ((∀ k, k < items.length → Ended s k) ∧ ∀ q, userPipe w' rs' = some q → p.outWant cwd o = .pipeOut → s.buf q = []) ∨
          (∃ k, k < items.length ∧ Abandoned (started cwd w p o items rs' w' cap) s k) ∨ ∃ q, LeftBehind (started cwd w p o items rs' w' cap) s q := by
  obtain ⟨items, rs', w', hrun, hwired⟩ := Jam.started_wired hs hm
  refine ⟨items, rs', w', hrun, ?_⟩
  intro σ prog init src cap L s hcap hst hn
  have hw := hwired cap
  have hsh := Jam.shut_steps hst
  obtain ⟨c1, c2⟩ := C144_stuck prog _ s hn
  by_cases hab : ∃ k, k < items.length ∧ Abandoned (started cwd w p o items rs' w' cap) s k
  · exact .inr (.inl hab)
  by_cases hlb : ∃ q, LeftBehind (started cwd w p o items rs' w' cap) s q
  · exact .inr (.inr hlb)
  · left
    have hab' : ∀ k, ¬ Abandoned (started cwd w p o items rs' w' cap) s k := by
      intro k h
      refine hab ⟨k, ?_, h⟩
      have h2 := h.2.1
      cases hf : (started cwd w p o items rs' w' cap).inFd k with
      | none => rw [hf] at h2; cases h2
      | some n =>
        obtain ⟨id, outFd, rsx, hi⟩ := Jam.inFd_inv hf
        exact (List.getElem?_eq_some_iff.1 hi).1
    have J := jam_of_stuck hw hsh hcap hn hab' (fun q h => hlb ⟨q, h⟩)
    obtain ⟨⟨H, L', hr, hl, hstd⟩, ho, he, hsp, hlow, hpo⟩ := hs
    have hold : ∀ ob, OldIn w.fds ob → Foreign w.nextPipe ob := fun ob h q hq => (h.notPipe hm q hq).symm
    have hif := hold i (hstd.old.1 i rfl)
    refine ⟨fun k hk => ?_, fun q hq hpw => c2 q (by simp only [started, if_pos hpw, hq])⟩
    rcases c1 k hk with h | h | h
    · exact .inl h
    · exact .inr h
    · exfalso
      have hlen : (refRun cwd p i o e w.ctr).items.length = items.length := hw.len.symm
      have := Jam.jam_run J p hsp (n := 0) (i := i) (o := o) (e := e) (c := w.ctr) (Nat.le_refl _) ho he (fun ob h => hold ob (hstd.old.2.1 ob h))
        (fun ob h => hold ob (hstd.old.2.2 ob h)) (.inl hif) (by intro k x hk; rwa [Nat.zero_add]) (by
          intro m q hm' _ _
          have hno : (refRun cwd p i o e w.ctr).items[m]? = none := List.getElem?_eq_none (by omega)
          refine ⟨fun ⟨y, hy, _⟩ => ?_, fun ⟨y, hy, _⟩ => ?_⟩ <;> rw [hno] at hy <;> cases hy) k (Nat.zero_le _) (by omega) ⟨hk, h⟩
      rcases this with ⟨q, hq, hlo, -⟩ | ⟨hpw, hF, -⟩
      · exact (hif q hlo).2 hq
      · have := c2 _ (by rw [hw.user, if_pos hpw])
        rw [this] at hF
        have := hcap (refRun cwd p i o e w.ctr).out
        simp only [List.length_nil, started] at hF; omega

/-- **C145.** In pipelines that leave nothing behind (`Tidy`: `a | b` where the input of `b` is not redirected, `a + b` where the output of `a` is not a pipe), only functions that have ended early
can be the reason of a standstill. -/
theorem C145_tidy (sys : Sys) (cwd : Str) (w : World) (rs : Redirects) (p : Pipeline) (i : Obj) (o e : Want) (hs : Startable sys cwd w rs p i o e)
    (hT : Tidy cwd p o) (hm : w.PipesMade) :
    ∃ items rs' w', runP sys cwd p rs w = (.ok (items, rs'), w') ∧
      ∀ {σ : Type} (prog : Prog σ) (init : Nat → σ) (src : Nat → Nat → Bytes) (cap : Nat → Nat) (L : Nat) (s : St σ), (∀ q, 0 < cap q) →
        Steps prog (started cwd w p o items rs' w' cap) L (St.start init src) s → (∀ t, ¬ Step prog (started cwd w p o items rs' w' cap) s t) →
          ((∀ k, k < items.length → Ended s k) ∧ ∀ q, userPipe w' rs' = some q → p.outWant cwd o = .pipeOut → s.buf q = []) ∨
          ∃ k, k < items.length ∧ Abandoned (started cwd w p o items rs' w' cap) s k := by
  obtain ⟨items, rs', w', hrun, h⟩ := C145_no_deadlock sys cwd w rs p i o e hs hm
  obtain ⟨items', rs'', w'', hrun', hwired⟩ := Jam.started_wired hs hm
  rw [hrun] at hrun'
  simp only [Prod.mk.injEq, Except.ok.injEq] at hrun'
  obtain ⟨⟨rfl, rfl⟩, rfl⟩ := hrun'
  refine ⟨items, rs', w', hrun, ?_⟩
  intro σ prog init src cap L s hcap hst hn
  rcases h prog init src cap L s hcap hst hn with h | h | ⟨q, h1, h2, ⟨fd, en, h3, h4, h5⟩, -⟩
  · exact .inl h
  · exact .inr h
  · exfalso
    have hw := hwired cap
    rw [hw.made] at h1
    rw [hw.user] at h2
    rcases hw.shellR fd en q h3 h4 h1 with ⟨k, hk⟩ | hu | hl
    · exact h5 k hk
    · exact h2 hu
    · rw [Jam.tidy_leaks p hT] at hl; cases hl

/-- **C145.** A pipeline in which no pipe is left behind and no function reads never comes to a standstill before all its items have ended. -/
theorem C145_all_end (sys : Sys) (cwd : Str) (w : World) (rs : Redirects) (p : Pipeline) (i : Obj) (o e : Want) (hs : Startable sys cwd w rs p i o e)
    (hT : Tidy cwd p o) (hm : w.PipesMade) :
    ∃ (items : List Item) (rs' : Redirects) (w' : World), runP sys cwd p rs w = (.ok (items, rs'), w') ∧
      ((∀ (k id fd outFd : Nat) (rsx : Redirects), items[k]? ≠ some (Item.func id (some fd) outFd rsx)) →
      ∀ {σ : Type} (prog : Prog σ) (init : Nat → σ) (src : Nat → Nat → Bytes) (cap : Nat → Nat) (L : Nat) (s : St σ), (∀ q, 0 < cap q) →
        Steps prog (started cwd w p o items rs' w' cap) L (St.start init src) s → (∀ t, ¬ Step prog (started cwd w p o items rs' w' cap) s t) →
          ∀ k, k < items.length → Ended s k) := by
  obtain ⟨items, rs', w', hrun, h⟩ := C145_tidy sys cwd w rs p i o e hs hT hm
  refine ⟨items, rs', w', hrun, ?_⟩
  intro hno σ prog init src cap L s hcap hst hn
  rcases h prog init src cap L s hcap hst hn with h | ⟨k, _, h⟩
  · exact h.1
  · exfalso
    have h2 := h.2.1
    cases hf : (started cwd w p o items rs' w' cap).inFd k with
    | none => rw [hf] at h2; cases h2
    | some n =>
      obtain ⟨id, outFd, rsx, hi⟩ := Jam.inFd_inv hf
      exact hno k id n outFd rsx hi

namespace JamEx
def cmd (id : Nat) (name : Str) : Pipeline := .command id (.word [name] .nil)
/-- a command with a pipeline and a function among its arguments, whose output is read by a command and a function, the output of which goes to the terminal -/
def pl : Pipeline := .pipe (.command 1 (.word [c!"tool"] (.pipeArg [] (.pipe (cmd 2 c!"ls") (cmd 3 c!"sort")) (.funcArg [] 4 .nil)))) (.group (cmd 5 c!"tail") (.func 6))
theorem shape (sys : Sys) : pl.Redirectable sys [] := by simp [pl, cmd, Pipeline.Redirectable, Args.Redirectable, Pipeline.outWant]
theorem tidy : Tidy [] pl (.obj (.inherited 1)) := by simp [pl, cmd, Tidy, TidyArgs, Pipeline.takes, Pipeline.outWant]
/-- the same without functions, and its output read by the shell -/
def plain : Pipeline := .pipe (.command 1 (.word [c!"tool"] (.pipeArg [] (.pipe (cmd 2 c!"ls") (cmd 3 c!"sort")) .nil))) (cmd 5 c!"tail")
theorem shape' (sys : Sys) : plain.Redirectable sys [] := by simp [plain, cmd, Pipeline.Redirectable, Args.Redirectable, Pipeline.outWant]
theorem tidy' : Tidy [] plain .pipeOut := by simp [plain, cmd, Tidy, TidyArgs, Pipeline.takes]
/-- copies its input: reads (`none`), writes the byte that it has read, ends (`some none`) -/
def cat : Prog (Option (Option UInt8)) := ⟨fun s => match s with | none => .read 0 some | some none => .exit 0 | some (some b) => .write 0 b none, fun _ => none⟩
end JamEx

/-- The hypotheses of C143 and C145 are met by a pipeline with pipes, a group, and a pipeline and a function among its arguments; it starts six items. -/
example : Startable RunEx.sys [] RunEx.world defaultRedirects JamEx.pl (.inherited 0) (.obj (.inherited 1)) .tmp ∧ Tidy [] JamEx.pl (.obj (.inherited 1)) ∧ RunEx.world.PipesMade ∧
    (refRun [] JamEx.pl (.inherited 0) (.obj (.inherited 1)) .tmp RunEx.world.ctr).items.length = 6 :=
  ⟨RunEx.startable' _ (by decide) (JamEx.shape _), JamEx.tidy, RunEx.made, by decide⟩

/-- ... and those of `C145_all_end` by one without functions. -/
example : Startable RunEx.sys [] RunEx.world RunEx.iterRs JamEx.plain (.inherited 0) .pipeOut .tmp ∧ Tidy [] JamEx.plain .pipeOut ∧ RunEx.world.PipesMade ∧
    ∃ items rs' w', runP RunEx.sys [] JamEx.plain RunEx.iterRs RunEx.world = (.ok (items, rs'), w') ∧ items.length = 4 ∧
      ∀ (k id fd outFd : Nat) (rsx : Redirects), items[k]? ≠ some (Item.func id (some fd) outFd rsx) := by
  have hs := RunEx.startable JamEx.plain (by decide) (JamEx.shape' _)
  refine ⟨hs, JamEx.tidy', RunEx.made, ?_⟩
  obtain ⟨⟨H, L, hr, hl, hstd⟩, ho, he, hsh, hlow, hpo⟩ := hs
  obtain ⟨items, rs', w', ul, lk, hrun, P⟩ := run_spec _ _ _ hsh hr hl hstd ho he hlow hpo
  refine ⟨items, rs', w', hrun, P.itemsOk.length.trans (by decide), ?_⟩
  intro k id fd outFd rsx hk
  obtain ⟨y, h1, h2⟩ := P.itemsOk.get' hk
  have hmem := List.mem_of_getElem? h1
  simp only [JamEx.plain, JamEx.cmd, refRun, refArgs, List.nil_append, List.append_nil, List.cons_append, List.mem_cons, List.not_mem_nil, or_false] at hmem
  rcases hmem with rfl | rfl | rfl | rfl <;> simp only [ItemOk] at h2

/-- At a standstill of the first, the items have ended, or one of its functions has been abandoned. -/
example : ∃ items rs' w', runP RunEx.sys [] JamEx.pl defaultRedirects RunEx.world = (.ok (items, rs'), w') ∧
    ∀ (L : Nat) (s : St (Option (Option UInt8))), Steps JamEx.cat (started [] RunEx.world JamEx.pl (.obj (.inherited 1)) items rs' w' fun _ => 65536) L (St.start (fun _ => none) fun _ _ => [104, 105]) s →
      (∀ t, ¬ Step JamEx.cat (started [] RunEx.world JamEx.pl (.obj (.inherited 1)) items rs' w' fun _ => 65536) s t) → (∀ k, k < items.length → Ended s k) ∨
        ∃ k, k < items.length ∧ Abandoned (started [] RunEx.world JamEx.pl (.obj (.inherited 1)) items rs' w' fun _ => 65536) s k := by
  obtain ⟨items, rs', w', h1, h2⟩ := C145_tidy _ _ _ _ _ _ _ _ (RunEx.startable' JamEx.pl (by decide) (JamEx.shape _)) JamEx.tidy RunEx.made
  exact ⟨items, rs', w', h1, fun L s h3 h4 => (h2 _ _ _ _ L s (by simp) h3 h4).imp (fun h => h.1) id⟩

end Pieshell.FuncArg
