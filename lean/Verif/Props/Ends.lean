import Verif.Lemmas.Ends
import Verif.Props.Jam
/-!
# Pipelines of commands that end, end (C146)
-/
namespace Pieshell.FuncArg
open Flow (Bytes Net Proc upd close started userPipe upd_same upd_ne)
open Subst (slot handler Foreign)

theorem steps_trans {σ : Type} {prog : Prog σ} {net : Net} {n m : Nat} {s t u : St σ} (h : Steps prog net n s t) (h' : Steps prog net m t u) : Steps prog net (n + m) s u := by
  induction h' with
  | nil => exact h
  | snoc _ hs ih => exact .snoc (ih h) hs

/-- **C146.** If each item of a pipeline of any shape does only so much however much it reads, if that is limited, then there is a limit to the length of all executions of the
pipeline. -/
theorem C146_bounded (sys : Sys) (cwd : Str) (w : World) (rs : Redirects) (p : Pipeline) (i : Obj) (o e : Want) (hs : Startable sys cwd w rs p i o e)
    (hm : w.PipesMade) :
    ∃ items rs' w', runP sys cwd p rs w = (.ok (items, rs'), w') ∧
      ∀ {σ : Type} (prog : Prog σ) (init : Nat → σ) (src : Nat → Nat → Bytes) (cap : Nat → Nat), (∀ k, k < items.length → Terminates prog (init k)) →
        ∃ N, ∀ L s, Steps prog (started cwd w p o items rs' w' cap) L (St.start init src) s → L ≤ N := by
  obtain ⟨items, rs', w', hrun, hwired⟩ := Jam.started_wired hs hm
  refine ⟨items, rs', w', hrun, ?_⟩
  intro σ prog init src cap hterm
  have hw := hwired cap
  refine steps_bounded fun k hk => ?_
  apply Classical.byContradiction
  intro hP
  have hlen : (refRun cwd p i o e w.ctr).items.length = items.length := hw.len.symm
  have J : Jam.Jam (refRun cwd p i o e w.ctr).items w.nextPipe
      (fun k => k < items.length ∧ ¬ ∃ M, ∀ L s ops fet cnt nr nw usr, Meter prog (started cwd w p o items rs' w' cap) init src L s ops fet cnt nr nw usr → ops k ≤ M)
      (fun _ => True) (fun _ => False) := by
    refine ⟨fun _ _ h => h, fun k hk => .inl ?_⟩
    apply Classical.byContradiction
    intro hno
    refine hk.2 (ops_bounded hterm k hk.1 fun q j k' hq hk' hwr => ?_)
    apply Classical.byContradiction
    intro hP'
    obtain ⟨x, hx, hx', hmade⟩ := Jam.slot_inv hq
    obtain ⟨j', hq'⟩ := hwr
    obtain ⟨y, hy, hy', -⟩ := Jam.outSlot_inv hq'
    rw [hw.made] at hmade
    exact hno ⟨q, hmade, hw.holds k x _ q hx (Jam.slotObj_holds hx') hmade (.inl rfl), trivial, k', ⟨hk', hP'⟩, hw.holds k' y _ q hy (Jam.outObj_holds hy') hmade (.inr rfl)⟩
  obtain ⟨⟨H, L', hr, hl, hstd⟩, ho, he, hsp, hlow, hpo⟩ := hs
  have hold : ∀ ob, OldIn w.fds ob → Foreign w.nextPipe ob := fun ob h q hq => (h.notPipe hm q hq).symm
  have hif := hold i (hstd.old.1 i rfl)
  have := Jam.jam_run J p hsp (n := 0) (i := i) (o := o) (e := e) (c := w.ctr) (Nat.le_refl _) ho he (fun ob h => hold ob (hstd.old.2.1 ob h))
    (fun ob h => hold ob (hstd.old.2.2 ob h)) (.inl hif) (by intro k x hk; rwa [Nat.zero_add]) (by
      intro m q hm' _ _
      have hno : (refRun cwd p i o e w.ctr).items[m]? = none := List.getElem?_eq_none (by omega)
      refine ⟨fun ⟨y, hy, _⟩ => ?_, fun ⟨y, hy, _⟩ => ?_⟩ <;> rw [hno] at hy <;> cases hy) k (Nat.zero_le _) (by have : k < items.length := hk; omega) ⟨hk, hP⟩
  rcases this with ⟨q, hq, hlo, -⟩ | ⟨-, hF, -⟩
  · exact (hif q hlo).2 hq
  · exact hF

/-- From every state, an execution that cannot be for ever comes to a standstill. -/
theorem to_standstill {σ : Type} {prog : Prog σ} {net : Net} {s0 : St σ} {N : Nat} (hN : ∀ L s, Steps prog net L s0 s → L ≤ N) :
    ∀ d L s, N - L ≤ d → Steps prog net L s0 s → ∃ M t, Steps prog net M s t ∧ ∀ u, ¬ Step prog net t u
  | 0, L, s, hd, h => ⟨0, s, .nil, fun u hu => by have := hN _ _ (.snoc h hu); have := hN _ _ h; omega⟩
  | d + 1, L, s, hd, h => by
    by_cases hu : ∃ u, Step prog net s u
    · obtain ⟨u, hu⟩ := hu
      have := hN _ _ (.snoc h hu)
      obtain ⟨M, t, h1, h2⟩ := to_standstill hN d (L + 1) u (by omega) (.snoc h hu)
      exact ⟨1 + M, t, steps_trans (.snoc .nil hu) h1, h2⟩
    · exact ⟨0, s, .nil, fun u h => hu ⟨u, h⟩⟩

/-- **C146.** ... and each execution can be continued until all items have ended (by itself, it goes nowhere else: it has a limit, and stops only there), unless one of the functions has ended
before it has found the end of its input, and what it should have read has filled the pipe, or a pipe has been left behind (see C145). -/
theorem C146_ends (sys : Sys) (cwd : Str) (w : World) (rs : Redirects) (p : Pipeline) (i : Obj) (o e : Want) (hs : Startable sys cwd w rs p i o e)
    (hm : w.PipesMade) :
    ∃ items rs' w', runP sys cwd p rs w = (.ok (items, rs'), w') ∧
      ∀ {σ : Type} (prog : Prog σ) (init : Nat → σ) (src : Nat → Nat → Bytes) (cap : Nat → Nat), (∀ k, k < items.length → Terminates prog (init k)) → (∀ q, 0 < cap q) →
        ∃ N, ∀ L s, Steps prog (started cwd w p o items rs' w' cap) L (St.start init src) s → L ≤ N ∧
          ∃ M t, Steps prog (started cwd w p o items rs' w' cap) M s t ∧ (∀ u, ¬ Step prog (started cwd w p o items rs' w' cap) t u) ∧
            (((∀ k, k < items.length → Ended t k) ∧ ∀ q, userPipe w' rs' = some q → p.outWant cwd o = .pipeOut → t.buf q = []) ∨
            (∃ k, k < items.length ∧ Abandoned (started cwd w p o items rs' w' cap) t k) ∨ ∃ q, LeftBehind (started cwd w p o items rs' w' cap) t q) := by
  obtain ⟨items, rs', w', hrun, h⟩ := C146_bounded sys cwd w rs p i o e hs hm
  obtain ⟨items', rs'', w'', hrun', h'⟩ := C145_no_deadlock sys cwd w rs p i o e hs hm
  rw [hrun] at hrun'
  simp only [Prod.mk.injEq, Except.ok.injEq] at hrun'
  obtain ⟨⟨rfl, rfl⟩, rfl⟩ := hrun'
  refine ⟨items, rs', w', hrun, ?_⟩
  intro σ prog init src cap hterm hcap
  obtain ⟨N, hN⟩ := h prog init src cap hterm
  refine ⟨N, fun L s hst => ⟨hN L s hst, ?_⟩⟩
  obtain ⟨M, t, h1, h2⟩ := to_standstill hN _ L s (Nat.le_refl _) hst
  exact ⟨M, t, h1, h2, h' prog init src cap _ t hcap (steps_trans hst h1) h2⟩

namespace JamEx
theorem cat_count {n : Nat} {cnt : Nat → Nat} {st : Option (Option UInt8)} (h : Works cat none n cnt st) :
    match st with | none => n ≤ 2 * cnt 0 | some none => n ≤ 2 * cnt 0 + 1 | some (some _) => n + 1 ≤ 2 * cnt 0 := by
  induction h with
  | start => simp
  | @byte n cnt st j f b _ ho ih =>
    match st, ho with
    | none, ho => cases ho; simp only [upd_same] at ih ⊢; omega
    | some none, ho => cases ho
    | some (some _), ho => cases ho
  | @eof n cnt st j f _ ho ih =>
    match st, ho with
    | none, ho => cases ho; simp only at ih ⊢; omega
    | some none, ho => cases ho
    | some (some _), ho => cases ho
  | @write n cnt st st' j b _ ho ih =>
    match st, ho with
    | none, ho => cases ho
    | some none, ho => cases ho
    | some (some _), ho => cases ho; simp only at ih ⊢; omega
  | fail _ _ he _ => cases he

theorem cat_terminates : Terminates cat none := by
  intro lim
  refine ⟨2 * lim 0 + 1, fun n cnt st h hl => ?_⟩
  have h1 := cat_count h
  have h2 := hl 0
  match st with
  | none => simp only at h1; omega
  | some none => simp only at h1; omega
  | some (some _) => simp only at h1; omega

/-- writes for ever -/
def yes : Prog Unit := ⟨fun _ => .write 0 121 (), fun _ => none⟩

/-- ... which is not something that ends. -/
theorem yes_goes_on : ¬ Terminates yes () := by
  intro h
  obtain ⟨N, hN⟩ := h (fun _ => 0)
  have : ∀ n, Works yes () n (fun _ => 0) () := by
    intro n
    induction n with
    | zero => exact .start
    | succ n ih => exact .write ih rfl
  have := hN (N + 1) _ _ (this _) (fun _ => Nat.le_refl _)
  omega
end JamEx

/-- `tool <(ls | sort) | tail`, all of them copying what they read, ends, whatever they read. -/
example (src : Nat → Nat → Bytes) : ∃ items rs' w', runP RunEx.sys [] JamEx.plain RunEx.iterRs RunEx.world = (.ok (items, rs'), w') ∧
    ∃ N, ∀ L s, Steps JamEx.cat (started [] RunEx.world JamEx.plain .pipeOut items rs' w' fun _ => 65536) L (St.start (fun _ => none) src) s → L ≤ N := by
  obtain ⟨items, rs', w', h1, h2⟩ := C146_ends _ _ _ _ _ _ _ _ (RunEx.startable JamEx.plain (by decide) (JamEx.shape' _)) RunEx.made
  obtain ⟨N, hN⟩ := h2 JamEx.cat (fun _ => none) src (fun _ => 65536) (fun _ _ => JamEx.cat_terminates) (by simp)
  exact ⟨items, rs', w', h1, N, fun L s h => (hN L s h).1⟩

end Pieshell.FuncArg
