import Verif.Lemmas.Same
import Verif.Props.Ends
/-!
# The result of a pipeline does not depend on the schedule (C147)
-/
namespace Pieshell.FuncArg
open Flow (Bytes Net Proc upd close started userPipe upd_same upd_ne)
open Subst (slot handler Foreign)

/-- What holds for an item if it holds for those that write to its inputs, holds for all items of a pipeline. -/
theorem upstream_induction {sys : Sys} {cwd : Str} {w : World} {rs : Redirects} {p : Pipeline} {i : Obj} {o e : Want} (hs : Startable sys cwd w rs p i o e)
    (hm : w.PipesMade) {items : List Item} {rs' : Redirects} {w' : World} (hrun : runP sys cwd p rs w = (.ok (items, rs'), w')) (cap : Nat → Nat) (P : Nat → Prop)
    (hP : ∀ k, k < items.length → (∀ q j k' j', slot (started cwd w p o items rs' w' cap) k j = some q → outSlot (started cwd w p o items rs' w' cap) k' j' = some q → k' < items.length →
      P k') → P k) : ∀ k, k < items.length → P k := by
  intro k hk
  apply Classical.byContradiction
  intro hPk
  obtain ⟨items', rs'', w'', hrun', hwired⟩ := Jam.started_wired hs hm
  rw [hrun] at hrun'
  simp only [Prod.mk.injEq, Except.ok.injEq] at hrun'
  obtain ⟨⟨rfl, rfl⟩, rfl⟩ := hrun'
  have hw := hwired cap
  have hlen : (refRun cwd p i o e w.ctr).items.length = items.length := hw.len.symm
  have J : Jam.Jam (refRun cwd p i o e w.ctr).items w.nextPipe (fun k => k < items.length ∧ ¬ P k) (fun _ => True) (fun _ => False) := by
    refine ⟨fun _ _ h => h, fun k hk => .inl ?_⟩
    apply Classical.byContradiction
    intro hno
    refine hk.2 (hP k hk.1 fun q j k' j' hq hq' hk' => ?_)
    apply Classical.byContradiction
    intro hP'
    obtain ⟨x, hx, hx', hmade⟩ := Jam.slot_inv hq
    obtain ⟨y, hy, hy', -⟩ := Jam.outSlot_inv hq'
    rw [hw.made] at hmade
    exact hno ⟨q, hmade, hw.holds k x _ q hx (Jam.slotObj_holds hx') hmade (.inl rfl), trivial, k', ⟨hk', hP'⟩, hw.holds k' y _ q hy (Jam.outObj_holds hy') hmade (.inr rfl)⟩
  obtain ⟨⟨H, L', hr, hl, hstd⟩, ho, he, hsp, hlow, hpo⟩ := hs
  have hold : ∀ ob, OldIn w.fds ob → Foreign w.nextPipe ob := fun ob h q hq => (h.notPipe hm q hq).symm
  have hif := hold i (hstd.old.1 i rfl)
  have := Jam.jam_run J p hsp (n := 0) (i := i) (o := o) (e := e) (c := w.ctr) (Nat.le_refl _) ho he (fun ob h => hold ob (hstd.old.2.1 ob h))
    (fun ob h => hold ob (hstd.old.2.2 ob h)) (.inl hif) (by intro k x hk; rwa [Nat.zero_add]) (by
      intro m q hm' _ _
      have hno : (refRun cwd p i o e w.ctr).items[m]? = none := List.getElem?_eq_none (by omega)
      refine ⟨fun ⟨y, hy, _⟩ => ?_, fun ⟨y, hy, _⟩ => ?_⟩ <;> rw [hno] at hy <;> cases hy) k (Nat.zero_le _) (by omega) ⟨hk, hPk⟩
  rcases this with ⟨q, hq, hlo, -⟩ | ⟨-, hF, -⟩
  · exact (hif q hlo).2 hq
  · exact hF

theorem outSlot_lt {net : Net} {k j q : Nat} (h : outSlot net k j = some q) : k < net.items.length := by
  obtain ⟨x, hx, -⟩ := Jam.outSlot_inv h
  exact (List.getElem?_eq_some_iff.1 hx).1

theorem not_cut {σ : Type} {prog : Prog σ} {s0 : σ} {r : Nat → Bytes} {e : Nat → Bool} {o : Nat → Bytes} {p : Proc σ} (h : Told prog s0 false r e o p) (hp : ∀ st, p ≠ .running st) :
    ∃ c, p = .exited c := by
  cases p with
  | running st => exact absurd rfl (hp st)
  | exited c => exact ⟨c, rfl⟩
  | killed => exact absurd rfl h.sound.choose_spec.2.2

/-- Two executions agree at each item. -/
theorem agree {sys : Sys} {cwd : Str} {w : World} {rs : Redirects} {p : Pipeline} {i : Obj} {o e : Want} (hs : Startable sys cwd w rs p i o e)
    (hm : w.PipesMade) {items : List Item} {rs' : Redirects} {w' : World} (hrun : runP sys cwd p rs w = (.ok (items, rs'), w'))
    {σ : Type} {prog : Prog σ} {init : Nat → σ} {src : Nat → Nat → Bytes} {cap cap' : Nat → Nat} (hone : OneEach prog (started cwd w p o items rs' w' cap) init)
    {s s' : St σ} {wr rd wr' rd' : Nat → List (Tag × UInt8)} {reads reads' : Nat → Nat → Bytes} {ends ends' : Nat → Nat → Bool}
    (h : Known prog (started cwd w p o items rs' w' cap) init src s wr rd reads ends)
    (h' : Known prog (started cwd w p o items rs' w' cap') init src s' wr' rd' reads' ends') (hc : ∀ k, s.cut k = false) (hc' : ∀ k, s'.cut k = false) :
    ∀ k, k < items.length → Agree s s' k := by
  have hone' : OneEach prog (started cwd w p o items rs' w' cap') init := ⟨hone.writer, hone.reader, hone.shell⟩
  have hT : ∀ k, Told prog (init k) false (reads k) (ends k) (s.out k) (s.proc k) := fun k => by have := h.alone k; rwa [hc k] at this
  have hT' : ∀ k, Told prog (init k) false (reads' k) (ends' k) (s'.out k) (s'.proc k) := fun k => by have := h'.alone k; rwa [hc' k] at this
  refine upstream_induction hs hm hrun cap _ fun k hk ih => ?_
  have hX : ∀ j, ∃ X : Bytes, (reads k j <+: X ∧ (ends k j = true → reads k j = X)) ∧ reads' k j <+: X ∧ (ends' k j = true → reads' k j = X) := by
    intro j
    cases hq : slot (started cwd w p o items rs' w' cap) k j with
    | none =>
      have g : ∀ {s : St σ} {wr rd reads ends} {cap}, Known prog (started cwd w p o items rs' w' cap) init src s wr rd reads ends →
          reads k j <+: src k j ∧ (ends k j = true → reads k j = src k j) := by
        intro s wr rd reads ends cap h
        have h := h.explained
        have h3 := h.elsewhere k j hq
        refine ⟨⟨inHand (started cwd w p o items rs' w' cap) s k j ++ s.src k j, by rw [← List.append_assoc]; exact h3⟩, fun he => ?_⟩
        obtain ⟨a, -, b⟩ := h.ended k j he
        rw [a, b hq] at h3
        simpa using h3
      exact ⟨src k j, g h, g h'⟩
    | some q =>
      have hq' : slot (started cwd w p o items rs' w' cap') k j = some q := hq
      by_cases ht : Takes prog (started cwd w p o items rs' w' cap) init k j
      · have ht' : Takes prog (started cwd w p o items rs' w' cap') init k j := ht
        obtain ⟨a1, a2⟩ := h.input hone hq ht
        obtain ⟨b1, b2⟩ := h'.input hone' hq' ht'
        by_cases hwq : ∃ k' j', outSlot (started cwd w p o items rs' w' cap) k' j' = some q ∧ MayWrite prog (init k') j'
        · obtain ⟨k', j', hw1, hw2⟩ := hwq
          have hw1' : outSlot (started cwd w p o items rs' w' cap') k' j' = some q := hw1
          have hA := ih q j k' j' hq hw1 (outSlot_lt hw1)
          rw [h.only_writer hone hw1 hw2] at a1 a2
          rw [h'.only_writer hone' hw1' hw2] at b1 b2
          have l1 : ends k j = true → s'.out k' j' <+: s.out k' j' := fun he => by
            obtain ⟨c, hc⟩ := not_cut (hT k') ((a2 he).2 k' j' hw1)
            exact hA.left c hc j'
          have l2 : ends' k j = true → s.out k' j' <+: s'.out k' j' := fun he => by
            obtain ⟨c, hc⟩ := not_cut (hT' k') ((b2 he).2 k' j' hw1')
            exact hA.right c hc j'
          rcases hA.one with g | g
          · refine ⟨s'.out k' j', ⟨a1.trans (g j'), fun he => ?_⟩, b1, fun he => (b2 he).1⟩
            rw [(a2 he).1]; exact (g j').eq_of_length_le (l1 he).length_le
          · refine ⟨s.out k' j', ⟨a1, fun he => (a2 he).1⟩, b1.trans (g j'), fun he => ?_⟩
            rw [(b2 he).1]; exact (g j').eq_of_length_le (l2 he).length_le
        · have hno : ∀ k' j', outSlot (started cwd w p o items rs' w' cap) k' j' = some q → ¬ MayWrite prog (init k') j' := fun k' j' x y => hwq ⟨k', j', x, y⟩
          rw [h.no_writer hno] at a1 a2
          rw [h'.no_writer hno] at b1 b2
          exact ⟨[], ⟨a1, fun he => (a2 he).1⟩, b1, fun he => (b2 he).1⟩
      · obtain ⟨_, _, g⟩ := (h.alone k).alone
        obtain ⟨_, _, g'⟩ := (h'.alone k).alone
        obtain ⟨g1, g2⟩ := g.silent (fun hm => ht (.inl hm))
        obtain ⟨g3, g4⟩ := g'.silent (fun hm => ht (.inl hm))
        refine ⟨[], ⟨by rw [g1]; exact List.prefix_rfl, fun _ => g1⟩, by rw [g3]; exact List.prefix_rfl, fun _ => g3⟩
  exact agree_of (hT k) (hT' k) (X := fun j => (hX j).choose) (fun j => (hX j).choose_spec.1.1) (fun j => (hX j).choose_spec.1.2) (fun j => (hX j).choose_spec.2.1)
    (fun j => (hX j).choose_spec.2.2)

theorem agree_got {sys : Sys} {cwd : Str} {w : World} {rs : Redirects} {p : Pipeline} {i : Obj} {o e : Want} (hs : Startable sys cwd w rs p i o e)
    (hm : w.PipesMade) {items : List Item} {rs' : Redirects} {w' : World} (hrun : runP sys cwd p rs w = (.ok (items, rs'), w'))
    {σ : Type} {prog : Prog σ} {init : Nat → σ} {src : Nat → Nat → Bytes} {cap cap' : Nat → Nat} (hone : OneEach prog (started cwd w p o items rs' w' cap) init)
    {s s' : St σ} {wr rd wr' rd' : Nat → List (Tag × UInt8)} {reads reads' : Nat → Nat → Bytes} {ends ends' : Nat → Nat → Bool}
    (h : Known prog (started cwd w p o items rs' w' cap) init src s wr rd reads ends)
    (h' : Known prog (started cwd w p o items rs' w' cap') init src s' wr' rd' reads' ends') (hc : ∀ k, s.cut k = false) (hc' : ∀ k, s'.cut k = false) {q : Nat}
    (hu : (started cwd w p o items rs' w' cap).user = some q) :
    (bytesOf (wr q) <+: bytesOf (wr' q) ∨ bytesOf (wr' q) <+: bytesOf (wr q)) ∧
      ((∀ k, k < items.length → Ended s k) → (∀ k, k < items.length → Ended s' k) → bytesOf (wr q) = bytesOf (wr' q)) := by
  have hone' : OneEach prog (started cwd w p o items rs' w' cap') init := ⟨hone.writer, hone.reader, hone.shell⟩
  by_cases hwq : ∃ k' j', outSlot (started cwd w p o items rs' w' cap) k' j' = some q ∧ MayWrite prog (init k') j'
  · obtain ⟨k', j', hw1, hw2⟩ := hwq
    have hw1' : outSlot (started cwd w p o items rs' w' cap') k' j' = some q := hw1
    have hA := agree hs hm hrun hone h h' hc hc' k' (outSlot_lt hw1)
    rw [h.only_writer hone hw1 hw2, h'.only_writer hone' hw1' hw2]
    refine ⟨hA.one.imp (fun g => g j') (fun g => g j'), fun e1 e2 => ?_⟩
    have x1 := e1 k' (outSlot_lt hw1)
    have x2 := e2 k' (outSlot_lt hw1)
    have hT := h.alone k'; rw [hc] at hT
    have hT' := h'.alone k'; rw [hc'] at hT'
    obtain ⟨c, y1⟩ := not_cut hT (by intro st hst; rcases x1 with ⟨c, x1⟩ | x1 <;> rw [x1] at hst <;> cases hst)
    obtain ⟨c', y2⟩ := not_cut hT' (by intro st hst; rcases x2 with ⟨c, x1⟩ | x1 <;> rw [x1] at hst <;> cases hst)
    exact (hA.right c' y2 j').eq_of_length_le (hA.left c y1 j').length_le
  · have hno : ∀ k' j', outSlot (started cwd w p o items rs' w' cap) k' j' = some q → ¬ MayWrite prog (init k') j' := fun k' j' x y => hwq ⟨k', j', x, y⟩
    rw [h.no_writer hno, h'.no_writer hno]
    exact ⟨.inl List.prefix_rfl, fun _ _ => rfl⟩

/-- Only functions close descriptors of the shell: those that have ended the one they write to, the handlers of those that have found the end of their input the one they read from. -/
def OnlyShut {σ : Type} (net : Net) (s : St σ) : Prop := ∀ n, s.shut n = true → (∃ k, net.outFd k = some n) ∨ ∃ k, net.inFd k = some n ∧ s.heof k = true

theorem onlyShut_step {σ : Type} {prog : Prog σ} {net : Net} {s t : St σ} (h : Step prog net s t) (hi : OnlyShut net s) : OnlyShut net t := by
  have ho : ∀ k n, close s.shut (net.outFd k) n = true → (∃ k, net.outFd k = some n) ∨ ∃ k, net.inFd k = some n ∧ s.heof k = true := by
    intro k n hn
    by_cases he : net.outFd k = some n
    · exact .inl ⟨k, he⟩
    · rw [Flow.close_ne he] at hn; exact hi n hn
  have hh : ∀ k fd n, net.inFd k = some fd → close s.shut (some fd) n = true → (∃ k, net.outFd k = some n) ∨ ∃ k', net.inFd k' = some n ∧ upd s.heof k true k' = true := by
    intro k fd n hfd hn
    by_cases he : some fd = some n
    · cases he; exact .inr ⟨k, hfd, upd_same ..⟩
    · rw [Flow.close_ne he] at hn
      refine (hi n hn).imp id ?_
      rintro ⟨k', h1, h2⟩
      refine ⟨k', h1, ?_⟩
      simp only [upd]; split
      · rfl
      · exact h2
  cases h with
  | hup _ hfd => exact fun n hn => hh _ _ n hfd hn
  | hupExt _ hfd => exact fun n hn => hh _ _ n hfd hn
  | sigpipe => exact fun n hn => ho _ n hn
  | exit => exact fun n hn => ho _ n hn
  | read => exact hi
  | eof => exact hi
  | readExt => exact hi
  | eofExt => exact hi
  | fetch => exact hi
  | fetchExt => exact hi
  | take => exact hi
  | takeEof => exact hi
  | write => exact hi
  | epipe => exact hi
  | writeExt => exact hi
  | user => exact hi

/-- Which pipes the shell and the functions have open. -/
structure Held (net : Net) : Prop where
  own : Own net
  inp : ∀ k k' n, net.inFd k = some n → net.inFd k' = some n → k = k'
  user : ∀ q, net.user = some q → ∃ u en, net.w.fds.get u = some en ∧ en.obj = .pipeR q ∧ ∀ k, net.inFd k ≠ some u ∧ net.outFd k ≠ some u

theorem held_started {sys : Sys} {cwd : Str} {w : World} {rs : Redirects} {p : Pipeline} {i : Obj} {o e : Want} (hs : Startable sys cwd w rs p i o e)
    {items : List Item} {rs' : Redirects} {w' : World} (hrun : runP sys cwd p rs w = (.ok (items, rs'), w')) (cap : Nat → Nat) : Held (started cwd w p o items rs' w' cap) := by
  obtain ⟨items1, rs1, w1, h1, hown⟩ := own_started hs
  rw [hrun] at h1
  simp only [Prod.mk.injEq, Except.ok.injEq] at h1
  obtain ⟨⟨rfl, rfl⟩, rfl⟩ := h1
  obtain ⟨items1, rs1, w1, h1, h2⟩ := C142_own_descriptors sys cwd w rs p i o e hs
  rw [hrun] at h1
  simp only [Prod.mk.injEq, Except.ok.injEq] at h1
  obtain ⟨⟨rfl, rfl⟩, rfl⟩ := h1
  refine ⟨hown cap, fun k k' n h h' => ?_, fun q hq => ?_⟩
  · obtain ⟨id, outFd, rsx, hi⟩ := Jam.inFd_inv h
    obtain ⟨id', outFd', rsx', hi'⟩ := Jam.inFd_inv h'
    exact (h2 _ _ _ _ _ _ _ _ _ _ hi hi').2.2.1 n rfl rfl
  · simp only [started] at hq ⊢
    split at hq
    · next hw =>
      unfold userPipe at hq
      split at hq
      · cases hq
      · next r hr =>
        split at hq
        · next u hu =>
          split at hq
          · next q' hget =>
            cases hq
            cases hen : w'.fds.get u with
            | none => rw [hen] at hget; cases hget
            | some en =>
              rw [hen] at hget
              refine ⟨u, en, hen, by simpa using hget, fun k => ⟨fun h => ?_, fun h => ?_⟩⟩
              · obtain ⟨id, outFd, rsx, hi⟩ := Jam.inFd_inv h
                exact ((h2 _ _ _ _ _ _ _ _ _ _ hi hi).2.2.2 hw r u hr hu).1 rfl
              · obtain ⟨id, inFd, rsx, hi⟩ := Jam.outFd_inv h
                exact ((h2 _ _ _ _ _ _ _ _ _ _ hi hi).2.2.2 hw r u hr hu).2 rfl
          · cases hq
        · cases hq
    · cases hq

/-- If each pipe is read to the end, no write fails. -/
theorem never_cut {σ : Type} {prog : Prog σ} {net : Net} {init : Nat → σ} {src : Nat → Nat → Bytes} (hh : Held net) (hd : Drained prog net init) {L : Nat} {s : St σ}
    (h : Steps prog net L (St.start init src) s) : OnlyShut net s ∧ ∀ k, s.cut k = false := by
  generalize hs0 : St.start init src = s0 at h
  induction h with
  | nil => subst hs0; exact ⟨fun n hn => absurd hn (by simp [St.start]), fun _ => rfl⟩
  | @snoc n s t u hst hstep ih =>
    obtain ⟨ih1, ih2⟩ := ih hs0
    subst hs0
    refine ⟨onlyShut_step hstep ih1, ?_⟩
    obtain ⟨wr, rd, reads, ends, hk⟩ := known_steps hh.own hst
    have fails : ∀ {k j q : Nat} {st st' : σ} {b : UInt8}, t.proc k = .running st → prog.next st = .write j b st' → outSlot net k j = some q → ¬ Open net t (.pipeR q) → False := by
      intro k j q st st' b hr hn hq hno
      have hop := write_open hk.outOpen hr hq
      have hmw : MayWrite prog (init k) j := by
        have := hk.alone k
        rw [hr] at this
        exact ⟨_, _, _, _, _, _, _, this, hn⟩
      rcases hd q k j hq hmw with hu | ⟨k', j', hq', hdr⟩
      · obtain ⟨fd, en, g1, g2, g3⟩ := hh.user q hu
        refine hno (.inr ⟨fd, en, g1, g2, ?_⟩)
        cases hx : t.shut fd with
        | false => rfl
        | true =>
          rcases ih1 fd hx with ⟨k1, h1⟩ | ⟨k1, h1, -⟩
          · exact absurd h1 (g3 k1).2
          · exact absurd h1 (g3 k1).1
      · obtain ⟨x, hx, hx', hm⟩ := Jam.slot_inv hq'
        cases x with
        | proc id argv fds rsx =>
          have hfds : ∃ n, fds n = some (.pipeR q) := by
            cases j' with
            | zero => exact ⟨0, hx'⟩
            | succ j' =>
              simp only [Subst.slotObj] at hx'
              cases hdv : (devFds argv)[j']? with
              | none => rw [hdv] at hx'; cases hx'
              | some m => rw [hdv] at hx'; exact ⟨m, hx'⟩
          obtain ⟨m, hfds⟩ := hfds
          have hnr : ∀ st, t.proc k' ≠ .running st := fun st hr => hno (.inl ⟨k', id, argv, fds, rsx, m, st, hx, hr, hfds⟩)
          have hT := hk.alone k'
          rw [ih2 k'] at hT
          obtain ⟨c, hc⟩ := not_cut hT hnr
          obtain ⟨st1, ha, hex, -⟩ := hT.sound
          rcases hdr with hdr | hdr
          · exact ((hk.ended k' j' (hdr _ _ _ st1 c ha (hex c hc))).2.1 q hq').2 hop
          · cases j' with
            | zero => simp only [handler, Net.inFd, hx] at hdr; cases hdr
            | succ j' => cases hdr
        | func id inFd outFd rsx =>
          cases j' with
          | succ j' => cases hx'
          | zero =>
            cases inFd with
            | none => cases hx'
            | some fd =>
              simp only [Subst.slotObj, Item.stdin, Option.bind_some] at hx'
              have hin : net.inFd k' = some fd := by simp only [Net.inFd, hx]
              cases hen : net.w.fds.get fd with
              | none => rw [hen] at hx'; cases hx'
              | some en =>
                rw [hen] at hx'
                cases hsh : t.shut fd with
                | false => exact hno (.inr ⟨fd, en, hen, by simpa using hx', hsh⟩)
                | true =>
                  rcases ih1 fd hsh with ⟨k1, h1⟩ | ⟨k1, h1, h2⟩
                  · exact hh.own.io k' k1 fd hin h1
                  · obtain rfl := hh.inp k' k1 fd hin h1
                    exact ((hk.hended k' fd hin h2).1 q hq').2 hop
    cases hstep with
    | sigpipe _ h1 h2 h3 h4 => exact (fails h1 h2 h3 h4).elim
    | epipe _ h1 h2 h3 h4 => exact (fails h1 h2 h3 h4).elim
    | hup => exact ih2
    | hupExt => exact ih2
    | exit => exact ih2
    | read => exact ih2
    | eof => exact ih2
    | readExt => exact ih2
    | eofExt => exact ih2
    | fetch => exact ih2
    | fetchExt => exact ih2
    | take => exact ih2
    | takeEof => exact ih2
    | write => exact ih2
    | writeExt => exact ih2
    | user => exact ih2

theorem got_mono {σ : Type} {prog : Prog σ} {net : Net} {L : Nat} {s t : St σ} (h : Steps prog net L s t) : s.got <+: t.got := by
  induction h with
  | nil => exact List.prefix_rfl
  | snoc _ hst ih =>
    cases hst with
    | user => exact ih.trans (List.prefix_append _ _)
    | _ => exact ih

theorem got_nil {σ : Type} {prog : Prog σ} {net : Net} {init : Nat → σ} {src : Nat → Nat → Bytes} {L : Nat} {s : St σ} (h : Steps prog net L (St.start init src) s) (hu : net.user = none) :
    s.got = [] := by
  generalize hs0 : St.start init src = s0 at h
  induction h with
  | nil => subst hs0; rfl
  | snoc _ hst ih =>
    have ih := ih hs0
    cases hst with
    | user h1 => rw [hu] at h1; cases h1
    | _ => exact ih

/-- **C147.** Take two executions of the same pipeline, of any shape, with the same input, and any schedules and capacities of the pipes, in which each pipe has one item that writes to it and
one reader at most, and in which no write has failed so far. Then what an item has written in one of them is, at each of its outputs, a beginning of what it has written in the other,
and that is the same one for all its outputs; an item that has ended in one of them has written no more in the other, and if it has ended in both, it has written the same, and has ended with the
same status; and what the shell has read in one of them is a beginning of what it has read in the other. -/
theorem C147_same_streams (sys : Sys) (cwd : Str) (w : World) (rs : Redirects) (p : Pipeline) (i : Obj) (o e : Want) (hs : Startable sys cwd w rs p i o e) (hm : w.PipesMade) :
    ∃ items rs' w', runP sys cwd p rs w = (.ok (items, rs'), w') ∧
      ∀ {σ : Type} (prog : Prog σ) (init : Nat → σ) (src : Nat → Nat → Bytes) (cap cap' : Nat → Nat) (L L' : Nat) (s s' : St σ),
        OneEach prog (started cwd w p o items rs' w' cap) init →
        Steps prog (started cwd w p o items rs' w' cap) L (St.start init src) s → Steps prog (started cwd w p o items rs' w' cap') L' (St.start init src) s' →
        (∀ k, s.cut k = false) → (∀ k, s'.cut k = false) →
          (∀ k, k < items.length →
            ((∀ j, s.out k j <+: s'.out k j) ∨ ∀ j, s'.out k j <+: s.out k j) ∧ (∀ c, s.proc k = .exited c → ∀ j, s'.out k j <+: s.out k j) ∧
            ∀ c c', s.proc k = .exited c → s'.proc k = .exited c' → c = c' ∧ ∀ j, s.out k j = s'.out k j) ∧
          (s.got <+: s'.got ∨ s'.got <+: s.got) := by
  obtain ⟨items, rs', w', hrun, hown⟩ := own_started hs
  refine ⟨items, rs', w', hrun, ?_⟩
  intro σ prog init src cap cap' L L' s s' hone hst hst' hc hc'
  obtain ⟨wr, rd, reads, ends, h⟩ := known_steps (hown cap) hst
  obtain ⟨wr', rd', reads', ends', h'⟩ := known_steps (hown cap') hst'
  refine ⟨fun k hk => ?_, ?_⟩
  · have hA := agree hs hm hrun hone h h' hc hc' k hk
    exact ⟨hA.one, hA.left, fun c c' h1 h2 => ⟨hA.code c c' h1 h2, fun j => (hA.right c' h2 j).eq_of_length_le (hA.left c h1 j).length_le⟩⟩
  · cases hu : (started cwd w p o items rs' w' cap).user with
    | none => 
      have g := got_nil hst hu
      have g' := got_nil hst' (show (started cwd w p o items rs' w' cap').user = none from hu)
      rw [g, g']; exact .inl List.prefix_rfl
    | some q =>
      have hu' : (started cwd w p o items rs' w' cap').user = some q := hu
      have hone' : OneEach prog (started cwd w p o items rs' w' cap') init := ⟨hone.writer, hone.reader, hone.shell⟩
      have f := h.flow q
      have f' := h'.flow q
      rw [h.only_shell hone hu] at f
      rw [h'.only_shell hone' hu'] at f'
      rcases (agree_got hs hm hrun hone h h' hc hc' hu).1 with g | g
      · exact List.prefix_or_prefix_of_prefix (List.IsPrefix.trans ⟨_, f⟩ g) ⟨_, f'⟩
      · exact List.prefix_or_prefix_of_prefix ⟨_, f⟩ (List.IsPrefix.trans ⟨_, f'⟩ g)

/-- **C147.** When all items have ended in both, and the shell has read what there is, all the results are the same. -/
theorem C147_same_result (sys : Sys) (cwd : Str) (w : World) (rs : Redirects) (p : Pipeline) (i : Obj) (o e : Want) (hs : Startable sys cwd w rs p i o e) (hm : w.PipesMade) :
    ∃ items rs' w', runP sys cwd p rs w = (.ok (items, rs'), w') ∧
      ∀ {σ : Type} (prog : Prog σ) (init : Nat → σ) (src : Nat → Nat → Bytes) (cap cap' : Nat → Nat) (L L' : Nat) (s s' : St σ),
        OneEach prog (started cwd w p o items rs' w' cap) init → Drained prog (started cwd w p o items rs' w' cap) init →
        Steps prog (started cwd w p o items rs' w' cap) L (St.start init src) s → Steps prog (started cwd w p o items rs' w' cap') L' (St.start init src) s' →
        (∀ t, ¬ Step prog (started cwd w p o items rs' w' cap) s t) → (∀ t, ¬ Step prog (started cwd w p o items rs' w' cap') s' t) →
        (∀ k, k < items.length → Ended s k) → (∀ k, k < items.length → Ended s' k) →
          (∀ k, k < items.length → (∃ c, s.proc k = .exited c ∧ s'.proc k = .exited c) ∧ ∀ j, s.out k j = s'.out k j) ∧ s.got = s'.got := by
  obtain ⟨items, rs', w', hrun, hsame⟩ := C147_same_streams sys cwd w rs p i o e hs hm
  refine ⟨items, rs', w', hrun, ?_⟩
  intro σ prog init src cap cap' L L' s s' hone hdr hst hst' hn hn' he he'
  have hh := held_started hs hrun cap
  have hh' := held_started hs hrun cap'
  have hc := (never_cut hh hdr hst).2
  have hc' := (never_cut hh' hdr hst').2
  obtain ⟨wr, rd, reads, ends, h⟩ := known_steps hh.own hst
  obtain ⟨wr', rd', reads', ends', h'⟩ := known_steps hh'.own hst'
  refine ⟨fun k hk => ?_, ?_⟩
  · have hT := h.alone k; rw [hc] at hT
    have hT' := h'.alone k; rw [hc'] at hT'
    obtain ⟨c, y1⟩ := not_cut hT (by intro st hst; rcases he k hk with ⟨c, x1⟩ | x1 <;> rw [x1] at hst <;> cases hst)
    obtain ⟨c', y2⟩ := not_cut hT' (by intro st hst; rcases he' k hk with ⟨c, x1⟩ | x1 <;> rw [x1] at hst <;> cases hst)
    obtain ⟨rfl, h2⟩ := ((hsame prog init src cap cap' L L' s s' hone hst hst' hc hc').1 k hk).2.2 c c' y1 y2
    exact ⟨⟨c, y1, y2⟩, h2⟩
  · cases hu : (started cwd w p o items rs' w' cap).user with
    | none =>
      rw [got_nil hst hu, got_nil hst' (show (started cwd w p o items rs' w' cap').user = none from hu)]
    | some q =>
      have hu' : (started cwd w p o items rs' w' cap').user = some q := hu
      have hone' : OneEach prog (started cwd w p o items rs' w' cap') init := ⟨hone.writer, hone.reader, hone.shell⟩
      have f := h.flow q
      have f' := h'.flow q
      rw [h.only_shell hone hu, (C144_stuck prog _ s hn).2 q hu, List.append_nil] at f
      rw [h'.only_shell hone' hu', (C144_stuck prog _ s' hn').2 q hu', List.append_nil] at f'
      rw [f, f']
      exact (agree_got hs hm hrun hone h h' hc hc' hu).2 he he'

/-- At an end without failed writes, everything is as with files. -/
theorem with_files {σ : Type} {prog : Prog σ} {net : Net} {init : Nat → σ} {src : Nat → Nat → Bytes} {s : St σ} {wr rd : Nat → List (Tag × UInt8)} {reads : Nat → Nat → Bytes}
    {ends : Nat → Nat → Bool} (h : Known prog net init src s wr rd reads ends) (hone : OneEach prog net init) (hc : ∀ k, s.cut k = false) {code : Nat → Nat}
    (he : ∀ k, k < net.items.length → s.proc k = .exited (code k)) : WithFiles prog net init src s.out code := by
  intro k hk
  have hX : ∀ j, ∃ X : Bytes, reads k j <+: X ∧ (ends k j = true → reads k j = X) ∧ (MayRead prog (init k) j → FileInput prog net init src s.out k j X) := by
    intro j
    by_cases hmr : MayRead prog (init k) j
    · cases hq : slot net k j with
      | none =>
        have h := h.explained
        have h3 := h.elsewhere k j hq
        refine ⟨src k j, ⟨inHand net s k j ++ s.src k j, by rw [← List.append_assoc]; exact h3⟩, fun he => ?_, fun _ => ⟨fun _ => rfl, fun q hq' => absurd (hq.symm.trans hq') (by simp)⟩⟩
        obtain ⟨a, -, b⟩ := h.ended k j he
        rw [a, b hq] at h3
        simpa using h3
      | some q =>
        obtain ⟨a1, a2⟩ := h.input hone hq (.inl hmr)
        refine ⟨bytesOf (wr q), a1, fun he => (a2 he).1, fun _ => ⟨fun hq' => absurd (hq.symm.trans hq') (by simp), fun q' hq' => ?_⟩⟩
        rw [hq] at hq'; cases hq'
        refine ⟨fun k' j' g1 g2 => h.only_writer hone g1 g2, fun hno => ?_⟩
        rw [h.no_writer hno]; rfl
    · obtain ⟨_, _, g⟩ := (h.alone k).alone
      refine ⟨reads k j, List.prefix_rfl, fun _ => rfl, fun hm => absurd hm hmr⟩
  have hrest : ∀ j, ∃ rest, reads k j ++ rest = (hX j).choose := fun j => (hX j).choose_spec.1
  refine ⟨fun j => (hX j).choose, ?_, fun j hm => (hX j).choose_spec.2.2 hm⟩
  have := C143_item_result h.explained k (code k) (he k hk) (hc k) (fun j => (hrest j).choose) (by
    intro j hj
    have h1 := (hrest j).choose_spec
    have h2 := (hX j).choose_spec.2.1 hj
    exact List.append_cancel_left ((h1.trans h2.symm).trans (List.append_nil _).symm))
  have e1 : (fun j => reads k j ++ (hrest j).choose) = fun j => (hX j).choose := by funext j; exact (hrest j).choose_spec
  rwa [e1] at this

theorem shell_file {σ : Type} {prog : Prog σ} {net : Net} {init : Nat → σ} {src : Nat → Nat → Bytes} {L : Nat} {s : St σ} (hst : Steps prog net L (St.start init src) s)
    {wr rd : Nat → List (Tag × UInt8)} {reads : Nat → Nat → Bytes}
    {ends : Nat → Nat → Bool} (h : Known prog net init src s wr rd reads ends) (hone : OneEach prog net init) (hb : ∀ q, net.user = some q → s.buf q = []) : ShellFile prog net init s.out s.got := by
  refine ⟨fun hu => got_nil hst hu, fun q hu => ?_⟩
  have f := h.flow q
  rw [h.only_shell hone hu, hb q hu, List.append_nil] at f
  refine ⟨fun k' j' g1 g2 => by rw [f]; exact h.only_writer hone g1 g2, fun hno => ?_⟩
  rw [f, h.no_writer hno]; rfl

/-- **C147.** A pipeline of any shape in which each pipe has one item that writes to it and one reader at most, and is read to its end, whose items end if their inputs do, and which leaves no pipe behind,
has one result: what each item writes and the status that it ends with, and what the shell reads. It is the one of running the items one after the other, with files in the place of
pipes. Whatever the capacities of the pipes and the schedule, there is a limit to the length of its executions, no write fails, and each execution, as far as it may have come, can be
continued to an end, where this is the result. -/
theorem C147_one_result (sys : Sys) (cwd : Str) (w : World) (rs : Redirects) (p : Pipeline) (i : Obj) (o e : Want) (hs : Startable sys cwd w rs p i o e) (hT : Tidy cwd p o) (hm : w.PipesMade) :
    ∃ items rs' w', runP sys cwd p rs w = (.ok (items, rs'), w') ∧
      ∀ {σ : Type} (prog : Prog σ) (init : Nat → σ) (src : Nat → Nat → Bytes), (∀ k, k < items.length → Terminates prog (init k)) →
        OneEach prog (started cwd w p o items rs' w' fun _ => 1) init → Drained prog (started cwd w p o items rs' w' fun _ => 1) init →
        (∀ k id fd outFd rsx, items[k]? = some (Item.func id (some fd) outFd rsx) → Drains prog (init k) 0) →
          ∃ outs code got, WithFiles prog (started cwd w p o items rs' w' fun _ => 1) init src outs code ∧ ShellFile prog (started cwd w p o items rs' w' fun _ => 1) init outs got ∧
            ∀ cap, (∀ q, 0 < cap q) → ∃ N, ∀ L s, Steps prog (started cwd w p o items rs' w' cap) L (St.start init src) s → L ≤ N ∧ (∀ k, s.cut k = false) ∧
              (∀ k j, k < items.length → s.out k j <+: outs k j) ∧ s.got <+: got ∧
              ((∀ t, ¬ Step prog (started cwd w p o items rs' w' cap) s t) → (∀ k, k < items.length → s.proc k = .exited (code k) ∧ s.out k = outs k) ∧ s.got = got) ∧
              ∃ M t, Steps prog (started cwd w p o items rs' w' cap) M s t ∧ (∀ u, ¬ Step prog (started cwd w p o items rs' w' cap) t u) := by
  obtain ⟨items, rs', w', hrun, hends⟩ := C146_ends sys cwd w rs p i o e hs hm
  obtain ⟨items1, rs1, w1, hr1, hres⟩ := C147_same_result sys cwd w rs p i o e hs hm
  rw [hrun] at hr1
  simp only [Prod.mk.injEq, Except.ok.injEq] at hr1
  obtain ⟨⟨rfl, rfl⟩, rfl⟩ := hr1
  obtain ⟨items1, rs1, w1, hr1, hstr⟩ := C147_same_streams sys cwd w rs p i o e hs hm
  rw [hrun] at hr1
  simp only [Prod.mk.injEq, Except.ok.injEq] at hr1
  obtain ⟨⟨rfl, rfl⟩, rfl⟩ := hr1
  obtain ⟨items1, rs1, w1, hr1, htidy⟩ := C145_tidy sys cwd w rs p i o e hs hT hm
  rw [hrun] at hr1
  simp only [Prod.mk.injEq, Except.ok.injEq] at hr1
  obtain ⟨⟨rfl, rfl⟩, rfl⟩ := hr1
  refine ⟨items, rs', w', hrun, ?_⟩
  intro σ prog init src hterm hone hdr hfun
  have hone' : ∀ cap, OneEach prog (started cwd w p o items rs' w' cap) init := fun cap => ⟨hone.writer, hone.reader, hone.shell⟩
  have hdr' : ∀ cap, Drained prog (started cwd w p o items rs' w' cap) init := fun cap => hdr
  -- where an execution stops, everything has ended
  have hstop : ∀ cap, (∀ q, 0 < cap q) → ∀ L s, Steps prog (started cwd w p o items rs' w' cap) L (St.start init src) s → (∀ t, ¬ Step prog (started cwd w p o items rs' w' cap) s t) →
      ∀ k, k < items.length → Ended s k := by
    intro cap hcap L s hst hn
    rcases htidy prog init src cap L s hcap hst hn with h | ⟨k, hk, h1, h2, h3, -⟩
    · exact h.1
    · exfalso
      have hh := held_started hs hrun cap
      obtain ⟨wr, rd, reads, ends, h⟩ := known_steps hh.own hst
      have hTk := h.alone k
      rw [(never_cut hh (hdr' cap) hst).2 k] at hTk
      obtain ⟨c, hc⟩ := not_cut hTk (by intro st hst; rcases h1 with ⟨c, x1⟩ | x1 <;> rw [x1] at hst <;> cases hst)
      cases hf : (started cwd w p o items rs' w' cap).inFd k with
      | none => rw [hf] at h2; cases h2
      | some fd =>
        obtain ⟨id, outFd, rsx, hi⟩ := Jam.inFd_inv hf
        obtain ⟨st, ha, hx, -⟩ := hTk.sound
        have := ((h.ended k 0 (hfun k id fd outFd rsx hi _ _ _ st c ha (hx c hc))).1 fd hf).1
        rw [h3] at this; cases this
  obtain ⟨N1, hN1⟩ := hends prog init src (fun _ => 1) hterm (fun _ => Nat.one_pos)
  obtain ⟨-, M0, t0, ht0, hn0, -⟩ := hN1 0 _ .nil
  have hh0 := held_started hs hrun fun _ => 1
  have hc0 := (never_cut hh0 hdr ht0).2
  obtain ⟨wr0, rd0, reads0, ends0, hk0⟩ := known_steps hh0.own ht0
  have he0 := hstop _ (fun _ => Nat.one_pos) _ _ ht0 hn0
  have hcode : ∀ k, ∃ c, k < items.length → t0.proc k = .exited c := by
    intro k
    by_cases hk : k < items.length
    · have hTk := hk0.alone k; rw [hc0] at hTk
      obtain ⟨c, hc⟩ := not_cut hTk (by intro st hst; rcases he0 k hk with ⟨c, x1⟩ | x1 <;> rw [x1] at hst <;> cases hst)
      exact ⟨c, fun _ => hc⟩
    · exact ⟨0, fun h => absurd h hk⟩
  refine ⟨t0.out, fun k => (hcode k).choose, t0.got, with_files hk0 hone hc0 (fun k hk => (hcode k).choose_spec hk), shell_file ht0 hk0 hone (C144_stuck prog _ t0 hn0).2, ?_⟩
  intro cap hcap
  obtain ⟨N, hN⟩ := hends prog init src cap hterm hcap
  refine ⟨N, fun L s hst => ?_⟩
  have hh := held_started hs hrun cap
  have hc := (never_cut hh (hdr' cap) hst).2
  obtain ⟨hL, M, t, h1, h2, -⟩ := hN L s hst
  obtain ⟨g1, g2⟩ := hstr prog init src _ cap M0 L t0 s hone ht0 hst hc0 hc
  have fin : ∀ L s, Steps prog (started cwd w p o items rs' w' cap) L (St.start init src) s → (∀ t, ¬ Step prog (started cwd w p o items rs' w' cap) s t) →
      (∀ k, k < items.length → s.proc k = .exited (hcode k).choose ∧ s.out k = t0.out k) ∧ s.got = t0.got := by
    intro L s hst hn
    obtain ⟨r1, r2⟩ := hres prog init src _ cap M0 L t0 s hone hdr ht0 hst hn0 hn he0 (hstop cap hcap L s hst hn)
    refine ⟨fun k hk => ?_, r2.symm⟩
    obtain ⟨⟨c, x1, x2⟩, x3⟩ := r1 k hk
    exact ⟨x2.trans (x1.symm.trans ((hcode k).choose_spec hk)), (funext x3).symm⟩
  refine ⟨hL, hc, fun k j hk => (g1 k hk).2.1 _ ((hcode k).choose_spec hk) j, ?_, fin L s hst, M, t, h1, h2⟩
  rw [← (fin _ t (steps_trans hst h1) h2).2]
  exact got_mono h1

theorem runs_same {σ : Type} {prog : Prog σ} {s0 s : σ} {inp o : Nat → Bytes} {c : Nat} (h : Runs prog s inp o c) {x : Bool} {r : Nat → Bytes} {e : Nat → Bool} {o0 : Nat → Bytes}
    (ha : Alone prog s0 x r e o0 s) {inp' o' : Nat → Bytes} {c' : Nat} (h' : Runs prog s inp' o' c') (hi : ∀ j, MayRead prog s0 j → inp j = inp' j)
    (he : ∀ j, e j = true → inp j = []) : o = o' ∧ c = c' := by
  induction h generalizing x r e o0 inp' o' c' with
  | exit hn =>
    cases h' with
    | exit hn' => rw [hn] at hn'; cases hn'; exact ⟨rfl, rfl⟩
    | write hn' => rw [hn] at hn'; cases hn'
    | read hn' => rw [hn] at hn'; cases hn'
    | eof hn' => rw [hn] at hn'; cases hn'
  | write hn _ ih =>
    cases h' with
    | exit hn' => rw [hn] at hn'; cases hn'
    | write hn' hr =>
      rw [hn] at hn'; cases hn'
      obtain ⟨rfl, rfl⟩ := ih (.write ha hn) hr hi he
      exact ⟨rfl, rfl⟩
    | read hn' => rw [hn] at hn'; cases hn'
    | eof hn' => rw [hn] at hn'; cases hn'
  | @read s j f inp outs rest b c hn hb _ ih =>
    have hj := hi j ⟨_, _, _, _, _, _, ha, hn⟩
    cases h' with
    | exit hn' => rw [hn] at hn'; cases hn'
    | write hn' => rw [hn] at hn'; cases hn'
    | read hn' hb' hr =>
      rw [hn] at hn'; cases hn'
      rw [← hj, hb] at hb'; cases hb'
      have hej : e j = false := by
        cases hx : e j with
        | false => rfl
        | true => rw [he j hx] at hb; cases hb
      refine ih (.read b ha hn hej) hr (fun j' hm => ?_) (fun j' hm => ?_)
      · by_cases hjj : j' = j
        · subst hjj; rw [upd_same, upd_same]
        · rw [upd_ne _ _ hjj, upd_ne _ _ hjj]; exact hi j' hm
      · have hjj : j' ≠ j := by rintro rfl; rw [hej] at hm; cases hm
        rw [upd_ne _ _ hjj]; exact he j' hm
    | eof hn' hb' => rw [hn] at hn'; cases hn'; rw [← hj, hb] at hb'; cases hb'
  | @eof s j f inp outs c hn hb _ ih =>
    have hj := hi j ⟨_, _, _, _, _, _, ha, hn⟩
    cases h' with
    | exit hn' => rw [hn] at hn'; cases hn'
    | write hn' => rw [hn] at hn'; cases hn'
    | read hn' hb' => rw [hn] at hn'; cases hn'; rw [← hj, hb] at hb'; cases hb'
    | eof hn' hb' hr =>
      rw [hn] at hn'; cases hn'
      refine ih (.eof ha hn) hr hi (fun j' hm => ?_)
      by_cases hjj : j' = j
      · subst hjj; exact hb
      · rw [upd_ne _ _ hjj] at hm; exact he j' hm

/-- **C147.** Running the items one after the other, with files in the place of pipes, has only one result. -/
theorem C147_files_one (sys : Sys) (cwd : Str) (w : World) (rs : Redirects) (p : Pipeline) (i : Obj) (o e : Want) (hs : Startable sys cwd w rs p i o e) (hm : w.PipesMade) :
    ∃ items rs' w', runP sys cwd p rs w = (.ok (items, rs'), w') ∧
      ∀ {σ : Type} (prog : Prog σ) (init : Nat → σ) (src outs outs' : Nat → Nat → Bytes) (code code' cap : Nat → Nat),
        WithFiles prog (started cwd w p o items rs' w' cap) init src outs code → WithFiles prog (started cwd w p o items rs' w' cap) init src outs' code' →
          ∀ k, k < items.length → outs k = outs' k ∧ code k = code' k := by
  obtain ⟨items, rs', w', hrun, -⟩ := own_started hs
  refine ⟨items, rs', w', hrun, ?_⟩
  intro σ prog init src outs outs' code code' cap h h'
  refine upstream_induction hs hm hrun cap _ fun k hk ih => ?_
  obtain ⟨inp, h1, h2⟩ := h k hk
  obtain ⟨inp', h1', h2'⟩ := h' k hk
  refine runs_same h1 .start h1' (fun j hj => ?_) (fun j hj => by cases hj)
  obtain ⟨a1, a2⟩ := h2 j hj
  obtain ⟨b1, b2⟩ := h2' j hj
  cases hq : slot (started cwd w p o items rs' w' cap) k j with
  | none => rw [a1 hq, b1 hq]
  | some q =>
    by_cases hwq : ∃ k' j', outSlot (started cwd w p o items rs' w' cap) k' j' = some q ∧ MayWrite prog (init k') j'
    · obtain ⟨k', j', hw1, hw2⟩ := hwq
      rw [(a2 q hq).1 k' j' hw1 hw2, (b2 q hq).1 k' j' hw1 hw2, (ih q j k' j' hq hw1 (outSlot_lt hw1)).1]
    · have hno : ∀ k' j', outSlot (started cwd w p o items rs' w' cap) k' j' = some q → ¬ MayWrite prog (init k') j' := fun k' j' x y => hwq ⟨k', j', x, y⟩
      rw [(a2 q hq).2 hno, (b2 q hq).2 hno]

/-- **C147.** ... no write fails in such a pipeline if each pipe is read to its end. -/
theorem C147_no_failure (sys : Sys) (cwd : Str) (w : World) (rs : Redirects) (p : Pipeline) (i : Obj) (o e : Want) (hs : Startable sys cwd w rs p i o e) :
    ∃ items rs' w', runP sys cwd p rs w = (.ok (items, rs'), w') ∧
      ∀ {σ : Type} (prog : Prog σ) (init : Nat → σ) (src : Nat → Nat → Bytes) (cap : Nat → Nat) (L : Nat) (s : St σ), Drained prog (started cwd w p o items rs' w' cap) init →
        Steps prog (started cwd w p o items rs' w' cap) L (St.start init src) s → ∀ k, s.cut k = false ∧ s.proc k ≠ .killed := by
  obtain ⟨items, rs', w', hrun, -⟩ := own_started hs
  refine ⟨items, rs', w', hrun, ?_⟩
  intro σ prog init src cap L s hdr hst k
  have hh := held_started hs hrun cap
  have hc := (never_cut hh hdr hst).2
  obtain ⟨wr, rd, reads, ends, h⟩ := known_steps hh.own hst
  have hT := h.alone k; rw [hc] at hT
  exact ⟨hc k, hT.sound.choose_spec.2.2⟩

namespace JamEx
/-- copies one of its inputs: reads (`none`), writes the byte that it has read, ends (`some none`) -/
def pick : Prog (Nat × Option (Option UInt8)) :=
  ⟨fun s => match s with | (j, none) => .read j fun x => (j, some x) | (_, some none) => .exit 0 | (j, some (some b)) => .write 0 b (j, none), fun _ => none⟩

theorem pick_alone {n : Nat} {x : Bool} {r : Nat → Bytes} {e : Nat → Bool} {o : Nat → Bytes} {st : Nat × Option (Option UInt8)} (h : Alone pick (n, none) x r e o st) :
    st.1 = n ∧ (st.2 = some none → e n = true) := by
  induction h with
  | start => exact ⟨rfl, by simp⟩
  | @read x r e o st j f b _ ho _ ih =>
    match st, ho, ih with
    | (_, none), ho, ih => cases ho; exact ⟨ih.1, by simp⟩
    | (_, some none), ho, _ => cases ho
    | (_, some (some _)), ho, _ => cases ho
  | @eof x r e o st j f _ ho ih =>
    match st, ho, ih with
    | (_, none), ho, ih => cases ho; refine ⟨ih.1, fun _ => ?_⟩; rw [← ih.1]; exact upd_same ..
    | (_, some none), ho, _ => cases ho
    | (_, some (some _)), ho, _ => cases ho
  | @write x r e o st st' j b _ ho ih =>
    match st, ho, ih with
    | (_, none), ho, _ => cases ho
    | (_, some none), ho, _ => cases ho
    | (_, some (some _)), ho, ih => cases ho; exact ⟨ih.1, by simp⟩
  | fail _ _ he => cases he

theorem pick_read {n j : Nat} (h : MayRead pick (n, none) j) : j = n := by
  obtain ⟨x, r, e, o, st, f, ha, ho⟩ := h
  have := (pick_alone ha).1
  match st, ho with
  | (_, none), ho => cases ho; exact this
  | (_, some none), ho => cases ho
  | (_, some (some _)), ho => cases ho

theorem pick_write {n j : Nat} (h : MayWrite pick (n, none) j) : j = 0 := by
  obtain ⟨x, r, e, o, st, b, st', -, ho⟩ := h
  match st, ho with
  | (_, none), ho => cases ho
  | (_, some none), ho => cases ho
  | (_, some (some _)), ho => cases ho; rfl

theorem pick_drains (n : Nat) : Drains pick (n, none) n := by
  intro r e o st c h ho
  match st, ho, pick_alone h with
  | (_, none), ho, _ => cases ho
  | (_, some none), _, h => exact h.2 rfl
  | (_, some (some _)), ho, _ => cases ho

theorem pick_count {m n : Nat} {cnt : Nat → Nat} {st : Nat × Option (Option UInt8)} (h : Works pick (m, none) n cnt st) :
    st.1 = m ∧ match st.2 with | none => n ≤ 2 * cnt m | some none => n ≤ 2 * cnt m + 1 | some (some _) => n + 1 ≤ 2 * cnt m := by
  induction h with
  | start => simp
  | @byte n cnt st j f b _ ho ih =>
    match st, ho, ih with
    | (_, none), ho, ih =>
      obtain ⟨rfl, ih⟩ := ih
      cases ho; simp only [upd_same, true_and] at ih ⊢; omega
    | (_, some none), ho, _ => cases ho
    | (_, some (some _)), ho, _ => cases ho
  | @eof n cnt st j f _ ho ih =>
    match st, ho, ih with
    | (_, none), ho, ih =>
      obtain ⟨rfl, ih⟩ := ih
      cases ho; simp only [true_and] at ih ⊢; omega
    | (_, some none), ho, _ => cases ho
    | (_, some (some _)), ho, _ => cases ho
  | @write n cnt st st' j b _ ho ih =>
    match st, ho, ih with
    | (_, none), ho, _ => cases ho
    | (_, some none), ho, _ => cases ho
    | (_, some (some _)), ho, ih =>
      obtain ⟨rfl, ih⟩ := ih
      cases ho; simp only [true_and] at ih ⊢; omega
  | fail _ _ he _ => cases he

theorem pick_terminates (m : Nat) : Terminates pick (m, none) := by
  intro lim
  refine ⟨2 * lim m + 1, fun n cnt st h hl => ?_⟩
  have h1 := (pick_count h).2
  have h2 := hl m
  match st with
  | (_, none) => simp only at h1; omega
  | (_, some none) => simp only at h1; omega
  | (_, some (some _)) => simp only at h1; omega

/-- `tool <(ls | sort) | tail` (items: `ls`, `sort`, `tool`, `tail`): `tool` reads from the file given as argument, the others from stdin. -/
def inits (k : Nat) : Nat × Option (Option UInt8) := (if k = 2 then 1 else 0, none)

/-- what is started -/
@[irreducible] def net : Net := match runP RunEx.sys [] plain RunEx.iterRs RunEx.world with
  | (.ok (items, rs'), w') => started [] RunEx.world plain .pipeOut items rs' w' fun _ => 1
  | _ => ⟨[], RunEx.world, 0, fun _ => 1, none⟩

theorem wiring : net.items.length = 4 ∧ net.user = some 3 ∧ ∀ k, k < 4 →
    slot net k 0 = [none, some 1, none, some 0][k]?.join ∧ slot net k 1 = [none, none, some 2, none][k]?.join ∧
    outSlot net k 0 = [some 1, some 2, some 0, some 3][k]?.join ∧ net.inFd k = none := by
  decide +kernel

theorem slot_lt {k j q : Nat} (h : slot net k j = some q) : k < 4 := by
  obtain ⟨x, hx, -⟩ := Jam.slot_inv h
  have := (List.getElem?_eq_some_iff.1 hx).1
  rwa [wiring.1] at this

theorem outSlot_lt' {k j q : Nat} (h : outSlot net k j = some q) : k < 4 := by
  have := outSlot_lt h
  rwa [wiring.1] at this

/-- who reads from a pipe: `sort`, `tool` and `tail`, each at the input that it reads from -/
theorem takes {k j q : Nat} (h : slot net k j = some q) (ht : Takes pick net inits k j) : (k = 1 ∧ j = 0 ∧ q = 1) ∨ (k = 2 ∧ j = 1 ∧ q = 2) ∨ (k = 3 ∧ j = 0 ∧ q = 0) := by
  have hk := slot_lt h
  have hw := wiring.2.2
  have hj : j = if k = 2 then 1 else 0 := by
    rcases ht with ht | ht
    · exact pick_read ht
    · cases j with
      | zero => simp only [handler, (hw k hk).2.2.2] at ht; cases ht
      | succ j => cases ht
  match k, hk with
  | 0, _ => subst hj; rw [if_neg (by omega), (hw 0 (by omega)).1] at h; cases h
  | 1, _ => subst hj; rw [if_neg (by omega), (hw 1 (by omega)).1] at h; cases h; exact .inl ⟨rfl, rfl, rfl⟩
  | 2, _ => subst hj; rw [if_pos rfl, (hw 2 (by omega)).2.1] at h; cases h; exact .inr (.inl ⟨rfl, rfl, rfl⟩)
  | 3, _ => subst hj; rw [if_neg (by omega), (hw 3 (by omega)).1] at h; cases h; exact .inr (.inr ⟨rfl, rfl, rfl⟩)

theorem puts {k j q : Nat} (h : outSlot net k j = some q) (ht : MayWrite pick (inits k) j) : j = 0 ∧ ((k = 0 ∧ q = 1) ∨ (k = 1 ∧ q = 2) ∨ (k = 2 ∧ q = 0) ∨ (k = 3 ∧ q = 3)) := by
  have hk := outSlot_lt' h
  have hw := wiring.2.2
  obtain rfl : j = 0 := pick_write ht
  refine ⟨rfl, ?_⟩
  match k, hk with
  | 0, _ => rw [(hw 0 (by omega)).2.2.1] at h; cases h; simp
  | 1, _ => rw [(hw 1 (by omega)).2.2.1] at h; cases h; simp
  | 2, _ => rw [(hw 2 (by omega)).2.2.1] at h; cases h; simp
  | 3, _ => rw [(hw 3 (by omega)).2.2.1] at h; cases h; simp

theorem oneEach : OneEach pick net inits where
  writer := by
    intro q k j k' j' h1 h2 h3 h4
    have := puts h1 h2
    have := puts h3 h4
    omega
  reader := by
    intro q k j k' j' h1 h2 h3 h4
    have := takes h1 h2
    have := takes h3 h4
    omega
  shell := by
    intro q k j hu h1 h2
    rw [wiring.2.1] at hu; cases hu
    have := takes h1 h2
    omega

theorem drained : Drained pick net inits := by
  intro q k j h1 h2
  have hw := wiring.2.2
  obtain ⟨-, ⟨-, rfl⟩ | ⟨-, rfl⟩ | ⟨-, rfl⟩ | ⟨-, rfl⟩⟩ := puts h1 h2
  · exact .inr ⟨1, 0, (hw 1 (by omega)).1, .inl (pick_drains 0)⟩
  · exact .inr ⟨2, 1, (hw 2 (by omega)).2.1, .inl (pick_drains 1)⟩
  · exact .inr ⟨3, 0, (hw 3 (by omega)).1, .inl (pick_drains 0)⟩
  · exact .inl wiring.2.1
end JamEx

/-- `tool <(ls | sort) | tail`, all of them copying, has one result, whatever they read. -/
example (src : Nat → Nat → Bytes) : ∃ items rs' w', runP RunEx.sys [] JamEx.plain RunEx.iterRs RunEx.world = (.ok (items, rs'), w') ∧
    ∃ outs code got, WithFiles JamEx.pick JamEx.net JamEx.inits src outs code ∧ ShellFile JamEx.pick JamEx.net JamEx.inits outs got ∧
      ∀ L s, Steps JamEx.pick (started [] RunEx.world JamEx.plain .pipeOut items rs' w' fun _ => 65536) L (St.start JamEx.inits src) s →
        (∀ t, ¬ Step JamEx.pick (started [] RunEx.world JamEx.plain .pipeOut items rs' w' fun _ => 65536) s t) → s.got = got := by
  obtain ⟨items, rs', w', h1, h2⟩ := C147_one_result _ _ _ _ _ _ _ _ (RunEx.startable JamEx.plain (by decide) (JamEx.shape' _)) JamEx.tidy' RunEx.made
  have hn : JamEx.net = started [] RunEx.world JamEx.plain .pipeOut items rs' w' fun _ => 1 := by unfold JamEx.net; rw [h1]
  have hlen : items.length = 4 := by have := JamEx.wiring.1; rw [hn] at this; exact this
  obtain ⟨outs, code, got, g1, g2, g3⟩ := h2 JamEx.pick JamEx.inits src (fun _ _ => JamEx.pick_terminates _) (hn ▸ JamEx.oneEach) (hn ▸ JamEx.drained) (by
    intro k id fd outFd rsx hk
    have hlt : k < 4 := by rw [← hlen]; exact (List.getElem?_eq_some_iff.1 hk).1
    have := (JamEx.wiring.2.2 k hlt).2.2.2
    rw [hn] at this
    simp only [Net.inFd, started, hk] at this
    cases this)
  refine ⟨items, rs', w', h1, outs, code, got, hn ▸ g1, hn ▸ g2, fun L s hst hx => ?_⟩
  obtain ⟨N, hN⟩ := g3 (fun _ => 65536) (fun _ => by omega)
  exact ((hN L s hst).2.2.2.2.1 hx).2

end Pieshell.FuncArg
