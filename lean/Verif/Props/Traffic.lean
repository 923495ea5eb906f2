import Verif.Lemmas.Traffic
import Verif.Props.FuncArg
/-!
# What flows through the pipes of any pipeline (C143), and where it stops (C144)
-/
namespace Pieshell.FuncArg
open Flow (Bytes Net Proc upd close started userPipe upd_same upd_ne)
open Subst (slot handler)

theorem own_started {sys : Sys} {cwd : Str} {w : World} {rs : Redirects} {p : Pipeline} {i : Obj} {o e : Want} (hs : Startable sys cwd w rs p i o e) :
    ∃ items rs' w', runP sys cwd p rs w = (.ok (items, rs'), w') ∧ ∀ cap, Own (started cwd w p o items rs' w' cap) := by
  obtain ⟨items, rs', w', h1, h2⟩ := C142_own_descriptors sys cwd w rs p i o e hs
  refine ⟨items, rs', w', h1, fun cap => ⟨?_, ?_⟩⟩
  · intro k k' n h h'
    simp only [Net.outFd, started] at h h'
    split at h
    · next id inFd outFd rs1 hi =>
      split at h'
      · next id' inFd' outFd' rs2 hi' =>
        cases h; cases h'
        exact (h2 _ _ _ _ _ _ _ _ _ _ hi hi').2.1 rfl
      · cases h'
    · cases h
  · intro k k' n h h'
    simp only [Net.outFd, Net.inFd, started] at h h'
    split at h
    · next id inFd outFd rs1 hi =>
      split at h'
      · next id' inFd' outFd' rs2 hi' =>
        cases h'
        exact (h2 _ _ _ _ _ _ _ _ _ _ hi hi').1 h
      · cases h'
    · cases h

/-- **C143.** Whatever the shape of a pipeline (groups, redirections, functions and pipelines among the arguments of its commands, and of those in there), whatever the schedule and the
capacities of the pipes: at each moment of each execution there is a record of what has been written to each pipe, by which of its items, and of what has been read from
it, by which of them or by the shell, such that what has been read, followed by what is still in the pipe, is what has been written; nobody but those that are
connected to the pipe has written or read; what an item has written is what it has sent to its outputs, and what it has read is what it has got from its inputs (or will get next, from its
handler); an item has been told of the end of its input only if there are no more bytes, and nobody can write any; and each item does what it does alone with the bytes it
has got. -/
theorem C143_explained (sys : Sys) (cwd : Str) (w : World) (rs : Redirects) (p : Pipeline) (i : Obj) (o e : Want) (hs : Startable sys cwd w rs p i o e) :
    ∃ items rs' w', runP sys cwd p rs w = (.ok (items, rs'), w') ∧
      ∀ {σ : Type} (prog : Prog σ) (init : Nat → σ) (src : Nat → Nat → Bytes) (cap : Nat → Nat) (L : Nat) (s : St σ),
        Steps prog (started cwd w p o items rs' w' cap) L (St.start init src) s →
          ∃ wr rd reads ends, Explained prog (started cwd w p o items rs' w' cap) init src s wr rd reads ends := by
  obtain ⟨items, rs', w', h1, h2⟩ := own_started hs
  refine ⟨items, rs', w', h1, ?_⟩
  intro σ prog init src cap L s hst
  obtain ⟨wr, rd, reads, ends, h⟩ := known_steps (h2 cap) hst
  exact ⟨wr, rd, reads, ends, h.explained⟩

theorem part_all {t : Tag} {l : List (Tag × UInt8)} (h : ∀ x ∈ l, x.1 = t) : part t l = bytesOf l := by
  unfold part
  rw [List.filter_eq_self.2]
  intro x hx; simp [h x hx]

/-- **C143.** An item that has ended, and has not seen a write fail, has written what it writes when it is run alone with the same input, whatever comes after what it has read (and
nothing else if it has been told of the end), and has ended with the same status. -/
theorem C143_item_result {σ : Type} {prog : Prog σ} {net : Net} {init : Nat → σ} {src : Nat → Nat → Bytes} {s : St σ} {wr rd : Nat → List (Tag × UInt8)}
    {reads : Nat → Nat → Bytes} {ends : Nat → Nat → Bool} (h : Explained prog net init src s wr rd reads ends) (k c : Nat) (hc : s.proc k = .exited c) (hx : s.cut k = false)
    (rest : Nat → Bytes) (hr : ∀ j, ends k j = true → rest j = []) : Runs prog (init k) (fun j => reads k j ++ rest j) (s.out k) c := by
  have := h.alone k
  rw [hc] at this
  obtain ⟨st, h1, h2⟩ := this
  have := h1.runs hx (.exit (inp := rest) h2) hr
  simpa using this

/-- **C143.** Between two items: if only item `k` writes to a pipe (with its output `j`) and only item `k'` reads from it (with its input `j'`), then what `k'` has got is always a
beginning of what `k` has written, and all of it if `k'` has been told of the end; and if only the shell reads from it, then what the shell has got is a beginning of what `k` has written. -/
theorem C143_link (sys : Sys) (cwd : Str) (w : World) (rs : Redirects) (p : Pipeline) (i : Obj) (o e : Want) (hs : Startable sys cwd w rs p i o e) :
    ∃ items rs' w', runP sys cwd p rs w = (.ok (items, rs'), w') ∧
      ∀ {σ : Type} (prog : Prog σ) (init : Nat → σ) (src : Nat → Nat → Bytes) (cap : Nat → Nat) (L : Nat) (s : St σ),
        Steps prog (started cwd w p o items rs' w' cap) L (St.start init src) s →
          ∃ (reads : Nat → Nat → Bytes) (ends : Nat → Nat → Bool), (∀ k, Told prog (init k) (s.cut k) (reads k) (ends k) (s.out k) (s.proc k)) ∧
            (∀ k j, slot (started cwd w p o items rs' w' cap) k j = none → reads k j <+: src k j ∧ (ends k j = true → reads k j = src k j)) ∧
            ∀ q k j, (∀ k1 j1, outSlot (started cwd w p o items rs' w' cap) k1 j1 = some q ↔ k1 = k ∧ j1 = j) →
              (∀ k' j', (∀ k1 j1, slot (started cwd w p o items rs' w' cap) k1 j1 = some q ↔ k1 = k' ∧ j1 = j') →
                (started cwd w p o items rs' w' cap).user ≠ some q →
                  reads k' j' <+: s.out k j ∧ (ends k' j' = true → reads k' j' = s.out k j)) ∧
              ((∀ k1 j1, slot (started cwd w p o items rs' w' cap) k1 j1 ≠ some q) → (started cwd w p o items rs' w' cap).user = some q →
                s.got <+: s.out k j) := by
  obtain ⟨items, rs', w', h1, h2⟩ := C143_explained sys cwd w rs p i o e hs
  refine ⟨items, rs', w', h1, ?_⟩
  intro σ prog init src cap L s hst
  obtain ⟨wr, rd, reads, ends, h⟩ := h2 prog init src cap L s hst
  refine ⟨reads, ends, h.alone, fun k j hk => ?_, fun q k j hw => ?_⟩
  · have h3 := h.elsewhere k j hk
    refine ⟨⟨inHand (started cwd w p o items rs' w' cap) s k j ++ s.src k j, by rw [← List.append_assoc]; exact h3⟩, fun he => ?_⟩
    obtain ⟨a, -, b⟩ := h.ended k j he
    rw [a, b hk] at h3
    simpa using h3
  · have hW : bytesOf (wr q) = s.out k j := by
      rw [← h.wrote q k j ((hw k j).2 ⟨rfl, rfl⟩), part_all]
      intro x hx
      obtain ⟨k1, j1, e1, e2⟩ := h.writers q x hx
      obtain ⟨rfl, rfl⟩ := (hw k1 j1).1 e2
      exact e1
    have hF := h.flow q
    rw [hW] at hF
    refine ⟨fun k' j' hr hu => ?_, fun hr hu => ?_⟩
    · have hs' := (hr k' j').2 ⟨rfl, rfl⟩
      have hR : bytesOf (rd q) = reads k' j' ++ inHand (started cwd w p o items rs' w' cap) s k' j' := by
        rw [← h.got q k' j' hs', part_all]
        intro x hx
        rcases h.readers q x hx with ⟨k1, j1, e1, e2⟩ | ⟨-, e2⟩
        · obtain ⟨rfl, rfl⟩ := (hr k1 j1).1 e2
          exact e1
        · exact absurd e2 hu
      rw [hR] at hF
      refine ⟨⟨_, by rw [← hF, List.append_assoc]⟩, fun he => ?_⟩
      obtain ⟨a, b, -⟩ := h.ended k' j' he
      rw [a, (b q hs').1] at hF
      simpa using hF
    · have hR : bytesOf (rd q) = s.got := by
        rw [← h.shell q hu, part_all]
        intro x hx
        rcases h.readers q x hx with ⟨k1, j1, e1, e2⟩ | ⟨e1, -⟩
        · exact absurd e2 (hr k1 j1)
        · exact e1
      rw [hR] at hF
      exact ⟨_, hF⟩

/-- **C143.** Only those see a write fail (are killed or given up then, or go on) who have written to a pipe from which nobody can read any more. -/
theorem C143_failed {σ : Type} {prog : Prog σ} {net : Net} {init : Nat → σ} {src : Nat → Nat → Bytes} {L : Nat} {s : St σ} (h : Steps prog net L (St.start init src) s) (k : Nat)
    (hk : s.cut k = true ∨ s.proc k = .killed) : ∃ j q, outSlot net k j = some q ∧ ¬ Open net s (.pipeR q) := by
  generalize hs0 : St.start init src = s0 at h
  induction h with
  | nil => subst hs0; rcases hk with h | h <;> cases h
  | @snoc n s t u _ hst ih =>
    have ih := fun h => ih h hs0
    have keep : (t.cut k = true ∨ t.proc k = .killed) → ∃ j q, outSlot net k j = some q ∧ ¬ Open net u (.pipeR q) := fun h => by
      obtain ⟨j, q, h1, h2⟩ := ih h
      exact ⟨j, q, h1, fun ho => h2 (open_step hst ho)⟩
    have other : ∀ {k' : Nat} {p : Proc σ}, p ≠ .killed → u.proc = upd t.proc k' p → u.cut = t.cut → ∃ j q, outSlot net k j = some q ∧ ¬ Open net u (.pipeR q) := by
      intro k' p hp h1 h2
      rw [h1, h2] at hk
      by_cases he : k = k'
      · subst he
        rw [upd_same] at hk
        rcases hk with h | h
        · exact keep (.inl h)
        · exact absurd h hp
      · rw [upd_ne _ _ he] at hk; exact keep hk
    have fails : ∀ {k' j q : Nat} {p : Proc σ}, outSlot net k' j = some q → ¬ Open net t (.pipeR q) → u.proc = upd t.proc k' p → u.cut = upd t.cut k' true →
        ∃ j q, outSlot net k j = some q ∧ ¬ Open net u (.pipeR q) := by
      intro k' j q p hq ho h1 h2
      by_cases he : k = k'
      · subst he; exact ⟨j, q, hq, fun h => ho (open_step hst h)⟩
      · rw [h1, h2, upd_ne _ _ he, upd_ne _ _ he] at hk; exact keep hk
    cases hst with
    | read => exact other (by simp) rfl rfl
    | eof => exact other (by simp) rfl rfl
    | readExt => exact other (by simp) rfl rfl
    | eofExt => exact other (by simp) rfl rfl
    | fetch => exact keep hk
    | hup => exact keep hk
    | fetchExt => exact keep hk
    | hupExt => exact keep hk
    | take => exact other (by simp) rfl rfl
    | takeEof => exact other (by simp) rfl rfl
    | write => exact other (by simp) rfl rfl
    | sigpipe _ _ _ hq ho => exact fails hq ho rfl rfl
    | epipe _ _ _ hq ho => exact fails hq ho rfl rfl
    | writeExt => exact other (by simp) rfl rfl
    | exit => exact other (by simp) rfl rfl
    | user => exact keep hk

/-- What an item that has not ended is waiting for. -/
inductive Waits {σ : Type} (prog : Prog σ) (net : Net) (s : St σ) (k : Nat) : Prop
  /-- it wants to read from an empty pipe, to which somebody could still write -/
  | reader {st : σ} {j : Nat} {f : Option UInt8 → σ} {q : Nat} : s.proc k = .running st → prog.next st = .read j f → slot net k j = some q → s.buf q = [] →
      Open net s (.pipeW q) → Waits prog net s k
  /-- it wants to write to a full pipe, from which somebody could still read -/
  | writer {st st' : σ} {j : Nat} {b : UInt8} {q : Nat} : s.proc k = .running st → prog.next st = .write j b st' → outSlot net k j = some q → net.cap q ≤ (s.buf q).length →
      Open net s (.pipeR q) → Waits prog net s k

/-- **C144.** When nothing can happen any more, each item has ended, or wants to read from an empty pipe to which somebody could still write, or to write to a full pipe from which
somebody could still read; and the shell has read everything from the pipe that it reads. -/
theorem C144_stuck {σ : Type} (prog : Prog σ) (net : Net) (s : St σ) (hn : ∀ t, ¬ Step prog net s t) :
    (∀ k, k < net.items.length → (∃ c, s.proc k = .exited c) ∨ s.proc k = .killed ∨ Waits prog net s k) ∧ (∀ q, net.user = some q → s.buf q = []) := by
  refine ⟨fun k hk => ?_, fun q hq => ?_⟩
  · cases hp : s.proc k with
    | exited c => exact .inl ⟨c, rfl⟩
    | killed => exact .inr (.inl rfl)
    | running st =>
      refine .inr (.inr ?_)
      cases ho : prog.next st with
      | exit c => exact absurd (Step.exit hk hp ho) (hn _)
      | write j b st' =>
        cases hq : outSlot net k j with
        | none => exact absurd (Step.writeExt hk hp ho hq) (hn _)
        | some q =>
          by_cases hop : Open net s (.pipeR q)
          · by_cases hc : (s.buf q).length < net.cap q
            · exact absurd (Step.write hk hp ho hq hc hop) (hn _)
            · exact .writer hp ho hq (by omega) hop
          · exfalso
            cases hf : net.outFd k with
            | some fd => exact hn _ (Step.sigpipe hk hp ho hq hop (fun h => by rw [hf] at h; cases h))
            | none =>
              cases he : prog.epipe st with
              | none => exact hn _ (Step.sigpipe hk hp ho hq hop (fun _ => he))
              | some st'' => exact hn _ (Step.epipe hk hp ho hq hop hf he)
      | read j f =>
        cases hh : handler net k j with
        | none =>
          cases hq : slot net k j with
          | none =>
            exfalso
            cases hb : s.src k j with
            | nil => exact hn _ (Step.eofExt hk hp ho hh hq hb)
            | cons b rest => exact hn _ (Step.readExt hk hp ho hh hq hb)
          | some q =>
            cases hb : s.buf q with
            | cons b rest => exact absurd (Step.read hk hp ho hh hq hb) (hn _)
            | nil =>
              by_cases hop : Open net s (.pipeW q)
              · exact .reader hp ho hq hb hop
              · exact absurd (Step.eof hk hp ho hh hq hb hop) (hn _)
        | some fd =>
          obtain rfl := handler_zero hh
          have hfd : net.inFd k = some fd := hh
          cases ha : s.ahead k with
          | cons b rest => exact absurd (Step.take hk hp ho hh ha) (hn _)
          | nil =>
            cases he : s.heof k with
            | true => exact absurd (Step.takeEof hk hp ho hh ha he) (hn _)
            | false =>
              have hnl : 10 ∉ s.ahead k := by rw [ha]; simp
              cases hq : slot net k 0 with
              | none =>
                exfalso
                cases hb : s.src k 0 with
                | nil => exact hn _ (Step.hupExt hk hfd he hnl hq hb)
                | cons b rest => exact hn _ (Step.fetchExt (c := [b]) (rest := rest) hk hfd he hnl hq hb (by simp) (by simp))
              | some q =>
                cases hb : s.buf q with
                | cons b rest => exact absurd (Step.fetch (c := [b]) (rest := rest) hk hfd he hnl hq hb (by simp) (by simp)) (hn _)
                | nil =>
                  by_cases hop : Open net s (.pipeW q)
                  · exact .reader hp ho hq hb hop
                  · exact absurd (Step.hup hk hfd he hnl hq hb hop) (hn _)
  · cases hb : s.buf q with
    | nil => rfl
    | cons b rest => exact absurd (Step.user hq hb) (hn _)

end Pieshell.FuncArg
