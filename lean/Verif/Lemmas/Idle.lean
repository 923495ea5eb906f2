import Verif.Spec.Idle
import Verif.Lemmas.Whole2
/-! Lemmas for C107: what goes on outside of the event loop. -/
namespace Pieshell.Job

/-- What can be seen of an item. -/
def view (it : Item) : Kind × State × Task × Dict Nat Str := (it.kind, it.state, it.task, it.output)

/-- The same can be seen of the pipelines, no new ones. -/
def Alike (s s' : St) : Prop :=
  s'.pipes.map (fun P => (P.items.map view, P.finished)) = s.pipes.map (fun P => (P.items.map view, P.finished)) ∧ s'.running = s.running

theorem Alike.refl (s : St) : Alike s s := ⟨rfl, rfl⟩

theorem alike_modPipe (s : St) (p : Nat) (f : Pipe → Pipe) (h : ∀ P : Pipe, (f P).items.map view = P.items.map view ∧ (f P).finished = P.finished) :
    Alike s (s.modPipe p f) :=
  ⟨map_modify_same _ f (fun P => by simp only [h P]) _ _, rfl⟩

theorem view_cont (it : Item) : view it.cont = view it := by simp only [Item.cont]; split <;> rfl
theorem view_stop (it : Item) : view it.stop = view it := by simp only [Item.stop]; split <;> rfl

theorem alike_restart (s : St) (p : Nat) : Alike s (restart s p) :=
  alike_modPipe s p _ (fun P => ⟨by simp only [List.map_map]; exact List.map_congr_left (fun it _ => view_cont it), rfl⟩)

theorem alike_suspend (s : St) (p : Nat) : Alike s (suspend s p) :=
  alike_modPipe s p _ (fun P => ⟨by simp only [List.map_map]; exact List.map_congr_left (fun it _ => view_stop it), rfl⟩)

end Pieshell.Job

namespace Pieshell.Job

theorem Alike.items {s s' : St} (h : Alike s s') (p : Nat) : (itemsOf s'.pipes p).map view = (itemsOf s.pipes p).map view := by
  have h1 := congrArg (fun l => (l[p]?).map Prod.fst) h.1
  simp only [List.getElem?_map, Option.map_map] at h1
  simp only [itemsOf]
  cases e : s.pipes[p]? <;> cases e' : s'.pipes[p]? <;> rw [e, e'] at h1 <;> simp at h1 ⊢
  exact h1

theorem Alike.skel {s s' : St} (h : Alike s s') : skel s'.pipes = skel s.pipes := by
  have h1 := congrArg (List.map (fun x : List (Kind × State × Task × Dict Nat Str) × Bool => x.1.map (fun v => (v.1, v.2.1)))) h.1
  simp only [List.map_map] at h1
  have e : ∀ ps : List Pipe, ps.map ((fun x : List (Kind × State × Task × Dict Nat Str) × Bool => x.1.map (fun v => (v.1, v.2.1))) ∘
      (fun P => (P.items.map view, P.finished))) = Job.skel ps := by
    intro ps
    simp only [Job.skel]
    apply List.map_congr_left
    intro P _
    simp only [Function.comp, List.map_map]
    apply List.map_congr_left
    intro it _
    rfl
  rwa [e, e] at h1

theorem pipeExit_ks (ps : List Pipe) (p : Nat) : pipeExit ps p = (((itemsOf ps p).map ks).getLast?).bind
    (fun x : Kind × State => match x.1, x.2 with | .proc, .exited c => some c | .proc, _ => none | _, _ => some 0) := by
  simp only [pipeExit, List.getLast?_map]
  cases (itemsOf ps p).getLast? with
  | none => rfl
  | some it => simp only [Option.map_some, Option.bind_some, Item.exitCode, ks]; cases it.kind <;> cases it.state <;> rfl

theorem Alike.seen {s s' : St} (h : Alike s s') (p : Nat) : Job.seen s' p = Job.seen s p := by
  have h1 := h.items p
  have ho := congrArg (List.map (fun v : Kind × State × Task × Dict Nat Str => v.2.2.2)) h1
  have hk := congrArg (List.map (fun v : Kind × State × Task × Dict Nat Str => (v.1, v.2.1))) h1
  simp only [List.map_map] at ho hk
  have e1 : (itemsOf s'.pipes p).map ks = (itemsOf s.pipes p).map ks := hk
  simp only [Job.seen, running_congr h.skel, failedItems_congr h.skel, pipeExit_ks, e1, h.2]
  congr 1

theorem seen_started {s : St} (hr : Ranked s.pipes) (xs : List Spec) {p : Nat} (hp : p < s.pipes.length) : seen (started s xs) p = seen s p := by
  have e : (started s xs).pipes = s.pipes ++ [newPipe s xs] := rfl
  simp only [seen, e, running_append hr _ _ hp, failedItems_append hr _ _ hp, pipeExit, itemsOf_append_left hp]
  congr 1
  show (s.running ++ [s.pipes.length]).contains p = s.running.contains p
  rw [Bool.eq_iff_iff]
  simp only [List.contains_iff_mem, List.mem_append, List.mem_singleton]
  exact ⟨fun h => h.elim id (fun h => absurd h (by omega)), .inl⟩

theorem seen_start {s : St} (hi : Inv s none) (xs : List Spec) {p : Nat} (hp : p < s.pipes.length) : seen (start s xs) p = seen s p := by
  cases h : okSpecs s xs with
  | false => rw [start_no h]
  | true => rw [start_eq hi h, seen_started hi.ranked xs hp]

theorem alike_of {s s' : St} (h1 : s'.pipes = s.pipes) (h2 : s'.running = s.running) : Alike s s' := ⟨by rw [h1], h2⟩

theorem seen_step {s : St} (hi : Inv s none) {a : Act} (ha : a.outside = true) {p : Nat} (hp : p < s.pipes.length) :
    seen (step s a) p = seen s p := by
  cases a with
  | start xs => exact seen_start hi xs hp
  | wait q =>
    simp only [step]
    split
    · exact (alike_of rfl rfl).seen p
    · rfl
  | resume w => cases ha
  | cancel w =>
    refine Alike.seen ?_ p
    show Alike s (cancel s w)
    rcases cancel_cases s w with h | ⟨W, b, -, -, -, -, h3⟩
    · rw [h]; exact Alike.refl s
    · rw [h3]
      refine ⟨?_, rfl⟩
      simp only [drop, St.modPipe, St.modWaiter]
      apply map_modify_same; intro P; rfl
  | finish _ _ _ => cases ha
  | task _ _ => cases ha
  | tstp => cases ha
  | write q i path data =>
    refine Alike.seen ?_ p
    simp only [step]
    split
    · exact Alike.refl s
    · split
      · split
        · exact alike_of rfl rfl
        · exact Alike.refl s
      · exact Alike.refl s
  | restart q => exact (alike_restart s q).seen p
  | suspend q => exact (alike_suspend s q).seen p
  | bg =>
    simp only [step]
    split
    · rfl
    · next t _ =>
      rw [seen_start (inv_restart hi t) [] (by rw [length_restart]; exact hp)]
      exact (alike_restart s t).seen p
  | fg =>
    simp only [step]
    split
    · rfl
    · exact seen_start hi _ hp
  | removeFiles q => exact (alike_of rfl rfl).seen p

end Pieshell.Job

namespace Pieshell.Job

theorem over_of {s s' : St} (h : s'.waiters = s.waiters) {w : Nat} (ho : Over s' w) : Over s w := by
  obtain ⟨r, W, h1, h2⟩ := ho
  exact ⟨r, W, by rw [← h]; exact h1, h2⟩

theorem over_start {s : St} (hi : Inv s none) (xs : List Spec) {w : Nat} (ho : Over (start s xs) w) : Over s w := by
  cases h : okSpecs s xs with
  | false => rw [start_no h] at ho; exact ho
  | true =>
    rw [start_eq hi h] at ho
    obtain ⟨r, W, h1, h2⟩ := ho
    rcases started_wget h1 with h3 | ⟨-, t, -, e⟩
    · exact ⟨r, W, h3, h2⟩
    · rw [e] at h2; cases h2

theorem over_step {s : St} (hi : Inv s none) {a : Act} (ha : a.outside = true) {w : Nat} (ho : Over (step s a) w) : Over s w := by
  cases a with
  | start xs => exact over_start hi xs ho
  | wait q =>
    simp only [step] at ho
    split at ho
    · obtain ⟨r, W, h1, h2⟩ := ho
      by_cases hw : w < s.waiters.length
      · rw [List.getElem?_append_left hw] at h1; exact ⟨r, W, h1, h2⟩
      · rw [List.getElem?_append_right (by omega)] at h1
        have := List.mem_of_getElem? h1
        simp at this; rw [this] at h2; cases h2
    · exact ho
  | resume w => cases ha
  | cancel v =>
    have ho : Over (cancel s v) w := ho
    rcases cancel_cases s v with h | ⟨W, b, -, -, -, -, h3⟩
    · rw [h] at ho; exact ho
    · rw [h3] at ho
      obtain ⟨r, W', h1, h2⟩ := ho
      simp only [drop, St.modPipe, St.modWaiter, List.getElem?_modify] at h1
      cases e : s.waiters[w]? with
      | none => rw [e] at h1; cases h1
      | some W0 =>
        rw [e] at h1
        simp only [Option.map_eq_map, Option.map_some, Option.some.injEq] at h1
        split at h1
        · rw [← h1] at h2; cases h2
        · exact ⟨r, W0, e, by rw [h1]; exact h2⟩
  | finish _ _ _ => cases ha
  | task _ _ => cases ha
  | tstp => cases ha
  | write q i path data =>
    refine over_of ?_ ho
    simp only [step]
    split
    · rfl
    · split
      · split <;> rfl
      · rfl
  | restart q => exact over_of rfl ho
  | suspend q => exact over_of rfl ho
  | bg =>
    simp only [step] at ho
    split at ho
    · exact ho
    · next t _ => exact over_of (s := s) (s' := restart s t) rfl (over_start (inv_restart hi t) [] ho)
  | fg =>
    simp only [step] at ho
    split at ho
    · exact ho
    · exact over_start hi _ ho
  | removeFiles q => exact over_of rfl ho

end Pieshell.Job

namespace Pieshell.Flow
variable {σ : Type} {next : Prog σ} {net : Net} {s t : St σ}

theorem ProgStep.step (h : ProgStep next net s t) : Step next net s t := by
  have cl : ∀ (f : Nat → Bool), close f none = f := fun f => by funext n; simp [close]
  cases h with
  | read _ h1 h2 h3 h4 h5 h6 => exact .read h1 h2 h3 h4 h5 h6
  | eof _ h1 h2 h3 h4 h5 h6 h7 => exact .eof h1 h2 h3 h4 h5 h6 h7
  | readExt _ h1 h2 h3 h4 h5 h6 => exact .readExt h1 h2 h3 h4 h5 h6
  | eofExt _ h1 h2 h3 h4 h5 h6 => exact .eofExt h1 h2 h3 h4 h5 h6
  | write _ h1 h2 h3 h4 h5 h6 => exact .write h1 h2 h3 h4 h5 h6
  | sigpipe h0 h1 h2 h3 h4 h5 h6 =>
    have := Step.sigpipe (next := next) (net := net) h1 h2 h3 h4 h5 (fun _ => h6)
    rw [h0, cl] at this; exact this
  | epipe h0 h1 h2 h3 h4 h5 h6 => exact .epipe h1 h2 h3 h4 h5 h0 h6
  | writeExt _ h1 h2 h3 h4 => exact .writeExt h1 h2 h3 h4
  | exit h0 h1 h2 h3 =>
    have := Step.exit (next := next) (net := net) h1 h2 h3
    rw [h0, cl] at this; exact this

/-- Nothing changes for a python function, its handlers and the reader of the output. -/
theorem ProgStep.func (h : ProgStep next net s t) {k : Nat} (hk : net.outFd k ≠ none) :
    t.proc k = s.proc k ∧ t.out k = s.out k ∧ t.ahead = s.ahead ∧ t.heof = s.heof ∧ t.shut = s.shut ∧ t.got = s.got := by
  have ne : ∀ {j : Nat}, net.outFd j = none → k ≠ j := fun h e => hk (e ▸ h)
  cases h <;> rename_i h0 _ _ _ <;> simp [upd, ne (by assumption)]

end Pieshell.Flow

namespace Pieshell.Sig

theorem outside_procs {s : St} {a : Act} (ha : a.outside = true) (p : Nat) (i : Option SigInfo)
    (h : (step s a).procs.get? p = some ⟨i, true⟩) : s.procs.get? p = some ⟨i, true⟩ := by
  cases a with
  | spawn q reg =>
    simp only [step] at h
    split at h
    · exact h
    · split at h
      · simp only [Dict.get?_set] at h
        split at h
        · cases h
        · exact h
      · exact h
  | change q ch =>
    simp only [step] at h
    split at h
    · exact h
    · split at h <;> exact h
  | tstp q => simp only [step] at h; split at h <;> exact h
  | catchChld =>
    simp only [step] at h
    split at h
    · exact h
    · split at h <;> exact h
  | catchTstp =>
    simp only [step] at h
    split at h
    · exact h
    · split at h <;> exact h
  | _ => cases ha

end Pieshell.Sig

namespace Pieshell.Whole
variable {σ : Type} {next : Flow.Prog σ} {L : Link} {s t : St σ}

theorem outFd_prog {L : Link} {k : Nat} (hk : k < L.net.items.length) : L.net.outFd k = none ↔ L.isProg k = true := by
  simp only [Flow.Net.outFd, Link.isProg]
  rw [List.getElem?_eq_getElem hk]
  cases L.net.items[k] <;> simp

/-- What happens outside of the event loop are steps of the whole. -/
theorem Idle.step (h : Idle next L s t) : Step next L s t := by
  cases h with
  | @prog t h =>
    have e : L.finishes (L.returned s.flow t) = [] := by
      unfold Link.finishes
      rw [List.filterMap_eq_nil_iff]
      intro k hk
      rw [mem_numbers] at hk
      by_cases hp : L.isProg k = true
      · simp [Link.returned, hp]
      · have := (h.func (k := k) (by rw [ne_eq, outFd_prog hk]; exact hp)).1
        simp only [Link.returned, hp, this]
        cases s.flow.proc k <;> rfl
    have := Step.flow (L := L) (s := s) h.step
    rw [e] at this
    exact this
  | @kernel a ha hf =>
    have e : L.finishes (L.completed s.sig (Sig.step s.sig a)) = [] := by
      unfold Link.finishes
      rw [List.filterMap_eq_nil_iff]
      intro k _
      simp only [Link.completed]
      split
      · split
        · next h1 h2 =>
          rw [Sig.outside_procs ha _ _ h2] at h1; cases h1
        · rfl
      · rfl
    have := Step.sig (next := next) (L := L) (s := s) hf
    rw [e] at this
    exact this
  | @python a ha =>
    refine Step.job (fun i o e => ?_)
    rw [e] at ha; cases ha

theorem Idles.steps (h : Idles next L s t) : Steps next L s t := by
  induction h with
  | nil => exact .nil
  | snoc _ h ih => exact .snoc ih h.step

end Pieshell.Whole
