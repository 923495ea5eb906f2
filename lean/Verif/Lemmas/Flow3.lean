import Verif.Lemmas.Flow2
import Verif.Lemmas.Chain
/-!
# A started chain of programs is a chain; chains do not get stuck
-/
namespace Pieshell.Flow
variable {σ : Type} {next : Prog σ}

/-! ### progress -/

section
variable {init : Nat → σ} {net : Net} {N : Nat} {q : Nat → Nat} {inp : Bytes} {L : Nat} {s : St σ} {F : Fam σ}

theorem chunk {l : Bytes} {b : UInt8} {rest : Bytes} (h : l = b :: rest) : l = [b] ++ rest := h

theorem no_read (hn : IsChain net N q) (hi : Inv next init net N q inp L s F) (hs : ∀ t, ¬ Step next net s t) (k : Nat) (hk : k < N) (st : σ)
    (hp : s.proc k = .running st) (f : Option UInt8 → σ) (ho : next st = .read f) : False := by
  have hlen := hn.len
  -- a function has used up what its handler has read, and the handler waits for more
  have hfunc : ∀ k st f fd, k < N → s.proc k = .running st → next st = .read f → net.inFd k = some fd → s.ahead k = [] ∧ s.heof k = false := by
    intro k st f fd hk hp ho hfd
    cases ha : s.ahead k with
    | cons b rest => exact absurd (.take (by omega) hp ho hfd ha) (hs _)
    | nil =>
      cases hh : s.heof k with
      | true => exact absurd (.takeEof (by omega) hp ho hfd ha hh) (hs _)
      | false => exact ⟨rfl, rfl⟩
  induction k generalizing st f with
  | zero =>
    cases hfd : net.inFd 0 with
    | none =>
      cases hb : s.src 0 with
      | nil => exact hs _ (.eofExt (by omega) hp ho hfd hn.inp0 hb)
      | cons b rest => exact hs _ (.readExt (by omega) hp ho hfd hn.inp0 hb)
    | some fd =>
      obtain ⟨h1, h2⟩ := hfunc 0 st f fd hk hp ho hfd
      cases hb : s.src 0 with
      | nil => exact hs _ (.hupExt (by omega) hfd h2 (by rw [h1]; simp) hn.inp0 hb)
      | cons b rest => exact hs _ (.fetchExt (by omega) hfd h2 (by rw [h1]; simp) hn.inp0 (chunk hb) (by simp) (by simp))
  | succ k ih =>
    have hbuf : s.buf (q k) = [] := by
      cases hb : s.buf (q k) with
      | nil => rfl
      | cons b rest =>
        exfalso
        cases hfd : net.inFd (k + 1) with
        | none => exact hs _ (.read (by omega) hp ho hfd (hn.inp k hk) hb)
        | some fd =>
          obtain ⟨h1, h2⟩ := hfunc _ st f fd hk hp ho hfd
          exact hs _ (.fetch (by omega) hfd h2 (by rw [h1]; simp) (hn.inp k hk) (chunk hb) (by simp) (by simp))
    by_cases hw : net.Open s (.pipeW (q k))
    · obtain ⟨st', hp'⟩ := (openW_iff hn hi hk).1 hw
      cases ho' : next st' with
      | read f' => exact ih (by omega) st' hp' f' ho'
      | exit c => exact hs _ (.exit (by omega) hp' ho')
      | write b st2 =>
        exact hs _ (.write (by omega) hp' ho' (hn.out k hk) (by rw [hbuf]; exact hn.cap _) (openR_running hn hi hk hp' hp))
    · cases hfd : net.inFd (k + 1) with
      | none => exact hs _ (.eof (by omega) hp ho hfd (hn.inp k hk) hbuf hw)
      | some fd =>
        obtain ⟨h1, h2⟩ := hfunc _ st f fd hk hp ho hfd
        exact hs _ (.hup (by omega) hfd h2 (by rw [h1]; simp) (hn.inp k hk) hbuf hw)

/-- A stuck writer waits for a function that has ended. -/
theorem stuck_write (hn : IsChain net N q) (hi : Inv next init net N q inp L s F) (hs : ∀ t, ¬ Step next net s t) (d k : Nat) (hk : k + d + 1 = N)
    (st : σ) (hp : s.proc k = .running st) (b : UInt8) (st' : σ) (ho : next st = .write b st') :
    ∃ j, k ≤ j ∧ j + 1 < N ∧ (∃ st, s.proc j = .running st) ∧ (∀ st, s.proc (j + 1) ≠ .running st) ∧ ∃ fd, net.inFd (j + 1) = some fd := by
  have hlen := hn.len
  induction d generalizing k st b st' with
  | zero =>
    exfalso
    cases hu : net.user with
    | none => exact hs _ (.writeExt (by omega) hp ho (by rw [hn.last k (by omega), hu]))
    | some u =>
      cases hb : s.buf u with
      | nil => exact hs _ (.write (by omega) hp ho (by rw [hn.last k (by omega), hu]) (by rw [hb]; exact hn.cap _) (openU_open hn hi hu))
      | cons b rest => exact hs _ (.user hu hb)
  | succ d ih =>
    by_cases hr : net.Open s (.pipeR (q k))
    · cases hp2 : s.proc (k + 1) with
      | running st2 =>
        cases ho2 : next st2 with
        | exit c => exact absurd (.exit (by omega) hp2 ho2) (hs _)
        | read f => exact (no_read hn hi hs (k + 1) (by omega) st2 hp2 f ho2).elim
        | write b2 st3 =>
          obtain ⟨j, h1, h2⟩ := ih (k + 1) (by omega) st2 hp2 b2 st3 ho2
          exact ⟨j, by omega, h2⟩
      | exited c =>
        refine ⟨k, by omega, by omega, ⟨st, hp⟩, by simp [hp2], ?_⟩
        cases hfd : net.inFd (k + 1) with
        | some fd => exact ⟨fd, rfl⟩
        | none => obtain ⟨st2, h⟩ := (openR_prog hn (by omega) hfd).1 hr; rw [hp2] at h; cases h
      | killed =>
        refine ⟨k, by omega, by omega, ⟨st, hp⟩, by simp [hp2], ?_⟩
        cases hfd : net.inFd (k + 1) with
        | some fd => exact ⟨fd, rfl⟩
        | none => obtain ⟨st2, h⟩ := (openR_prog hn (by omega) hfd).1 hr; rw [hp2] at h; cases h
    · cases hfd : net.outFd k with
      | some fd => exact absurd (.sigpipe (by omega) hp ho (hn.out k (by omega)) hr (by rw [hfd]; simp)) (hs _)
      | none =>
        cases he : next.epipe st with
        | none => exact absurd (.sigpipe (by omega) hp ho (hn.out k (by omega)) hr fun _ => he) (hs _)
        | some st'' => exact absurd (.epipe (by omega) hp ho (hn.out k (by omega)) hr hfd he) (hs _)

/-- When nothing can happen any more, an item that has not ended waits for a function that has ended. -/
theorem still_running (hn : IsChain net N q) (hi : Inv next init net N q inp L s F) (hs : ∀ t, ¬ Step next net s t) (k : Nat) (hk : k < N) (st : σ)
    (hp : s.proc k = .running st) :
    ∃ j, k ≤ j ∧ j + 1 < N ∧ (∃ st, s.proc j = .running st) ∧ (∀ st, s.proc (j + 1) ≠ .running st) ∧ ∃ fd, net.inFd (j + 1) = some fd := by
  have hlen := hn.len
  cases ho : next st with
  | read f => exact (no_read hn hi hs k hk st hp f ho).elim
  | exit c => exact absurd (.exit (by omega) hp ho) (hs _)
  | write b st' => exact stuck_write hn hi hs (N - 1 - k) k (by omega) st hp b st' ho

theorem last_ended (hn : IsChain net N q) (hi : Inv next init net N q inp L s F) (hs : ∀ t, ¬ Step next net s t) (k : Nat) (hk : k + 1 = N) :
    ∃ c, s.proc k = .exited c := by
  cases hp : s.proc k with
  | running st =>
    obtain ⟨j, h1, h2, _⟩ := still_running hn hi hs k (by omega) st hp
    omega
  | exited c => exact ⟨c, rfl⟩
  | killed => have := (hi.cut k (by omega) (hi.killed k (by omega) hp)).2.1; omega

/-- ... and none of its writes has failed. -/
theorem last_done (hi : Inv next init net N q inp L s F) {k : Nat} (hk : k + 1 = N) {c : Nat} (h : s.proc k = .exited c) : Done s k c := by
  refine ⟨h, ?_⟩
  cases hc : s.cut k with
  | false => rfl
  | true => have := (hi.cut k (by omega) hc).2.1; omega

/-- A greedy item has seen the end of its input when it has ended by itself. -/
theorem greedy_eof {s0 : σ} (hg : Greedy next s0) {n : Nat} {rd : Bytes} {e : Bool} {wr : Bytes} {st : σ} (h : Trace next s0 n rd e wr st) {c : Nat}
    (hx : next st = .exit c) : e = true := by
  obtain ⟨P, h0, hP⟩ := hg
  have key : e = false → P st := by
    clear hx
    induction h with
    | nil => exact fun _ => h0
    | @read _ _ _ st _ b _ ho ih => exact fun he => (hP _ (ih he)).2.2 _ b ho
    | eof => intro he; cases he
    | @write _ _ _ _ st b _ _ ho ih => exact fun he => (hP _ (ih he)).2.1 _ _ ho
  cases e with
  | true => rfl
  | false => exact absurd hx ((hP _ (key rfl)).1 c)

/-- No write fails of an item whose readers are all greedy. -/
theorem none_cut (hi : Inv next init net N q inp L s F) (d m : Nat) (hm : m + d + 1 = N)
    (hg : ∀ j, m < j → j < N → Greedy next (init j)) : s.cut m = false := by
  induction d generalizing m with
  | zero =>
    cases h : s.cut m with
    | false => rfl
    | true => have := (hi.cut m (by omega) h).2.1; omega
  | succ d ih =>
    cases h : s.cut m with
    | false => rfl
    | true =>
      obtain ⟨h1, h2, h3, h4⟩ := hi.cut m (by omega) h
      have hc := ih (m + 1) (by omega) fun j hj => hg j (by omega)
      cases hp : s.proc (m + 1) with
      | running st => exact absurd hp (h4 st)
      | killed => rw [hi.killed _ h2 hp] at hc; cases hc
      | exited c =>
        have hf := hi.exited (m + 1) c h2 hp hc
        have he := greedy_eof (hg (m + 1) (by omega) h2) (hi.coh.trace (m + 1) h2) (hi.coh.fin _ _ h2 hf)
        obtain ⟨_, c', hc⟩ := hi.coh.restEof m h2 he
        rw [h1] at hc; cases hc

theorem all_ended (hn : IsChain net N q) (hi : Inv next init net N q inp L s F)
    (hg : ∀ k fd, net.inFd (k + 1) = some fd → ∀ j, k + 1 ≤ j → j < N → Greedy next (init j))
    (hs : ∀ t, ¬ Step next net s t) (k : Nat) (hk : k < N) (st : σ) : s.proc k ≠ .running st := by
  intro hp
  obtain ⟨j, h1, h2, ⟨st', h3⟩, h4, fd, h5⟩ := still_running hn hi hs k hk st hp
  have hg := hg j fd h5
  have hc := none_cut hi (N - 1 - (j + 1)) (j + 1) (by omega) fun i hi => hg i (by omega)
  cases hp : s.proc (j + 1) with
  | running st => exact h4 st hp
  | killed => rw [hi.killed _ h2 hp] at hc; cases hc
  | exited c =>
    have hf := hi.exited (j + 1) c h2 hp hc
    have he := greedy_eof (hg (j + 1) (by omega) h2) (hi.coh.trace (j + 1) h2) (hi.coh.fin _ _ h2 hf)
    obtain ⟨_, c', hc⟩ := hi.coh.restEof j h2 he
    rw [(hi.run j st' (by omega) h3).1] at hc; cases hc

theorem all_read (hs : ∀ t, ¬ Step next net s t) (u : Nat) (hu : net.user = some u) : s.buf u = [] := by
  cases hb : s.buf u with
  | nil => rfl
  | cons b rest => exact absurd (.user hu hb) (hs _)

end

/-- An item that does nothing but write goes on, or is stopped by a failing write. -/
theorem writes_forever {net : Net} {init : Nat → σ} {src : Nat → Bytes} {k : Nat} {P : σ → Prop}
    (hP : ∀ st, P st → ∃ b st', next st = .write b st' ∧ P st' ∧ ∀ st'', next.epipe st = some st'' → P st'') (h0 : P (init k))
    {L : Nat} {s : St σ} (hs : Steps next net L (St.start init src) s) :
    (∃ st, s.proc k = .running st ∧ P st) ∨ (s.proc k = .killed ∧ ∃ st, P st ∧ (net.outFd k = none → next.epipe st = none)) := by
  generalize hx : St.start init src = s0 at hs
  induction hs with
  | nil => subst hx; exact .inl ⟨_, rfl, h0⟩
  | @snoc n s' t v h1 h2 ih =>
    have other : ∀ j x st', t.proc j = .running st' → (∀ st, next st' = next st → P st → ((∃ st, x = .running st ∧ P st) ∨
        (x = .killed ∧ ∃ st, P st ∧ (net.outFd j = none → next.epipe st = none))) ∨ st' ≠ st) →
        (∃ st, upd t.proc j x k = .running st ∧ P st) ∨ (upd t.proc j x k = .killed ∧ ∃ st, P st ∧ (net.outFd k = none → next.epipe st = none)) := by
      intro j x st' hj hstep
      by_cases e : k = j
      · subst e
        rw [upd_same]
        rcases ih hx with ⟨st, g1, g2⟩ | ⟨g1, -⟩
        · rw [hj] at g1; cases g1
          rcases hstep _ rfl g2 with h | h
          · exact h
          · exact absurd rfl h
        · rw [hj] at g1; cases g1
      · rw [upd_ne _ _ e]; exact ih hx
    have reads : ∀ {st' : σ} {f : Option UInt8 → σ} {c : Nat} (x : Proc σ) (j : Nat), next st' = .read f ∨ next st' = .exit c → ∀ st, next st' = next st → P st →
        ((∃ st, x = .running st ∧ P st) ∨ (x = .killed ∧ ∃ st, P st ∧ (net.outFd j = none → next.epipe st = none))) ∨ st' ≠ st := by
      intro st' f c x j h st e hp
      obtain ⟨b, st2, g, -⟩ := hP st hp
      rw [e, g] at h
      rcases h with h | h <;> cases h
    cases h2 with
    | read _ hp ho | eof _ hp ho | readExt _ hp ho | eofExt _ hp ho | take _ hp ho | takeEof _ hp ho =>
      exact other _ _ _ hp (reads (c := 0) _ _ (.inl ho))
    | exit _ hp ho => exact other _ _ _ hp (reads (f := fun _ => init 0) _ _ (.inr ho))
    | fetch | hup | fetchExt | hupExt | user => exact ih hx
    | write _ hp ho | writeExt _ hp ho =>
      refine other _ _ _ hp fun st e hp' => .inl (.inl ⟨_, rfl, ?_⟩)
      obtain ⟨b, st2, g, g', -⟩ := hP st hp'
      rw [ho, g] at e; cases e; exact g'
    | @sigpipe j st st' b q _ hp ho _ _ hc =>
      refine other _ _ _ hp fun st2 _ hp' => ?_
      by_cases e : st = st2
      · subst e; exact .inl (.inr ⟨rfl, _, hp', hc⟩)
      · exact .inr e
    | @epipe j st st' st'' b q _ hp ho _ _ _ he =>
      refine other _ _ _ hp fun st2 _ hp' => ?_
      by_cases e : st = st2
      · subst e
        obtain ⟨_, _, _, _, g⟩ := hP _ hp'
        exact .inl (.inl ⟨_, rfl, g _ he⟩)
      · exact .inr e

/-- A program that keeps `SIGPIPE` ignored is not killed. -/
theorem keeps_run {net : Net} {init : Nat → σ} {src : Nat → Bytes} {k : Nat} (hk : KeepsSigpipe next (init k)) (hfd : net.outFd k = none)
    {L : Nat} {s : St σ} (hs : Steps next net L (St.start init src) s) : s.proc k ≠ .killed := by
  obtain ⟨P, h0, hP⟩ := hk
  have key : (∀ st, s.proc k = .running st → P st) ∧ s.proc k ≠ .killed := by
    generalize hx : St.start init src = s0 at hs
    induction hs with
    | nil => subst hx; exact ⟨fun st h => by cases h; exact h0, by simp [St.start]⟩
    | @snoc n s' t v h1 h2 ih =>
      have ih := ih hx
      have go : ∀ j st cur, t.proc j = .running st → (P st → P cur) →
          (∀ st, upd t.proc j (.running cur) k = .running st → P st) ∧ upd t.proc j (.running cur) k ≠ .killed := by
        intro j st cur hj hpc
        by_cases e : k = j
        · subst e; simp only [upd_same]; exact ⟨fun st' h => by cases h; exact hpc (ih.1 _ hj), by simp⟩
        · rw [upd_ne _ _ e]; exact ih
      cases h2 with
      | read _ hp ho | eof _ hp ho | readExt _ hp ho | eofExt _ hp ho | take _ hp ho | takeEof _ hp ho =>
        exact go _ _ _ hp fun h => (hP _ h).1 _ _ ho
      | write _ hp ho | writeExt _ hp ho => exact go _ _ _ hp fun h => ((hP _ h).2 _ _ ho).1
      | epipe _ hp ho _ _ _ he =>
        refine go _ _ _ hp fun h => ?_
        obtain ⟨-, _, g1, g2⟩ := (hP _ h).2 _ _ ho
        rw [he] at g1; cases g1; exact g2
      | @sigpipe j _ _ _ _ _ hp ho _ _ hc =>
        by_cases e : k = j
        · subst e
          obtain ⟨-, _, g1, -⟩ := (hP _ (ih.1 _ hp)).2 _ _ ho
          rw [hc hfd] at g1; cases g1
        · show (∀ st, upd t.proc j .killed k = .running st → P st) ∧ upd t.proc j .killed k ≠ .killed
          rw [upd_ne _ _ e]; exact ih
      | @exit j _ c _ hp _ =>
        by_cases e : k = j
        · subst e; simp [upd_same]
        · show (∀ st, upd t.proc j (.exited c) k = .running st → P st) ∧ upd t.proc j (.exited c) k ≠ .killed
          rw [upd_ne _ _ e]; exact ih
      | fetch | hup | fetchExt | hupExt | user => exact ih
  exact key.2

/-! ### a started chain -/

theorem words_ids : (a : Args) → Words a → a.ids = []
  | .nil, _ => rfl
  | .word _ rest, h => words_ids rest h
  | .pipeArg _ _ _, h => h.elim
  | .funcArg _ _ _, h => h.elim

theorem Programs.mixed {p : Pipeline} (h : Programs p) : Mixed p := by
  refine ⟨fun l hl => .inl (h.1 l hl), fun k l hl => ⟨h.2 k l hl, ?_⟩⟩
  obtain ⟨id, args, h1, _⟩ := h.1 l (List.mem_of_getElem? hl)
  rw [h1]; trivial

theorem mixed_chain {p : Pipeline} (h : Mixed p) : p.Chain := by
  intro l hl
  rcases h.1 l hl with ⟨id, args, h1, _⟩ | ⟨id, h1⟩ | ⟨id, h1⟩ <;> rw [h1] <;> simp [Pipeline.leafId]

theorem flatten_singletons {segs : List (List Item)} (h : ∀ s ∈ segs, ∃ m, s = [m]) (k : Nat) :
    segs.flatten[k]? = (segs[k]?).bind List.head? := by
  induction segs generalizing k with
  | nil => simp
  | cons s segs ih =>
    obtain ⟨m, rfl⟩ := h s (by simp)
    cases k with
    | zero => simp
    | succ k => simp [ih fun s hs => h s (by simp [hs])]

theorem links_ids : (p : Pipeline) → (p.links.flatMap fun l => l.leaf.ids) = p.ids
  | .pipe a b => by simp only [Pipeline.links, List.flatMap_append, Pipeline.ids, links_ids a, links_ids b]
  | .redirect p crs => by
    simp only [Pipeline.links, Pipeline.ids, ← links_ids p]
    have h1 : ∀ (r : Option Redirect) (ls : List Link), (pushIn r ls).flatMap (fun l => l.leaf.ids) = ls.flatMap fun l => l.leaf.ids := by
      intro r ls; cases ls <;> simp [pushIn]
    have h2 : ∀ (r : Option Redirect) (ls : List Link), (pushOut r ls).flatMap (fun l => l.leaf.ids) = ls.flatMap fun l => l.leaf.ids := by
      intro r ls
      induction ls with
      | nil => rfl
      | cons l ls ih => cases ls with
        | nil => simp [pushOut]
        | cons l' ls => simp only [pushOut, List.flatMap_cons] at ih ⊢; rw [ih]
    have h3 : ∀ (r : Option Redirect) (ls : List Link), (pushErr r ls).flatMap (fun l => l.leaf.ids) = ls.flatMap fun l => l.leaf.ids := by
      intro r ls; simp [pushErr, List.flatMap_map]
    rw [h1, h2, h3]
  | .command id args => by simp [Pipeline.links, Pipeline.ids]
  | .func id => by simp [Pipeline.links, Pipeline.ids]
  | .iter id => by simp [Pipeline.links, Pipeline.ids]
  | .group a b => by simp [Pipeline.links, Pipeline.ids]

theorem started_chain_kinds {sys : Sys} {cwd : Str} {w : World} {rs : Redirects} {p : Pipeline} {i : Obj} {o e : Want}
    (hs : Startable sys cwd w rs p i o e) (hp : Mixed p) (hm : w.PipesMade) :
    ∃ items rs' w' q, runP sys cwd p rs w = (.ok (items, rs'), w') ∧ items.map Item.id = p.ids ∧
      (p.outWant cwd o = .pipeOut → userPipe w' rs' = some (q (p.links.length - 1))) ∧
      (∀ (k : Nat) (l : Link) (x : Item), p.links[k]? = some l → items[k]? = some x →
        ((∃ id argv fds rsx, x = .proc id argv fds rsx) ↔ ∃ id args, l.leaf = .command id args)) ∧
      ∀ cap : Nat → Nat, (∀ k, 0 < cap k) → IsChain (started cwd w p o items rs' w' cap) p.links.length q ∧
        ∀ (k : Nat) (l : Link), p.links[k]? = some l →
          ((∃ fd, (started cwd w p o items rs' w' cap).inFd k = some fd) ↔ ∃ id, l.leaf = .func id) := by
  have hc := mixed_chain hp
  obtain ⟨items, rs', w', segs, q, h1, h2, h3, h4, h5⟩ := chain_spec hs hc
  have h5 := h5 hm
  have hlen0 : 0 < p.links.length := List.length_pos_iff.2 (links_ne_nil p)
  obtain ⟨⟨H, L, hr, hl, hstd⟩, ho, he, hsh, hlow, hpo⟩ := hs
  obtain ⟨oi, oo, -⟩ := hstd.old
  have hlink : ∀ k, k < p.links.length → ∃ l, p.links[k]? = some l := fun k hk => ⟨p.links[k], by simp [hk]⟩
  have hlinkr : ∀ (k : Nat) (l : Link), p.links[k]? = some l → k < p.links.length := fun k l h => (List.getElem?_eq_some_iff.1 h).1
  -- every segment is one item
  have hone : ∀ (k : Nat) (l : Link), p.links[k]? = some l → ∃ m, segs[k]? = some [m] ∧
      (l.leaf.Reads → m.stdin w' = some (orIn cwd l.inp (if k = 0 then i else .pipeR (q (k - 1))))) ∧
      (∃ ob, m.stdout w' = some ob ∧ (if k + 1 = p.links.length then orWant cwd l.out o else .pipeOut).Meets w (q k) ob) ∧
      ((∃ id argv fds rsx, m = .proc id argv fds rsx ∧ l.leaf.Reads ∧ ∀ id, l.leaf ≠ .func id) ∨
       (∃ id inFd outFd rsx, m = .func id (some inFd) outFd rsx ∧ l.leaf = .func id) ∨
       ∃ id outFd rsx, m = .func id none outFd rsx ∧ l.leaf = .iter id) := by
    intro k l hk
    obtain ⟨s, m, g1, g2, g3, g4, g5, g6, g7⟩ := h3.wired k l hk
    have gs := h3.inShell k l s hk g1
    rcases hp.1 l (List.mem_of_getElem? hk) with ⟨id, args, e1, e2⟩ | ⟨id, e1⟩ | ⟨id, e1⟩
    · have hids : l.leaf.ids = [id] := by rw [e1]; simp [Pipeline.ids, words_ids args e2]
      rw [hids] at g2
      have hsm : s = [m] := by
        cases s with
        | nil => simp at g2
        | cons x l' =>
          cases l' with
          | cons y l' => simp at g2
          | nil => simp at g3; rw [g3]
      subst hsm
      refine ⟨m, g1, g5, g6, .inl ?_⟩
      obtain ⟨ob, g8, -⟩ := g7 id args e1
      cases m with
      | func => cases g8
      | proc id' argv fds rsx => exact ⟨id', argv, fds, rsx, rfl, by rw [e1]; trivial, by rw [e1]; simp⟩
    · obtain ⟨inFd, outFd, rsx, rfl⟩ := gs.1 id e1
      simp only [List.getLast?_singleton, Option.some.injEq] at g3
      subst g3
      exact ⟨_, g1, g5, g6, .inr (.inl ⟨id, inFd, outFd, rsx, rfl, e1⟩)⟩
    · obtain ⟨outFd, rsx, rfl⟩ := gs.2 id e1
      simp only [List.getLast?_singleton, Option.some.injEq] at g3
      subst g3
      exact ⟨_, g1, g5, g6, .inr (.inr ⟨id, outFd, rsx, rfl, e1⟩)⟩
  have hsing : ∀ s ∈ segs, ∃ m, s = [m] := by
    intro s hs
    obtain ⟨j, hj⟩ := List.mem_iff_getElem?.1 hs
    have hjl : j < p.links.length := by
      rcases Nat.lt_or_ge j p.links.length with h | h
      · exact h
      · rw [List.getElem?_eq_none (by rw [h3.length]; exact h)] at hj; cases hj
    obtain ⟨m, g, _⟩ := hone j p.links[j] (by simp)
    rw [hj] at g; cases g; exact ⟨_, rfl⟩
  have hseg : ∀ (k : Nat) (x : Item), items[k]? = some x ↔ segs[k]? = some [x] := by
    intro k x
    rw [h2, flatten_singletons hsing]
    constructor
    · intro hx
      cases hsk : segs[k]? with
      | none => rw [hsk] at hx; cases hx
      | some s =>
        obtain ⟨m, rfl⟩ := hsing s (List.mem_of_getElem? hsk)
        rw [hsk] at hx
        cases hx; rfl
    · intro hx; rw [hx]; rfl
  have hlen : items.length = p.links.length := by
    rw [← h3.length, h2]
    have : ∀ l : List (List Item), (∀ s ∈ l, ∃ m, s = [m]) → l.flatten.length = l.length := by
      intro l
      induction l with
      | nil => simp
      | cons s l ih =>
        intro h
        obtain ⟨m, rfl⟩ := h s (by simp)
        have := ih fun s hs => h s (by simp [hs])
        rw [List.flatten_cons, List.length_append, this]
        simp only [List.length_cons, List.length_nil]
        omega
    exact this segs hsing
  have hitem : ∀ (k : Nat) (x : Item), items[k]? = some x → ∃ l, p.links[k]? = some l := by
    intro k x hx
    exact hlink k (by rw [← hlen]; exact (List.getElem?_eq_some_iff.1 hx).1)
  have hinj : ∀ j k, j < p.links.length → k < p.links.length → q j = q k → j = k := by
    intro j k hj hk h
    rcases Nat.lt_trichotomy j k with h' | h' | h'
    · have := h3.different j k h' hk; omega
    · exact h'
    · have := h3.different k j h' hj; omega
  have huser : p.outWant cwd o = .pipeOut → userPipe w' rs' = some (q (p.links.length - 1)) := by
    intro hpo
    obtain ⟨r, u, g1, g2, g3⟩ := h4 hpo
    simp only [userPipe, g1, g2, g3]
  have hkind : ∀ (k : Nat) (l : Link) (x : Item), p.links[k]? = some l → items[k]? = some x →
      ((∃ id argv fds rsx, x = .proc id argv fds rsx) ↔ ∃ id args, l.leaf = .command id args) := by
    intro k l x hl hx
    obtain ⟨m, g1, -, -, g4⟩ := hone k l hl
    rw [(hseg k x).1 hx] at g1
    cases g1
    rcases g4 with ⟨id, argv, fds, rsx, rfl, g5, g6⟩ | ⟨id, inFd, outFd, rsx, rfl, g5⟩ | ⟨id, outFd, rsx, rfl, g5⟩
    · refine ⟨fun _ => ?_, fun _ => ⟨_, _, _, _, rfl⟩⟩
      rcases hp.1 l (List.mem_of_getElem? hl) with ⟨id, args, e1, -⟩ | ⟨id, e1⟩ | ⟨id, e1⟩
      · exact ⟨id, args, e1⟩
      · exact absurd e1 (g6 id)
      · rw [e1] at g5; exact g5.elim
    · exact ⟨fun ⟨_, _, _, _, h⟩ => by (cases h), fun ⟨_, _, h⟩ => by rw [g5] at h; cases h⟩
    · exact ⟨fun ⟨_, _, _, _, h⟩ => by (cases h), fun ⟨_, _, h⟩ => by rw [g5] at h; cases h⟩
  refine ⟨items, rs', w', q, h1, ?_, huser, hkind, fun cap hcap => ?_⟩
  · -- identities
    have key : ∀ ls : List (List Item), ∀ lk : List Link, ls.length = lk.length →
        (∀ (k : Nat) (l : Link), lk[k]? = some l → ∃ s, ls[k]? = some s ∧ s.map Item.id = l.leaf.ids) →
        ls.flatten.map Item.id = lk.flatMap fun l => l.leaf.ids := by
      intro ls
      induction ls with
      | nil => intro lk hl _; cases lk with
        | nil => rfl
        | cons => simp at hl
      | cons s ls ih =>
        intro lk hl h
        cases lk with
        | nil => simp at hl
        | cons l lk =>
          obtain ⟨s', e1, e2⟩ := h 0 l rfl
          simp only [List.getElem?_cons_zero, Option.some.injEq] at e1
          subst e1
          simp only [List.flatten_cons, List.map_append, List.flatMap_cons, e2]
          rw [ih lk (by simpa using hl) fun k l' hk => h (k + 1) l' (by simpa using hk)]
    rw [h2, key segs p.links h3.length fun k l hk => ?_]
    · exact links_ids p
    · obtain ⟨s, m, g1, g2, _⟩ := h3.wired k l hk
      exact ⟨s, g1, g2⟩
  have hmeet : ∀ (k : Nat) (l : Link) (ob : Obj), p.links[k]? = some l →
      (if k + 1 = p.links.length then orWant cwd l.out o else .pipeOut).Meets w (q k) ob → k + 1 = p.links.length →
      (p.outWant cwd o).Meets w (q k) ob := by
    intro k l ob hl hm hk
    obtain ⟨l', g1, g2⟩ := last_link (cwd := cwd) p
    rw [List.getLast?_eq_getElem?, ← hk, Nat.add_sub_cancel, hl] at g1
    cases g1
    rw [if_pos hk, ← outWant_leaf (hc l (List.mem_of_getElem? hl)) (orWant cwd l.out o), ← g2] at hm
    exact hm
  -- the output of an item is its own pipe, or nothing of this pipeline
  have houtob : ∀ (k : Nat) (l : Link) (m : Item), p.links[k]? = some l → items[k]? = some m →
      m.stdout w' = some (.pipeW (q k)) ∨ (k + 1 = p.links.length ∧ p.outWant cwd o ≠ .pipeOut ∧ ∃ ob, m.stdout w' = some ob ∧
        ∀ n, w.nextPipe ≤ n → ob ≠ .pipeW n ∧ ob ≠ .pipeR n) := by
    intro k l m hl hk
    obtain ⟨m', g1, -, ⟨ob, g2, g3⟩, -⟩ := hone k l hl
    rw [(hseg k m).1 hk] at g1
    cases g1
    by_cases hlast : k + 1 = p.links.length
    · have g3 := hmeet k l ob hl g3 hlast
      by_cases hpo : p.outWant cwd o = .pipeOut
      · rw [hpo] at g3; rw [g2, g3]; exact .inl rfl
      · refine .inr ⟨hlast, hpo, ob, g2, ?_⟩
        cases hw : p.outWant cwd o with
        | pipeOut => exact absurd hw hpo
        | pipeIn => rw [hw] at g3; exact g3.elim
        | tmp => rw [hw] at g3; obtain ⟨_, _, rfl⟩ := g3; intro n _; simp
        | obj b =>
          rw [hw] at g3
          cases g3
          obtain ⟨l', f1, f2⟩ := last_link (cwd := cwd) p
          rw [List.getLast?_eq_getElem?, ← hlast, Nat.add_sub_cancel, hl] at f1
          cases f1
          rw [f2, outWant_leaf (hc l (List.mem_of_getElem? hl))] at hw
          rcases orWant_obj hw with h' | ⟨_, _, _, rfl⟩
          · intro n h; exact ((oo _ h').notPipe hm n h).symm
          · intro n _; simp
    · rw [if_neg hlast] at g3
      rw [g2, g3]; exact .inl rfl
  -- the input of an item is the pipe before it, or nothing of this pipeline
  have hinob0 : ∀ (m : Item) (ob : Obj), items[0]? = some m → m.stdin w' = some ob → ∀ n, w.nextPipe ≤ n → ob ≠ .pipeW n ∧ ob ≠ .pipeR n := by
    intro m ob hk hob
    obtain ⟨l, hl⟩ := hitem 0 m hk
    obtain ⟨m', g1, g2, -, g3⟩ := hone 0 l hl
    rw [(hseg 0 m).1 hk] at g1
    cases g1
    have hreads : l.leaf.Reads := by
      rcases g3 with ⟨id, argv, fds, rsx, -, g4, -⟩ | ⟨id, inFd, outFd, rsx, -, g4⟩ | ⟨id, outFd, rsx, rfl, g4⟩
      · exact g4
      · rw [g4]; trivial
      · cases hob
    have := g2 hreads
    rw [hob, if_pos rfl] at this
    cases this
    rcases orIn_cases (cwd := cwd) l.inp i with h' | ⟨_, _, _, h'⟩
    · rw [h']; intro n h; exact ((oi i rfl).notPipe hm n h).symm
    · rw [h']; intro n _; simp
  have hinob : ∀ (k : Nat) (m : Item), k + 1 < p.links.length → items[k + 1]? = some m → m.stdin w' = some (.pipeR (q k)) := by
    intro k m hk hm
    obtain ⟨l, hl⟩ := hlink (k + 1) hk
    obtain ⟨m', g1, g2, -, -⟩ := hone (k + 1) l hl
    rw [(hseg _ m).1 hm] at g1
    cases g1
    rw [g2 (hp.2 k l hl).2, (hp.2 k l hl).1, if_neg (by omega)]; rfl
  have hget : ∀ k, k < p.links.length → ∃ m, items[k]? = some m := fun k hk => ⟨items[k], by simp [hlen, hk]⟩
  -- a function's descriptors
  have hholdW : ∀ (k j n : Nat), k < p.links.length → (k + 1 = p.links.length → p.outWant cwd o = .pipeOut) →
      (w'.fds.get n).map Entry.obj = some (.pipeW (q k)) →
      ((started cwd w p o items rs' w' cap).outFd j = some n → j = k) ∧ (started cwd w p o items rs' w' cap).inFd j ≠ some n := by
    intro k j n hk hko hob
    obtain ⟨h6, -⟩ := h5 k hk hko
    constructor
    · intro h
      simp only [Net.outFd, started] at h
      split at h
      · next id inFd outFd rsx hx =>
        cases h
        exact (h6 j _ _ ((hseg j _).1 hx) (List.mem_singleton.2 rfl)).1 ⟨_, .inr rfl, hob⟩
      · cases h
    · intro h
      simp only [Net.inFd, started] at h
      split at h
      · next id inFd outFd rsx hx =>
        subst h
        have hjk := (h6 j _ _ ((hseg j _).1 hx) (List.mem_singleton.2 rfl)).1 ⟨_, .inl rfl, hob⟩
        subst hjk
        cases j with
        | zero => exact (hinob0 _ _ hx hob _ (h3.new 0 hk)).1 rfl
        | succ j => have := hinob j _ hk hx; exact Obj.noConfusion (Option.some.inj (hob.symm.trans this))
      · cases h
  have hholdR : ∀ (k j n : Nat), k < p.links.length → (k + 1 = p.links.length → p.outWant cwd o = .pipeOut) →
      (w'.fds.get n).map Entry.obj = some (.pipeR (q k)) →
      ((started cwd w p o items rs' w' cap).inFd j = some n → j = k + 1) ∧ (started cwd w p o items rs' w' cap).outFd j ≠ some n := by
    intro k j n hk hko hob
    obtain ⟨h6, -⟩ := h5 k hk hko
    constructor
    · intro h
      simp only [Net.inFd, started] at h
      split at h
      · next id inFd outFd rsx hx =>
        subst h
        exact ((h6 j _ _ ((hseg j _).1 hx) (List.mem_singleton.2 rfl)).2 ⟨_, .inl rfl, hob⟩).1
      · cases h
    · intro h
      simp only [Net.outFd, started] at h
      split at h
      · next id inFd outFd rsx hx =>
        cases h
        obtain ⟨l, hl⟩ := hitem j _ hx
        rcases houtob j l _ hl hx with h | ⟨_, _, ob, h, h'⟩
        · exact Obj.noConfusion (Option.some.inj (hob.symm.trans h))
        · obtain rfl := Option.some.inj (hob.symm.trans h)
          exact (h' _ (h3.new k hk)).2 rfl
      · cases h
  have hin : ∀ k, k + 1 < p.links.length → (started cwd w p o items rs' w' cap).inPipe (k + 1) = some (q k) := by
    intro k hk
    obtain ⟨m, g1⟩ := hget (k + 1) hk
    simp only [Net.inPipe, started, g1, Option.bind_some, hinob k m hk g1]
    exact if_pos (h3.new k (by omega))
  have hout : ∀ k, k < p.links.length → (k + 1 = p.links.length → p.outWant cwd o = .pipeOut) → ∀ m, items[k]? = some m →
      m.stdout w' = some (.pipeW (q k)) := by
    intro k hk hko m g1
    obtain ⟨l, hl⟩ := hlink k hk
    rcases houtob k l m hl g1 with h | ⟨h1, h2, _⟩
    · exact h
    · exact absurd (hko h1) h2
  have houtP : ∀ k, k < p.links.length → (k + 1 = p.links.length → p.outWant cwd o = .pipeOut) →
      (started cwd w p o items rs' w' cap).outPipe k = some (q k) := by
    intro k hk hko
    obtain ⟨m, g1⟩ := hget k hk
    simp only [Net.outPipe, started, g1, Option.bind_some, hout k hk hko m g1]
    exact if_pos (h3.new k (by omega))
  refine ⟨⟨hlen, hinj, ?_, hin, fun k hk => houtP k (by omega) (by omega), ?_, ?_, ?_, ?_, ?_, hcap⟩, ?_⟩
  · -- the first item reads from elsewhere
    obtain ⟨m, g1⟩ := hget 0 hlen0
    simp only [Net.inPipe, started, g1, Option.bind_some]
    split
    · next n hn => exact if_neg fun h => (hinob0 m _ g1 hn n h).2 rfl
    · rfl
  · intro k hk
    by_cases hpo : p.outWant cwd o = .pipeOut
    · rw [houtP k (by omega) fun _ => hpo]
      simp only [started, if_pos hpo]
      rw [huser hpo, show k = p.links.length - 1 by omega]
    · obtain ⟨m, g1⟩ := hget k (by omega)
      obtain ⟨l, hl⟩ := hlink k (by omega)
      simp only [Net.outPipe, started, g1, Option.bind_some, if_neg hpo]
      rcases houtob k l m hl g1 with g3 | ⟨-, -, ob, g3, g4⟩
      · -- impossible: the output is then the pipe of the shell
        obtain ⟨m', e1, -, ⟨ob, e2, e3⟩, -⟩ := hone k l hl
        rw [(hseg k m).1 g1] at e1
        cases e1
        have e3 := hmeet k l ob hl e3 hk
        rw [g3] at e2
        cases e2
        cases hw : p.outWant cwd o with
        | pipeOut => exact absurd hw hpo
        | pipeIn => rw [hw] at e3; exact e3.elim
        | tmp => rw [hw] at e3; obtain ⟨_, _, e3⟩ := e3; cases e3
        | obj b =>
          rw [hw] at e3
          cases e3
          obtain ⟨l', f1, f2⟩ := last_link (cwd := cwd) p
          rw [List.getLast?_eq_getElem?, ← hk, Nat.add_sub_cancel, hl] at f1
          cases f1
          rw [f2, outWant_leaf (hc l (List.mem_of_getElem? hl))] at hw
          rcases orWant_obj hw with h' | ⟨_, _, _, h'⟩
          · exact absurd rfl ((oo _ h').notPipe hm (q k) (h3.new k (by omega))).2
          · cases h'
      · rw [g3]
        split
        · next n hn => exact if_neg fun h => (g4 n h).1 (Option.some.inj hn)
        · rfl
  · intro u hu
    simp only [started] at hu
    split at hu
    · next hpo => rw [huser hpo] at hu; cases hu; exact ⟨p.links.length - 1, by omega, rfl⟩
    · cases hu
  · intro k hk
    obtain ⟨h6, h7⟩ := h5 k (by omega) (by omega)
    obtain ⟨m, g1⟩ := hget k (by omega)
    have g2 := hout k (by omega) (by omega) m g1
    cases m with
    | proc id argv fds rsx =>
      refine .inl ⟨by simp [Net.outFd, started, g1], fun s => ⟨?_, ?_⟩⟩
      · rintro (⟨j, id', argv', fds', rs'', n, st, f1, f2, f3⟩ | ⟨fd, en, f1, f2, -⟩)
        · obtain rfl := (h6 j _ _ ((hseg j _).1 f1) (List.mem_singleton.2 rfl)).1 ⟨n, f3⟩
          exact ⟨st, f2⟩
        · obtain ⟨s', f3, f4⟩ := (h7 fd en f1).1 f2
          rw [(hseg k _).1 g1] at f3; cases f3; cases f4
      · rintro ⟨st, f2⟩
        exact .inl ⟨k, _, _, _, _, 1, st, g1, f2, g2⟩
    | func id inFd outFd rsx =>
      refine .inr ⟨outFd, by simp [Net.outFd, started, g1], fun j => (hholdW k j outFd (by omega) (by omega) g2).1,
        fun j => (hholdW k j outFd (by omega) (by omega) g2).2, fun s => ⟨?_, ?_⟩⟩
      · rintro (⟨j, id', argv', fds', rs'', n, st, f1, f2, f3⟩ | ⟨fd, en, f1, f2, f5⟩)
        · obtain rfl := (h6 j _ _ ((hseg j _).1 f1) (List.mem_singleton.2 rfl)).1 ⟨n, f3⟩
          rw [show items[j]? = some _ from f1] at g1; cases g1
        · obtain ⟨s', f3, f4⟩ := (h7 fd en f1).1 f2
          rw [(hseg k _).1 g1] at f3; cases f3
          simp only [heldFds, List.mem_append, Option.mem_toList, List.mem_cons, List.not_mem_nil, or_false] at f4
          rcases f4 with f4 | rfl
          · refine absurd ?_ (hholdW k k fd (by omega) (by omega) ?_).2
            · simp only [Net.inFd, started, g1]; exact f4
            · rw [show w'.fds.get fd = some en from f1, Option.map_some, f2]
          · exact f5
      · intro hs
        have g3 : (w'.fds.get outFd).map Entry.obj = some (.pipeW (q k)) := g2
        cases hg : w'.fds.get outFd with
        | none => rw [hg] at g3; cases g3
        | some en => rw [hg] at g3; exact .inr ⟨outFd, en, hg, Option.some.inj g3, hs⟩
  · intro k hk
    obtain ⟨h6, h7⟩ := h5 k (by omega) (by omega)
    obtain ⟨m, g1⟩ := hget (k + 1) (by omega)
    have g2 := hinob k m (by omega) g1
    cases m with
    | proc id argv fds rsx =>
      refine .inl ⟨by simp [Net.inFd, started, g1], by simp [Net.outFd, started, g1], fun s => ⟨?_, ?_⟩⟩
      · rintro (⟨j, id', argv', fds', rs'', n, st, f1, f2, f3⟩ | ⟨fd, en, f1, f2, -⟩)
        · obtain ⟨rfl, -⟩ := (h6 j _ _ ((hseg j _).1 f1) (List.mem_singleton.2 rfl)).2 ⟨n, f3⟩
          exact ⟨st, f2⟩
        · rcases (h7 fd en f1).2 f2 with ⟨s', f3, f4⟩ | ⟨l, f3, f4⟩ | f3
          · rw [(hseg (k + 1) _).1 g1] at f3; cases f3; cases f4
          · exact absurd (hp.2 k l f3).1 f4
          · omega
      · rintro ⟨st, f2⟩
        exact .inl ⟨k + 1, _, _, _, _, 0, st, g1, f2, g2⟩
    | func id inFd outFd rsx =>
      cases inFd with
      | none => cases g2
      | some n =>
        have g2 : (w'.fds.get n).map Entry.obj = some (.pipeR (q k)) := g2
        refine .inr ⟨n, by simp [Net.inFd, started, g1], fun j => (hholdR k j n (by omega) (by omega) g2).1,
          fun j => (hholdR k j n (by omega) (by omega) g2).2, fun s => ⟨?_, ?_⟩⟩
        · rintro (⟨j, id', argv', fds', rs'', n', st, f1, f2, f3⟩ | ⟨fd, en, f1, f2, f5⟩)
          · obtain ⟨rfl, -⟩ := (h6 j _ _ ((hseg j _).1 f1) (List.mem_singleton.2 rfl)).2 ⟨n', f3⟩
            rw [show items[k + 1]? = some _ from f1] at g1; cases g1
          · rcases (h7 fd en f1).2 f2 with ⟨s', f3, f4⟩ | ⟨l, f3, f4⟩ | f3
            · rw [(hseg (k + 1) _).1 g1] at f3; cases f3
              simp only [heldFds, List.mem_append, Option.mem_toList, List.mem_cons, List.not_mem_nil, or_false, Option.some.injEq] at f4
              rcases f4 with rfl | rfl
              · exact f5
              · refine absurd ?_ (hholdR k (k + 1) fd (by omega) (by omega) ?_).2
                · simp only [Net.outFd, started, g1]
                · rw [show w'.fds.get fd = some en from f1, Option.map_some, f2]
            · exact absurd (hp.2 k l f3).1 f4
            · omega
        · intro hs
          cases hg : w'.fds.get n with
          | none => rw [hg] at g2; cases g2
          | some en => rw [hg] at g2; exact .inr ⟨n, en, hg, Option.some.inj g2, hs⟩
  · intro u hu
    simp only [started] at hu
    split at hu
    · next hpo =>
      obtain ⟨r, u', g1, g2, g3⟩ := h4 hpo
      rw [huser hpo] at hu
      cases hu
      refine ⟨u', fun j => ⟨fun h => ?_, (hholdR _ j u' (by omega) (fun _ => hpo) g3).2⟩, fun s hs => ?_⟩
      · have hj := (hholdR _ j u' (by omega) (fun _ => hpo) g3).1 h
        simp only [Net.inFd, started] at h
        split at h
        · next hx => have := (List.getElem?_eq_some_iff.1 hx).1; omega
        · cases h
      · cases hg : w'.fds.get u' with
        | none => rw [hg] at g3; cases g3
        | some en =>
          rw [hg] at g3
          exact .inr ⟨u', en, hg, Option.some.inj g3, hs⟩
    · cases hu
  · intro k l hl
    obtain ⟨m, g1, -, -, g2⟩ := hone k l hl
    have g1 := (hseg k m).2 g1
    rcases g2 with ⟨id, argv, fds, rsx, rfl, -, g3⟩ | ⟨id, inFd, outFd, rsx, rfl, g3⟩ | ⟨id, outFd, rsx, rfl, g3⟩
    · simp [Net.inFd, started, g1, g3]
    · simp [Net.inFd, started, g1, g3]
    · simp [Net.inFd, started, g1, g3]

theorem started_chain {sys : Sys} {cwd : Str} {w : World} {rs : Redirects} {p : Pipeline} {i : Obj} {o e : Want}
    (hs : Startable sys cwd w rs p i o e) (hp : Mixed p) (hm : w.PipesMade) :
    ∃ items rs' w' q, runP sys cwd p rs w = (.ok (items, rs'), w') ∧ items.map Item.id = p.ids ∧
      (p.outWant cwd o = .pipeOut → userPipe w' rs' = some (q (p.links.length - 1))) ∧
      ∀ cap : Nat → Nat, (∀ k, 0 < cap k) → IsChain (started cwd w p o items rs' w' cap) p.links.length q ∧
        ∀ (k : Nat) (l : Link), p.links[k]? = some l →
          ((∃ fd, (started cwd w p o items rs' w' cap).inFd k = some fd) ↔ ∃ id, l.leaf = .func id) := by
  obtain ⟨items, rs', w', q, h1, h2, h3, -, h4⟩ := started_chain_kinds hs hp hm
  exact ⟨items, rs', w', q, h1, h2, h3, h4⟩

end Pieshell.Flow
