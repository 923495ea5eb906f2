import Verif.Lemmas.Subst3
/-!
# Functions that read to the end
-/
namespace Pieshell.Subst
open Flow (Bytes Net Proc upd close sumTo upd_same upd_ne close_ne close_same)
variable {σ : Type} {prog : Prog σ} {net : Net} {N : Nat} {q : Nat → Nat} {fd : Nat → Nat → Option Nat} {quiet : List Nat} {out : Nat → Bytes}
  {code : Nat → Nat} {n : Nat}

theorem Greedy.read {st : σ} {j j' : Nat} {f : Option UInt8 → σ} (h : Greedy prog j st) (ho : prog.next st = .read j' f) (b : UInt8) :
    Greedy prog j (f (some b)) := by
  obtain ⟨P, h1, h2⟩ := h
  exact ⟨P, ((h2 st h1).2.2 j' f ho).1 b, h2⟩
theorem Greedy.eof {st : σ} {j j' : Nat} {f : Option UInt8 → σ} (h : Greedy prog j st) (ho : prog.next st = .read j' f) (hj : j' ≠ j) :
    Greedy prog j (f none) := by
  obtain ⟨P, h1, h2⟩ := h
  exact ⟨P, ((h2 st h1).2.2 j' f ho).2 hj, h2⟩
theorem Greedy.write {st st' : σ} {j : Nat} {b : UInt8} (h : Greedy prog j st) (ho : prog.next st = .write b st') : Greedy prog j st' := by
  obtain ⟨P, h1, h2⟩ := h
  exact ⟨P, (h2 st h1).2.1 b st' ho, h2⟩
theorem Greedy.exit {st : σ} {j c : Nat} (h : Greedy prog j st) (ho : prog.next st = .exit c) : False := by
  obtain ⟨P, h1, h2⟩ := h
  exact (h2 st h1).1 c ho

/-- Items that have to read input `j` to the end go on until the item that writes there has ended. -/
def Waits (prog : Prog σ) (fd : Nat → Nat → Option Nat) (G : Nat → Nat → Prop) (s : St σ) : Prop :=
  ∀ m j x, G m j → fd m j = some x → s.cut m = false →
    (∃ st, s.proc m = .running st ∧ Greedy prog j st) ∨ ((∀ st, s.proc x ≠ .running st) ∧ s.cut x = false)

theorem waits_item {G : Nat → Nat → Prop} (hn : IsTree net N q fd quiet) {s t : St σ} (hw : Waits prog fd G s) {k : Nat} {st : σ} (hr : s.proc k = .running st)
    (hproc : ∀ m, m ≠ k → t.proc m = s.proc m) (hcut : ∀ m, m ≠ k → t.cut m = s.cut m)
    (hk : t.cut k = false → s.cut k = false ∧ ∀ j x, fd k j = some x → Greedy prog j st →
      (∃ st', t.proc k = .running st' ∧ Greedy prog j st') ∨ ((∀ st, s.proc x ≠ .running st) ∧ s.cut x = false)) : Waits prog fd G t := by
  intro m j x hG hf hc
  have keep : ((∀ st, s.proc x ≠ .running st) ∧ s.cut x = false) → (∀ st, t.proc x ≠ .running st) ∧ t.cut x = false := by
    rintro ⟨h1, h2⟩
    have hxk : x ≠ k := by rintro rfl; exact h1 st hr
    rw [hproc x hxk, hcut x hxk]; exact ⟨h1, h2⟩
  by_cases hmk : m = k
  · subst hmk
    obtain ⟨h1, h2⟩ := hk hc
    rcases hw m j x hG hf h1 with ⟨st', h3, h4⟩ | h3
    · rw [hr] at h3; cases h3
      exact (h2 j x hf h4).imp id keep
    · exact .inr (keep h3)
  · rw [hcut m hmk] at hc
    rw [hproc m hmk]
    exact (hw m j x hG hf hc).imp id keep

theorem waits_step {G : Nat → Nat → Prop} (hn : IsTree net N q fd quiet) {B L : Nat} {s t : St σ} {left : Nat → Nat}
    (hi : Inv prog net N q fd quiet out code n B L s left) (hw : Waits prog fd G s) (h : Step prog net s t) : Waits prog fd G t := by
  cases h with
  | @read k j st f p b rest hk hr ho hh hs hb =>
    exact waits_item hn hw hr (fun m hm => upd_ne _ _ hm) (fun _ _ => rfl) fun hc => ⟨hc, fun j' x hf hg => .inl ⟨_, upd_same _ _ _, hg.read ho b⟩⟩
  | @eof k j st f p hk hr ho hh hs hb hop =>
    rw [hn.len] at hk
    refine waits_item hn hw hr (fun m hm => upd_ne _ _ hm) (fun _ _ => rfl) fun hc => ⟨hc, fun j' x hf hg => ?_⟩
    by_cases hj : j = j'
    · subst hj
      rw [hn.slotF k j x hf] at hs; cases hs
      have hx := hn.feedlt k j x hf
      have hop' : Open net s (.pipeR (q x)) := by
        refine reader_open hn hi hf ?_
        rcases hn.openF k j x hf with ⟨h1, -⟩ | ⟨rfl, n', h1, -⟩
        · exact .inl ⟨h1, st, hr⟩
        · have hh : net.inFd k = none := hh
          rw [h1] at hh; cases hh
      obtain ⟨u1, u2, -⟩ := ended_uncut hn hi (by omega) hop' hop
      exact .inr ⟨u1, u2⟩
    · exact .inl ⟨_, upd_same _ _ _, hg.eof ho hj⟩
  | @readExt k j st f b rest hk hr ho hh hs hb =>
    exact waits_item hn hw hr (fun m hm => upd_ne _ _ hm) (fun _ _ => rfl) fun hc => ⟨hc, fun j' x hf hg => .inl ⟨_, upd_same _ _ _, hg.read ho b⟩⟩
  | @eofExt k j st f hk hr ho hh hs hb =>
    refine waits_item hn hw hr (fun m hm => upd_ne _ _ hm) (fun _ _ => rfl) fun hc => ⟨hc, fun j' x hf hg => ?_⟩
    by_cases hj : j = j'
    · subst hj; rw [hn.slotF k j x hf] at hs; cases hs
    · exact .inl ⟨_, upd_same _ _ _, hg.eof ho hj⟩
  | fetch => exact hw
  | hup => exact hw
  | fetchExt => exact hw
  | hupExt => exact hw
  | @take k j fdk st f b rest hk hr ho hh hb =>
    exact waits_item hn hw hr (fun m hm => upd_ne _ _ hm) (fun _ _ => rfl) fun hc => ⟨hc, fun j' x hf hg => .inl ⟨_, upd_same _ _ _, hg.read ho b⟩⟩
  | @takeEof k j fdk st f hk hr ho hh hb he =>
    obtain ⟨rfl, hfd⟩ := handler_some hh
    refine waits_item hn hw hr (fun m hm => upd_ne _ _ hm) (fun _ _ => rfl) fun hc => ⟨hc, fun j' x hf hg => ?_⟩
    by_cases hj : 0 = j'
    · subst hj; exact .inr (hi.hand.ended k x hf he)
    · exact .inl ⟨_, upd_same _ _ _, hg.eof ho hj⟩
  | @write k st st' b p hk hr ho hp hroom hop =>
    exact waits_item hn hw hr (fun m hm => upd_ne _ _ hm) (fun _ _ => rfl) fun hc => ⟨hc, fun j' x hf hg => .inl ⟨_, upd_same _ _ _, hg.write ho⟩⟩
  | @sigpipe k st st' b p hk hr ho hp hop he =>
    exact waits_item hn hw hr (fun m hm => upd_ne _ _ hm) (fun m hm => upd_ne _ _ hm) fun hc => by simp only [upd_same] at hc; cases hc
  | @epipe k st st' st'' b p hk hr ho hp hop hfd he =>
    exact waits_item hn hw hr (fun m hm => upd_ne _ _ hm) (fun m hm => upd_ne _ _ hm) fun hc => by simp only [upd_same] at hc; cases hc
  | @writeExt k st st' b hk hr ho hp =>
    exact waits_item hn hw hr (fun m hm => upd_ne _ _ hm) (fun _ _ => rfl) fun hc => ⟨hc, fun j' x hf hg => .inl ⟨_, upd_same _ _ _, hg.write ho⟩⟩
  | @exit k st c hk hr ho =>
    exact waits_item hn hw hr (fun m hm => upd_ne _ _ hm) (fun _ _ => rfl) fun hc => ⟨hc, fun j' x hf hg => (hg.exit ho).elim⟩
  | user => exact hw

theorem waits_steps {G : Nat → Nat → Prop} (hn : IsTree net N q fd quiet) {init : Nat → σ} {src : Nat → Nat → Bytes} {c : Nat → Nat}
    (hrun : ∀ k, k < N → RunsN prog (c k) (init k) (whole fd src out k) (out k) (code k))
    (hq : ∀ k ∈ quiet, NoStdin prog (init k)) (hG : ∀ m j, G m j → Greedy prog j (init m)) {L : Nat} {s : St σ}
    (h : Steps prog net L (St.start init src) s) : Waits prog fd G s := by
  generalize hs0 : St.start init src = s0 at h
  induction h with
  | nil => subst hs0; exact fun m j x g _ _ => .inl ⟨_, rfl, hG m j g⟩
  | snoc hst hs ih =>
    subst hs0
    obtain ⟨left, hi⟩ := inv_steps (n := 0) (out := out) (code := code) hn hrun hq hst
    exact waits_step hn hi (ih rfl) hs

/-- No write of such an item fails. -/
theorem waits_uncut {G : Nat → Nat → Prop} (hn : IsTree net N q fd quiet) {B L : Nat} {s : St σ} {left : Nat → Nat}
    (hi : Inv prog net N q fd quiet out code n B L s left) (hw : Waits prog fd G s) (hG : ∀ m j x i, G x i → fd m j = some x → G m j) (d : Nat) :
    ∀ x i, x + d + 1 = N → G x i → s.cut x = false := by
  induction d using Nat.strongRecOn with
  | ind d ih =>
    intro x i hd hg
    by_cases hx : x + 1 < N
    · obtain ⟨m, j, hf⟩ := hn.reader x hx
      have hlt := hn.feedlt m j x hf
      have hgm := hG m j x i hg hf
      have hcm := ih (N - 1 - m) (by omega) m j (by omega) hgm
      cases hc : s.cut x with
      | false => rfl
      | true =>
        obtain ⟨-, h2⟩ := cut_reader hn hi hc hf
        rcases hw m j x hgm hf hcm with ⟨st, h3, -⟩ | ⟨-, h3⟩
        · exact absurd h3 (h2 st)
        · rw [hc] at h3; cases h3
    · obtain rfl : x = N - 1 := by omega
      exact last_uncut hn hi

/-- ... and everything comes to an end. -/
theorem waits_ended {G : Nat → Nat → Prop} (hn : IsTree net N q fd quiet) {B L : Nat} {s : St σ} {left : Nat → Nat}
    (hi : Inv prog net N q fd quiet out code n B L s left) (hw : Waits prog fd G s) (hG : ∀ m j x i, G x i → fd m j = some x → G m j)
    (hF : ∀ m j x, net.inFd m ≠ none → fd m j = some x → G m j) (hs : ∀ t, ¬ Step prog net s t) : ∀ k, k < N → ∀ st, s.proc k ≠ .running st := by
  intro k hk st hr
  obtain ⟨x, m, -, h1, h2, ⟨st', h3⟩, h4⟩ := stuck_running hn hi hs (N - 1 - k) k (by omega) st hr
  have hlt := hn.feedlt m 0 x h1
  have hg := hF m 0 x h2 h1
  have hc := waits_uncut hn hi hw hG (N - 1 - m) m 0 (by omega) hg
  rcases hw m 0 x hg h1 hc with ⟨st, h5, -⟩ | ⟨h5, -⟩
  · exact h4 st h5
  · exact h5 st' h3

end Pieshell.Subst
