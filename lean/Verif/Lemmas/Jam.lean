import Verif.Spec.Jam
import Verif.Lemmas.Subst2
/-!
# Items that wait for each other
-/
namespace Pieshell.Jam
open Subst (At Foreign foreign_file)
variable {sys : Sys} {cwd : Str}

/-- Item `k` has the read end of pipe `q` open. -/
def Rd (G : List RItem) (k q : Nat) : Prop := ∃ y, G[k]? = some y ∧ .pipeR q ∈ y.objs
/-- ... the write end -/
def Wr (G : List RItem) (k q : Nat) : Prop := ∃ y, G[k]? = some y ∧ .pipeW q ∈ y.objs

/-- Items `W` wait, at pipes of which some are empty (`E`) and some are full (`F`), for others that wait. -/
structure Jam (G : List RItem) (lo : Nat) (W E F : Nat → Prop) : Prop where
  excl : ∀ q, E q → F q → False
  wait : ∀ k, W k → (∃ q, lo ≤ q ∧ Rd G k q ∧ E q ∧ ∃ k', W k' ∧ Wr G k' q) ∨ (∃ q, lo ≤ q ∧ Wr G k q ∧ F q ∧ ∃ k', W k' ∧ Rd G k' q)

/-- Somebody waits at the empty pipe that is the input `i`, for somebody who has it open for writing. -/
def AtIn (G : List RItem) (lo : Nat) (W E : Nat → Prop) (i : Obj) : Prop := ∃ q, i = .pipeR q ∧ lo ≤ q ∧ E q ∧ ∃ k', W k' ∧ Wr G k' q
/-- Somebody waits at the full pipe `q`, for somebody who has it open for reading. -/
def AtOut (G : List RItem) (W F : Nat → Prop) (q : Nat) : Prop := F q ∧ ∃ k', W k' ∧ Rd G k' q

/-- Of the pipes `cp`, ..., `cp' - 1`, items other than `n`, ..., `n + k - 1` have only those read ends open that are `allowed`. -/
def Ctx (G : List RItem) (n k cp cp' : Nat) (allowed : Nat → Prop) : Prop :=
  ∀ m q, ¬ (n ≤ m ∧ m < n + k) → cp ≤ q → q < cp' → (Rd G m q → allowed q) ∧ ¬ Wr G m q

/-- Where the input comes from. -/
def InOk (lo : Nat) (i : Obj) (c : Ctr) : Prop := Foreign lo i ∨ ∃ q, q < c.p ∧ i = .pipeR q

theorem InOk.mono {lo : Nat} {i : Obj} {c c' : Ctr} (h : InOk lo i c) (hc : c.p ≤ c'.p) : InOk lo i c' := by
  rcases h with h | ⟨q, h1, h2⟩
  · exact .inl h
  · exact .inr ⟨q, by omega, h2⟩

theorem made_pipe {c c' : Ctr} {ob : Obj} {q : Nat} (h : Made c c' ob) (hq : ob = .pipeR q ∨ ob = .pipeW q) : c.p ≤ q ∧ q < c'.p := by
  rcases h with ⟨n, h1, h2, h3⟩ | ⟨n, _, _, h3⟩ | ⟨_, _, _, _, h3⟩
  · rcases h3 with h3 | h3 <;> rcases hq with hq | hq <;> rw [h3] at hq <;> cases hq <;> exact ⟨h1, h2⟩
  · rcases hq with hq | hq <;> rw [h3] at hq <;> cases hq
  · rcases hq with hq | hq <;> rw [h3] at hq <;> cases hq

/-- The items of a pipeline have only these pipes open. -/
theorem refs {G : List RItem} {lo n : Nat} {p : Pipeline} (hR : p.Redirectable sys cwd) {i : Obj} {o e : Want} {c : Ctr}
    (hof : ∀ ob, o = .obj ob → Foreign lo ob) (hef : ∀ ob, e = .obj ob → Foreign lo ob) (hi : InOk lo i c)
    (hat : At G n (refRun cwd p i o e c).items) {k q : Nat} (h1 : n ≤ k) (h2 : k < n + (refRun cwd p i o e c).items.length) (hq : lo ≤ q) :
    (Rd G k q → i = .pipeR q ∨ (c.p ≤ q ∧ q < (refRun cwd p i o e c).ctr.p)) ∧ (Wr G k q → c.p ≤ q ∧ q < (refRun cwd p i o e c).ctr.p) := by
  have hO := (refRun_objs (sys := sys) p hR i o e c).1
  constructor
  · rintro ⟨y, hy, hm⟩
    rw [hat.get h1 h2] at hy
    rcases hO y (List.mem_of_getElem? hy) _ hm with h | h | h | h
    · exact .inl h.symm
    · exact absurd rfl (hof _ h q hq).2
    · exact absurd rfl (hef _ h q hq).2
    · exact .inr (made_pipe h (.inl rfl))
  · rintro ⟨y, hy, hm⟩
    rw [hat.get h1 h2] at hy
    rcases hO y (List.mem_of_getElem? hy) _ hm with h | h | h | h
    · rcases hi with hi | ⟨_, _, hi⟩
      · exact absurd h.symm (hi q hq).1
      · rw [hi] at h; cases h
    · exact absurd rfl (hof _ h q hq).1
    · exact absurd rfl (hef _ h q hq).1
    · exact made_pipe h (.inr rfl)

theorem refsArgs {G : List RItem} {lo n : Nat} {a : Args} (hR : a.Redirectable sys cwd) {i o e : Obj} {c : Ctr}
    (hof : Foreign lo o ∨ ∃ q, q < c.p ∧ o = .pipeW q) (hef : Foreign lo e) (hi : InOk lo i c)
    (hat : At G n (refArgs cwd a i o e c).items) {k q : Nat} (h1 : n ≤ k) (h2 : k < n + (refArgs cwd a i o e c).items.length) (hq : lo ≤ q) :
    (Rd G k q → i = .pipeR q ∨ (c.p ≤ q ∧ q < (refArgs cwd a i o e c).ctr.p)) ∧ (Wr G k q → o = .pipeW q ∨ (c.p ≤ q ∧ q < (refArgs cwd a i o e c).ctr.p)) := by
  have hO := (refArgs_objs (sys := sys) a hR i o e c).1
  constructor
  · rintro ⟨y, hy, hm⟩
    rw [hat.get h1 h2] at hy
    rcases hO y (List.mem_of_getElem? hy) _ hm with h | h | h | h
    · exact .inl h.symm
    · rcases hof with hof | ⟨_, _, hof⟩
      · exact absurd h.symm (hof q hq).2
      · rw [hof] at h; cases h
    · exact absurd h.symm (hef q hq).2
    · exact .inr (made_pipe h (.inl rfl))
  · rintro ⟨y, hy, hm⟩
    rw [hat.get h1 h2] at hy
    rcases hO y (List.mem_of_getElem? hy) _ hm with h | h | h | h
    · rcases hi with hi | ⟨_, _, hi⟩
      · exact absurd h.symm (hi q hq).1
      · rw [hi] at h; cases h
    · exact .inl h.symm
    · exact absurd h.symm (hef q hq).1
    · exact .inr (made_pipe h (.inr rfl))

/-- Over a redirected pipeline. -/
theorem over_hyps {lo : Nat} {p : Pipeline} {crs : Redirects} (hR : (Pipeline.redirect p crs).Redirectable sys cwd) {i : Obj} {o e : Want} {c : Ctr}
    (hof : ∀ ob, o = .obj ob → Foreign lo ob) (hef : ∀ ob, e = .obj ob → Foreign lo ob) (ho : o.Out) (he : e.Plain) (hi : InOk lo i c) :
    (∀ ob, crs.over cwd 1 o = .obj ob → Foreign lo ob) ∧ (∀ ob, crs.over cwd 2 e = .obj ob → Foreign lo ob) ∧ (crs.over cwd 1 o).Out ∧ (crs.over cwd 2 e).Plain ∧
      InOk lo (crs.overIn cwd i) c := by
  simp only [Pipeline.Redirectable] at hR
  obtain ⟨hRp, hb, hs⟩ := hR
  refine ⟨?_, ?_, orWant_out ho, orWant_plain he fun r hr => ?_, ?_⟩
  · intro ob h
    rcases orWant_obj h with h | ⟨_, _, _, rfl⟩
    · exact hof ob h
    · exact foreign_file _ _ _ _ _
  · intro ob h
    rcases orWant_obj h with h | ⟨_, _, _, rfl⟩
    · exact hef ob h
    · exact foreign_file _ _ _ _ _
  · have hv := hb.wf.value_of_get? hr
    exact (hs r hv.1).two hv.2
  · rcases orIn_cases (cwd := cwd) (Dict.get? crs 0) i with h | ⟨_, _, _, h⟩
    · simp only [Redirects.overIn, h]; exact hi
    · simp only [Redirects.overIn, h]; exact .inl (foreign_file _ _ _ _ _)

/-- No item of a pipeline reads from the pipe that its output goes to. -/
theorem out_unread {G : List RItem} {lo : Nat} : (p : Pipeline) → p.Redirectable sys cwd → {n : Nat} → {i : Obj} → {o e : Want} → {c : Ctr} → lo ≤ c.p → o.Out → e.Plain →
    (∀ ob, o = .obj ob → Foreign lo ob) → (∀ ob, e = .obj ob → Foreign lo ob) → InOk lo i c → At G n (refRun cwd p i o e c).items → p.outWant cwd o = .pipeOut →
    ∀ k, n ≤ k → k < n + (refRun cwd p i o e c).items.length → ¬ Rd G k (refRun cwd p i o e c).out
  | .command id args, hR, n, i, o, e, c, hlo, ho, he, hof, hef, hi, hat, hw, k, h1, h2 => by
    simp only [Pipeline.outWant] at hw; subst hw
    simp only [Pipeline.Redirectable] at hR
    have hp : Want.pipeOut.pick c = (.pipeW c.p, { c with p := c.p + 1 }) := rfl
    have heb := made_pick e { c with p := c.p + 1 }
    have hple := pick_le e { c with p := c.p + 1 }
    rintro ⟨y, hy, hm⟩
    rw [hat.get h1 h2] at hy
    have hy := List.mem_of_getElem? hy
    simp only [refRun, hp] at hy hm
    have hEb : (e.pick { c with p := c.p + 1 }).1 ≠ .pipeR c.p := by
      rcases heb with h | h
      · exact (hef _ h c.p hlo).2
      · intro h'; have := (made_pipe h (.inl h')).1; simp only at this; omega
    have hI : i ≠ .pipeR c.p := by
      rcases hi with hi | ⟨q, hq, hi⟩
      · exact (hi c.p hlo).2
      · rw [hi]; intro h; cases h; omega
    obtain ⟨A, B, -⟩ := refArgs_objs (sys := sys) args hR i (.pipeW c.p) (e.pick { c with p := c.p + 1 }).1 (e.pick { c with p := c.p + 1 }).2
    simp only at hple
    rcases List.mem_append.1 hy with hy | hy
    · rcases A y hy _ hm with h | h | h | h
      · exact hI h.symm
      · cases h
      · exact hEb h.symm
      · have := made_pipe h (.inl rfl); omega
    · simp only [List.mem_singleton] at hy
      subst hy
      simp only [RItem.objs, List.mem_cons] at hm
      rcases hm with h | h | h | h
      · exact hI h.symm
      · cases h
      · exact hEb h.symm
      · have := made_pipe (B _ h) (.inl rfl); omega
  | .func id, hR, n, i, o, e, c, hlo, ho, he, hof, hef, hi, hat, hw, k, h1, h2 => by
    simp only [Pipeline.outWant] at hw; subst hw
    rintro ⟨y, hy, hm⟩
    rw [hat.get h1 h2] at hy
    have hy := List.mem_of_getElem? hy
    simp only [refRun, List.mem_singleton] at hy hm
    subst hy
    simp only [RItem.objs, Option.toList, List.cons_append, List.nil_append, List.mem_cons, List.not_mem_nil, or_false] at hm
    rcases hm with h | h
    · rcases hi with hi | ⟨q, hq, hi⟩
      · exact (hi c.p hlo).2 h.symm
      · rw [hi] at h; cases h; omega
    · cases h
  | .iter id, hR, n, i, o, e, c, hlo, ho, he, hof, hef, hi, hat, hw, k, h1, h2 => by
    simp only [Pipeline.outWant] at hw; subst hw
    rintro ⟨y, hy, hm⟩
    rw [hat.get h1 h2] at hy
    have hy := List.mem_of_getElem? hy
    simp only [refRun, List.mem_singleton] at hy hm
    subst hy
    simp [RItem.objs] at hm
    cases hm
  | .pipe a b, hR, n, i, o, e, c, hlo, ho, he, hof, hef, hi, hat, hw, k, h1, h2 => by
    simp only [Pipeline.Redirectable] at hR
    simp only [Pipeline.outWant] at hw
    simp only [refRun] at hat h2 ⊢
    have m1 := refRun_mono (cwd := cwd) a i .pipeOut e c
    have q1 := refRun_out (cwd := cwd) a i .pipeOut e c
    have q1' := q1.2 hR.2.2
    have q2 := refRun_out (cwd := cwd) b (.pipeR (refRun cwd a i .pipeOut e c).out) o e (refRun cwd a i .pipeOut e c).ctr
    by_cases hk : k < n + (refRun cwd a i .pipeOut e c).items.length
    · intro h
      rcases (refs hR.1 (by simp) hef hi hat.left h1 hk (by omega)).1 h with h | h
      · rcases hi with hi | ⟨q, hq, hi⟩
        · exact (hi _ (by omega)).2 h
        · have h := hi.symm.trans h; injection h; omega
      · omega
    · rw [List.length_append] at h2
      exact out_unread b hR.2.1 (c := (refRun cwd a i .pipeOut e c).ctr) (by omega) ho he hof hef (.inr ⟨_, q1', rfl⟩) hat.right hw k (by omega) (by omega)
  | .group a b, hR, n, i, o, e, c, hlo, ho, he, hof, hef, hi, hat, hw, k, h1, h2 => by
    simp only [Pipeline.Redirectable] at hR
    simp only [Pipeline.outWant] at hw
    simp only [refRun] at hat h2 ⊢
    have m1 := refRun_mono (cwd := cwd) a i o e c
    have q2 := refRun_out (cwd := cwd) b i o e (refRun cwd a i o e c).ctr
    by_cases hk : k < n + (refRun cwd a i o e c).items.length
    · intro h
      rcases (refs hR.1 hof hef hi hat.left h1 hk (by omega)).1 h with h | h
      · rcases hi with hi | ⟨q, hq, hi⟩
        · exact (hi _ (by omega)).2 h
        · have h := hi.symm.trans h; injection h; omega
      · omega
    · rw [List.length_append] at h2
      exact out_unread b hR.2 (c := (refRun cwd a i o e c).ctr) (by omega) ho he hof hef (hi.mono m1.1) hat.right hw k (by omega) (by omega)
  | .redirect p crs, hR, n, i, o, e, c, hlo, ho, he, hof, hef, hi, hat, hw, k, h1, h2 => by
    obtain ⟨g1, g2, g3, g4, g5⟩ := over_hyps hR hof hef ho he hi
    simp only [refRun] at hat h2 ⊢
    simp only [Pipeline.outWant] at hw
    have hRp : p.Redirectable sys cwd := by simp only [Pipeline.Redirectable] at hR; exact hR.1
    exact out_unread p hRp hlo g3 g4 g1 g2 g5 hat hw k h1 h2

variable {G : List RItem} {lo : Nat} {W E F : Nat → Prop}

mutual
theorem jam_run (J : Jam G lo W E F) : (p : Pipeline) → p.Redirectable sys cwd → {n : Nat} → {i : Obj} → {o e : Want} → {c : Ctr} → lo ≤ c.p → o.Out → e.Plain →
    (∀ ob, o = .obj ob → Foreign lo ob) → (∀ ob, e = .obj ob → Foreign lo ob) → InOk lo i c → At G n (refRun cwd p i o e c).items →
    Ctx G n (refRun cwd p i o e c).items.length c.p (refRun cwd p i o e c).ctr.p (fun q => p.outWant cwd o = .pipeOut ∧ q = (refRun cwd p i o e c).out) →
    ∀ k, n ≤ k → k < n + (refRun cwd p i o e c).items.length → W k →
      AtIn G lo W E i ∨ (p.outWant cwd o = .pipeOut ∧ AtOut G W F (refRun cwd p i o e c).out)
  | .command id args, hR, n, i, o, e, c, hlo, ho, he, hof, hef, hi, hat, hctx, k, h1, h2, hW => by
    simp only [Pipeline.Redirectable] at hR
    have hob := made_pick o c
    have heb := made_pick e (o.pick c).2
    have l1 := pick_le o c
    have l2 := pick_le e (o.pick c).2
    simp only [refRun] at hat h2 hctx ⊢
    simp only [Pipeline.outWant] at hctx ⊢
    have hO : Foreign lo (o.pick c).1 ∨ ∃ q, q < (e.pick (o.pick c).2).2.p ∧ (o.pick c).1 = .pipeW q := by
      cases o with
      | obj b => exact .inl (hof b rfl)
      | tmp => exact .inl (fun q _ => ⟨by simp [Want.pick], by simp [Want.pick]⟩)
      | pipeOut => exact .inr ⟨c.p, by simp only [Want.pick] at l2 ⊢; omega, rfl⟩
      | pipeIn => exact ho.elim
    have hE : Foreign lo (e.pick (o.pick c).2).1 := by
      cases e with
      | obj b => exact hef b rfl
      | tmp => exact fun q _ => ⟨by simp [Want.pick], by simp [Want.pick]⟩
      | pipeOut => exact he.elim
      | pipeIn => exact he.elim
    have hOF : ∀ q, lo ≤ q → (o.pick c).1 = .pipeW q → o = .pipeOut ∧ q = c.p := by
      intro q hq h
      cases o with
      | obj b => exact absurd h (hof b rfl q hq).1
      | tmp => cases h
      | pipeOut => cases h; exact ⟨rfl, rfl⟩
      | pipeIn => cases h
    obtain ⟨R, hRe⟩ : ∃ R, R = refArgs cwd args i (o.pick c).1 (e.pick (o.pick c).2).1 (e.pick (o.pick c).2).2 := ⟨_, rfl⟩
    have hma := refArgs_mono (cwd := cwd) args i (o.pick c).1 (e.pick (o.pick c).2).1 (e.pick (o.pick c).2).2
    have hlen : (R.items ++ [RItem.proc id R.words i (o.pick c).1 (e.pick (o.pick c).2).1]).length = R.items.length + 1 := by simp
    have hcmd : G[n + R.items.length]? = some (.proc id R.words i (o.pick c).1 (e.pick (o.pick c).2).1) := by
      have := hat.right 0 (RItem.proc id R.words i (o.pick c).1 (e.pick (o.pick c).2).1) (by rw [hRe]; rfl)
      rw [← hRe] at this; exact this
    have hi' : InOk lo i (e.pick (o.pick c).2).2 := hi.mono (by omega)
    have hI : ∀ q, c.p ≤ q → i ≠ .pipeR q := by
      intro q hq
      rcases hi with hi | ⟨q', hq', hi⟩
      · exact (hi q (by omega)).2
      · rw [hi]; intro h; cases h; omega
    have hIW : ∀ q, lo ≤ q → i ≠ .pipeW q := by
      intro q hq
      rcases hi with hi | ⟨q', hq', hi⟩
      · exact (hi q hq).1
      · rw [hi]; intro h; cases h
    have hOR : ∀ q, lo ≤ q → (o.pick c).1 ≠ .pipeR q := by
      intro q hq
      rcases hO with h | ⟨_, _, h⟩
      · exact (h q hq).2
      · rw [h]; intro h; cases h
    have hcR : ∀ q, lo ≤ q → Rd G (n + R.items.length) q → i = .pipeR q ∨ .pipeR q ∈ devObjs R.words := by
      rintro q hq ⟨y, hy, hm⟩
      rw [hcmd] at hy; cases hy
      simp only [RItem.objs, List.mem_cons] at hm
      rcases hm with h | h | h | h
      · exact .inl h.symm
      · exact absurd h.symm (hOR q hq)
      · exact absurd h.symm (hE q hq).2
      · exact .inr h
    have hcW : ∀ q, lo ≤ q → Wr G (n + R.items.length) q → (o.pick c).1 = .pipeW q ∨ .pipeW q ∈ devObjs R.words := by
      rintro q hq ⟨y, hy, hm⟩
      rw [hcmd] at hy; cases hy
      simp only [RItem.objs, List.mem_cons] at hm
      rcases hm with h | h | h | h
      · exact absurd h.symm (hIW q hq)
      · exact .inl h.symm
      · exact absurd h.symm (hE q hq).1
      · exact .inr h
    have A := jam_args J args hR (n := n) (m := n + R.items.length) (show lo ≤ (e.pick (o.pick c).2).2.p by omega) hO hE hi' hat.left
      (by rw [← hRe]; omega)
      (by
        intro m q hm hmm hq1 hq2
        rw [← hRe] at hm hq2
        have := hctx m q (by rw [← hRe, hlen]; omega) (by omega) (by rw [← hRe]; exact hq2)
        refine ⟨fun h => ?_, this.2⟩
        obtain ⟨ho', hq'⟩ := this.1 h
        subst ho' hq'
        simp only [Want.pick] at hq1 l2
        omega)
      (by
        intro q hq1 hq2 h
        rw [← hRe]
        rcases hcR q (by omega) h with h | h
        · exact absurd h (hI q (by omega))
        · exact h)
      (by
        intro q hq1 hq2 h
        rw [← hRe]
        rcases hcW q (by omega) h with h | h
        · obtain ⟨ho', hq'⟩ := hOF q (by omega) h
          subst ho' hq'
          simp only [Want.pick] at hq1 l2
          omega
        · exact h)
    rw [← hRe] at A
    obtain ⟨A1, A2, A3⟩ := A
    have fin : (AtIn G lo W E i ∨ ∃ q, (o.pick c).1 = .pipeW q ∧ lo ≤ q ∧ AtOut G W F q) → AtIn G lo W E i ∨ (o = .pipeOut ∧ AtOut G W F c.p) := by
      rintro (h | ⟨q, h, hq, hF⟩)
      · exact .inl h
      · obtain ⟨a, b⟩ := hOF q hq h
        subst b
        exact .inr ⟨a, hF⟩
    have hcmdW : W (n + R.items.length) → AtIn G lo W E i ∨ (o = .pipeOut ∧ AtOut G W F c.p) := by
      intro hw
      rcases J.wait _ hw with ⟨q, hq, hr, hE', hk'⟩ | ⟨q, hq, hr, hF, hk'⟩
      · rcases hcR q hq hr with h | h
        · exact .inl ⟨q, h, hq, hE', hk'⟩
        · exact fin (A2 q h hE' hk')
      · rcases hcW q hq hr with h | h
        · exact fin (.inr ⟨q, h, hq, hF, hk'⟩)
        · exact fin (A3 q h hF hk')
    rw [← hRe, hlen] at h2
    by_cases hk : k = n + R.items.length
    · subst hk; exact hcmdW hW
    · rcases A1 k h1 (by omega) hW with h | h
      · exact fin h
      · exact hcmdW h
  | .func id, hR, n, i, o, e, c, hlo, ho, he, hof, hef, hi, hat, hctx, k, h1, h2, hW => by
    have hg := hat.get h1 h2
    simp only [refRun, List.length_singleton] at hg h2
    obtain rfl : k = n := by omega
    simp only [Nat.sub_self, List.getElem?_cons_zero] at hg
    simp only [refRun, Pipeline.outWant]
    rcases J.wait _ hW with ⟨q, hq, ⟨y, hy, hm⟩, hE', hk'⟩ | ⟨q, hq, ⟨y, hy, hm⟩, hF, hk'⟩
    · rw [hg] at hy; cases hy
      simp only [RItem.objs, Option.toList, List.cons_append, List.nil_append, List.mem_cons, List.not_mem_nil, or_false] at hm
      rcases hm with h | h
      · exact .inl ⟨q, h.symm, hq, hE', hk'⟩
      · cases o with
        | obj b => exact absurd h.symm (hof b rfl q hq).2
        | tmp => cases h
        | pipeOut => cases h
        | pipeIn => exact ho.elim
    · rw [hg] at hy; cases hy
      simp only [RItem.objs, Option.toList, List.cons_append, List.nil_append, List.mem_cons, List.not_mem_nil, or_false] at hm
      rcases hm with h | h
      · rcases hi with hi | ⟨_, _, hi⟩
        · exact absurd h.symm (hi q hq).1
        · rw [hi] at h; cases h
      · cases o with
        | obj b => exact absurd h.symm (hof b rfl q hq).1
        | tmp => cases h
        | pipeOut => cases h; exact .inr ⟨rfl, hF, hk'⟩
        | pipeIn => exact ho.elim
  | .iter id, hR, n, i, o, e, c, hlo, ho, he, hof, hef, hi, hat, hctx, k, h1, h2, hW => by
    have hg := hat.get h1 h2
    simp only [refRun, List.length_singleton] at hg h2
    obtain rfl : k = n := by omega
    simp only [Nat.sub_self, List.getElem?_cons_zero] at hg
    simp only [refRun, Pipeline.outWant]
    rcases J.wait _ hW with ⟨q, hq, ⟨y, hy, hm⟩, hE', hk'⟩ | ⟨q, hq, ⟨y, hy, hm⟩, hF, hk'⟩
    · rw [hg] at hy; cases hy
      simp only [RItem.objs, Option.toList, List.nil_append, List.mem_cons, List.not_mem_nil, or_false] at hm
      cases o with
      | obj b => exact absurd hm.symm (hof b rfl q hq).2
      | tmp => cases hm
      | pipeOut => cases hm
      | pipeIn => exact ho.elim
    · rw [hg] at hy; cases hy
      simp only [RItem.objs, Option.toList, List.nil_append, List.mem_cons, List.not_mem_nil, or_false] at hm
      cases o with
      | obj b => exact absurd hm.symm (hof b rfl q hq).1
      | tmp => cases hm
      | pipeOut => cases hm; exact .inr ⟨rfl, hF, hk'⟩
      | pipeIn => exact ho.elim
  | .pipe a b, hR, n, i, o, e, c, hlo, ho, he, hof, hef, hi, hat, hctx, k, h1, h2, hW => by
    simp only [Pipeline.Redirectable] at hR
    simp only [refRun] at hat h2 hctx ⊢
    simp only [Pipeline.outWant] at hctx ⊢
    obtain ⟨ra, hra⟩ : ∃ ra, ra = refRun cwd a i .pipeOut e c := ⟨_, rfl⟩
    have m1 := refRun_mono (cwd := cwd) a i .pipeOut e c
    have q1 := refRun_out (cwd := cwd) a i .pipeOut e c
    have q1' := q1.2 hR.2.2
    have hb := jam_run J b hR.2.1 (n := n + ra.items.length) (i := .pipeR ra.out) (o := o) (e := e) (c := ra.ctr)
    have ha := jam_run J a hR.1 (n := n) (i := i) (o := .pipeOut) (e := e) (c := c) hlo trivial he (by simp) hef hi
    have ra_refs := fun hat k q => refs (G := G) (lo := lo) (n := n) (k := k) (q := q) hR.1 (o := .pipeOut) (by simp) hef hi hat
    have ra_un := fun hat => out_unread (G := G) (lo := lo) (n := n) a hR.1 hlo (o := .pipeOut) trivial he (by simp) hef hi hat hR.2.2
    rw [← hra] at m1 q1 q1' ha ra_refs ra_un hat hctx h2 ⊢
    obtain ⟨rb, hrb⟩ : ∃ rb, rb = refRun cwd b (.pipeR ra.out) o e ra.ctr := ⟨_, rfl⟩
    have hib : InOk lo (.pipeR ra.out) ra.ctr := .inr ⟨_, q1', rfl⟩
    have m2 := refRun_mono (cwd := cwd) b (.pipeR ra.out) o e ra.ctr
    have q2 := refRun_out (cwd := cwd) b (.pipeR ra.out) o e ra.ctr
    have rb_refs := fun hat k q => refs (G := G) (lo := lo) (n := n + ra.items.length) (k := k) (q := q) hR.2.1 hof hef hib hat
    rw [← hrb] at m2 q2 hb rb_refs hat hctx h2 ⊢
    rw [List.length_append] at h2 hctx
    have atA := hat.left
    have atB := hat.right
    have ra_refs := ra_refs atA
    have rb_refs := rb_refs atB
    have ra_un := ra_un atA
    have hb := hb (by omega) ho he hof hef hib atB (by
      intro m q hm g1 g2
      by_cases hma : n ≤ m ∧ m < n + ra.items.length
      · obtain ⟨x, y⟩ := ra_refs m q hma.1 hma.2 (by omega)
        refine ⟨fun h => ?_, fun h => ?_⟩
        · rcases x h with h | h
          · rcases hi with hi | ⟨q', hq', hi⟩
            · exact absurd h (hi q (by omega)).2
            · rw [hi] at h; cases h; omega
          · omega
        · have := y h; omega
      · exact hctx m q (by omega) (by omega) g2)
    have ha := ha atA (by
      intro m q hm g1 g2
      by_cases hmb : n + ra.items.length ≤ m ∧ m < n + ra.items.length + rb.items.length
      · obtain ⟨x, y⟩ := rb_refs m q hmb.1 hmb.2 (by omega)
        refine ⟨fun h => ?_, fun h => ?_⟩
        · rcases x h with h | h
          · cases h; exact ⟨hR.2.2, rfl⟩
          · omega
        · have := y h; omega
      · obtain ⟨x, y⟩ := hctx m q (by omega) g1 (by omega)
        refine ⟨fun h => ?_, y⟩
        have := x h; omega)
    -- who is at the pipe between them
    have wrA : ∀ k', Wr G k' ra.out → n ≤ k' ∧ k' < n + ra.items.length := by
      intro k' h
      by_cases hma : n ≤ k' ∧ k' < n + ra.items.length
      · exact hma
      · exfalso
        by_cases hmb : n + ra.items.length ≤ k' ∧ k' < n + ra.items.length + rb.items.length
        · have := (rb_refs k' ra.out hmb.1 hmb.2 (by omega)).2 h; omega
        · exact (hctx k' ra.out (by omega) (by omega) (by omega)).2 h
    have rdB : ∀ k', Rd G k' ra.out → n + ra.items.length ≤ k' ∧ k' < n + ra.items.length + rb.items.length := by
      intro k' h
      by_cases hmb : n + ra.items.length ≤ k' ∧ k' < n + ra.items.length + rb.items.length
      · exact hmb
      · exfalso
        by_cases hma : n ≤ k' ∧ k' < n + ra.items.length
        · exact ra_un k' hma.1 hma.2 h
        · have := (hctx k' ra.out (by omega) (by omega) (by omega)).1 h; omega
    by_cases hk : k < n + ra.items.length
    · rcases ha k h1 hk hW with h | ⟨-, hF, k', hk', hr⟩
      · exact .inl h
      · obtain ⟨g1, g2⟩ := rdB k' hr
        rcases hb k' g1 g2 hk' with ⟨q, hq, -, hE, -⟩ | h
        · cases hq; exact (J.excl _ hE hF).elim
        · exact .inr h
    · rcases hb k (by omega) (by omega) hW with ⟨q, hq, -, hE, k', hk', hw⟩ | h
      · cases hq
        obtain ⟨g1, g2⟩ := wrA k' hw
        rcases ha k' g1 g2 hk' with h | ⟨-, hF, -⟩
        · exact .inl h
        · exact (J.excl _ hE hF).elim
      · exact .inr h
  | .group a b, hR, n, i, o, e, c, hlo, ho, he, hof, hef, hi, hat, hctx, k, h1, h2, hW => by
    simp only [Pipeline.Redirectable] at hR
    simp only [refRun] at hat h2 hctx ⊢
    simp only [Pipeline.outWant] at hctx ⊢
    obtain ⟨ra, hra⟩ : ∃ ra, ra = refRun cwd a i o e c := ⟨_, rfl⟩
    have m1 := refRun_mono (cwd := cwd) a i o e c
    have q1 := refRun_out (cwd := cwd) a i o e c
    have hb := jam_run J b hR.2 (n := n + ra.items.length) (i := i) (o := o) (e := e) (c := ra.ctr)
    have ha := jam_run J a hR.1 (n := n) (i := i) (o := o) (e := e) (c := c) hlo ho he hof hef hi
    have ra_refs := fun hat k q => refs (G := G) (lo := lo) (n := n) (k := k) (q := q) hR.1 hof hef hi hat
    have ra_un := fun hat => out_unread (G := G) (lo := lo) (n := n) a hR.1 (o := o) (e := e) hlo ho he hof hef hi hat
    rw [← hra] at m1 q1 ha ra_refs ra_un hat hctx h2 ⊢
    obtain ⟨rb, hrb⟩ : ∃ rb, rb = refRun cwd b i o e ra.ctr := ⟨_, rfl⟩
    have hib : InOk lo i ra.ctr := hi.mono (by omega)
    have m2 := refRun_mono (cwd := cwd) b i o e ra.ctr
    have q2 := refRun_out (cwd := cwd) b i o e ra.ctr
    have rb_refs := fun hat k q => refs (G := G) (lo := lo) (n := n + ra.items.length) (k := k) (q := q) hR.2 hof hef hib hat
    rw [← hrb] at m2 q2 hb rb_refs hat hctx h2 ⊢
    rw [List.length_append] at h2 hctx
    have ra_refs := ra_refs hat.left
    have ra_un := ra_un hat.left
    have rb_refs := rb_refs hat.right
    have hI : ∀ q, c.p ≤ q → i ≠ .pipeR q := by
      intro q hq h
      rcases hi with hi | ⟨q', hq', hi⟩
      · exact absurd h (hi q (by omega)).2
      · rw [hi] at h; cases h; omega
    have hb := hb (by omega) ho he hof hef hib hat.right (by
      intro m q hm g1 g2
      by_cases hma : n ≤ m ∧ m < n + ra.items.length
      · obtain ⟨x, y⟩ := ra_refs m q hma.1 hma.2 (by omega)
        refine ⟨fun h => ?_, fun h => ?_⟩
        · rcases x h with h | h
          · exact absurd h (hI q (by omega))
          · omega
        · have := y h; omega
      · exact hctx m q (by omega) (by omega) g2)
    have ha := ha hat.left (by
      intro m q hm g1 g2
      by_cases hmb : n + ra.items.length ≤ m ∧ m < n + ra.items.length + rb.items.length
      · obtain ⟨x, y⟩ := rb_refs m q hmb.1 hmb.2 (by omega)
        refine ⟨fun h => ?_, fun h => ?_⟩
        · rcases x h with h | h
          · exact absurd h (hI q (by omega))
          · omega
        · have := y h; omega
      · obtain ⟨x, y⟩ := hctx m q (by omega) g1 (by omega)
        refine ⟨fun h => ?_, y⟩
        have := x h; omega)
    by_cases hk : k < n + ra.items.length
    · rcases ha k h1 hk hW with h | ⟨h, -, k', -, hr⟩
      · exact .inl h
      · -- nobody reads from the pipe of `a`
        exfalso
        have q1' := q1.2 h
        by_cases hma : n ≤ k' ∧ k' < n + ra.items.length
        · exact ra_un h k' hma.1 hma.2 hr
        · by_cases hmb : n + ra.items.length ≤ k' ∧ k' < n + ra.items.length + rb.items.length
          · rcases (rb_refs k' _ hmb.1 hmb.2 (by omega)).1 hr with h | h
            · exact hI _ q1.1 h
            · omega
          · have := (hctx k' _ (by omega) q1.1 (by omega)).1 hr
            omega
    · exact hb k (by omega) (by omega) hW
  | .redirect p crs, hR, n, i, o, e, c, hlo, ho, he, hof, hef, hi, hat, hctx, k, h1, h2, hW => by
    obtain ⟨g1, g2, g3, g4, g5⟩ := over_hyps hR hof hef ho he hi
    simp only [refRun] at hat h2 hctx ⊢
    simp only [Pipeline.outWant] at hctx ⊢
    have hRp : p.Redirectable sys cwd := by simp only [Pipeline.Redirectable] at hR; exact hR.1
    rcases jam_run J p hRp hlo g3 g4 g1 g2 g5 hat hctx k h1 h2 hW with ⟨q, hq, h⟩ | h
    · left
      rcases orIn_cases (cwd := cwd) (Dict.get? crs 0) i with h' | ⟨_, _, _, h'⟩
      · simp only [Redirects.overIn, h'] at hq; exact ⟨q, hq, h⟩
      · simp only [Redirects.overIn, h'] at hq; cases hq
    · exact .inr h
theorem jam_args (J : Jam G lo W E F) : (a : Args) → a.Redirectable sys cwd → {n m : Nat} → {i o e : Obj} → {c : Ctr} → lo ≤ c.p →
    (Foreign lo o ∨ ∃ q, q < c.p ∧ o = .pipeW q) → Foreign lo e → InOk lo i c → At G n (refArgs cwd a i o e c).items → n + (refArgs cwd a i o e c).items.length ≤ m →
    (∀ k q, ¬ (n ≤ k ∧ k < n + (refArgs cwd a i o e c).items.length) → k ≠ m → c.p ≤ q → q < (refArgs cwd a i o e c).ctr.p → ¬ Rd G k q ∧ ¬ Wr G k q) →
    (∀ q, c.p ≤ q → q < (refArgs cwd a i o e c).ctr.p → Rd G m q → .pipeR q ∈ devObjs (refArgs cwd a i o e c).words) →
    (∀ q, c.p ≤ q → q < (refArgs cwd a i o e c).ctr.p → Wr G m q → .pipeW q ∈ devObjs (refArgs cwd a i o e c).words) →
    (∀ k, n ≤ k → k < n + (refArgs cwd a i o e c).items.length → W k → (AtIn G lo W E i ∨ ∃ q, o = .pipeW q ∧ lo ≤ q ∧ AtOut G W F q) ∨ W m) ∧
    (∀ q, .pipeR q ∈ devObjs (refArgs cwd a i o e c).words → E q → (∃ k', W k' ∧ Wr G k' q) → AtIn G lo W E i ∨ ∃ q, o = .pipeW q ∧ lo ≤ q ∧ AtOut G W F q) ∧
    (∀ q, .pipeW q ∈ devObjs (refArgs cwd a i o e c).words → F q → (∃ k', W k' ∧ Rd G k' q) → AtIn G lo W E i ∨ ∃ q, o = .pipeW q ∧ lo ≤ q ∧ AtOut G W F q)
  | .nil, hR, n, m, i, o, e, c, hlo, hO, hE, hi, hat, hm, hctx, hmR, hmW => by
    simp [refArgs, devObjs]; omega
  | .word ws rest, hR, n, m, i, o, e, c, hlo, hO, hE, hi, hat, hm, hctx, hmR, hmW => by
    simp only [refArgs, devObjs_lits] at hat hm hctx hmR hmW ⊢
    exact jam_args J rest (by simpa only [Args.Redirectable] using hR) hlo hO hE hi hat hm hctx hmR hmW
  | .pipeArg pre p rest, hR, n, m, i, o, e, c, hlo, hO, hE, hi, hat, hm, hctx, hmR, hmW => by
    simp only [Args.Redirectable] at hR
    simp only [refArgs, devObjs] at hat hm hctx hmR hmW ⊢
    obtain ⟨ra, hra⟩ : ∃ ra, ra = refRun cwd p i .pipeOut (.obj e) c := ⟨_, rfl⟩
    have hef : ∀ ob, Want.obj e = .obj ob → Foreign lo ob := by rintro ob ⟨⟩; exact hE
    have m1 := refRun_mono (cwd := cwd) p i .pipeOut (.obj e) c
    have q1 := refRun_out (cwd := cwd) p i .pipeOut (.obj e) c
    have q1' := q1.2 hR.2.1
    have ha := jam_run J p hR.1 (n := n) (i := i) (o := .pipeOut) (e := .obj e) (c := c) hlo trivial trivial (by simp) hef hi
    have ra_refs := fun hat k q => refs (G := G) (lo := lo) (n := n) (k := k) (q := q) hR.1 (o := .pipeOut) (by simp) hef hi hat
    have ra_un := fun hat => out_unread (G := G) (lo := lo) (n := n) p hR.1 (o := .pipeOut) (e := .obj e) hlo trivial trivial (by simp) hef hi hat hR.2.1
    rw [← hra] at m1 q1 q1' ha ra_refs ra_un hat hm hctx hmR hmW ⊢
    obtain ⟨rb, hrb⟩ : ∃ rb, rb = refArgs cwd rest i o e ra.ctr := ⟨_, rfl⟩
    have hib : InOk lo i ra.ctr := hi.mono (by omega)
    have hO' : Foreign lo o ∨ ∃ q, q < ra.ctr.p ∧ o = .pipeW q := by
      rcases hO with h | ⟨q, h1, h2⟩
      · exact .inl h
      · exact .inr ⟨q, by omega, h2⟩
    have m2 := refArgs_mono (cwd := cwd) rest i o e ra.ctr
    have hB := (refArgs_objs (sys := sys) rest hR.2.2 i o e ra.ctr).2.1
    have hb := jam_args J rest hR.2.2 (n := n + ra.items.length) (m := m) (i := i) (o := o) (e := e) (c := ra.ctr)
    have rb_refs := fun hat k q => refsArgs (G := G) (lo := lo) (n := n + ra.items.length) (k := k) (q := q) hR.2.2 hO' hE hib hat
    rw [← hrb] at m2 hb hB rb_refs hat hm hctx hmR hmW ⊢
    rw [List.length_append] at hm hctx ⊢
    have ra_refs := ra_refs hat.left
    have rb_refs := rb_refs hat.right
    have ra_un := ra_un hat.left
    have hI : ∀ q, c.p ≤ q → i ≠ .pipeR q := by
      intro q hq h
      rcases hi with hi | ⟨q', hq', hi⟩
      · exact absurd h (hi q (by omega)).2
      · rw [hi] at h; cases h; omega
    have hOq : ∀ q, c.p ≤ q → o ≠ .pipeW q := by
      intro q hq h
      rcases hO with hO | ⟨q', hq', hO⟩
      · exact absurd h (hO q (by omega)).1
      · rw [hO] at h; cases h; omega
    -- the rest has only its own pipes open
    have rest_own : ∀ k q, n + ra.items.length ≤ k → k < n + ra.items.length + rb.items.length → c.p ≤ q → q < ra.ctr.p → ¬ Rd G k q ∧ ¬ Wr G k q := by
      intro k q g1 g2 g3 g4
      obtain ⟨x, y⟩ := rb_refs k q g1 g2 (by omega)
      refine ⟨fun h => ?_, fun h => ?_⟩
      · rcases x h with h | h
        · exact hI q g3 h
        · omega
      · rcases y h with h | h
        · exact hOq q g3 h
        · omega
    have cmdR : ∀ q, c.p ≤ q → q < ra.ctr.p → Rd G m q → q = ra.out := by
      intro q g1 g2 h
      rcases List.mem_cons.1 (hmR q g1 (by omega) h) with h | h
      · cases h; rfl
      · have := made_pipe (hB _ h) (.inl rfl); omega
    have cmdW : ∀ q, c.p ≤ q → q < ra.ctr.p → ¬ Wr G m q := by
      intro q g1 g2 h
      rcases List.mem_cons.1 (hmW q g1 (by omega) h) with h | h
      · cases h
      · have := made_pipe (hB _ h) (.inr rfl); omega
    have ha := ha hat.left (by
      intro k q hk g1 g2
      by_cases hkm : k = m
      · subst hkm
        exact ⟨fun h => ⟨hR.2.1, cmdR q g1 g2 h⟩, cmdW q g1 g2⟩
      · by_cases hmb : n + ra.items.length ≤ k ∧ k < n + ra.items.length + rb.items.length
        · obtain ⟨x, y⟩ := rest_own k q hmb.1 hmb.2 g1 g2
          exact ⟨fun h => absurd h x, y⟩
        · obtain ⟨x, y⟩ := hctx k q (by omega) hkm g1 (by omega)
          exact ⟨fun h => absurd h x, y⟩)
    obtain ⟨B1, B2, B3⟩ := hb (by omega) hO' hE hib hat.right (by omega) (by
      intro k q hk hkm g1 g2
      by_cases hma : n ≤ k ∧ k < n + ra.items.length
      · obtain ⟨x, y⟩ := ra_refs k q hma.1 hma.2 (by omega)
        refine ⟨fun h => ?_, fun h => ?_⟩
        · rcases x h with h | h
          · exact absurd h (hI q (by omega))
          · omega
        · have := y h; omega
      · exact hctx k q (by omega) hkm (by omega) g2) (by
      intro q g1 g2 h
      rcases List.mem_cons.1 (hmR q (by omega) g2 h) with h | h
      · cases h; omega
      · exact h) (by
      intro q g1 g2 h
      rcases List.mem_cons.1 (hmW q (by omega) g2 h) with h | h
      · cases h
      · exact h)
    have wrA : ∀ k', Wr G k' ra.out → n ≤ k' ∧ k' < n + ra.items.length := by
      intro k' h
      by_cases hma : n ≤ k' ∧ k' < n + ra.items.length
      · exact hma
      · exfalso
        by_cases hkm : k' = m
        · subst hkm; exact cmdW _ q1.1 q1' h
        · by_cases hmb : n + ra.items.length ≤ k' ∧ k' < n + ra.items.length + rb.items.length
          · exact (rest_own k' _ hmb.1 hmb.2 q1.1 q1').2 h
          · exact (hctx k' _ (by omega) hkm q1.1 (by omega)).2 h
    have rdM : ∀ k', Rd G k' ra.out → k' = m := by
      intro k' h
      by_cases hkm : k' = m
      · exact hkm
      · exfalso
        by_cases hma : n ≤ k' ∧ k' < n + ra.items.length
        · exact ra_un k' hma.1 hma.2 h
        · by_cases hmb : n + ra.items.length ≤ k' ∧ k' < n + ra.items.length + rb.items.length
          · exact (rest_own k' _ hmb.1 hmb.2 q1.1 q1').1 h
          · exact (hctx k' _ (by omega) hkm q1.1 (by omega)).1 h
    refine ⟨fun k h1 h2 hW => ?_, fun q hq hEq hk' => ?_, fun q hq hFq hk' => ?_⟩
    · by_cases hk : k < n + ra.items.length
      · rcases ha k h1 hk hW with h | ⟨-, hF, k', hk', hr⟩
        · exact .inl (.inl h)
        · rw [rdM k' hr] at hk'; exact .inr hk'
      · exact B1 k (by omega) (by omega) hW
    · rcases List.mem_cons.1 hq with h | h
      · cases h
        obtain ⟨k', hk', hw⟩ := hk'
        obtain ⟨g1, g2⟩ := wrA k' hw
        rcases ha k' g1 g2 hk' with h | ⟨-, hF, -⟩
        · exact .inl h
        · exact (J.excl _ hEq hF).elim
      · exact B2 q h hEq hk'
    · rcases List.mem_cons.1 hq with h | h
      · cases h
      · exact B3 q h hFq hk'
  | .funcArg pre id rest, hR, n, m, i, o, e, c, hlo, hO, hE, hi, hat, hm, hctx, hmR, hmW => by
    simp only [Args.Redirectable] at hR
    simp only [refArgs, devObjs, List.length_cons] at hat hm hctx hmR hmW ⊢
    obtain ⟨rb, hrb⟩ : ∃ rb, rb = refArgs cwd rest i o e { c with p := c.p + 1 } := ⟨_, rfl⟩
    have hib : InOk lo i { c with p := c.p + 1 } := hi.mono (by simp)
    have hO' : Foreign lo o ∨ ∃ q, q < ({ c with p := c.p + 1 } : Ctr).p ∧ o = .pipeW q := by
      rcases hO with h | ⟨q, h1, h2⟩
      · exact .inl h
      · exact .inr ⟨q, by simp only; omega, h2⟩
    have m2 := refArgs_mono (cwd := cwd) rest i o e { c with p := c.p + 1 }
    have hB := (refArgs_objs (sys := sys) rest hR i o e { c with p := c.p + 1 }).2.1
    have hb := jam_args J rest hR (n := n + 1) (m := m) (i := i) (o := o) (e := e) (c := { c with p := c.p + 1 })
    have rb_refs := fun hat k q => refsArgs (G := G) (lo := lo) (n := n + 1) (k := k) (q := q) hR hO' hE hib hat
    rw [← hrb] at m2 hb hB rb_refs hat hm hctx hmR hmW ⊢
    simp only at m2
    have hfun : G[n]? = some (.func id (some (.pipeR c.p)) o) := hat 0 _ rfl
    have hat' : At G (n + 1) rb.items := by
      have : At G n ([RItem.func id (some (.pipeR c.p)) o] ++ rb.items) := hat
      exact this.right
    have rb_refs := rb_refs hat'
    have hI : ∀ q, c.p ≤ q → i ≠ .pipeR q := by
      intro q hq h
      rcases hi with hi | ⟨q', hq', hi⟩
      · exact absurd h (hi q (by omega)).2
      · rw [hi] at h; cases h; omega
    have hOq : ∀ q, c.p ≤ q → o ≠ .pipeW q := by
      intro q hq h
      rcases hO with hO | ⟨q', hq', hO⟩
      · exact absurd h (hO q (by omega)).1
      · rw [hO] at h; cases h; omega
    have hOR : ∀ q, lo ≤ q → o ≠ .pipeR q := by
      intro q hq h
      rcases hO with hO | ⟨q', hq', hO⟩
      · exact (hO q hq).2 h
      · rw [hO] at h; cases h
    have fR : ∀ q, lo ≤ q → Rd G n q → q = c.p := by
      rintro q hq ⟨y, hy, hm⟩
      rw [hfun] at hy; cases hy
      simp only [RItem.objs, Option.toList, List.cons_append, List.nil_append, List.mem_cons, List.not_mem_nil, or_false] at hm
      rcases hm with h | h
      · cases h; rfl
      · exact absurd h.symm (hOR q hq)
    have fW : ∀ q, Wr G n q → o = .pipeW q := by
      rintro q ⟨y, hy, hm⟩
      rw [hfun] at hy; cases hy
      simp only [RItem.objs, Option.toList, List.cons_append, List.nil_append, List.mem_cons, List.not_mem_nil, or_false] at hm
      rcases hm with h | h
      · cases h
      · exact h.symm
    have rest_own : ∀ k, n + 1 ≤ k → k < n + 1 + rb.items.length → ¬ Rd G k c.p ∧ ¬ Wr G k c.p := by
      intro k g1 g2
      obtain ⟨x, y⟩ := rb_refs k c.p g1 g2 hlo
      simp only at x y
      refine ⟨fun h => ?_, fun h => ?_⟩
      · rcases x h with h | h
        · exact hI _ (Nat.le_refl _) h
        · omega
      · rcases y h with h | h
        · exact hOq _ (Nat.le_refl _) h
        · omega
    have cmdR : ¬ Rd G m c.p := by
      intro h
      rcases List.mem_cons.1 (hmR c.p (Nat.le_refl _) (by omega) h) with h | h
      · cases h
      · have := made_pipe (hB _ h) (.inl rfl); simp only at this; omega
    obtain ⟨B1, B2, B3⟩ := hb (by simp only; omega) hO' hE hib hat' (by omega) (by
      intro k q hk hkm g1 g2
      simp only at g1
      by_cases hkn : k = n
      · subst hkn
        refine ⟨fun h => ?_, fun h => hOq q (by omega) (fW q h)⟩
        have := fR q (by omega) h; omega
      · exact hctx k q (by omega) hkm (by omega) g2) (by
      intro q g1 g2 h
      simp only at g1
      rcases List.mem_cons.1 (hmR q (by omega) g2 h) with h | h
      · cases h
      · exact h) (by
      intro q g1 g2 h
      simp only at g1
      rcases List.mem_cons.1 (hmW q (by omega) g2 h) with h | h
      · cases h; omega
      · exact h)
    have wrM : ∀ k', Wr G k' c.p → k' = m := by
      intro k' h
      by_cases hkm : k' = m
      · exact hkm
      · exfalso
        by_cases hkn : k' = n
        · subst hkn; exact hOq _ (Nat.le_refl _) (fW _ h)
        · by_cases hmb : n + 1 ≤ k' ∧ k' < n + 1 + rb.items.length
          · exact (rest_own k' hmb.1 hmb.2).2 h
          · exact (hctx k' _ (by omega) hkm (Nat.le_refl _) (by omega)).2 h
    have rdF : ∀ k', Rd G k' c.p → k' = n := by
      intro k' h
      by_cases hkn : k' = n
      · exact hkn
      · exfalso
        by_cases hkm : k' = m
        · subst hkm; exact cmdR h
        · by_cases hmb : n + 1 ≤ k' ∧ k' < n + 1 + rb.items.length
          · exact (rest_own k' hmb.1 hmb.2).1 h
          · exact (hctx k' _ (by omega) hkm (Nat.le_refl _) (by omega)).1 h
    refine ⟨fun k h1 h2 hW => ?_, fun q hq hEq hk' => ?_, fun q hq hFq hk' => ?_⟩
    · by_cases hk : k = n
      · subst hk
        rcases J.wait k hW with ⟨q, hq, hr, -, k', hk', hw⟩ | ⟨q, hq, hw, hF, hk'⟩
        · obtain rfl := fR q hq hr
          rw [wrM k' hw] at hk'; exact .inr hk'
        · exact .inl (.inr ⟨q, fW q hw, hq, hF, hk'⟩)
      · exact B1 k (by omega) (by omega) hW
    · rcases List.mem_cons.1 hq with h | h
      · cases h
      · exact B2 q h hEq hk'
    · rcases List.mem_cons.1 hq with h | h
      · cases h
        obtain ⟨k', hk', hr⟩ := hk'
        obtain rfl := rdF k' hr
        rcases J.wait k' hk' with ⟨q, hq, hr', hE', -⟩ | ⟨q, hq, hw, hF, hk''⟩
        · obtain rfl := fR q hq hr'
          exact (J.excl _ hE' hFq).elim
        · exact .inr ⟨q, fW q hw, hq, hF, hk''⟩
      · exact B3 q h hFq hk'
end

end Pieshell.Jam
