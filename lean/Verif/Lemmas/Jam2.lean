import Verif.Lemmas.Jam
import Verif.Lemmas.Traffic
import Verif.Lemmas.FuncArg2
/-!
# A started pipeline that cannot go on
-/
namespace Pieshell.Jam
open Flow (Bytes Net Proc upd close started userPipe upd_same upd_ne close_same close_ne)
open Subst (At Foreign slot handler slotObj mem_heldFds_get)
open FuncArg (Prog St Step Steps Open outSlot outObj)
variable {sys : Sys} {cwd : Str}

mutual
theorem tidy_leaks : (p : Pipeline) → {i : Obj} → {o e : Want} → {c : Ctr} → Tidy cwd p o → (refRun cwd p i o e c).leaks = []
  | .command id args, i, o, e, c, h => by
    simp only [Tidy] at h
    simp only [refRun]
    exact tidy_leaksArgs args h
  | .func _, _, _, _, _, _ => by simp only [refRun]
  | .iter _, _, _, _, _, _ => by simp only [refRun]
  | .pipe a b, i, o, e, c, h => by
    simp only [Tidy] at h
    simp only [refRun, tidy_leaks a h.1, tidy_leaks b h.2.1, h.2.2]; rfl
  | .group a b, i, o, e, c, h => by
    simp only [Tidy] at h
    simp only [refRun, tidy_leaks a h.1, tidy_leaks b h.2.1, if_neg h.2.2]; rfl
  | .redirect p crs, i, o, e, c, h => by
    simp only [Tidy] at h
    simp only [refRun]
    exact tidy_leaks p h
theorem tidy_leaksArgs : (a : Args) → {i o e : Obj} → {c : Ctr} → TidyArgs cwd a → (refArgs cwd a i o e c).leaks = []
  | .nil, _, _, _, _, _ => by simp only [refArgs]
  | .word ws rest, i, o, e, c, h => by
    simp only [TidyArgs] at h
    simp only [refArgs]; exact tidy_leaksArgs rest h
  | .pipeArg pre p rest, i, o, e, c, h => by
    simp only [TidyArgs] at h
    simp only [refArgs, tidy_leaks p h.1, tidy_leaksArgs rest h.2]; rfl
  | .funcArg pre id rest, i, o, e, c, h => by
    simp only [TidyArgs] at h
    simp only [refArgs]; exact tidy_leaksArgs rest h
end

mutual
/-- What is left behind are read ends. -/
theorem leaks_ends : (p : Pipeline) → {i : Obj} → {o e : Want} → {c : Ctr} → {ob : Obj} → ob ∈ (refRun cwd p i o e c).leaks → ∃ q, ob = .pipeR q
  | .command id args, i, o, e, c, ob, h => by
    simp only [refRun] at h
    exact leaks_endsArgs args h
  | .func _, _, _, _, _, _, h => by simp [refRun] at h
  | .iter _, _, _, _, _, _, h => by simp [refRun] at h
  | .pipe a b, i, o, e, c, ob, h => by
    simp only [refRun, List.mem_append] at h
    rcases h with (h | h) | h
    · exact leaks_ends a h
    · exact leaks_ends b h
    · split at h
      · exact ⟨_, List.mem_singleton.1 h⟩
      · cases h
  | .group a b, i, o, e, c, ob, h => by
    simp only [refRun, List.mem_append] at h
    rcases h with (h | h) | h
    · exact leaks_ends a h
    · exact leaks_ends b h
    · split at h
      · exact ⟨_, List.mem_singleton.1 h⟩
      · cases h
  | .redirect p crs, i, o, e, c, ob, h => by
    simp only [refRun] at h
    exact leaks_ends p h
theorem leaks_endsArgs : (a : Args) → {i o e : Obj} → {c : Ctr} → {ob : Obj} → ob ∈ (refArgs cwd a i o e c).leaks → ∃ q, ob = .pipeR q
  | .nil, _, _, _, _, _, h => by simp [refArgs] at h
  | .word ws rest, i, o, e, c, ob, h => by
    simp only [refArgs] at h; exact leaks_endsArgs rest h
  | .pipeArg pre p rest, i, o, e, c, ob, h => by
    simp only [refArgs, List.mem_append] at h
    rcases h with h | h
    · exact leaks_ends p h
    · exact leaks_endsArgs rest h
  | .funcArg pre id rest, i, o, e, c, ob, h => by
    simp only [refArgs] at h; exact leaks_endsArgs rest h
end

mutual
/-- Functions read from, and write to, the right ends of pipes. -/
theorem func_ends {lo : Nat} : (p : Pipeline) → p.Redirectable sys cwd → {i : Obj} → {o e : Want} → {c : Ctr} → lo ≤ c.p → o.Out → e.Plain →
    (∀ ob, o = .obj ob → Foreign lo ob) → (∀ ob, e = .obj ob → Foreign lo ob) → InOk lo i c → ∀ id inp ob, .func id inp ob ∈ (refRun cwd p i o e c).items →
    (∀ q, lo ≤ q → inp ≠ some (.pipeW q)) ∧ ∀ q, lo ≤ q → ob ≠ .pipeR q
  | .command id args, hR, i, o, e, c, hlo, ho, he, hof, hef, hi, id', inp, ob, hm => by
    simp only [Pipeline.Redirectable] at hR
    simp only [refRun, List.mem_append, List.mem_singleton] at hm
    have l1 := pick_le o c
    have l2 := pick_le e (o.pick c).2
    rcases hm with hm | hm
    · refine func_endsArgs args hR (by omega) ?_ ?_ (hi.mono (by omega)) id' inp ob hm
      rotate_left
      · cases e with
        | obj b => exact hef b rfl
        | tmp => exact fun q _ => ⟨by simp [Want.pick], by simp [Want.pick]⟩
        | pipeOut => exact he.elim
        | pipeIn => exact he.elim
      intro q hq
      cases o with
      | obj b => exact (hof b rfl q hq).2
      | tmp => simp [Want.pick]
      | pipeOut => simp [Want.pick]
      | pipeIn => exact ho.elim
    · cases hm
  | .func id, hR, i, o, e, c, hlo, ho, he, hof, hef, hi, id', inp, ob, hm => by
    simp only [refRun, List.mem_singleton] at hm
    cases hm
    refine ⟨fun q hq h => ?_, fun q hq => ?_⟩
    · cases h
      rcases hi with hi | ⟨_, _, hi⟩
      · exact (hi q hq).1 rfl
      · cases hi
    · cases o with
      | obj b => exact (hof b rfl q hq).2
      | tmp => simp [Want.pick]
      | pipeOut => simp [Want.pick]
      | pipeIn => exact ho.elim
  | .iter id, hR, i, o, e, c, hlo, ho, he, hof, hef, hi, id', inp, ob, hm => by
    simp only [refRun, List.mem_singleton] at hm
    cases hm
    refine ⟨fun q hq h => (by cases h), fun q hq => ?_⟩
    cases o with
      | obj b => exact (hof b rfl q hq).2
      | tmp => simp [Want.pick]
      | pipeOut => simp [Want.pick]
      | pipeIn => exact ho.elim
  | .pipe a b, hR, i, o, e, c, hlo, ho, he, hof, hef, hi, id', inp, ob, hm => by
    simp only [Pipeline.Redirectable] at hR
    simp only [refRun, List.mem_append] at hm
    have m1 := refRun_mono (cwd := cwd) a i .pipeOut e c
    have q1 := (refRun_out (cwd := cwd) a i .pipeOut e c).2 hR.2.2
    rcases hm with hm | hm
    · exact func_ends a hR.1 (o := .pipeOut) hlo trivial he (by simp) hef hi id' inp ob hm
    · exact func_ends b hR.2.1 (by omega) ho he hof hef (.inr ⟨_, q1, rfl⟩) id' inp ob hm
  | .group a b, hR, i, o, e, c, hlo, ho, he, hof, hef, hi, id', inp, ob, hm => by
    simp only [Pipeline.Redirectable] at hR
    simp only [refRun, List.mem_append] at hm
    have m1 := refRun_mono (cwd := cwd) a i o e c
    rcases hm with hm | hm
    · exact func_ends a hR.1 hlo ho he hof hef hi id' inp ob hm
    · exact func_ends b hR.2 (by omega) ho he hof hef (hi.mono (by omega)) id' inp ob hm
  | .redirect p crs, hR, i, o, e, c, hlo, ho, he, hof, hef, hi, id', inp, ob, hm => by
    obtain ⟨g1, g2, g3, g4, g5⟩ := over_hyps hR hof hef ho he hi
    simp only [refRun] at hm
    have hRp : p.Redirectable sys cwd := by simp only [Pipeline.Redirectable] at hR; exact hR.1
    exact func_ends p hRp hlo g3 g4 g1 g2 g5 id' inp ob hm
theorem func_endsArgs {lo : Nat} : (a : Args) → a.Redirectable sys cwd → {i o e : Obj} → {c : Ctr} → lo ≤ c.p → (∀ q, lo ≤ q → o ≠ .pipeR q) → Foreign lo e → InOk lo i c →
    ∀ id inp ob, .func id inp ob ∈ (refArgs cwd a i o e c).items → (∀ q, lo ≤ q → inp ≠ some (.pipeW q)) ∧ ∀ q, lo ≤ q → ob ≠ .pipeR q
  | .nil, _, _, _, _, _, _, _, _, _, _, _, _, hm => by simp [refArgs] at hm
  | .word ws rest, hR, i, o, e, c, hlo, hO, hE, hi, id', inp, ob, hm => by
    simp only [refArgs] at hm
    exact func_endsArgs rest (by simpa only [Args.Redirectable] using hR) hlo hO hE hi id' inp ob hm
  | .pipeArg pre p rest, hR, i, o, e, c, hlo, hO, hE, hi, id', inp, ob, hm => by
    simp only [Args.Redirectable] at hR
    simp only [refArgs, List.mem_append] at hm
    have m1 := refRun_mono (cwd := cwd) p i .pipeOut (.obj e) c
    rcases hm with hm | hm
    · exact func_ends p hR.1 (o := .pipeOut) (e := .obj e) hlo trivial trivial (by simp) (by rintro _ ⟨⟩; exact hE) hi id' inp ob hm
    · exact func_endsArgs rest hR.2.2 (by omega) hO hE (hi.mono (by omega)) id' inp ob hm
  | .funcArg pre id rest, hR, i, o, e, c, hlo, hO, hE, hi, id', inp, ob, hm => by
    simp only [Args.Redirectable] at hR
    simp only [refArgs, List.mem_cons] at hm
    rcases hm with hm | hm
    · cases hm
      exact ⟨fun q _ h => (by cases h), hO⟩
    · exact func_endsArgs rest hR (by simp only; omega) hO hE (hi.mono (by simp)) id' inp ob hm
end

/-- Items are wired as `G` says. -/
structure Wired (net : Net) (G : List RItem) (lo : Nat) (uo : Option Nat) (lk : List Obj) : Prop where
  len : net.items.length = G.length
  made : net.made = lo
  holds : ∀ (k : Nat) (x : Item) (ob : Obj) (q : Nat), net.items[k]? = some x → x.Holds net.w ob → lo ≤ q → (ob = .pipeR q ∨ ob = .pipeW q) → ∃ y : RItem, G[k]? = some y ∧ ob ∈ y.objs
  shellR : ∀ fd en q, net.w.fds.get fd = some en → en.obj = .pipeR q → lo ≤ q → (∃ k, net.inFd k = some fd) ∨ uo = some q ∨ .pipeR q ∈ lk
  shellW : ∀ fd en q, net.w.fds.get fd = some en → en.obj = .pipeW q → lo ≤ q → ∃ k, net.outFd k = some fd
  user : net.user = uo

theorem slotObj_holds {w : World} {x : Item} {j : Nat} {ob : Obj} (h : slotObj w x j = some ob) : x.Holds w ob := by
  cases x with
  | proc id argv fds rs =>
    cases j with
    | zero => exact ⟨0, h⟩
    | succ j =>
      simp only [slotObj] at h
      cases hd : (devFds argv)[j]? with
      | none => rw [hd] at h; cases h
      | some n => rw [hd] at h; exact ⟨n, h⟩
  | func id inFd outFd rs =>
    cases j with
    | zero =>
      simp only [slotObj, Item.stdin] at h
      cases inFd with
      | none => cases h
      | some n => exact ⟨n, .inl rfl, h⟩
    | succ j => cases h

theorem outObj_holds {w : World} {x : Item} {j : Nat} {ob : Obj} (h : outObj w x j = some ob) : x.Holds w ob := by
  cases x with
  | proc id argv fds rs =>
    cases j with
    | zero => exact ⟨1, h⟩
    | succ j =>
      simp only [outObj] at h
      cases hd : (devFds argv)[j]? with
      | none => rw [hd] at h; cases h
      | some n => rw [hd] at h; exact ⟨n, h⟩
  | func id inFd outFd rs =>
    cases j with
    | zero => exact ⟨outFd, .inr rfl, h⟩
    | succ j => cases h

theorem slot_inv {net : Net} {k j q : Nat} (h : slot net k j = some q) : ∃ x, net.items[k]? = some x ∧ slotObj net.w x j = some (.pipeR q) ∧ net.made ≤ q := by
  unfold slot at h
  cases hit : net.items[k]? with
  | none => rw [hit] at h; cases h
  | some it =>
    rw [hit, Option.bind_some] at h
    split at h
    · next q' hq =>
      split at h
      · cases h; exact ⟨it, rfl, hq, ‹_›⟩
      · cases h
    · cases h

theorem outSlot_inv {net : Net} {k j q : Nat} (h : outSlot net k j = some q) : ∃ x, net.items[k]? = some x ∧ outObj net.w x j = some (.pipeW q) ∧ net.made ≤ q := by
  unfold outSlot at h
  cases hit : net.items[k]? with
  | none => rw [hit] at h; cases h
  | some it =>
    rw [hit, Option.bind_some] at h
    split at h
    · next q' hq =>
      split at h
      · cases h; exact ⟨it, rfl, hq, ‹_›⟩
      · cases h
    · cases h

theorem inFd_inv {net : Net} {k n : Nat} (h : net.inFd k = some n) : ∃ id outFd rs, net.items[k]? = some (.func id (some n) outFd rs) := by
  unfold Net.inFd at h
  split at h
  · next id inFd outFd rsx hx => subst h; exact ⟨id, outFd, rsx, hx⟩
  · cases h

theorem outFd_inv {net : Net} {k n : Nat} (h : net.outFd k = some n) : ∃ id inFd rs, net.items[k]? = some (.func id inFd n rs) := by
  unfold Net.outFd at h
  split at h
  · next id inFd outFd rsx hx => cases h; exact ⟨id, inFd, rsx, hx⟩
  · cases h

theorem started_wired {w : World} {rs : Redirects} {p : Pipeline} {i : Obj} {o e : Want}
    (hs : Startable sys cwd w rs p i o e) (hm : w.PipesMade) :
    ∃ items rs' w', runP sys cwd p rs w = (.ok (items, rs'), w') ∧
      ∀ cap, Wired (started cwd w p o items rs' w' cap) (refRun cwd p i o e w.ctr).items w.nextPipe
        (if p.outWant cwd o = .pipeOut then some (refRun cwd p i o e w.ctr).out else none) (refRun cwd p i o e w.ctr).leaks := by
  obtain ⟨⟨H, L, hr, hl, hstd⟩, ho, he, hsh, hlow, hpo⟩ := hs
  obtain ⟨items, rs', w', ul, lk, hrun, P⟩ := run_spec sys cwd p hsh hr hl hstd ho he hlow hpo
  have hold : ∀ ob, OldIn w.fds ob → Foreign w.nextPipe ob := fun ob h q hq => (h.notPipe hm q hq).symm
  have hshell : ∀ fd en n, w'.fds.get fd = some en → w.nextPipe ≤ n → (en.obj = .pipeW n ∨ en.obj = .pipeR n) →
      (∃ (k id outFd : Nat) (inFd : Option Nat) (rsx : Redirects), items[k]? = some (.func id inFd outFd rsx) ∧ (inFd = some fd ∨ outFd = fd)) ∨
      (p.outWant cwd o = .pipeOut ∧ en.obj = .pipeR (refRun cwd p i o e w.ctr).out) ∨ (en.obj ∈ (refRun cwd p i o e w.ctr).leaks ∧ ∀ q, en.obj ≠ .pipeW q) := by
    intro fd en n hfd hn hor
    have hfresh : w.fds.get fd = none := by
      rcases Option.eq_none_or_eq_some (w.fds.get fd) with h | ⟨en', h⟩
      · exact h
      · exfalso
        have heq : w'.fds.get fd = w.fds.get fd := by
          by_cases hcl : fd ∈ usedFds p rs
          · have := (P.delta.closed fd hcl).2; rw [this] at hfd; cases hfd
          · exact P.delta.kept fd (by simp [h]) hcl
        rw [heq] at hfd
        have := hm fd en _ hfd hn
        rcases hor with h | h
        · exact this.2 h
        · exact this.1 h
    have hmem := P.delta.only fd (by simp [hfd]) hfresh
    rcases List.mem_append.1 hmem with hmem | hmem
    rotate_left
    · obtain ⟨ob, h1, h2⟩ := P.leaks.mem hmem
      rw [h2] at hfd
      cases hfd
      refine .inr (.inr ⟨h1, ?_⟩)
      obtain ⟨q, hq⟩ := leaks_ends p h1
      simp only [hq]; intro q h; cases h
    rcases List.mem_append.1 hmem with hmem | hmem
    · obtain ⟨k, id, inFd, outFd, rsx, h1, h2⟩ := mem_heldFds_get hmem
      exact .inl ⟨k, id, outFd, inFd, rsx, h1, h2⟩
    · by_cases hw : p.outWant cwd o = .pipeOut
      · obtain ⟨r, g1, g2⟩ := P.r1
        obtain ⟨u, g3, g4, g5⟩ := g2 hw
        rw [g3, List.mem_singleton] at hmem
        subst hmem
        rw [g5] at hfd
        cases hfd
        exact .inr (.inl ⟨hw, rfl⟩)
      · rw [P.r1' hw] at hmem; cases hmem
  -- functions hold what they should
  have hfun : ∀ (k id : Nat) (inFd : Option Nat) (outFd : Nat) (rsx : Redirects), items[k]? = some (.func id inFd outFd rsx) →
      (∀ n, inFd = some n → ∀ q, w.nextPipe ≤ q → (w'.fds.get n).map Entry.obj ≠ some (.pipeW q)) ∧ ∀ q, w.nextPipe ≤ q → (w'.fds.get outFd).map Entry.obj ≠ some (.pipeR q) := by
    intro k id inFd outFd rsx hk
    obtain ⟨y, h1, h2⟩ := P.itemsOk.get' hk
    cases y with
    | proc => simp only [ItemOk] at h2
    | func id' inp ob =>
      simp only [ItemOk] at h2
      obtain ⟨-, e1, -, e2⟩ := h2
      obtain ⟨f1, f2⟩ := func_ends p hsh (i := i) (o := o) (e := e) (c := w.ctr) (lo := w.nextPipe) (Nat.le_refl _) ho he
        (fun ob h => hold ob (hstd.old.2.1 ob h)) (fun ob h => hold ob (hstd.old.2.2 ob h)) (.inl (hold i (hstd.old.1 i rfl))) id' inp ob (List.mem_of_getElem? h1)
      refine ⟨?_, ?_⟩
      · rintro n rfl q hq h
        simp only [Option.bind_some] at e1
        exact f1 q hq (by rw [← e1, h])
      · intro q hq h
        rw [e2] at h; cases h
        exact f2 q hq rfl
  refine ⟨items, rs', w', hrun, fun cap => ?_⟩
  exact {
    len := P.itemsOk.length
    made := rfl
    holds := by
      intro k x ob q hk hx hq hor
      obtain ⟨y, h1, h2⟩ := P.itemsOk.get' hk
      refine ⟨y, h1, ?_⟩
      rcases h2.holds hx with h | h
      · exact h
      · exfalso
        have := hold ob (OldIn.log h) q hq
        rcases hor with h | h
        · exact this.2 h
        · exact this.1 h
    shellR := by
      intro fd en q hfd hob hq
      rcases hshell fd en q hfd hq (.inr hob) with ⟨k, id, outFd, inFd, rsx, h1, h2⟩ | ⟨h1, h2⟩ | ⟨h1, -⟩
      · rcases h2 with h2 | h2
        · subst h2; exact .inl ⟨k, by simp only [Net.inFd, started, h1]⟩
        · subst h2
          have hfd' : w'.fds.get outFd = some en := hfd
          exact absurd (by rw [hfd', Option.map_some, hob]) ((hfun k id inFd outFd rsx h1).2 q hq)
      · rw [hob] at h2; injection h2 with h2
        exact .inr (.inl (by rw [if_pos h1, h2]))
      · rw [hob] at h1; exact .inr (.inr h1)
    shellW := by
      intro fd en q hfd hob hq
      rcases hshell fd en q hfd hq (.inl hob) with ⟨k, id, outFd, inFd, rsx, h1, h2⟩ | ⟨h1, h2⟩ | ⟨-, h2⟩
      · rcases h2 with h2 | h2
        · have hfd' : w'.fds.get fd = some en := hfd
          exact absurd (by rw [hfd', Option.map_some, hob]) ((hfun k id inFd outFd rsx h1).1 fd h2 q hq)
        · subst h2; exact ⟨k, by simp only [Net.outFd, started, h1]⟩
      · rw [hob] at h2; cases h2
      · exact absurd hob (h2 q)
    user := by
      simp only [started]
      by_cases hw : p.outWant cwd o = .pipeOut
      · rw [if_pos hw, if_pos hw]
        obtain ⟨r, g1, g2⟩ := P.r1
        obtain ⟨u, -, g3, g4⟩ := g2 hw
        simp only [userPipe, g1, g3, g4, Option.map_some]
      · rw [if_neg hw, if_neg hw] }


/-- What has ended, or has been told of the end, is shut. -/
structure Shut {σ : Type} (net : Net) (s : St σ) : Prop where
  out : ∀ k n, net.outFd k = some n → (∀ st, s.proc k ≠ .running st) → s.shut n = true
  inp : ∀ k n, net.inFd k = some n → s.heof k = true → s.shut n = true

theorem shut_step {σ : Type} {prog : Prog σ} {net : Net} {s t : St σ} (h : Step prog net s t) (hi : Shut net s) : Shut net t := by
  have hcl : ∀ (x : Option Nat) (n : Nat), s.shut n = true → close s.shut x n = true := by
    intro x n h; simp only [close, h, Bool.true_or]
  have keep : ∀ {k k' : Nat} {st' : σ}, (∀ st, upd s.proc k' (.running st') k ≠ .running st) → ∀ st, s.proc k ≠ .running st := by
    intro k k' st' h st
    by_cases hk : k = k'
    · subst hk; exact absurd (upd_same ..) (h st')
    · have := h st; rwa [upd_ne _ _ hk] at this
  constructor
  · intro k n hf hr
    cases h
    case exit k' st' c h1 h2 h3 =>
      simp only at hr ⊢
      by_cases hkk : k = k'
      · subst hkk; rw [hf, close_same]
      · apply hcl; apply hi.out k n hf; intro st; have := hr st; rwa [upd_ne _ _ hkk] at this
    case sigpipe k' j st' st'' x q h1 h2 h3 h4 h5 h6 =>
      simp only at hr ⊢
      by_cases hkk : k = k'
      · subst hkk; rw [hf, close_same]
      · apply hcl; apply hi.out k n hf; intro st; have := hr st; rwa [upd_ne _ _ hkk] at this
    case hup => exact hcl _ _ (hi.out k n hf hr)
    case hupExt => exact hcl _ _ (hi.out k n hf hr)
    case fetch => exact hi.out k n hf hr
    case fetchExt => exact hi.out k n hf hr
    case user => exact hi.out k n hf hr
    all_goals exact hi.out k n hf (keep hr)
  · intro k n hf hr
    cases h
    case exit => exact hcl _ _ (hi.inp k n hf hr)
    case sigpipe => exact hcl _ _ (hi.inp k n hf hr)
    case hup k' fd q h1 h2 h3 h4 h5 h6 h7 =>
      simp only at hr ⊢
      by_cases hkk : k = k'
      · subst hkk; rw [hf] at h2; cases h2; exact close_same ..
      · rw [upd_ne _ _ hkk] at hr; exact hcl _ _ (hi.inp k n hf hr)
    case hupExt k' fd h1 h2 h3 h4 h5 h6 =>
      simp only at hr ⊢
      by_cases hkk : k = k'
      · subst hkk; rw [hf] at h2; cases h2; exact close_same ..
      · rw [upd_ne _ _ hkk] at hr; exact hcl _ _ (hi.inp k n hf hr)
    all_goals exact hi.inp k n hf hr

theorem shut_steps {σ : Type} {prog : Prog σ} {net : Net} {init : Nat → σ} {src : Nat → Nat → Bytes} {L : Nat} {s : St σ} (h : Steps prog net L (St.start init src) s) : Shut net s := by
  generalize hs0 : St.start init src = s0 at h
  induction h with
  | nil => subst hs0; exact ⟨fun k n _ h => absurd rfl (h _), fun k n _ h => by cases h⟩
  | snoc _ h ih => exact shut_step h (ih hs0)

end Pieshell.Jam
