import Verif.Lemmas.Several
/-!
# Starting functions that the event loop cannot wait for: lemmas for C119
-/
namespace Pieshell.Poll
open Several (Failed bind_err lift_ok)

/-- The identities of the items before the first one the event loop cannot wait for. -/
def firsts (sys : Sys) (l : List RItem) : List Nat := (l.takeWhile (RItem.polls sys)).map RItem.id

theorem firsts_append_all {sys : Sys} {xs : List RItem} (ys : List RItem) (h : xs.all (RItem.polls sys) = true) : firsts sys (xs ++ ys) = xs.map RItem.id ++ firsts sys ys := by
  induction xs with
  | nil => rfl
  | cons x xs ih =>
    simp only [List.all_cons, Bool.and_eq_true] at h
    have := ih h.2
    simp only [firsts, List.cons_append, List.takeWhile_cons, h.1, ↓reduceIte, List.map_cons] at this ⊢
    rw [this]

theorem firsts_append_not {sys : Sys} {xs : List RItem} (ys : List RItem) (h : xs.all (RItem.polls sys) = false) : firsts sys (xs ++ ys) = firsts sys xs := by
  induction xs with
  | nil => cases h
  | cons x xs ih =>
    cases hx : RItem.polls sys x with
    | false => simp [firsts, List.takeWhile_cons, hx]
    | true =>
      have := ih (by simpa [hx] using h)
      simp only [firsts, List.cons_append, List.takeWhile_cons, hx, ↓reduceIte, List.map_cons] at this ⊢
      rw [this]

theorem all_append_false {sys : Sys} {xs ys : List RItem} (h : (xs ++ ys).all (RItem.polls sys) = false) (hx : xs.all (RItem.polls sys) = true) : ys.all (RItem.polls sys) = false := by
  rw [List.all_append, hx] at h
  simpa using h

theorem poll_err {sys : Sys} {w : World} {n : Nat} {en : Entry} (h : w.fds.get n = some en) (hp : sys.polls en.obj = false) : RunM.poll sys n w = (.error (.osError EPERM), w) := by
  simp [RunM.poll, h, hp]

theorem func_fails {sys : Sys} {cwd : Str} {w : World} {H L : Nat} {rs : Redirects} {i o e : Want} (id : Nat)
    (takes : Bool) (hr : Room sys w H L) (hl : H + 16 ≤ L) (hs : Std sys cwd rs w.fds H i o e) (he : e.Plain)
    (hq : RItem.polls sys (.func id (if takes then some (i.pick w.ctr).1 else none) (o.pick (i.pick w.ctr).2).1) = false) :
    Failed (runFunc sys cwd id takes rs) w [] (.osError EPERM) := by
  obtain ⟨m, w1, own, ui, uo, M⟩ := mat_spec hr.bounded hr.gap (by omega) hs he
  obtain ⟨q0, hq0, S0⟩ := M.std.get0
  obtain ⟨q1, hq1, S1⟩ := M.std.get1
  by_cases hin : takes = true ∧ sys.polls (i.pick w.ctr).1 = false
  · obtain ⟨rfl, hin⟩ := hin
    obtain ⟨a, w2, h1, h2, h3, ⟨en, h4, h5⟩, h6⟩ := dup_delta (sys := sys) (cwd := cwd) M.delta.bounded M.delta.gap (by omega) S0
    refine ⟨w2, ?_, by rw [h3, M.started]; simp, M.delta.keeps.trans h6.keeps⟩
    unfold runFunc
    rw [RunM.bind_ok M.eq]
    refine bind_err ?_
    simp only [↓reduceIte]
    rw [RunM.bind_ok (a := q0) (w' := w1) (by simp [RunM.lift, attr_of_get?.1 hq0]), RunM.bind_ok h1]
    exact bind_err (poll_err h4 (by rw [h5]; exact hin))
  · have hout : sys.polls (o.pick (i.pick w.ctr).2).1 = false := by
      cases takes <;> simp_all [RItem.polls]
    obtain ⟨inFd, w2, hin, st2, dl⟩ : ∃ (inFd : Option Nat) (w2 : World),
        (if takes then do
          let r ← RunM.lift (m.attr c!"stdin")
          let fd ← RunM.onFds (r.open sys cwd false)
          RunM.poll sys fd
          pure (some fd)
        else pure none : RunM (Option Nat)) w1 = (.ok inFd, w2) ∧ w2.started = w1.started ∧ Delta w1 w2 (H + 7) L [] inFd.toList := by
      cases takes with
      | false => exact ⟨none, w1, rfl, rfl, (Delta.refl M.delta.bounded M.delta.gap).mono (by omega)⟩
      | true =>
        obtain ⟨a, w2, h1, h2, h3, ⟨en, h4, h5⟩, h6⟩ := dup_delta (sys := sys) (cwd := cwd) M.delta.bounded M.delta.gap (by omega) S0
        refine ⟨some a, w2, ?_, h3, h6⟩
        simp only [↓reduceIte]
        rw [RunM.bind_ok (a := q0) (w' := w1) (by simp [RunM.lift, attr_of_get?.1 hq0]), RunM.bind_ok h1,
          RunM.bind_ok (RunM.poll_ok h4 (by rw [h5]; simpa using hin))]; rfl
    obtain ⟨b, w3, hout', c3, st3, ⟨en, hg3, ho3⟩, d3⟩ := dup_delta (sys := sys) (cwd := cwd) dl.bounded dl.gap (by omega)
      (S1.mono dl.keeps (by omega))
    refine ⟨w3, ?_, by rw [st3, st2, M.started]; simp, M.delta.keeps.trans (dl.keeps.trans d3.keeps)⟩
    unfold runFunc
    rw [RunM.bind_ok M.eq, RunM.bind_ok hin, RunM.bind_ok (a := q1) (w' := w2) (by simp [RunM.lift, attr_of_get?.2 hq1]), RunM.bind_ok hout']
    exact bind_err (poll_err hg3 (by rw [ho3]; exact hout))

/-- See `arg_step`. -/
theorem fail_step (sys : Sys) (cwd : Str) (rest : Args)
    (IH : ∀ (w : World) (H L : Nat) (orig rs : Redirects) (i o e : Obj), Room sys w H L →
      H + rs.length + rest.cost ≤ L → Std sys cwd orig w.fds H (.obj i) (.obj o) (.obj e) →
      ownedFds (Dict.values orig) = [] → rs.WF → (∀ k ∈ Dict.keys rs, k < H) →
      (∀ s ∈ srcFds (Dict.values rs), s < H) → Fine rest.Regular orig w.fds → (refArgs cwd rest i o e w.ctr).items.all (RItem.polls sys) = false →
      Failed (runArgs sys cwd rest orig rs) w (firsts sys (refArgs cwd rest i o e w.ctr).items) (.osError EPERM))
    {w w1 : World} {H H1 L u flag : Nat} {orig rs : Redirects} {i o e : Obj} {new : List Nat}
    (hr : Room sys w H L) (hH : H ≤ H1) (hl : H1 + rs.length + rest.cost + 2 ≤ L)
    (hs : Std sys cwd orig w.fds H (.obj i) (.obj o) (.obj e)) (how : ownedFds (Dict.values orig) = []) (hwf : rs.WF)
    (hk : ∀ k ∈ Dict.keys rs, k < H) (hsl : ∀ s ∈ srcFds (Dict.values rs), s < H) (hfine : Fine rest.Regular orig w.fds)
    (D1 : Delta w w1 H1 L [] new) (hu : u ∈ new) (hq : (refArgs cwd rest i o e w1.ctr).items.all (RItem.polls sys) = false) :
    ∃ w2, (∃ rs1, rs.redirect (.num rs.findFreeFd) (PipeEnd.fd u).toSource (some flag) = .ok rs1 ∧ runArgs sys cwd rest orig rs1 w1 = (.error (.osError EPERM), w2)) ∧
      w2.started = w1.started ++ firsts sys (refArgs cwd rest i o e w1.ctr).items ∧ Keeps w1.fds w2.fds := by
  obtain ⟨r, hred, hrfd, hrs, hrb, hwf1, hNk⟩ := add_arg (flag := flag) (u := u) hwf
  have hfree := findFreeFd_le hwf hr.three hk hsl
  have huH : u < H1 := D1.lt hu
  have hr1 : Room sys w1 (H1 + 1) L := (hr.next D1 hH).mono (by omega)
  have hv1 : Dict.values (rs ++ [(rs.findFreeFd, r)]) = Dict.values rs ++ [r] := by simp [Dict.values]
  obtain ⟨w2, g1, g2, g3⟩ := IH w1 (H1 + 1) L orig (rs ++ [(rs.findFreeFd, r)]) i o e hr1
    (by simp; omega) (hs.mono D1.keeps (by omega)) how hwf1
    (by
      intro k hk'
      simp only [Dict.keys, List.map_append, List.mem_append] at hk'
      rcases hk' with h | h
      · have := hk k h; omega
      · simp at h; omega)
    (by
      intro s hs'
      rw [hv1, srcFds_append, List.mem_append] at hs'
      rcases hs' with h | h
      · have := hsl s h; omega
      · rw [srcFds_cons_fd hrs] at h; simp [srcFds] at h; omega) (hfine.keeps D1.keeps) hq
  exact ⟨w2, ⟨_, hred, g1⟩, g2, g3⟩

mutual
theorem run_fails (sys : Sys) (cwd : Str) : (p : Pipeline) → p.Redirectable sys cwd →
    ∀ {w : World} {H L : Nat} {rs : Redirects} {i : Obj} {o e : Want},
    Room sys w H L → H + p.cost ≤ L → Std sys cwd rs w.fds H (.obj i) o e → o.Out → e.Plain →
    Fine p.Regular rs w.fds → (refRun cwd p i o e w.ctr).items.all (RItem.polls sys) = false →
    Failed (runP sys cwd p rs) w (firsts sys (refRun cwd p i o e w.ctr).items) (.osError EPERM)
  | .command id args, hp, w, H, L, rs, i, o, e, hr, hl, hs, ho, he, hf, hq => by
    have hc : (Pipeline.command id args).cost = args.cost + 16 := by simp [Pipeline.cost]
    rw [hc] at hl
    obtain ⟨m, w1, own, ui, uo, M⟩ := mat_spec hr.bounded hr.gap (by omega) hs he
    have Mstd : Std sys cwd m w1.fds (H + 6) (.obj i) (.obj (o.pick w.ctr).1) (.obj (e.pick (o.pick w.ctr).2).1) := M.std
    have Mfine : Fine args.Regular m w1.fds := Or.imp (fun h => ⟨by simpa [Pipeline.Regular] using h.1, M.nofiles h.2⟩) M.low hf
    have hr1 := hr.next M.delta (by omega)
    have hmlen : m.length = 3 := by obtain ⟨q0, q1, q2, hq, _⟩ := Mstd.shape; simp [hq]
    have hmk : ∀ k ∈ Dict.keys m, k < H + 6 := by
      obtain ⟨q0, q1, q2, hq, _⟩ := Mstd.shape
      intro k hk; rw [hq] at hk; simp [Dict.keys] at hk; omega
    simp only [refRun] at hq ⊢
    have hqa : (refArgs cwd args i (o.pick w.ctr).1 (e.pick (o.pick w.ctr).2).1 (e.pick (o.pick w.ctr).2).2).items.all (RItem.polls sys) = false := by
      rw [List.all_append] at hq
      simpa [RItem.polls] using hq
    rw [firsts_append_not _ hqa]
    have hct : w1.ctr = (e.pick (o.pick w.ctr).2).2 := M.ctr
    obtain ⟨w2, g1, g2, g3⟩ := args_fail sys cwd args (by simpa [Pipeline.Redirectable] using hp) w1 (H + 6) L m.borrow m _ _ _ hr1 (by rw [hmlen]; omega) Mstd.borrow
      (owned_borrow m) Mstd.wf hmk (fun s hs => (Mstd.owned_open hs).2) Mfine.borrow (by rw [hct]; exact hqa)
    refine ⟨w2, ?_, by rw [g2, M.started, hct], M.delta.keeps.trans g3⟩
    unfold runP
    exact (RunM.bind_ok M.eq).trans (bind_err g1)
  | .func id, hp, w, H, L, rs, i, o, e, hr, hl, hs, ho, he, hf, hq => by
    simp only [refRun, List.all_cons, List.all_nil, Bool.and_true] at hq
    have := func_fails (cwd := cwd) id true hr (by simpa [Pipeline.cost] using hl) hs he hq
    rw [show firsts sys (refRun cwd (.func id) i o e w.ctr).items = [] by simp [firsts, refRun, List.takeWhile_cons, hq]]
    unfold runP
    exact this
  | .iter id, hp, w, H, L, rs, i, o, e, hr, hl, hs, ho, he, hf, hq => by
    simp only [refRun, List.all_cons, List.all_nil, Bool.and_true] at hq
    have := func_fails (cwd := cwd) id false hr (by simpa [Pipeline.cost] using hl) hs he hq
    rw [show firsts sys (refRun cwd (.iter id) i o e w.ctr).items = [] by simp [firsts, refRun, List.takeWhile_cons, hq]]
    unfold runP
    exact this
  | .pipe a b, hp, w, H, L, rs, i, o, e, hr, hl, hs, ho, he, hf, hq => by
    have hc : (Pipeline.pipe a b).cost = a.cost + b.cost := by simp [Pipeline.cost]
    rw [hc] at hl
    have hreg : (Pipeline.pipe a b).Regular → a.Regular ∧ b.Regular := by simp [Pipeline.Regular]
    have hpa : a.Redirectable sys cwd ∧ b.Redirectable sys cwd ∧ a.outWant cwd .pipeOut = .pipeOut := by
      simpa [Pipeline.Redirectable] using hp
    obtain ⟨ta, hta, sta, ota, vta⟩ := redirect_out hs.borrow (owned_borrow rs)
    have fa : Fine a.Regular ta w.fds := (hf.borrow.change (.refl _) (fun r hr => by
        rcases vta r hr with h | h
        · exact .inl ⟨r, h, rfl, rfl⟩
        · exact .inr (by rw [h]; simp))).imp (fun h => (hreg h).1)
    simp only [refRun] at hq ⊢
    cases hqa : (refRun cwd a i .pipeOut e w.ctr).items.all (RItem.polls sys) with
    | false =>
      rw [firsts_append_not _ hqa]
      obtain ⟨w1, g1, g2, g3⟩ := run_fails sys cwd a hpa.1 hr (by omega) sta trivial he fa hqa
      refine ⟨w1, ?_, g2, g3⟩
      unfold runP
      exact (RunM.bind_ok (lift_ok hta w)).trans (bind_err g1)
    | true =>
      rw [firsts_append_all _ hqa]
      have hqb := all_append_false hq hqa
      obtain ⟨xs, ra, w1, ul1, lk1, hA, A⟩ := run_spec sys cwd a hpa.1 hr (by omega) sta trivial he fa hqa
      rw [usedFds_sub ota] at A
      obtain ⟨so, hso, hso'⟩ := A.r1
      obtain ⟨u, rfl, hpu, hgu⟩ := hso' hpa.2.2
      have hr1 := hr.next A.delta (by omega)
      have hnu : u ∉ srcFds (Dict.values rs.borrow) := by
        intro hm
        exact (hs.borrow.owned_open hm).1 (A.delta.fresh u (by simp)).1
      obtain ⟨tb, htb, stb, otb', vtb⟩ := redirect_in_fd (hs.borrow.mono A.delta.keeps (by omega)) (owned_borrow rs) hgu
        (A.delta.lt (by simp)) hnu
      obtain ⟨w2, g1, g2, g3⟩ := run_fails sys cwd b hpa.2.1 hr1 (by omega) stb ho he
        ((hf.borrow.change A.delta.keeps (fun r hr => by
          rcases vtb r hr with h | h
          · exact .inl ⟨r, h, rfl, rfl⟩
          · refine .inr ⟨by rw [h]; simp, fun n hn => ?_⟩
            rw [h] at hn; injection hn with hn; subst hn
            exact (A.delta.fresh u (by simp)).1)).imp (fun h => (hreg h).2)) (by rw [A.ctr]; exact hqb)
      refine ⟨w2, ?_, ?_, A.delta.keeps.trans g3⟩
      · unfold runP
        refine (RunM.bind_ok (lift_ok hta w)).trans ?_
        refine (RunM.bind_ok hA).trans ?_
        refine (RunM.bind_ok (lift_ok (attr_of_get?.2 hso) w1)).trans ?_
        rw [hpu]
        refine (RunM.bind_ok (lift_ok htb w1)).trans ?_
        exact bind_err g1
      · have := (C16_items_are_the_leaves_in_order sys cwd _ _ _ _ _ _ hA).2
        rw [g2, this, refRun_ids, A.ctr, List.append_assoc]
  | .group a b, hp, w, H, L, rs, i, o, e, hr, hl, hs, ho, he, hf, hq => by
    have hc : (Pipeline.group a b).cost = a.cost + b.cost := by simp [Pipeline.cost]
    rw [hc] at hl
    have how := owned_borrow rs
    have hreg : (Pipeline.group a b).Regular → a.Regular ∧ b.Regular := by simp [Pipeline.Regular]
    have hpa : a.Redirectable sys cwd ∧ b.Redirectable sys cwd := by
      simpa [Pipeline.Redirectable] using hp
    simp only [refRun] at hq ⊢
    cases hqa : (refRun cwd a i o e w.ctr).items.all (RItem.polls sys) with
    | false =>
      rw [firsts_append_not _ hqa]
      obtain ⟨w1, g1, g2, g3⟩ := run_fails sys cwd a hpa.1 hr (by omega) hs.borrow ho he (hf.borrow.imp (fun h => (hreg h).1)) hqa
      refine ⟨w1, ?_, g2, g3⟩
      unfold runP
      exact bind_err g1
    | true =>
      rw [firsts_append_all _ hqa]
      have hqb := all_append_false hq hqa
      obtain ⟨xs, ra, w1, ul1, lk1, hA, A⟩ := run_spec sys cwd a hpa.1 hr (by omega) hs.borrow ho he (hf.borrow.imp (fun h => (hreg h).1)) hqa
      rw [usedFds_sub how] at A
      have hr1 := hr.next A.delta (by omega)
      obtain ⟨w2, g1, g2, g3⟩ := run_fails sys cwd b hpa.2 hr1 (by omega) (hs.borrow.mono A.delta.keeps (by omega)) ho he
        ((hf.borrow.keeps A.delta.keeps).imp (fun h => (hreg h).2)) (by rw [A.ctr]; exact hqb)
      refine ⟨w2, ?_, ?_, A.delta.keeps.trans g3⟩
      · unfold runP
        refine (RunM.bind_ok hA).trans ?_
        exact bind_err g1
      · have := (C16_items_are_the_leaves_in_order sys cwd _ _ _ _ _ _ hA).2
        rw [g2, this, refRun_ids, A.ctr, List.append_assoc]
  | .redirect p crs, hp, w, H, L, rs, i, o, e, hr, hl, hs, ho, he, hf, hq => by
    have hp' : p.Redirectable sys cwd ∧ crs.Built ∧ ∀ r ∈ Dict.values crs, r.Simple sys cwd := by
      simpa [Pipeline.Redirectable] using hp
    have hc : (Pipeline.redirect p crs).cost = p.cost := by simp [Pipeline.cost]
    rw [hc] at hl
    have hlow : rs.Low w.fds := hf.elim (fun h => by simp [Pipeline.Regular] at h) id
    obtain ⟨m, hm, sm, om, em, vm, um⟩ := merge_std hs ho he hp'.2.1 hp'.2.2
    obtain ⟨w1, g1, g2, g3⟩ := run_fails sys cwd p hp'.1 hr hl sm om em
      (.inr ⟨hlow.1, fun r hr a ha hlt => by
        rcases vm r hr with h | h
        · exact hlow.2 r h a ha hlt
        · exact absurd ha (h a)⟩) (by simpa only [refRun] using hq)
    refine ⟨w1, ?_, g2, g3⟩
    unfold runP
    exact (RunM.bind_ok (lift_ok hm w)).trans g1
theorem args_fail (sys : Sys) (cwd : Str) : (a : Args) →
    a.Redirectable sys cwd → ∀ (w : World) (H L : Nat) (orig rs : Redirects) (i o e : Obj), Room sys w H L →
    H + rs.length + a.cost ≤ L → Std sys cwd orig w.fds H (.obj i) (.obj o) (.obj e) →
    ownedFds (Dict.values orig) = [] → rs.WF → (∀ k ∈ Dict.keys rs, k < H) →
    (∀ s ∈ srcFds (Dict.values rs), s < H) → Fine a.Regular orig w.fds → (refArgs cwd a i o e w.ctr).items.all (RItem.polls sys) = false →
    Failed (runArgs sys cwd a orig rs) w (firsts sys (refArgs cwd a i o e w.ctr).items) (.osError EPERM)
  | .nil, _, _, _, _, _, _, _, _, _, _, _, _, _, _, _, _, _, hq => by simp [refArgs] at hq
  | .word ws rest, hp, w, H, L, orig, rs, i, o, e, hr, hl, hs, how, hwf, hk, hsl, hf, hq => by
    obtain ⟨w1, g1, g2, g3⟩ := args_fail sys cwd rest (by simpa [Args.Redirectable] using hp) w H L orig rs i o e hr
      (by simpa [Args.cost] using hl) hs how hwf hk hsl (hf.imp (by simp [Args.Regular])) (by simpa only [refArgs] using hq)
    exact ⟨w1, by unfold runArgs; exact bind_err g1, g2, g3⟩
  | .pipeArg pre p rest, hp, w, H, L, orig, rs, i, o, e, hr, hl, hs, how, hwf, hk, hsl, hf, hq => by
    have hc : (Args.pipeArg pre p rest).cost = p.cost + rest.cost + 2 := by simp [Args.cost]
    rw [hc] at hl
    have hreg : (Args.pipeArg pre p rest).Regular → p.Regular ∧ rest.Regular := by simp [Args.Regular]
    have hpa : p.Redirectable sys cwd ∧ p.outWant cwd .pipeOut = .pipeOut ∧ rest.Redirectable sys cwd := by
      simpa [Args.Redirectable] using hp
    obtain ⟨ta, hta, sta, ota, vta⟩ := redirect_out hs how
    have fa : Fine p.Regular ta w.fds := (hf.change (.refl _) (fun r hr => by
        rcases vta r hr with h | h
        · exact .inl ⟨r, h, rfl, rfl⟩
        · exact .inr (by rw [h]; simp))).imp (fun h => (hreg h).1)
    simp only [refArgs] at hq ⊢
    cases hqa : (refRun cwd p i .pipeOut (.obj e) w.ctr).items.all (RItem.polls sys) with
    | false =>
      rw [firsts_append_not _ hqa]
      obtain ⟨w1, g1, g2, g3⟩ := run_fails sys cwd p hpa.1 hr (by omega) sta trivial trivial fa hqa
      refine ⟨w1, ?_, g2, g3⟩
      unfold runArgs
      exact (RunM.bind_ok (lift_ok hta w)).trans (bind_err g1)
    | true =>
      rw [firsts_append_all _ hqa]
      have hqb := all_append_false hq hqa
      obtain ⟨xs, ra, w1, ul1, lk1, hA, A⟩ := run_spec sys cwd p hpa.1 hr (by omega) sta trivial trivial fa hqa
      rw [usedFds_sub ota] at A
      obtain ⟨so, hso, hso'⟩ := A.r1
      obtain ⟨u, rfl, hpu, hgu⟩ := hso' hpa.2.1
      obtain ⟨w2, g1, g2, g3⟩ := fail_step sys cwd rest (u := u) (H1 := H + p.cost) (flag := O_RDONLY)
        (fun w H L orig rs i o e => args_fail sys cwd rest hpa.2.2 w H L orig rs i o e) hr (by omega) (by omega) hs how hwf hk hsl
        (hf.imp (fun h => (hreg h).2)) A.delta (by simp) (by rw [A.ctr]; exact hqb)
      obtain ⟨rs1, hrs1, g1⟩ := g1
      refine ⟨w2, ?_, ?_, A.delta.keeps.trans g3⟩
      · unfold runArgs
        refine (RunM.bind_ok (lift_ok hta w)).trans ?_
        refine (RunM.bind_ok hA).trans ?_
        refine (RunM.bind_ok (lift_ok (attr_of_get?.2 hso) w1)).trans ?_
        rw [hpu]
        refine (RunM.bind_ok (lift_ok hrs1 w1)).trans ?_
        exact bind_err g1
      · have := (C16_items_are_the_leaves_in_order sys cwd _ _ _ _ _ _ hA).2
        rw [g2, this, refRun_ids, A.ctr, List.append_assoc]
  | .funcArg pre id rest, hp, w, H, L, orig, rs, i, o, e, hr, hl, hs, how, hwf, hk, hsl, hf, hq => by
    have hc : (Args.funcArg pre id rest).cost = rest.cost + 18 := by simp [Args.cost]
    rw [hc] at hl
    obtain ⟨ta, hta, sta, ota, _⟩ := redirect_in hs how
    simp only [refArgs] at hq ⊢
    cases hqa : RItem.polls sys (.func id (some (.pipeR w.ctr.p)) o) with
    | false =>
      obtain ⟨w1, g1, g2, g3⟩ := func_fails (cwd := cwd) id true hr (by omega) sta trivial hqa
      refine ⟨w1, ?_, by rw [g2]; simp [firsts, List.takeWhile_cons, hqa], g3⟩
      unfold runArgs
      exact (RunM.bind_ok (lift_ok hta w)).trans (bind_err g1)
    | true =>
      obtain ⟨xs, ra, w1, ui, uo, hA, A⟩ := runFunc_spec (cwd := cwd) id true hr (by omega) sta trivial hqa
      rw [ota] at A
      obtain ⟨so, hso, u, rfl, hpu, hgu⟩ := A.r0
      obtain rfl : uo = [] := by obtain ⟨r, _, h⟩ := A.r1; exact h.nil
      have hqb := all_append_false (xs := [_]) hq (by simpa using hqa)
      have hct : w1.ctr = { w.ctr with p := w.ctr.p + 1 } := A.ctr
      obtain ⟨w2, g1, g2, g3⟩ := fail_step sys cwd rest (u := u) (H1 := H + 16) (flag := O_WRONLY)
        (fun w H L orig rs i o e => args_fail sys cwd rest (by simpa [Args.Redirectable] using hp) w H L orig rs i o e) hr (by omega) (by omega) hs how hwf hk hsl
        (hf.imp (by simp [Args.Regular])) A.delta (by simp)
        (by rw [hct]; exact hqb)
      obtain ⟨rs1, hrs1, g1⟩ := g1
      refine ⟨w2, ?_, ?_, A.delta.keeps.trans g3⟩
      · unfold runArgs
        refine (RunM.bind_ok (lift_ok hta w)).trans ?_
        refine (RunM.bind_ok hA).trans ?_
        refine (RunM.bind_ok (lift_ok (attr_of_get?.1 hso) w1)).trans ?_
        rw [hpu]
        refine (RunM.bind_ok (lift_ok hrs1 w1)).trans ?_
        exact bind_err g1
      · rw [g2, (runFunc_started hA).2, hct]
        simp [firsts, List.takeWhile_cons, hqa, RItem.id]
end

end Pieshell.Poll
