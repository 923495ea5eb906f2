import Verif.Lemmas.Whole2
import Verif.Spec.Capture
/-! The table of the last item of a pipeline. -/
namespace Pieshell

variable {sys : Sys} {cwd : Str}

theorem makePipe_pipe {r r' : Redirect} {w w' : World} (h : r.makePipe w = (.ok r', w')) :
    r'.fd = r.fd ∧ (r.source ≠ .none → r'.source ≠ .none) ∧ (r.source = .STRING → ∃ k, r'.pipe = .string k) ∧ (r.source = .TMP → ∃ k, r'.pipe = .tmp k) := by
  unfold Redirect.makePipe at h
  split at h
  · rename_i hs
    simp only [pipeCloexec] at h
    split at h <;> · cases h; simp [hs]
  · rename_i hs
    split at h
    · simp only [mkstemp] at h; cases h; simp [hs]
    · cases h
  · rename_i hs
    split at h
    · simp only [mkstemp] at h; cases h; simp [hs]
    · cases h
  · rename_i h1 h2 h3
    cases h
    exact ⟨rfl, id, fun h => absurd h (by simpa using h3), fun h => absurd h (by simpa using h2)⟩

/-- What becomes of a redirection. -/
def Turns (r r' : Redirect) : Prop :=
  r'.fd = r.fd ∧ (r.source ≠ .none → r'.source ≠ .none) ∧ (r.source = .STRING → ∃ k, r'.pipe = .string k) ∧ (r.source = .TMP → ∃ k, r'.pipe = .tmp k)

theorem makePipesList_turns {l l' : List Redirect} {w w' : World} (h : makePipesList l w = (.ok l', w')) : Pointwise Turns l l' := by
  induction l generalizing w l' with
  | nil => cases h; exact .nil
  | cons r l ih =>
    unfold makePipesList at h
    split at h
    · cases h
    · rename_i r' w1 h1
      split at h
      · cases h
      · rename_i l2 w2 h2
        cases h
        exact .cons (makePipe_pipe h1) (ih h2)

theorem makePipes_turns {rs m : Redirects} {w w' : World} (hwf : rs.WF) (h : rs.makePipes w = (.ok m, w')) :
    m.WF ∧ ∀ n r, Dict.get? rs n = some r → ∃ r', Dict.get? m n = some r' ∧ Turns r r' := by
  have hm : m.WF := makePipes_wf (w := w) (by rw [h])
  refine ⟨hm, fun n r hr => ?_⟩
  unfold Redirects.makePipes at h
  split at h
  · cases h
  · rename_i l w1 hl
    have ht := makePipesList_turns hl
    have hnn : ∀ r' ∈ l, r'.source ≠ .none := by
      intro r' hr'
      obtain ⟨k, hk⟩ := List.getElem?_of_mem hr'
      obtain ⟨q, hq, h1⟩ := ht.get hk
      exact h1.2.1 (values_source_ne_none hwf (List.mem_of_getElem? hq))
    have hfds : l.map Redirect.fd = Dict.keys rs := by
      rw [← hwf.keys_eq]
      clear hl hnn h
      generalize Dict.values rs = v at ht
      induction ht with
      | nil => rfl
      | cons h _ ih => simp [h.1, ih]
    have hreg := registerAll_distinct [] l hnn (by rw [hfds]; simpa [Dict.keys, Dict.Uniq] using hwf.1)
    have hflat : (l.map RArg.one).flatMap RArg.list = l := by
      clear hl ht hnn hfds hreg h
      induction l with
      | nil => rfl
      | cons a l ih => simp [RArg.list] at ih ⊢; exact ih
    simp only [Redirects.new, hflat, hreg, List.nil_append] at h
    cases h
    obtain ⟨hv, rfl⟩ := hwf.value_of_get? hr
    obtain ⟨k, hk⟩ := List.getElem?_of_mem hv
    obtain ⟨r', h1, h2⟩ := ht.get' hk
    refine ⟨r', ?_, h2⟩
    rw [← h2.1]
    apply hm.get?_of_value
    simp only [Dict.values, List.map_map]
    refine List.mem_map.2 ⟨r', List.mem_of_getElem? h1, rfl⟩

theorem runFunc_table {id : Nat} {takes : Bool} {rs rs' : Redirects} {w w' : World} {items : List Item} (hwf : rs.WF)
    (h : runFunc sys cwd id takes rs w = (.ok (items, rs'), w')) :
    rs'.WF ∧ ∃ x, items = [x] ∧ x.table = rs' ∧ ∀ n r, Dict.get? rs n = some r → ∃ r', Dict.get? rs' n = some r' ∧ Turns r r' := by
  unfold runFunc at h
  obtain ⟨m, w1, h1, h⟩ := RunM.bind_inv h
  obtain ⟨inFd, w2, h2, h⟩ := RunM.bind_inv h
  obtain ⟨r, w3, h3, h⟩ := RunM.bind_inv h
  obtain ⟨outFd, w4, h4, h⟩ := RunM.bind_inv h
  obtain ⟨_, w4', h4', h⟩ := RunM.bind_inv h
  obtain ⟨_, w5, h5, h⟩ := RunM.bind_inv h
  obtain ⟨_, w6, h6, h⟩ := RunM.bind_inv h
  obtain ⟨hp, rfl⟩ := RunM.pure_inv h
  cases hp
  obtain ⟨a, b⟩ := makePipes_turns hwf h1
  exact ⟨a, _, rfl, rfl, b⟩

theorem redirect_num {rs rs' : Redirects} {n : Nat} {src : Source} {f : Option Nat} (hwf : rs.WF) (h : rs.redirect (.num n) src f = .ok rs') :
    rs'.WF ∧ ∀ k, k ≠ n → Dict.get? rs' k = Dict.get? rs k := by
  unfold Redirects.redirect at h
  split at h
  · cases h
  · rename_i r hr
    have hfd : r.fd = n := by
      simp only [mkRedirect] at hr
      split at hr
      · cases hr
      · cases hr; rfl
    refine ⟨register_wf hwf h, fun k hk => ?_⟩
    rw [register_get? hwf h, hfd, if_neg (Ne.symm hk)]

theorem runArgs_table : (args : Args) → (orig rs rs' : Redirects) → (w w' : World) → (items : List Item) → (argv : List Word) → rs.WF →
    runArgs sys cwd args orig rs w = (.ok (items, argv, rs'), w') → rs'.WF ∧ ∀ n, n < 3 → Dict.get? rs' n = Dict.get? rs n
  | .nil, orig, rs, rs', w, w', items, argv, hwf, h => by
    unfold runArgs at h
    obtain ⟨hp, rfl⟩ := RunM.pure_inv h
    cases hp
    exact ⟨hwf, fun _ _ => rfl⟩
  | .word ws rest, orig, rs, rs', w, w', items, argv, hwf, h => by
    unfold runArgs at h
    obtain ⟨⟨its, av, rs2⟩, w1, h1, h⟩ := RunM.bind_inv h
    obtain ⟨hp, rfl⟩ := RunM.pure_inv h
    cases hp
    exact runArgs_table rest orig rs _ w _ _ _ hwf h1
  | .pipeArg pre p rest, orig, rs, rs', w, w', items, argv, hwf, h => by
    unfold runArgs at h
    obtain ⟨ta, w1, h1, h⟩ := RunM.bind_inv h
    obtain ⟨⟨xs, ra⟩, w2, h2, h⟩ := RunM.bind_inv h
    obtain ⟨so, w3, h3, h⟩ := RunM.bind_inv h
    obtain ⟨rs1, w4, h4, h⟩ := RunM.bind_inv h
    obtain ⟨⟨its, av, rs2⟩, w5, h5, h⟩ := RunM.bind_inv h
    obtain ⟨hp, rfl⟩ := RunM.pure_inv h
    cases hp
    obtain ⟨a, b⟩ := redirect_num hwf (RunM.lift_inv h4).1
    obtain ⟨c, d⟩ := runArgs_table rest orig rs1 _ _ _ _ _ a h5
    have := (findFreeFd_gt rs).2.2
    exact ⟨c, fun n hn => (d n hn).trans (b n (by omega))⟩
  | .funcArg pre id rest, orig, rs, rs', w, w', items, argv, hwf, h => by
    unfold runArgs at h
    obtain ⟨ta, w1, h1, h⟩ := RunM.bind_inv h
    obtain ⟨⟨xs, ra⟩, w2, h2, h⟩ := RunM.bind_inv h
    obtain ⟨so, w3, h3, h⟩ := RunM.bind_inv h
    obtain ⟨rs1, w4, h4, h⟩ := RunM.bind_inv h
    obtain ⟨⟨its, av, rs2⟩, w5, h5, h⟩ := RunM.bind_inv h
    obtain ⟨hp, rfl⟩ := RunM.pure_inv h
    cases hp
    obtain ⟨a, b⟩ := redirect_num hwf (RunM.lift_inv h4).1
    obtain ⟨c, d⟩ := runArgs_table rest orig rs1 _ _ _ _ _ a h5
    have := (findFreeFd_gt rs).2.2
    exact ⟨c, fun n hn => (d n hn).trans (b n (by omega))⟩

/-- The table of the last item. -/
def LastTable (p : Pipeline) (rs : Redirects) (items : List Item) (rs' : Redirects) : Prop :=
  rs'.WF ∧ ∀ r1, Dict.get? rs 1 = some r1 → ∃ x r, items.getLast? = some x ∧ Dict.get? rs' 1 = some r ∧ Dict.get? x.table 1 = some r ∧
    ((p.lastOut r1).source = .STRING → ∃ k, r.pipe = .string k) ∧ ((p.lastOut r1).source = .TMP → ∃ k, r.pipe = .tmp k)

theorem redirect_name {rs rs' : Redirects} {s : Str} {m : Nat} {src : Source} (hs : fdNames.get? s = some m) (hwf : rs.WF) (h : rs.redirect (.name s) src = .ok rs') :
    rs'.WF ∧ (∀ k, k ≠ m → Dict.get? rs' k = Dict.get? rs k) ∧ (src ≠ .none → ∃ r, Dict.get? rs' m = some r ∧ r.source = src) := by
  unfold Redirects.redirect at h
  split at h
  · cases h
  · rename_i r hr
    have hfd : r.fd = m ∧ r.source = src := by
      simp only [mkRedirect, hs] at hr
      split at hr
      · cases hr
      · cases hr; exact ⟨rfl, rfl⟩
    refine ⟨register_wf hwf h, fun k hk => ?_, fun hn => ?_⟩
    · rw [register_get? hwf h, hfd.1, if_neg (Ne.symm hk)]
    · refine ⟨r, ?_, hfd.2⟩
      rw [register_get? hwf h, if_pos hfd.1, hfd.2, if_neg hn]

theorem attr_inv {rs : Redirects} {s : Str} {r : Redirect} {m : Nat} (hs : fdNames.get? s = some m) (h : rs.attr s = .ok r) : Dict.get? rs m = some r := by
  unfold Redirects.attr at h
  rw [hs] at h
  simp only at h
  split at h
  · cases h
  · rename_i q e; cases h; exact e

theorem borrow_source (r : Redirect) : r.borrow.source = r.source := rfl

theorem lastOut_congr : (p : Pipeline) → (r r' : Redirect) → r.source = r'.source → (p.lastOut r).source = (p.lastOut r').source
  | .pipe _ b, r, r', h => lastOut_congr b r r' h
  | .group _ b, r, r', h => lastOut_congr b r r' h
  | .redirect p crs, r, r', h => by
    simp only [Pipeline.lastOut]
    cases Dict.get? crs 1 with
    | none => exact lastOut_congr p r r' h
    | some q => rfl
  | .command _ _, r, r', h => h
  | .func _, r, r', h => h
  | .iter _, r, r', h => h

theorem table_last : (p : Pipeline) → p.Redirectable sys cwd → (rs rs' : Redirects) → (w w' : World) → (items : List Item) → rs.WF →
    runP sys cwd p rs w = (.ok (items, rs'), w') → LastTable p rs items rs'
  | .command id args, hp, rs, rs', w, w', items, hwf, h => by
    unfold runP at h
    obtain ⟨m, w1, h1, h⟩ := RunM.bind_inv h
    obtain ⟨⟨its, argv, rs2⟩, w2, h2, h⟩ := RunM.bind_inv h
    obtain ⟨t, w3, h3, h⟩ := RunM.bind_inv h
    obtain ⟨_, w4, h4, h⟩ := RunM.bind_inv h
    obtain ⟨_, w5, h5, h⟩ := RunM.bind_inv h
    obtain ⟨hq, rfl⟩ := RunM.pure_inv h
    cases hq
    obtain ⟨a, b⟩ := makePipes_turns hwf h1
    obtain ⟨c, d⟩ := runArgs_table args _ _ _ _ _ _ _ a h2
    refine ⟨c, fun r1 hr => ?_⟩
    obtain ⟨r, e1, e2⟩ := b 1 r1 hr
    rw [← d 1 (by decide)] at e1
    exact ⟨.proc id argv _ rs', r, by simp; rfl, e1, e1, e2.2.2⟩
  | .func id, hp, rs, rs', w, w', items, hwf, h => by
    unfold runP at h
    obtain ⟨a, x, rfl, b, c⟩ := runFunc_table hwf h
    refine ⟨a, fun r1 hr => ?_⟩
    obtain ⟨r, e1, e2⟩ := c 1 r1 hr
    exact ⟨x, r, rfl, e1, by rw [b]; exact e1, e2.2.2⟩
  | .iter id, hp, rs, rs', w, w', items, hwf, h => by
    unfold runP at h
    obtain ⟨a, x, rfl, b, c⟩ := runFunc_table hwf h
    refine ⟨a, fun r1 hr => ?_⟩
    obtain ⟨r, e1, e2⟩ := c 1 r1 hr
    exact ⟨x, r, rfl, e1, by rw [b]; exact e1, e2.2.2⟩
  | .pipe a b, hp, rs, rs', w, w', items, hwf, h => by
    unfold runP at h
    obtain ⟨ta, w1, h1, h⟩ := RunM.bind_inv h
    obtain ⟨⟨xs, ra⟩, w2, h2, h⟩ := RunM.bind_inv h
    obtain ⟨so, w3, h3, h⟩ := RunM.bind_inv h
    obtain ⟨tb, w4, h4, h⟩ := RunM.bind_inv h
    obtain ⟨⟨ys, rb⟩, w5, h5, h⟩ := RunM.bind_inv h
    obtain ⟨m, w6, h6, h⟩ := RunM.bind_inv h
    obtain ⟨si, w7, h7, h⟩ := RunM.bind_inv h
    obtain ⟨m2, w8, h8, h⟩ := RunM.bind_inv h
    obtain ⟨so2, w9, h9, h⟩ := RunM.bind_inv h
    obtain ⟨m3, w10, h10, h⟩ := RunM.bind_inv h
    obtain ⟨_, w11, h11, h⟩ := RunM.bind_inv h
    obtain ⟨hq, rfl⟩ := RunM.pure_inv h
    cases hq
    obtain ⟨ta1, -, -⟩ := redirect_name (m := 1) rfl (borrow_wf hwf) (RunM.lift_inv h1).1
    obtain ⟨a1, -⟩ := table_last a hp.1 _ _ _ _ _ ta1 h2
    obtain ⟨tb1, tb2, -⟩ := redirect_name (m := 0) rfl (borrow_wf hwf) (RunM.lift_inv h4).1
    obtain ⟨b1, b2⟩ := table_last b hp.2.1 _ _ _ _ _ tb1 h5
    obtain ⟨m', e1, m1, -⟩ := merge_ok a1 b1
    rw [(RunM.lift_inv h6).1] at e1
    cases e1
    have m2w := register_wf m1 (RunM.lift_inv h8).1
    have m3w := register_wf m2w (RunM.lift_inv h10).1
    refine ⟨m3w, fun r1 hr => ?_⟩
    have hb1 : Dict.get? tb 1 = some r1.borrow := by rw [tb2 1 (by decide), borrow_get?, hr]; rfl
    obtain ⟨x, r, x1, x2, x3, x4⟩ := b2 _ hb1
    have hso := attr_inv (m := 1) rfl (RunM.lift_inv h9).1
    rw [x2] at hso
    cases hso
    refine ⟨x, so2, by simp [List.getLast?_append, x1], ?_, x3, ?_⟩
    · rw [register_get? m2w (RunM.lift_inv h10).1, if_pos (b1.value_of_get? x2).2, if_neg (values_source_ne_none b1 (b1.value_of_get? x2).1)]
    · simp only [Pipeline.lastOut]
      rw [lastOut_congr b r1 r1.borrow rfl]
      exact x4
  | .group a b, hp, rs, rs', w, w', items, hwf, h => by
    unfold runP at h
    obtain ⟨⟨xs, ra⟩, w2, h2, h⟩ := RunM.bind_inv h
    obtain ⟨⟨ys, rb⟩, w5, h5, h⟩ := RunM.bind_inv h
    obtain ⟨m, w6, h6, h⟩ := RunM.bind_inv h
    obtain ⟨_, w11, h11, h⟩ := RunM.bind_inv h
    obtain ⟨hq, rfl⟩ := RunM.pure_inv h
    cases hq
    obtain ⟨a1, -⟩ := table_last a hp.1 _ _ _ _ _ (borrow_wf hwf) h2
    obtain ⟨b1, b2⟩ := table_last b hp.2 _ _ _ _ _ (borrow_wf hwf) h5
    obtain ⟨m', e1, m1, mg⟩ := merge_ok a1 b1
    rw [(RunM.lift_inv h6).1] at e1
    cases e1
    refine ⟨m1, fun r1 hr => ?_⟩
    obtain ⟨x, r, x1, x2, x3, x4⟩ := b2 r1.borrow (by rw [borrow_get?, hr]; rfl)
    refine ⟨x, r, by simp [List.getLast?_append, x1], ?_, x3, ?_⟩
    · rw [mg, x2]
    · simp only [Pipeline.lastOut]
      rw [lastOut_congr b r1 r1.borrow rfl]
      exact x4
  | .redirect p crs, hp, rs, rs', w, w', items, hwf, h => by
    unfold runP at h
    obtain ⟨m, w1, h1, h2⟩ := RunM.bind_inv h
    obtain ⟨m', e1, m1, mg⟩ := merge_ok hwf hp.2.1.wf
    rw [(RunM.lift_inv h1).1] at e1
    cases e1
    obtain ⟨a, b⟩ := table_last p hp.1 _ _ _ _ _ m1 h2
    refine ⟨a, fun r1 hr => ?_⟩
    have hg := mg 1
    obtain ⟨x, r, x1, x2, x3, x4⟩ := b ((Dict.get? crs 1).getD r1) (by
      rw [hg]
      cases Dict.get? crs 1 with
      | none => exact hr
      | some q => rfl)
    exact ⟨x, r, x1, x2, x3, x4⟩

end Pieshell
