import Verif.Spec.Several
import Verif.Props.Run
/-!
# Running pipelines with commands of several environments
-/
namespace Pieshell.Several

/-! ### the same as with expanded arguments -/

/-- `x` does the same as `y`, with results related by `R`. -/
def Sim {α β : Type} (R : α → β → Prop) (x : RunM α) (y : RunM β) : Prop :=
  ∀ w, (∃ a b w', x w = (.ok a, w') ∧ y w = (.ok b, w') ∧ R a b) ∨ ∃ e w', x w = (.error e, w') ∧ y w = (.error e, w')

theorem Sim.bind {α β γ δ : Type} {R : α → β → Prop} {S : γ → δ → Prop} {x : RunM α} {y : RunM β} {f : α → RunM γ} {g : β → RunM δ}
    (h : Sim R x y) (hf : ∀ a b, R a b → Sim S (f a) (g b)) : Sim S (x >>= f) (y >>= g) := by
  intro w
  rcases h w with ⟨a, b, w', h1, h2, h3⟩ | ⟨e, w', h1, h2⟩
  · have e1 : (x >>= f) w = f a w' := RunM.bind_ok h1
    have e2 : (y >>= g) w = g b w' := RunM.bind_ok h2
    rw [e1, e2]
    exact hf a b h3 w'
  · right
    refine ⟨e, w', ?_, ?_⟩
    · show RunM.bind x f w = _; unfold RunM.bind; rw [h1]
    · show RunM.bind y g w = _; unfold RunM.bind; rw [h2]

theorem Sim.refl {α : Type} (x : RunM α) : Sim (· = ·) x x := by
  intro w
  rcases h : x w with ⟨r, w'⟩
  cases r with
  | ok a => exact .inl ⟨a, a, w', rfl, rfl, rfl⟩
  | error e => exact .inr ⟨e, w', rfl, rfl⟩

theorem Sim.pure {α β : Type} {R : α → β → Prop} {a : α} {b : β} (h : R a b) : Sim R (Pure.pure a) (Pure.pure b) :=
  fun w => .inl ⟨a, b, w, rfl, rfl, h⟩

theorem Sim.mono {α β : Type} {R S : α → β → Prop} {x : RunM α} {y : RunM β} (h : Sim R x y) (hs : ∀ a b, R a b → S a b) : Sim S x y := by
  intro w
  rcases h w with ⟨a, b, w', h1, h2, h3⟩ | h
  · exact .inl ⟨a, b, w', h1, h2, hs a b h3⟩
  · exact .inr h

/-- the same items and the same table -/
def Same (a : List Run × Redirects) (b : List Item × Redirects) : Prop := a.1.map Run.item = b.1 ∧ a.2 = b.2
/-- ... and the same words -/
def SameA (a : List Run × List Word × Redirects) (b : List Item × List Word × Redirects) : Prop := a.1.map Run.item = b.1 ∧ a.2 = b.2

theorem andThen_all {x y : Outcome} {l : List Nat} (h : x.andThen y = .all l) : ∃ a b, x = .all a ∧ y = .all b ∧ l = a ++ b := by
  cases x <;> cases y <;> simp only [Outcome.andThen, Outcome.all.injEq, reduceCtorEq] at h
  exact ⟨_, _, rfl, rfl, h.symm⟩

theorem andThen_stops {x y : Outcome} {l : List Nat} {e : Exn} (h : x.andThen y = .stops l e) :
    x = .stops l e ∨ ∃ a b, x = .all a ∧ y = .stops b e ∧ l = a ++ b := by
  cases x <;> cases y <;> simp only [Outcome.andThen, Outcome.stops.injEq, reduceCtorEq] at h
  · exact .inr ⟨_, _, rfl, by rw [h.2], h.1.symm⟩
  · exact .inl (by rw [h.1, h.2])
  · exact .inl (by rw [h.1, h.2])

theorem map_item_map (xs : List Item) (env : Nat) : (xs.map (fun x => (⟨x, env⟩ : Run))).map Run.item = xs := by
  induction xs with
  | nil => rfl
  | cons x xs ih => simp only [List.map_cons, ih]

mutual
theorem sim_run (sys : Sys) (sh : Shell) : (p : Px) → (l : List Nat) → outcome sh p = .all l → (rs : Redirects) →
    Sim Same (runX sys sh p rs) (runP sys sh.procCwd (plain sh p) rs)
  | .command env id args, l, h, rs => by
    obtain ⟨a, b, h1, -, -⟩ := andThen_all h
    unfold runX plain runP
    refine (Sim.refl _).bind ?_
    rintro m _ rfl
    refine (sim_args sys sh env args a h1 _ _).bind ?_
    rintro ⟨i1, v1, r1⟩ ⟨i2, v2, r2⟩ ⟨e1, e2⟩
    cases e2
    refine (Sim.refl _).bind ?_
    rintro t _ rfl
    refine (Sim.refl _).bind ?_
    rintro _ _ -
    refine (Sim.refl _).bind ?_
    rintro _ _ -
    exact .pure ⟨by simp only [List.map_append, List.map_cons, List.map_nil]; rw [show List.map Run.item i1 = i2 from e1], rfl⟩
  | .func env id, l, h, rs => by
    unfold runX plain runP
    intro w
    rcases hx : runFunc sys sh.procCwd id true rs w with ⟨⟨e⟩ | ⟨xs, r⟩, w'⟩
    · exact .inr ⟨e, w', by show RunM.bind _ _ w = _; unfold RunM.bind; rw [hx], rfl⟩
    · exact .inl ⟨_, _, w', RunM.bind_ok hx, rfl, map_item_map xs env, rfl⟩
  | .iter env id, l, h, rs => by
    unfold runX plain runP
    intro w
    rcases hx : runFunc sys sh.procCwd id false rs w with ⟨⟨e⟩ | ⟨xs, r⟩, w'⟩
    · exact .inr ⟨e, w', by show RunM.bind _ _ w = _; unfold RunM.bind; rw [hx], rfl⟩
    · exact .inl ⟨_, _, w', RunM.bind_ok hx, rfl, map_item_map xs env, rfl⟩
  | .pipe _ a b, l, h, rs => by
    obtain ⟨la, lb, h1, h2, -⟩ := andThen_all h
    unfold runX plain runP
    refine (Sim.refl _).bind ?_
    rintro ta _ rfl
    refine (sim_run sys sh a la h1 _).bind ?_
    rintro ⟨x1, r1⟩ ⟨x2, r2⟩ ⟨e1, e2⟩
    cases e2
    refine (Sim.refl _).bind ?_
    rintro so _ rfl
    refine (Sim.refl _).bind ?_
    rintro tb _ rfl
    refine (sim_run sys sh b lb h2 _).bind ?_
    rintro ⟨y1, s1⟩ ⟨y2, s2⟩ ⟨e3, e4⟩
    cases e4
    refine (Sim.refl _).bind ?_
    rintro _ _ rfl
    refine (Sim.refl _).bind ?_
    rintro _ _ rfl
    refine (Sim.refl _).bind ?_
    rintro _ _ rfl
    refine (Sim.refl _).bind ?_
    rintro _ _ rfl
    refine (Sim.refl _).bind ?_
    rintro _ _ rfl
    refine (Sim.refl _).bind ?_
    rintro _ _ -
    exact .pure ⟨by simp only [List.map_append]; rw [show List.map Run.item x1 = x2 from e1, show List.map Run.item y1 = y2 from e3], rfl⟩
  | .group _ a b, l, h, rs => by
    obtain ⟨la, lb, h1, h2, -⟩ := andThen_all h
    unfold runX plain runP
    refine (sim_run sys sh a la h1 _).bind ?_
    rintro ⟨x1, r1⟩ ⟨x2, r2⟩ ⟨e1, e2⟩
    cases e2
    refine (sim_run sys sh b lb h2 _).bind ?_
    rintro ⟨y1, s1⟩ ⟨y2, s2⟩ ⟨e3, e4⟩
    cases e4
    refine (Sim.refl _).bind ?_
    rintro _ _ rfl
    refine (Sim.refl _).bind ?_
    rintro _ _ -
    exact .pure ⟨by simp only [List.map_append]; rw [show List.map Run.item x1 = x2 from e1, show List.map Run.item y1 = y2 from e3], rfl⟩
  | .redirect _ p crs, l, h, rs => by
    unfold runX plain runP
    refine (Sim.refl _).bind ?_
    rintro m _ rfl
    exact sim_run sys sh p l h _
theorem sim_args (sys : Sys) (sh : Shell) (env : Nat) : (a : Ax) → (l : List Nat) → outcomeA sh env a = .all l → (orig rs : Redirects) →
    Sim SameA (runAx sys sh env a orig rs) (runArgs sys sh.procCwd (plainA sh env a) orig rs)
  | .nil, l, h, orig, rs => by unfold runAx plainA runArgs; exact .pure ⟨rfl, rfl⟩
  | .text pre s rest, l, h, orig, rs => by
    unfold outcomeA at h
    unfold runAx plainA
    cases hx : Expand.expandArgument (sh.ctx env) s with
    | error e => rw [hx] at h; cases h
    | ok ws =>
      rw [hx] at h
      simp only
      unfold runArgs
      have : ∀ {α : Type} (f : List Str → RunM α), (RunM.lift (Except.ok ws) >>= f) = f ws := fun f => by funext w; rfl
      rw [this]
      refine (sim_args sys sh env rest l h _ _).bind ?_
      rintro ⟨i1, v1, r1⟩ ⟨i2, v2, r2⟩ ⟨e1, e2⟩
      cases e2
      exact .pure ⟨e1, by simp [List.map_map, Function.comp_def]⟩
  | .raw pre s rest, l, h, orig, rs => by
    unfold runAx plainA runArgs
    refine (sim_args sys sh env rest l h _ _).bind ?_
    rintro ⟨i1, v1, r1⟩ ⟨i2, v2, r2⟩ ⟨e1, e2⟩
    cases e2
    exact .pure ⟨e1, rfl⟩
  | .flag s rest, l, h, orig, rs => by
    unfold runAx plainA runArgs
    refine (sim_args sys sh env rest l h _ _).bind ?_
    rintro ⟨i1, v1, r1⟩ ⟨i2, v2, r2⟩ ⟨e1, e2⟩
    cases e2
    exact .pure ⟨e1, rfl⟩
  | .pipeArg pre p rest, l, h, orig, rs => by
    obtain ⟨la, lb, h1, h2, -⟩ := andThen_all h
    unfold runAx plainA runArgs
    refine (Sim.refl _).bind ?_
    rintro ta _ rfl
    refine (sim_run sys sh p la h1 _).bind ?_
    rintro ⟨x1, r1⟩ ⟨x2, r2⟩ ⟨e1, e2⟩
    cases e2
    refine (Sim.refl _).bind ?_
    rintro so _ rfl
    refine (Sim.refl _).bind ?_
    rintro rs1 _ rfl
    refine (sim_args sys sh env rest lb h2 _ _).bind ?_
    rintro ⟨i1, v1, r1⟩ ⟨i2, v2, r2⟩ ⟨e3, e4⟩
    cases e4
    exact .pure ⟨by simp only [List.map_append]; rw [show List.map Run.item x1 = x2 from e1, show List.map Run.item i1 = i2 from e3], rfl⟩
  | .funcArg pre id rest, l, h, orig, rs => by
    obtain ⟨la, lb, -, h2, -⟩ := andThen_all h
    unfold runAx plainA runArgs
    refine (Sim.refl _).bind ?_
    rintro ta _ rfl
    refine (Sim.refl _).bind ?_
    rintro ⟨x1, r1⟩ _ rfl
    refine (Sim.refl _).bind ?_
    rintro so _ rfl
    refine (Sim.refl _).bind ?_
    rintro rs1 _ rfl
    refine (sim_args sys sh env rest lb h2 _ _).bind ?_
    rintro ⟨i1, v1, r1⟩ ⟨i2, v2, r2⟩ ⟨e3, e4⟩
    cases e4
    exact .pure ⟨by simp only [List.map_append, map_item_map]; rw [show List.map Run.item i1 = i2 from e3], rfl⟩
end

theorem sim_ok {α β : Type} {R : α → β → Prop} {x : RunM α} {y : RunM β} (h : Sim R x y) {w w' : World} {b : β} (hy : y w = (.ok b, w')) :
    ∃ a, x w = (.ok a, w') ∧ R a b := by
  rcases h w with ⟨a, b', w1, h1, h2, h3⟩ | ⟨e, w1, h1, h2⟩
  · rw [hy] at h2; cases h2; exact ⟨a, h1, h3⟩
  · rw [hy] at h2; cases h2

mutual
theorem all_ids (sh : Shell) : (p : Px) → (l : List Nat) → outcome sh p = .all l → (plain sh p).ids = l
  | .command env id args, l, h => by
    obtain ⟨a, b, h1, h2, rfl⟩ := andThen_all h
    cases h2
    simp only [plain, Pipeline.ids, all_idsA sh env args a h1]
  | .func env id, l, h => by cases h; rfl
  | .iter env id, l, h => by cases h; rfl
  | .pipe _ a b, l, h => by
    obtain ⟨la, lb, h1, h2, rfl⟩ := andThen_all h
    simp only [plain, Pipeline.ids, all_ids sh a la h1, all_ids sh b lb h2]
  | .group _ a b, l, h => by
    obtain ⟨la, lb, h1, h2, rfl⟩ := andThen_all h
    simp only [plain, Pipeline.ids, all_ids sh a la h1, all_ids sh b lb h2]
  | .redirect _ p crs, l, h => by simp only [plain, Pipeline.ids, all_ids sh p l h]
theorem all_idsA (sh : Shell) (env : Nat) : (a : Ax) → (l : List Nat) → outcomeA sh env a = .all l → (plainA sh env a).ids = l
  | .nil, l, h => by cases h; rfl
  | .text pre s rest, l, h => by
    unfold outcomeA at h
    unfold plainA
    cases hx : Expand.expandArgument (sh.ctx env) s with
    | error e => rw [hx] at h; cases h
    | ok ws => rw [hx] at h; simp only [Args.ids, all_idsA sh env rest l h]
  | .raw pre s rest, l, h => by simp only [plainA, Args.ids, all_idsA sh env rest l h]
  | .flag s rest, l, h => by simp only [plainA, Args.ids, all_idsA sh env rest l h]
  | .pipeArg pre p rest, l, h => by
    obtain ⟨la, lb, h1, h2, rfl⟩ := andThen_all h
    simp only [plainA, Args.ids, all_ids sh p la h1, all_idsA sh env rest lb h2]
  | .funcArg pre id rest, l, h => by
    obtain ⟨la, lb, h1, h2, rfl⟩ := andThen_all h
    cases h1
    simp only [plainA, Args.ids, all_idsA sh env rest lb h2, List.cons_append, List.nil_append]
end

theorem bind_err {α β : Type} {x : RunM α} {f : α → RunM β} {w w' : World} {e : Exn} (h : x w = (.error e, w')) : (x >>= f) w = (.error e, w') := by
  show RunM.bind x f w = _; unfold RunM.bind; rw [h]

theorem lift_ok {α : Type} {x : Except Exn α} {a : α} (h : x = .ok a) (w : World) : RunM.lift x w = (.ok a, w) := by rw [h]; rfl

/-- What is left when starting a pipeline has failed. -/
def Failed {α : Type} (x : RunM α) (w : World) (l : List Nat) (e : Exn) : Prop :=
  ∃ w', x w = (.error e, w') ∧ w'.started = w.started ++ l ∧ Keeps w.fds w'.fds

theorem fail_step (sys : Sys) (sh : Shell) (env : Nat) (rest : Ax) (l : List Nat) (ex : Exn) (h : outcomeA sh env rest = .stops l ex)
    (IH : ∀ (w : World) (H L : Nat) (orig rs : Redirects) (i o e : Obj), Room sys w H L →
      H + rs.length + (plainA sh env rest).cost ≤ L → Std sys sh.procCwd orig w.fds H (.obj i) (.obj o) (.obj e) →
      ownedFds (Dict.values orig) = [] → rs.WF → (∀ k ∈ Dict.keys rs, k < H) →
      (∀ s ∈ srcFds (Dict.values rs), s < H) → Fine (plainA sh env rest).Regular orig w.fds → (refArgs sh.procCwd (plainA sh env rest) i o e w.ctr).items.all (RItem.polls sys) = true →
      Failed (runAx sys sh env rest orig rs) w l ex)
    {w w1 : World} {H H1 L u flag : Nat} {orig rs : Redirects} {i o e : Obj} {new : List Nat}
    (hr : Room sys w H L) (hH : H ≤ H1) (hl : H1 + rs.length + (plainA sh env rest).cost + 2 ≤ L)
    (hs : Std sys sh.procCwd orig w.fds H (.obj i) (.obj o) (.obj e)) (how : ownedFds (Dict.values orig) = []) (hwf : rs.WF)
    (hk : ∀ k ∈ Dict.keys rs, k < H) (hsl : ∀ s ∈ srcFds (Dict.values rs), s < H) (hfine : Fine (plainA sh env rest).Regular orig w.fds)
    (D1 : Delta w w1 H1 L [] new) (hu : u ∈ new) (hq : (refArgs sh.procCwd (plainA sh env rest) i o e w1.ctr).items.all (RItem.polls sys) = true) :
    ∃ w2, (∃ rs1, rs.redirect (.num rs.findFreeFd) (PipeEnd.fd u).toSource (some flag) = .ok rs1 ∧ runAx sys sh env rest orig rs1 w1 = (.error ex, w2)) ∧
      w2.started = w1.started ++ l ∧ Keeps w1.fds w2.fds := by
  obtain ⟨r, hred, hrfd, hrs, hrb, hwf1, hNk⟩ := add_arg (flag := flag) (u := u) hwf
  have hfree := findFreeFd_le hwf hr.three hk hsl
  have huH : u < H1 := D1.lt hu
  have hr1 : Room sys w1 (H1 + 1) L := (hr.next D1 hH).mono (by omega)
  have hv1 : Dict.values (rs ++ [(rs.findFreeFd, r)]) = Dict.values rs ++ [r] := by simp [Dict.values]
  obtain ⟨w2, g1, g2, g3⟩ := IH w1 (H1 + 1) L orig (rs ++ [(rs.findFreeFd, r)]) i o e hr1
    (by simp; omega) (hs.mono D1.keeps (by omega)) how hwf1
    (by
      intro k hk'
      simp only [Dict.keys, List.map_append, List.mem_append] at hk'
      rcases hk' with h | h
      · have := hk k h; omega
      · simp at h; omega)
    (by
      intro s hs'
      rw [hv1, srcFds_append, List.mem_append] at hs'
      rcases hs' with h | h
      · have := hsl s h; omega
      · rw [srcFds_cons_fd hrs] at h; simp [srcFds] at h; omega) (hfine.keeps D1.keeps) hq
  exact ⟨w2, ⟨_, hred, g1⟩, g2, g3⟩

mutual
theorem fail_run (sys : Sys) (sh : Shell) : (p : Px) → (l : List Nat) → (ex : Exn) → outcome sh p = .stops l ex → (plain sh p).Redirectable sys sh.procCwd →
    ∀ {w : World} {H L : Nat} {rs : Redirects} {i : Obj} {o e : Want},
    Room sys w H L → H + (plain sh p).cost ≤ L → Std sys sh.procCwd rs w.fds H (.obj i) o e → o.Out → e.Plain →
    Fine (plain sh p).Regular rs w.fds → (refRun sh.procCwd (plain sh p) i o e w.ctr).items.all (RItem.polls sys) = true → Failed (runX sys sh p rs) w l ex
  | .command env id args, l, ex, h, hp, w, H, L, rs, i, o, e, hr, hl, hs, ho, he, hf, hq => by
    have h1 : outcomeA sh env args = .stops l ex := by
      rcases andThen_stops h with h | ⟨a, b, -, h, -⟩
      · exact h
      · cases h
    have hc : (plain sh (.command env id args)).cost = (plainA sh env args).cost + 16 := by simp [plain, Pipeline.cost]
    rw [hc] at hl
    obtain ⟨m, w1, own, ui, uo, M⟩ := mat_spec hr.bounded hr.gap (by omega) hs he
    have Mstd : Std sys sh.procCwd m w1.fds (H + 6) (.obj i) (.obj (o.pick w.ctr).1) (.obj (e.pick (o.pick w.ctr).2).1) := M.std
    have Mfine : Fine (plainA sh env args).Regular m w1.fds := Or.imp (fun h => ⟨by simpa [plain, Pipeline.Regular] using h.1, M.nofiles h.2⟩) M.low hf
    have hr1 := hr.next M.delta (by omega)
    have hmlen : m.length = 3 := by obtain ⟨q0, q1, q2, hq, _⟩ := Mstd.shape; simp [hq]
    have hmk : ∀ k ∈ Dict.keys m, k < H + 6 := by
      obtain ⟨q0, q1, q2, hq, _⟩ := Mstd.shape
      intro k hk; rw [hq] at hk; simp [Dict.keys] at hk; omega
    obtain ⟨w2, g1, g2, g3⟩ := fail_args sys sh env args l ex h1 (by simpa [plain, Pipeline.Redirectable] using hp) w1 (H + 6) L m.borrow m _ _ _ hr1 (by rw [hmlen]; omega) Mstd.borrow
      (owned_borrow m) Mstd.wf hmk (fun s hs => (Mstd.owned_open hs).2) Mfine.borrow
      (by rw [M.ctr]; simp only [plain, refRun, List.all_append, Bool.and_eq_true] at hq; exact hq.1)
    refine ⟨w2, ?_, by rw [g2, M.started], M.delta.keeps.trans g3⟩
    unfold runX
    exact (RunM.bind_ok M.eq).trans (bind_err g1)
  | .func env id, l, ex, h, _, _, _, _, _, _, _, _, _, _, _, _, _, _, _ => by cases h
  | .iter env id, l, ex, h, _, _, _, _, _, _, _, _, _, _, _, _, _, _, _ => by cases h
  | .pipe env a b, l, ex, h, hp, w, H, L, rs, i, o, e, hr, hl, hs, ho, he, hf, hq => by
    have hc : (plain sh (.pipe env a b)).cost = (plain sh a).cost + (plain sh b).cost := by simp [plain, Pipeline.cost]
    rw [hc] at hl
    have hreg : (plain sh (.pipe env a b)).Regular → (plain sh a).Regular ∧ (plain sh b).Regular := by simp [plain, Pipeline.Regular]
    have hpa : (plain sh a).Redirectable sys sh.procCwd ∧ (plain sh b).Redirectable sys sh.procCwd ∧ (plain sh a).outWant sh.procCwd .pipeOut = .pipeOut := by
      simpa [plain, Pipeline.Redirectable] using hp
    obtain ⟨ta, hta, sta, ota, vta⟩ := redirect_out hs.borrow (owned_borrow rs)
    obtain ⟨hqa, hqb⟩ : _ ∧ _ := by simpa only [plain, refRun, List.all_append, Bool.and_eq_true] using hq
    have fa : Fine (plain sh a).Regular ta w.fds := (hf.borrow.change (.refl _) (fun r hr => by
        rcases vta r hr with h | h
        · exact .inl ⟨r, h, rfl, rfl⟩
        · exact .inr (by rw [h]; simp))).imp (fun h => (hreg h).1)
    rcases andThen_stops h with h | ⟨la, lb, h1, h2, rfl⟩
    · obtain ⟨w1, g1, g2, g3⟩ := fail_run sys sh a l ex h hpa.1 hr (by omega) sta trivial he fa hqa
      refine ⟨w1, ?_, g2, g3⟩
      unfold runX
      exact (RunM.bind_ok (lift_ok hta w)).trans (bind_err g1)
    · obtain ⟨xs, ra, w1, ul1, lk1, hA, A⟩ := run_spec sys sh.procCwd (plain sh a) hpa.1 hr (by omega) sta trivial he fa hqa
      rw [usedFds_sub ota] at A
      obtain ⟨so, hso, hso'⟩ := A.r1
      obtain ⟨u, rfl, hpu, hgu⟩ := hso' hpa.2.2
      have hr1 := hr.next A.delta (by omega)
      have hnu : u ∉ srcFds (Dict.values rs.borrow) := by
        intro hm
        exact (hs.borrow.owned_open hm).1 (A.delta.fresh u (by simp)).1
      obtain ⟨tb, htb, stb, otb', vtb⟩ := redirect_in_fd (hs.borrow.mono A.delta.keeps (by omega)) (owned_borrow rs) hgu
        (A.delta.lt (by simp)) hnu
      obtain ⟨w2, g1, g2, g3⟩ := fail_run sys sh b lb ex h2 hpa.2.1 hr1 (by omega) stb ho he
        ((hf.borrow.change A.delta.keeps (fun r hr => by
          rcases vtb r hr with h | h
          · exact .inl ⟨r, h, rfl, rfl⟩
          · refine .inr ⟨by rw [h]; simp, fun n hn => ?_⟩
            rw [h] at hn; injection hn with hn; subst hn
            exact (A.delta.fresh u (by simp)).1)).imp (fun h => (hreg h).2)) (by rw [A.ctr]; exact hqb)
      obtain ⟨⟨xs', ra'⟩, k1, k2⟩ := sim_ok (sim_run sys sh a la h1 ta) hA
      obtain ⟨k2, k3⟩ := k2
      have k3 : ra' = ra := k3
      subst k3
      refine ⟨w2, ?_, ?_, A.delta.keeps.trans g3⟩
      · unfold runX
        refine (RunM.bind_ok (lift_ok hta w)).trans ?_
        refine (RunM.bind_ok k1).trans ?_
        refine (RunM.bind_ok (lift_ok (attr_of_get?.2 hso) w1)).trans ?_
        rw [hpu]
        refine (RunM.bind_ok (lift_ok htb w1)).trans ?_
        exact bind_err g1
      · have := (C16_items_are_the_leaves_in_order sys sh.procCwd _ _ _ _ _ _ hA).2
        rw [g2, this, all_ids sh a la h1, List.append_assoc]
  | .group env a b, l, ex, h, hp, w, H, L, rs, i, o, e, hr, hl, hs, ho, he, hf, hq => by
    have hc : (plain sh (.group env a b)).cost = (plain sh a).cost + (plain sh b).cost := by simp [plain, Pipeline.cost]
    rw [hc] at hl
    have how := owned_borrow rs
    have hreg : (plain sh (.group env a b)).Regular → (plain sh a).Regular ∧ (plain sh b).Regular := by simp [plain, Pipeline.Regular]
    have hpa : (plain sh a).Redirectable sys sh.procCwd ∧ (plain sh b).Redirectable sys sh.procCwd := by
      simpa [plain, Pipeline.Redirectable] using hp
    obtain ⟨hqa, hqb⟩ : _ ∧ _ := by simpa only [plain, refRun, List.all_append, Bool.and_eq_true] using hq
    rcases andThen_stops h with h | ⟨la, lb, h1, h2, rfl⟩
    · obtain ⟨w1, g1, g2, g3⟩ := fail_run sys sh a l ex h hpa.1 hr (by omega) hs.borrow ho he (hf.borrow.imp (fun h => (hreg h).1)) hqa
      refine ⟨w1, ?_, g2, g3⟩
      unfold runX
      exact bind_err g1
    · obtain ⟨xs, ra, w1, ul1, lk1, hA, A⟩ := run_spec sys sh.procCwd (plain sh a) hpa.1 hr (by omega) hs.borrow ho he (hf.borrow.imp (fun h => (hreg h).1)) hqa
      rw [usedFds_sub how] at A
      have hr1 := hr.next A.delta (by omega)
      obtain ⟨w2, g1, g2, g3⟩ := fail_run sys sh b lb ex h2 hpa.2 hr1 (by omega) (hs.borrow.mono A.delta.keeps (by omega)) ho he
        ((hf.borrow.keeps A.delta.keeps).imp (fun h => (hreg h).2)) (by rw [A.ctr]; exact hqb)
      obtain ⟨⟨xs', ra'⟩, k1, k2⟩ := sim_ok (sim_run sys sh a la h1 _) hA
      refine ⟨w2, ?_, ?_, A.delta.keeps.trans g3⟩
      · unfold runX
        refine (RunM.bind_ok k1).trans ?_
        exact bind_err g1
      · have := (C16_items_are_the_leaves_in_order sys sh.procCwd _ _ _ _ _ _ hA).2
        rw [g2, this, all_ids sh a la h1, List.append_assoc]
  | .redirect env p crs, l, ex, h, hp, w, H, L, rs, i, o, e, hr, hl, hs, ho, he, hf, hq => by
    have hp' : (plain sh p).Redirectable sys sh.procCwd ∧ crs.Built ∧ ∀ r ∈ Dict.values crs, r.Simple sys sh.procCwd := by
      simpa [plain, Pipeline.Redirectable] using hp
    have hc : (plain sh (.redirect env p crs)).cost = (plain sh p).cost := by simp [plain, Pipeline.cost]
    rw [hc] at hl
    have hlow : rs.Low w.fds := hf.elim (fun h => by simp [plain, Pipeline.Regular] at h) id
    obtain ⟨m, hm, sm, om, em, vm, um⟩ := merge_std hs ho he hp'.2.1 hp'.2.2
    obtain ⟨w1, g1, g2, g3⟩ := fail_run sys sh p l ex h hp'.1 hr hl sm om em
      (.inr ⟨hlow.1, fun r hr a ha hlt => by
        rcases vm r hr with h | h
        · exact hlow.2 r h a ha hlt
        · exact absurd ha (h a)⟩) (by simpa only [plain, refRun] using hq)
    refine ⟨w1, ?_, g2, g3⟩
    unfold runX
    exact (RunM.bind_ok (lift_ok hm w)).trans g1
theorem fail_args (sys : Sys) (sh : Shell) (env : Nat) : (a : Ax) → (l : List Nat) → (ex : Exn) → outcomeA sh env a = .stops l ex →
    (plainA sh env a).Redirectable sys sh.procCwd → ∀ (w : World) (H L : Nat) (orig rs : Redirects) (i o e : Obj), Room sys w H L →
    H + rs.length + (plainA sh env a).cost ≤ L → Std sys sh.procCwd orig w.fds H (.obj i) (.obj o) (.obj e) →
    ownedFds (Dict.values orig) = [] → rs.WF → (∀ k ∈ Dict.keys rs, k < H) →
    (∀ s ∈ srcFds (Dict.values rs), s < H) → Fine (plainA sh env a).Regular orig w.fds → (refArgs sh.procCwd (plainA sh env a) i o e w.ctr).items.all (RItem.polls sys) = true → Failed (runAx sys sh env a orig rs) w l ex
  | .nil, l, ex, h, _, _, _, _, _, _, _, _, _, _, _, _, _, _, _, _, _, _ => by cases h
  | .text pre s rest, l, ex, h, hp, w, H, L, orig, rs, i, o, e, hr, hl, hs, how, hwf, hk, hsl, hf, hq => by
    unfold outcomeA at h
    unfold plainA at hp hl hf hq
    unfold runAx
    cases hx : Expand.expandArgument (sh.ctx env) s with
    | error e' =>
      rw [hx] at h
      cases h
      exact ⟨w, bind_err rfl, by simp, .refl _⟩
    | ok ws =>
      rw [hx] at h hp hl hf hq
      obtain ⟨w1, g1, g2, g3⟩ := fail_args sys sh env rest l ex h (by simpa [Args.Redirectable] using hp) w H L orig rs i o e hr
        (by simpa [Args.cost] using hl) hs how hwf hk hsl (hf.imp (by simp [Args.Regular])) (by simpa only [refArgs] using hq)
      exact ⟨w1, (RunM.bind_ok (lift_ok rfl w)).trans (bind_err g1), g2, g3⟩
  | .raw pre s rest, l, ex, h, hp, w, H, L, orig, rs, i, o, e, hr, hl, hs, how, hwf, hk, hsl, hf, hq => by
    obtain ⟨w1, g1, g2, g3⟩ := fail_args sys sh env rest l ex h (by simpa [plainA, Args.Redirectable] using hp) w H L orig rs i o e hr
      (by simpa [plainA, Args.cost] using hl) hs how hwf hk hsl (hf.imp (by simp [plainA, Args.Regular])) (by simpa only [plainA, refArgs] using hq)
    exact ⟨w1, by unfold runAx; exact bind_err g1, g2, g3⟩
  | .flag s rest, l, ex, h, hp, w, H, L, orig, rs, i, o, e, hr, hl, hs, how, hwf, hk, hsl, hf, hq => by
    obtain ⟨w1, g1, g2, g3⟩ := fail_args sys sh env rest l ex h (by simpa [plainA, Args.Redirectable] using hp) w H L orig rs i o e hr
      (by simpa [plainA, Args.cost] using hl) hs how hwf hk hsl (hf.imp (by simp [plainA, Args.Regular])) (by simpa only [plainA, refArgs] using hq)
    exact ⟨w1, by unfold runAx; exact bind_err g1, g2, g3⟩
  | .pipeArg pre p rest, l, ex, h, hp, w, H, L, orig, rs, i, o, e, hr, hl, hs, how, hwf, hk, hsl, hf, hq => by
    have hc : (plainA sh env (.pipeArg pre p rest)).cost = (plain sh p).cost + (plainA sh env rest).cost + 2 := by simp [plainA, Args.cost]
    rw [hc] at hl
    have hreg : (plainA sh env (.pipeArg pre p rest)).Regular → (plain sh p).Regular ∧ (plainA sh env rest).Regular := by simp [plainA, Args.Regular]
    have hpa : (plain sh p).Redirectable sys sh.procCwd ∧ (plain sh p).outWant sh.procCwd .pipeOut = .pipeOut ∧ (plainA sh env rest).Redirectable sys sh.procCwd := by
      simpa [plainA, Args.Redirectable] using hp
    obtain ⟨ta, hta, sta, ota, vta⟩ := redirect_out hs how
    have fa : Fine (plain sh p).Regular ta w.fds := (hf.change (.refl _) (fun r hr => by
        rcases vta r hr with h | h
        · exact .inl ⟨r, h, rfl, rfl⟩
        · exact .inr (by rw [h]; simp))).imp (fun h => (hreg h).1)
    obtain ⟨hqa, hqb⟩ : _ ∧ _ := by simpa only [plainA, refArgs, List.all_append, Bool.and_eq_true] using hq
    rcases andThen_stops h with h | ⟨la, lb, h1, h2, rfl⟩
    · obtain ⟨w1, g1, g2, g3⟩ := fail_run sys sh p l ex h hpa.1 hr (by omega) sta trivial trivial fa hqa
      refine ⟨w1, ?_, g2, g3⟩
      unfold runAx
      exact (RunM.bind_ok (lift_ok hta w)).trans (bind_err g1)
    · obtain ⟨xs, ra, w1, ul1, lk1, hA, A⟩ := run_spec sys sh.procCwd (plain sh p) hpa.1 hr (by omega) sta trivial trivial fa hqa
      rw [usedFds_sub ota] at A
      obtain ⟨so, hso, hso'⟩ := A.r1
      obtain ⟨u, rfl, hpu, hgu⟩ := hso' hpa.2.1
      obtain ⟨w2, g1, g2, g3⟩ := fail_step sys sh env rest lb ex h2 (u := u) (H1 := H + (plain sh p).cost) (flag := O_RDONLY)
        (fun w H L orig rs i o e => fail_args sys sh env rest lb ex h2 hpa.2.2 w H L orig rs i o e) hr (by omega) (by omega) hs how hwf hk hsl
        (hf.imp (fun h => (hreg h).2)) A.delta (by simp) (by rw [A.ctr]; exact hqb)
      obtain ⟨⟨xs', ra'⟩, k1, k2⟩ := sim_ok (sim_run sys sh p la h1 ta) hA
      obtain ⟨k2, k3⟩ := k2
      have k3 : ra' = ra := k3
      subst k3
      obtain ⟨rs1, hrs1, g1⟩ := g1
      refine ⟨w2, ?_, ?_, A.delta.keeps.trans g3⟩
      · unfold runAx
        refine (RunM.bind_ok (lift_ok hta w)).trans ?_
        refine (RunM.bind_ok k1).trans ?_
        refine (RunM.bind_ok (lift_ok (attr_of_get?.2 hso) w1)).trans ?_
        rw [hpu]
        refine (RunM.bind_ok (lift_ok hrs1 w1)).trans ?_
        exact bind_err g1
      · have := (C16_items_are_the_leaves_in_order sys sh.procCwd _ _ _ _ _ _ hA).2
        rw [g2, this, all_ids sh p la h1, List.append_assoc]
  | .funcArg pre id rest, l, ex, h, hp, w, H, L, orig, rs, i, o, e, hr, hl, hs, how, hwf, hk, hsl, hf, hq => by
    have hc : (plainA sh env (.funcArg pre id rest)).cost = (plainA sh env rest).cost + 18 := by simp [plainA, Args.cost]
    rw [hc] at hl
    obtain ⟨ta, hta, sta, ota, _⟩ := redirect_in hs how
    obtain ⟨xs, ra, w1, ui, uo, hA, A⟩ := runFunc_spec (cwd := sh.procCwd) id true hr (by omega) sta trivial
      (by simp only [plainA, refArgs, List.all_cons, Bool.and_eq_true] at hq; exact hq.1)
    rw [ota] at A
    obtain ⟨so, hso, u, rfl, hpu, hgu⟩ := A.r0
    obtain rfl : uo = [] := by obtain ⟨r, _, h⟩ := A.r1; exact h.nil
    rcases andThen_stops h with h | ⟨la, lb, h1, h2, rfl⟩
    · cases h
    · cases h1
      obtain ⟨w2, g1, g2, g3⟩ := fail_step sys sh env rest lb ex h2 (u := u) (H1 := H + 16) (flag := O_WRONLY)
        (fun w H L orig rs i o e => fail_args sys sh env rest lb ex h2 (by simpa [plainA, Args.Redirectable] using hp) w H L orig rs i o e) hr (by omega) (by omega) hs how hwf hk hsl
        (hf.imp (by simp [plainA, Args.Regular])) A.delta (by simp)
        (by rw [A.ctr]; simp only [plainA, refArgs, List.all_cons, Bool.and_eq_true] at hq; exact hq.2)
      obtain ⟨rs1, hrs1, g1⟩ := g1
      refine ⟨w2, ?_, ?_, A.delta.keeps.trans g3⟩
      · unfold runAx
        refine (RunM.bind_ok (lift_ok hta w)).trans ?_
        refine (RunM.bind_ok hA).trans ?_
        refine (RunM.bind_ok (lift_ok (attr_of_get?.1 hso) w1)).trans ?_
        rw [hpu]
        refine (RunM.bind_ok (lift_ok hrs1 w1)).trans ?_
        exact bind_err g1
      · rw [g2, (runFunc_started hA).2, List.append_assoc]
end

/-! ### default redirections of the environments -/

mutual
theorem run_redirects (sys : Sys) (sh : Shell) (rds : Nat → Redirects) : (p : Px) → (rs : Redirects) →
    runX sys { sh with envs := fun i => { sh.envs i with redirects := rds i } } p rs = runX sys sh p rs
  | .command env id args, rs => by unfold runX; simp only [args_redirects sys sh rds env args]
  | .func env id, rs => by unfold runX; rfl
  | .iter env id, rs => by unfold runX; rfl
  | .pipe _ a b, rs => by unfold runX; simp only [run_redirects sys sh rds a, run_redirects sys sh rds b]
  | .group _ a b, rs => by unfold runX; simp only [run_redirects sys sh rds a, run_redirects sys sh rds b]
  | .redirect _ p crs, rs => by unfold runX; simp only [run_redirects sys sh rds p]
theorem args_redirects (sys : Sys) (sh : Shell) (rds : Nat → Redirects) (env : Nat) : (a : Ax) → (orig rs : Redirects) →
    runAx sys { sh with envs := fun i => { sh.envs i with redirects := rds i } } env a orig rs = runAx sys sh env a orig rs
  | .nil, orig, rs => by unfold runAx; rfl
  | .text pre s rest, orig, rs => by unfold runAx; simp only [args_redirects sys sh rds env rest]; rfl
  | .raw pre s rest, orig, rs => by unfold runAx; simp only [args_redirects sys sh rds env rest]
  | .flag s rest, orig, rs => by unfold runAx; simp only [args_redirects sys sh rds env rest]
  | .pipeArg pre p rest, orig, rs => by unfold runAx; simp only [run_redirects sys sh rds p, args_redirects sys sh rds env rest]
  | .funcArg pre id rest, orig, rs => by unfold runAx; simp only [args_redirects sys sh rds env rest]
end

end Pieshell.Several
