import Verif.Spec.BuiltinPipe
import Verif.Props.Run
/-!
# Builtins in pipelines (C111)
-/
namespace Pieshell.BP

theorem M.bind_ok {α β : Type} {x : M α} {f : α → M β} {s s' : St} {a : α} (h : x s = (.ok a, s')) : (x >>= f) s = f a s' := by
  show M.bind x f s = _
  simp only [M.bind, h]

theorem M.bind_error {α β : Type} {x : M α} {f : α → M β} {s s' : St} {e : Exn} (h : x s = (.error e, s')) : (x >>= f) s = (.error e, s') := by
  show M.bind x f s = _
  simp only [M.bind, h]

theorem M.bind_inv {α β : Type} {x : M α} {f : α → M β} {s s' : St} {b : β} (h : (x >>= f) s = (.ok b, s')) :
    ∃ a s1, x s = (.ok a, s1) ∧ f a s1 = (.ok b, s') := by
  have h : M.bind x f s = _ := h
  unfold M.bind at h
  split at h
  · next a s1 hx => exact ⟨a, s1, hx, h⟩
  · cases h

theorem M.lift_inv {α : Type} {x : Except Exn α} {s s' : St} {a : α} (h : M.lift x s = (.ok a, s')) : x = .ok a ∧ s' = s := by
  unfold M.lift at h; cases h; exact ⟨rfl, rfl⟩

theorem M.pure_inv {α : Type} {a b : α} {s s' : St} (h : (Pure.pure a : M α) s = (.ok b, s')) : b = a ∧ s' = s := by
  have h : M.pure a s = _ := h
  unfold M.pure at h; cases h; exact ⟨rfl, rfl⟩

/-! ## The model agrees with that of pipelines without builtins -/

/-- the result of `runP` in this model -/
def ofRun (d : Str) : Except Exn (List Item × Redirects) × World → Except Exn (List Item × Tab) × St
  | (.ok (xs, r), w) => (.ok (xs, .table r), (w, d))
  | (.error e, w) => (.error e, (w, d))

theorem run_plain (sys : Sys) (p : Pieshell.Pipeline) (rs : Redirects) (w : World) (d : Str) :
    run sys (.plain p) rs (w, d) = ofRun d (runP sys d p rs w) := by
  unfold run
  cases h : runP sys d p rs w with
  | mk r w' =>
    cases r with
    | error e => rw [M.bind_error (e := e) (s' := (w', d)) (by simp only [M.run, h])]; rfl
    | ok a => rw [M.bind_ok (a := a) (s' := (w', d)) (by simp only [M.run, h])]; rfl

/-- a step that only concerns the descriptors -/
theorem ofRun_run {α : Type} {x : RunM α} {f : α → RunM (List Item × Redirects)} {g : α → M (List Item × Tab)} {w : World} {d : Str}
    (hf : ∀ a w', g a (w', d) = ofRun d (f a w')) : ((M.run fun _ => x) >>= g) (w, d) = ofRun d ((x >>= f) w) := by
  show _ = ofRun d (RunM.bind x f w)
  unfold RunM.bind
  cases h : x w with
  | mk r w' =>
    cases r with
    | error e => rw [M.bind_error (e := e) (s' := (w', d)) (by simp only [M.run, h])]; rfl
    | ok a => rw [M.bind_ok (a := a) (s' := (w', d)) (by simp only [M.run, h])]; exact hf a w'

/-- a step that only concerns the tables -/
theorem ofRun_lift {α : Type} {x : Except Exn α} {f : α → RunM (List Item × Redirects)} {g : α → M (List Item × Tab)} {w : World} {d : Str}
    (hf : ∀ a, g a (w, d) = ofRun d (f a w)) : (M.lift x >>= g) (w, d) = ofRun d ((RunM.lift x >>= f) w) := by
  cases x with
  | error e => rfl
  | ok a => exact hf a

theorem ofRun_map {α β : Type} {x : Except Exn α} {h : α → β} {f : α → RunM (List Item × Redirects)} {g : β → M (List Item × Tab)} {w : World} {d : Str}
    (hf : ∀ a, g (h a) (w, d) = ofRun d (f a w)) : (M.lift (x.map h) >>= g) (w, d) = ofRun d ((RunM.lift x >>= f) w) := by
  cases x with
  | error e => rfl
  | ok a => exact hf a

/-- a part of the pipeline -/
theorem ofRun_sub {x : RunM (List Item × Redirects)} {y : M (List Item × Tab)} {f : List Item × Redirects → RunM (List Item × Redirects)}
    {g : List Item × Tab → M (List Item × Tab)} {w : World} {d : Str}
    (hx : y (w, d) = ofRun d (x w)) (hf : ∀ a r w', g (a, .table r) (w', d) = ofRun d (f (a, r) w')) : (y >>= g) (w, d) = ofRun d ((x >>= f) w) := by
  show _ = ofRun d (RunM.bind x f w)
  unfold RunM.bind
  cases h : x w with
  | mk r w' =>
    rw [h] at hx
    cases r with
    | error e => rw [M.bind_error hx]; rfl
    | ok a => rw [M.bind_ok hx]; exact hf a.1 a.2 w'

/-- What `run` makes of a pipeline without builtins is what `Model/Run` makes of it. -/
theorem run_embed (sys : Sys) (p : Pieshell.Pipeline) : ∀ (rs : Redirects) (w : World) (d : Str), run sys (embed p) rs (w, d) = ofRun d (runP sys d p rs w) := by
  match p with
  | .command .. => intro rs w d; exact run_plain ..
  | .func .. => intro rs w d; exact run_plain ..
  | .iter .. => intro rs w d; exact run_plain ..
  | .pipe a b =>
    intro rs w d
    unfold embed run runP
    refine ofRun_lift fun ta => ofRun_sub (run_embed sys a ta w d) fun xs ra w1 => ofRun_map fun so => ofRun_lift fun tb => ofRun_sub (run_embed sys b tb w1 d) fun ys rb w2 => ?_
    refine ofRun_map fun m => ofRun_lift fun si => ofRun_map fun m2 => ofRun_lift fun so2 => ofRun_map fun m3 => ofRun_run fun _ w3 => ?_
    rfl
  | .group a b =>
    intro rs w d
    unfold embed run runP
    refine ofRun_sub (run_embed sys a _ w d) fun xs ra w1 => ofRun_sub (run_embed sys b _ w1 d) fun ys rb w2 => ofRun_map fun m => ofRun_run fun _ w3 => ?_
    rfl
  | .redirect p crs =>
    intro rs w d
    unfold embed run runP
    exact ofRun_lift fun m => run_embed sys p m w d

/-! ## Borrowing what does not belong to the pipeline changes nothing -/

/-- Two redirections that differ at most in the mark of a pipe or temporary file that has not been made yet. -/
def Sim (a b : Redirect) : Prop := a = b ∨ (a.borrow = b.borrow ∧ (a.source = .PIPE ∨ a.source = .TMP ∨ a.source = .STRING))

theorem Sim.borrow {a b : Redirect} (h : Sim a b) : a.borrow = b.borrow := by
  cases h with
  | inl h => rw [h]
  | inr h => exact h.1

theorem Sim.eqs {a b : Redirect} (h : Sim a b) : a.fd = b.fd ∧ a.source = b.source ∧ a.flag = b.flag ∧ a.mode = b.mode ∧ a.pipe = b.pipe := by
  have h := h.borrow
  unfold Redirect.borrow at h
  injection h with h1 h2 h3 h4 h5 h6
  exact ⟨h1, h2, h3, h4, h5⟩

theorem Sim.makePipe {a b : Redirect} (h : Sim a b) (w : World) : a.makePipe w = b.makePipe w := by
  obtain ⟨h1, h2, h3, h4, h5⟩ := h.eqs
  cases h with
  | inl h => rw [h]
  | inr h =>
    unfold Redirect.makePipe
    rcases h.2 with h | h | h <;> (rw [← h2, h, h1, h3, h4])

theorem Sim.close {a b : Redirect} (h : Sim a b) (t : FdTable) : a.closeSourceFd t = b.closeSourceFd t := by
  obtain ⟨h1, h2, h3, h4, h5⟩ := h.eqs
  cases h with
  | inl h => rw [h]
  | inr h =>
    unfold Redirect.closeSourceFd
    rcases h.2 with h | h | h <;> rw [← h2, h]

/-- Tables that correspond. -/
abbrev Sims : Redirects → Redirects → Prop := Pointwise fun a b => a.1 = b.1 ∧ Sim a.2 b.2

theorem Sims.refl (a : Redirects) : Sims a a := by
  induction a with
  | nil => exact .nil
  | cons x l ih => exact .cons ⟨rfl, .inl rfl⟩ ih

theorem Sims.borrow {a b : Redirects} (h : Sims a b) : a.borrow = b.borrow := by
  induction h with
  | nil => rfl
  | cons hx _ ih =>
    simp only [Redirects.borrow, List.map_cons, hx.1, hx.2.borrow]
    exact congrArg _ ih

theorem Sims.makePipesList {a b : Redirects} (h : Sims a b) : ∀ w, makePipesList (Dict.values a) w = makePipesList (Dict.values b) w := by
  induction h with
  | nil => intro w; rfl
  | @cons x y l l' hx _ ih =>
    intro w
    show Pieshell.makePipesList (x.2 :: Dict.values l) w = Pieshell.makePipesList (y.2 :: Dict.values l') w
    unfold Pieshell.makePipesList
    rw [hx.2.makePipe w]
    simp only [ih]

theorem Sims.makePipes {a b : Redirects} (h : Sims a b) : a.makePipes = b.makePipes := by
  funext w
  unfold Redirects.makePipes
  rw [h.makePipesList]

theorem Sims.close {a b : Redirects} (h : Sims a b) : a.closeSourceFds = b.closeSourceFds := by
  have : ∀ t, closeSources (Dict.values a) t = closeSources (Dict.values b) t := by
    induction h with
    | nil => intro w; rfl
    | @cons x y l l' hx _ ih =>
      intro w
      show closeSources (x.2 :: Dict.values l) w = closeSources (y.2 :: Dict.values l') w
      unfold closeSources
      rw [hx.2.close w]
      simp only [ih]
  funext t
  exact this t

theorem Sims.get? {a b : Redirects} (h : Sims a b) (k : Nat) : (Dict.get? a k).isSome = (Dict.get? b k).isSome := by
  induction h with
  | nil => rfl
  | @cons x y l l' hx _ ih =>
    obtain ⟨x1, x2⟩ := x
    obtain ⟨y1, y2⟩ := y
    have h1 : x1 = y1 := hx.1
    unfold Dict.get?
    rw [h1]
    split
    · rfl
    · exact ih

theorem Sims.set {a b : Redirects} (h : Sims a b) (k : Nat) {x y : Redirect} (hxy : Sim x y) : Sims (Dict.set a k x) (Dict.set b k y) := by
  induction h with
  | nil => exact .cons ⟨rfl, hxy⟩ .nil
  | @cons p q l l' hx hl ih =>
    obtain ⟨x1, x2⟩ := p
    obtain ⟨y1, y2⟩ := q
    have h1 : x1 = y1 := hx.1
    unfold Dict.set
    rw [h1]
    split
    · exact .cons ⟨rfl, hxy⟩ hl
    · exact .cons ⟨rfl, hx.2⟩ ih

theorem Sims.erase {a b : Redirects} (h : Sims a b) (k : Nat) : Sims (Dict.erase a k) (Dict.erase b k) := by
  induction h with
  | nil => exact .nil
  | @cons p q l l' hx hl ih =>
    obtain ⟨x1, x2⟩ := p
    obtain ⟨y1, y2⟩ := q
    have h1 : x1 = y1 := hx.1
    unfold Dict.erase
    rw [h1]
    split
    · exact hl
    · exact .cons ⟨rfl, hx.2⟩ ih

/-- both raise the same exception, or return tables that correspond -/
inductive SimRes : Except Exn Redirects → Except Exn Redirects → Prop
  | error (e : Exn) : SimRes (.error e) (.error e)
  | ok {a b : Redirects} : Sims a b → SimRes (.ok a) (.ok b)

theorem Sims.register {a b : Redirects} (h : Sims a b) {x y : Redirect} (hxy : Sim x y) : SimRes (a.register x) (b.register y) := by
  obtain ⟨h1, h2, -⟩ := hxy.eqs
  unfold Redirects.register
  rw [← h2, ← h1]
  cases x.source <;> try exact .ok (h.set _ hxy)
  show SimRes (if (Dict.get? a x.fd).isSome = true then _ else _) (if (Dict.get? b x.fd).isSome = true then _ else _)
  rw [h.get?]
  split
  · exact .ok (h.erase _)
  · exact .error _

theorem Sims.registerAll {l l' : List Redirect} (hl : Pointwise Sim l l') : ∀ {a b : Redirects}, Sims a b → SimRes (a.registerAll l) (b.registerAll l') := by
  induction hl with
  | nil => intro a b h; exact .ok h
  | @cons x y l l' hx _ ih =>
    intro a b h
    have hr := h.register hx
    show SimRes (match Redirects.register a x with | .error e => .error e | .ok rs' => Redirects.registerAll rs' l) (match Redirects.register b y with | .error e => .error e | .ok rs' => Redirects.registerAll rs' l')
    generalize Redirects.register a x = u at hr
    generalize Redirects.register b y = v at hr
    cases hr with
    | error e => exact .error e
    | ok h => exact ih h

theorem Sims.values {a b : Redirects} (h : Sims a b) : Pointwise Sim (Dict.values a) (Dict.values b) := by
  induction h with
  | nil => exact .nil
  | cons hx _ ih => exact .cons hx.2 ih

theorem Pointwise.append' {α β : Type} {R : α → β → Prop} {a b : List α} {a' b' : List β} (h : Pointwise R a a') (h2 : Pointwise R b b') : Pointwise R (a ++ b) (a' ++ b') := by
  induction h with
  | nil => exact h2
  | cons hx _ ih => exact .cons hx ih

theorem Sims.merge {a b : Redirects} (h : Sims a b) (c : Redirects) : SimRes (a.merge c) (b.merge c) := by
  unfold Redirects.merge Redirects.new
  simp only [List.flatMap_cons, List.flatMap_nil, RArg.list, List.append_nil]
  exact Sims.registerAll (Pointwise.append' h.values (Sims.refl c).values) .nil

theorem runP_sim (sys : Sys) (cwd : Str) (p : Pieshell.Pipeline) : ∀ {a b : Redirects}, Sims a b → runP sys cwd p a = runP sys cwd p b := by
  match p with
  | .command id args => intro a b h; unfold runP; rw [h.makePipes]
  | .func id => intro a b h; unfold runP runFunc; rw [h.makePipes]
  | .iter id => intro a b h; unfold runP runFunc; rw [h.makePipes]
  | .pipe x y => intro a b h; unfold runP; rw [h.borrow, h.close]
  | .group x y => intro a b h; unfold runP; rw [h.borrow, h.close]
  | .redirect q crs =>
    intro a b h
    unfold runP
    have hm := h.merge crs
    generalize a.merge crs = u at hm
    generalize b.merge crs = v at hm
    cases hm with
    | error e => rfl
    | ok h =>
      funext w
      exact congrFun (runP_sim sys cwd q h) w

theorem run_sim (sys : Sys) (p : Pipeline) : ∀ {a b : Redirects}, Sims a b → run sys p a = run sys p b := by
  match p with
  | .plain q => intro a b h; unfold run; simp only [runP_sim sys _ q h]
  | .builtin act => intro a b h; rfl
  | .wrapper q => intro a b h; unfold run; simp only [runP_sim sys _ q h]
  | .pipe x y => intro a b h; unfold run; rw [h.borrow, h.close]
  | .group x y => intro a b h; unfold run; rw [h.borrow, h.close]
  | .redirect q crs =>
    intro a b h
    unfold run
    have hm := h.merge crs
    generalize a.merge crs = u at hm
    generalize b.merge crs = v at hm
    cases hm with
    | error e => rfl
    | ok h =>
      funext w
      exact congrFun (run_sim sys q h) w

theorem Lent.sims {rs : Redirects} (h : Lent rs) : Sims rs.borrow rs := by
  induction rs with
  | nil => exact .nil
  | cons x l ih =>
    refine .cons ⟨rfl, ?_⟩ (ih fun p hp => h p (.tail _ hp))
    rcases h x (.head _) with h | h
    · left
      show x.2.borrow = x.2
      unfold Redirect.borrow
      rw [← h]
    · right
      exact ⟨rfl, h⟩

theorem Lent.close {rs : Redirects} (h : Lent rs) (t : FdTable) : rs.closeSourceFds t = (.ok (), t) := by
  unfold Redirects.closeSourceFds
  induction rs with
  | nil => rfl
  | cons x l ih =>
    have hx : x.2.closeSourceFd t = (.ok (), t) := by
      unfold Redirect.closeSourceFd
      rcases h x (.head _) with h | h | h | h
      · rw [h]; cases x.2.source <;> rfl
      · rw [h]
      · rw [h]
      · rw [h]
    show closeSources (x.2 :: Dict.values l) t = _
    unfold closeSources
    rw [hx]
    exact ih fun p hp => h p (.tail _ hp)

theorem run_borrow (sys : Sys) (p : Pipeline) {rs : Redirects} (h : Lent rs) : run sys p rs.borrow = run sys p rs := run_sim sys p h.sims

/-! ## What the combination of two pipelines is -/

theorem M.run_ok {α : Type} {f : Str → RunM α} {w w' : World} {d : Str} {a : α} (h : f d w = (.ok a, w')) : M.run f (w, d) = (.ok a, (w', d)) := by
  simp only [M.run, h]

theorem M.bind_or {α β : Type} (x : M α) (f : α → M β) (s : St) :
    (∃ a s1, x s = (.ok a, s1) ∧ (x >>= f) s = f a s1) ∨ (∃ e s1, x s = (.error e, s1) ∧ (x >>= f) s = (.error e, s1)) := by
  cases h : x s with
  | mk r s1 =>
    cases r with
    | error e => exact .inr ⟨e, s1, rfl, M.bind_error h⟩
    | ok a => exact .inl ⟨a, s1, rfl, M.bind_ok h⟩

/-- `a + b`, with redirections that do not belong to it: `a` is started, then `b`, and then the tables are merged. -/
theorem run_group (sys : Sys) (a b : Pipeline) {rs : Redirects} (hl : Lent rs) (s : St) :
    run sys (.group a b) rs s = match run sys a rs s with
      | (.error e, s1) => (.error e, s1)
      | (.ok (xs, ra), s1) => match run sys b rs s1 with
        | (.error e, s2) => (.error e, s2)
        | (.ok (ys, rb), s2) => (match ra.merge rb with
          | .error e => .error e
          | .ok m => .ok (xs ++ ys, m), s2) := by
  rw [run, run_borrow sys a hl, run_borrow sys b hl]
  cases ha : run sys a rs s with
  | mk r s1 =>
    cases r with
    | error e => rw [M.bind_error ha]
    | ok va =>
      obtain ⟨xa, ra⟩ := va
      rw [M.bind_ok ha]
      show (run sys b rs >>= _) s1 = _
      cases hb : run sys b rs s1 with
      | mk r s2 =>
        cases r with
        | error e => rw [M.bind_error hb]; simp only [hb]
        | ok vb =>
          obtain ⟨xb, rb⟩ := vb
          rw [M.bind_ok hb]
          show (M.lift (ra.merge rb) >>= _) s2 = _
          simp only [hb]
          cases hm : ra.merge rb with
          | error e => rw [M.bind_error (e := e) (s' := s2) (by rfl)]
          | ok m =>
            rw [M.bind_ok (a := m) (s' := s2) (by rfl), M.bind_ok (a := ()) (s' := s2)]
            · rfl
            · obtain ⟨w, d⟩ := s2
              exact M.run_ok (by unfold RunM.onFds; rw [hl.close])

theorem map_table {x : Except Exn Redirects} {t : Tab} (h : x.map .table = .ok t) : ∃ r, t = .table r := by
  cases x with
  | error e => cases h
  | ok v => injection h with h; exact ⟨v, h.symm⟩

theorem M.fst {α : Type} {x : Except Exn α × St} {a : α} {s' : St} (h : x = (.ok a, s')) : x.1 = .ok a := by rw [h]

/-- A pipeline that has been started without an exception has builtins only where they can be, and its table is one unless it begins with a builtin. -/
theorem run_kind (sys : Sys) (p : Pipeline) : ∀ {rs : Redirects} {s s' : St} {xs : List Item} {t : Tab}, run sys p rs s = (.ok (xs, t), s') →
    builtinsFirst p = true ∧ (if isPlain p then ∃ r, t = .table r else t = .command) := by
  match p with
  | .plain q =>
    intro rs s s' xs t h
    unfold run at h
    obtain ⟨a, s1, -, h⟩ := M.bind_inv h
    have h := (M.pure_inv h).1
    injection h with h1 h2
    exact ⟨rfl, ⟨_, h2⟩⟩
  | .builtin act =>
    intro rs s s' xs t h
    unfold run at h
    revert h
    cases act s.2 with
    | error e => intro h; cases h
    | ok d => intro h; cases h; exact ⟨rfl, rfl⟩
  | .wrapper q =>
    intro rs s s' xs t h
    unfold run at h
    obtain ⟨a, s1, -, h⟩ := M.bind_inv h
    have h := (M.pure_inv h).1
    injection h with h1 h2
    exact ⟨rfl, h2⟩
  | .pipe a b =>
    intro rs s s' xs t h
    unfold run at h
    obtain ⟨ta, s1, -, h⟩ := M.bind_inv h
    obtain ⟨⟨xa, ra⟩, s2, ha, h⟩ := M.bind_inv h
    obtain ⟨so, s3, -, h⟩ := M.bind_inv h
    obtain ⟨tb, s4, -, h⟩ := M.bind_inv h
    obtain ⟨⟨xb, rb⟩, s5, hb, h⟩ := M.bind_inv h
    obtain ⟨m, s6, hm, h⟩ := M.bind_inv h
    obtain ⟨si, s7, hsi, h⟩ := M.bind_inv h
    obtain ⟨m2, s8, hm2, h⟩ := M.bind_inv h
    obtain ⟨so2, s9, -, h⟩ := M.bind_inv h
    obtain ⟨m3, s10, hm3, h⟩ := M.bind_inv h
    obtain ⟨_, s11, -, h⟩ := M.bind_inv h
    have h := (M.pure_inv h).1
    injection h with h1 h2
    have hm := (M.lift_inv hm).1
    have hsi := (M.lift_inv hsi).1
    have hm2 := (M.lift_inv hm2).1
    have hm3 := (M.lift_inv hm3).1
    obtain ⟨fa, ka⟩ := run_kind sys a ha
    obtain ⟨fb, kb⟩ := run_kind sys b hb
    subst h2
    cases ra with
    | command => cases hsi
    | table ra =>
      cases rb with
      | command => cases hm
      | table rb =>
        have ia : isPlain a = true := by
          cases h : isPlain a with
          | true => rfl
          | false => rw [h] at ka; cases ka
        have ib : isPlain b = true := by
          cases h : isPlain b with
          | true => rfl
          | false => rw [h] at kb; cases kb
        refine ⟨by simp only [builtinsFirst, fa, fb, ia, ib, Bool.and_self], ?_⟩
        show ∃ r, _
        obtain ⟨v, rfl⟩ := map_table hm
        obtain ⟨v, rfl⟩ := map_table hm2
        exact map_table hm3
  | .group a b =>
    intro rs s s' xs t h
    unfold run at h
    obtain ⟨⟨xa, ra⟩, s2, ha, h⟩ := M.bind_inv h
    obtain ⟨⟨xb, rb⟩, s5, hb, h⟩ := M.bind_inv h
    obtain ⟨m, s6, hm, h⟩ := M.bind_inv h
    obtain ⟨_, s11, -, h⟩ := M.bind_inv h
    have h := (M.pure_inv h).1
    injection h with h1 h2
    have hm := (M.lift_inv hm).1
    obtain ⟨fa, ka⟩ := run_kind sys a ha
    obtain ⟨fb, kb⟩ := run_kind sys b hb
    subst h2
    cases ra with
    | command =>
      have ia : isPlain a = false := by
        cases h : isPlain a with
        | false => rfl
        | true => rw [h] at ka; obtain ⟨r, h⟩ := ka; cases h
      refine ⟨by simp only [builtinsFirst, fa, fb, ia]; rfl, ?_⟩
      simp only [isPlain, ia]
      injection hm with hm
      exact hm.symm
    | table ra =>
      have ia : isPlain a = true := by
        cases h : isPlain a with
        | true => rfl
        | false => rw [h] at ka; cases ka
      cases rb with
      | command => cases hm
      | table rb =>
        have ib : isPlain b = true := by
          cases h : isPlain b with
          | true => rfl
          | false => rw [h] at kb; cases kb
        refine ⟨by simp only [builtinsFirst, fa, fb, ia, ib]; rfl, ?_⟩
        simp only [isPlain, ia]
        exact map_table hm
  | .redirect q crs =>
    intro rs s s' xs t h
    unfold run at h
    obtain ⟨m, s1, -, h⟩ := M.bind_inv h
    exact run_kind sys q h

/-! ## C111 -/

/-- The model of this file, for pipelines without builtins, is that of `Model/Run`. -/
theorem C111_without_builtins (sys : Sys) (p : Pieshell.Pipeline) (rs : Redirects) (w : World) (d : Str) :
    run sys (embed p) rs (w, d) = match runP sys d p rs w with
      | (.ok (xs, r), w') => (.ok (xs, .table r), (w', d))
      | (.error e, w') => (.error e, (w', d)) := by
  rw [run_embed]
  rcases runP sys d p rs w with ⟨⟨⟩ | ⟨⟨⟩⟩, w'⟩ <;> rfl

theorem inTurn_nil (sys : Sys) (rs : Redirects) (s : St) : inTurn sys rs [] s = (.ok [], s) := rfl

theorem inTurn_cons (sys : Sys) (rs : Redirects) (p : Pipeline) (ps : List Pipeline) (s : St) : inTurn sys rs (p :: ps) s = match run sys p rs s with
    | (.error e, s) => (.error e, s)
    | (.ok (xs, _), s) => match inTurn sys rs ps s with
      | (.error e, s) => (.error e, s)
      | (.ok ys, s) => (.ok (xs ++ ys), s) := rfl

theorem inTurn_group (sys : Sys) (a b : Pipeline) {rs : Redirects} (hl : Lent rs) (ha : isPlain a = false) (l : List Pipeline) (s : St) :
    inTurn sys rs (.group a b :: l) s = inTurn sys rs (a :: b :: l) s := by
  rw [inTurn_cons, run_group sys a b hl s, inTurn_cons]
  cases h : run sys a rs s with
  | mk r s1 =>
    cases r with
    | error e => rfl
    | ok va =>
      obtain ⟨xa, ra⟩ := va
      have hk := (run_kind sys a h).2
      rw [ha] at hk
      have hk : ra = .command := hk
      subst hk
      simp only [inTurn_cons]
      cases h2 : run sys b rs s1 with
      | mk r s2 =>
        cases r with
        | error e => rfl
        | ok vb =>
          obtain ⟨xb, rb⟩ := vb
          simp only [Tab.merge]
          cases inTurn sys rs l s2 with
          | mk r s3 =>
            cases r with
            | error e => rfl
            | ok ys => simp only [List.append_assoc]

/-- **C111 (partial).** Of a group that begins with a builtin, with redirections that do not belong to it (those of the environment), all members are run in turn, as each would be by itself, and
the first exception ends it; the items are those of all members. -/
theorem C111_chain_partial (sys : Sys) (first : Pipeline) (hf : isPlain first = false) (rest : List Pipeline) (rs : Redirects) (hl : Lent rs) (s : St) :
    run sys (chain first rest) rs s = match inTurn sys rs (first :: rest) s with
      | (.error e, s') => (.error e, s')
      | (.ok xs, s') => (.ok (xs, .command), s') := by
  induction rest generalizing first with
  | nil =>
    show run sys first rs s = _
    rw [inTurn_cons]
    cases h : run sys first rs s with
    | mk r s1 =>
      cases r with
      | error e => rfl
      | ok va =>
        obtain ⟨xa, ra⟩ := va
        have hk := (run_kind sys first h).2
        rw [hf] at hk
        have hk : ra = .command := hk
        subst hk
        simp only [inTurn_nil, List.append_nil]
  | cons q l ih =>
    show run sys (chain (.group first q) l) rs s = _
    rw [ih (.group first q) hf, inTurn_group sys first q hl hf]

/-- **C111, what never works.** A pipeline with a builtin in any other place - at an end of a pipe, or at the right of something that does not begin with a builtin - always raises an exception. -/
theorem C111_exact_error (sys : Sys) (p : Pipeline) (hp : builtinsFirst p = false) (rs : Redirects) (s : St) : ∃ e s', run sys p rs s = (.error e, s') := by
  cases h : run sys p rs s with
  | mk r s' =>
    cases r with
    | error e => exact ⟨e, s', rfl⟩
    | ok v =>
      have := (run_kind sys p h).1
      rw [hp] at this
      cases this

/-- **C111, iteration.** A pipeline that begins with a builtin cannot be iterated over. -/
theorem C111_refuted_iterate (sys : Sys) (p : Pipeline) (hp : isPlain p = false) (envRs : Redirects) (s s' : St) (xs : List Item) (t : Tab)
    (h : runTop sys p envRs [stdoutPipe] s = (.ok (xs, t), s')) : iterFd t = .error .valueError := by
  unfold runTop at h
  obtain ⟨m, s1, -, h⟩ := M.bind_inv h
  have hk := (run_kind sys p h).2
  rw [hp] at hk
  have hk : t = .command := hk
  subst hk
  rfl

/-- **C111, negated.** `p + cd(...)`: everything is started, and the directory changed; then KeyError is raised. -/
theorem C111_refuted_right (sys : Sys) (p : Pieshell.Pipeline) (act : Str → Except Exn Str) (rs r : Redirects) (hl : Lent rs) (w w' : World) (d d' : Str) (xs : List Item)
    (hp : runP sys d p rs w = (.ok (xs, r), w')) (ha : act d = .ok d') :
    run sys (.group (.plain p) (.builtin act)) rs (w, d) = (.error .keyError, (w', d')) := by
  rw [run_group sys _ _ hl, run_plain, hp]
  simp only [ofRun, run, ha, Tab.merge]

/-- The same for `p | cd(...)`. -/
theorem C111_refuted_pipe_to (sys : Sys) (p : Pieshell.Pipeline) (act : Str → Except Exn Str) (rs ta tb r : Redirects) (so : Redirect) (w w' : World) (d d' : Str) (xs : List Item)
    (hta : rs.borrow.redirect (.name c!"stdout") .PIPE = .ok ta) (hp : runP sys d p ta w = (.ok (xs, r), w'))
    (hso : r.attr c!"stdout" = .ok so) (htb : rs.borrow.redirect (.name c!"stdin") so.pipe.toSource = .ok tb) (ha : act d = .ok d') :
    run sys (.pipe (.plain p) (.builtin act)) rs (w, d) = (.error .keyError, (w', d')) := by
  rw [run, M.bind_ok (a := ta) (s' := (w, d)) (by rw [hta]; rfl)]
  rw [M.bind_ok (a := (xs, .table r)) (s' := (w', d)) (by rw [run_plain, hp]; rfl)]
  simp only []
  rw [M.bind_ok (a := so.pipe.toSource) (s' := (w', d)) (by simp only [Tab.stdoutPipe, hso]; rfl)]
  rw [M.bind_ok (a := tb) (s' := (w', d)) (by rw [htb]; rfl)]
  rw [M.bind_ok (a := ([], .command)) (s' := (w', d')) (by rw [run]; simp only [ha])]
  rfl

/-- `b | p`, where `b` begins with a builtin (`cd(...)`, or `cd(...) + q`): `p` is started with an object as the source of its standard input; then KeyError is raised. -/
theorem C111_refuted_pipe_from (sys : Sys) (b : Pipeline) (hb : isPlain b = false) (p : Pieshell.Pipeline) (rs ta tb r : Redirects) (w w1 w2 : World) (d d1 : Str) (xs ys : List Item) (t : Tab)
    (hta : rs.borrow.redirect (.name c!"stdout") .PIPE = .ok ta) (hrb : run sys b ta (w, d) = (.ok (xs, t), (w1, d1)))
    (htb : rs.borrow.redirect (.name c!"stdin") (.inst 0) = .ok tb) (hp : runP sys d1 p tb w1 = (.ok (ys, r), w2)) :
    run sys (.pipe b (.plain p)) rs (w, d) = (.error .keyError, (w2, d1)) := by
  have hk := (run_kind sys b hrb).2
  rw [hb] at hk
  have hk : t = .command := hk
  subst hk
  rw [run, M.bind_ok (a := ta) (s' := (w, d)) (by rw [hta]; rfl)]
  rw [M.bind_ok hrb]
  simp only []
  rw [M.bind_ok (a := .inst 0) (s' := (w1, d1)) (by rfl)]
  rw [M.bind_ok (a := tb) (s' := (w1, d1)) (by rw [htb]; rfl)]
  rw [M.bind_ok (a := (ys, .table r)) (s' := (w2, d1)) (by rw [run_plain, hp]; rfl)]
  rfl

/-- the table with which a program after `cd(...) |` is started, in an environment with the default redirections -/
def badTable : Redirects :=
  [(0, { fd := 0, source := .inst 0, flag := O_RDONLY, mode := defaultMode, pipe := .none, borrowed := false }),
   (1, { fd := 1, source := .fd 1, flag := O_WRONLY ||| O_CREAT, mode := defaultMode, pipe := .none, borrowed := true }),
   (2, { fd := 2, source := .STRING, flag := O_WRONLY ||| O_CREAT, mode := defaultMode, pipe := .none, borrowed := true })]

def badMade (n k : Nat) : Redirects :=
  [(0, { fd := 0, source := .inst 0, flag := O_RDONLY, mode := defaultMode, pipe := .none, borrowed := false }),
   (1, { fd := 1, source := .fd 1, flag := O_WRONLY ||| O_CREAT, mode := defaultMode, pipe := .none, borrowed := true }),
   (2, { fd := 2, source := .fd n, flag := O_WRONLY ||| O_CREAT, mode := defaultMode, pipe := .string k, borrowed := false })]

theorem bad_makePipes (w : World) : badTable.makePipes w = (.ok (badMade w.fds.lowestFree w.nextTmp), (mkstemp w).2) := rfl

theorem bad_free (n k : Nat) : (badMade n k).findFreeFd = max n 2 + 1 := by
  show max (max (max (max (max (max 0 0) 1) 2) 1) n) 2 + 1 = _
  omega

/-- **C111, negated.** In an environment with the default redirections, the program of `cd(...) | program` is started, with the standard input of the shell, and without standard output
(and KeyError is raised, so it is not waited for). -/
theorem C111_refuted_wrong_files (sys : Sys) (act : Str → Except Exn Str) (id : Nat) (ws : List Str) (w : World) (d d' : Str) (e0 e1 : Entry)
    (hb : w.fds.Bounded) (h0 : w.fds.get 0 = some e0) (hc : e0.cloexec = false) (h1 : w.fds.get 1 = some e1) (hlim : max w.fds.lowestFree 2 + 3 < sys.maxfd) (ha : act d = .ok d') :
    ∃ w' argv fds r, run sys (.pipe (.builtin act) (.plain (.command id (.word ws .nil)))) defaultRedirects (w, d) = (.error .keyError, (w', d')) ∧
      defaultRedirects.borrow.redirect (.name c!"stdin") (.inst 0) = .ok badTable ∧
      runP sys d' (.command id (.word ws .nil)) badTable w = (.ok ([.proc id argv fds r], r), w') ∧
      w'.started = w.started ++ [id] ∧ fds 0 = some e0.obj ∧ fds 1 = none := by
  have hn0 : w.fds.lowestFree ≠ 0 := FdTable.lowestFree_ne hb h0
  have hn1 : w.fds.lowestFree ≠ 1 := FdTable.lowestFree_ne hb h1
  generalize hn : w.fds.lowestFree = n at *
  have hfree : ∀ t : FdTable, (badMade n w.nextTmp).findFreeFd = max n 2 + 1 := fun _ => bad_free _ _
  generalize hrs : badMade n w.nextTmp = rs2 at *
  have hrun : runP sys d' (.command id (.word ws .nil)) badTable w =
      (.ok ([.proc id (ws.map .lit ++ []) (execTable (rs2.perform sys d' (mkstemp w).2.fds)) rs2], rs2),
        { (mkstemp w).2 with started := (mkstemp w).2.started ++ [id], fds := (mkstemp w).2.fds.clear n }) := by
    unfold runP
    rw [RunM.bind_ok (bad_makePipes w), hn, hrs]
    rw [RunM.bind_ok (a := ([], ws.map .lit ++ [], rs2)) (w' := (mkstemp w).2) (by unfold runArgs; rw [RunM.bind_ok (a := ([], [], rs2)) (w' := (mkstemp w).2) (by unfold runArgs; rfl)]; rfl)]
    simp only []
    rw [RunM.bind_ok (x := RunM.getFds) (a := (mkstemp w).2.fds) (w' := (mkstemp w).2) rfl]
    rw [RunM.bind_ok (x := RunM.start id) (a := ()) (w' := { (mkstemp w).2 with started := (mkstemp w).2.started ++ [id] }) rfl]
    rw [RunM.bind_ok (a := ()) (w' := { (mkstemp w).2 with started := (mkstemp w).2.started ++ [id], fds := (mkstemp w).2.fds.clear n })]
    · rfl
    · subst hrs
      have hcl : ∀ t : FdTable, (t.get n).isSome = true → (badMade n w.nextTmp).closeSourceFds t = (.ok (), t.clear n) := by
        intro t ht
        have : osClose n t = (.ok (), t.clear n) := by
          unfold osClose
          cases h : t.get n with
          | none => rw [h] at ht; cases ht
          | some e => rfl
        unfold Redirects.closeSourceFds badMade
        simp only [Dict.values, List.map, closeSources, Redirect.closeSourceFd]
        simp only [if_true, if_false, Bool.false_eq_true, this]
      unfold RunM.onFds
      rw [hcl]
      show Option.isSome (if n = w.fds.lowestFree then _ else _) = true
      rw [hn, if_pos rfl]; rfl
  have hperf : ∀ m, m = 0 ∨ m = 1 → execTable (rs2.perform sys d' (mkstemp w).2.fds) m = if m = 0 then some e0.obj else none := by
    intro m hm
    have hf := hfree w.fds
    subst hrs
    generalize hk : (badMade n w.nextTmp).findFreeFd = k at hf
    have hk3 : 3 ≤ k := by omega
    have hkn : n < k := by omega
    have hkl : k + 2 < sys.maxfd := by omega
    unfold Redirects.perform Redirects.performTry Redirects.moveExistingFds
    rw [hk]
    have g0 : (mkstemp w).2.fds.get 0 = some e0 := by
      show (if 0 = w.fds.lowestFree then _ else _) = _
      rw [hn, if_neg (by omega), h0]
    have g1 : (mkstemp w).2.fds.get 1 = some e1 := by
      show (if 1 = w.fds.lowestFree then _ else _) = _
      rw [hn, if_neg (by omega), h1]
    have gn : (mkstemp w).2.fds.get n = some ⟨.tmp w.nextTmp, true⟩ := by
      show (if n = w.fds.lowestFree then _ else _) = _
      rw [hn, if_pos rfl]
    generalize (mkstemp w).2.fds = t at *
    generalize w.nextTmp = j at *
    have hd1 : osDup2 sys 1 (k + 1) t = (.ok (), t.set (k + 1) ⟨e1.obj, false⟩) := by
      unfold osDup2; rw [g1]; simp only []; rw [if_neg (by omega), if_neg (by omega)]
    have hc1 : osClose 1 (t.set (k + 1) ⟨e1.obj, false⟩) = (.ok (), (t.set (k + 1) ⟨e1.obj, false⟩).clear 1) := by
      unfold osClose
      have : (t.set (k + 1) ⟨e1.obj, false⟩).get 1 = some e1 := by show (if 1 = k + 1 then _ else _) = _; rw [if_neg (by omega), g1]
      rw [this]
    have hd2 : osDup2 sys n (k + 1 + 1) ((t.set (k + 1) ⟨e1.obj, false⟩).clear 1) = (.ok (), ((t.set (k + 1) ⟨e1.obj, false⟩).clear 1).set (k + 1 + 1) ⟨.tmp j, false⟩) := by
      unfold osDup2
      have : ((t.set (k + 1) ⟨e1.obj, false⟩).clear 1).get n = some ⟨.tmp j, true⟩ := by
        show (if n = 1 then _ else if n = k + 1 then _ else _) = _; rw [if_neg (by omega), if_neg (by omega), gn]
      rw [this]; simp only []; rw [if_neg (by omega), if_neg (by omega)]
    have hc2 : osClose n (((t.set (k + 1) ⟨e1.obj, false⟩).clear 1).set (k + 1 + 1) ⟨.tmp j, false⟩) =
        (.ok (), (((t.set (k + 1) ⟨e1.obj, false⟩).clear 1).set (k + 1 + 1) ⟨.tmp j, false⟩).clear n) := by
      unfold osClose
      have : (((t.set (k + 1) ⟨e1.obj, false⟩).clear 1).set (k + 1 + 1) ⟨.tmp j, false⟩).get n = some ⟨.tmp j, true⟩ := by
        show (if n = k + 1 + 1 then _ else if n = 1 then _ else if n = k + 1 then _ else _) = _
        rw [if_neg (by omega), if_neg (by omega), if_neg (by omega), gn]
      rw [this]
    have hmove : ∃ l, moveAll sys (Dict.values (badMade n j)) k t =
        (.ok ({ fd := 0, source := .inst 0, flag := O_RDONLY, mode := defaultMode, pipe := .none, borrowed := false } :: l),
          (((t.set (k + 1) ⟨e1.obj, false⟩).clear 1).set (k + 1 + 1) ⟨.tmp j, false⟩).clear n) := by
      unfold badMade
      simp only [Dict.values, List.map, moveAll, Redirect.move, hd1, hc1, hd2, hc2]
      exact ⟨_, rfl⟩
    obtain ⟨l, hmove⟩ := hmove
    rw [hmove]
    show execTable ((((t.set (k + 1) ⟨e1.obj, false⟩).clear 1).set (k + 1 + 1) ⟨.tmp j, false⟩).clear n) m = _
    unfold execTable
    have : ((((t.set (k + 1) ⟨e1.obj, false⟩).clear 1).set (k + 1 + 1) ⟨.tmp j, false⟩).clear n).get m = if m = 0 then some e0 else none := by
      show (if m = n then _ else if m = k + 1 + 1 then _ else if m = 1 then _ else if m = k + 1 then _ else _) = _
      rcases hm with rfl | rfl
      · rw [if_neg (by omega), if_neg (by omega), if_neg (by omega), if_neg (by omega), g0]; rfl
      · rw [if_neg (by omega), if_neg (by omega), if_pos rfl]; rfl
    rw [this]
    rcases hm with rfl | rfl
    · simp only [if_true, hc]; rfl
    · rfl
  refine ⟨_, _, _, _, C111_refuted_pipe_from sys (.builtin act) rfl _ defaultRedirects _ badTable _ w w _ d d' [] _ .command rfl ?_ rfl hrun, rfl, hrun, rfl, hperf 0 (.inl rfl), hperf 1 (.inr rfl)⟩
  rw [run]; simp only [ha]

/-! ## Non-vacuity -/
namespace Ex
open RunEx (inh)

def sys : Sys := { maxfd := 16, logfd := 15, openErr := fun _ _ _ => none }
/-- a shell with stdin, stdout and stderr open -/
def world : World := { fds := FdTable.ofList [(0, inh 0), (1, inh 1), (2, inh 2)], nextPipe := 0, nextTmp := 0 }
/-- `cd("/tmp")` -/
def cd : Pipeline := .builtin fun _ => .ok c!"/tmp"
/-- `cd("/nonexistent")` -/
def cdFails : Pipeline := .builtin fun _ => .error (.osError 2)
def cmd (id : Nat) : Pieshell.Pipeline := .command id (.word [c!"x"] .nil)

example : Lent defaultRedirects := by unfold Lent; decide
/-- `cd("/tmp") + a + b` starts `a` and `b`, in this order, after changing the directory -/
example : ∃ xs w', run sys (chain cd [.plain (cmd 1), .plain (cmd 2)]) defaultRedirects (world, c!"/") = (.ok (xs, .command), (w', c!"/tmp")) ∧
    xs.map Item.id = [1, 2] ∧ w'.started = [1, 2] := by
  rw [C111_chain_partial sys cd rfl _ _ (by unfold Lent; decide)]
  exact ⟨_, _, rfl, rfl, rfl⟩
/-- `cd("/nonexistent") + a` starts nothing -/
example : run sys (chain cdFails [.plain (cmd 1)]) defaultRedirects (world, c!"/") = (.error (.osError 2), (world, c!"/")) := by
  rw [C111_chain_partial sys cdFails rfl _ _ (by unfold Lent; decide)]
  rfl
/-- `a + cd("/tmp")` -/
example : ∃ w', run sys (.group (.plain (cmd 1)) cd) defaultRedirects (world, c!"/") = (.error .keyError, (w', c!"/tmp")) ∧ w'.started = [1] :=
  ⟨_, C111_refuted_right sys (cmd 1) _ defaultRedirects _ (by unfold Lent; decide) world _ _ _ _ rfl rfl, rfl⟩
/-- `a | cd("/tmp")` -/
example : ∃ w', run sys (.pipe (.plain (cmd 1)) cd) defaultRedirects (world, c!"/") = (.error .keyError, (w', c!"/tmp")) ∧ w'.started = [1] :=
  ⟨_, C111_refuted_pipe_to sys (cmd 1) _ defaultRedirects _ _ _ _ world _ _ _ _ rfl rfl rfl rfl rfl, rfl⟩
/-- `(cd("/tmp") + a) | b` -/
example : ∃ w', run sys (.pipe (.group cd (.plain (cmd 1))) (.plain (cmd 2))) defaultRedirects (world, c!"/") = (.error .keyError, (w', c!"/tmp")) ∧ w'.started = [1, 2] :=
  ⟨_, C111_refuted_pipe_from sys (.group cd (.plain (cmd 1))) rfl (cmd 2) defaultRedirects _ _ _ world _ _ _ _ _ _ _ rfl rfl rfl rfl, rfl⟩
example : ∃ w' argv fds r, run sys (.pipe cd (.plain (cmd 1))) defaultRedirects (world, c!"/") = (.error .keyError, (w', c!"/tmp")) ∧
    runP sys c!"/tmp" (cmd 1) badTable world = (.ok ([.proc 1 argv fds r], r), w') ∧ w'.started = [1] ∧ fds 0 = some (.inherited 0) ∧ fds 1 = none := by
  obtain ⟨w', argv, fds, r, h1, -, h2, h3, h4, h5⟩ := C111_refuted_wrong_files sys (fun _ => .ok c!"/tmp") 1 [c!"x"] world c!"/" c!"/tmp" (inh 0) (inh 1)
    (FdTable.bounded_ofList _) rfl rfl rfl (by decide +kernel) rfl
  exact ⟨w', argv, fds, r, h1, h2, h3, h4, h5⟩
/-- `list(cd("/tmp") + a)` -/
example : ∃ xs t s', runTop sys (.group cd (.plain (cmd 1))) defaultRedirects [stdoutPipe] (world, c!"/") = (.ok (xs, t), s') ∧ iterFd t = .error .valueError :=
  ⟨_, _, _, rfl, C111_refuted_iterate sys (.group cd (.plain (cmd 1))) rfl defaultRedirects (world, c!"/") _ _ _ rfl⟩
/-- while iteration over `a` reads from a descriptor -/
example : ∃ xs t s' n, runTop sys (.plain (cmd 1)) defaultRedirects [stdoutPipe] (world, c!"/") = (.ok (xs, t), s') ∧ iterFd t = .ok n := ⟨_, _, _, _, rfl, rfl⟩
example : builtinsFirst (.pipe (.plain (cmd 1)) (.group (.plain (cmd 2)) cd)) = false := rfl
example : builtinsFirst (chain cd [.plain (cmd 1), cd, .pipe (.plain (cmd 2)) (.plain (cmd 3))]) = true := rfl
end Ex

end Pieshell.BP
