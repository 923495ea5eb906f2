import Verif.Lemmas.Capture2
/-! Coming to rest, with files; what is captured. -/
namespace Pieshell.Whole

variable {σ : Type} {next : Flow.Prog σ} {L : Link} {path : Nat → Job.Path} {init : Nat → σ} {src : Nat → Flow.Bytes} {b : Bool} {m : Sig.Mgr} {s : St σ}

theorem FSteps.trans {s t u : St σ} (h1 : FSteps next L path s t) (h2 : FSteps next L path t u) : FSteps next L path s u := by
  induction h2 with
  | nil => exact h1
  | snoc _ h ih => exact .snoc ih h

theorem finv {s t : St σ} (h : Inv next L init src b m s) (hs : FSteps next L path s t) : Inv next L init src b m t := inv_steps' h (fsteps_steps hs)

theorem sig_frest (h : Inv next L init src b m s) : ∃ t, FSteps next L path s t ∧ t.flow = s.flow ∧ Sig.Quiet t.sig := by
  have key : ∀ (d : Nat) (s : St σ), Inv next L init src b m s → Sig.work s.sig ≤ d → ∃ t, FSteps next L path s t ∧ t.flow = s.flow ∧ Sig.Quiet t.sig := by
    intro d
    induction d with
    | zero =>
      intro s h hd
      by_cases hq : Sig.Quiet s.sig
      · exact ⟨s, .nil, rfl, hq⟩
      · exfalso
        obtain ⟨as, e⟩ := h.sig
        rw [e] at hq hd
        obtain ⟨a, ha, hne⟩ := (Sig.C45_reaches_quiet m as).2 hq
        have := Sig.ownWork_bound _ [a] ⟨ha, hne, trivial⟩
        simp at this
        omega
    | succ d ih =>
      intro s h hd
      by_cases hq : Sig.Quiet s.sig
      · exact ⟨s, .nil, rfl, hq⟩
      · obtain ⟨as, e⟩ := h.sig
        have hq' := hq
        rw [e] at hq'
        obtain ⟨a, ha, hne⟩ := (Sig.C45_reaches_quiet m as).2 hq'
        rw [← e] at hne
        have hb := Sig.ownWork_bound s.sig [a] ⟨ha, hne, trivial⟩
        have hst : FStep next L path s ⟨s.flow, Sig.step s.sig a, _⟩ := .sig (own_foreign ha)
        obtain ⟨t, h1, h2, h3⟩ := ih _ (finv h (.snoc .nil hst)) (by
          show Sig.work (Sig.step s.sig a) ≤ d
          simp [Sig.run] at hb
          omega)
        exact ⟨t, FSteps.trans (.snoc .nil hst) h1, h2, h3⟩
  exact key _ s h (Nat.le_refl _)

theorem job_frest (h : Inv next L init src b m s) : ∃ t, FSteps next L path s t ∧ t.flow = s.flow ∧ t.sig = s.sig ∧ Job.Quiet t.job := by
  obtain ⟨as, e⟩ := h.job
  obtain ⟨bs, h1, h2⟩ := (Job.C47_loop_ends b as).2
  rw [← e] at h1 h2
  have key : ∀ (bs : List Job.Act) (s : St σ), Job.LoopRun s.job bs → FSteps next L path s ⟨s.flow, s.sig, Job.run s.job bs⟩ := by
    intro bs
    induction bs with
    | nil => intro s _; exact .nil
    | cons a bs ih =>
      intro s ⟨h1, h2⟩
      have hst : FStep next L path s ⟨s.flow, s.sig, Job.step s.job a⟩ :=
        .job (fun i o e => by subst e; exact h1) (fun k f i d _ e => by subst e; exact h1)
      exact FSteps.trans (.snoc .nil hst) (ih ⟨s.flow, s.sig, Job.step s.job a⟩ h2)
  exact ⟨_, key bs s h1, rfl, rfl, h2⟩

theorem flow_frest {B : Nat} (hB : ∀ n t, Flow.Steps next L.net n (Flow.St.start init src) t → n ≤ B) (h : Inv next L init src b m s) :
    ∃ t, FSteps next L path s t ∧ ∀ u, ¬ Flow.Step next L.net t.flow u := by
  have key : ∀ (d n : Nat) (s : St σ), n + d = B + 1 → Inv next L init src b m s → Flow.Steps next L.net n (Flow.St.start init src) s.flow →
      ∃ t, FSteps next L path s t ∧ ∀ u, ¬ Flow.Step next L.net t.flow u := by
    intro d
    induction d with
    | zero => intro n s e _ hn; have := hB n _ hn; omega
    | succ d ih =>
      intro n s e h hn
      by_cases hx : ∃ u, Flow.Step next L.net s.flow u
      · obtain ⟨u, hu⟩ := hx
        have hst : FStep next L path s ⟨u, _, _⟩ := .flow hu
        obtain ⟨t, h1, h2⟩ := ih (n + 1) _ (by omega) (finv h (.snoc .nil hst)) (.snoc hn hu)
        exact ⟨t, FSteps.trans (.snoc .nil hst) h1, h2⟩
      · exact ⟨s, .nil, fun u hu => hx ⟨u, hu⟩⟩
  obtain ⟨n, hn⟩ := h.flow
  have := hB n _ hn
  exact key (B + 1 - n) n s (by omega) h hn

theorem frest {B : Nat} (hB : ∀ n t, Flow.Steps next L.net n (Flow.St.start init src) t → n ≤ B) (h : Inv next L init src b m s) :
    ∃ t, FSteps next L path s t ∧ AtRest next L t := by
  obtain ⟨t, h1, h2⟩ := flow_frest (path := path) hB h
  have ht := finv h h1
  obtain ⟨u, h3, h4, h5⟩ := sig_frest (path := path) ht
  have hu := finv ht h3
  obtain ⟨v, h6, h7, h8, h9⟩ := job_frest (path := path) hu
  exact ⟨v, (h1.trans h3).trans h6, by rw [h7, h4]; exact h2, by rw [h8]; exact h5, h9⟩

/-! ### Captured output -/

theorem get?_map (g : Job.Path → Str) (d : Dict Nat Job.Path) (n : Nat) :
    Dict.get? (d.map fun kv => (kv.1, g kv.2)) n = (Dict.get? d n).map g := by
  induction d with
  | nil => rfl
  | cons kv d ih =>
    simp only [List.map_cons, Dict.get?]
    split
    · rfl
    · exact ih

/-- No write of an item that does not write to a pipe fails. -/
theorem not_cut {net : Flow.Net} {n : Nat} {s : Flow.St σ} (h : Flow.Steps next net n (Flow.St.start init src) s) {k : Nat}
    (hk : net.outPipe k = none) : s.proc k ≠ .killed ∧ s.cut k = false := by
  generalize e : Flow.St.start init src = s0 at h
  induction h with
  | nil => subst e; exact ⟨fun h => (by cases h), rfl⟩
  | @snoc n s0 t u _ h2 ih =>
    have ih := ih e
    have key : ∀ (j : Nat) (v : Flow.Proc σ), v ≠ .killed → Flow.upd t.proc j v k ≠ .killed := by
      intro j v hv
      simp only [Flow.upd]
      split
      · exact hv
      · exact ih.1
    have oth : ∀ {j q}, net.outPipe j = some q → k ≠ j := fun h e => by subst e; rw [hk] at h; cases h
    cases h2 with
    | @sigpipe j st st' c q _ _ _ h =>
      refine ⟨?_, ?_⟩
      · show Flow.upd t.proc j .killed k ≠ .killed
        rw [Flow.upd_ne _ _ (oth h)]; exact ih.1
      · show Flow.upd t.cut j true k = false
        rw [Flow.upd_ne _ _ (oth h)]; exact ih.2
    | @epipe j st st' st'' c q _ _ _ h =>
      refine ⟨key _ _ (by simp), ?_⟩
      show Flow.upd t.cut j true k = false
      rw [Flow.upd_ne _ _ (oth h)]; exact ih.2
    | read => exact ⟨key _ _ (by simp), ih.2⟩
    | eof => exact ⟨key _ _ (by simp), ih.2⟩
    | readExt => exact ⟨key _ _ (by simp), ih.2⟩
    | eofExt => exact ⟨key _ _ (by simp), ih.2⟩
    | take => exact ⟨key _ _ (by simp), ih.2⟩
    | takeEof => exact ⟨key _ _ (by simp), ih.2⟩
    | write => exact ⟨key _ _ (by simp), ih.2⟩
    | writeExt => exact ⟨key _ _ (by simp), ih.2⟩
    | exit => exact ⟨key _ _ (by simp), ih.2⟩
    | fetch => exact ih
    | hup => exact ih
    | fetchExt => exact ih
    | hupExt => exact ih
    | user => exact ih

theorem finished_dead {j : Job.St} (hg : Job.Good j) {p : Nat} (h : Job.finishedOf j p = true) : ¬ Job.Alive j.pipes p := by
  intro ha
  cases e : j.pipes[p]? with
  | none => simp [Job.finishedOf, e] at h
  | some P =>
    rw [Job.finishedOf_get e] at h
    have := hg.inv.fin p P e h
    rw [(Job.running_iff hg.inv.ranked p).2 ha] at this
    cases this

/-- What is captured of item `k`, whose stdout is the `STRING` file `f`. -/
theorem captured_cases {k : Nat} {f : Job.Path} {str tm : Dict Nat Job.Path} (hi : Inv next L init src b m s) (h : Cap L k f str tm s)
    (hf : Dict.get? str 1 = some f) (hd : Job.Decodable s.job L.job) :
    (Job.finishedOf s.job L.job = false ∧ captured s L.job k = none ∧ s.job.fs.get? f = some (s.flow.out k)) ∨
    (Job.finishedOf s.job L.job = true ∧ ¬ Job.Alive s.job.pipes L.job ∧ s.job.fs.get? f = none ∧
      ∃ t, Io.decode (s.flow.out k) = some t ∧ captured s L.job k = some (Job.newlines t)) := by
  have hg := good_of hi.job
  obtain ⟨⟨it, i1, i2, i3⟩, c, h1, h2⟩ := h
  have hm : it ∈ Job.itemsOf s.job.pipes L.job := List.mem_of_getElem? (show (Job.itemsOf s.job.pipes L.job)[k]? = some it from i1)
  have hmem : f ∈ str.map Prod.snd := List.mem_map.2 ⟨_, Dict.mem_of_get? _ hf, rfl⟩
  have hc := h2 (.inr hmem)
  subst hc
  simp only [captured, i1, Option.bind_some]
  cases e : Job.finishedOf s.job L.job with
  | false =>
    left
    refine ⟨rfl, by rw [hg.files.out0 _ _ hm e]; rfl, ?_⟩
    have := hg.files.pres L.job it f hm (.inl e) (by rw [i2]; exact hmem)
    cases e2 : s.job.fs.get? f with
    | none => exact absurd e2 this
    | some d =>
      obtain ⟨o, ho⟩ := hg.files.cont f d e2
      rw [h1] at ho
      cases ho; rfl
  | true =>
    right
    obtain ⟨g1, g2⟩ := hg.files.done L.job it hm e (Job.decodable_not_crashed hg hd)
    obtain ⟨g3, b', t, g4, g5⟩ := g2 f (by rw [i2]; exact hmem)
    rw [h1] at g4
    cases g4
    refine ⟨rfl, finished_dead hg e, g3, t, g5, ?_⟩
    rw [g1, get?_map, i2, hf]
    simp only [Option.map_some, Job.textOf, h1, Option.bind_some, g5, Option.getD_some]

end Pieshell.Whole
