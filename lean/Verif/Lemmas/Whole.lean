import Verif.Model.Whole
import Verif.Lemmas.Job15
import Verif.Lemmas.Signal4
/-! The invariant that connects the items at work, the signals, and the jobs. -/
namespace Pieshell.Whole

variable {σ : Type}

/-! ### Items that have ended stay so -/

theorem flow_ended {next : Flow.Prog σ} {net : Flow.Net} {s t : Flow.St σ} (h : Flow.Step next net s t) (k : Nat) :
    (∀ c, s.proc k = .exited c → t.proc k = .exited c) ∧ (s.proc k = .killed → t.proc k = .killed) := by
  have key : ∀ (j : Nat) (st : σ) (v : Flow.Proc σ), s.proc j = .running st →
      (∀ c, s.proc k = .exited c → Flow.upd s.proc j v k = .exited c) ∧ (s.proc k = .killed → Flow.upd s.proc j v k = .killed) := by
    intro j st v hj
    simp only [Flow.upd]
    by_cases e : k = j
    · subst e
      rw [hj]
      exact ⟨fun c h => (by cases h), fun h => (by cases h)⟩
    · simp only [if_neg e]
      exact ⟨fun c h => h, fun h => h⟩
  cases h with
  | read _ h => exact key _ _ _ h
  | eof _ h => exact key _ _ _ h
  | readExt _ h => exact key _ _ _ h
  | eofExt _ h => exact key _ _ _ h
  | fetch => exact ⟨fun c h => h, fun h => h⟩
  | hup => exact ⟨fun c h => h, fun h => h⟩
  | fetchExt => exact ⟨fun c h => h, fun h => h⟩
  | hupExt => exact ⟨fun c h => h, fun h => h⟩
  | take _ h => exact key _ _ _ h
  | takeEof _ h => exact key _ _ _ h
  | write _ h => exact key _ _ _ h
  | sigpipe _ h => exact key _ _ _ h
  | epipe _ h => exact key _ _ _ h
  | writeExt _ h => exact key _ _ _ h
  | exit _ h => exact key _ _ _ h
  | user => exact ⟨fun c h => h, fun h => h⟩

/-! ### Jobs -/

open Job in
theorem run_finishes (P : Nat) (f : Nat → Option Job.State) (l : List Nat) (hl : l.Nodup) (j : Job.St) (k : Nat) :
    Job.stateAt (Job.run j (l.filterMap fun k => (f k).map (Job.Act.finish P k))) P k =
      if k ∈ l then (Job.stateAt j P k).map (fun x => match f k with
        | some o => if x.2 = .running ∧ Job.okEnd x.1 o = true then (x.1, o) else x
        | none => x)
      else Job.stateAt j P k := by
  induction l generalizing j with
  | nil => rfl
  | cons i l ih =>
    rw [List.nodup_cons] at hl
    have hid : ∀ o : Option (Kind × State), o.map (fun x => x) = o := fun o => by cases o <;> rfl
    cases e : f i with
    | none =>
      rw [List.filterMap_cons_none (by rw [e]; rfl), ih hl.2 j]
      by_cases hk : k = i
      · subst hk
        rw [if_neg hl.1, if_pos List.mem_cons_self]
        simp only [e, hid]
      · simp only [List.mem_cons, hk, false_or]
    | some o =>
      rw [List.filterMap_cons_some (b := Job.Act.finish P i o) (by rw [e]; rfl)]
      show Job.stateAt (Job.run (Job.step j (.finish P i o)) _) P k = _
      rw [ih hl.2, stateAt_finish]
      by_cases hk : k = i
      · subst hk
        simp only [if_neg hl.1, if_pos List.mem_cons_self, and_self, if_true, e]
      · have : ¬ (P = P ∧ i = k) := fun h => hk h.2.symm
        rw [if_neg this]
        simp only [List.mem_cons, hk, false_or]

theorem job_history {b : Bool} {j : Job.St} (h : ∃ as, j = Job.run (Job.init b) as) (bs : List Job.Act) :
    ∃ as, Job.run j bs = Job.run (Job.init b) as := by
  obtain ⟨as, rfl⟩ := h
  exact ⟨as ++ bs, (Job.run_append _ _ _).symm⟩

theorem sig_history {m : Sig.Mgr} {g : Sig.St} (h : ∃ as, g = Sig.run (Sig.init m) as) (bs : List Sig.Act) :
    ∃ as, Sig.run g bs = Sig.run (Sig.init m) as := by
  obtain ⟨as, rfl⟩ := h
  exact ⟨as ++ bs, by simp [Sig.run, List.foldl_append]⟩

theorem job_length {b : Bool} {j : Job.St} (h : ∃ as, j = Job.run (Job.init b) as) (bs : List Job.Act) :
    j.pipes.length ≤ (Job.run j bs).pipes.length := by
  induction bs generalizing j with
  | nil => exact Nat.le_refl _
  | cons a bs ih =>
    have h2 : ∃ as, Job.step j a = Job.run (Job.init b) as := job_history h [a]
    refine Nat.le_trans ?_ (ih h2)
    obtain ⟨as, rfl⟩ := h
    exact Job.length_mono (Job.inv_run b as) a

/-! ### Signals -/

theorem run_changes (pid : Nat → Nat) (f : Nat → Option Sig.Change) (l : List Nat) (hl : l.Nodup)
    (hinj : ∀ j ∈ l, ∀ k ∈ l, (f j).isSome = true → (f k).isSome = true → pid j = pid k → j = k)
    {m : Sig.Mgr} (g : Sig.St) (hg : ∃ as, g = Sig.run (Sig.init m) as)
    (hok : ∀ k ∈ l, ∀ ch, f k = some ch → (g.procs.get? (pid k)).isSome = true ∧ (∀ c ∈ Sig.changesOf g (pid k), c.final = false) ∧ ch.valid = true) :
    (∀ k ∈ l, ∀ ch, f k = some ch → Sig.changesOf (Sig.run g (l.filterMap fun k => (f k).map (Sig.Act.change (pid k)))) (pid k) =
        Sig.changesOf g (pid k) ++ [ch]) ∧
    ∀ q, (∀ k ∈ l, (f k).isSome = true → pid k ≠ q) →
      Sig.changesOf (Sig.run g (l.filterMap fun k => (f k).map (Sig.Act.change (pid k)))) q = Sig.changesOf g q := by
  induction l generalizing g with
  | nil => exact ⟨fun k hk => (by cases hk), fun q _ => rfl⟩
  | cons i l ih =>
    rw [List.nodup_cons] at hl
    have hinj' : ∀ j ∈ l, ∀ k ∈ l, (f j).isSome = true → (f k).isSome = true → pid j = pid k → j = k :=
      fun j hj k hk => hinj j (List.mem_cons_of_mem _ hj) k (List.mem_cons_of_mem _ hk)
    cases e : f i with
    | none =>
      rw [List.filterMap_cons_none (by rw [e]; rfl)]
      obtain ⟨h1, h2⟩ := ih hl.2 hinj' g hg (fun k hk => hok k (List.mem_cons_of_mem _ hk))
      refine ⟨fun k hk ch hch => ?_, fun q hq => h2 q (fun k hk => hq k (List.mem_cons_of_mem _ hk))⟩
      rcases List.mem_cons.1 hk with rfl | hk
      · rw [e] at hch; cases hch
      · exact h1 k hk ch hch
    | some ch0 =>
      rw [List.filterMap_cons_some (b := Sig.Act.change (pid i) ch0) (by rw [e]; rfl)]
      obtain ⟨o1, o2, o3⟩ := hok i List.mem_cons_self ch0 e
      have hinv : Sig.Inv g := by obtain ⟨as, rfl⟩ := hg; exact Sig.inv_run m as
      have hch := Sig.change_takes hinv o1 o2 o3
      have hap := Sig.changesOf_append g (Sig.step g (.change (pid i) ch0)) (pid i) ch0 hch
      have hne : ∀ k ∈ l, (f k).isSome = true → pid i ≠ pid k := by
        intro k hk hs he
        have := hinj i List.mem_cons_self k (List.mem_cons_of_mem _ hk) (by rw [e]; rfl) hs he
        subst this
        exact hl.1 hk
      obtain ⟨h1, h2⟩ := ih hl.2 hinj' (Sig.step g (.change (pid i) ch0)) (sig_history hg [.change (pid i) ch0]) (fun k hk ch hc => by
        obtain ⟨q1, q2, q3⟩ := hok k (List.mem_cons_of_mem _ hk) ch hc
        refine ⟨(Sig.step_changes g _).2 _ q1, ?_, q3⟩
        rw [hap, if_neg (hne k hk (by rw [hc]; rfl)), List.append_nil]
        exact q2)
      refine ⟨fun k hk ch hc => ?_, fun q hq => ?_⟩
      · rcases List.mem_cons.1 hk with rfl | hk
        · rw [e] at hc; cases hc
          show Sig.changesOf (Sig.run (Sig.step g (.change (pid k) ch0)) _) (pid k) = _
          rw [h2 (pid k) (fun j hj hs => (hne j hj hs).symm), hap, if_pos rfl]
        · show Sig.changesOf (Sig.run (Sig.step g (.change (pid i) ch0)) _) (pid k) = _
          rw [h1 k hk ch hc, hap, if_neg (hne k hk (by rw [hc]; rfl)), List.append_nil]
      · show Sig.changesOf (Sig.run (Sig.step g (.change (pid i) ch0)) _) q = _
        rw [h2 q (fun k hk => hq k (List.mem_cons_of_mem _ hk)), hap, if_neg (hq i List.mem_cons_self (by rw [e]; rfl)), List.append_nil]

/-- The table of processes is not affected by reports of the kernel. -/
theorem run_changes_procs (pid : Nat → Nat) (f : Nat → Option Sig.Change) (l : List Nat) (g : Sig.St) :
    (Sig.run g (l.filterMap fun k => (f k).map (Sig.Act.change (pid k)))).procs = g.procs := by
  induction l generalizing g with
  | nil => rfl
  | cons i l ih =>
    cases e : f i with
    | none => rw [List.filterMap_cons_none (by rw [e]; rfl)]; exact ih g
    | some ch =>
      rw [List.filterMap_cons_some (b := Sig.Act.change (pid i) ch) (by rw [e]; rfl)]
      show (Sig.run (Sig.step g (.change (pid i) ch)) _).procs = _
      rw [ih]
      simp only [Sig.step]
      split
      · rfl
      · split <;> rfl

/-! ### The invariant -/

/-- Program `k`. -/
structure ProgOk (L : Link) (s : St σ) (k : Nat) : Prop where
  reg : (s.sig.procs.get? (L.pid k)).isSome = true
  alive : ∀ st, s.flow.proc k = .running st → ∀ ch ∈ Sig.changesOf s.sig (L.pid k), ch.final = false
  exited : ∀ c, s.flow.proc k = .exited c → .exited (c % 256) ∈ Sig.changesOf s.sig (L.pid k)
  killed : s.flow.proc k = .killed → .killed SIGPIPE false ∈ Sig.changesOf s.sig (L.pid k)
  running : ∀ ps, s.sig.procs.get? (L.pid k) = some ps → ps.done = false → Job.stateAt s.job L.job k = some (.proc, .running)
  done : ∀ i, s.sig.procs.get? (L.pid k) = some ⟨some i, true⟩ → Job.stateAt s.job L.job k = some (.proc, .exited i.status)

/-- Function `k`. -/
def FuncOk (L : Link) (s : St σ) (k : Nat) : Prop :=
  Job.stateAt s.job L.job k = some (.func, match s.flow.proc k with | .running _ => .running | .exited _ => .returned | .killed => .raised)

structure Inv (next : Flow.Prog σ) (L : Link) (init : Nat → σ) (src : Nat → Flow.Bytes) (b : Bool) (m : Sig.Mgr) (s : St σ) : Prop where
  flow : ∃ n, Flow.Steps next L.net n (Flow.St.start init src) s.flow
  job : ∃ as, s.job = Job.run (Job.init b) as
  sig : ∃ as, s.sig = Sig.run (Sig.init m) as
  inj : ∀ j k, L.isProg j = true → L.isProg k = true → L.pid j = L.pid k → j = k
  there : L.job < s.job.pipes.length
  prog : ∀ k, L.isProg k = true → ProgOk L s k
  func : ∀ k, k < L.net.items.length → L.isProg k = false → FuncOk L s k
  len : (Job.itemsOf s.job.pipes L.job).length = L.net.items.length

theorem isProg_lt {L : Link} {k : Nat} (h : L.isProg k = true) : k < L.net.items.length := by
  unfold Link.isProg at h
  cases e : L.net.items[k]? with
  | none => rw [e] at h; cases h
  | some x => exact (List.getElem?_eq_some_iff.1 e).1

theorem numbers_nodup (L : Link) : L.numbers.Nodup := List.nodup_range

theorem mem_numbers (L : Link) (k : Nat) : k ∈ L.numbers ↔ k < L.net.items.length := List.mem_range

theorem items_len_same {s s' : Job.St} (h : Job.Same s s') {p : Nat} (hp : p < s.pipes.length) :
    (Job.itemsOf s'.pipes p).length = (Job.itemsOf s.pipes p).length := by
  obtain ⟨P', h1, h2⟩ := h p _ (List.getElem?_eq_getElem hp)
  have := congrArg List.length h2
  simp only [List.length_map] at this
  simp [Job.itemsOf, h1, List.getElem?_eq_getElem hp, this]

theorem items_len_step {b : Bool} {j : Job.St} (h : ∃ as, j = Job.run (Job.init b) as) (a : Job.Act) {p : Nat} (hp : p < j.pipes.length) :
    (Job.itemsOf (Job.step j a).pipes p).length = (Job.itemsOf j.pipes p).length := by
  have hi : Job.Inv j none := by obtain ⟨as, rfl⟩ := h; exact Job.inv_run b as
  obtain ⟨P', h1, h2, -⟩ := (Job.ext_step hi a).pipe p _ (List.getElem?_eq_getElem hp)
  have := congrArg List.length h2
  simp only [List.length_map] at this
  simp [Job.itemsOf, h1, List.getElem?_eq_getElem hp, this]

theorem items_len_run {b : Bool} {j : Job.St} (h : ∃ as, j = Job.run (Job.init b) as) (bs : List Job.Act) {p : Nat} (hp : p < j.pipes.length) :
    (Job.itemsOf (Job.run j bs).pipes p).length = (Job.itemsOf j.pipes p).length := by
  induction bs generalizing j with
  | nil => rfl
  | cons a bs ih =>
    show (Job.itemsOf (Job.run (Job.step j a) bs).pipes p).length = _
    have h2 : ∃ as, Job.step j a = Job.run (Job.init b) as := job_history h [a]
    rw [ih h2 (Nat.lt_of_lt_of_le hp (job_length h [a])), items_len_step h a hp]

theorem run_spawns (pid : Nat → Nat) (f : Nat → Bool) (l : List Nat) (hl : l.Nodup)
    (hinj : ∀ j k, f j = true → f k = true → pid j = pid k → j = k) (g : Sig.St)
    (hn : ∀ k ∈ l, f k = true → g.kids.get? (pid k) = none) :
    (Sig.run g (l.filterMap fun k => if f k then some (.spawn (pid k) true) else none)).changes = g.changes ∧
    (∀ k ∈ l, f k = true → (Sig.run g (l.filterMap fun k => if f k then some (.spawn (pid k) true) else none)).procs.get? (pid k) = some ⟨none, false⟩) ∧
    ∀ q, (∀ k ∈ l, f k = true → pid k ≠ q) →
      (Sig.run g (l.filterMap fun k => if f k then some (.spawn (pid k) true) else none)).procs.get? q = g.procs.get? q := by
  induction l generalizing g with
  | nil => exact ⟨rfl, fun k hk => (by cases hk), fun q _ => rfl⟩
  | cons i l ih =>
    rw [List.nodup_cons] at hl
    cases e : f i with
    | false =>
      rw [List.filterMap_cons_none (by rw [e]; rfl)]
      obtain ⟨h1, h2, h3⟩ := ih hl.2 g (fun k hk => hn k (List.mem_cons_of_mem _ hk))
      refine ⟨h1, fun k hk hf => ?_, fun q hq => h3 q (fun k hk => hq k (List.mem_cons_of_mem _ hk))⟩
      rcases List.mem_cons.1 hk with rfl | hk
      · rw [e] at hf; cases hf
      · exact h2 k hk hf
    | true =>
      rw [List.filterMap_cons_some (b := Sig.Act.spawn (pid i) true) (by rw [e]; rfl)]
      have hk0 := hn i List.mem_cons_self e
      have hne : ∀ k ∈ l, f k = true → pid k ≠ pid i := by
        intro k hk hf he
        have := hinj k i hf e he
        subst this
        exact hl.1 hk
      have hs : Sig.step g (.spawn (pid i) true) = { g with
          kids := g.kids.set (pid i) ⟨none, false⟩, procs := g.procs.set (pid i) ⟨none, false⟩,
          handlers := g.handlers.set (Sig.procFilter (pid i)) (.proc (pid i)) } := by
        simp only [Sig.step, hk0]
        rfl
      obtain ⟨h1, h2, h3⟩ := ih hl.2 (Sig.step g (.spawn (pid i) true)) (fun k hk hf => by
        rw [hs]
        show (g.kids.set (pid i) _).get? (pid k) = none
        rw [Dict.get?_set, if_neg (Ne.symm (hne k hk hf))]
        exact hn k (List.mem_cons_of_mem _ hk) hf)
      refine ⟨?_, fun k hk hf => ?_, fun q hq => ?_⟩
      · show (Sig.run (Sig.step g (.spawn (pid i) true)) _).changes = _
        rw [h1, hs]
      · rcases List.mem_cons.1 hk with rfl | hk
        · show (Sig.run (Sig.step g (.spawn (pid k) true)) _).procs.get? _ = _
          rw [h3 (pid k) (fun j hj hfj => hne j hj hfj), hs]
          show (g.procs.set (pid k) _).get? (pid k) = _
          rw [Dict.get?_set, if_pos rfl]
        · exact h2 k hk hf
      · show (Sig.run (Sig.step g (.spawn (pid i) true)) _).procs.get? _ = _
        rw [h3 q (fun k hk => hq k (List.mem_cons_of_mem _ hk)), hs]
        show (g.procs.set (pid i) _).get? q = _
        rw [Dict.get?_set, if_neg (hq i List.mem_cons_self e)]

theorem inv_start {next : Flow.Prog σ} {L : Link} {init : Nat → σ} {src : Nat → Flow.Bytes} {s : St σ} (h : Start L init src s) :
    ∃ b m, Inv next L init src b m s := by
  cases h with
  | @mk b m as bs xs hinj hnew hjob hok hkinds =>
    refine ⟨b, m, ?_⟩
    have hji := Job.inv_run b as
    have hst : Job.step (Job.run (Job.init b) as) (.start xs) = Job.started (Job.run (Job.init b) as) xs := Job.start_eq hji hok
    obtain ⟨c1, c2, c3⟩ := run_spawns L.pid L.isProg L.numbers (numbers_nodup L) hinj (Sig.run (Sig.init m) bs) (fun k _ hf => hnew k hf)
    have hlen : xs.length = L.net.items.length := by
      have := congrArg List.length hkinds
      simpa [Link.numbers] using this
    have hat : ∀ k, k < L.net.items.length → Job.stateAt (Job.started (Job.run (Job.init b) as) xs) L.job k =
        some (if L.isProg k then .proc else .func, .running) := by
      intro k hk
      simp only [Job.stateAt, Job.itemAt, hjob]
      have : Job.itemsOf (Job.started (Job.run (Job.init b) as) xs).pipes (Job.run (Job.init b) as).pipes.length = xs.map Job.Spec.item := by
        simp [Job.started, Job.itemsOf, Job.newPipe]
      rw [this, List.getElem?_map]
      have hx : xs[k]? = some xs[k] := List.getElem?_eq_getElem (by omega)
      have h3 := congrArg (fun l => l[k]?) hkinds
      simp only [List.getElem?_map, hx, Link.numbers, List.getElem?_range hk, Option.map_some, Option.some.injEq] at h3
      rw [hx]
      simp only [Option.map_some, Job.ks, Job.Spec.item, h3]
    have hitems : (Job.itemsOf (Job.started (Job.run (Job.init b) as) xs).pipes L.job).length = L.net.items.length := by
      rw [hjob]
      simp [Job.started, Job.itemsOf, Job.newPipe, hlen]
    have hch : ∀ q, Sig.changesOf (Sig.run (Sig.run (Sig.init m) bs) L.spawns) q = Sig.changesOf (Sig.run (Sig.init m) bs) q := by
      intro q
      simp only [Sig.changesOf]
      rw [show (Sig.run (Sig.run (Sig.init m) bs) L.spawns).changes = (Sig.run (Sig.init m) bs).changes from c1]
    refine ⟨⟨0, .nil⟩, job_history ⟨as, rfl⟩ [.start xs], sig_history ⟨bs, rfl⟩ _, hinj, ?_, ?_, ?_, ?_⟩
    · show L.job < (Job.step _ _).pipes.length
      rw [hst, hjob]; simp [Job.started]
    · intro k hk
      have hlt := isProg_lt hk
      have hp := c2 k ((mem_numbers L k).2 hlt) hk
      have hs := hat k hlt
      rw [if_pos hk] at hs
      refine ⟨?_, ?_, ?_, ?_, ?_, ?_⟩
      · show (Option.isSome (Dict.get? (Sig.run (Sig.run (Sig.init m) bs) L.spawns).procs (L.pid k))) = true
        rw [show Dict.get? (Sig.run (Sig.run (Sig.init m) bs) L.spawns).procs (L.pid k) = some ⟨none, false⟩ from hp]; rfl
      · intro st _ ch hm
        have hm : ch ∈ Sig.changesOf (Sig.run (Sig.run (Sig.init m) bs) L.spawns) (L.pid k) := hm
        rw [hch, (((Sig.inv_run m bs).pi (L.pid k)).known (hnew k hk)).2.1] at hm
        cases hm
      · intro c h; cases h
      · intro h; cases h
      · intro ps _ _
        show Job.stateAt (Job.step _ _) _ _ = _
        rw [hst]; exact hs
      · intro i h
        have h : Dict.get? (Sig.run (Sig.run (Sig.init m) bs) L.spawns).procs (L.pid k) = some ⟨some i, true⟩ := h
        rw [show Dict.get? (Sig.run (Sig.run (Sig.init m) bs) L.spawns).procs (L.pid k) = some ⟨none, false⟩ from hp] at h
        cases h
    · intro k hlt hk
      have hs := hat k hlt
      rw [if_neg (by rw [hk]; simp)] at hs
      show Job.stateAt (Job.step _ _) _ _ = _
      rw [hst, hs]; rfl
    · show (Job.itemsOf (Job.step _ _).pipes _).length = _
      rw [hst]; exact hitems

theorem run_valid {s t : Flow.St σ} {L : Link} {k : Nat} {ch : Sig.Change} (h : L.report s t k = some ch) :
    L.isProg k = true ∧ (∃ st, s.proc k = .running st) ∧ ch.valid = true ∧ ch.final = true ∧
    ((∃ c, t.proc k = .exited c ∧ ch = .exited (c % 256)) ∨ (t.proc k = .killed ∧ ch = .killed SIGPIPE false)) := by
  unfold Link.report at h
  split at h
  · rename_i hp
    split at h
    · rename_i c e1 e2
      cases h
      refine ⟨hp, ⟨_, e1⟩, ?_, rfl, .inl ⟨c, e2, rfl⟩⟩
      simp only [Sig.Change.valid, decide_eq_true_eq]
      omega
    · rename_i e1 e2
      cases h
      exact ⟨hp, ⟨_, e1⟩, by decide, rfl, .inr ⟨e2, rfl⟩⟩
    · cases h
  · cases h

theorem report_none {s t : Flow.St σ} {L : Link} {k : Nat} (hp : L.isProg k = true) (h : L.report s t k = none) {st : σ} (hr : s.proc k = .running st) :
    ∃ st', t.proc k = .running st' := by
  unfold Link.report at h
  rw [if_pos hp, hr] at h
  cases e : t.proc k with
  | running st' => exact ⟨st', rfl⟩
  | exited c => rw [e] at h; cases h
  | killed => rw [e] at h; cases h

theorem inv_flow {next : Flow.Prog σ} {L : Link} {init : Nat → σ} {src : Nat → Flow.Bytes} {b : Bool} {m : Sig.Mgr} {s : St σ} {t : Flow.St σ}
    (h : Inv next L init src b m s) (hs : Flow.Step next L.net s.flow t) :
    Inv next L init src b m ⟨t, Sig.run s.sig (L.changes (L.report s.flow t)), Job.run s.job (L.finishes (L.returned s.flow t))⟩ := by
  have hsi : Sig.Inv s.sig := by obtain ⟨as, e⟩ := h.sig; rw [e]; exact Sig.inv_run m as
  have hprocs : (Sig.run s.sig (L.changes (L.report s.flow t))).procs = s.sig.procs := run_changes_procs L.pid (L.report s.flow t) L.numbers s.sig
  have hisp : ∀ k, (L.report s.flow t k).isSome = true → L.isProg k = true := by
    intro k hk
    obtain ⟨ch, e⟩ := Option.isSome_iff_exists.1 hk
    exact (run_valid e).1
  obtain ⟨c1, c2⟩ := run_changes L.pid (L.report s.flow t) L.numbers (numbers_nodup L)
    (fun j _ k _ hj hk he => h.inj j k (hisp j hj) (hisp k hk) he) s.sig h.sig (fun k _ ch hch => by
      obtain ⟨hp, ⟨st, hr⟩, hv, -, -⟩ := run_valid hch
      exact ⟨(h.prog k hp).reg, (h.prog k hp).alive st hr, hv⟩)
  have hfin := run_finishes L.job (L.returned s.flow t) L.numbers (numbers_nodup L) s.job
  have hch : ∀ k, L.isProg k = true → Sig.changesOf (Sig.run s.sig (L.changes (L.report s.flow t))) (L.pid k) =
      Sig.changesOf s.sig (L.pid k) ++ (L.report s.flow t k).toList := by
    intro k hk
    cases e : L.report s.flow t k with
    | some ch => exact c1 k ((mem_numbers L k).2 (isProg_lt hk)) ch e
    | none =>
      rw [Option.toList_none, List.append_nil]
      refine c2 (L.pid k) (fun j _ hj he => ?_)
      have := h.inj j k (hisp j hj) hk he
      subst this
      rw [e] at hj; cases hj
  obtain ⟨n, hn⟩ := h.flow
  refine ⟨⟨n + 1, .snoc hn hs⟩, job_history h.job _, sig_history h.sig _, h.inj, Nat.lt_of_lt_of_le h.there (job_length h.job _), ?_, ?_,
    (items_len_run h.job _ h.there).trans h.len⟩
  · intro k hk
    have hlt := isProg_lt hk
    have hstate : Job.stateAt (Job.run s.job (L.finishes (L.returned s.flow t))) L.job k = Job.stateAt s.job L.job k := by
      rw [show Job.stateAt (Job.run s.job (L.finishes (L.returned s.flow t))) L.job k = _ from hfin k, if_pos ((mem_numbers L k).2 hlt)]
      simp only [Link.returned, hk, if_true]
      cases Job.stateAt s.job L.job k <;> rfl
    obtain ⟨p1, p2, p3, p4, p5, p6⟩ := h.prog k hk
    obtain ⟨f1, f2⟩ := flow_ended hs k
    refine ⟨?_, ?_, ?_, ?_, ?_, ?_⟩
    · show Option.isSome (Dict.get? (Sig.run s.sig (L.changes (L.report s.flow t))).procs _) = true
      rw [hprocs]; exact p1
    · intro st hst ch hm
      have hst : t.proc k = .running st := hst
      have hm : ch ∈ Sig.changesOf (Sig.run s.sig (L.changes (L.report s.flow t))) (L.pid k) := hm
      rw [hch k hk] at hm
      have hrun : ∃ st0, s.flow.proc k = .running st0 := by
        cases e : s.flow.proc k with
        | running st0 => exact ⟨st0, rfl⟩
        | exited c => rw [f1 c e] at hst; cases hst
        | killed => rw [f2 e] at hst; cases hst
      obtain ⟨st0, hst0⟩ := hrun
      have hnone : L.report s.flow t k = none := by
        cases e : L.report s.flow t k with
        | none => rfl
        | some ch =>
          obtain ⟨-, -, -, -, h5⟩ := run_valid e
          rcases h5 with ⟨c, h5, -⟩ | ⟨h5, -⟩ <;> rw [hst] at h5 <;> cases h5
      rw [hnone, Option.toList_none, List.append_nil] at hm
      exact p2 st0 hst0 ch hm
    · intro c hc
      have hc : t.proc k = .exited c := hc
      show _ ∈ Sig.changesOf (Sig.run s.sig (L.changes (L.report s.flow t))) (L.pid k)
      rw [hch k hk]
      cases e : s.flow.proc k with
      | exited c' =>
        have := f1 c' e
        rw [hc] at this; cases this
        exact List.mem_append_left _ (p3 c e)
      | killed => rw [f2 e] at hc; cases hc
      | running st =>
        refine List.mem_append_right _ ?_
        simp [Link.report, hk, e, hc]
    · intro hc
      have hc : t.proc k = .killed := hc
      show _ ∈ Sig.changesOf (Sig.run s.sig (L.changes (L.report s.flow t))) (L.pid k)
      rw [hch k hk]
      cases e : s.flow.proc k with
      | exited c' => rw [f1 c' e] at hc; cases hc
      | killed => exact List.mem_append_left _ (p4 e)
      | running st =>
        refine List.mem_append_right _ ?_
        simp [Link.report, hk, e, hc]
    · intro ps hps hd
      have hps : Dict.get? (Sig.run s.sig (L.changes (L.report s.flow t))).procs (L.pid k) = some ps := hps
      rw [hprocs] at hps
      exact hstate.trans (p5 ps hps hd)
    · intro i hi
      have hi : Dict.get? (Sig.run s.sig (L.changes (L.report s.flow t))).procs (L.pid k) = some ⟨some i, true⟩ := hi
      rw [hprocs] at hi
      exact hstate.trans (p6 i hi)
  · intro k hlt hk
    have h1 := h.func k hlt hk
    obtain ⟨f1, f2⟩ := flow_ended hs k
    show Job.stateAt (Job.run s.job (L.finishes (L.returned s.flow t))) L.job k = _
    rw [show Job.stateAt (Job.run s.job (L.finishes (L.returned s.flow t))) L.job k = _ from hfin k, if_pos ((mem_numbers L k).2 hlt), h1]
    simp only [Option.map_some, Link.returned, hk]
    cases e : s.flow.proc k with
    | exited c => simp [f1 c e]
    | killed => simp [f2 e]
    | running st =>
      cases e2 : t.proc k with
      | running st' => simp
      | exited c => simp [Job.okEnd]
      | killed => simp [Job.okEnd]

theorem inv_sig {next : Flow.Prog σ} {L : Link} {init : Nat → σ} {src : Nat → Flow.Bytes} {b : Bool} {m : Sig.Mgr} {s : St σ} {a : Sig.Act}
    (h : Inv next L init src b m s) (ha : L.Foreign a) :
    Inv next L init src b m ⟨s.flow, Sig.step s.sig a, Job.run s.job (L.finishes (L.completed s.sig (Sig.step s.sig a)))⟩ := by
  have hsi : Sig.Inv s.sig := by obtain ⟨as, e⟩ := h.sig; rw [e]; exact Sig.inv_run m as
  have hsi' := Sig.inv_step hsi a
  have hfin := run_finishes L.job (L.completed s.sig (Sig.step s.sig a)) L.numbers (numbers_nodup L) s.job
  obtain ⟨hch, hreg⟩ := Sig.step_changes s.sig a
  have hsub : ∀ k, L.isProg k = true → ∃ l, Sig.changesOf (Sig.step s.sig a) (L.pid k) = Sig.changesOf s.sig (L.pid k) ++ l ∧ ∀ x ∈ l, x.final = false := by
    intro k hk
    rcases hch with h1 | ⟨p, ch, e, h1⟩
    · exact ⟨[], by simp [Sig.changesOf, h1], fun x hx => by cases hx⟩
    · refine ⟨_, Sig.changesOf_append _ _ p ch h1 _, fun x hx => ?_⟩
      split at hx
      · rename_i hp
        subst hp
        rw [List.mem_singleton] at hx
        subst hx
        exact ha k x hk e
      · cases hx
  refine ⟨h.flow, job_history h.job _, sig_history h.sig [a], h.inj, Nat.lt_of_lt_of_le h.there (job_length h.job _), ?_, ?_,
    (items_len_run h.job _ h.there).trans h.len⟩
  · intro k hk
    have hlt := isProg_lt hk
    obtain ⟨p1, p2, p3, p4, p5, p6⟩ := h.prog k hk
    obtain ⟨l, hl1, hl2⟩ := hsub k hk
    have hst : Job.stateAt (Job.run s.job (L.finishes (L.completed s.sig (Sig.step s.sig a)))) L.job k = _ :=
      (hfin k).trans (if_pos ((mem_numbers L k).2 hlt))
    obtain ⟨ps0, hps0⟩ := Option.isSome_iff_exists.1 p1
    refine ⟨hreg _ p1, ?_, ?_, ?_, ?_, ?_⟩
    · intro st hs ch hm
      have hm : ch ∈ Sig.changesOf (Sig.step s.sig a) (L.pid k) := hm
      rw [hl1] at hm
      rcases List.mem_append.1 hm with hm | hm
      · exact p2 st hs ch hm
      · exact hl2 ch hm
    · intro c hc
      show _ ∈ Sig.changesOf (Sig.step s.sig a) (L.pid k)
      rw [hl1]; exact List.mem_append_left _ (p3 c hc)
    · intro hc
      show _ ∈ Sig.changesOf (Sig.step s.sig a) (L.pid k)
      rw [hl1]; exact List.mem_append_left _ (p4 hc)
    · intro ps hps hd
      have hps : Dict.get? (Sig.step s.sig a).procs (L.pid k) = some ps := hps
      have hd0 : ps0.done = false := by
        cases e : ps0.done with
        | false => rfl
        | true =>
          exfalso
          obtain ⟨c, hc, -⟩ := Sig.done_exited hsi hps0 e
          have : Sig.Change.exited c ∈ Sig.changesOf (Sig.step s.sig a) (L.pid k) := by rw [hl1]; exact List.mem_append_left _ hc
          have hle := Sig.done_stays hsi a hps0 e
          rw [hps] at hle; cases hle
          rw [e] at hd; cases hd
      show Job.stateAt _ _ _ = _
      rw [hst, p5 ps0 hps0 hd0]
      obtain ⟨la, d⟩ := ps
      cases hd
      simp only [Link.completed, hk, hps0, hps, Option.map_some]
      obtain ⟨la0, d0⟩ := ps0
      cases hd0
      rfl
    · intro i hi
      have hi : Dict.get? (Sig.step s.sig a).procs (L.pid k) = some ⟨some i, true⟩ := hi
      show Job.stateAt _ _ _ = _
      rw [hst]
      obtain ⟨la0, d0⟩ := ps0
      cases d0 with
      | false =>
        rw [p5 _ hps0 rfl]
        simp only [Link.completed, hk, hps0, hi, Option.map_some]
        simp [Job.okEnd]
      | true =>
        have hle := Sig.done_stays hsi a hps0 rfl
        rw [hi] at hle; cases hle
        rw [p6 i hps0]
        simp only [Link.completed, hk, hps0, hi, Option.map_some]
        rfl
  · intro k hlt hk
    have h1 := h.func k hlt hk
    show Job.stateAt (Job.run s.job (L.finishes (L.completed s.sig (Sig.step s.sig a)))) L.job k = _
    have hst : Job.stateAt (Job.run s.job (L.finishes (L.completed s.sig (Sig.step s.sig a)))) L.job k = _ :=
      (hfin k).trans (if_pos ((mem_numbers L k).2 hlt))
    rw [hst, h1]
    simp only [Option.map_some, Link.completed, hk]
    rfl

theorem inv_job {next : Flow.Prog σ} {L : Link} {init : Nat → σ} {src : Nat → Flow.Bytes} {b : Bool} {m : Sig.Mgr} {s : St σ} {a : Job.Act}
    (h : Inv next L init src b m s) (ha : ∀ i o, a ≠ .finish L.job i o) : Inv next L init src b m ⟨s.flow, s.sig, Job.step s.job a⟩ := by
  have hji : Job.Inv s.job none := by obtain ⟨as, e⟩ := h.job; rw [e]; exact Job.inv_run b as
  have hst : ∀ k, Job.stateAt (Job.step s.job a) L.job k = Job.stateAt s.job L.job k := by
    intro k
    by_cases hf : ∃ p i o, a = .finish p i o
    · obtain ⟨p, i, o, rfl⟩ := hf
      rw [Job.stateAt_finish, if_neg]
      rintro ⟨rfl, rfl⟩
      exact ha i o rfl
    · exact (Job.same_step hji a (fun p i o e => hf ⟨p, i, o, e⟩)).stateAt h.there k
  refine ⟨h.flow, job_history h.job [a], h.sig, h.inj, Nat.lt_of_lt_of_le h.there (job_length h.job [a]), ?_, ?_,
    (items_len_step h.job a h.there).trans h.len⟩
  · intro k hk
    obtain ⟨p1, p2, p3, p4, p5, p6⟩ := h.prog k hk
    exact ⟨p1, p2, p3, p4, fun ps h1 h2 => (hst k).trans (p5 ps h1 h2), fun i h1 => (hst k).trans (p6 i h1)⟩
  · intro k hlt hk
    exact (hst k).trans (h.func k hlt hk)

theorem inv_step {next : Flow.Prog σ} {L : Link} {init : Nat → σ} {src : Nat → Flow.Bytes} {b : Bool} {m : Sig.Mgr} {s t : St σ}
    (h : Inv next L init src b m s) (hs : Step next L s t) : Inv next L init src b m t := by
  cases hs with
  | flow hf => exact inv_flow h hf
  | sig ha => exact inv_sig h ha
  | job ha => exact inv_job h ha

theorem inv_steps {next : Flow.Prog σ} {L : Link} {init : Nat → σ} {src : Nat → Flow.Bytes} {s t : St σ}
    (h0 : Start L init src s) (hs : Steps next L s t) : ∃ b m, Inv next L init src b m t := by
  induction hs with
  | nil => exact inv_start h0
  | snoc _ h2 ih =>
    obtain ⟨b, m, hi⟩ := ih
    exact ⟨b, m, inv_step hi h2⟩

end Pieshell.Whole
