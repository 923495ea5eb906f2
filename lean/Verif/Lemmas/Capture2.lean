import Verif.Lemmas.Capture
import Verif.Lemmas.Job16
/-! What is in the file that is the stdout of the last item. -/
namespace Pieshell

/-! ### What is asked for -/

theorem outWant_lastOut (cwd : Str) : (p : Pipeline) → (r : Redirect) → (o : Want) → (r.source = .STRING ∨ r.source = .TMP → o = .tmp) →
    ((p.lastOut r).source = .STRING ∨ (p.lastOut r).source = .TMP) → p.outWant cwd o = .tmp
  | .pipe _ b, r, o, h, h2 => outWant_lastOut cwd b r o h h2
  | .group _ b, r, o, h, h2 => outWant_lastOut cwd b r o h h2
  | .redirect p crs, r, o, h, h2 => by
    refine outWant_lastOut cwd p _ _ ?_ h2
    intro h3
    simp only [Redirects.over, orWant]
    cases e : Dict.get? crs 1 with
    | none => rw [e] at h3; exact h h3
    | some q =>
      rw [e] at h3
      simp only [Option.getD_some] at h3
      simp only [Redirect.want]
      rcases h3 with h3 | h3 <;> rw [h3]
  | .command _ _, r, o, h, h2 => h h2
  | .func _, r, o, h, h2 => h h2
  | .iter _, r, o, h, h2 => h h2

/-- The last item, its stdout, and its table. -/
theorem capture_last {sys : Sys} {cwd : Str} {w w' : World} {rs rs' : Redirects} {p : Pipeline} {i : Obj} {o e : Want} {items : List Item}
    (hs : Startable sys cwd w rs p i o e) (hrun : runP sys cwd p rs w = (.ok (items, rs'), w')) {r1 : Redirect} (hr1 : Dict.get? rs 1 = some r1) :
    ((p.lastOut r1).source = .STRING → ∃ x k r, items.getLast? = some x ∧ x.stdout w' = some (.tmp k) ∧ Dict.get? x.table 1 = some r ∧ r.pipe = .string k) ∧
    ((p.lastOut r1).source = .TMP → ∃ x k r, items.getLast? = some x ∧ x.stdout w' = some (.tmp k) ∧ Dict.get? x.table 1 = some r ∧ r.pipe = .tmp k) := by
  obtain ⟨⟨H, L, hr, hl, hstd⟩, ho, he, hsh, hlow, hpo⟩ := hs
  have hwf : rs.WF := by
    obtain ⟨r0, r1, r2, rfl, f0, f1, f2, s0, s1, s2⟩ := hstd.shape
    exact hstd.wf
  have hslot : r1.source = .STRING ∨ r1.source = .TMP → o = .tmp := by
    obtain ⟨r0, q1, r2, rfl, f0, f1, f2, s0, s1, s2⟩ := hstd.shape
    simp [Dict.get?] at hr1
    subst hr1
    intro h
    cases o with
    | tmp => rfl
    | obj ob => rcases s1 with ⟨a, en, h1, -⟩ | ⟨q, h1, -⟩ <;> rw [h1] at h <;> simp at h
    | pipeOut => rw [s1.1] at h; simp at h
    | pipeIn => rw [s1.1] at h; simp at h
  obtain ⟨items2, rs2, w2, ul, lk, g, P⟩ := run_spec sys cwd p hsh hr hl hstd ho he hlow hpo
  rw [hrun] at g
  cases g
  obtain ⟨-, ht⟩ := table_last p hsh rs rs' w w' items hwf hrun
  obtain ⟨x, r, t1, t2, t3, t4, t5⟩ := ht r1 hr1
  have key : ((p.lastOut r1).source = .STRING ∨ (p.lastOut r1).source = .TMP) → ∃ k, x.stdout w' = some (.tmp k) ∧ (r.pipe = .string k ∨ r.pipe = .tmp k) := by
    intro h
    obtain ⟨r', k, y, u1, u2, u3, u4⟩ := P.tmp1 (outWant_lastOut cwd p r1 o hslot h)
    rw [t2] at u1
    cases u1
    obtain ⟨x', v1, v2⟩ := P.itemsOk.getLast u3
    rw [t1] at v1
    cases v1
    exact ⟨k, by rw [v2.stdout, u4], u2⟩
  constructor
  · intro h
    obtain ⟨k, h1, h2⟩ := key (.inl h)
    obtain ⟨k', h3⟩ := t4 h
    rw [h3] at h2
    rcases h2 with h2 | h2 <;> cases h2
    exact ⟨x, k, r, t1, h1, t3, h3⟩
  · intro h
    obtain ⟨k, h1, h2⟩ := key (.inr h)
    obtain ⟨k', h3⟩ := t5 h
    rw [h3] at h2
    rcases h2 with h2 | h2 <;> cases h2
    exact ⟨x, k, r, t1, h1, t3, h3⟩

namespace Whole

theorem pick_get (f : PipeEnd → Option Job.Path) {l : Redirects} {n : Nat} {r : Redirect} {v : Job.Path} (h : Dict.get? l n = some r) (hf : f r.pipe = some v) :
    Dict.get? (pick f l) n = some v := by
  induction l with
  | nil => cases h
  | cons kv l ih =>
    obtain ⟨m, q⟩ := kv
    simp only [Dict.get?] at h
    split at h
    · rename_i e
      cases h
      simp only [pick, hf]
      simp [Dict.get?, e]
    · rename_i e
      simp only [pick]
      split
      · simp only [Dict.get?, if_neg e]; exact ih h
      · exact ih h

variable {σ : Type} {next : Flow.Prog σ} {L : Link} {path : Nat → Job.Path} {init : Nat → σ} {src : Nat → Flow.Bytes}

/-! ### Steps with files are steps -/

theorem steps_writes (as : List Job.Act) (has : ∀ a ∈ as, ∃ i f d, a = .write L.job i f d) (s : St σ) :
    Steps next L s ⟨s.flow, s.sig, Job.run s.job as⟩ := by
  induction as generalizing s with
  | nil => exact .nil
  | cons a as ih =>
    obtain ⟨i, f, d, e⟩ := has a List.mem_cons_self
    have hst : Step next L s ⟨s.flow, s.sig, Job.step s.job a⟩ := .job (fun i o h => by rw [e] at h; cases h)
    exact (Steps.snoc .nil hst).trans (ih (fun a h => has a (List.mem_cons_of_mem _ h)) ⟨s.flow, s.sig, Job.step s.job a⟩)

theorem puts_writes (s t : Flow.St σ) : ∀ a ∈ L.puts path s t, ∃ i f d, a = .write L.job i f d := by
  intro a h
  simp only [Link.puts, List.mem_filterMap] at h
  obtain ⟨k, -, h⟩ := h
  split at h
  · split at h
    · cases h
    · cases h; exact ⟨_, _, _, rfl⟩
  · cases h

theorem fstep_steps {s t : St σ} (h : FStep next L path s t) : Steps next L s t := by
  cases h with
  | flow hf => exact (steps_writes _ (puts_writes s.flow _) s).trans (.snoc .nil (Step.flow (s := ⟨s.flow, s.sig, _⟩) hf))
  | sig ha => exact .snoc .nil (.sig ha)
  | job h1 h2 => exact .snoc .nil (.job h1)

theorem fsteps_steps {s t : St σ} (h : FSteps next L path s t) : Steps next L s t := by
  induction h with
  | nil => exact .nil
  | snoc _ h ih => exact ih.trans (fstep_steps h)

theorem fstart_start {s : St σ} (h : FStart L path init src s) : Start L init src s := by
  cases h with
  | mk h1 h2 h3 h4 =>
    refine .mk h1 h2 h3 h4 ?_
    apply List.ext_getElem?
    intro k
    simp only [List.map_map, List.getElem?_map, Link.numbers]
    by_cases hk : k < L.net.items.length
    · rw [List.getElem?_range hk, List.getElem?_eq_getElem hk]
      simp only [Option.map_some, Function.comp, specOf, Link.isProg, List.getElem?_eq_getElem hk]
      cases L.net.items[k] <;> rfl
    · rw [List.getElem?_eq_none (by omega), List.getElem?_eq_none (by simp; omega)]
      rfl

/-! ### What an item writes -/

theorem out_step {net : Flow.Net} {s t : Flow.St σ} (h : Flow.Step next net s t) (k : Nat) :
    t.out k = s.out k ∨ (∃ b st, s.proc k = .running st ∧ t.out k = s.out k ++ [b] ∧ k < net.items.length) := by
  have key : ∀ (j : Nat) (st : σ) (b : UInt8), j < net.items.length → s.proc j = .running st →
      Flow.upd s.out j (s.out j ++ [b]) k = s.out k ∨ (∃ c st, s.proc k = .running st ∧ Flow.upd s.out j (s.out j ++ [b]) k = s.out k ++ [c] ∧ k < net.items.length) := by
    intro j st b hj hs
    simp only [Flow.upd]
    by_cases e : k = j
    · subst e; right; exact ⟨b, st, hs, by simp, hj⟩
    · left; simp [e]
  cases h with
  | write h0 h => exact key _ _ _ h0 h
  | writeExt h0 h => exact key _ _ _ h0 h
  | _ => exact .inl rfl

/-! ### The file -/

/-- Item `k`'s stdout is file `f`: it holds what the item has written. -/
structure Cap (L : Link) (k : Nat) (f : Job.Path) (str tm : Dict Nat Job.Path) (s : St σ) : Prop where
  item : ∃ it, Job.itemAt s.job L.job k = some it ∧ it.strings = str ∧ it.tmps = tm
  held : ∃ b, s.job.written.get? f = some (L.job, b) ∧ (s.job.fs.get? f ≠ none ∨ f ∈ str.map Prod.snd → b = s.flow.out k)

theorem good_of {b : Bool} {j : Job.St} (h : ∃ as, j = Job.run (Job.init b) as) : Job.Good j := by
  obtain ⟨as, rfl⟩ := h
  exact Job.good_run b as

theorem item_static {b : Bool} {j : Job.St} (h : ∃ as, j = Job.run (Job.init b) as) {p k : Nat} {it : Job.Item} (hit : Job.itemAt j p k = some it) (a : Job.Act) :
    ∃ it', Job.itemAt (Job.step j a) p k = some it' ∧ it'.strings = it.strings ∧ it'.tmps = it.tmps := by
  have hp : p < j.pipes.length := by
    cases e : j.pipes[p]? with
    | none => simp [Job.itemAt, Job.itemsOf, e] at hit
    | some P => exact (List.getElem?_eq_some_iff.1 e).1
  have hb := Job.items_back (Job.ext_step (good_of h).inv a) hp
  have := congrArg (fun l => l[k]?) hb
  simp only [List.getElem?_map] at this
  simp only [Job.itemAt] at hit ⊢
  rw [hit] at this
  cases e : (Job.itemsOf (Job.step j a).pipes p)[k]? with
  | none => rw [e] at this; cases this
  | some it' =>
    rw [e] at this
    simp only [Option.map_some, Job.kf, Option.some.injEq, Prod.mk.injEq] at this
    exact ⟨it', rfl, this.2.1, this.2.2⟩

variable {b : Bool} {m : Sig.Mgr}

/-- Steps of the jobs other than writing to the file. -/
theorem cap_job {k : Nat} {f : Job.Path} {str tm : Dict Nat Job.Path} {s : St σ} (hj : ∃ as, s.job = Job.run (Job.init b) as)
    (h : Cap L k f str tm s) (a : Job.Act) (ha : ∀ i d, a ≠ .write L.job i f d) (g : Sig.St) : Cap L k f str tm ⟨s.flow, g, Job.step s.job a⟩ := by
  obtain ⟨⟨it, i1, i2, i3⟩, c, h1, h2⟩ := h
  have hl := Job.leaves_step (good_of hj) (path := f) a (by rw [h1]; simp) (fun p i d e => ⟨_, _, h1, fun e2 => ha i d (by rw [e, e2])⟩)
  obtain ⟨it', j1, j2, j3⟩ := item_static hj i1 a
  refine ⟨⟨it', j1, j2.trans i2, j3.trans i3⟩, c, hl.1.trans h1, ?_⟩
  intro h
  apply h2
  rcases h with h | h
  · exact .inl (fun h0 => h (hl.2 h0))
  · exact .inr h

theorem cap_run {k : Nat} {f : Job.Path} {str tm : Dict Nat Job.Path} (as : List Job.Act) (has : ∀ a ∈ as, ∀ i d, a ≠ .write L.job i f d)
    {s : St σ} (hj : ∃ as, s.job = Job.run (Job.init b) as) (h : Cap L k f str tm s) (g : Sig.St) : Cap L k f str tm ⟨s.flow, g, Job.run s.job as⟩ := by
  induction as generalizing s with
  | nil => exact ⟨h.item, h.held⟩
  | cons a as ih =>
    exact ih (s := ⟨s.flow, g, Job.step s.job a⟩) (fun a h => has a (List.mem_cons_of_mem _ h)) (job_history hj [a])
      (cap_job hj h a (has a List.mem_cons_self) g)

theorem finishes_no_write (L : Link) (fn : Nat → Option Job.State) (f : Job.Path) : ∀ a ∈ L.finishes fn, ∀ i d, a ≠ .write L.job i f d := by
  intro a h i d e
  subst e
  simp only [Link.finishes, List.mem_filterMap] at h
  obtain ⟨k, -, h⟩ := h
  cases e : fn k <;> rw [e] at h <;> cases h

/-- An item at work is running, as far as the job knows. -/
theorem running_known {s : St σ} (h : Inv next L init src b m s) {k : Nat} (hk : k < L.net.items.length) {st : σ} (hr : s.flow.proc k = .running st)
    {it : Job.Item} (hit : Job.itemAt s.job L.job k = some it) : it.state = .running ∧ Job.Alive s.job.pipes L.job := by
  have hs := item_state (show (Job.itemsOf s.job.pipes L.job)[k]? = some it from hit)
  have key : it.state = .running ∧ (it.kind = .proc ∨ it.kind = .func) := by
    cases hp : L.isProg k with
    | true =>
      rcases prog_state h hp with h1 | ⟨c, h1, -⟩
      · rw [hs] at h1
        simp only [Option.some.injEq, Prod.mk.injEq] at h1
        exact ⟨h1.2, .inl h1.1⟩
      · rw [hr] at h1; cases h1
    | false =>
      have h1 : Job.stateAt s.job L.job k = _ := h.func k hk hp
      rw [hs, hr] at h1
      simp only [Option.some.injEq, Prod.mk.injEq] at h1
      exact ⟨h1.2, .inr h1.1⟩
  exact ⟨key.1, .mk (List.mem_of_getElem? (show (Job.itemsOf s.job.pipes L.job)[k]? = some it from hit)) (.own key.2 key.1)⟩

/-- What is written to the file of item `k`, the only one with a file. -/
theorem puts_one {k : Nat} {f : Job.Path} (hf : L.file path k = some f) (hone : ∀ j g, L.file path j = some g → j = k) (hk : k < L.net.items.length)
    (s t : Flow.St σ) : L.puts path s t = if t.out k = s.out k then [] else [.write L.job k f ((t.out k).drop (s.out k).length)] := by
  have gen : ∀ l : List Nat, l.Nodup → (l.filterMap fun k => match L.file path k with
      | some f => if t.out k = s.out k then none else some (Job.Act.write L.job k f ((t.out k).drop (s.out k).length))
      | none => none) = if k ∈ l then (if t.out k = s.out k then [] else [.write L.job k f ((t.out k).drop (s.out k).length)]) else [] := by
    intro l
    induction l with
    | nil => intro _; rfl
    | cons j l ih =>
      intro hn
      rw [List.nodup_cons] at hn
      rw [List.filterMap_cons, ih hn.2]
      by_cases e : j = k
      · subst e
        rw [hf]
        simp only [List.mem_cons_self, if_true, if_neg hn.1]
        by_cases e2 : t.out j = s.out j <;> simp [e2]
      · have : L.file path j = none := by
          cases e2 : L.file path j with
          | none => rfl
          | some g => exact absurd (hone j g e2) e
        rw [this]
        simp only [List.mem_cons, Ne.symm e, false_or]
  have := gen L.numbers (numbers_nodup L)
  rw [if_pos ((mem_numbers L k).2 hk)] at this
  exact this

theorem cap_step {k : Nat} {f : Job.Path} {str tm : Dict Nat Job.Path} (hf : L.file path k = some f) (hone : ∀ j g, L.file path j = some g → j = k)
    (hk : k < L.net.items.length) (hmem : f ∈ str.map Prod.snd ∨ f ∈ tm.map Prod.snd) {s t : St σ} (hi : Inv next L init src b m s) (h : Cap L k f str tm s)
    (hst : FStep next L path s t) : Cap L k f str tm t := by
  cases hst with
  | sig ha => exact cap_run _ (finishes_no_write L _ f) hi.job h _
  | job h1 h2 => exact cap_job hi.job h _ (fun i d => h2 k f i d hf) _
  | @flow u hu =>
    rw [puts_one hf hone hk]
    refine cap_run (s := ⟨u, s.sig, _⟩) _ (finishes_no_write L _ f) (job_history hi.job _) ?_ _
    rcases out_step hu k with e | ⟨c, st, e1, e2, -⟩
    · rw [if_pos e]
      refine ⟨h.item, ?_⟩
      obtain ⟨b, h1, h2⟩ := h.held
      exact ⟨b, h1, fun h => (h2 h).trans e.symm⟩
    · have hne : u.out k ≠ s.flow.out k := by rw [e2]; simp
      have hd : (u.out k).drop (s.flow.out k).length = [c] := by rw [e2]; simp
      rw [if_neg hne, hd]
      obtain ⟨⟨it, i1, i2, i3⟩, b0, h1, h2⟩ := h
      obtain ⟨hrun, hal⟩ := running_known hi hk e1 i1
      obtain ⟨it', j1, j2, j3⟩ := item_static hi.job i1 (.write L.job k f [c])
      refine ⟨⟨it', j1, j2.trans i2, j3.trans i3⟩, ?_⟩
      have hpath : f ∈ it.strings.map Prod.snd ∨ f ∈ it.tmps.map Prod.snd := by rw [i2, i3]; exact hmem
      show ∃ b, (Job.step s.job (.write L.job k f [c])).written.get? f = some (L.job, b) ∧
        ((Job.step s.job (.write L.job k f [c])).fs.get? f ≠ none ∨ f ∈ str.map Prod.snd → b = u.out k)
      by_cases hfs : s.job.fs.get? f = none
      · -- the file has been removed
        rw [Job.write_gone hfs]
        refine ⟨b0, h1, ?_⟩
        rintro (h | h)
        · exact absurd hfs h
        · exfalso
          obtain ⟨as, e⟩ := hi.job
          have hm : it ∈ Job.itemsOf s.job.pipes L.job := List.mem_of_getElem? (show (Job.itemsOf s.job.pipes L.job)[k]? = some it from i1)
          rw [e] at hal hm hfs
          rw [← i2] at h
          obtain ⟨kv, k1, k2⟩ := List.mem_map.1 h
          have := (Job.C49_not_before b as L.job hal it hm).2 kv k1
          rw [k2, hfs] at this
          cases this
      · refine ⟨b0 ++ [c], Job.write_takes i1 hrun hpath hfs h1, fun _ => ?_⟩
        rw [h2 (.inl hfs), e2]

theorem cap_start {k : Nat} {f : Job.Path} {x : Item} (hx : L.net.items[k]? = some x)
    (hmem : f ∈ (specOf path x).strings.map Prod.snd ∨ f ∈ (specOf path x).tmps.map Prod.snd) {s : St σ} (h : FStart L path init src s) :
    Cap L k f (specOf path x).strings (specOf path x).tmps s := by
  cases h with
  | @mk b m as bs h1 h2 h3 h4 =>
    have hst : Job.step (Job.run (Job.init b) as) (.start (L.net.items.map (specOf path))) = Job.started (Job.run (Job.init b) as) (L.net.items.map (specOf path)) :=
      Job.start_eq (Job.inv_run b as) h4
    refine ⟨⟨(specOf path x).item, ?_, rfl, rfl⟩, [], ?_, fun _ => rfl⟩
    · show Job.itemAt (Job.step _ _) _ _ = _
      rw [hst, h3]
      simp [Job.itemAt, Job.started, Job.itemsOf, Job.newPipe, hx]
    · show (Job.step _ _).written.get? f = _
      rw [hst]
      show (Job.addFiles _ _ _).get? f = _
      rw [Job.addFiles, Job.addFiles_get, if_pos, h3]
      refine List.mem_flatMap.2 ⟨specOf path x, List.mem_map_of_mem (List.mem_of_getElem? hx), ?_⟩
      exact List.mem_append.2 hmem

theorem cap_steps {k : Nat} {f : Job.Path} {x : Item} (hx : L.net.items[k]? = some x) (hf : L.file path k = some f)
    (hone : ∀ j g, L.file path j = some g → j = k)
    (hmem : f ∈ (specOf path x).strings.map Prod.snd ∨ f ∈ (specOf path x).tmps.map Prod.snd) {s0 s : St σ} (h0 : FStart L path init src s0)
    (hs : FSteps next L path s0 s) : ∃ b m, Inv next L init src b m s ∧ Cap L k f (specOf path x).strings (specOf path x).tmps s := by
  obtain ⟨b, m, hi0⟩ := inv_start (next := next) (fstart_start h0)
  refine ⟨b, m, ?_⟩
  induction hs with
  | nil => exact ⟨hi0, cap_start hx hmem h0⟩
  | snoc _ h2 ih => exact ⟨inv_steps' ih.1 (fstep_steps h2), cap_step hf hone (List.getElem?_eq_some_iff.1 hx).1 hmem ih.1 ih.2 h2⟩

end Whole
end Pieshell
