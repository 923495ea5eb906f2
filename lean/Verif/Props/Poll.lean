import Verif.Lemmas.Poll
import Verif.Spec.Poll
/-!
# Functions redirected from and to files (C119)

"A function or an iterator can be redirected from and to files as a program can": false, because the event loop cannot wait for regular files.
-/
namespace Pieshell.Poll

theorem Prepared.startable {sys : Sys} {cwd : Str} {w : World} {rs : Redirects} {p : Pipeline} {i : Obj} {o e : Want} (h : Prepared sys cwd w rs p i o e)
    (hq : (refRun cwd p i o e w.ctr).items.all (RItem.polls sys) = true) : Startable sys cwd w rs p i o e := ⟨h.room, h.out, h.err, h.shape, h.low, hq⟩

/-- **C119, what happens exactly.** If the event loop cannot wait for what some function or iterator of the pipeline would be connected to, starting the pipeline raises PermissionError; the items before the first such
one have been started and are running, nothing else has; nothing that was open has been closed. -/
theorem C119_exact_partial (sys : Sys) (cwd : Str) (p : Pipeline) (rs : Redirects) (w : World) (i : Obj) (o e : Want) (h : Prepared sys cwd w rs p i o e)
    (hq : (refRun cwd p i o e w.ctr).items.all (RItem.polls sys) = false) :
    ∃ w', runP sys cwd p rs w = (.error (.osError 1), w') ∧
      w'.started = w.started ++ ((refRun cwd p i o e w.ctr).items.takeWhile (RItem.polls sys)).map RItem.id ∧
      ∀ fd, w.fds.get fd ≠ none → w'.fds.get fd = w.fds.get fd := by
  obtain ⟨⟨H, L, hr, hl, hstd⟩, ho, he, hsh, hlow⟩ := h
  exact run_fails sys cwd p hsh hr hl hstd ho he hlow hq

/-- **C119.** It is started if and only if the event loop can wait for everything that functions and iterators are connected to. -/
theorem C119_iff_partial (sys : Sys) (cwd : Str) (p : Pipeline) (rs : Redirects) (w : World) (i : Obj) (o e : Want) (h : Prepared sys cwd w rs p i o e) :
    (∃ items rs' w', runP sys cwd p rs w = (.ok (items, rs'), w')) ↔ ∀ m ∈ (refRun cwd p i o e w.ctr).items, RItem.polls sys m = true := by
  rw [← List.all_eq_true]
  constructor
  · rintro ⟨items, rs', w', hok⟩
    cases hq : (refRun cwd p i o e w.ctr).items.all (RItem.polls sys) with
    | true => rfl
    | false =>
      obtain ⟨w'', h1, -⟩ := C119_exact_partial sys cwd p rs w i o e h hq
      rw [h1] at hok
      cases hok
  · intro hq
    obtain ⟨⟨H, L, hr, hl, hstd⟩, ho, he, hsh, hlow⟩ := h
    obtain ⟨items, rs', w', ul, lk, hrun, -⟩ := run_spec sys cwd p hsh hr hl hstd ho he hlow hq
    exact ⟨items, rs', w', hrun⟩

mutual
theorem only_programs (sys : Sys) (cwd : Str) : (p : Pipeline) → p.onlyPrograms = true → ∀ i o e c, (refRun cwd p i o e c).items.all (RItem.polls sys) = true
  | .command id args, h, i, o, e, c => by
    simp only [refRun, List.all_append, only_programs_args sys cwd args (by simpa [Pipeline.onlyPrograms] using h)]; rfl
  | .func id, h, _, _, _, _ => by cases h
  | .iter id, h, _, _, _, _ => by cases h
  | .pipe a b, h, i, o, e, c => by
    simp only [Pipeline.onlyPrograms, Bool.and_eq_true] at h
    simp only [refRun, List.all_append, only_programs sys cwd a h.1, only_programs sys cwd b h.2]; rfl
  | .group a b, h, i, o, e, c => by
    simp only [Pipeline.onlyPrograms, Bool.and_eq_true] at h
    simp only [refRun, List.all_append, only_programs sys cwd a h.1, only_programs sys cwd b h.2]; rfl
  | .redirect p crs, h, i, o, e, c => by
    simp only [refRun]; exact only_programs sys cwd p (by simpa [Pipeline.onlyPrograms] using h) _ _ _ _
theorem only_programs_args (sys : Sys) (cwd : Str) : (a : Args) → a.onlyPrograms = true → ∀ i o e c, (refArgs cwd a i o e c).items.all (RItem.polls sys) = true
  | .nil, _, _, _, _, _ => rfl
  | .word ws rest, h, i, o, e, c => by simp only [refArgs]; exact only_programs_args sys cwd rest (by simpa [Args.onlyPrograms] using h) _ _ _ _
  | .pipeArg pre p rest, h, i, o, e, c => by
    simp only [Args.onlyPrograms, Bool.and_eq_true] at h
    simp only [refArgs, List.all_append, only_programs sys cwd p h.1, only_programs_args sys cwd rest h.2]; rfl
  | .funcArg .., h, _, _, _, _ => by cases h
end

/-- **C119.** Pipelines of programs only are not concerned: they are started whatever they are redirected from and to. -/
theorem C119_programs_partial (sys : Sys) (cwd : Str) (p : Pipeline) (rs : Redirects) (w : World) (i : Obj) (o e : Want) (h : Prepared sys cwd w rs p i o e) (hp : p.onlyPrograms = true) :
    ∃ items rs' w', runP sys cwd p rs w = (.ok (items, rs'), w') ∧ items.map Item.id = p.ids := by
  obtain ⟨items, rs', w', hrun⟩ := (C119_iff_partial sys cwd p rs w i o e h).2 (List.all_eq_true.1 (only_programs sys cwd p hp _ _ _ _))
  exact ⟨items, rs', w', hrun, (C16_items_are_the_leaves_in_order sys cwd _ _ _ _ _ _ hrun).1⟩

theorem python_writes (cwd : Str) : (p : Pipeline) → p.endsInPython = true → ∀ i o e c, ∃ id j c', .func id j (o.pick c').1 ∈ (refRun cwd p i o e c).items
  | .command id args, h, _, _, _, _ => by cases h
  | .func id, _, i, o, e, c => ⟨id, some i, c, by simp [refRun]⟩
  | .iter id, _, i, o, e, c => ⟨id, none, c, by simp [refRun]⟩
  | .pipe a b, h, i, o, e, c => by
    obtain ⟨id, j, c', hm⟩ := python_writes cwd b (by simpa [Pipeline.endsInPython] using h) (.pipeR (refRun cwd a i .pipeOut e c).out) o e (refRun cwd a i .pipeOut e c).ctr
    exact ⟨id, j, c', by simp only [refRun]; exact List.mem_append_right _ hm⟩
  | .group a b, h, i, o, e, c => by
    obtain ⟨id, j, c', hm⟩ := python_writes cwd b (by simpa [Pipeline.endsInPython] using h) i o e (refRun cwd a i o e c).ctr
    exact ⟨id, j, c', by simp only [refRun]; exact List.mem_append_right _ hm⟩
  | .redirect p crs, h, i, o, e, c => by
    simp only [Pipeline.endsInPython, Bool.and_eq_true, Option.isNone_iff_eq_none] at h
    obtain ⟨id, j, c', hm⟩ := python_writes cwd p h.1 (crs.overIn cwd i) o (crs.over cwd 2 e) c
    refine ⟨id, j, c', ?_⟩
    simp only [refRun, Redirects.over, h.2, orWant] at hm ⊢
    exact hm

theorem python_reads (cwd : Str) : (p : Pipeline) → p.beginsWithFunction = true → ∀ i o e c, ∃ id x, .func id (some i) x ∈ (refRun cwd p i o e c).items
  | .command id args, h, _, _, _, _ => by cases h
  | .func id, _, i, o, e, c => ⟨id, _, by simp only [refRun]; exact List.mem_cons_self⟩
  | .iter id, h, _, _, _, _ => by cases h
  | .pipe a b, h, i, o, e, c => by
    obtain ⟨id, j, hm⟩ := python_reads cwd a (by simpa [Pipeline.beginsWithFunction] using h) i .pipeOut e c
    exact ⟨id, j, by simp only [refRun]; exact List.mem_append_left _ hm⟩
  | .group a b, h, i, o, e, c => by
    obtain ⟨id, j, hm⟩ := python_reads cwd a (by simpa [Pipeline.beginsWithFunction] using h) i o e c
    exact ⟨id, j, by simp only [refRun]; exact List.mem_append_left _ hm⟩
  | .redirect p crs, h, i, o, e, c => by
    simp only [Pipeline.beginsWithFunction, Bool.and_eq_true, Option.isNone_iff_eq_none] at h
    obtain ⟨id, j, hm⟩ := python_reads cwd p h.1 i (crs.over cwd 1 o) (crs.over cwd 2 e) c
    refine ⟨id, j, ?_⟩
    have hi : crs.overIn cwd i = i := by simp [Redirects.overIn, orIn, orWant, h.2]
    simp only [refRun, hi]
    exact hm

/-- **C119 is false for outputs**: redirecting a pipeline that ends in a function or an iterator to a regular file, `/dev/null` or a temporary file (`TMP`, `STRING`) raises PermissionError. -/
theorem C119_output_refuted (sys : Sys) (cwd : Str) (p : Pipeline) (crs rs : Redirects) (w : World) (i : Obj) (o e : Want) (h : Prepared sys cwd w rs (.redirect p crs) i o e)
    (hp : p.endsInPython = true) (r : Redirect) (hr : Dict.get? crs 1 = some r) (hu : r.Unwaitable sys cwd) :
    ∃ w', runP sys cwd (.redirect p crs) rs w = (.error (.osError 1), w') := by
  obtain ⟨id, j, c', hm⟩ := python_writes cwd p hp (crs.overIn cwd i) (crs.over cwd 1 o) (crs.over cwd 2 e) w.ctr
  have hx : RItem.polls sys (.func id j ((crs.over cwd 1 o).pick c').1) = false := by
    have : sys.polls ((crs.over cwd 1 o).pick c').1 = false := by
      rcases hu with ⟨path, h1, h2⟩ | h1 | h1 <;> simp [Redirects.over, orWant, hr, Redirect.want, h1, Want.pick, Sys.polls]
      exact h2
    simp [RItem.polls, this]
  obtain ⟨w', h1, -⟩ := C119_exact_partial sys cwd _ rs w i o e h (by
    rw [List.all_eq_false]
    exact ⟨_, hm, by simp [hx]⟩)
  exact ⟨w', h1⟩

/-- **C119 is false for inputs**: redirecting the input of a pipeline that begins with a function to a regular file (`"file" | f`) or `/dev/null` (`None | f`) raises PermissionError. -/
theorem C119_input_refuted (sys : Sys) (cwd : Str) (p : Pipeline) (crs rs : Redirects) (w : World) (i : Obj) (o e : Want) (h : Prepared sys cwd w rs (.redirect p crs) i o e)
    (hp : p.beginsWithFunction = true) (r : Redirect) (hr : Dict.get? crs 0 = some r) (path : Str) (hs : r.source = .path path) (hf : sys.special cwd path = false) :
    ∃ w', runP sys cwd (.redirect p crs) rs w = (.error (.osError 1), w') := by
  obtain ⟨id, x, hm⟩ := python_reads cwd p hp (crs.overIn cwd i) (crs.over cwd 1 o) (crs.over cwd 2 e) w.ctr
  have hx : RItem.polls sys (.func id (some (crs.overIn cwd i)) x) = false := by
    simp [RItem.polls, Redirects.overIn, orIn, orWant, hr, Redirect.want, hs, Sys.polls, hf]
  obtain ⟨w', h1, -⟩ := C119_exact_partial sys cwd _ rs w i o e h (by
    rw [List.all_eq_false]
    exact ⟨_, hm, by simp [hx]⟩)
  exact ⟨w', h1⟩

namespace Ex
theorem prepared (p : Pipeline) (h : p.cost ≤ 1020) (hp : p.Redirectable RunEx.sys []) : Prepared RunEx.sys [] RunEx.world defaultRedirects p (.inherited 0) (.obj (.inherited 1)) .tmp where
  room := ⟨3, 1023, RunEx.room, by omega, ⟨_, _, _, rfl, rfl, rfl, rfl, .inl ⟨0, RunEx.inh 0, rfl, by rw [RunEx.get_world]; rfl, rfl, by decide⟩,
    .inl ⟨1, RunEx.inh 1, rfl, by rw [RunEx.get_world]; rfl, rfl, by decide⟩, ⟨.inl rfl, by decide⟩⟩, by decide⟩
  out := trivial
  err := trivial
  shape := hp
  low := .inr (RunEx.low RunEx.world (fun _ => rfl) defaultRedirects (by decide))
theorem simple {f : Str} : ∀ r ∈ Dict.values (RunEx.to_ f), r.Simple RunEx.sys [] := by
  intro r hr; simp [Dict.values, RunEx.to_] at hr; subst hr; exact .inl ⟨_, rfl, rfl, by simp⟩
theorem simple' {f : Str} : ∀ r ∈ Dict.values (RunEx.from_ f), r.Simple RunEx.sys [] := by
  intro r hr; simp [Dict.values, RunEx.from_] at hr; subst hr; exact .inl ⟨_, rfl, rfl, by simp⟩
/-- `(a | f) > "out"` -/
def out : Pipeline := .redirect (.pipe (.command 1 .nil) (.func 2)) (RunEx.to_ c!"out")
theorem out_prepared : Prepared RunEx.sys [] RunEx.world defaultRedirects out (.inherited 0) (.obj (.inherited 1)) .tmp :=
  prepared _ (by decide) ⟨⟨trivial, trivial, rfl⟩, RunEx.built _ rfl, simple⟩
end Ex

/-- `(a | f) > "out"` raises PermissionError after `a` has been started. -/
example : ∃ w', runP RunEx.sys [] Ex.out defaultRedirects RunEx.world = (.error (.osError 1), w') ∧ w'.started = [1] := by
  obtain ⟨w', h1, h2, -⟩ := C119_exact_partial _ _ _ _ _ _ _ _ Ex.out_prepared (by decide +kernel)
  exact ⟨w', h1, by rw [h2]; decide +kernel⟩

/-- `a | f` can be started; `a | (f > "out")` cannot. -/
example : (∃ items rs' w', runP RunEx.sys [] (.pipe (.command 1 .nil) (.func 2)) defaultRedirects RunEx.world = (.ok (items, rs'), w')) ∧
    ¬ ∃ items rs' w', runP RunEx.sys [] (.pipe (.command 1 .nil) (.redirect (.func 2) (RunEx.to_ c!"out"))) defaultRedirects RunEx.world = (.ok (items, rs'), w') := by
  constructor
  · exact (C119_iff_partial _ _ _ _ _ _ _ _ (Ex.prepared (.pipe (.command 1 .nil) (.func 2)) (by decide) ⟨trivial, trivial, rfl⟩)).2 (by decide +kernel)
  · rw [C119_iff_partial _ _ _ _ _ _ _ _ (Ex.prepared (.pipe (.command 1 .nil) (.redirect (.func 2) (RunEx.to_ c!"out"))) (by decide) ⟨trivial, ⟨trivial, RunEx.built _ rfl, Ex.simple⟩, rfl⟩)]
    decide +kernel

/-- `("in" | a | b) > "out"`, of programs only -/
example : Prepared RunEx.sys [] RunEx.world defaultRedirects (.redirect (.pipe (.redirect (.command 1 .nil) (RunEx.from_ c!"in")) (.command 2 .nil)) (RunEx.to_ c!"out"))
      (.inherited 0) (.obj (.inherited 1)) .tmp ∧
    (Pipeline.redirect (.pipe (.redirect (.command 1 .nil) (RunEx.from_ c!"in")) (.command 2 .nil)) (RunEx.to_ c!"out")).onlyPrograms = true :=
  ⟨Ex.prepared _ (by decide) ⟨⟨⟨trivial, RunEx.built _ rfl, Ex.simple'⟩, trivial, rfl⟩, RunEx.built _ rfl, Ex.simple⟩, rfl⟩

/-- the hypotheses of `C119_output_refuted` -/
example : Prepared RunEx.sys [] RunEx.world defaultRedirects Ex.out (.inherited 0) (.obj (.inherited 1)) .tmp ∧
    (Pipeline.pipe (.command 1 .nil) (.func 2)).endsInPython = true ∧ ∃ r, Dict.get? (RunEx.to_ c!"out") 1 = some r ∧ r.Unwaitable RunEx.sys [] :=
  ⟨Ex.out_prepared, rfl, _, rfl, .inl ⟨_, rfl, rfl⟩⟩

/-- `"in" | f | a` -/
example : Prepared RunEx.sys [] RunEx.world defaultRedirects (.redirect (.pipe (.func 2) (.command 1 .nil)) (RunEx.from_ c!"in")) (.inherited 0) (.obj (.inherited 1)) .tmp ∧
    (Pipeline.pipe (.func 2) (.command 1 .nil)).beginsWithFunction = true ∧ ∃ r, Dict.get? (RunEx.from_ c!"in") 0 = some r ∧ r.source = .path c!"in" ∧ RunEx.sys.special [] c!"in" = false :=
  ⟨Ex.prepared _ (by decide) ⟨⟨trivial, trivial, rfl⟩, RunEx.built _ rfl, Ex.simple'⟩, rfl, _, rfl, rfl, rfl⟩

end Pieshell.Poll
