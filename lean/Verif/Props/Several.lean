import Verif.Lemmas.Several
import Verif.Props.Exec
/-!
# Several environments in one pipeline (C117), and pipelines that cannot be started (C118)
-/
namespace Pieshell.Several

/-! ## C117 -/

theorem runFunc_func {sys : Sys} {cwd : Str} {id : Nat} {takes : Bool} {rs rs' : Redirects} {w w' : World} {items : List Item}
    (h : runFunc sys cwd id takes rs w = (.ok (items, rs'), w')) : ∃ a b m, items = [.func id a b m] := by
  unfold runFunc at h
  obtain ⟨m, w1, h1, h⟩ := RunM.bind_inv h
  obtain ⟨inFd, w2, h2, h⟩ := RunM.bind_inv h
  obtain ⟨r, w3, h3, h⟩ := RunM.bind_inv h
  obtain ⟨outFd, w4, h4, h⟩ := RunM.bind_inv h
  obtain ⟨_, w4', h4', h⟩ := RunM.bind_inv h
  obtain ⟨_, w5, h5, h⟩ := RunM.bind_inv h
  obtain ⟨_, w6, h6, h⟩ := RunM.bind_inv h
  obtain ⟨hp, rfl⟩ := RunM.pure_inv h
  cases hp
  exact ⟨_, _, _, rfl⟩

theorem started_func {sys : Sys} {cwd : Str} {id : Nat} {takes : Bool} {rs rs' : Redirects} {w w' : World} {items : List Item} (k : Exec.Kernel) (sh : Shell) (env : Nat)
    (h : runFunc sys cwd id takes rs w = (.ok (items, rs'), w')) : Pointwise (StartedFor k sh) (items.map (⟨·, env⟩)) [.python env id] := by
  obtain ⟨a, b, m, rfl⟩ := runFunc_func h
  exact .cons ⟨rfl, rfl⟩ .nil

theorem spells (argv : List Word) : Pointwise Spells argv (argv.map wordText) := by
  induction argv with
  | nil => exact .nil
  | cons x l ih =>
    refine .cons ?_ ih
    cases x with
    | lit s => exact .lit s
    | devfd pre n =>
      have := Spells.dev pre n
      rw [← List.append_assoc] at this
      exact this

theorem spells_lit {texts l : List Str} (h : Pointwise Spells (texts.map .lit) l) : l = texts := by
  induction texts generalizing l with
  | nil => cases h; rfl
  | cons x t ih => cases h with | cons h1 h2 => cases h1; rw [ih h2]

mutual
theorem started_for (k : Exec.Kernel) (sys : Sys) (sh : Shell) : (p : Px) → (rs rs' : Redirects) → (w w' : World) → (xs : List Run) →
    runX sys sh p rs w = (.ok (xs, rs'), w') → Pointwise (StartedFor k sh) xs p.leaves
  | .command env id args, rs, rs', w, w', xs, h => by
    unfold runX at h
    obtain ⟨m, w1, h1, h⟩ := RunM.bind_inv h
    obtain ⟨⟨its, argv, rs2⟩, w2, h2, h⟩ := RunM.bind_inv h
    obtain ⟨t, w3, h3, h⟩ := RunM.bind_inv h
    obtain ⟨_, w4, h4, h⟩ := RunM.bind_inv h
    obtain ⟨_, w5, h5, h⟩ := RunM.bind_inv h
    obtain ⟨hp, rfl⟩ := RunM.pure_inv h
    have ⟨e1, e2⟩ := started_args k sys sh env args _ _ _ _ _ _ _ h2
    cases hp
    exact e1.append (.cons ⟨rfl, argv, argv.map wordText, e2, spells argv, by rw [List.map_map]; rfl⟩ .nil)
  | .func env id, rs, rs', w, w', xs, h => by
    unfold runX at h
    obtain ⟨⟨ys, r⟩, w1, h1, h⟩ := RunM.bind_inv h
    obtain ⟨hp, rfl⟩ := RunM.pure_inv h
    cases hp
    exact started_func k sh env h1
  | .iter env id, rs, rs', w, w', xs, h => by
    unfold runX at h
    obtain ⟨⟨ys, r⟩, w1, h1, h⟩ := RunM.bind_inv h
    obtain ⟨hp, rfl⟩ := RunM.pure_inv h
    cases hp
    exact started_func k sh env h1
  | .pipe _ a b, rs, rs', w, w', items, h => by
    unfold runX at h
    obtain ⟨ta, w1, h1, h⟩ := RunM.bind_inv h
    obtain ⟨⟨xs, ra⟩, w2, h2, h⟩ := RunM.bind_inv h
    obtain ⟨so, w3, h3, h⟩ := RunM.bind_inv h
    obtain ⟨tb, w4, h4, h⟩ := RunM.bind_inv h
    obtain ⟨⟨ys, rb⟩, w5, h5, h⟩ := RunM.bind_inv h
    obtain ⟨_, w6, h6, h⟩ := RunM.bind_inv h
    obtain ⟨_, w7, h7, h⟩ := RunM.bind_inv h
    obtain ⟨_, w8, h8, h⟩ := RunM.bind_inv h
    obtain ⟨_, w9, h9, h⟩ := RunM.bind_inv h
    obtain ⟨_, w10, h10, h⟩ := RunM.bind_inv h
    obtain ⟨_, w11, h11, h⟩ := RunM.bind_inv h
    obtain ⟨hp, rfl⟩ := RunM.pure_inv h
    cases hp
    exact (started_for k sys sh a _ _ _ _ _ h2).append (started_for k sys sh b _ _ _ _ _ h5)
  | .group _ a b, rs, rs', w, w', items, h => by
    unfold runX at h
    obtain ⟨⟨xs, ra⟩, w2, h2, h⟩ := RunM.bind_inv h
    obtain ⟨⟨ys, rb⟩, w5, h5, h⟩ := RunM.bind_inv h
    obtain ⟨_, w6, h6, h⟩ := RunM.bind_inv h
    obtain ⟨_, w11, h11, h⟩ := RunM.bind_inv h
    obtain ⟨hp, rfl⟩ := RunM.pure_inv h
    cases hp
    exact (started_for k sys sh a _ _ _ _ _ h2).append (started_for k sys sh b _ _ _ _ _ h5)
  | .redirect _ p crs, rs, rs', w, w', items, h => by
    unfold runX at h
    obtain ⟨m, w1, h1, h⟩ := RunM.bind_inv h
    exact started_for k sys sh p _ _ _ _ _ h
theorem started_args (k : Exec.Kernel) (sys : Sys) (sh : Shell) (env : Nat) : (a : Ax) → (orig rs rs' : Redirects) → (w w' : World) → (xs : List Run) → (argv : List Word) →
    runAx sys sh env a orig rs w = (.ok (xs, argv, rs'), w') → Pointwise (StartedFor k sh) xs (a.leaves env) ∧ WordsIn sh env a argv
  | .nil, orig, rs, rs', w, w', xs, argv, h => by
    unfold runAx at h
    obtain ⟨hp, rfl⟩ := RunM.pure_inv h
    cases hp
    exact ⟨.nil, .nil⟩
  | .text pre s rest, orig, rs, rs', w, w', xs, argv, h => by
    unfold runAx at h
    obtain ⟨ws, w1, h1, h⟩ := RunM.bind_inv h
    obtain ⟨⟨ys, v, r⟩, w2, h2, h⟩ := RunM.bind_inv h
    obtain ⟨hp, rfl⟩ := RunM.pure_inv h
    cases hp
    have ⟨a1, a2⟩ := started_args k sys sh env rest _ _ _ _ _ _ _ h2
    exact ⟨a1, .text (RunM.lift_inv h1).1 a2⟩
  | .raw pre s rest, orig, rs, rs', w, w', xs, argv, h => by
    unfold runAx at h
    obtain ⟨⟨ys, v, r⟩, w2, h2, h⟩ := RunM.bind_inv h
    obtain ⟨hp, rfl⟩ := RunM.pure_inv h
    cases hp
    have ⟨a1, a2⟩ := started_args k sys sh env rest _ _ _ _ _ _ _ h2
    exact ⟨a1, .raw a2⟩
  | .flag s rest, orig, rs, rs', w, w', xs, argv, h => by
    unfold runAx at h
    obtain ⟨⟨ys, v, r⟩, w2, h2, h⟩ := RunM.bind_inv h
    obtain ⟨hp, rfl⟩ := RunM.pure_inv h
    cases hp
    have ⟨a1, a2⟩ := started_args k sys sh env rest _ _ _ _ _ _ _ h2
    exact ⟨a1, .flag a2⟩
  | .pipeArg pre p rest, orig, rs, rs', w, w', xs, argv, h => by
    unfold runAx at h
    obtain ⟨ta, w1, h1, h⟩ := RunM.bind_inv h
    obtain ⟨⟨zs, ra⟩, w2, h2, h⟩ := RunM.bind_inv h
    obtain ⟨so, w3, h3, h⟩ := RunM.bind_inv h
    obtain ⟨rs1, w4, h4, h⟩ := RunM.bind_inv h
    obtain ⟨⟨ys, v, r⟩, w5, h5, h⟩ := RunM.bind_inv h
    obtain ⟨hp, rfl⟩ := RunM.pure_inv h
    cases hp
    have ⟨a1, a2⟩ := started_args k sys sh env rest _ _ _ _ _ _ _ h5
    exact ⟨(started_for k sys sh p _ _ _ _ _ h2).append a1, .pipeArg _ a2⟩
  | .funcArg pre id rest, orig, rs, rs', w, w', xs, argv, h => by
    unfold runAx at h
    obtain ⟨ta, w1, h1, h⟩ := RunM.bind_inv h
    obtain ⟨⟨zs, ra⟩, w2, h2, h⟩ := RunM.bind_inv h
    obtain ⟨so, w3, h3, h⟩ := RunM.bind_inv h
    obtain ⟨rs1, w4, h4, h⟩ := RunM.bind_inv h
    obtain ⟨⟨ys, v, r⟩, w5, h5, h⟩ := RunM.bind_inv h
    obtain ⟨hp, rfl⟩ := RunM.pure_inv h
    cases hp
    have ⟨a1, a2⟩ := started_args k sys sh env rest _ _ _ _ _ _ _ h5
    exact ⟨(started_func k sh env h2).append a1, .funcArg _ a2⟩
end

/-- **C117.** Whenever a pipeline has been started - of any shape, with commands of any environments, in any state - what has been started are its commands and functions, from left to
right (those in arguments before the command), and each command is executed with its arguments expanded in its own environment, the variables exported by this environment, in its directory. -/
theorem C117_own_environment (k : Exec.Kernel) (sys : Sys) (sh sh' : Shell) (p : Px) (extra : List Redirect) (n : Nat) (w w' : World) (xs : List Run)
    (h : runTop sys sh p extra n w = (.ok xs, sh', w')) : Pointwise (StartedFor k sh) xs p.leaves := by
  unfold runTop at h
  split at h
  · cases h
  · rename_i ys r w1 hx
    cases h
    obtain ⟨rs, w2, h1, h2⟩ := RunM.bind_inv hx
    exact started_for k sys sh p _ _ _ _ _ h2

/-- Words without pipelines are determined by the environment. -/
theorem WordsIn.words {sh : Shell} {env : Nat} {args : Ax} {argv : List Word} (h : WordsIn sh env args argv) {texts : List Str} (ht : Texts sh env args texts) :
    argv = texts.map .lit := by
  induction h generalizing texts with
  | nil => cases ht; rfl
  | text h1 _ ih =>
    cases ht with
    | text h2 h3 =>
      rw [h1] at h2
      cases h2
      rw [ih h3, List.map_append, List.map_map]
      rfl
  | raw _ ih => cases ht with | raw h3 => rw [ih h3]; rfl
  | flag _ ih => cases ht with | flag h3 => rw [ih h3]; rfl
  | pipeArg _ _ _ => cases ht
  | funcArg _ _ _ => cases ht

/-- **C117.** In particular: a started command whose words, in its environment, are `file` (without a slash) and `words`, becomes the first program of this name in the `PATH` of its environment, with these words,
exactly the variables of its environment, in the directory of its environment - whatever the other commands of the pipeline, and their environments, are. -/
theorem C117_program (k : Exec.Kernel) (sys : Sys) (sh sh' : Shell) (p : Px) (extra : List Redirect) (n : Nat) (w w' : World) (xs : List Run)
    (h : runTop sys sh p extra n w = (.ok xs, sh', w')) (j env id : Nat) (args : Ax) (hj : p.leaves[j]? = some (.program env id args))
    (file : Str) (words : List Str) (ht : Texts sh env args (file :: words)) (exports : Dict Str Str)
    (hx : (sh.envs env).exports = exports.map fun p => (p.1, .text p.2)) (path : Str) (dirs : List Str) (d : Str)
    (hf : Exec.Fine file words exports) (hs : '/' ∉ file) (hc : k.chdir (sh.envs env).cwd = none)
    (hp : (Dict.get? exports c!"PATH").getD c!"/bin:/usr/bin" = path) (hd : Exec.Spec.Parts path dirs)
    (hfirst : Exec.Spec.First (k.execve (sh.envs env).cwd) file dirs d) :
    ∃ r, xs[j]? = some r ∧ r.item.id = id ∧ childOf k sh r = some (.runs (Exec.Spec.entry d file) (file :: words) exports (sh.envs env).cwd) := by
  obtain ⟨r, hr, hr'⟩ := (C117_own_environment k sys sh sh' p extra n w w' xs h).get hj
  refine ⟨r, hr, hr'.1, ?_⟩
  obtain ⟨argv, l, h1, hl, h2⟩ := hr'.2
  rw [h1.words ht] at hl
  rw [h2, hx, spells_lit hl]
  exact congrArg some (Exec.C70_first_in_path k file words exports _ none path dirs d hf hs hc hp hd hfirst)

/-- **C117.** What a command becomes does not depend on other environments than its own. -/
theorem C117_independent (k : Exec.Kernel) (sh : Shell) (envs : Nat → Env) (env id : Nat) (args : Ax) (r r' : Run)
    (he : envs env = sh.envs env) (hr : StartedFor k sh r (.program env id args)) (hr' : StartedFor k { sh with envs := envs } r' (.program env id args))
    {texts : List Str} (ht : Texts sh env args texts) : childOf k { sh with envs := envs } r' = childOf k sh r := by
  obtain ⟨-, argv, l, h1, hl, h2⟩ := hr
  obtain ⟨-, argv', l', h1', hl', h2'⟩ := hr'
  have hc : Shell.ctx { sh with envs := envs } env = Shell.ctx sh env := by simp only [Shell.ctx, he]
  have ht' : Texts { sh with envs := envs } env args texts := by
    clear h1 h1' h2 h2' hl hl'
    induction ht with
    | nil => exact .nil
    | text h1 _ ih => exact .text (by rw [hc]; exact h1) ih
    | raw _ ih => exact .raw ih
    | flag _ ih => exact .flag ih
  rw [h1.words ht] at hl
  rw [h1'.words ht'] at hl'
  rw [h2, h2', spells_lit hl, spells_lit hl']
  simp only [he]

theorem made_env {p : Px} (hm : Made p) : p.envs.head? = some p.env := by
  induction hm with
  | command => rfl
  | @orP a b _ _ iha _ =>
    show (a.envs ++ b.envs).head? = some a.env
    cases hx : a.envs with
    | nil => rw [hx] at iha; cases iha
    | cons x l => rw [hx] at iha; simpa using iha
  | @orFunc a id _ iha =>
    show (a.envs ++ []).head? = some a.env
    rw [List.append_nil]; exact iha
  | iterOr _ ih => exact ih
  | redirect _ ih => exact ih
  | @add a b _ _ iha _ =>
    show (a.envs ++ b.envs).head? = some a.env
    cases hx : a.envs with
    | nil => rw [hx] at iha; cases iha
    | cons x l => rw [hx] at iha; simpa using iha

/-- **C117.** The pipeline becomes a job, and the last pipeline, of the environment of its leftmost command, and of no other. -/
theorem C117_job_of_the_leftmost (sys : Sys) (sh sh' : Shell) (p : Px) (extra : List Redirect) (n : Nat) (w w' : World) (xs : List Run) (hm : Made p)
    (h : runTop sys sh p extra n w = (.ok xs, sh', w')) :
    ∃ env, p.envs.head? = some env ∧ (sh'.envs env).jobs = (sh.envs env).jobs ++ [n] ∧ (sh'.envs env).last = some n ∧ ∀ i, i ≠ env → sh'.envs i = sh.envs i := by
  refine ⟨p.env, made_env hm, ?_⟩
  unfold runTop at h
  split at h
  · cases h
  · cases h
    refine ⟨by simp, by simp, fun i hi => by simp [hi]⟩

/-- **C117.** The default redirections are those of the environment of the leftmost command: the others' do not matter. -/
theorem C117_redirections_of_the_leftmost (sys : Sys) (sh : Shell) (p : Px) (extra : List Redirect) (n : Nat) (w : World) (rds : Nat → Redirects)
    (hm : Made p) (env : Nat) (he : p.envs.head? = some env) (h : rds env = (sh.envs env).redirects) :
    (runTop sys { sh with envs := fun i => { sh.envs i with redirects := rds i } } p extra n w).1 = (runTop sys sh p extra n w).1 ∧
    (runTop sys { sh with envs := fun i => { sh.envs i with redirects := rds i } } p extra n w).2.2 = (runTop sys sh p extra n w).2.2 := by
  obtain rfl : p.env = env := by rw [made_env hm] at he; exact Option.some.inj he
  have hr : ∀ q rs, runX sys { sh with envs := fun i => { sh.envs i with redirects := rds i } } q rs = runX sys sh q rs := fun q rs => run_redirects sys sh rds q rs
  unfold runTop
  simp only [hr, h]
  split <;> exact ⟨rfl, rfl⟩

/-! ## C118 -/

/-- **C118, what happens exactly.** When an argument cannot be expanded, the exception is raised; exactly the items that precede it have been started, and they are running; nothing that was open has been closed;
nothing is listed as a job. -/
theorem C118_exact_partial (sys : Sys) (sh : Shell) (p : Px) (extra : List Redirect) (n : Nat) (w : World) (rs : Redirects) (i : Obj) (o e : Want)
    (hrs : Redirects.new (.table (sh.envs p.env).redirects :: extra.map .one) = .ok rs)
    (hs : Startable sys sh.procCwd w rs (plain sh p) i o e) (l : List Nat) (ex : Exn) (h : outcome sh p = .stops l ex) :
    ∃ w', runTop sys sh p extra n w = (.error ex, sh, w') ∧ w'.started = w.started ++ l ∧ ∀ fd, w.fds.get fd ≠ none → w'.fds.get fd = w.fds.get fd := by
  obtain ⟨⟨H, L, hr, hl, hstd⟩, ho, he, hsh, hlow, hpo⟩ := hs
  obtain ⟨w', h1, h2, h3⟩ := fail_run sys sh p l ex h hsh hr hl hstd ho he hlow hpo
  refine ⟨w', ?_, h2, h3⟩
  unfold runTop
  rw [show (RunM.lift (Redirects.new (.table (sh.envs p.env).redirects :: extra.map .one)) >>= fun rs => runX sys sh p rs) w = _ from
    (RunM.bind_ok (lift_ok hrs w)).trans h1]

/-- **C118.** ... and otherwise everything is started. -/
theorem C118_otherwise_partial (sys : Sys) (sh : Shell) (p : Px) (extra : List Redirect) (n : Nat) (w : World) (rs : Redirects) (i : Obj) (o e : Want)
    (hrs : Redirects.new (.table (sh.envs p.env).redirects :: extra.map .one) = .ok rs)
    (hs : Startable sys sh.procCwd w rs (plain sh p) i o e) (l : List Nat) (h : outcome sh p = .all l) :
    ∃ xs sh' w', runTop sys sh p extra n w = (.ok xs, sh', w') ∧ xs.map (·.item.id) = l ∧ w'.started = w.started ++ l := by
  obtain ⟨⟨H, L, hr, hl, hstd⟩, ho, he, hsh, hlow, hpo⟩ := hs
  obtain ⟨items, rs', w', ul, lk, hrun, P⟩ := run_spec sys sh.procCwd (plain sh p) hsh hr hl hstd ho he hlow hpo
  obtain ⟨h1, h2⟩ := C16_items_are_the_leaves_in_order sys sh.procCwd _ _ _ _ _ _ hrun
  obtain ⟨⟨xs, ra⟩, k1, k2, k3⟩ := sim_ok (sim_run sys sh p l h rs) hrun
  have k2 : xs.map Run.item = items := k2
  rw [all_ids sh p l h] at h1 h2
  refine ⟨xs, ?_⟩
  unfold runTop
  rw [show (RunM.lift (Redirects.new (.table (sh.envs p.env).redirects :: extra.map .one)) >>= fun rs => runX sys sh p rs) w = _ from
    (RunM.bind_ok (lift_ok hrs w)).trans k1]
  refine ⟨_, w', rfl, ?_, h2⟩
  rw [← h1, ← k2, List.map_map]
  rfl

/-- **C118 is false**: when `a | b` cannot be started because an argument of `b` cannot be expanded, `a` has been started, writes to a pipe that nobody reads, and runs on, waiting forever when the pipe is full: the shell
itself keeps its read end, and no job that could be waited for, listed or stopped. -/
theorem C118_refuted (sys : Sys) (sh : Shell) (env : Nat) (a b : Px) (w : World) (rs : Redirects) (i : Obj) (o e : Want)
    (hs : Startable sys sh.procCwd w rs (plain sh (.pipe env a b)) i o e) (la lb : List Nat) (ex : Exn) (h1 : outcome sh a = .all la) (h2 : outcome sh b = .stops lb ex) :
    ∃ ta xs ra w1 w' x q fd, rs.borrow.redirect (.name c!"stdout") .PIPE = .ok ta ∧ runX sys sh a ta w = (.ok (xs, ra), w1) ∧ xs.map (·.item.id) = la ∧
      runX sys sh (.pipe env a b) rs w = (.error ex, w') ∧ w'.started = w.started ++ la ++ lb ∧
      xs.getLast? = some x ∧ x.item.stdout w1 = some (.pipeW q) ∧ w.fds.get fd = none ∧ (w'.fds.get fd).map Entry.obj = some (.pipeR q) := by
  obtain ⟨⟨H, L, hr, hl, hs⟩, ho, he, hp, hf, hq⟩ := hs
  have hc : (plain sh (.pipe env a b)).cost = (plain sh a).cost + (plain sh b).cost := by simp [plain, Pipeline.cost]
  rw [hc] at hl
  have hreg : (plain sh (.pipe env a b)).Regular → (plain sh a).Regular ∧ (plain sh b).Regular := by simp [plain, Pipeline.Regular]
  have hpa : (plain sh a).Redirectable sys sh.procCwd ∧ (plain sh b).Redirectable sys sh.procCwd ∧ (plain sh a).outWant sh.procCwd .pipeOut = .pipeOut := by
    simpa [plain, Pipeline.Redirectable] using hp
  have hf : Fine (plain sh (.pipe env a b)).Regular rs w.fds := hf
  obtain ⟨ta, hta, sta, ota, vta⟩ := redirect_out hs.borrow (owned_borrow rs)
  obtain ⟨hqa, hqb⟩ : _ ∧ _ := by simpa only [plain, refRun, List.all_append, Bool.and_eq_true] using hq
  have fa : Fine (plain sh a).Regular ta w.fds := (hf.borrow.change (.refl _) (fun r hr => by
      rcases vta r hr with h | h
      · exact .inl ⟨r, h, rfl, rfl⟩
      · exact .inr (by rw [h]; simp))).imp (fun h => (hreg h).1)
  obtain ⟨xs, ra, w1, ul1, lk1, hA, A⟩ := run_spec sys sh.procCwd (plain sh a) hpa.1 hr (by omega) sta trivial he fa hqa
  rw [usedFds_sub ota] at A
  obtain ⟨so, hso, hso'⟩ := A.r1
  obtain ⟨u, rfl, hpu, hgu⟩ := hso' hpa.2.2
  have hr1 := hr.next A.delta (by omega)
  have hnu : u ∉ srcFds (Dict.values rs.borrow) := by
    intro hm
    exact (hs.borrow.owned_open hm).1 (A.delta.fresh u (by simp)).1
  obtain ⟨tb, htb, stb, otb', vtb⟩ := redirect_in_fd (hs.borrow.mono A.delta.keeps (by omega)) (owned_borrow rs) hgu
    (A.delta.lt (by simp)) hnu
  obtain ⟨w2, g1, g2, g3⟩ := fail_run sys sh b lb ex h2 hpa.2.1 hr1 (by omega) stb ho he
    ((hf.borrow.change A.delta.keeps (fun r hr => by
      rcases vtb r hr with h | h
      · exact .inl ⟨r, h, rfl, rfl⟩
      · refine .inr ⟨by rw [h]; simp, fun n hn => ?_⟩
        rw [h] at hn; injection hn with hn; subst hn
        exact (A.delta.fresh u (by simp)).1)).imp (fun h => (hreg h).2)) (by rw [A.ctr]; exact hqb)
  obtain ⟨⟨xs', ra'⟩, k1, k2⟩ := sim_ok (sim_run sys sh a la h1 ta) hA
  obtain ⟨k2, k3⟩ := k2
  have k3 : ra' = ra := k3
  have k2' : xs'.map Run.item = xs := k2
  subst k3
  obtain ⟨c1, c2⟩ := C16_items_are_the_leaves_in_order sys sh.procCwd _ _ _ _ _ _ hA
  rw [all_ids sh a la h1] at c1 c2
  obtain ⟨m, hm1, hm2⟩ := refRun_last (cwd := sh.procCwd) (plain sh a) i .pipeOut e w.ctr trivial
  obtain ⟨m', hm1', hmok⟩ := A.itemsOk.getLast hm1
  rw [hpa.2.2] at hm2
  rw [← k2', List.getLast?_map] at hm1'
  obtain ⟨x, hx, hxm⟩ := Option.map_eq_some_iff.1 hm1'
  refine ⟨ta, xs', ra', w1, w2, x, (refRun sh.procCwd (plain sh a) i .pipeOut e w.ctr).out, u, hta, k1, ?_, ?_, ?_, hx, ?_, (A.delta.fresh u (by simp)).1, ?_⟩
  · rw [← c1, ← k2', List.map_map]; rfl
  · unfold runX
    refine (RunM.bind_ok (lift_ok hta w)).trans ?_
    refine (RunM.bind_ok k1).trans ?_
    refine (RunM.bind_ok (lift_ok (attr_of_get?.2 hso) w1)).trans ?_
    rw [hpu]
    refine (RunM.bind_ok (lift_ok htb w1)).trans ?_
    exact bind_err g1
  · rw [g2, c2]
  · rw [hxm, hmok.stdout]; exact congrArg some hm2
  · rw [g3 u (by rw [hgu]; simp), hgu]; rfl

/-! ### an example -/

namespace Ex
/-- two environments: variable `v` is `one` in the first, `two` in the second; they have different directories and exports -/
def env1 : Env where
  cwd := c!"/w1"
  lookup n := if n = c!"v" then .ok c!"one" else .error .keyError
  scopeText := []
  exports := [(c!"PATH", .text c!"/a:b::/c"), (c!"X", .text c!"1")]
  redirects := defaultRedirects
  jobs := [7]
  last := some 7
def env2 : Env where
  cwd := c!"/w2"
  lookup n := if n = c!"v" then .ok c!"two" else .error .keyError
  scopeText := []
  exports := [(c!"PATH", .text c!"/c"), (c!"Y", .text c!"2")]
  redirects := defaultRedirects
  jobs := []
  last := none
def sh : Shell where
  procCwd := []
  homes := { own := some c!"/root", named := fun _ => none }
  fs := { listdir := fun _ => [], lexists := fun _ => true, isdir := fun _ => true }
  fnm := fun _ _ => false
  envs i := if i = 0 then env1 else env2
/-- `env1.ls("%(v)s") | env2.ls("%(v)s")` -/
def good : Px := orP (.command 0 1 (.raw [] c!"ls" (.text [] c!"%(v)s" .nil))) (.command 1 2 (.raw [] c!"ls" (.text [] c!"%(v)s" .nil)))
/-- `env1.yes() | env2.head("%(nope)s")` -/
def bad : Px := orP (.command 0 1 (.raw [] c!"yes" .nil)) (.command 1 2 (.raw [] c!"head" (.text [] c!"%(nope)s" .nil)))

theorem expand1 : Expand.expandArgument (sh.ctx 0) c!"%(v)s" = .ok [c!"one"] := by rfl
theorem expand2 : Expand.expandArgument (sh.ctx 1) c!"%(v)s" = .ok [c!"two"] := by rfl
theorem expand3 : Expand.expandArgument (sh.ctx 1) c!"%(nope)s" = .error .keyError := by rfl
theorem good_outcome : outcome sh good = .all [1, 2] := by simp [good, orP, outcome, outcomeA, expand1, expand2, Outcome.andThen]
theorem bad_outcome : outcome sh bad = .stops [1] .keyError := by simp [bad, orP, outcome, outcomeA, expand3, Outcome.andThen]
theorem good_plain : plain sh good = .pipe (.command 1 (.word [c!"ls"] (.word [c!"one"] .nil))) (.command 2 (.word [c!"ls"] (.word [c!"two"] .nil))) := by
  simp [good, orP, plain, plainA, expand1, expand2]
theorem bad_plain : plain sh bad = .pipe (.command 1 (.word [c!"yes"] .nil)) (.command 2 (.word [c!"head"] .nil)) := by
  simp [bad, orP, plain, plainA, expand3]
theorem good_startable : Startable RunEx.sys sh.procCwd RunEx.world defaultRedirects (plain sh good) (.inherited 0) (.obj (.inherited 1)) .tmp := by
  rw [good_plain]; exact RunEx.startable' _ (by decide) (by simp [Pipeline.Redirectable, Args.Redirectable, Pipeline.outWant])
theorem bad_startable : Startable RunEx.sys sh.procCwd RunEx.world defaultRedirects (plain sh bad) (.inherited 0) (.obj (.inherited 1)) .tmp := by
  rw [bad_plain]; exact RunEx.startable' _ (by decide) (by simp [Pipeline.Redirectable, Args.Redirectable, Pipeline.outWant])
theorem redirects : Redirects.new (.table (sh.envs good.env).redirects :: ([] : List Redirect).map .one) = .ok defaultRedirects := by rfl
theorem made : Made good := .orP .command .command
theorem fine (words : List Str) (exports : Dict Str Str) (h : ∀ s ∈ words, '\x00' ∉ s) (h2 : ∀ p ∈ exports, '\x00' ∉ p.2) : Exec.Fine c!"ls" words exports :=
  ⟨by decide, fun s hs => by
    rcases List.mem_cons.1 hs with rfl | hs
    · decide
    · exact h s hs, h2⟩
end Ex

/-- The first command runs `ls one` in "/w1" with the first environment's variables, the second `ls two` in "/w2" with the second's; the pipeline is a job of the first environment only. -/
example : ∃ x y sh' w', runTop RunEx.sys Ex.sh Ex.good [] 9 RunEx.world = (.ok [x, y], sh', w') ∧
    childOf Exec.demoKernel Ex.sh x = some (.runs c!"ls" [c!"ls", c!"one"] [(c!"PATH", c!"/a:b::/c"), (c!"X", c!"1")] c!"/w1") ∧
    childOf Exec.demoKernel Ex.sh y = some (.runs c!"/c/ls" [c!"ls", c!"two"] [(c!"PATH", c!"/c"), (c!"Y", c!"2")] c!"/w2") ∧
    (sh'.envs 0).jobs = [7, 9] ∧ (sh'.envs 1).jobs = [] := by
  obtain ⟨xs, sh', w', h1, h2, -⟩ := C118_otherwise_partial RunEx.sys Ex.sh Ex.good [] 9 RunEx.world defaultRedirects _ _ _ Ex.redirects Ex.good_startable _ Ex.good_outcome
  obtain ⟨x, hx, -, gx⟩ := C117_program Exec.demoKernel _ _ _ _ _ _ _ _ _ h1 0 0 1 _ rfl c!"ls" [c!"one"] (.raw (.text Ex.expand1 .nil)) [(c!"PATH", c!"/a:b::/c"), (c!"X", c!"1")] rfl
    c!"/a:b::/c" [c!"/a", c!"b", [], c!"/c"] [] (Ex.fine _ _ (by decide) (by decide)) (by decide) rfl rfl ⟨by decide, by decide, by decide⟩
    ⟨[c!"/a", c!"b"], [c!"/c"], rfl, by decide +kernel, by decide +kernel⟩
  obtain ⟨y, hy, -, gy⟩ := C117_program Exec.demoKernel _ _ _ _ _ _ _ _ _ h1 1 1 2 _ rfl c!"ls" [c!"two"] (.raw (.text Ex.expand2 .nil)) [(c!"PATH", c!"/c"), (c!"Y", c!"2")] rfl
    c!"/c" [c!"/c"] c!"/c" (Ex.fine _ _ (by decide) (by decide)) (by decide) rfl rfl ⟨by decide, by decide, by decide⟩
    ⟨[], [], rfl, by decide +kernel, by decide +kernel⟩
  rcases xs with _ | ⟨a, _ | ⟨b, _ | ⟨c, l⟩⟩⟩
  · cases hx
  · cases hy
  · obtain rfl : a = x := Option.some.inj hx
    obtain rfl : b = y := Option.some.inj hy
    obtain ⟨env, he, hj, -, ho⟩ := C117_job_of_the_leftmost _ _ _ _ _ _ _ _ _ Ex.made h1
    obtain rfl : 0 = env := Option.some.inj he
    exact ⟨a, b, sh', w', h1, gx, gy, hj, by rw [ho 1 (by decide)]; rfl⟩
  · simp at h2

/-- The second command becomes the same when the first environment is replaced: the words of its arguments are `ls two`. -/
example : Texts Ex.sh 1 (.raw [] c!"ls" (.text [] c!"%(v)s" .nil)) [c!"ls", c!"two"] ∧ (fun i => if i = 0 then Ex.env2 else Ex.sh.envs i : Nat → Env) 1 = Ex.sh.envs 1 :=
  ⟨.raw (.text Ex.expand2 .nil), rfl⟩

/-- Other default redirections of the second environment do not change anything. -/
example : Made Ex.good ∧ Ex.good.envs = [0, 1] ∧ (fun i => if i = 0 then defaultRedirects else [] : Nat → Redirects) 0 = (Ex.sh.envs 0).redirects :=
  ⟨Ex.made, rfl, rfl⟩

/-- `env1.yes() | env2.head("%(nope)s")` raises KeyError, `yes` keeps running, and there is no job. -/
example : ∃ w', runTop RunEx.sys Ex.sh Ex.bad [] 9 RunEx.world = (.error .keyError, Ex.sh, w') ∧ w'.started = [1] := by
  obtain ⟨w', h1, h2, -⟩ := C118_exact_partial RunEx.sys Ex.sh Ex.bad [] 9 RunEx.world defaultRedirects _ _ _ Ex.redirects Ex.bad_startable _ _ Ex.bad_outcome
  exact ⟨w', h1, h2⟩

/-- the hypotheses of `C118_refuted` -/
example : Startable RunEx.sys Ex.sh.procCwd RunEx.world defaultRedirects (plain Ex.sh Ex.bad) (.inherited 0) (.obj (.inherited 1)) .tmp ∧
    outcome Ex.sh (.command 0 1 (.raw [] c!"yes" .nil)) = .all [1] ∧ outcome Ex.sh (.command 1 2 (.raw [] c!"head" (.text [] c!"%(nope)s" .nil))) = .stops [] .keyError :=
  ⟨Ex.bad_startable, by simp [outcome, outcomeA, Outcome.andThen], by simp [outcome, outcomeA, Outcome.andThen, Ex.expand3]⟩

end Pieshell.Several
