import Verif.Lemmas.Repr
import Verif.Model.Scope
/-!
# C60 and C69: `repr()` runs nothing, the prompt runs what it shows, and what the text says
-/
namespace Pieshell.Repr
open Pieshell.Cmd

/-! ## A world to try things in: environment 0 is interactive, environment 1 is not -/

def demoCtx : Expand.Ctx where
  cwd := c!"/"
  procCwd := c!"/"
  lookup := fun n => if n = c!"date" then .ok c!"Mon" else .error .keyError
  scopeText := []
  homes := { own := some c!"/root", named := fun _ => none }
  fs := { listdir := fun _ => [], lexists := fun _ => false, isdir := fun _ => false }
  fnm := fun _ _ => false

def demo : World where
  interactive := fun e => e = 0
  envText := fun e => if e = 0 then c!"[zero]" else c!"[one]"
  ctx := fun _ => demoCtx
  runs := fun e n => e = 0 ∧ n = c!"date"
  outcome := fun id => if id = 9 then .failed else if id = 8 then .cancelled else .finished
  printable := fun _ => true

def cmd (id : Nat) (env : Nat) (words : List Str) : Obj :=
  .command id false env { kind := .external, args := words.map (fun w => .val (.str w)) } []

/-- `repr_state.in_repr` is 0, nothing is being printed, nothing has run. -/
def idle : St := { depth := 0, cur := none, events := [] }

/-! ## `repr()` -/

/-- C60, part: `repr()` of any object starts no pipeline: whatever is nested in what, whatever raises, in any state. All
that can run is a command that an argument's `%(name)s` names. The nesting counter and the environment being printed
are restored, so that later prints and displays are not affected. -/
theorem C60_repr_partial (w : World) (o : Obj) (st : St) :
    ∃ es, (repr w o st).2 = { st with events := st.events ++ es } ∧ Spec.starts es = [] ∧
      ∀ e ∈ es, ∃ env name, e = .lookup env name ∧ w.runs env name = true := by
  refine ⟨qevents w o st.cur, ?_, starts_only (qevents_only w o st.cur), qevents_only w o st.cur⟩
  rw [repr_quiet]; rfl

/-- C60: `repr()` runs nothing at all if no argument contains a `%`. -/
theorem C60_no_templates (w : World) (o : Obj) (st : St) (h : Spec.NoTemplates o) : (repr w o st).2 = st := by
  rw [repr_quiet, qevents_none w o st.cur h, St.add_nil]

/-- C60: `repr()` runs nothing at all if no name in an argument refers to a command, e.g. in an environment without a
scope (`C60_without_scope`). -/
theorem C60_no_commands (w : World) (o : Obj) (st : St) (h : ∀ env name, w.runs env name = false) : (repr w o st).2 = st := by
  have : qevents w o st.cur = [] := by
    cases hq : qevents w o st.cur with
    | nil => rfl
    | cons e es =>
      obtain ⟨env, n, _, hr⟩ := qevents_only w o st.cur e (by rw [hq]; exact List.mem_cons_self)
      rw [h env n] at hr; cases hr
  rw [repr_quiet, this, St.add_nil]

/-- What `%(name)s` refers to, in the shell's variables (`Model/Scope`), is a command. -/
def shellRuns (σ : Shell.Shell) (env : Nat) (name : Str) : Bool :=
  match σ.template env name with
  | .ok (.command _ _) => true
  | _ => false

/-- In an environment without a scope, such as every environment derived with `env(...)`, `%(name)s` names an exported
variable or nothing, so that nothing is run (unless a command itself was exported). -/
theorem C60_without_scope (σ : Shell.Shell) (env : Nat) (r : Shell.EnvRec) (hr : σ.envs[env]? = some r) (hs : r.scope = none)
    (hv : ∀ name v, Dict.get? (σ.dict (σ.exportsRef env)) name = some v → ∃ s, v = .str s) (name : Str) :
    shellRuns σ env name = false := by
  unfold shellRuns Shell.Shell.template
  simp only [hr, Option.bind_some, hs]
  cases hg : Dict.get? (σ.dict (σ.exportsRef env)) name with
  | none => rfl
  | some v =>
    obtain ⟨s, rfl⟩ := hv name v hg
    rfl

/-- a list of a pipe of commands, an object that fails, and a `LineList` of a command with an argument that is a pipe -/
def nested : Obj :=
  .native [.pipeline 1 false 0 .pipe [cmd 2 0 [c!"ls"], cmd 3 0 [c!"wc"]],
    .viaRepr [.broken, .native [cmd 4 0 [c!"ls", c!"%(nosuch)s"], cmd 5 0 [c!"ps"]]],
    .catching (.native [cmd 6 0 [c!"cat"], .broken]) c!"?"]

example : repr demo nested idle =
    (c!"[ls | wc in [zero], [<Failed to print>,\n <Failed to print>], ?]", idle) := by decide +kernel
example : Spec.NoTemplates (.native [cmd 2 0 [c!"ls", c!"-l"], .broken]) := by
  simp only [Spec.NoTemplates, Spec.NoTemplatesL, cmd, and_true]
  intro s h
  rcases h with h | ⟨kvs, k, h, _⟩
  · simp at h; rcases h with rfl | rfl <;> decide
  · simp at h

/-- C60 is false of the code in general: printing a command with an argument `%(date)s`, where `date` is no variable,
runs the program `date`, at every print. -/
theorem C60_refuted : ∃ (w : World) (o : Obj),
    (repr w o idle).2.events = [.lookup 0 c!"date"] ∧
    (repr w (.native [o, o]) idle).2.events = [.lookup 0 c!"date", .lookup 0 c!"date"] ∧
    (repr w o idle).1 = c!"echo.Mon in [zero]" :=
  ⟨demo, cmd 1 0 [c!"echo", c!"%(date)s"], by decide +kernel, by decide +kernel, by decide +kernel⟩

/-- In the interactive shell such a name does refer to a command. -/
def demoShell : Shell.Shell where
  dicts := [[]]
  envs := [{ exports := 0, scope := some 0 }]
  scopes := [{ vars := [(c!"env", .env 0)], parent := none }]
  isBuiltin := fun _ => false
example : shellRuns demoShell 0 c!"date" = true := by decide +kernel
example : shellRuns (demoShell.copyEnv 0) 1 c!"date" = false := by decide +kernel

/-- The names listed for an argument are all the names its expansion consults: lookups of any other name may be changed
without changing the result. (So the events of the model leave nothing out.) -/
theorem C60_names_complete (x : Expand.Ctx) (lookup : Str → Except Exn Str) (s : Str)
    (h : ∀ n ∈ expandNames x s, x.lookup n = lookup n) :
    Expand.expandArgument x s = Expand.expandArgument { x with lookup := lookup } s := by
  unfold Expand.expandArgument
  simp only
  rw [pctFormat_names x.lookup lookup x.scopeText (s.length + 1) false s h]

example : expandNames demoCtx c!"a%(date)sb%%%(x)s%(y)s" = [c!"date", c!"x"] := by decide +kernel

/-! ## The prompt -/

/-- C60: showing an object at the prompt runs exactly the pipelines in it that are not started, belong to an interactive
environment, and are reached through python's own containers, in order, until one of them fails or cannot be printed;
then the display raises. -/
theorem C60_display (w : World) (o : Obj) (st : St) (h : st.depth = 0) :
    ∃ es, (display w o st).2 = { st with events := st.events ++ es } ∧
      Spec.starts es = (Spec.shown w.interactive w.outcome (Spec.printable w) o).1 ∧
      ((Spec.shown w.interactive w.outcome (Spec.printable w) o).2 = true ↔ ∃ t, (display w o st).1 = .ok t) :=
  standard_shows w o st h

/-- C60: the display of an unstarted pipeline of an interactive environment runs that pipeline, once. -/
theorem C60_prompt_runs (w : World) (id env : Nat) (c : Command) (as : Str) (st : St) (h : st.depth = 0)
    (hi : w.interactive env = true) :
    (display w (.command id false env c as) st).2.events = st.events ++ [.start id] := by
  unfold display
  simp only [standardRepr, shouldRun_zero h, hi, and_self, decide_true, if_true, runAndPrint]
  cases w.outcome id <;> rfl

/-- C60: in any sequence of prints and displays, whatever fails on the way, the pipelines that run are those the
displays show. -/
theorem C60_session (w : World) (acts : List Act) (st : St) (h : st.depth = 0) :
    ∃ es, session w st acts = { st with events := st.events ++ es } ∧ Spec.starts es = Spec.sessionStarts w acts := by
  induction acts generalizing st with
  | nil => exact ⟨[], by simp [session], rfl⟩
  | cons a acts ih =>
    obtain ⟨es, h1, h2⟩ : ∃ es, act w st a = st.add es ∧ Spec.starts es = Spec.sessionStarts w [a] := by
      cases a with
      | repr o =>
        obtain ⟨es, h1, h2, _⟩ := C60_repr_partial w o st
        exact ⟨es, h1, h2⟩
      | «show» o =>
        obtain ⟨es, h1, h2, _⟩ := C60_display w o st h
        exact ⟨es, h1, by simpa [Spec.sessionStarts] using h2⟩
    obtain ⟨es', k1, k2⟩ := ih (act w st a) (by rw [h1]; exact h)
    refine ⟨es ++ es', ?_, ?_⟩
    · show session w (act w st a) acts = _
      rw [k1, h1]; simp [St.add]
    · rw [starts_append, h2, k2]
      cases a <;> simp [Spec.sessionStarts]

/-- Showing a list: command 2 is cancelled, 3 is in a `LineList`, 4 is not interactive, 9 fails, 5 is not reached. -/
example : (display demo (.native [cmd 8 0 [c!"ls"], .viaRepr [cmd 3 0 [c!"ls"]], cmd 4 1 [c!"ls"],
    cmd 9 0 [c!"ls"], cmd 5 0 [c!"ls"]]) idle).2.events = [.start 8, .start 9] := by decide +kernel
example : (session demo idle [.repr nested, .show (cmd 9 0 [c!"ls"]), .repr (cmd 9 0 [c!"ls"]), .show nested]).events =
    [.start 9, .start 1, .start 6] := by decide +kernel

/-! ## C69: the text -/

/-- C69: the text of anything that can be printed: the parts in order, every pipeline followed by its environment unless
that is the environment of the pipeline around it. The text does not depend on what was printed or run before. -/
theorem C69_text (w : World) (o : Obj) (st : St) (h : Spec.Prints w o) : (repr w o st).1 = Spec.described w st.cur o := by
  rw [repr_quiet, qtext_described w o st.cur h]; rfl

/-- C69: a command names its environment, at the end. -/
theorem C69_command (w : World) (st : St) (h : st.cur = none) (id : Nat) (started : Bool) (e : Nat) (c : Command) (as t : Str)
    (hc : Command.repr (Expand.expandArgument (w.ctx e)) w.printable c = .ok t) :
    (repr w (.command id started e c as) st).1 = t ++ as ++ c!" in " ++ w.envText e := by
  rw [C69_text w _ st (by simp only [Spec.Prints]; exact ⟨t, hc⟩), h]
  simp [Spec.described, Spec.naming, hc]

/-- C69: a pipeline whose parts all belong to its environment names it once, at the end. -/
theorem C69_one_environment (w : World) (st : St) (h : st.cur = none) (id : Nat) (started : Bool) (e : Nat) (form : Form)
    (parts : List Obj) (ho : Spec.WithinL w e parts) :
    (repr w (.pipeline id started e form parts) st).1 =
      Spec.plain w (.pipeline id started e form parts) ++ c!" in " ++ w.envText e := by
  obtain ⟨hpr, hpl⟩ := described_plain w e (.pipeline id started e form parts) (by simp [Spec.Within, ho])
  rw [C69_text w _ st hpr, ← hpl, h]
  cases form <;> simp [Spec.described, Spec.naming]

/-- C69: printing the same object at any two moments gives the same text. -/
theorem C69_stable (w : World) (o : Obj) (acts : List Act) (st : St) (h : st.depth = 0) :
    (repr w o (session w st acts)).1 = (repr w o st).1 := by
  obtain ⟨es, h1, _⟩ := C60_session w acts st h
  rw [h1, repr_quiet, repr_quiet]

/-- a pipe of environment 1 with a part of environment 0 and a function with a keyword argument -/
example : (repr demo (.pipeline 1 false 1 .pipe [cmd 2 0 [c!"ls", c!"-l"],
    .pipeline 3 false 1 (.call c!"m.f" [none, some c!"k"]) [.leaf c!"1", cmd 4 1 [c!"ps"]]]) idle).1 =
    c!"ls('-l') in [zero] | m.f(1,k=ps) in [one]" := by decide +kernel
example : Spec.WithinL demo 1 [cmd 2 1 [c!"ls", c!"-l"], .native [.leaf c!"1", cmd 4 1 [c!"ps"]]] := by
  simp only [Spec.WithinL, Spec.Within, cmd, and_true, true_and]
  exact ⟨⟨c!"ls('-l')", by rfl⟩, ⟨c!"ps", by rfl⟩⟩

end Pieshell.Repr
