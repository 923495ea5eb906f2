import Verif.Model.Whole
/-!
# The output of a pipeline, kept in temporary files

`Model/Whole` with the temporary files: an item whose stdout is a temporary file (`STRING`, `TMP`) writes to that file whatever it
writes (`Model/Flow`), and when the pipeline has ended, the shell reads the files of `STRING` redirections and removes them
(`Model/Job`).

Simplifications: those of `Model/Whole`.  The bytes go to the file when they are written.  Nobody but the item writes to the file that is
its stdout.
-/
namespace Pieshell

/-- `cmd._redirects` of a started item (command.py:243, function.py:112). -/
def Item.table : Item → Redirects
  | .proc _ _ _ rs => rs
  | .func _ _ _ rs => rs

namespace Whole

/-- `{fd: redirect.pipe for fd, redirect in redirects.items() if ...}` [running.py:204-206] -/
def pick (f : PipeEnd → Option Job.Path) : Redirects → Dict Nat Job.Path
  | [] => []
  | (n, r) :: l => match f r.pipe with
    | some path => (n, path) :: pick f l
    | none => pick f l

/-- The `STRING` and `TMP` files of an item (running.py:202-206, 208-211); `path n` is the name of the `n`th temporary file. -/
def specOf (path : Nat → Job.Path) (x : Item) : Job.Spec :=
  { kind := match x with | .proc .. => .proc | .func .. => .func
    strings := pick (fun e => match e with | .string n => some (path n) | _ => none) x.table
    tmps := pick (fun e => match e with | .tmp n => some (path n) | _ => none) x.table }

/-- The name of the temporary file that is the stdout of item `k`. [redir.py:131-132] -/
def Link.file (L : Link) (path : Nat → Job.Path) (k : Nat) : Option Job.Path :=
  match (L.net.items[k]?).bind (Item.stdout L.net.w) with
  | some (.tmp n) => some (path n)
  | _ => none

/-- What the items write to files when they go from `s` to `t`.
[The operating system's part; the files are those of redir.py:131-132] -/
def Link.puts (L : Link) (path : Nat → Job.Path) {σ : Type} (s t : Flow.St σ) : List Job.Act :=
  L.numbers.filterMap fun k => match L.file path k with
    | some f => if t.out k = s.out k then none else some (.write L.job k f ((t.out k).drop (s.out k).length))
    | none => none

/-- One step of the whole, with files.
[Composition of the models of running.py:196-220, iterio.py:106-118 and the kernel] -/
inductive FStep {σ : Type} (next : Flow.Prog σ) (L : Link) (path : Nat → Job.Path) : St σ → St σ → Prop
  /-- an item works -/
  | flow {s : St σ} {t : Flow.St σ} : Flow.Step next L.net s.flow t →
      FStep next L path s ⟨t, Sig.run s.sig (L.changes (L.report s.flow t)),
        Job.run (Job.run s.job (L.puts path s.flow t)) (L.finishes (L.returned s.flow t))⟩
  /-- the signal manager, the kernel, other processes -/
  | sig {s : St σ} {a : Sig.Act} : L.Foreign a →
      FStep next L path s ⟨s.flow, Sig.step s.sig a, Job.run s.job (L.finishes (L.completed s.sig (Sig.step s.sig a)))⟩
  /-- the event loop, calls of `wait()`, other pipelines -/
  | job {s : St σ} {a : Job.Act} : (∀ i o, a ≠ .finish L.job i o) → (∀ k f i d, L.file path k = some f → a ≠ .write L.job i f d) →
      FStep next L path s ⟨s.flow, s.sig, Job.step s.job a⟩

/-- Any number of steps.
[Composition of the models of running.py:196-220, iterio.py:106-118 and the kernel] -/
inductive FSteps {σ : Type} (next : Flow.Prog σ) (L : Link) (path : Nat → Job.Path) : St σ → St σ → Prop
  | nil {s : St σ} : FSteps next L path s s
  | snoc {s t u : St σ} : FSteps next L path s t → FStep next L path t u → FSteps next L path s u

/-- The pipeline has just been started, after any history of jobs and signals (see `Start`); the names of its temporary files are
new. [base.py:143-154] -/
inductive FStart {σ : Type} (L : Link) (path : Nat → Job.Path) (init : Nat → σ) (src : Nat → Flow.Bytes) : St σ → Prop
  | mk {b : Bool} {m : Sig.Mgr} {as : List Job.Act} {bs : List Sig.Act} :
      (∀ j k, L.isProg j = true → L.isProg k = true → L.pid j = L.pid k → j = k) →
      (∀ k, L.isProg k = true → (Sig.run (Sig.init m) bs).kids.get? (L.pid k) = none) →
      L.job = (Job.run (Job.init b) as).pipes.length →
      Job.okSpecs (Job.run (Job.init b) as) (L.net.items.map (specOf path)) = true →
      FStart L path init src ⟨Flow.St.start init src, Sig.run (Sig.run (Sig.init m) bs) L.spawns,
        Job.step (Job.run (Job.init b) as) (.start (L.net.items.map (specOf path)))⟩

end Whole
end Pieshell
