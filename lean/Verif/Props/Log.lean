import Verif.Model.Log
import Verif.Props.Run
/-!
# C97: programs and the shell's own standard output
-/
namespace Pieshell

/-- `x` has nothing to do with `ob` as far as its redirections say: neither its standard descriptors nor a pipeline given
as argument refer to it. -/
def Item.RedirectedAwayFrom (ob : Obj) : Item → Prop
  | .proc _ argv fds _ => fds 0 ≠ some ob ∧ fds 1 ≠ some ob ∧ fds 2 ≠ some ob ∧ ∀ n ∈ devFds argv, fds n ≠ some ob
  | .func .. => False

/-- What holds: in a process that has just imported pieshell, the log descriptor is an inheritable duplicate of the
process's standard output, and nothing else has changed. -/
theorem C97_log_descriptor (sys : Sys) (t : FdTable) (out : Entry) (hl : sys.logfd < sys.maxfd) (h1 : sys.logfd ≠ 1)
    (ho : t.get 1 = some out) :
    ∃ t', importLog sys t = (.ok (), t') ∧ execTable t' sys.logfd = some out.obj ∧ ∀ n, n ≠ sys.logfd → t'.get n = t.get n := by
  refine ⟨t.set sys.logfd { obj := out.obj, cloexec := false }, ?_, ?_, ?_⟩
  · simp only [importLog, osDup2, ho]
    rw [if_neg (by omega), if_neg (by omega)]
  · simp [execTable, FdTable.set]
  · intro n hn; simp [FdTable.set, hn]

/-- The number is the highest that the process may use, whatever the limit on open files is (at least 3). -/
theorem C97_log_number (limit : Nat) (h : 3 ≤ limit) (openErr : Str → Str → Nat → Option Nat) (t : FdTable) (out : Entry) (ho : t.get 1 = some out) :
    ∃ t', importLog { maxfd := limit, logfd := logFdOf limit, openErr := openErr } t = (.ok (), t') ∧ execTable t' (limit - 1) = some out.obj ∧ ∀ n, n ≠ limit - 1 → t'.get n = t.get n :=
  C97_log_descriptor { maxfd := limit, logfd := logFdOf limit, openErr := openErr } t out (by show limit - 1 < limit; omega) (by show limit - 1 ≠ 1; omega) ho

/-- **C97 is false**, for every pipeline: every program that is started in it holds the shell's standard output open,
however its descriptors are redirected: it inherits the log descriptor, a duplicate of the shell's standard output. -/
theorem C97_refuted (sys : Sys) (cwd : Str) (w : World) (rs : Redirects) (p : Pipeline) (i : Obj) (o e : Want) (out : Obj)
    (hs : Startable sys cwd w rs p i o e) (hlog : execTable w.fds sys.logfd = some out) :
    ∃ items rs' w', runP sys cwd p rs w = (.ok (items, rs'), w') ∧
      ∀ x ∈ items, (∃ id argv fds irs, x = .proc id argv fds irs) → x.Holds w' out := by
  obtain ⟨⟨H, L, hr, hl, hstd⟩, ho, he, hsh, hlow, hpo⟩ := hs
  obtain ⟨items, rs', w', ul, lk, hrun, P⟩ := run_spec sys cwd p hsh hr hl hstd ho he hlow hpo
  refine ⟨items, rs', w', hrun, ?_⟩
  rintro x hx ⟨id, argv, fds, irs, rfl⟩
  obtain ⟨y, -, hy⟩ := P.itemsOk.mem hx
  cases y with
  | func => simp only [ItemOk] at hy
  | proc =>
    obtain ⟨-, -, -, -, -, -, hd, h⟩ := hy
    have h3 := hr.three
    have hL := hr.log
    refine ⟨sys.logfd, ?_⟩
    rw [h sys.logfd (by omega) (by omega) (by omega) hd, if_pos rfl, hlog]
/-- What does hold: the log descriptor is the only way. Every program has the shell's standard output (or anything else the
shell has open) as a descriptor only if it is one of its own standard descriptors, one of its arguments `/dev/fd/n`, or
the log descriptor. -/
theorem C97_only_through_log_partial (sys : Sys) (cwd : Str) (w : World) (rs : Redirects) (p : Pipeline) (i : Obj) (o e : Want)
    (hs : Startable sys cwd w rs p i o e) :
    ∃ items rs' w', runP sys cwd p rs w = (.ok (items, rs'), w') ∧
      ∀ id argv fds irs, Item.proc id argv fds irs ∈ items →
        ∀ n ob, fds n = some ob → n = 0 ∨ n = 1 ∨ n = 2 ∨ n ∈ devFds argv ∨ (n = sys.logfd ∧ execTable w.fds sys.logfd = some ob) := by
  obtain ⟨⟨H, L, hr, hl, hstd⟩, ho, he, hsh, hlow, hpo⟩ := hs
  obtain ⟨items, rs', w', ul, lk, hrun, P⟩ := run_spec sys cwd p hsh hr hl hstd ho he hlow hpo
  refine ⟨items, rs', w', hrun, ?_⟩
  intro id argv fds irs hx n ob hn
  obtain ⟨y, -, hy⟩ := P.itemsOk.mem hx
  cases y with
  | func => simp only [ItemOk] at hy
  | proc =>
    obtain ⟨-, -, -, -, -, -, hd, h⟩ := hy
    by_cases h0 : n = 0
    · exact .inl h0
    by_cases h1 : n = 1
    · exact .inr (.inl h1)
    by_cases h2 : n = 2
    · exact .inr (.inr (.inl h2))
    by_cases h3 : n ∈ devFds argv
    · exact .inr (.inr (.inr (.inl h3)))
    · rw [h n h0 h1 h2 h3] at hn
      split at hn
      · exact .inr (.inr (.inr (.inr ⟨by assumption, hn⟩)))
      · cases hn

/-! A concrete case: `~(daemon < "null" > "out")` with stderr sent to a file, in a shell that has just been started. -/
namespace LogEx
open RunEx
/-- a process with standard descriptors only -/
def fresh : FdTable := FdTable.ofList [(0, inh 0), (1, inh 1), (2, inh 2)]
/-- the shell after importing pieshell -/
def world : World := { fds := (importLog sys2 fresh).2, nextPipe := 0, nextTmp := 0 }
example : (importLog sys2 fresh).1 = .ok () := rfl
theorem get_world (n : Nat) : world.fds.get n =
    if n = 40 then some (inh 1) else if n = 0 then some (inh 0) else if n = 1 then some (inh 1) else if n = 2 then some (inh 2) else none := by
  simp only [world, importLog, osDup2, fresh, FdTable.ofList, Dict.get?, eq_comm, FdTable.set, sys2, inh]
  rfl
/-- a background program with all of its standard descriptors redirected to files -/
def daemon : Pipeline := .redirect (.redirect (.redirect (.command 1 .nil) (from_ c!"null")) (to_ c!"out")) (err_ c!"err")
theorem shape : daemon.Redirectable sys2 [] := by
  simp only [daemon, Pipeline.Redirectable, Args.Redirectable, true_and]
  refine ⟨⟨⟨built _ rfl, ?_⟩, built _ rfl, ?_⟩, built _ rfl, ?_⟩ <;>
    (intro r hr; simp [Dict.values, from_, to_, err_] at hr; subst hr; exact .inl ⟨_, rfl, rfl, by decide⟩)
theorem startable : Startable sys2 [] world defaultRedirects daemon (.inherited 0) (.obj (.inherited 1)) .tmp where
  room := ⟨3, 40, {
      bounded := FdTable.bounded_set (FdTable.bounded_ofList _) _ _
      top := by intro n hn; rw [get_world]; simp [sys2] at hn; repeat (first | rw [if_neg (by omega)] | rfl)
      gap := by intro n h1 h2; rw [get_world]; repeat (first | rw [if_neg (by omega)] | rfl)
      three := by decide
      log := by decide
      lim := by decide }, by decide, ⟨_, _, _, rfl, rfl, rfl, rfl, .inl ⟨0, inh 0, rfl, by rw [get_world]; rfl, rfl, by decide⟩,
    .inl ⟨1, inh 1, rfl, by rw [get_world]; rfl, rfl, by decide⟩, ⟨.inl rfl, by decide⟩⟩, by decide⟩
  out := trivial
  err := trivial
  shape := shape
  low := .inr ⟨fun n hn => by rw [get_world]; match n, hn with | 0, _ => simp | 1, _ => simp | 2, _ => simp, straight_spec (by decide)⟩
  polls := by decide +kernel
theorem log : execTable world.fds sys2.logfd = some (.inherited 1) := by decide +kernel
/-- the program, and whether it refers to the shell's standard output by 0, 1, 2 and by the log descriptor -/
theorem run : (match (runP sys2 [] daemon defaultRedirects world).1 with
    | .ok ([.proc _ argv fds _], _) => (devFds argv, decide (fds 0 = some (.inherited 1)), decide (fds 1 = some (.inherited 1)), decide (fds 2 = some (.inherited 1)),
        decide (fds 40 = some (.inherited 1)))
    | _ => ([9], true, true, true, false)) = (([], false, false, false, true) : List Nat × Bool × Bool × Bool × Bool) := by decide +kernel
end LogEx

example : Startable RunEx.sys2 [] LogEx.world defaultRedirects LogEx.daemon (.inherited 0) (.obj (.inherited 1)) .tmp ∧
    execTable LogEx.world.fds RunEx.sys2.logfd = some (.inherited 1) := ⟨LogEx.startable, LogEx.log⟩

/-- **C97 is false**: a program whose standard descriptors are all redirected to files keeps the shell's standard output open. -/
theorem C97_refuted_daemon :
    ∃ x rs' w', runP RunEx.sys2 [] LogEx.daemon defaultRedirects LogEx.world = (.ok ([x], rs'), w') ∧
      x.RedirectedAwayFrom (.inherited 1) ∧ x.Holds w' (.inherited 1) := by
  have h := LogEx.run
  rcases hr : runP RunEx.sys2 [] LogEx.daemon defaultRedirects LogEx.world with ⟨r, w'⟩
  rw [hr] at h
  match r, h with
  | .ok ([.proc id argv fds irs], rs'), h =>
    simp only [Prod.mk.injEq, decide_eq_false_iff_not, decide_eq_true_eq] at h
    obtain ⟨h0, h1, h2, h3, h4⟩ := h
    exact ⟨_, rs', w', rfl, ⟨h1, h2, h3, by rw [h0]; intro n hn; cases hn⟩, ⟨40, h4⟩⟩

end Pieshell
