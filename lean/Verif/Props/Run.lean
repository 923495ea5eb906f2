import Verif.Lemmas.Chain
import Verif.Props.RedirTable
/-!
# C12-C18: starting pipelines
-/
namespace Pieshell

/-! Concrete data used in the examples. -/
namespace RunEx
/-- every file can be opened; the log descriptor is just below the limit -/
def sys : Sys := { maxfd := 1024, logfd := 1023, openErr := fun _ _ _ => none }
def inh (n : Nat) : Entry := { obj := .inherited n, cloexec := false }
/-- a shell with stdin, stdout, stderr and the log open -/
def world : World := { fds := FdTable.ofList [(0, inh 0), (1, inh 1), (2, inh 2), (1023, inh 9)], nextPipe := 0, nextTmp := 0 }
/-- the table used when iterating over a pipeline: environment defaults and `Redirect("stdout", PIPE)` -/
def iterRs : Redirects :=
  [(0, { fd := 0, source := .fd 0, flag := O_RDONLY, mode := defaultMode, pipe := .none, borrowed := true }),
   (1, stdoutPipe),
   (2, { fd := 2, source := .STRING, flag := O_WRONLY ||| O_CREAT, mode := defaultMode, pipe := .none, borrowed := false })]
example : Redirects.new [.table defaultRedirects, .one stdoutPipe] = .ok iterRs := by rfl

theorem get_world (n : Nat) : world.fds.get n =
    if n = 0 then some (inh 0) else if n = 1 then some (inh 1) else if n = 2 then some (inh 2)
    else if n = 1023 then some (inh 9) else none := by
  simp only [world, FdTable.ofList, Dict.get?, eq_comm]

theorem room : Room sys world 3 1023 where
  bounded := FdTable.bounded_ofList _
  top := by intro n hn; rw [get_world]; simp [sys] at hn; repeat (first | rw [if_neg (by omega)] | rfl)
  gap := by intro n h1 h2; rw [get_world]; repeat (first | rw [if_neg (by omega)] | rfl)
  three := by decide
  log := by decide
  lim := by decide

/-- a table that uses the standard descriptors straight -/
def straight (rs : Redirects) : Bool := (Dict.values rs).all fun r => match r.source with
  | .fd a => decide (3 ≤ a ∨ a = r.fd)
  | _ => true

theorem straight_spec {rs : Redirects} (h : straight rs = true) (r : Redirect) (hr : r ∈ Dict.values rs) (a : Nat) (ha : r.source = .fd a)
    (h3 : a < 3) : a = r.fd := by
  have := List.all_eq_true.1 h r hr
  rw [ha] at this
  simp at this
  omega

theorem low (w : World) (hw : ∀ n, w.fds.get n = world.fds.get n) (rs : Redirects) (h : straight rs = true) : rs.Low w.fds :=
  ⟨fun n hn => by rw [hw, get_world]; match n, hn with | 0, _ => simp | 1, _ => simp | 2, _ => simp, straight_spec h⟩

/-- any pipeline that is not too big can be iterated over -/
theorem startable (p : Pipeline) (h : p.cost ≤ 1020) (hp : p.Redirectable sys [])
    (hq : (refRun [] p (.inherited 0) .pipeOut .tmp world.ctr).items.all (RItem.polls sys) = true := by decide +kernel) :
    Startable sys [] world iterRs p (.inherited 0) .pipeOut .tmp where
  room := ⟨3, 1023, room, by omega, ⟨_, _, _, rfl, rfl, rfl, rfl, .inl ⟨0, inh 0, rfl, by rw [get_world]; rfl, rfl, by decide⟩,
    ⟨rfl, by decide⟩, ⟨.inl rfl, by decide⟩⟩, by decide⟩
  out := trivial
  err := trivial
  shape := hp
  low := .inr (low world (fun _ => rfl) iterRs (by decide))
  polls := hq

/-- ... or run with the environment's defaults -/
theorem startable' (p : Pipeline) (h : p.cost ≤ 1020) (hp : p.Redirectable sys [])
    (hq : (refRun [] p (.inherited 0) (.obj (.inherited 1)) .tmp world.ctr).items.all (RItem.polls sys) = true := by decide +kernel) :
    Startable sys [] world defaultRedirects p (.inherited 0) (.obj (.inherited 1)) .tmp where
  room := ⟨3, 1023, room, by omega, ⟨_, _, _, rfl, rfl, rfl, rfl, .inl ⟨0, inh 0, rfl, by rw [get_world]; rfl, rfl, by decide⟩,
    .inl ⟨1, inh 1, rfl, by rw [get_world]; rfl, rfl, by decide⟩, ⟨.inl rfl, by decide⟩⟩, by decide⟩
  out := trivial
  err := trivial
  shape := hp
  low := .inr (low world (fun _ => rfl) defaultRedirects (by decide))
  polls := hq

/-- a smaller one, for computing -/
def sys2 : Sys := { maxfd := 50, logfd := 40, openErr := fun _ _ _ => none }
def world2 : World := { fds := FdTable.ofList [(0, inh 0), (1, inh 1), (2, inh 2), (40, inh 9)], nextPipe := 0, nextTmp := 0 }
theorem get_world2 (n : Nat) : world2.fds.get n =
    if n = 0 then some (inh 0) else if n = 1 then some (inh 1) else if n = 2 then some (inh 2)
    else if n = 40 then some (inh 9) else none := by
  simp only [world2, FdTable.ofList, Dict.get?, eq_comm]
theorem room2 : Room sys2 world2 3 40 where
  bounded := FdTable.bounded_ofList _
  top := by intro n hn; rw [get_world2]; simp [sys2] at hn; repeat (first | rw [if_neg (by omega)] | rfl)
  gap := by intro n h1 h2; rw [get_world2]; repeat (first | rw [if_neg (by omega)] | rfl)
  three := by decide
  log := by decide
  lim := by decide
theorem low2 (rs : Redirects) (h : straight rs = true) : rs.Low world2.fds :=
  ⟨fun n hn => by rw [get_world2]; match n, hn with | 0, _ => simp | 1, _ => simp | 2, _ => simp, straight_spec h⟩
theorem startable2 (p : Pipeline) (h : p.cost ≤ 37) (hp : p.Redirectable sys2 [])
    (hq : (refRun [] p (.inherited 0) (.obj (.inherited 1)) .tmp world2.ctr).items.all (RItem.polls sys2) = true := by decide +kernel) :
    Startable sys2 [] world2 defaultRedirects p (.inherited 0) (.obj (.inherited 1)) .tmp where
  room := ⟨3, 40, room2, by omega, ⟨_, _, _, rfl, rfl, rfl, rfl, .inl ⟨0, inh 0, rfl, by rw [get_world2]; rfl, rfl, by decide⟩,
    .inl ⟨1, inh 1, rfl, by rw [get_world2]; rfl, rfl, by decide⟩, ⟨.inl rfl, by decide⟩⟩, by decide⟩
  out := trivial
  err := trivial
  shape := hp
  low := .inr (low2 defaultRedirects (by decide))
  polls := hq

theorem made2 : world2.PipesMade := by
  intro n e q h hq
  rw [get_world2] at h
  repeat' split at h
  all_goals first | (cases h; done) | (cases h; exact ⟨by simp [inh], by simp [inh]⟩)

theorem made : world.PipesMade := by
  intro n e q h hq
  rw [get_world] at h
  repeat' split at h
  all_goals first | (cases h; done) | (cases h; exact ⟨by simp [inh], by simp [inh]⟩)

/-- `(ls | (cat(<(echo)) | f)) | [..]`-like chain: commands with a pipeline argument, a function, an iterator -/
def chain : Pipeline := .pipe (.iter 1) (.pipe (.pipe (.command 2 (.word [c!"-l"] (.pipeArg [] (.command 3 .nil) .nil))) (.func 4)) (.command 5 .nil))
theorem chain_shape : chain.Redirectable sys [] := by simp [chain, Pipeline.Redirectable, Args.Redirectable, Pipeline.outWant]
theorem chain_chain : chain.Chain := by
  intro l hl
  simp only [chain, Pipeline.links, List.cons_append, List.nil_append, List.mem_cons, List.not_mem_nil, or_false] at hl
  rcases hl with rfl | rfl | rfl | rfl <;> simp [Pipeline.leafId]
theorem chain_cost : chain.cost ≤ 1020 := by decide
/-- `(a + b) | c` -/
def grp : Pipeline := .pipe (.group (.command 1 .nil) (.command 2 .nil)) (.command 3 .nil)
theorem grp_shape : grp.Redirectable sys [] := by simp [grp, Pipeline.Redirectable, Args.Redirectable, Pipeline.outWant]

/-- stdin from the file `f` -/
def from_ (f : Str) : Redirects :=
  [(0, { fd := 0, source := .path f, flag := O_RDONLY, mode := defaultMode, pipe := .none, borrowed := false })]
/-- stdout to the file `f` -/
def to_ (f : Str) : Redirects :=
  [(1, { fd := 1, source := .path f, flag := O_WRONLY ||| O_CREAT, mode := defaultMode, pipe := .none, borrowed := false })]
/-- stderr to the file `f` -/
def err_ (f : Str) : Redirects :=
  [(2, { fd := 2, source := .path f, flag := O_WRONLY ||| O_CREAT, mode := defaultMode, pipe := .none, borrowed := false })]
theorem built (rs : Redirects) (h : Redirects.new [.table rs] = .ok rs) : rs.Built := .new (args := [.table rs]) h
/-- `("in" | a | ((f | b) redirected to stderr "err")) > "out"` -/
def redirected : Pipeline :=
  .redirect (.pipe (.redirect (.command 1 .nil) (from_ c!"in")) (.redirect (.pipe (.func 2) (.command 3 .nil)) (err_ c!"err"))) (to_ c!"out")
theorem redirected_shape : redirected.Redirectable sys [] := by
  simp only [redirected, Pipeline.Redirectable, Args.Redirectable, true_and, and_true]
  refine ⟨⟨⟨built _ rfl, ?_⟩, ⟨rfl, built _ rfl, ?_⟩, rfl⟩, built _ rfl, ?_⟩ <;>
    (intro r hr; simp [Dict.values, from_, to_, err_] at hr; subst hr; exact .inl ⟨_, rfl, rfl, by decide⟩)
theorem redirected_chain : redirected.Chain := by
  intro l hl
  simp [redirected, Pipeline.links, pushIn, pushOut, pushErr] at hl
  rcases hl with rfl | rfl | rfl <;> simp [Pipeline.leafId]
/-- `a | (b < "f")` -/
def cut : Pipeline := .pipe (.command 1 .nil) (.redirect (.command 2 .nil) (from_ c!"f"))
theorem cut_shape : cut.Redirectable sys [] := by
  simp only [cut, Pipeline.Redirectable, Args.Redirectable, true_and]
  refine ⟨⟨built _ rfl, ?_⟩, rfl⟩
  intro r hr; simp [Dict.values, from_] at hr; subst hr; exact .inl ⟨_, rfl, rfl, by decide⟩
theorem cut_chain : cut.Chain := by
  intro l hl
  simp [cut, Pipeline.links, pushIn, pushOut, pushErr] at hl
  rcases hl with rfl | rfl <;> simp [Pipeline.leafId]
end RunEx

/-! ## C12 -/

/-- Splitting the started items along the reference. -/
theorem items_split {lf : Nat} {lg : Option Obj} {g : Nat → Option Entry} {items : List Item} {ra rb : List RItem}
    (h : Pointwise (ItemOk lf lg g) items (ra ++ rb)) :
    ∃ xs ys, items = xs ++ ys ∧ Pointwise (ItemOk lf lg g) xs ra ∧ Pointwise (ItemOk lf lg g) ys rb := h.split_append

/-- **C12.** A chain of commands, functions and iterators, with `|` parenthesised in any way, and with redirections
around items, parts of the chain, or all of it, can be started with any suitable table in any shell state with room for
its descriptors; its items are wired one after the other, and when its output is to be a pipe, the caller gets the read
end of the last one. -/
theorem C12_wired_left_to_right (sys : Sys) (cwd : Str) (w : World) (rs : Redirects) (p : Pipeline) (i : Obj) (o e : Want)
    (hs : Startable sys cwd w rs p i o e) (hc : p.Chain) :
    ∃ items rs' w' segs q, runP sys cwd p rs w = (.ok (items, rs'), w') ∧ items = segs.flatten ∧
      Wired cwd w w' p i o e segs q ∧
      (p.outWant cwd o = .pipeOut → ∃ r u, Dict.get? rs' 1 = some r ∧ r.pipe = .fd u ∧
        (w'.fds.get u).map Entry.obj = some (.pipeR (q (p.links.length - 1)))) := by
  obtain ⟨items, rs', w', segs, q, h1, h2, h3, h4, -⟩ := chain_spec (cwd := cwd) hs hc
  exact ⟨items, rs', w', segs, q, h1, h2, h3, h4⟩

example : ∃ items rs' w' segs q, runP RunEx.sys [] RunEx.chain RunEx.iterRs RunEx.world = (.ok (items, rs'), w') ∧
    items = segs.flatten ∧ Wired [] RunEx.world w' RunEx.chain (.inherited 0) .pipeOut .tmp segs q := by
  obtain ⟨items, rs', w', segs, q, h1, h2, h3, -⟩ :=
    C12_wired_left_to_right _ [] _ _ _ _ _ _ (RunEx.startable RunEx.chain RunEx.chain_cost RunEx.chain_shape) RunEx.chain_chain
  exact ⟨items, rs', w', segs, q, h1, h2, h3⟩

/-- With redirections: the first item reads from "in", the last two have stderr in "err", the last one writes to "out". -/
example : ∃ items rs' w' segs q, runP RunEx.sys [] RunEx.redirected RunEx.iterRs RunEx.world = (.ok (items, rs'), w') ∧
    items = segs.flatten ∧ Wired [] RunEx.world w' RunEx.redirected (.inherited 0) .pipeOut .tmp segs q ∧
    (∃ s m, segs[0]? = some s ∧ s.getLast? = some m ∧ m.id = 1 ∧ m.stdin w' = some (.file [] c!"in" O_RDONLY defaultMode)) ∧
    (∃ s m, segs[2]? = some s ∧ s.getLast? = some m ∧ m.id = 3 ∧
      m.stdout w' = some (.file [] c!"out" (O_WRONLY ||| O_CREAT) defaultMode)) := by
  obtain ⟨items, rs', w', segs, q, h1, h2, h3, -⟩ :=
    C12_wired_left_to_right _ [] _ _ _ _ _ _ (RunEx.startable RunEx.redirected (by decide) RunEx.redirected_shape) RunEx.redirected_chain
  refine ⟨items, rs', w', segs, q, h1, h2, h3, ?_, ?_⟩
  · obtain ⟨s, m, a1, -, a3, a4, a5, -⟩ := h3.wired 0 _ rfl
    exact ⟨s, m, a1, a3, (Option.some.inj a4).symm, a5 trivial⟩
  · obtain ⟨s, m, a1, -, a3, a4, -, ⟨ob, a6, a7⟩, -⟩ := h3.wired 2 _ rfl
    exact ⟨s, m, a1, a3, (Option.some.inj a4).symm, by rw [a6]; exact congrArg some a7⟩

/-! ## C13 -/

theorem given_iff {rs : Redirects} {p : Pipeline} {n : Nat} : n ∈ usedFds p rs ↔ rs.GivenTo p n :=
  mem_usedFds.trans ⟨fun ⟨r, a, b, c, d⟩ => ⟨r, a, c, d, b⟩, fun ⟨r, a, c, d, b⟩ => ⟨r, a, b, c, d⟩⟩

/-- **C13 (exact).** After starting any pipeline of commands, functions, iterators, `|`, `+` and redirections: which
descriptors the shell has. Besides what python functions hold and the caller's end of the output pipe, it keeps one
read end of a pipe for every `a + b` where the output of `a` is a pipe, and for every `a | b` where the input of `b` is
redirected, and nobody will ever use or close these. -/
theorem C13_exact (sys : Sys) (cwd : Str) (w : World) (rs : Redirects) (p : Pipeline) (i : Obj) (o e : Want)
    (hs : Startable sys cwd w rs p i o e) (hm : w.PipesMade) :
    ∃ items rs' w' out leaked, runP sys cwd p rs w = (.ok (items, rs'), w') ∧
      ShellFds w w' rs p items out leaked ∧ UserOut w' (p.outWant cwd o) rs' out ∧
      leaked.Nodup ∧ leaked.length = p.lost (decide (o = .pipeOut)) ∧
      ∀ n ∈ leaked, w.fds.get n = none ∧ n ∉ heldFds items ∧ n ∉ out ∧
        ∃ q, w'.fds.get n = some { obj := .pipeR q, cloexec := true } ∧ ∀ x ∈ items, ¬ x.Holds w' (.pipeR q) := by
  obtain ⟨⟨H, L, hr, hl, hstd⟩, ho, he, hsh, hlow, hpo⟩ := hs
  obtain ⟨items, rs', w', ul, lk, hrun, P⟩ := run_spec sys cwd p hsh hr hl hstd ho he hlow hpo
  obtain ⟨oi, oo, oe⟩ := hstd.old
  obtain ⟨F, -⟩ := refRun_free p hsh i o e w.ctr ho he ((oi i rfl).old hm) (fun b hb => (oo b hb).old hm) (fun b hb => (oe b hb).old hm)
  refine ⟨items, rs', w', ul, lk, hrun, ⟨?_, ?_, ?_⟩, ?_, ?_, ?_, ?_⟩
  · intro n hn; exact (P.delta.closed n (given_iff.2 hn)).2
  · intro n h1 h2; exact P.delta.kept n h1 (fun h => h2 (given_iff.1 h))
  · intro n hn
    constructor
    · intro h
      have := P.delta.only n h hn
      simp only [List.mem_append] at this
      rcases this with (h | h) | h
      · exact .inl h
      · exact .inr (.inl h)
      · exact .inr (.inr h)
    · intro h
      refine (P.delta.fresh n ?_).2.1
      simp only [List.mem_append]
      rcases h with h | h | h
      · exact .inl (.inl h)
      · exact .inl (.inr h)
      · exact .inr h
  · unfold UserOut
    by_cases hp : p.outWant cwd o = .pipeOut
    · rw [if_pos hp]
      obtain ⟨r, h1, h2⟩ := P.r1
      obtain ⟨u, h3, h4, h5⟩ := h2 hp
      exact ⟨r, u, _, h3, h1, h4, h5⟩
    · rw [if_neg hp]; exact P.r1' hp
  · -- distinct, because they refer to distinct pipes
    have key : ∀ (lk : List Nat) (ls : List Obj), Pointwise (fun n ob => w'.fds.get n = some { obj := ob, cloexec := true }) lk ls →
        ls.Nodup → lk.Nodup := by
      intro lk ls h
      induction h with
      | nil => simp
      | @cons a b l l' h1 h2 ih =>
        intro hn
        rw [List.nodup_cons] at hn ⊢
        refine ⟨fun hmem => ?_, ih hn.2⟩
        obtain ⟨ob, hob1, hob2⟩ := h2.mem hmem
        rw [h1] at hob2
        cases hob2
        exact hn.1 hob1
    exact key _ _ P.leaks F.nodup
  · rw [P.leaks.length, refRun_leaks p _ _ _ _ (decide (o = .pipeOut)) (by simp)]
  · intro n hn
    obtain ⟨ob, hob1, hob2⟩ := P.leaks.mem hn
    obtain ⟨q, hq1, hq2, rfl⟩ := F.fresh ob hob1
    have hno : ∀ x ∈ items, ¬ x.Holds w' (.pipeR q) := by
      intro x hx hh
      obtain ⟨y, hy1, hy2⟩ := P.itemsOk.mem hx
      rcases hy2.holds hh with h | h
      · exact F.unused _ hob1 y hy1 h
      · exact absurd rfl ((OldIn.log h).notPipe hm q hq1).1
    refine ⟨(P.delta.fresh n (by simp [hn])).1, ?_, fun h => (P.disj n h).2 hn, q, hob2, hno⟩
    intro h
    obtain ⟨x, hx, hh⟩ := mem_heldFds h
    exact hno x hx (hh w' _ hob2)

/-- **C13 (the property, where it holds).** Nothing is left behind when no `a + b` has a pipe as output of `a`, and no
`a | b` a redirected input of `b`. -/
theorem C13_no_leak_partial (sys : Sys) (cwd : Str) (w : World) (rs : Redirects) (p : Pipeline) (i : Obj) (o e : Want)
    (hs : Startable sys cwd w rs p i o e) (hm : w.PipesMade) (hg : p.lost (decide (o = .pipeOut)) = 0) :
    ∃ items rs' w' out, runP sys cwd p rs w = (.ok (items, rs'), w') ∧
      ShellFds w w' rs p items out [] ∧ UserOut w' (p.outWant cwd o) rs' out := by
  obtain ⟨items, rs', w', out, leaked, h1, h2, h3, h4, h5, h6⟩ := C13_exact sys cwd w rs p i o e hs hm
  rw [hg] at h5
  have : leaked = [] := List.length_eq_zero_iff.1 h5
  subst this
  exact ⟨items, rs', w', out, h1, h2, h3⟩

example : ∃ items rs' w' out, runP RunEx.sys [] RunEx.chain RunEx.iterRs RunEx.world = (.ok (items, rs'), w') ∧
    ShellFds RunEx.world w' RunEx.iterRs RunEx.chain items out [] ∧ UserOut w' .pipeOut rs' out :=
  C13_no_leak_partial _ _ _ _ _ _ _ _ (RunEx.startable RunEx.chain RunEx.chain_cost RunEx.chain_shape) RunEx.made (by decide)

example : ∃ items rs' w' out, runP RunEx.sys [] RunEx.redirected RunEx.iterRs RunEx.world = (.ok (items, rs'), w') ∧
    ShellFds RunEx.world w' RunEx.iterRs RunEx.redirected items out [] ∧
    UserOut w' (.obj (.file [] c!"out" (O_WRONLY ||| O_CREAT) defaultMode)) rs' out :=
  C13_no_leak_partial _ _ _ _ _ _ _ _ (RunEx.startable RunEx.redirected (by decide) RunEx.redirected_shape) RunEx.made (by decide)

/-- The property of C13 for one run. -/
def LeaksNothing (sys : Sys) (cwd : Str) (w : World) (rs : Redirects) (p : Pipeline) (o : Want) : Prop :=
  ∀ items rs' w', runP sys cwd p rs w = (.ok (items, rs'), w') →
    ∃ out, UserOut w' (p.outWant cwd o) rs' out ∧ ShellFds w w' rs p items out []

/-- **C13 is false** for every pipeline with an `a + b` where the output of `a` is a pipe, or with an `a | b` where the
input of `b` is redirected. -/
theorem C13_refuted (sys : Sys) (cwd : Str) (w : World) (rs : Redirects) (p : Pipeline) (i : Obj) (o e : Want)
    (hs : Startable sys cwd w rs p i o e) (hm : w.PipesMade)
    (hg : p.lost (decide (o = .pipeOut)) ≠ 0) : ¬ LeaksNothing sys cwd w rs p o := by
  intro hn
  obtain ⟨items, rs', w', out, leaked, h1, h2, h3, h4, h5, h6⟩ := C13_exact sys cwd w rs p i o e hs hm
  obtain ⟨out', h7, h8⟩ := hn items rs' w' h1
  have hout : out' = out := by
    unfold UserOut at h3 h7
    split at h3
    · next hp =>
      rw [if_pos hp] at h7
      obtain ⟨r, u, q, rfl, a, b, -⟩ := h3
      obtain ⟨r', u', q', rfl, a', b', -⟩ := h7
      rw [a] at a'; cases a'; rw [b] at b'; cases b'; rfl
    · next hp => rw [if_neg hp] at h7; rw [h3, h7]
  subst hout
  cases leaked with
  | nil => exact hg (by simpa using h5.symm)
  | cons n l =>
    obtain ⟨hw, a, b, q, c, -⟩ := h6 n (by simp)
    rcases (h8.new n hw).1 (by simp [c]) with h | h | h
    · exact a h
    · exact b h
    · simp at h

example : ¬ LeaksNothing RunEx.sys [] RunEx.world RunEx.iterRs (.group (.command 1 .nil) (.command 2 .nil)) .pipeOut :=
  C13_refuted _ _ _ _ _ _ _ _ (RunEx.startable _ (by decide) (by simp [Pipeline.Redirectable, Args.Redirectable])) RunEx.made (by decide)

/-- **C13 is also false** for `a | (b < "f")`: the read end of the pipe stays open in the shell. -/
theorem C13_refuted_redirected_stdin : ∃ (sys : Sys) (w : World) (rs : Redirects),
    Startable sys [] w rs RunEx.cut (.inherited 0) (.obj (.inherited 1)) .tmp ∧
    ¬ LeaksNothing sys [] w rs RunEx.cut (.obj (.inherited 1)) :=
  ⟨_, _, _, RunEx.startable' _ (by decide) RunEx.cut_shape,
    C13_refuted _ _ _ _ _ _ _ _ (RunEx.startable' _ (by decide) RunEx.cut_shape) RunEx.made (by decide)⟩

/-! ## C14 -/

/-- **C14 (exact).** When a chain, possibly with redirections, has been started, the write end of the pipe between neighbours `k` and `k+1` is open only
in what was started for item `k`, and the read end only in what was started for item `k+1`: no other process and no
other descriptor of the shell refers to them. (What was started for an item is the item itself and, before it, the
items of pipelines and functions among its arguments.) The exception is a pipe to an item whose input is redirected:
no item has its read end, but the shell does (see `C14_refuted_redirected_stdin`). -/
theorem C14_exact (sys : Sys) (cwd : Str) (w : World) (rs : Redirects) (p : Pipeline) (i : Obj) (o e : Want)
    (hs : Startable sys cwd w rs p i o e) (hc : p.Chain) (hm : w.PipesMade) :
    ∃ items rs' w' segs q, runP sys cwd p rs w = (.ok (items, rs'), w') ∧ items = segs.flatten ∧
      Wired cwd w w' p i o e segs q ∧
      ∀ k, k + 1 < p.links.length →
        (∀ (j : Nat) (s : List Item) (x : Item), segs[j]? = some s → x ∈ s →
          (x.Holds w' (.pipeW (q k)) → j = k) ∧
          (x.Holds w' (.pipeR (q k)) → j = k + 1 ∧ ∀ l, p.links[j]? = some l → l.inp = none)) ∧
        (∀ fd en, w'.fds.get fd = some en →
          (en.obj = .pipeW (q k) → ∃ s, segs[k]? = some s ∧ fd ∈ heldFds s) ∧
          (en.obj = .pipeR (q k) → (∃ s, segs[k + 1]? = some s ∧ fd ∈ heldFds s) ∨ ∃ l, p.links[k + 1]? = some l ∧ l.inp ≠ none)) := by
  obtain ⟨items, rs', w', segs, q, h1, h2, h3, -, h5⟩ := chain_spec hs hc
  refine ⟨items, rs', w', segs, q, h1, h2, h3, fun k hk => ?_⟩
  obtain ⟨a, b⟩ := h5 hm k (by omega) (fun h => by omega)
  refine ⟨a, fun fd en h => ⟨(b fd en h).1, fun h' => ?_⟩⟩
  rcases (b fd en h).2 h' with c | c | c
  · exact .inl c
  · exact .inr c
  · omega

example : RunEx.chain.links.length = 4 ∧ Startable RunEx.sys [] RunEx.world RunEx.iterRs RunEx.chain (.inherited 0) .pipeOut .tmp ∧
    RunEx.chain.Chain ∧ RunEx.world.PipesMade :=
  ⟨rfl, RunEx.startable _ RunEx.chain_cost RunEx.chain_shape, RunEx.chain_chain, RunEx.made⟩

example : RunEx.redirected.links.length = 3 ∧ Startable RunEx.sys [] RunEx.world RunEx.iterRs RunEx.redirected (.inherited 0) .pipeOut .tmp ∧
    RunEx.redirected.Chain ∧ RunEx.world.PipesMade :=
  ⟨rfl, RunEx.startable _ (by decide) RunEx.redirected_shape, RunEx.redirected_chain, RunEx.made⟩

/-- **C14.** When a chain has been started in which no item but the first has a redirected stdin, the write end of the
pipe between neighbours `k` and `k+1` is open only in what was started for item `k`, and the read end only in what was
started for item `k+1`: no other process and no other descriptor of the shell refers to them. -/
theorem C14_end_of_file_propagates (sys : Sys) (cwd : Str) (w : World) (rs : Redirects) (p : Pipeline) (i : Obj) (o e : Want)
    (hs : Startable sys cwd w rs p i o e) (hc : p.Chain) (hm : w.PipesMade)
    (hin : ∀ (k : Nat) (l : Link), p.links[k + 1]? = some l → l.inp = none) :
    ∃ items rs' w' segs q, runP sys cwd p rs w = (.ok (items, rs'), w') ∧ items = segs.flatten ∧
      Wired cwd w w' p i o e segs q ∧
      ∀ k, k + 1 < p.links.length →
        (∀ (j : Nat) (s : List Item) (x : Item), segs[j]? = some s → x ∈ s →
          (x.Holds w' (.pipeW (q k)) → j = k) ∧ (x.Holds w' (.pipeR (q k)) → j = k + 1)) ∧
        (∀ fd en, w'.fds.get fd = some en →
          (en.obj = .pipeW (q k) → ∃ s, segs[k]? = some s ∧ fd ∈ heldFds s) ∧
          (en.obj = .pipeR (q k) → ∃ s, segs[k + 1]? = some s ∧ fd ∈ heldFds s)) := by
  obtain ⟨items, rs', w', segs, q, h1, h2, h3, h4⟩ := C14_exact sys cwd w rs p i o e hs hc hm
  refine ⟨items, rs', w', segs, q, h1, h2, h3, fun k hk => ⟨fun j s x hj hx => ?_, fun fd en hfd => ?_⟩⟩
  · have := (h4 k hk).1 j s x hj hx
    exact ⟨this.1, fun h => (this.2 h).1⟩
  · have := (h4 k hk).2 fd en hfd
    refine ⟨this.1, fun h => ?_⟩
    rcases this.2 h with h | ⟨l, g1, g2⟩
    · exact h
    · exact absurd (hin k l g1) g2

example : ∀ (k : Nat) (l : Link), RunEx.redirected.links[k + 1]? = some l → l.inp = none := by
  intro k l h
  match k, h with
  | 0, h => cases h; rfl
  | 1, h => cases h; rfl
  | k + 2, h => cases h

/-- **C14 is false for `a | b` when `b` is redirected for stdin**, as in `a | (b < "f")`: the last item of `a` writes
to a pipe from which nobody reads, but the shell itself keeps its read end; so the writer is not told (SIGPIPE) that
nobody reads, and waits forever when the pipe is full. -/
theorem C14_refuted_redirected_stdin (sys : Sys) (cwd : Str) (w : World) (rs : Redirects) (a b : Pipeline) (i : Obj) (o e : Want)
    (hs : Startable sys cwd w rs (.pipe a b) i o e) (hb : b.takes 0 = true) (hm : w.PipesMade) :
    ∃ items rs' w' xs ys m q fd, runP sys cwd (.pipe a b) rs w = (.ok (items, rs'), w') ∧
      items = xs ++ ys ∧ xs.map Item.id = a.ids ∧ ys.map Item.id = b.ids ∧ xs.getLast? = some m ∧
      m.stdout w' = some (.pipeW q) ∧ (w'.fds.get fd).map Entry.obj = some (.pipeR q) ∧
      ∀ x ∈ items, ¬ x.Holds w' (.pipeR q) := by
  obtain ⟨⟨H, L, hr, hl, hstd⟩, ho, he, hsh, hlow, hpo⟩ := hs
  obtain ⟨items, rs', w', ul, lk, hrun, P⟩ := run_spec sys cwd (.pipe a b) hsh hr hl hstd ho he hlow hpo
  obtain ⟨oi, oo, oe⟩ := hstd.old
  obtain ⟨F, -⟩ := refRun_free (.pipe a b) hsh i o e w.ctr ho he ((oi i rfl).old hm) (fun b hb => (oo b hb).old hm) (fun b hb => (oe b hb).old hm)
  have hleak : Obj.pipeR (refRun cwd a i .pipeOut e w.ctr).out ∈ (refRun cwd (.pipe a b) i o e w.ctr).leaks := by simp [refRun, hb]
  obtain ⟨k, hk⟩ := List.mem_iff_getElem?.1 hleak
  obtain ⟨fd, hfd1, hfd2⟩ := P.leaks.get hk
  have hI := P.itemsOk
  simp only [refRun] at hI
  obtain ⟨xs, ys, rfl, hx, hy⟩ := items_split hI
  obtain ⟨m, hm1, hm2⟩ := refRun_last (cwd := cwd) a i .pipeOut e w.ctr trivial
  obtain ⟨m', hm1', hmok⟩ := hx.getLast hm1
  simp only [Pipeline.Redirectable] at hsh
  rw [hsh.2.2] at hm2
  refine ⟨_, rs', w', xs, ys, m', (refRun cwd a i .pipeOut e w.ctr).out, fd, hrun, rfl, by rw [ItemOk.ids hx, refRun_ids],
    by rw [ItemOk.ids hy, refRun_ids], hm1', by rw [hmok.stdout]; exact congrArg some hm2, by rw [hfd2]; rfl, ?_⟩
  intro x hx' hh
  obtain ⟨y, hy1, hy2⟩ := P.itemsOk.mem hx'
  rcases hy2.holds hh with h | h
  · exact F.unused _ hleak y hy1 h
  · exact absurd rfl ((OldIn.log h).notPipe hm _ (refRun_out (cwd := cwd) a i .pipeOut e w.ctr).1).1

example : Startable RunEx.sys [] RunEx.world defaultRedirects RunEx.cut (.inherited 0) (.obj (.inherited 1)) .tmp ∧
    (Pipeline.redirect (.command 2 .nil) (RunEx.from_ c!"f")).takes 0 = true :=
  ⟨RunEx.startable' _ (by decide) RunEx.cut_shape, rfl⟩

/-! ## C15 -/

/-- **C15 is false**: when a group is iterated over (its output is a pipe), the last item started for `a` writes to a
pipe that nobody reads - while its read end stays open in the shell, so that the writer is not even stopped by
SIGPIPE - and the caller reads from another one. This holds for every `a` and `b` whose output is not redirected. -/
theorem C15_refuted (sys : Sys) (cwd : Str) (w : World) (rs : Redirects) (a b : Pipeline) (i : Obj) (e : Want)
    (hs : Startable sys cwd w rs (.group a b) i .pipeOut e) (ha : a.outWant cwd .pipeOut = .pipeOut)
    (hb : b.outWant cwd .pipeOut = .pipeOut) (hm : w.PipesMade) :
    ∃ items rs' w' xs ys m r u q q' fd, runP sys cwd (.group a b) rs w = (.ok (items, rs'), w') ∧
      items = xs ++ ys ∧ xs.map Item.id = a.ids ∧ ys.map Item.id = b.ids ∧
      xs.getLast? = some m ∧ m.stdout w' = some (.pipeW q) ∧
      Dict.get? rs' 1 = some r ∧ r.pipe = .fd u ∧ (w'.fds.get u).map Entry.obj = some (.pipeR q') ∧ q ≠ q' ∧
      (∀ x ∈ items, ¬ x.Holds w' (.pipeR q)) ∧ (w'.fds.get fd).map Entry.obj = some (.pipeR q) := by
  obtain ⟨⟨H, L, hr, hl, hstd⟩, ho, he, hsh, hlow, hpo⟩ := hs
  obtain ⟨items, rs', w', ul, lk, hrun, P⟩ := run_spec sys cwd (.group a b) hsh hr hl hstd ho he hlow hpo
  obtain ⟨oi, oo, oe⟩ := hstd.old
  obtain ⟨F, -⟩ := refRun_free (.group a b) hsh i .pipeOut e w.ctr ho he ((oi i rfl).old hm) (fun b hb => (oo b hb).old hm) (fun b hb => (oe b hb).old hm)
  have hI := P.itemsOk
  simp only [refRun] at hI
  obtain ⟨xs, ys, rfl, hx, hy⟩ := items_split hI
  obtain ⟨m, hm1, hm2⟩ := refRun_last (cwd := cwd) a i .pipeOut e w.ctr trivial
  rw [ha] at hm2
  obtain ⟨m', hm1', hmok⟩ := hx.getLast hm1
  obtain ⟨r, h1, h2⟩ := P.r1
  obtain ⟨u, h3, h4, h5⟩ := h2 (by simpa only [Pipeline.outWant] using hb)
  have hleak : Obj.pipeR (refRun cwd a i .pipeOut e w.ctr).out ∈ (refRun cwd (.group a b) i .pipeOut e w.ctr).leaks := by simp [refRun, ha]
  obtain ⟨k, hk⟩ := List.mem_iff_getElem?.1 hleak
  obtain ⟨fd, hfd1, hfd2⟩ := P.leaks.get hk
  have mo := (refRun_out (cwd := cwd) a i .pipeOut e w.ctr).2 ha
  have mob := (refRun_out (cwd := cwd) b i .pipeOut e (refRun cwd a i .pipeOut e w.ctr).ctr).1
  refine ⟨_, rs', w', xs, ys, m', r, u, (refRun cwd a i .pipeOut e w.ctr).out, (refRun cwd (.group a b) i .pipeOut e w.ctr).out, fd, hrun, rfl,
    by rw [ItemOk.ids hx, refRun_ids], by rw [ItemOk.ids hy, refRun_ids], hm1', by rw [hmok.stdout]; exact congrArg some hm2, h1, h4, by rw [h5]; rfl,
    ?_, ?_, by rw [hfd2]; rfl⟩
  · simp only [refRun]; omega
  · intro x hx' hh
    obtain ⟨y, hy1, hy2⟩ := P.itemsOk.mem hx'
    rcases hy2.holds hh with h | h
    · exact F.unused _ hleak y hy1 h
    · exact absurd rfl ((OldIn.log h).notPipe hm _ (refRun_out (cwd := cwd) a i .pipeOut e w.ctr).1).1

example : Startable RunEx.sys [] RunEx.world RunEx.iterRs (.group RunEx.chain (.command 7 .nil)) (.inherited 0) .pipeOut .tmp ∧
    RunEx.chain.outWant [] .pipeOut = .pipeOut :=
  ⟨RunEx.startable _ (by decide) ⟨RunEx.chain_shape, trivial⟩, rfl⟩

/-- **C15 is false for `(a + b) | c`** as well: `c` reads from a pipe other than the one `a` writes to, and nobody
reads from that one. -/
theorem C15_refuted_piped (sys : Sys) (cwd : Str) (w : World) (rs : Redirects) (a b : Pipeline) (id : Nat) (args : Args) (i : Obj) (o e : Want)
    (hs : Startable sys cwd w rs (.pipe (.group a b) (.command id args)) i o e) (ha : a.outWant cwd .pipeOut = .pipeOut)
    (hm : w.PipesMade) :
    ∃ items rs' w' xs ys zs m z q q', runP sys cwd (.pipe (.group a b) (.command id args)) rs w = (.ok (items, rs'), w') ∧
      items = xs ++ ys ++ zs ++ [z] ∧ xs.map Item.id = a.ids ∧ ys.map Item.id = b.ids ∧ z.id = id ∧
      xs.getLast? = some m ∧ m.stdout w' = some (.pipeW q) ∧ z.stdin w' = some (.pipeR q') ∧ q ≠ q' ∧
      (∀ x ∈ items, ¬ x.Holds w' (.pipeR q)) := by
  obtain ⟨⟨H, L, hr, hl, hstd⟩, ho, he, hsh, hlow, hpo⟩ := hs
  obtain ⟨items, rs', w', ul, lk, hrun, P⟩ := run_spec sys cwd (.pipe (.group a b) (.command id args)) hsh hr hl hstd ho he hlow hpo
  obtain ⟨oi, oo, oe⟩ := hstd.old
  obtain ⟨F, -⟩ := refRun_free (.pipe (.group a b) (.command id args)) hsh i o e w.ctr ho he ((oi i rfl).old hm) (fun b hb => (oo b hb).old hm) (fun b hb => (oe b hb).old hm)
  have hleak : Obj.pipeR (refRun cwd a i .pipeOut e w.ctr).out ∈ (refRun cwd (.pipe (.group a b) (.command id args)) i o e w.ctr).leaks := by
    simp [refRun, ha]
  have mo := (refRun_out (cwd := cwd) a i .pipeOut e w.ctr).2 ha
  have mob := (refRun_out (cwd := cwd) b i .pipeOut e (refRun cwd a i .pipeOut e w.ctr).ctr).1
  have hI := P.itemsOk
  have hno : ∀ x ∈ items, ¬ x.Holds w' (.pipeR (refRun cwd a i .pipeOut e w.ctr).out) := by
    intro x hx' hh
    obtain ⟨y, hy1, hy2⟩ := P.itemsOk.mem hx'
    rcases hy2.holds hh with h | h
    · exact F.unused _ hleak y hy1 h
    · exact absurd rfl ((OldIn.log h).notPipe hm _ (refRun_out (cwd := cwd) a i .pipeOut e w.ctr).1).1
  simp only [refRun] at hI
  obtain ⟨xy, zz, rfl, hxy, hz⟩ := items_split hI
  obtain ⟨xs, ys, rfl, hx, hy⟩ := items_split hxy
  obtain ⟨zs, z', rfl, hzs, hz'⟩ := items_split hz
  cases hz' with
  | cons hz1 hz2 =>
    cases hz2 with
    | nil =>
      obtain ⟨m, hm1, hm2⟩ := refRun_last (cwd := cwd) a i .pipeOut e w.ctr trivial
      rw [ha] at hm2
      obtain ⟨m', hm1', hmok⟩ := hx.getLast hm1
      refine ⟨_, rs', w', xs, ys, zs, m', _, (refRun cwd a i .pipeOut e w.ctr).out, (refRun cwd b i .pipeOut e (refRun cwd a i .pipeOut e w.ctr).ctr).out, hrun,
        by simp [List.append_assoc], by rw [ItemOk.ids hx, refRun_ids], by rw [ItemOk.ids hy, refRun_ids], hz1.id, hm1',
        by rw [hmok.stdout]; exact congrArg some hm2, by rw [hz1.stdin]; rfl, ?_, hno⟩
      omega

example : Startable RunEx.sys [] RunEx.world defaultRedirects RunEx.grp (.inherited 0) (.obj (.inherited 1)) .tmp :=
  RunEx.startable' _ (by decide) RunEx.grp_shape

/-- **C15 (the part that holds).** When the output is an open descriptor that is not a pipe of the group's own (for
instance `a + b` run with output to the terminal), and neither `a` nor `b` redirects it, both write to it. (If the output is
a file redirected to by name, both write to that file, but through open file descriptions of their own: C77.) -/
theorem C15_both_write_to_the_same_object_partial (sys : Sys) (cwd : Str) (w : World) (rs : Redirects) (a b : Pipeline) (i ob : Obj) (e : Want)
    (hs : Startable sys cwd w rs (.group a b) i (.obj ob) e) (ha : a.outWant cwd (.obj ob) = .obj ob)
    (hb : b.outWant cwd (.obj ob) = .obj ob) :
    ∃ items rs' w' xs ys m m', runP sys cwd (.group a b) rs w = (.ok (items, rs'), w') ∧
      items = xs ++ ys ∧ xs.map Item.id = a.ids ∧ ys.map Item.id = b.ids ∧
      xs.getLast? = some m ∧ m.stdout w' = some ob ∧ ys.getLast? = some m' ∧ m'.stdout w' = some ob := by
  obtain ⟨⟨H, L, hr, hl, hstd⟩, ho, he, hsh, hlow, hpo⟩ := hs
  obtain ⟨items, rs', w', ul, lk, hrun, P⟩ := run_spec sys cwd (.group a b) hsh hr hl hstd ho he hlow hpo
  have hI := P.itemsOk
  simp only [refRun] at hI
  obtain ⟨xs, ys, rfl, hx, hy⟩ := items_split hI
  obtain ⟨m, hm1, hm2⟩ := refRun_last (cwd := cwd) a i (.obj ob) e w.ctr trivial
  obtain ⟨m', hm1', hmok⟩ := hx.getLast hm1
  obtain ⟨n, hn1, hn2⟩ := refRun_last (cwd := cwd) b i (.obj ob) e (refRun cwd a i (.obj ob) e w.ctr).ctr trivial
  obtain ⟨n', hn1', hnok⟩ := hy.getLast hn1
  rw [ha] at hm2
  rw [hb] at hn2
  exact ⟨_, rs', w', xs, ys, m', n', hrun, rfl, by rw [ItemOk.ids hx, refRun_ids], by rw [ItemOk.ids hy, refRun_ids], hm1',
    by rw [hmok.stdout]; exact congrArg some hm2, hn1', by rw [hnok.stdout]; exact congrArg some hn2⟩

example : Startable RunEx.sys [] RunEx.world defaultRedirects (.group RunEx.chain (.command 7 .nil)) (.inherited 0) (.obj (.inherited 1)) .tmp :=
  RunEx.startable' _ (by decide) ⟨RunEx.chain_shape, trivial⟩

/-! ## C16 -/

theorem RunM.bind_inv {α β : Type} {x : RunM α} {f : α → RunM β} {w w' : World} {b : β}
    (h : (x >>= f) w = (.ok b, w')) : ∃ a w1, x w = (.ok a, w1) ∧ f a w1 = (.ok b, w') := by
  have h : RunM.bind x f w = _ := h
  unfold RunM.bind at h
  split at h
  · next a w1 hx => exact ⟨a, w1, hx, h⟩
  · cases h

theorem RunM.lift_inv {α : Type} {x : Except Exn α} {w w' : World} {a : α} (h : RunM.lift x w = (.ok a, w')) : x = .ok a ∧ w' = w := by
  unfold RunM.lift at h; cases h; exact ⟨rfl, rfl⟩

theorem RunM.onFds_started {α : Type} {f : FdTable → Except Exn α × FdTable} {w w' : World} {a : α}
    (h : RunM.onFds f w = (.ok a, w')) : w'.started = w.started := by
  unfold RunM.onFds at h
  have := congrArg Prod.snd h
  simp only at this
  rw [← this]

theorem RunM.pure_inv {α : Type} {a b : α} {w w' : World} (h : (Pure.pure a : RunM α) w = (.ok b, w')) : b = a ∧ w' = w := by
  have h : RunM.pure a w = _ := h
  unfold RunM.pure at h; cases h; exact ⟨rfl, rfl⟩

theorem makePipe_started (r : Redirect) (w : World) : (r.makePipe w).2.started = w.started := by
  unfold Redirect.makePipe
  split
  · simp only [pipeCloexec]; split <;> rfl
  · split <;> rfl
  · split <;> rfl
  · rfl

theorem makePipesList_started (l : List Redirect) (w : World) : (makePipesList l w).2.started = w.started := by
  induction l generalizing w with
  | nil => rfl
  | cons r l ih =>
    have h1 := makePipe_started r w
    unfold makePipesList
    split
    · next e w1 h => rw [h] at h1; exact h1
    · next r' w1 h =>
      rw [h] at h1
      have h2 := ih w1
      split
      · next e w2 h' => rw [h'] at h2; exact h2.trans h1
      · next l' w2 h' => rw [h'] at h2; exact h2.trans h1

theorem makePipes_started {rs m : Redirects} {w w' : World} (h : rs.makePipes w = (.ok m, w')) : w'.started = w.started := by
  have h1 := makePipesList_started (Dict.values rs) w
  unfold Redirects.makePipes at h
  split at h
  · cases h
  · next l w1 hl =>
    rw [hl] at h1
    have := congrArg Prod.snd h
    simp only at this
    rw [← this]; exact h1

theorem runFunc_started {sys : Sys} {cwd : Str} {id : Nat} {takes : Bool} {rs rs' : Redirects} {w w' : World} {items : List Item}
    (h : runFunc sys cwd id takes rs w = (.ok (items, rs'), w')) : items.map Item.id = [id] ∧ w'.started = w.started ++ [id] := by
  unfold runFunc at h
  obtain ⟨m, w1, h1, h⟩ := RunM.bind_inv h
  obtain ⟨inFd, w2, h2, h⟩ := RunM.bind_inv h
  obtain ⟨r, w3, h3, h⟩ := RunM.bind_inv h
  obtain ⟨outFd, w4, h4, h⟩ := RunM.bind_inv h
  obtain ⟨_, w4', h4', h⟩ := RunM.bind_inv h
  cases RunM.poll_inv h4'
  obtain ⟨_, w5, h5, h⟩ := RunM.bind_inv h
  obtain ⟨_, w6, h6, h⟩ := RunM.bind_inv h
  have e1 := makePipes_started h1
  have e2 : w2.started = w1.started := by
    cases takes with
    | true =>
      simp only [↓reduceIte] at h2
      obtain ⟨r, w3, h3, h⟩ := RunM.bind_inv h2
      obtain ⟨r', w4, h4, h⟩ := RunM.bind_inv h
      obtain ⟨_, w5, h5, h⟩ := RunM.bind_inv h
      cases RunM.poll_inv h5
      obtain ⟨-, rfl⟩ := RunM.pure_inv h
      rw [RunM.onFds_started h4, (RunM.lift_inv h3).2]
    | false =>
      simp only [Bool.false_eq_true, ↓reduceIte] at h2
      obtain ⟨-, rfl⟩ := RunM.pure_inv h2; rfl
  have e3 := (RunM.lift_inv h3).2
  have e4 := RunM.onFds_started h4
  have e5 : w5.started = w4.started ++ [id] := by unfold RunM.start at h5; cases h5; rfl
  have e6 := RunM.onFds_started h6
  obtain ⟨hp, rfl⟩ := RunM.pure_inv h
  cases hp
  refine ⟨rfl, ?_⟩
  rw [e6, e5, e4, e3, e2, e1]

mutual
/-- **C16.** Whenever a pipeline - of any shape, with any redirections, in any state - has been started
successfully, the returned items are exactly its leaves from left to right (the items of pipelines among a
command's arguments just before the command), and these are exactly the items that were started, each once, in that
order. -/
theorem C16_items_are_the_leaves_in_order (sys : Sys) (cwd : Str) : (p : Pipeline) → (rs rs' : Redirects) → (w w' : World) → (items : List Item) →
    runP sys cwd p rs w = (.ok (items, rs'), w') → items.map Item.id = p.ids ∧ w'.started = w.started ++ p.ids
  | .command id args, rs, rs', w, w', items, h => by
    unfold runP at h
    obtain ⟨m, w1, h1, h⟩ := RunM.bind_inv h
    obtain ⟨⟨its, argv, rs2⟩, w2, h2, h⟩ := RunM.bind_inv h
    obtain ⟨t, w3, h3, h⟩ := RunM.bind_inv h
    obtain ⟨_, w4, h4, h⟩ := RunM.bind_inv h
    obtain ⟨_, w5, h5, h⟩ := RunM.bind_inv h
    obtain ⟨hp, rfl⟩ := RunM.pure_inv h
    have e1 := makePipes_started h1
    have ⟨e2, e2'⟩ := args_started sys cwd args _ _ _ _ _ _ _ h2
    have e3 : w3.started = w2.started := by unfold RunM.getFds at h3; cases h3; rfl
    have e4 : w4.started = w3.started ++ [id] := by unfold RunM.start at h4; cases h4; rfl
    have e5 := RunM.onFds_started h5
    cases hp
    refine ⟨by simp [Pipeline.ids, e2, Item.id], ?_⟩
    rw [e5, e4, e3, e2', e1]; simp [Pipeline.ids]
  | .func id, rs, rs', w, w', items, h => by unfold runP at h; exact runFunc_started h
  | .iter id, rs, rs', w, w', items, h => by unfold runP at h; exact runFunc_started h
  | .pipe a b, rs, rs', w, w', items, h => by
    unfold runP at h
    obtain ⟨ta, w1, h1, h⟩ := RunM.bind_inv h
    obtain ⟨⟨xs, ra⟩, w2, h2, h⟩ := RunM.bind_inv h
    obtain ⟨so, w3, h3, h⟩ := RunM.bind_inv h
    obtain ⟨tb, w4, h4, h⟩ := RunM.bind_inv h
    obtain ⟨⟨ys, rb⟩, w5, h5, h⟩ := RunM.bind_inv h
    obtain ⟨m, w6, h6, h⟩ := RunM.bind_inv h
    obtain ⟨si, w7, h7, h⟩ := RunM.bind_inv h
    obtain ⟨m2, w8, h8, h⟩ := RunM.bind_inv h
    obtain ⟨so2, w9, h9, h⟩ := RunM.bind_inv h
    obtain ⟨m3, w10, h10, h⟩ := RunM.bind_inv h
    obtain ⟨_, w11, h11, h⟩ := RunM.bind_inv h
    obtain ⟨hp, rfl⟩ := RunM.pure_inv h
    have ⟨a1, a2⟩ := C16_items_are_the_leaves_in_order sys cwd a _ _ _ _ _ h2
    have ⟨b1, b2⟩ := C16_items_are_the_leaves_in_order sys cwd b _ _ _ _ _ h5
    cases hp
    refine ⟨by simp [Pipeline.ids, a1, b1], ?_⟩
    rw [RunM.onFds_started h11, (RunM.lift_inv h10).2, (RunM.lift_inv h9).2, (RunM.lift_inv h8).2, (RunM.lift_inv h7).2,
      (RunM.lift_inv h6).2, b2, (RunM.lift_inv h4).2, (RunM.lift_inv h3).2, a2, (RunM.lift_inv h1).2]
    simp [Pipeline.ids]
  | .group a b, rs, rs', w, w', items, h => by
    unfold runP at h
    obtain ⟨⟨xs, ra⟩, w2, h2, h⟩ := RunM.bind_inv h
    obtain ⟨⟨ys, rb⟩, w5, h5, h⟩ := RunM.bind_inv h
    obtain ⟨m, w6, h6, h⟩ := RunM.bind_inv h
    obtain ⟨_, w11, h11, h⟩ := RunM.bind_inv h
    obtain ⟨hp, rfl⟩ := RunM.pure_inv h
    have ⟨a1, a2⟩ := C16_items_are_the_leaves_in_order sys cwd a _ _ _ _ _ h2
    have ⟨b1, b2⟩ := C16_items_are_the_leaves_in_order sys cwd b _ _ _ _ _ h5
    cases hp
    refine ⟨by simp [Pipeline.ids, a1, b1], ?_⟩
    rw [RunM.onFds_started h11, (RunM.lift_inv h6).2, b2, a2]
    simp [Pipeline.ids]
  | .redirect p crs, rs, rs', w, w', items, h => by
    unfold runP at h
    obtain ⟨m, w1, h1, h2⟩ := RunM.bind_inv h
    obtain ⟨-, rfl⟩ := RunM.lift_inv h1
    exact C16_items_are_the_leaves_in_order sys cwd p _ _ _ _ _ h2
/-- the same for arguments -/
theorem args_started (sys : Sys) (cwd : Str) : (args : Args) → (orig rs rs' : Redirects) → (w w' : World) → (items : List Item) → (argv : List Word) →
    runArgs sys cwd args orig rs w = (.ok (items, argv, rs'), w') → items.map Item.id = args.ids ∧ w'.started = w.started ++ args.ids
  | .nil, orig, rs, rs', w, w', items, argv, h => by
    unfold runArgs at h
    obtain ⟨hp, rfl⟩ := RunM.pure_inv h
    cases hp
    simp [Args.ids]
  | .word ws rest, orig, rs, rs', w, w', items, argv, h => by
    unfold runArgs at h
    obtain ⟨⟨its, av, rs2⟩, w2, h2, h⟩ := RunM.bind_inv h
    obtain ⟨hp, rfl⟩ := RunM.pure_inv h
    cases hp
    exact args_started sys cwd rest _ _ _ _ _ _ _ h2
  | .pipeArg pre p rest, orig, rs, rs', w, w', items, argv, h => by
    unfold runArgs at h
    obtain ⟨ta, w1, h1, h⟩ := RunM.bind_inv h
    obtain ⟨⟨xs, ra⟩, w2, h2, h⟩ := RunM.bind_inv h
    obtain ⟨so, w3, h3, h⟩ := RunM.bind_inv h
    obtain ⟨rs1, w4, h4, h⟩ := RunM.bind_inv h
    obtain ⟨⟨its, av, rs2⟩, w5, h5, h⟩ := RunM.bind_inv h
    obtain ⟨hp, rfl⟩ := RunM.pure_inv h
    have ⟨a1, a2⟩ := C16_items_are_the_leaves_in_order sys cwd p _ _ _ _ _ h2
    have ⟨b1, b2⟩ := args_started sys cwd rest _ _ _ _ _ _ _ h5
    cases hp
    refine ⟨by simp [Args.ids, a1, b1], ?_⟩
    rw [b2, (RunM.lift_inv h4).2, (RunM.lift_inv h3).2, a2, (RunM.lift_inv h1).2]; simp [Args.ids]
  | .funcArg pre id rest, orig, rs, rs', w, w', items, argv, h => by
    unfold runArgs at h
    obtain ⟨ta, w1, h1, h⟩ := RunM.bind_inv h
    obtain ⟨⟨xs, ra⟩, w2, h2, h⟩ := RunM.bind_inv h
    obtain ⟨so, w3, h3, h⟩ := RunM.bind_inv h
    obtain ⟨rs1, w4, h4, h⟩ := RunM.bind_inv h
    obtain ⟨⟨its, av, rs2⟩, w5, h5, h⟩ := RunM.bind_inv h
    obtain ⟨hp, rfl⟩ := RunM.pure_inv h
    have ⟨a1, a2⟩ := runFunc_started h2
    have ⟨b1, b2⟩ := args_started sys cwd rest _ _ _ _ _ _ _ h5
    cases hp
    refine ⟨by simp [Args.ids, a1, b1], ?_⟩
    rw [b2, (RunM.lift_inv h4).2, (RunM.lift_inv h3).2, a2, (RunM.lift_inv h1).2]; simp [Args.ids]
end

example : RunEx.chain.ids = [1, 3, 2, 4, 5] := rfl
example : ∃ items rs' w', runP RunEx.sys [] RunEx.chain RunEx.iterRs RunEx.world = (.ok (items, rs'), w') ∧
    items.map Item.id = [1, 3, 2, 4, 5] ∧ w'.started = [1, 3, 2, 4, 5] := by
  obtain ⟨items, rs', w', segs, q, h1, -⟩ :=
    C12_wired_left_to_right _ [] _ _ _ _ _ _ (RunEx.startable RunEx.chain RunEx.chain_cost RunEx.chain_shape) RunEx.chain_chain
  have := C16_items_are_the_leaves_in_order _ _ _ _ _ _ _ _ h1
  exact ⟨items, rs', w', h1, this.1, this.2⟩

/-! ## C17 -/

theorem ArgsWired.mono {w' : World} {fds : Nat → Option Obj} : (args : Args) → {q0 q1 : Nat} → q0 ≤ q1 → {items : List Item} → {argv : List Word} →
    ArgsWired w' fds args q1 items argv → ArgsWired w' fds args q0 items argv
  | .nil, _, _, _, _, _, h => h
  | .word ws rest, _, _, hq, _, _, h => by
    obtain ⟨av, h1, h2⟩ := h; exact ⟨av, h1, ArgsWired.mono rest hq h2⟩
  | .pipeArg pre p rest, _, _, hq, _, _, h => by
    obtain ⟨xs, its, n, av, q, m, h1, h2, h3, h4, h5⟩ := h
    exact ⟨xs, its, n, av, q, m, h1, h2, h3, by omega, h5⟩
  | .funcArg pre id rest, _, _, hq, _, _, h => by
    obtain ⟨x, its, n, av, q, h1, h2, h3, h4, h5⟩ := h
    exact ⟨x, its, n, av, q, h1, h2, h3, by omega, h5⟩

theorem args_wired {sys : Sys} {cwd : Str} {lf : Nat} {lg : Option Obj} {w' : World} {fds : Nat → Option Obj} (i o e : Obj) : (args : Args) → args.Redirectable sys cwd → (c : Ctr) → (items : List Item) → (argv : List Word) →
    Pointwise (ItemOk lf lg w'.fds.get) items (refArgs cwd args i o e c).items →
    Pointwise (WordOk fds) argv (refArgs cwd args i o e c).words → ArgsWired w' fds args c.p items argv
  | .nil, _, c, items, argv, hi, hw => by
    simp only [refArgs] at hi hw
    cases hi; cases hw; exact ⟨rfl, rfl⟩
  | .word ws rest, hp, c, items, argv, hi, hw => by
    simp only [refArgs] at hi hw
    obtain ⟨u, v, rfl, h1, h2⟩ := hw.split_append
    refine ⟨v, ?_, args_wired i o e rest (by simpa only [Args.Redirectable] using hp) c items v hi h2⟩
    congr 1
    clear hi hw h2 hp
    induction ws generalizing u with
    | nil => cases h1; rfl
    | cons x ws ih =>
      rw [List.map_cons] at h1
      cases h1 with
      | @cons a _ l _ h3 h4 =>
        cases a with
        | lit s => simp only [WordOk] at h3; subst h3; rw [List.map_cons, ih l h4]
        | devfd => simp only [WordOk] at h3
  | .pipeArg pre p rest, hp, c, items, argv, hi, hw => by
    simp only [refArgs] at hi hw
    simp only [Args.Redirectable] at hp
    obtain ⟨xs, ys, rfl, h1, h2⟩ := hi.split_append
    cases hw with
    | @cons a _ av _ h3 h4 =>
      cases a with
      | lit => simp only [WordOk] at h3
      | devfd pre' n =>
        simp only [WordOk] at h3
        obtain ⟨rfl, h5, h6⟩ := h3
        obtain ⟨m, hm1, hm2⟩ := refRun_last (cwd := cwd) p i .pipeOut (.obj e) c trivial
        obtain ⟨m', hm1', hmok⟩ := h1.getLast hm1
        have hout := refRun_out (cwd := cwd) p i .pipeOut (.obj e) c
        have := hout.2 hp.2.1
        rw [hp.2.1] at hm2
        refine ⟨xs, ys, n, av, (refRun cwd p i .pipeOut (.obj e) c).out, m', rfl, rfl, h5, hout.1, h6, by rw [ItemOk.ids h1, refRun_ids], hm1',
          by rw [hmok.stdout]; exact congrArg some hm2, ?_⟩
        exact ArgsWired.mono rest (by omega) (args_wired i o e rest hp.2.2 _ ys av h2 h4)
  | .funcArg pre id rest, hp, c, items, argv, hi, hw => by
    simp only [refArgs] at hi hw
    cases hi with
    | @cons x _ ys _ h1 h2 =>
      cases hw with
      | @cons a _ av _ h3 h4 =>
        cases a with
        | lit => simp only [WordOk] at h3
        | devfd pre' n =>
          simp only [WordOk] at h3
          obtain ⟨rfl, h5, h6⟩ := h3
          refine ⟨x, ys, n, av, c.p, rfl, rfl, h5, Nat.le_refl _, h6, h1.id, by rw [h1.stdin]; rfl, ?_⟩
          exact args_wired i o e rest (by simpa only [Args.Redirectable] using hp) _ ys av h2 h4

/-- **C17.** A command with any number of pipelines, iterators and functions among its arguments: the program is
started after them; each pipeline argument has become `pre/dev/fd/N`, with different `N` greater than 2, such that
descriptor `N` of the program is the read end of a new pipe which the (last item of the) pipeline writes to, or the
write end of a new pipe which the function reads from. -/
theorem C17_pipelines_as_arguments (sys : Sys) (cwd : Str) (w : World) (rs : Redirects) (id : Nat) (args : Args) (i : Obj) (o e : Want)
    (hs : Startable sys cwd w rs (.command id args) i o e) :
    ∃ items rs' w' argv fds irs, runP sys cwd (.command id args) rs w = (.ok (items ++ [.proc id argv fds irs], rs'), w') ∧
      ArgsWired w' fds args w.nextPipe items argv ∧ (devFds argv).Nodup := by
  obtain ⟨⟨H, L, hr, hl, hstd⟩, ho, he, hsh, hlow, hpo⟩ := hs
  obtain ⟨items, rs', w', ul, lk, hrun, P⟩ := run_spec sys cwd (.command id args) hsh hr hl hstd ho he hlow hpo
  simp only [Pipeline.Redirectable] at hsh
  have hI := P.itemsOk
  simp only [refRun] at hI
  obtain ⟨xs, ys, rfl, hx, hy⟩ := items_split hI
  cases hy with
  | @cons y _ l _ h1 h2 =>
    cases h2
    cases y with
    | func => simp only [ItemOk] at h1
    | proc id' argv fds irs =>
      simp only [ItemOk] at h1
      obtain ⟨rfl, -, -, -, h3, h4, -⟩ := h1
      refine ⟨xs, rs', w', argv, fds, irs, hrun, ?_, h4⟩
      refine ArgsWired.mono args ?_ (args_wired _ _ _ args hsh _ xs argv hx h3)
      have h1 := pick_le o w.ctr
      have h2 := pick_le e (o.pick w.ctr).2
      show w.ctr.p ≤ _
      omega

example : Startable RunEx.sys [] RunEx.world defaultRedirects
    (.command 1 (.word [c!"x"] (.pipeArg [] RunEx.chain (.funcArg c!"--f=" 8 (.pipeArg [] (.iter 9) .nil))))) (.inherited 0) (.obj (.inherited 1)) .tmp :=
  RunEx.startable' _ (by decide) (by simp [Pipeline.Redirectable, Args.Redirectable, Pipeline.outWant, RunEx.chain])

/-! ## C18 -/

/-- `stdin` redirected from the file `f`. -/
def stdinFrom (f : Str) : Redirects := RunEx.from_ f

/-- **C18.** Nested redirections around a pipeline, run with the table `rs`: the pipeline is run with a table in
which every descriptor has the redirection written closest to it, and that of `rs` if none of them mentions it. -/
theorem C18_innermost_redirection_wins (sys : Sys) (cwd : Str) (p : Pipeline) (rs : Redirects) (nest : List Redirects) (w : World)
    (hrs : rs.Built) (hn : ∀ c ∈ nest, Redirects.Built c) :
    ∃ m, runP sys cwd (p.redirectAll nest) rs w = runP sys cwd p m w ∧ m.Built ∧
      ∀ n, Dict.get? m n = firstFor n (nest ++ [rs]) := by
  induction nest generalizing p with
  | nil => exact ⟨rs, rfl, hrs, fun n => by simp only [List.nil_append, firstFor]; split <;> simp_all⟩
  | cons c nest ih =>
    obtain ⟨m, h1, h2, h3⟩ := ih (.redirect p c) (fun c hc => hn c (by simp [hc]))
    obtain ⟨m', h4, h5, h6⟩ := C06_merge m c h2 (hn c (by simp))
    refine ⟨m', ?_, h5, fun n => ?_⟩
    · rw [Pipeline.redirectAll, h1]
      show runP sys cwd (.redirect p c) m w = _
      conv => lhs; unfold runP
      exact RunM.bind_ok (by rw [h4]; rfl)
    · rw [h6, h3]; rfl

example : ∃ m, runP RunEx.sys [] (Pipeline.redirectAll (.command 1 .nil) [stdinFrom c!"inner", stdinFrom c!"outer"]) defaultRedirects RunEx.world =
      runP RunEx.sys [] (.command 1 .nil) m RunEx.world ∧
    Dict.get? m 0 = Dict.get? (stdinFrom c!"inner") 0 ∧ Dict.get? m 1 = Dict.get? defaultRedirects 1 := by
  have hb : ∀ f, (stdinFrom f).Built := fun f => .new (args := [.table (stdinFrom f)]) rfl
  obtain ⟨m, h1, -, h2⟩ := C18_innermost_redirection_wins RunEx.sys [] (.command 1 .nil) defaultRedirects [stdinFrom c!"inner", stdinFrom c!"outer"]
    RunEx.world (.new (args := [.table defaultRedirects]) rfl) (by intro c hc; simp at hc; rcases hc with rfl | rfl <;> exact hb _)
  exact ⟨m, h1, by rw [h2]; rfl, by rw [h2]; rfl⟩

/-- `stdout` redirected to the file `f`. -/
def stdoutTo (f : Str) : Redirects :=
  [(1, { fd := 1, source := .path f, flag := O_WRONLY ||| O_CREAT, mode := defaultMode, pipe := .none, borrowed := false })]

/-- **C18 (consequence for pipes).** In `(a > "f") | b` the inner redirection wins over the pipe, and then `b` is
started with no standard input at all - neither the pipe nor the one given to the whole pipeline. -/
theorem C18_piped_after_redirection_closes_stdin : ∃ items rs' w' argv fds irs,
    runP RunEx.sys2 [] (.pipe (.redirect (.command 1 .nil) (stdoutTo c!"f")) (.command 2 .nil)) defaultRedirects RunEx.world2 =
      (.ok (items, rs'), w') ∧ items.getLast? = some (.proc 2 argv fds irs) ∧ Dict.get? irs 0 = none ∧ fds 0 = none :=
  ⟨_, _, _, _, _, _, rfl, rfl, rfl, rfl⟩

end Pieshell
