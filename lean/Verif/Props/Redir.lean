import Verif.Lemmas.RedirTable
import Verif.Model.Child
/-!
# C01-C05, C07-C09: redirections
-/
namespace Pieshell

/-! Concrete data used in the examples. -/
namespace RedirEx
/-- a system where every file can be opened except "missing" -/
def sys : Sys := { maxfd := 1024, logfd := 9, openErr := fun _ p _ => if p = c!"missing" then some ENOENT else none }
def inh (n : Nat) : Entry := { obj := .inherited n, cloexec := false }
/-- a shell with 0,1,2, two pipe ends and a log file open -/
def tbl : FdTable := FdTable.ofList [(0, inh 0), (1, inh 1), (2, inh 2),
  (4, { obj := .pipeR 7, cloexec := true }), (5, { obj := .pipeW 7, cloexec := true }), (9, inh 9)]
def toFd (fd s flag : Nat) : Redirect := { fd, source := .fd s, flag, mode := 511, pipe := .none, borrowed := true }
def toPath (fd : Nat) (p : Str) (flag : Nat) : Redirect := { fd, source := .path p, flag, mode := 511, pipe := .none, borrowed := false }
/-- swap stdout and stderr, stdin from pipe end 4, and 7 from 0 -/
def swap : Redirects := [(1, toFd 1 2 65), (2, toFd 2 1 65), (0, toFd 0 4 0), (7, toFd 7 0 0)]
theorem swap_built : Redirects.Built swap :=
  .new (args := [.one (toFd 1 2 65), .one (toFd 2 1 65), .one (toFd 0 4 0), .one (toFd 7 0 0)]) rfl
/-- stdin from a file, stdout to pipe end 5, stderr unchanged -/
def mixed : Redirects := [(0, toPath 0 c!"in" 0), (1, toFd 1 5 65), (2, toFd 2 2 65)]
theorem mixed_built : Redirects.Built mixed :=
  .new (args := [.one (toPath 0 c!"in" 0), .one (toFd 1 5 65), .one (toFd 2 2 65)]) rfl

theorem get?_cases {rs : Redirects} {n : Nat} {r : Redirect} (h : Dict.get? rs n = some r) : (n, r) ∈ rs :=
  Dict.mem_of_get? rs h

theorem swap_fits : FitsLimit sys swap := by
  refine ⟨by decide, fun n r h => ?_⟩
  have := get?_cases h
  simp [swap] at this
  rcases this with ⟨rfl, rfl⟩ | ⟨rfl, rfl⟩ | ⟨rfl, rfl⟩ | ⟨rfl, rfl⟩ <;> refine ⟨by decide, ?_⟩ <;>
    (intro s hs; cases hs; decide)
theorem swap_open : OpenSources swap tbl := by
  intro n r s h hs
  have := get?_cases h
  simp [swap] at this
  rcases this with ⟨rfl, rfl⟩ | ⟨rfl, rfl⟩ | ⟨rfl, rfl⟩ | ⟨rfl, rfl⟩ <;> cases hs <;> exact ⟨_, rfl⟩
theorem swap_distinct : DistinctSources swap := by
  intro n m r q s h1 h2 h3 h4
  have h1 := get?_cases h1
  have h2 := get?_cases h2
  simp [swap] at h1 h2
  rcases h1 with ⟨rfl, rfl⟩ | ⟨rfl, rfl⟩ | ⟨rfl, rfl⟩ | ⟨rfl, rfl⟩ <;>
    rcases h2 with ⟨rfl, rfl⟩ | ⟨rfl, rfl⟩ | ⟨rfl, rfl⟩ | ⟨rfl, rfl⟩ <;>
    first | rfl | (cases h3; done) | (cases h3; cases h4)
theorem swap_fd : ∀ n r, Dict.get? swap n = some r → ∃ s, r.source = .fd s := by
  intro n r h
  have := get?_cases h
  simp [swap] at this
  rcases this with ⟨rfl, rfl⟩ | ⟨rfl, rfl⟩ | ⟨rfl, rfl⟩ | ⟨rfl, rfl⟩ <;> exact ⟨_, rfl⟩
theorem mixed_fits : FitsLimit sys mixed := by
  refine ⟨by decide, fun n r h => ?_⟩
  have := get?_cases h
  simp [mixed] at this
  rcases this with ⟨rfl, rfl⟩ | ⟨rfl, rfl⟩ | ⟨rfl, rfl⟩ <;> refine ⟨by decide, ?_⟩ <;>
    (intro s hs; cases hs; try decide)
theorem mixed_open : OpenSources mixed tbl := by
  intro n r s h hs
  have := get?_cases h
  simp [mixed] at this
  rcases this with ⟨rfl, rfl⟩ | ⟨rfl, rfl⟩ | ⟨rfl, rfl⟩ <;> cases hs <;> exact ⟨_, rfl⟩
theorem mixed_distinct : DistinctSources mixed := by
  intro n m r q s h1 h2 h3 h4
  have h1 := get?_cases h1
  have h2 := get?_cases h2
  simp [mixed] at h1 h2
  rcases h1 with ⟨rfl, rfl⟩ | ⟨rfl, rfl⟩ | ⟨rfl, rfl⟩ <;>
    rcases h2 with ⟨rfl, rfl⟩ | ⟨rfl, rfl⟩ | ⟨rfl, rfl⟩ <;>
    first | rfl | (cases h3; done) | (cases h3; cases h4)
theorem mixed_mat : Materialised mixed := by
  intro n r h
  have := get?_cases h
  simp [mixed] at this
  rcases this with ⟨rfl, rfl⟩ | ⟨rfl, rfl⟩ | ⟨rfl, rfl⟩
  · exact .inr ⟨_, rfl⟩
  · exact .inl ⟨_, rfl⟩
  · exact .inl ⟨_, rfl⟩
end RedirEx

/-! ## C01 -/

/-- **C01.** Every redirected descriptor of the exec'ed program is the open file that the source descriptor
named in the shell at the fork. -/
theorem C01_child_wiring (sys : Sys) (cwd : Str) (rs : Redirects) (t : FdTable)
    (hbuilt : rs.Built) (ht : t.Bounded)
    (hfd : ∀ n r, Dict.get? rs n = some r → ∃ s, r.source = .fd s)
    (hopen : OpenSources rs t) (hdist : DistinctSources rs) (hlim : FitsLimit sys rs) :
    ∀ n r s, Dict.get? rs n = some r → r.source = .fd s →
      ∃ e, t.get s = some e ∧ execTable (rs.perform sys cwd t) n = some e.obj := by
  have hP := performable_of (cwd := cwd) (sys := sys) hbuilt.wf ht (fun n r h => .inl (hfd n r h)) hopen hdist hlim
    (by intro n r p h hp; obtain ⟨s, hs⟩ := hfd n r h; rw [hs] at hp; cases hp)
  obtain ⟨t', hp, -, hw, -⟩ := perform_ok hP
  intro n r s hg hs
  obtain ⟨hv, hn⟩ := hbuilt.wf.value_of_get? hg
  obtain ⟨o, ho, hgo⟩ := hw r hv
  obtain ⟨e, he⟩ := hopen n r s hg hs
  refine ⟨e, he, ?_⟩
  simp [denotes, hs, he] at ho
  rw [hn] at hgo
  simp [execTable, Redirects.perform, hp, hgo, ho]

/-- a swap of two descriptors, a pipe end and a new descriptor, all at once -/
example : execTable (RedirEx.swap.perform RedirEx.sys [] RedirEx.tbl) 1 = some (.inherited 2)
    ∧ execTable (RedirEx.swap.perform RedirEx.sys [] RedirEx.tbl) 2 = some (.inherited 1)
    ∧ execTable (RedirEx.swap.perform RedirEx.sys [] RedirEx.tbl) 0 = some (.pipeR 7)
    ∧ execTable (RedirEx.swap.perform RedirEx.sys [] RedirEx.tbl) 7 = some (.inherited 0) := by
  have h := C01_child_wiring RedirEx.sys [] RedirEx.swap RedirEx.tbl RedirEx.swap_built
    (FdTable.bounded_ofList _) RedirEx.swap_fd RedirEx.swap_open RedirEx.swap_distinct RedirEx.swap_fits
  refine ⟨?_, ?_, ?_, ?_⟩
  · obtain ⟨e, he, h⟩ := h 1 _ 2 rfl rfl; cases he; exact h
  · obtain ⟨e, he, h⟩ := h 2 _ 1 rfl rfl; cases he; exact h
  · obtain ⟨e, he, h⟩ := h 0 _ 4 rfl rfl; cases he; exact h
  · obtain ⟨e, he, h⟩ := h 7 _ 0 rfl rfl; cases he; exact h

/-! ## C02 -/

/-- Nothing clashes if the targets of the files are open in the shell and are no sources. -/
theorem noClash_of {rs : Redirects} {t : FdTable} (hbuilt : rs.Built) (h : ∀ n r p, Dict.get? rs n = some r → r.source = .path p →
      t.get n ≠ none ∧ ∀ m q, Dict.get? rs m = some q → q.source ≠ .fd n) : ¬ Clash rs t := by
  rintro ⟨bef, r, aft, p, h1, h2, ⟨h3, -⟩, -⟩
  have := h r.fd r p (hbuilt.wf.get?_of_value (by rw [h1]; simp)) h2
  rcases h3 with h3 | ⟨m, q, hq, hs⟩
  · exact this.1 h3
  · exact this.2 m q hq hs

/-- **C02.** The program has no other descriptor than those in its table and, at most, the shell's log
descriptor (unchanged). Covers tables with files as well (if no file clashes, see `C03_exact`). -/
theorem C02_child_inherits_nothing_else (sys : Sys) (cwd : Str) (rs : Redirects) (t : FdTable)
    (hbuilt : rs.Built) (ht : t.Bounded) (hmax : t.bound ≤ sys.maxfd)
    (hmat : Materialised rs) (hopen : OpenSources rs t) (hdist : DistinctSources rs) (hlim : FitsLimit sys rs)
    (hcanopen : ∀ n r p, Dict.get? rs n = some r → r.source = .path p → sys.openErr cwd p r.flag = none) (hclash : ¬ Clash rs t) :
    ∀ n, Dict.get? rs n = none →
      execTable (rs.perform sys cwd t) n = none ∨
      (n = sys.logfd ∧ execTable (rs.perform sys cwd t) n = execTable t n) := by
  have hP := performable_of_noClash (cwd := cwd) (sys := sys) hbuilt.wf ht hmat hopen hdist hlim hcanopen hclash
  obtain ⟨t', hp, -, -, hcl, hrest, -⟩ := perform_ok hP
  intro n hn
  have hk := (Dict.get?_eq_none_iff rs n).1 hn
  simp only [Redirects.perform, hp, execTable]
  by_cases hlog : n = sys.logfd
  · rcases hrest n hk with h | h
    · exact .inl (by rw [h])
    · exact .inr ⟨hlog, by rw [h]⟩
  · left
    by_cases hlt : n < sys.maxfd
    · rw [hcl n hk hlt hlog]
    · rcases hrest n hk with h | h
      · rw [h]
      · rw [h, ht n (by omega)]

example : ∀ n, n ∉ [0, 1, 2] → n ≠ 9 →
    execTable (RedirEx.mixed.perform RedirEx.sys c!"/" RedirEx.tbl) n = none := by
  intro n hn h9
  rcases C02_child_inherits_nothing_else RedirEx.sys c!"/" RedirEx.mixed RedirEx.tbl RedirEx.mixed_built
    (FdTable.bounded_ofList _) (by decide) RedirEx.mixed_mat RedirEx.mixed_open RedirEx.mixed_distinct
    RedirEx.mixed_fits (by
      intro n r p h hp
      have := RedirEx.get?_cases h
      simp [RedirEx.mixed] at this
      rcases this with ⟨rfl, rfl⟩ | ⟨rfl, rfl⟩ | ⟨rfl, rfl⟩ <;> cases hp
      rfl) (noClash_of RedirEx.mixed_built (by
      intro n r p h hp
      have := RedirEx.get?_cases h
      simp [RedirEx.mixed] at this
      rcases this with ⟨rfl, rfl⟩ | ⟨rfl, rfl⟩ | ⟨rfl, rfl⟩ <;> cases hp
      refine ⟨by decide, fun m q hq => ?_⟩
      have := RedirEx.get?_cases hq
      simp [RedirEx.mixed] at this
      rcases this with ⟨rfl, rfl⟩ | ⟨rfl, rfl⟩ | ⟨rfl, rfl⟩ <;> decide)) n
    (by simp at hn; simp [RedirEx.mixed, Dict.get?, Ne.symm hn.1, Ne.symm hn.2.1, Ne.symm hn.2.2]) with h | ⟨h, -⟩
  · exact h
  · exact absurd h h9

/-! ## C03 -/

/-- **C03** (partial: beyond what the property says it needs the target of each file redirection to be open
in the shell and not to be another redirection's source, see `C03_refuted`). Every descriptor of the
program is what its redirection says. -/
theorem C03_file_redirections_partial (sys : Sys) (cwd : Str) (rs : Redirects) (t : FdTable)
    (hbuilt : rs.Built) (ht : t.Bounded)
    (hmat : Materialised rs) (hopen : OpenSources rs t) (hdist : DistinctSources rs) (hlim : FitsLimit sys rs)
    (hcanopen : ∀ n r p, Dict.get? rs n = some r → r.source = .path p → sys.openErr cwd p r.flag = none)
    (htarget : ∀ n r p, Dict.get? rs n = some r → r.source = .path p →
      t.get n ≠ none ∧ ∀ m q, Dict.get? rs m = some q → q.source ≠ .fd n) :
    ∀ n r, Dict.get? rs n = some r →
      ∃ o, expected cwd t r = some o ∧ execTable (rs.perform sys cwd t) n = some o := by
  have hP := performable_of (cwd := cwd) (sys := sys) hbuilt.wf ht hmat hopen hdist hlim
    (fun n r p h hp => ⟨hcanopen n r p h hp, htarget n r p h hp⟩)
  obtain ⟨t', hp, -, hw, -⟩ := perform_ok hP
  intro n r hg
  obtain ⟨hv, hn⟩ := hbuilt.wf.value_of_get? hg
  obtain ⟨o, ho, hgo⟩ := hw r hv
  refine ⟨o, ?_, ?_⟩
  · rw [← ho]; unfold expected denotes; rfl
  · rw [hn] at hgo; simp [execTable, Redirects.perform, hp, hgo]

example : execTable (RedirEx.mixed.perform RedirEx.sys c!"/" RedirEx.tbl) 0 = some (.file c!"/" c!"in" 0 511)
    ∧ execTable (RedirEx.mixed.perform RedirEx.sys c!"/" RedirEx.tbl) 1 = some (.pipeW 7) := by
  have h := C03_file_redirections_partial RedirEx.sys c!"/" RedirEx.mixed RedirEx.tbl RedirEx.mixed_built
    (FdTable.bounded_ofList _) RedirEx.mixed_mat RedirEx.mixed_open RedirEx.mixed_distinct
    RedirEx.mixed_fits
    (by
      intro n r p h hp
      have := RedirEx.get?_cases h
      simp [RedirEx.mixed] at this
      rcases this with ⟨rfl, rfl⟩ | ⟨rfl, rfl⟩ | ⟨rfl, rfl⟩ <;> cases hp
      rfl)
    (by
      intro n r p h hp
      have := RedirEx.get?_cases h
      simp [RedirEx.mixed] at this
      rcases this with ⟨rfl, rfl⟩ | ⟨rfl, rfl⟩ | ⟨rfl, rfl⟩ <;> cases hp
      refine ⟨by decide, fun m q hq => ?_⟩
      have := RedirEx.get?_cases hq
      simp [RedirEx.mixed] at this
      rcases this with ⟨rfl, rfl⟩ | ⟨rfl, rfl⟩ | ⟨rfl, rfl⟩ <;> decide)
  refine ⟨?_, ?_⟩
  · obtain ⟨o, ho, h⟩ := h 0 _ rfl; cases ho; exact h
  · obtain ⟨o, ho, h⟩ := h 1 _ rfl; cases ho; exact h

/-- **C03, exactly when it holds:** every descriptor of the program is what its redirection says if and only if no file is opened for a descriptor
that happens to be the lowest free one at that moment.  (If there is such a file, a descriptor of the program is closed.) -/
theorem C03_exact (sys : Sys) (cwd : Str) (rs : Redirects) (t : FdTable)
    (hbuilt : rs.Built) (ht : t.Bounded)
    (hmat : Materialised rs) (hopen : OpenSources rs t) (hdist : DistinctSources rs) (hlim : FitsLimit sys rs)
    (hcanopen : ∀ n r p, Dict.get? rs n = some r → r.source = .path p → sys.openErr cwd p r.flag = none) :
    (∀ n r, Dict.get? rs n = some r →
      ∃ o, expected cwd t r = some o ∧ execTable (rs.perform sys cwd t) n = some o) ↔ ¬ Clash rs t := by
  constructor
  · intro h hc
    obtain ⟨-, n, r, h1, h2⟩ := perform_clash hbuilt.wf ht hmat hopen hdist hlim hcanopen hc
    obtain ⟨o, -, h3⟩ := h n r h1
    rw [h2] at h3; cases h3
  · intro hc
    obtain ⟨t', hp, -, hw, -⟩ := perform_ok (performable_of_noClash (cwd := cwd) (sys := sys) hbuilt.wf ht hmat hopen hdist hlim hcanopen hc)
    intro n r hg
    obtain ⟨hv, hn⟩ := hbuilt.wf.value_of_get? hg
    obtain ⟨o, ho, hgo⟩ := hw r hv
    refine ⟨o, ?_, ?_⟩
    · rw [← ho]; unfold expected denotes; rfl
    · rw [hn] at hgo; simp [execTable, Redirects.perform, hp, hgo]

/-- `cmd < "in"` with descriptor 0 closed clashes; with `2 > "err"` and 0 closed there is no clash -/
example : Clash [(0, RedirEx.toPath 0 c!"in" 0)] (FdTable.ofList [(1, RedirEx.inh 1)]) ∧
    ¬ Clash [(2, RedirEx.toPath 2 c!"err" 65)] (FdTable.ofList [(1, RedirEx.inh 1)]) := by
  refine ⟨⟨[], _, [], _, rfl, rfl, ⟨.inl rfl, by simp⟩, fun m hm => by cases hm⟩, ?_⟩
  rintro ⟨bef, r, aft, p, h1, h2, h3, h4⟩
  cases bef with
  | nil =>
    simp only [Dict.values, List.map_cons, List.map_nil, List.nil_append, List.cons.injEq] at h1
    exact h4 0 (by rw [← h1.1]; decide) ⟨.inl rfl, by simp⟩
  | cons => simp [Dict.values] at h1

/-- **C03, what goes wrong.** If the target of a file redirection is the lowest closed descriptor of the
shell, then `open` returns the target itself, the code's own assertion fails (and is swallowed), and the
program runs with that descriptor closed - although the file could be opened. -/
theorem C03_closed_target_always_fails (sys : Sys) (cwd p : Str) (t : FdTable) (ht : t.Bounded)
    (r : Redirect) (hsrc : r.source = .path p) (hopen : sys.openErr cwd p r.flag = none)
    (hlow : ∀ n, n < r.fd → t.get n ≠ none) (hclosed : t.get r.fd = none) :
    (Redirects.performTry sys cwd [(r.fd, r)] t).1 = .error .assertion ∧
    execTable (Redirects.perform sys cwd [(r.fd, r)] t) r.fd = none := by
  have hlf : t.lowestFree = r.fd := by
    have h1 := FdTable.lowestFree_le_of_free ht hclosed
    have h2 := FdTable.lowestFree_free ht
    rcases Nat.lt_or_ge t.lowestFree r.fd with h | h
    · exact absurd h2 (hlow _ h)
    · omega
  have hmv : ∀ b, moveAll sys (Dict.values [(r.fd, r)]) b t = (.ok [r], t) := by
    intro b; simp [Dict.values, moveAll, Redirect.move, hsrc]
  have hperf : performAll sys cwd [r] t =
      (.error .assertion, t.set r.fd { obj := .file cwd p r.flag r.mode, cloexec := true }) := by
    simp [performAll, Redirect.perform, Redirect.open, hsrc, osOpen, hopen, hlf]
  simp [Redirects.perform, Redirects.performTry, Redirects.moveExistingFds, hmv, hperf, execTable]

/-- **C03 is false as stated**: a shell whose stdin is closed runs `cmd < "in"` with stdin closed. -/
theorem C03_refuted : ∃ (sys : Sys) (cwd : Str) (rs : Redirects) (t : FdTable), rs.Built ∧ t.Bounded ∧
    Materialised rs ∧ OpenSources rs t ∧ DistinctSources rs ∧ FitsLimit sys rs ∧
    (∀ n r p, Dict.get? rs n = some r → r.source = .path p → sys.openErr cwd p r.flag = none) ∧
    ∃ n r, Dict.get? rs n = some r ∧ execTable (rs.perform sys cwd t) n ≠ expected cwd t r := by
  refine ⟨RedirEx.sys, c!"/", [(0, RedirEx.toPath 0 c!"in" 0)], FdTable.ofList [(1, RedirEx.inh 1)],
    .new (args := [.one (RedirEx.toPath 0 c!"in" 0)]) rfl, FdTable.bounded_ofList _, ?_, ?_, ?_, ?_, ?_, ?_⟩
  · intro n r h; have := RedirEx.get?_cases h; simp at this; exact .inr ⟨_, by rw [this.2]; rfl⟩
  · intro n r s h hs; have := RedirEx.get?_cases h; simp at this; rw [this.2] at hs; cases hs
  · intro n m r q s h1 h2 h3 h4; have := RedirEx.get?_cases h1; simp at this; rw [this.2] at h3; cases h3
  · refine ⟨by decide, fun n r h => ?_⟩
    have := RedirEx.get?_cases h; simp at this
    refine ⟨by rw [this.1]; decide, fun s hs => by rw [this.2] at hs; cases hs⟩
  · intro n r p h hp
    have := RedirEx.get?_cases h; simp at this
    rw [this.2] at hp; cases hp; rfl
  · refine ⟨0, _, rfl, ?_⟩
    have := (C03_closed_target_always_fails RedirEx.sys c!"/" c!"in" (FdTable.ofList [(1, RedirEx.inh 1)])
      (FdTable.bounded_ofList _) (RedirEx.toPath 0 c!"in" 0) rfl rfl (by intro n hn; cases hn) rfl).2
    have h0 : (RedirEx.toPath 0 c!"in" 0).fd = 0 := rfl
    rw [h0] at this
    rw [this]
    simp [expected, RedirEx.toPath]

example : (Redirects.performTry RedirEx.sys c!"/" [(0, RedirEx.toPath 0 c!"in" 0)]
    (FdTable.ofList [(1, RedirEx.inh 1)])).1 = .error .assertion :=
  (C03_closed_target_always_fails RedirEx.sys c!"/" c!"in" _ (FdTable.bounded_ofList _)
    (RedirEx.toPath 0 c!"in" 0) rfl rfl (by intro n hn; cases hn) rfl).1

/-! ## C04 -/

/-- **C04 never holds**: for every table in which two descriptors share a source descriptor, applying the
redirections fails part-way, whatever the shell's descriptors (so `2>&1`-style redirections cannot work). -/
theorem C04_repeated_source_always_fails (sys : Sys) (cwd : Str) (rs : Redirects) (t : FdTable)
    (hbuilt : rs.Built) (n m s : Nat) (r q : Redirect) (hne : n ≠ m)
    (hn : Dict.get? rs n = some r) (hm : Dict.get? rs m = some q)
    (hr : r.source = .fd s) (hq : q.source = .fd s) :
    ∃ e, (rs.performTry sys cwd t).1 = .error e := by
  have hwf := hbuilt.wf
  obtain ⟨hv1, hf1⟩ := hwf.value_of_get? hn
  obtain ⟨hv2, hf2⟩ := hwf.value_of_get? hm
  have hrq : r ≠ q := by intro h; subst h; exact hne (hf1.symm.trans hf2)
  have hdup : ¬ (srcFds (Dict.values rs)).Nodup := by
    have : ∀ l : List Redirect, r ∈ l → q ∈ l → ¬ (srcFds l).Nodup := by
      intro l
      induction l with
      | nil => intro h; simp at h
      | cons a l ih =>
        intro h1' h2' hnd
        rcases List.mem_cons.1 h1' with h1 | h1 <;> rcases List.mem_cons.1 h2' with h2 | h2
        · exact hrq (h1.trans h2.symm)
        · subst h1; rw [srcFds_cons_fd hr] at hnd
          exact (List.nodup_cons.1 hnd).1 (mem_srcFds.2 ⟨q, h2, hq⟩)
        · subst h2; rw [srcFds_cons_fd hq] at hnd
          exact (List.nodup_cons.1 hnd).1 (mem_srcFds.2 ⟨r, h1, hr⟩)
        · by_cases hf : ∃ k, a.source = .fd k
          · obtain ⟨k, hk⟩ := hf
            rw [srcFds_cons_fd hk] at hnd
            exact ih h1 h2 (List.nodup_cons.1 hnd).2
          · rw [srcFds_cons_nofd (fun k hk => hf ⟨k, hk⟩)] at hnd
            exact ih h1 h2 hnd
    exact this _ hv1 hv2
  obtain ⟨e, t', he⟩ := moveAll_error_dup sys (Dict.values rs) rs.findFreeFd t hdup (findFreeFd_gt rs).2.1
  exact ⟨e, by simp [Redirects.performTry, Redirects.moveExistingFds, he]⟩

/-- **C04 refuted** on the standard table with stdout and stderr both sent to descriptor 5: the program gets
neither of them (it runs without stdout and stderr). -/
theorem C04_refuted : ∃ (sys : Sys) (cwd : Str) (rs : Redirects) (t : FdTable) (r q : Redirect) (e : Entry),
    rs.Built ∧ t.Bounded ∧ Dict.get? rs 1 = some r ∧ Dict.get? rs 2 = some q ∧ r.source = .fd 5 ∧
    q.source = .fd 5 ∧ t.get 5 = some e ∧ OpenSources rs t ∧
    execTable (rs.perform sys cwd t) 1 ≠ some e.obj ∧ execTable (rs.perform sys cwd t) 2 ≠ some e.obj := by
  refine ⟨RedirEx.sys, c!"/", [(0, RedirEx.toFd 0 0 0), (1, RedirEx.toFd 1 5 65), (2, RedirEx.toFd 2 5 65)],
    RedirEx.tbl, _, _, _,
    .new (args := [.one (RedirEx.toFd 0 0 0), .one (RedirEx.toFd 1 5 65), .one (RedirEx.toFd 2 5 65)]) rfl,
    FdTable.bounded_ofList _, rfl, rfl, rfl, rfl, rfl, ?_, by decide, by decide⟩
  intro n r s h hs
  have := RedirEx.get?_cases h
  simp at this
  rcases this with ⟨rfl, rfl⟩ | ⟨rfl, rfl⟩ | ⟨rfl, rfl⟩ <;> cases hs <;> exact ⟨_, rfl⟩

example : ∃ e, (Redirects.performTry RedirEx.sys [] [(1, RedirEx.toFd 1 5 65), (2, RedirEx.toFd 2 5 65)] RedirEx.tbl).1
    = .error e :=
  C04_repeated_source_always_fails RedirEx.sys [] _ RedirEx.tbl
    (.new (args := [.one (RedirEx.toFd 1 5 65), .one (RedirEx.toFd 2 5 65)]) rfl) 1 2 5 _ _ (by decide) rfl rfl rfl rfl

/-! ## C05 -/

/-- **C05, what the code does**: whether or not the redirections could be performed, the program is executed
(provided the working directory exists and the program can be executed). -/
theorem C05_exec_regardless (sys : Sys) (procCwd envCwd : Str) (rs : Redirects) (t : FdTable) :
    childRun sys procCwd envCwd none none rs t = .exec (execTable (rs.perform sys procCwd t)) envCwd := rfl

/-- **C05 refuted**: `cmd < "missing"` with the standard table executes cmd, with the shell's own stdin and
without stdout and stderr. -/
theorem C05_refuted : ∃ (sys : Sys) (cwd : Str) (rs : Redirects) (t : FdTable) (fds : Nat → Option Obj),
    rs.Built ∧ t.Bounded ∧ (rs.performTry sys cwd t).1 = .error (.osError ENOENT) ∧
    childRun sys cwd cwd none none rs t = .exec fds cwd ∧
    fds 0 = some (.inherited 0) ∧ fds 1 = none ∧ fds 2 = none := by
  refine ⟨RedirEx.sys, c!"/", [(0, RedirEx.toPath 0 c!"missing" 0), (1, RedirEx.toFd 1 1 65), (2, RedirEx.toFd 2 2 65)],
    RedirEx.tbl, _, .new (args := [.one (RedirEx.toPath 0 c!"missing" 0), .one (RedirEx.toFd 1 1 65), .one (RedirEx.toFd 2 2 65)]) rfl,
    FdTable.bounded_ofList _, by rfl, rfl, by rfl, by rfl, by rfl⟩

/-- **C05** (partial: the converse direction, and only for failures of chdir and execvpe). The program is
not executed if the environment's directory cannot be entered or the program cannot be executed; the child
then exits with that errno. -/
theorem C05_other_failures_prevent_exec_partial (sys : Sys) (procCwd envCwd : Str) (chdirErr execErr : Option Nat)
    (rs : Redirects) (t : FdTable) (h : chdirErr ≠ none ∨ execErr ≠ none) :
    ∃ e : Nat, childRun sys procCwd envCwd chdirErr execErr rs t = .exit e ∧
      (chdirErr = some e ∨ (chdirErr = none ∧ execErr = some e)) := by
  unfold childRun
  cases chdirErr with
  | some e => exact ⟨e, rfl, .inl rfl⟩
  | none =>
    cases execErr with
    | some e => exact ⟨e, rfl, .inr ⟨rfl, rfl⟩⟩
    | none => simp at h

example : ∃ e : Nat, childRun RedirEx.sys [] [] none (some 2) RedirEx.swap RedirEx.tbl = .exit e ∧
    ((none : Option Nat) = some e ∨ ((none : Option Nat) = none ∧ some 2 = some e)) :=
  C05_other_failures_prevent_exec_partial _ _ _ _ _ _ _ (.inr (by simp))

/-! ## C07 -/

/-- **C07.** The automatically chosen descriptor is above 2 and differs from all targets and sources. -/
theorem C07_free_descriptor (rs : Redirects) (hbuilt : rs.Built) :
    2 < rs.findFreeFd ∧ ∀ n r, Dict.get? rs n = some r →
      rs.findFreeFd ≠ n ∧ ∀ s, r.source = .fd s → rs.findFreeFd ≠ s := by
  have h := findFreeFd_gt rs
  refine ⟨h.2.2, fun n r hr => ?_⟩
  obtain ⟨hv, hn⟩ := hbuilt.wf.value_of_get? hr
  refine ⟨by have := h.1 r hv; omega, fun s hs => ?_⟩
  have := h.2.1 s (mem_srcFds.2 ⟨r, hv, hs⟩); omega

example : RedirEx.swap.findFreeFd ≠ 7 ∧ RedirEx.swap.findFreeFd ≠ 4 := by
  have h := (C07_free_descriptor RedirEx.swap RedirEx.swap_built).2
  exact ⟨(h 7 _ rfl).1, (h 0 _ rfl).2 4 rfl⟩

/-! ## C09 -/

/-- **C09.** Closing the shell's copies succeeds if the non-borrowed sources are open and distinct, and then
closes exactly them: everything else, in particular every borrowed source, stays open and unchanged. -/
theorem C09_shell_closes_own_ends (rs : Redirects) (t : FdTable) (hbuilt : rs.Built)
    (hopen : OpenSources rs t)
    (hdist : ∀ n m r q s, Dict.get? rs n = some r → Dict.get? rs m = some q →
      r.source = .fd s → q.source = .fd s → r.borrowed = false → q.borrowed = false → n = m) :
    ∃ t', rs.closeSourceFds t = (.ok (), t') ∧
      (∀ n, (∃ m r, Dict.get? rs m = some r ∧ r.source = .fd n ∧ r.borrowed = false) → t'.get n = none) ∧
      (∀ n, (∀ m r, Dict.get? rs m = some r → r.source = .fd n → r.borrowed = true) → t'.get n = t.get n) := by
  have hwf := hbuilt.wf
  have hmem : ∀ n, n ∈ ownedFds (Dict.values rs) ↔
      ∃ m r, Dict.get? rs m = some r ∧ r.source = .fd n ∧ r.borrowed = false := by
    intro n
    unfold ownedFds
    rw [mem_srcFds]
    constructor
    · rintro ⟨r, hr, hs⟩
      rw [List.mem_filter] at hr
      exact ⟨r.fd, r, hwf.get?_of_value hr.1, hs, by simpa using hr.2⟩
    · rintro ⟨m, r, hg, hs, hb⟩
      exact ⟨r, List.mem_filter.2 ⟨(hwf.value_of_get? hg).1, by simp [hb]⟩, hs⟩
  have hnd : (ownedFds (Dict.values rs)).Nodup := by
    unfold ownedFds
    apply srcFds_nodup
    · exact hwf.nodup_fds.sublist (List.Sublist.map _ (List.filter_sublist))
    · intro r hr q hq s h1 h2
      rw [List.mem_filter] at hr hq
      exact hdist _ _ r q s (hwf.get?_of_value hr.1) (hwf.get?_of_value hq.1) h1 h2 (by simpa using hr.2) (by simpa using hq.2)
  obtain ⟨t', h1, h2, -⟩ := closeSources_ok (Dict.values rs) t (by
    intro s hs
    obtain ⟨m, r, hg, hsr, -⟩ := (hmem s).1 hs
    obtain ⟨e, he⟩ := hopen m r s hg hsr
    simp [he]) hnd
  refine ⟨t', h1, ?_, ?_⟩
  · intro n hn; rw [h2, if_pos ((hmem n).2 hn)]
  · intro n hn
    rw [h2, if_neg]
    intro h
    obtain ⟨m, r, hg, hs, hb⟩ := (hmem n).1 h
    rw [hn m r hg hs] at hb; cases hb

/-- **C09, unconditionally**: whatever the table and even if closing raises half-way, a descriptor that is
not a non-borrowed source is left alone. -/
theorem C09_never_closes_borrowed (rs : Redirects) (t : FdTable) (n : Nat) (hbuilt : rs.Built)
    (h : ∀ m r, Dict.get? rs m = some r → r.source = .fd n → r.borrowed = true) :
    (rs.closeSourceFds t).2.get n = t.get n := by
  apply closeSources_other
  intro hm
  obtain ⟨r, hr, hs⟩ := mem_srcFds.1 hm
  rw [List.mem_filter] at hr
  have := h r.fd r (hbuilt.wf.get?_of_value hr.1) hs
  simp [this] at hr

/-- In `a | b`, the shell closes the pipe end 5 it gave to a, and keeps its own terminal descriptors. -/
example : ∃ t', Redirects.closeSourceFds
    [(0, RedirEx.toFd 0 0 0), (1, { RedirEx.toFd 1 5 65 with borrowed := false }), (2, RedirEx.toFd 2 2 65)] RedirEx.tbl
      = (.ok (), t') ∧ t'.get 5 = none ∧ t'.get 2 = some (RedirEx.inh 2) := by
  have hb : Redirects.Built [(0, RedirEx.toFd 0 0 0), (1, { RedirEx.toFd 1 5 65 with borrowed := false }), (2, RedirEx.toFd 2 2 65)] :=
    .new (args := [.one (RedirEx.toFd 0 0 0), .one { RedirEx.toFd 1 5 65 with borrowed := false }, .one (RedirEx.toFd 2 2 65)]) rfl
  obtain ⟨t', h1, h2, h3⟩ := C09_shell_closes_own_ends _ RedirEx.tbl hb (by
    intro n r s h hs
    have := RedirEx.get?_cases h
    simp at this
    rcases this with ⟨rfl, rfl⟩ | ⟨rfl, rfl⟩ | ⟨rfl, rfl⟩ <;> cases hs <;> exact ⟨_, rfl⟩)
    (by
      intro n m r q s h1 h2 h3 h4
      have h1 := RedirEx.get?_cases h1
      have h2 := RedirEx.get?_cases h2
      simp at h1 h2
      rcases h1 with ⟨rfl, rfl⟩ | ⟨rfl, rfl⟩ | ⟨rfl, rfl⟩ <;>
        rcases h2 with ⟨rfl, rfl⟩ | ⟨rfl, rfl⟩ | ⟨rfl, rfl⟩ <;>
        first | (intros; rfl) | (cases h3; cases h4))
  refine ⟨t', h1, h2 5 ⟨1, _, rfl, rfl, rfl⟩, ?_⟩
  rw [h3 2 (by
    intro m r h hs
    have := RedirEx.get?_cases h
    simp at this
    rcases this with ⟨rfl, rfl⟩ | ⟨rfl, rfl⟩ | ⟨rfl, rfl⟩ <;> cases hs; rfl)]
  rfl

end Pieshell
