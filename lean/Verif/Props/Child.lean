import Verif.Model.Child
import Verif.Props.Redir
/-!
# C10, C11: relative paths; content of output files
-/
namespace Pieshell

/-- Absolute form of a path as the kernel resolves it for a process in directory `cwd` (before `.`/`..` and
symbolic links, which do not depend on pieshell). -/
def kernelPath (cwd path : Str) : Str :=
  match path with
  | '/' :: _ => path
  | _ => cwd ++ '/' :: path

/-- **C10** (partial: needs the process's working directory to be the environment's, or an absolute path).
The file that descriptor 0/1/2... of the program refers to is the one named relative to the environment's
directory. -/
theorem C10_relative_redirection_partial (sys : Sys) (procCwd envCwd : Str) (rs : Redirects) (t : FdTable)
    (hsame : procCwd = envCwd ∨ ∀ n r p, Dict.get? rs n = some r → r.source = .path p → ∃ q, p = '/' :: q)
    (hbuilt : rs.Built) (ht : t.Bounded)
    (hmat : Materialised rs) (hopen : OpenSources rs t) (hdist : DistinctSources rs) (hlim : FitsLimit sys rs)
    (hcanopen : ∀ n r p, Dict.get? rs n = some r → r.source = .path p → sys.openErr procCwd p r.flag = none)
    (hclash : ¬ Clash rs t) :
    ∃ fds, childRun sys procCwd envCwd none none rs t = .exec fds envCwd ∧
      ∀ n r p, Dict.get? rs n = some r → r.source = .path p →
        ∃ dir, fds n = some (.file dir p r.flag r.mode) ∧ kernelPath dir p = kernelPath envCwd p := by
  refine ⟨_, rfl, ?_⟩
  intro n r p hr hp
  obtain ⟨o, ho, he⟩ := (C03_exact sys procCwd rs t hbuilt ht hmat hopen hdist hlim hcanopen).2 hclash n r hr
  simp [expected, hp] at ho
  refine ⟨procCwd, by rw [he, ← ho], ?_⟩
  rcases hsame with h | h
  · rw [h]
  · obtain ⟨q, rfl⟩ := h n r p hr hp; rfl

/-- **C10, what the code does in general**: the path is resolved against the directory of the shell
*process*, because redirections are performed before the child changes directory. -/
theorem C10_resolved_against_process_directory (sys : Sys) (procCwd envCwd : Str) (rs : Redirects) (t : FdTable)
    (hbuilt : rs.Built) (ht : t.Bounded)
    (hmat : Materialised rs) (hopen : OpenSources rs t) (hdist : DistinctSources rs) (hlim : FitsLimit sys rs)
    (hcanopen : ∀ n r p, Dict.get? rs n = some r → r.source = .path p → sys.openErr procCwd p r.flag = none)
    (hclash : ¬ Clash rs t) :
    ∃ fds, childRun sys procCwd envCwd none none rs t = .exec fds envCwd ∧
      ∀ n r p, Dict.get? rs n = some r → r.source = .path p → fds n = some (.file procCwd p r.flag r.mode) := by
  refine ⟨_, rfl, ?_⟩
  intro n r p hr hp
  obtain ⟨o, ho, he⟩ := (C03_exact sys procCwd rs t hbuilt ht hmat hopen hdist hlim hcanopen).2 hclash n r hr
  simp [expected, hp] at ho
  rw [he, ← ho]

theorem C10_single_file (procCwd envCwd : Str) (p : Str) :
    ∃ fds, childRun { RedirEx.sys with openErr := fun _ _ _ => none } procCwd envCwd none none
        [(1, RedirEx.toPath 1 p 65)] RedirEx.tbl = .exec fds envCwd ∧ fds 1 = some (.file procCwd p 65 511) := by
  obtain ⟨fds, h1, h2⟩ := C10_resolved_against_process_directory { RedirEx.sys with openErr := fun _ _ _ => none }
    procCwd envCwd [(1, RedirEx.toPath 1 p 65)] RedirEx.tbl
    (.new (args := [.one (RedirEx.toPath 1 p 65)]) rfl) (FdTable.bounded_ofList _)
    (by intro n r h; have := RedirEx.get?_cases h; simp at this; exact .inr ⟨_, by rw [this.2]; rfl⟩)
    (by intro n r s h hs; have := RedirEx.get?_cases h; simp at this; rw [this.2] at hs; cases hs)
    (by intro n m r q s h1 h2 h3 h4; have := RedirEx.get?_cases h1; simp at this; rw [this.2] at h3; cases h3)
    (by
      refine ⟨by simp [RedirEx.sys], fun n r h => ?_⟩
      have := RedirEx.get?_cases h; simp at this
      refine ⟨by rw [this.1]; simp [RedirEx.sys], fun s hs => by rw [this.2] at hs; cases hs⟩)
    (by intros; rfl)
    (noClash_of (.new (args := [.one (RedirEx.toPath 1 p 65)]) rfl) (by
      intro n r p h hp
      have := RedirEx.get?_cases h; simp at this
      refine ⟨by rw [this.1]; decide, fun m q hq => ?_⟩
      have := RedirEx.get?_cases hq; simp at this
      rw [this.2]; simp [RedirEx.toPath]))
  exact ⟨fds, h1, h2 1 _ p rfl rfl⟩

/-- **C10 refuted**: an environment whose directory is not the process's one. -/
theorem C10_refuted : ∃ (sys : Sys) (procCwd envCwd : Str) (rs : Redirects) (t : FdTable) (fds : Nat → Option Obj) (dir : Str),
    rs.Built ∧ t.Bounded ∧ childRun sys procCwd envCwd none none rs t = .exec fds envCwd ∧
    (∃ r, Dict.get? rs 1 = some r ∧ r.source = .path c!"out") ∧
    fds 1 = some (.file dir c!"out" 65 511) ∧ kernelPath dir c!"out" ≠ kernelPath envCwd c!"out" := by
  obtain ⟨fds, h1, h2⟩ := C10_single_file c!"/home" c!"/tmp" c!"out"
  exact ⟨_, _, _, _, _, fds, c!"/home", .new (args := [.one (RedirEx.toPath 1 c!"out" 65)]) rfl,
    FdTable.bounded_ofList _, h1, ⟨_, rfl, rfl⟩, h2, by decide⟩

/-- the partial theorem's hypotheses are met: one output file, process and environment in the same directory -/
example : ∃ fds, childRun { RedirEx.sys with openErr := fun _ _ _ => none } c!"/tmp" c!"/tmp" none none
    [(1, RedirEx.toPath 1 c!"out" 65)] RedirEx.tbl = .exec fds c!"/tmp" ∧
    fds 1 = some (.file c!"/tmp" c!"out" 65 511) := C10_single_file _ _ _

/-! ## C11 -/

theorem fileAfter_aux (chunks : List (List UInt8)) (done old : List UInt8) :
    (chunks.foldl writeAt (done ++ old, done.length)).1 =
      done ++ chunks.flatten ++ old.drop chunks.flatten.length := by
  induction chunks generalizing done old with
  | nil => simp
  | cons c chunks ih =>
    have h : writeAt (done ++ old, done.length) c = ((done ++ c) ++ old.drop c.length, (done ++ c).length) := by
      simp [writeAt, List.drop_append]
    rw [List.foldl_cons, h, ih]
    simp [List.drop_drop]

/-- **C11, exactly what happens**: with the flags that `cmd | "file"` uses, the output overwrites the
beginning of the file and the rest of the old content stays, however the output is split into writes. -/
theorem C11_output_file_content (p : Str) (r : Redirect) (old : List UInt8) (chunks : List (List UInt8))
    (hr : mkRedirect (.name c!"stdout") (.path p) = .ok r) :
    fileAfter r.flag old chunks = chunks.flatten ++ old.drop chunks.flatten.length := by
  have : r.flag = 65 := by cases hr; rfl
  have h := fileAfter_aux chunks [] old
  simp only [List.nil_append, List.length_nil] at h
  simp only [fileAfter, this, openContent]
  rw [if_neg (by decide)]
  exact h

/-- **C11** (partial: only if the file is not longer than the output). -/
theorem C11_output_replaces_content_partial (p : Str) (r : Redirect) (old : List UInt8) (chunks : List (List UInt8))
    (hr : mkRedirect (.name c!"stdout") (.path p) = .ok r) (hlen : old.length ≤ chunks.flatten.length) :
    fileAfter r.flag old chunks = chunks.flatten := by
  rw [C11_output_file_content p r old chunks hr, List.drop_eq_nil_of_le hlen, List.append_nil]

/-- **C11 refuted**, for every file longer than the output. -/
theorem C11_refuted (p : Str) (r : Redirect) (old : List UInt8) (chunks : List (List UInt8))
    (hr : mkRedirect (.name c!"stdout") (.path p) = .ok r) (hlen : chunks.flatten.length < old.length) :
    fileAfter r.flag old chunks ≠ chunks.flatten := by
  rw [C11_output_file_content p r old chunks hr]
  intro h
  have := congrArg List.length h
  rw [List.length_append, List.length_drop] at this; omega

/-- **C11 with explicit flags**: `Redirect("stdout", "file", flags)` keeps what lies behind the output exactly if the flags lack O_TRUNC (512); with O_TRUNC the file contains
exactly the output, whatever it contained. -/
theorem C11_explicit_flags (fd : FdSpec) (p : Str) (flags : Nat) (r : Redirect) (old : List UInt8) (chunks : List (List UInt8))
    (hr : mkRedirect fd (.path p) (some flags) = .ok r) :
    fileAfter r.flag old chunks = chunks.flatten ++ if flags &&& 512 = 0 then old.drop chunks.flatten.length else [] := by
  have hf : r.flag = flags := by
    unfold mkRedirect at hr
    split at hr
    · cases hr
    · cases hr; rfl
  have key := fun o => fileAfter_aux chunks [] o
  simp only [List.nil_append, List.length_nil] at key
  simp only [fileAfter, hf, openContent, key, O_TRUNC]
  by_cases h : flags &&& 512 = 0
  · rw [if_neg (by simp [h]), if_pos h]
  · rw [if_pos h, if_neg h]; simp

/-- `O_WRONLY | O_CREAT | O_TRUNC` -/
example : ∃ r, mkRedirect (.name c!"stdout") (.path c!"f") (some 577) = .ok r ∧ fileAfter r.flag [1, 2, 3] [[9], [8]] = [9, 8] :=
  ⟨_, rfl, C11_explicit_flags (.name c!"stdout") c!"f" 577 _ [1, 2, 3] [[9], [8]] rfl⟩
example : fileAfter 65 [1, 2, 3, 4, 5] [[9], [8]] = [9, 8, 3, 4, 5] :=
  C11_output_file_content c!"f" _ [1, 2, 3, 4, 5] [[9], [8]] rfl
example : fileAfter 65 [1] [[9], [8]] = [9, 8] :=
  C11_output_replaces_content_partial c!"f" _ [1] [[9], [8]] rfl (by decide)
example : fileAfter 65 [1, 2, 3] [[9], [8]] ≠ [9, 8] :=
  C11_refuted c!"f" _ [1, 2, 3] [[9], [8]] rfl (by decide)

end Pieshell
