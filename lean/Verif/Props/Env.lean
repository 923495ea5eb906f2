import Verif.Lemmas.Env
import Verif.Spec.Args
/-!
# Environments: C29, C30, C31, C32, C35

`World` holds the process's directory and variables, all environments and the file system; `Op` are the operations of
the API (creating and copying environments, `cd`, changing exported variables, `dir()`, `clear_dir_cache`) and changes of
the file system by others. Theorems quantify over arbitrary worlds and sequences of operations.
-/
namespace Pieshell.Envs
open Pieshell.Path Pieshell.Expand

/-! ## C29 -/

/-- C29: after any sequence of operations the directory of every environment is absolute and has no empty, `.` or `..`
components, except that there may be two slashes in front. (Hypotheses: it was so in the beginning, and the operating system
reports such paths as current directory.) -/
theorem C29_absolute_normalised_partial (w : World) (ops : List Op) (h0 : NormalPath w.procCwd) (he : ∀ e ∈ w.envs, NormalPath e.cwd)
    (hd : ∀ q, NormalPath (w.disk.real q)) (hops : ∀ op ∈ ops, op.diskOk NormalPath) :
    ∀ e ∈ (run w ops).envs, NormalPath e.cwd :=
  (inv_run (fun c _ => closed_normal c) ⟨h0, hd, he⟩ ops (fun _ _ p _ => closed_normal p) hops).envs

/-- C29, in full when no path starts with exactly two slashes or with `~`. -/
theorem C29_strictly_normalised_partial (w : World) (ops : List Op) (h0 : StrictPath w.procCwd) (he : ∀ e ∈ w.envs, StrictPath e.cwd)
    (hd : ∀ q, StrictPath (w.disk.real q)) (hops : ∀ op ∈ ops, op.diskOk StrictPath)
    (hp : ∀ op ∈ ops, ∀ p ∈ op.paths, p.head? ≠ some '~' ∧ ¬ TwoSlashes p) :
    ∀ e ∈ (run w ops).envs, StrictPath e.cwd :=
  (inv_run closed_strict_self ⟨h0, hd, he⟩ ops (fun op ho p h => closed_strict (hp op ho p h).1 (hp op ho p h).2) hops).envs

/-- A machine with directories everywhere. -/
def anyDisk : Disk where
  «exists» _ := true
  chdirErr _ := none
  real p := normpath (if isAbs p && !(startsWith c!"//" p) then p else c!"/")
  listdir _ := some [c!"prog"]

/-- A session: the process is in `/home`, one environment. -/
def session (disk : Disk) (interactive : Bool) : World where
  procCwd := c!"/home"
  environ := [(c!"HOME", c!"/root"), (c!"PATH", c!"/bin")]
  dicts := []
  envs := [{ cwd := c!"/home", exports := none, interactive := interactive, dirCache := none }]
  disk := disk
  pwHome := none
  users := fun _ => none
  builtins := [c!"cd"]
  sort := id

theorem strict_home : StrictPath c!"/home" := ⟨[c!"home"], by unfold Normal Comp; decide, rfl⟩

theorem anyDisk_strict (q : Str) : StrictPath (anyDisk.real q) := by
  simp only [anyDisk]
  split
  · next h =>
    simp only [Bool.and_eq_true, Bool.not_eq_true'] at h
    refine normpath_strict h.1 ?_
    rintro ⟨t, rfl, _⟩
    have := h.2
    simp [startsWith] at this
  · exact ⟨[], by simp, by decide⟩

/-- the hypotheses are met by `cd("../tmp/./x//")` in a session -/
example : StrictPath (session anyDisk true).procCwd ∧ (∀ e ∈ (session anyDisk true).envs, StrictPath e.cwd) ∧
    (∀ q, StrictPath ((session anyDisk true).disk.real q)) ∧
    (∀ op ∈ [Op.cd 0 c!"../tmp/./x//"], op.diskOk StrictPath ∧ ∀ p ∈ op.paths, p.head? ≠ some '~' ∧ ¬ TwoSlashes p) ∧
    ((run (session anyDisk true) [Op.cd 0 c!"../tmp/./x//"]).envs.map (·.cwd)) = [c!"/tmp/x"] := by
  refine ⟨strict_home, ?_, anyDisk_strict, ?_, rfl⟩
  · intro e he
    simp [session] at he
    subst he
    exact strict_home
  · intro op ho
    simp at ho
    subst ho
    refine ⟨trivial, ?_⟩
    intro p hp
    simp [Op.paths] at hp
    subst hp
    refine ⟨by decide, ?_⟩
    rintro ⟨t, e, _⟩
    cases e

/-- C29 is false as stated: `cd("//tmp")` leaves an empty component in front. -/
theorem C29_refuted : ∃ w, run (session anyDisk false) [.cd 0 c!"//tmp"] = w ∧ w.envs.map (·.cwd) = [c!"//tmp"] ∧ ¬ StrictPath c!"//tmp" := by
  refine ⟨_, rfl, rfl, ?_⟩
  intro h
  exact strict_notTwo h ⟨c!"tmp", rfl, by decide⟩

/-! ## C30 -/

/-- where `cd(path)` leads from environment `e` -/
def destination (w : World) (e : EnvObj) (path : Str) : Str := expandPath e.cwd w.procCwd w.homes path

/-- C30: when everything that exists can be entered, a failing `cd` changes nothing at all; a successful one sets the
environment's directory to the destination, which exists, and sets the process's directory to it exactly if the
environment is interactive. Nothing else changes. -/
theorem C30_cd_partial (w : World) (i : Nat) (e : EnvObj) (path : Str) (he : w.envs[i]? = some e)
    (hdir : w.disk.exists (destination w e path) = true → w.disk.chdirErr (destination w e path) = none) :
    (∀ x, (w.cd i path).2 = .error x → (w.cd i path).1 = w) ∧
    ((w.cd i path).2 = .ok () → w.disk.exists (destination w e path) = true ∧
      (w.cd i path).1 = { w with
        envs := w.envs.set i { e with cwd := destination w e path },
        procCwd := if e.interactive then w.disk.real (destination w e path) else w.procCwd }) ∧
    (w.disk.exists (destination w e path) = true → (w.cd i path).2 = .ok ()) := by
  rcases cd_cases w i path with ⟨h, x, h2⟩ | ⟨e', he', hx, hh⟩
  · refine ⟨fun _ _ => h, ?_, ?_⟩
    · intro h3; rw [h2] at h3; cases h3
    · intro hx
      unfold World.cd at h2
      rw [he] at h2
      have hx' : w.disk.exists (expandPath e.cwd w.procCwd w.homes path) = true := hx
      have hc' : w.disk.chdirErr (expandPath e.cwd w.procCwd w.homes path) = none := hdir hx
      simp only [hx', hc', Bool.not_true, Bool.false_eq_true, ↓reduceIte] at h2
      split at h2 <;> cases h2
  · rw [he] at he'
    injection he' with he'
    subst he'
    have hc' : w.disk.chdirErr (expandPath e.cwd w.procCwd w.homes path) = none := hdir hx
    rcases hh with ⟨h1, h⟩ | ⟨h1, n, h2, h⟩ | ⟨h1, h2, h⟩
    · rw [h]
      refine ⟨(fun x hx => by cases hx), fun _ => ⟨hx, ?_⟩, fun _ => rfl⟩
      rw [h1]
      rfl
    · rw [hc'] at h2; cases h2
    · rw [h]
      refine ⟨(fun x hx => by cases hx), fun _ => ⟨hx, ?_⟩, fun _ => rfl⟩
      rw [h1]
      rfl

/-- the hypotheses are met and both outcomes occur -/
example : ((session anyDisk true).cd 0 c!"/tmp").2 = .ok () ∧ ((session anyDisk true).cd 0 c!"/tmp").1.procCwd = c!"/tmp" ∧
    ((session anyDisk false).cd 0 c!"/tmp").1.procCwd = c!"/home" ∧
    ((session { anyDisk with «exists» := fun _ => false } true).cd 0 c!"/tmp").2 = .error (.osError 0) := ⟨rfl, rfl, rfl, rfl⟩

/-- C30: operations on non-interactive environments never change the process's directory. -/
theorem C30_noninteractive (w : World) (ops : List Op) (he : ∀ e ∈ w.envs, e.interactive = false) (hops : ∀ op ∈ ops, op.makesInteractive = false) :
    (run w ops).procCwd = w.procCwd := by
  have cdl : ∀ (w : World) i p, (∀ e ∈ w.envs, e.interactive = false) → (w.cd i p).1.procCwd = w.procCwd ∧ ∀ e ∈ (w.cd i p).1.envs, e.interactive = false := by
    intro w i p h
    refine ⟨?_, cd_envs (P := fun e => e.interactive = false) h (fun e he => h e he)⟩
    rcases cd_cases w i p with ⟨h', _⟩ | ⟨e, he, _, ⟨_, h'⟩ | ⟨_, _, _, h'⟩ | ⟨hi, _, h'⟩⟩
    · rw [h']
    · rw [h']
    · rw [h']
    · rw [h e (List.mem_of_getElem? he)] at hi; cases hi
  have drop : ∀ n (r : World × Except Exn Unit) (p : Str), (r.1.procCwd = p ∧ ∀ e ∈ r.1.envs, e.interactive = false) →
      (dropLast n r).1.procCwd = p ∧ ∀ e ∈ (dropLast n r).1.envs, e.interactive = false := by
    intro n r p h
    unfold dropLast
    split
    · exact ⟨h.1, fun e he => h.2 e (List.mem_of_mem_take he)⟩
    · exact h
  have con : ∀ (w : World) c ex, (∀ e ∈ w.envs, e.interactive = false) →
      (w.construct c ex false).1.procCwd = w.procCwd ∧ ∀ e ∈ (w.construct c ex false).1.envs, e.interactive = false := by
    intro w c ex h
    have h1 : ∀ e ∈ w.envs ++ [({ cwd := w.procCwd, exports := ex, interactive := false, dirCache := none } : EnvObj)], e.interactive = false := by
      intro e he
      rcases List.mem_append.1 he with he | he
      · exact h e he
      · simp at he; subst he; rfl
    unfold World.construct
    cases c with
    | none => exact ⟨rfl, h1⟩
    | some c => exact drop _ _ _ (cdl { w with envs := w.envs ++ [{ cwd := w.procCwd, exports := ex, interactive := false, dirCache := none }] } _ c h1)
  induction ops generalizing w with
  | nil => rfl
  | cons op ops ih =>
    have hstep : (step w op).procCwd = w.procCwd ∧ ∀ e ∈ (step w op).envs, e.interactive = false := by
      have ho := hops op (by simp)
      have hset : ∀ i e c, w.envs[i]? = some e → ∀ x ∈ w.envs.set i { e with dirCache := c }, x.interactive = false := by
        intro i e c h x hx
        rcases List.mem_or_eq_of_mem_set hx with hx | rfl
        · exact he x hx
        · exact he e (List.mem_of_getElem? h)
      cases op with
      | new c b =>
        simp only [Op.makesInteractive] at ho
        subst ho
        exact con w c none he
      | call i c ex b =>
        simp only [step, World.call]
        cases hi : w.envs[i]? with
        | none => exact ⟨rfl, he⟩
        | some e =>
          have hb : b.getD e.interactive = false := by
            have h1 := he e (List.mem_of_getElem? hi)
            cases b with
            | none => exact h1
            | some b => simpa [Op.makesInteractive] using ho
          simp only
          rw [hb]
          have h1 := con { w with dicts := w.dicts ++ [ex.getD (w.exportsOf e)] } (some e.cwd) (some w.dicts.length) he
          generalize World.construct { w with dicts := w.dicts ++ [ex.getD (w.exportsOf e)] } (some e.cwd) (some w.dicts.length) false = r at h1
          unfold thenCd
          cases r.2 with
          | error x => exact h1
          | ok n =>
            cases c with
            | none => exact h1
            | some c =>
              have h2 := cdl r.1 n c h1.2
              exact drop _ _ _ ⟨by rw [h2.1]; exact h1.1, h2.2⟩
      | cd i p => exact cdl w i p he
      | cdBuiltin i ws => exact cdl w i _ he
      | setVar i k v =>
        simp only [step, World.setVar]
        split
        · exact ⟨rfl, he⟩
        · split
          · exact ⟨rfl, he⟩
          · split <;> exact ⟨rfl, he⟩
      | delVar i k =>
        simp only [step, World.delVar]
        split
        · exact ⟨rfl, he⟩
        · split
          · exact ⟨rfl, he⟩
          · split <;> exact ⟨rfl, he⟩
      | dir i =>
        simp only [step, World.dir]
        cases hi : w.envs[i]? with
        | none => exact ⟨rfl, he⟩
        | some e =>
          simp only
          split
          · exact ⟨rfl, he⟩
          · split
            · exact ⟨rfl, hset i e _ hi⟩
            · split <;> exact ⟨rfl, hset i e _ hi⟩
      | clear i =>
        simp only [step, World.clearDirCache]
        cases hi : w.envs[i]? with
        | none => exact ⟨rfl, he⟩
        | some e => exact ⟨rfl, hset i e _ hi⟩
      | clearBuiltin i => exact ⟨rfl, he⟩
      | disk d => exact ⟨rfl, he⟩
    have := ih (step w op) hstep.2 (fun o ho => hops o (by simp [ho]))
    show (run (step w op) ops).procCwd = _
    rw [this, hstep.1]

example : (∀ e ∈ (session anyDisk false).envs, e.interactive = false) ∧
    ∀ op ∈ [Op.cd 0 c!"/tmp", .call 0 (some c!"/usr") none none], op.makesInteractive = false := by
  constructor <;> decide

/-- C30 is false for something that exists but cannot be entered (a regular file): `cd` raises `NotADirectoryError`
(errno 20), and the environment's directory is now the file. -/
theorem C30_refuted : ∃ (d : Disk) (w : World), (∀ q, StrictPath (d.real q)) ∧ (session d true).cd 0 c!"/etc/passwd" = (w, .error (.osError 20)) ∧
    w.envs.map (·.cwd) = [c!"/etc/passwd"] ∧ w.procCwd = c!"/home" :=
  ⟨{ anyDisk with chdirErr := fun p => if p = c!"/etc/passwd" then some 20 else none }, _, anyDisk_strict, rfl, rfl, rfl⟩

/-- C30: a non-interactive environment even "enters" anything that exists, say a regular file. -/
theorem C30_enters_anything (w : World) (i : Nat) (e : EnvObj) (path : Str) (he : w.envs[i]? = some e) (hi : e.interactive = false)
    (hx : w.disk.exists (destination w e path) = true) :
    w.cd i path = ({ w with envs := w.envs.set i { e with cwd := destination w e path } }, .ok ()) := by
  have hx : w.disk.exists (expandPath e.cwd w.procCwd w.homes path) = true := hx
  unfold World.cd
  rw [he]
  simp only [hx, hi]
  rfl

example : (session anyDisk false).envs[0]? = some { cwd := c!"/home", exports := none, interactive := false, dirCache := none } ∧
    (session anyDisk false).disk.exists (destination (session anyDisk false) { cwd := c!"/home", exports := none, interactive := false, dirCache := none } c!"/etc/passwd") = true :=
  ⟨rfl, rfl⟩

/-! ## C31 -/

theorem apart_setDict {w : World} (h : Apart w) {r : Nat} {d : Dict Str Str} (hd : d ≠ []) : Apart { w with dicts := w.dicts.set r d } := by
  refine ⟨h.environ, ?_, h.distinct⟩
  intro e he q hq
  obtain ⟨d', h1, h2⟩ := h.nonempty e he q hq
  show ∃ d', (w.dicts.set r d)[q]? = some d' ∧ d' ≠ []
  rw [List.getElem?_set]
  split
  · next hrq =>
    subst hrq
    split
    · exact ⟨d, rfl, hd⟩
    · next hl => rw [List.getElem?_eq_none (by omega)] at h1; cases h1
  · exact ⟨d', h1, h2⟩

theorem apart_step {w : World} (h : Apart w) (op : Op) (hk : op.Keeps w) : Apart (step w op) := by
  cases op with
  | new c b => exact absurd hk (by simp [Op.Keeps])
  | call i c ex b =>
    obtain ⟨f1, _, f3, _⟩ := call_frame w i c ex b
    rcases f3 with ⟨f3, f4⟩ | ⟨e, he, f3, f4⟩
    · exact apart_of h f1 f3 f4
    · have hd : ex.getD (w.exportsOf e) ≠ [] := by
        cases ex with
        | none => exact exportsOf_ne_nil h (List.mem_of_getElem? he)
        | some d => simpa [Op.Keeps] using hk
      have hlt : ∀ f ∈ w.envs, ∀ r, f.exports = some r → r < w.dicts.length := by
        intro f hf r hr
        obtain ⟨d, h1, _⟩ := h.nonempty f hf r hr
        rcases Nat.lt_or_ge r w.dicts.length with hl | hl
        · exact hl
        · rw [List.getElem?_eq_none hl] at h1; cases h1
      have hext : Apart { w with dicts := w.dicts ++ [ex.getD (w.exportsOf e)] } := by
        refine ⟨h.environ, ?_, h.distinct⟩
        intro f hf r hr
        obtain ⟨d, h1, h2⟩ := h.nonempty f hf r hr
        exact ⟨d, by rw [← h1]; exact List.getElem?_append_left (hlt f hf r hr), h2⟩
      rcases f4 with f4 | f4
      · exact apart_of hext f1 f3 f4
      · refine ⟨by show (w.call i c ex b).1.environ ≠ []; rw [f1]; exact h.environ, ?_, ?_⟩
        · intro f hf r hr
          show ∃ d, (w.call i c ex b).1.dicts[r]? = some d ∧ d ≠ []
          have hm : some r ∈ w.exps ++ [some w.dicts.length] := by
            rw [← f4]
            exact List.mem_map.2 ⟨f, hf, hr⟩
          rw [f3]
          rcases List.mem_append.1 hm with hm | hm
          · obtain ⟨f', hf', hr'⟩ := List.mem_map.1 hm
            exact hext.nonempty f' hf' r hr'
          · simp at hm
            subst hm
            exact ⟨_, by simp, hd⟩
        · show (w.call i c ex b).1.exps.Nodup
          rw [f4, List.nodup_append]
          refine ⟨h.distinct, by simp, ?_⟩
          intro a ha b' hb hab
          simp at hb
          subst hb hab
          obtain ⟨f, hf, hr⟩ := List.mem_map.1 ha
          exact absurd (hlt f hf _ hr) (by omega)
  | cd i p =>
    obtain ⟨c1, c2, _, _⟩ := cd_same w i p
    exact apart_of h c1 c2 (cd_frame w i p).1
  | cdBuiltin i ws =>
    obtain ⟨c1, c2, _, _⟩ := cd_same w i (cdPath ws)
    exact apart_of h c1 c2 (cd_frame w i _).1
  | setVar i k v =>
    have h1 : Apart { w with environ := Dict.set w.environ k v } := ⟨set_ne_nil _ _ _, h.nonempty, h.distinct⟩
    simp only [step, World.setVar]
    split
    · exact h
    · split
      · exact h1
      · split
        · exact h1
        · exact h1
        · exact apart_setDict h (set_ne_nil _ _ _)
  | delVar i k =>
    simp only [step, World.delVar]
    cases he : w.envs[i]? with
    | none => exact h
    | some e =>
      have hne := hk e he
      simp only
      cases hx : e.exports with
      | none =>
        rw [exportsOf_none hx] at hne
        exact ⟨hne, h.nonempty, h.distinct⟩
      | some r =>
        obtain ⟨d, h1, h2⟩ := h.nonempty e (List.mem_of_getElem? he) r hx
        rw [exportsOf_eq hx h1 h2] at hne
        simp only [h1]
        exact apart_setDict h hne
  | dir i =>
    simp only [step, World.dir]
    cases he : w.envs[i]? with
    | none => exact h
    | some e =>
      have hs : ∀ l, Apart { w with envs := w.envs.set i { e with dirCache := l } } := fun l => apart_of h rfl rfl (exps_set he rfl)
      simp only
      split
      · exact h
      · split
        · exact hs _
        · split <;> exact hs _
  | clear i =>
    simp only [step, World.clearDirCache]
    cases he : w.envs[i]? with
    | none => exact h
    | some e => exact apart_of h rfl rfl (exps_set he rfl)
  | clearBuiltin i => exact h
  | disk d => exact apart_of h rfl rfl rfl

/-- changing the variables of one environment does not affect another one -/
theorem store_frame {w : World} (h : Apart w) {i j : Nat} {f : EnvObj} (hf : w.envs[j]? = some f) (hij : i ≠ j) (g : Dict Str Str → Dict Str Str) (w' : World)
    (hw : w' = match w.envs[i]? with
      | none => w
      | some e => match e.exports with
        | none => { w with environ := g w.environ }
        | some r => match w.dicts[r]? with
          | none => { w with environ := g w.environ }
          | some [] => { w with environ := g w.environ }
          | some d => { w with dicts := w.dicts.set r (g d) }) : view w' j = view w j := by
  cases he : w.envs[i]? with
  | none => rw [he] at hw; rw [hw]
  | some e =>
    have hne := exps_inj h he hf hij
    rw [he] at hw
    simp only at hw
    have hv : ∀ v : World, v.envs = w.envs → v.exportsOf f = w.exportsOf f → view v j = view w j := by
      intro v h1 h2
      unfold view
      rw [h1, hf]
      simp only [Option.map_some, h2]
    cases hx : e.exports with
    | none =>
      rw [hx] at hw hne
      simp only at hw
      subst hw
      refine hv _ rfl ?_
      cases hfx : f.exports with
      | none => exact absurd hfx.symm hne
      | some r =>
        obtain ⟨d, h1, h2⟩ := h.nonempty f (List.mem_of_getElem? hf) r hfx
        rw [exportsOf_eq hfx h1 h2]
        exact exportsOf_eq hfx h1 h2
    | some r =>
      obtain ⟨d, h1, h2⟩ := h.nonempty e (List.mem_of_getElem? he) r hx
      rw [hx] at hw hne
      simp only [h1] at hw
      have hw : w' = { w with dicts := w.dicts.set r (g d) } := by
        cases d with
        | nil => exact absurd rfl h2
        | cons p d => exact hw
      subst hw
      refine hv _ rfl ?_
      cases hfx : f.exports with
      | none => rw [exportsOf_none hfx, exportsOf_none hfx]
      | some q =>
        obtain ⟨d', g1, g2⟩ := h.nonempty f (List.mem_of_getElem? hf) q hfx
        rw [exportsOf_eq hfx g1 g2]
        refine exportsOf_eq hfx ?_ g2
        show (w.dicts.set r (g d))[q]? = _
        rw [List.getElem?_set_ne, g1]
        rintro rfl
        rw [hfx] at hne
        exact hne rfl

theorem view_frame {w : World} (h : Apart w) (op : Op) (j : Nat) (hj : j < w.envs.length) (ht : op.target ≠ some j) :
    view (step w op) j = view w j := by
  have hjx : ∃ f, w.envs[j]? = some f := ⟨w.envs[j], List.getElem?_eq_getElem hj⟩
  obtain ⟨f, hf⟩ := hjx
  have same : ∀ w' : World, w'.envs[j]? = some f → w'.environ = w.environ → w'.dicts = w.dicts → view w' j = view w j := by
    intro w' h1 h2 h3
    unfold view
    rw [h1, hf]
    simp only [Option.map_some]
    rw [exportsOf_congr h2 h3 rfl]
  cases op with
  | new c b =>
    obtain ⟨f1, f2, f3, _⟩ := construct_frame w c none b
    exact same _ (by rw [← hf]; exact f3 j hj) f2 f1
  | call i c ex b =>
    obtain ⟨f1, f2, f3, _⟩ := call_frame w i c ex b
    have hx : (w.call i c ex b).1.envs[j]? = some f := by rw [f2 j hj, hf]
    rcases f3 with ⟨f3, f4⟩ | ⟨e, he, f3, f4⟩
    · exact same _ hx f1 f3
    · show view (w.call i c ex b).1 j = _
      unfold view
      rw [hx, hf]
      simp only [Option.map_some]
      congr 2
      cases hfx : f.exports with
      | none => rw [exportsOf_none hfx, exportsOf_none hfx, f1]
      | some r =>
        obtain ⟨d, h1, h2⟩ := h.nonempty f (List.mem_of_getElem? hf) r hfx
        have hl : r < w.dicts.length := by
          rcases Nat.lt_or_ge r w.dicts.length with hl | hl
          · exact hl
          · rw [List.getElem?_eq_none hl] at h1; cases h1
        rw [exportsOf_eq hfx h1 h2, exportsOf_eq hfx (by rw [f3, List.getElem?_append_left hl, h1]) h2]
  | cd i p =>
    have hij : j ≠ i := fun e => ht (by rw [e]; rfl)
    obtain ⟨c1, c2, _, _⟩ := cd_same w i p
    exact same _ (by rw [← hf]; exact (cd_frame w i p).2 j hij) c1 c2
  | cdBuiltin i ws =>
    have hij : j ≠ i := fun e => ht (by rw [e]; rfl)
    obtain ⟨c1, c2, _, _⟩ := cd_same w i (cdPath ws)
    exact same _ (by rw [← hf]; exact (cd_frame w i _).2 j hij) c1 c2
  | setVar i k v =>
    have hij : i ≠ j := fun e => ht (by rw [e]; rfl)
    exact store_frame h hf hij (fun d => Dict.set d k v) (step w (.setVar i k v)) rfl
  | delVar i k =>
    have hij : i ≠ j := fun e => ht (by rw [e]; rfl)
    exact store_frame h hf hij (fun d => Dict.erase d k) (step w (.delVar i k)) rfl
  | dir i =>
    have hij : j ≠ i := fun e => ht (by rw [e]; rfl)
    simp only [step, World.dir]
    cases he : w.envs[i]? with
    | none => rfl
    | some e =>
      have hs : ∀ l, view { w with envs := w.envs.set i { e with dirCache := l } } j = view w j :=
        fun l => same _ (by rw [← hf]; exact List.getElem?_set_ne (fun e => hij e.symm)) rfl rfl
      simp only
      split
      · rfl
      · split
        · exact hs _
        · split <;> exact hs _
  | clear i =>
    have hij : j ≠ i := fun e => ht (by rw [e]; rfl)
    simp only [step, World.clearDirCache]
    cases he : w.envs[i]? with
    | none => rfl
    | some e => exact same _ (by rw [← hf]; exact List.getElem?_set_ne (fun e => hij e.symm)) rfl rfl
  | clearBuiltin i => rfl
  | disk d => exact same _ hf rfl rfl

/-- C31: if environments start apart, then whatever is done (creating further environments by copying, changing
directories and exported variables, changing the file system), as long as no environment without variables is asked for,
the directory and the exported variables of an environment only change by operations on that environment. -/
theorem C31_independent_partial (w : World) (h : Apart w) (ops : List Op) (hk : KeepsAll w ops) (j : Nat) (hj : j < w.envs.length)
    (ht : ∀ op ∈ ops, op.target ≠ some j) : view (run w ops) j = view w j := by
  induction ops generalizing w with
  | nil => rfl
  | cons op ops ih =>
    have h1 := view_frame h op j hj (ht op (by simp))
    have hj' : j < (step w op).envs.length := by
      rcases Nat.lt_or_ge j (step w op).envs.length with hl | hl
      · exact hl
      · simp only [view] at h1
        rw [List.getElem?_eq_none hl, List.getElem?_eq_getElem hj] at h1
        cases h1
    have := ih (step w op) (apart_step h op hk.1) hk.2 hj' (fun o ho => ht o (by simp [ho]))
    show view (run (step w op) ops) j = _
    rw [this, h1]

/-- what a successful `construct` leaves at the new index -/
theorem construct_last (w : World) (c : Str) (ex : Option Nat) (b : Bool) (n : Nat) (h : (w.construct (some c) ex b).2 = .ok n) :
    (w.construct (some c) ex b).1.envs[n]? = some { cwd := expandPath w.procCwd w.procCwd w.homes c, exports := ex, interactive := b, dirCache := none } := by
  unfold World.construct at h ⊢
  simp only at h ⊢
  obtain ⟨e1, e2⟩ := dropLast_fst_ok h
  subst e2
  rw [e1]
  have h2 : ∃ u, (World.cd { w with envs := w.envs ++ [{ cwd := w.procCwd, exports := ex, interactive := b, dirCache := none }] } w.envs.length c).2 = .ok u := by
    unfold dropLast at h
    split at h
    · cases h
    · next u hu => exact ⟨u, hu⟩
  obtain ⟨u, h2⟩ := h2
  have hset : ∀ (l : List EnvObj) (a b : EnvObj), ((l ++ [a]).set l.length b)[l.length]? = some b := by
    intro l a b
    rw [List.getElem?_set]
    simp
  rcases cd_cases { w with envs := w.envs ++ [{ cwd := w.procCwd, exports := ex, interactive := b, dirCache := none }] } w.envs.length c with ⟨_, x, hx⟩ | ⟨e, he, _, hh⟩
  · rw [hx] at h2; cases h2
  · have he' : e = { cwd := w.procCwd, exports := ex, interactive := b, dirCache := none } := by
      simp at he
      exact he.symm
    subst he'
    rcases hh with ⟨_, hc⟩ | ⟨_, _, _, hc⟩ | ⟨_, _, hc⟩ <;> rw [hc] <;> exact hset _ _ _

theorem expandPath_self {cwd procCwd : Str} {homes : Homes} {c : Str} (h : NormalPath c) : expandPath cwd procCwd homes c = c := by
  have ha := h.isAbs
  unfold expandPath
  have h1 : (c.head? == some '/') = true := ha
  simp only [h1, Bool.not_true, Bool.false_and, Bool.false_eq_true, ↓reduceIte]
  rw [expanduser_plain]
  · unfold abspath
    rw [if_pos ha, normpath_idem h]
  · intro e
    rw [e] at h1
    simp at h1

/-- C31: a copy starts with the directory of the original and with the exported variables given, or those of the
original; the original keeps its own. -/
theorem C31_copy (w : World) (h : Apart w) (i : Nat) (e : EnvObj) (he : w.envs[i]? = some e) (hc : NormalPath e.cwd)
    (ex : Option (Dict Str Str)) (hex : ex ≠ some []) (b : Option Bool) (n : Nat)
    (hn : (w.call i none ex b).2 = .ok n) :
    n = w.envs.length ∧ view (w.call i none ex b).1 n = some (e.cwd, ex.getD (w.exportsOf e)) ∧
    view (w.call i none ex b).1 i = view w i := by
  obtain ⟨f1, f2, _, f4⟩ := call_frame w i none ex b
  obtain ⟨g1, e', g2, g3, g4⟩ := f4 n hn
  have hil : i < w.envs.length := by
    rcases Nat.lt_or_ge i w.envs.length with hl | hl
    · exact hl
    · rw [List.getElem?_eq_none hl] at he; cases he
  refine ⟨g1, ?_, view_frame h (.call i none ex b) i hil (by simp [Op.target])⟩
  rw [he] at g2
  injection g2 with g2
  subst g2
  have hlast : (w.call i none ex b).1.envs[n]? = some { cwd := e.cwd, exports := some w.dicts.length, interactive := b.getD e.interactive, dirCache := none } := by
    have hcall : w.call i none ex b = thenCd none (World.construct { w with dicts := w.dicts ++ [ex.getD (w.exportsOf e)] } (some e.cwd) (some w.dicts.length) (b.getD e.interactive)) := by
      unfold World.call
      rw [he]
    rw [hcall] at hn ⊢
    generalize hr : World.construct { w with dicts := w.dicts ++ [ex.getD (w.exportsOf e)] } (some e.cwd) (some w.dicts.length) (b.getD e.interactive) = r at hn ⊢
    have hok : r.2 = .ok n := by
      unfold thenCd at hn
      cases h2 : r.2 with
      | error x => rw [h2] at hn; cases hn
      | ok m => rw [h2] at hn; exact hn
    have := construct_last { w with dicts := w.dicts ++ [ex.getD (w.exportsOf e)] } e.cwd (some w.dicts.length) (b.getD e.interactive) n (by rw [hr]; exact hok)
    rw [hr, expandPath_self hc] at this
    unfold thenCd
    rw [hok]
    exact this
  have hd : ex.getD (w.exportsOf e) ≠ [] := by
    cases ex with
    | none => exact exportsOf_ne_nil h (List.mem_of_getElem? he)
    | some d => simpa using hex
  unfold view
  rw [hlast]
  simp only [Option.map_some]
  rw [exportsOf_eq rfl (by rw [g3]; simp) hd]

/-- a session, with a copy of its environment in `/tmp`, starts apart, and the operations considered are possible -/
example : Apart (session anyDisk true) ∧
    KeepsAll (session anyDisk true) [.call 0 (some c!"/tmp") none none, .setVar 1 c!"X" c!"1", .cd 1 c!"..", .delVar 1 c!"HOME"] ∧
    (let w := run (session anyDisk true) [.call 0 (some c!"/tmp") none none, .setVar 1 c!"X" c!"1", .cd 1 c!"..", .delVar 1 c!"HOME"]
     view w 0 = some (c!"/home", [(c!"HOME", c!"/root"), (c!"PATH", c!"/bin")]) ∧ view w 1 = some (c!"/", [(c!"PATH", c!"/bin"), (c!"X", c!"1")])) := by
  refine ⟨⟨by simp [session], ?_, by simp [session]⟩, ⟨by simp [Op.Keeps], trivial, trivial, ?_, trivial⟩, rfl, rfl⟩
  · intro e he r hr
    simp [session] at he
    subst he
    cases hr
  · intro e he
    have : (step (step (step (session anyDisk true) (Op.call 0 (some c!"/tmp") none none)) (Op.setVar 1 c!"X" c!"1")) (Op.cd 1 c!"..")).envs[1]? =
      some { cwd := c!"/", exports := some 0, interactive := true, dirCache := none } := rfl
    have := this.symm.trans he
    injection this with this
    subst this
    intro hh
    cases hh

/-- C31 is false for an environment created without variables: it shares the process's variables with the first one. -/
theorem C31_refuted : ∃ w, run (session anyDisk true) [.call 0 none (some []) none, .setVar 1 c!"X" c!"1"] = w ∧
    view (session anyDisk true) 0 = some (c!"/home", [(c!"HOME", c!"/root"), (c!"PATH", c!"/bin")]) ∧
    view w 0 = some (c!"/home", [(c!"HOME", c!"/root"), (c!"PATH", c!"/bin"), (c!"X", c!"1")]) := ⟨_, rfl, rfl, rfl⟩

/-! ## C32 -/

/-- C32: programs started in an environment created with exported variables `d` (at least one) get exactly `d`. -/
theorem C32_given_exports_partial (w : World) (h : Apart w) (i : Nat) (e : EnvObj) (he : w.envs[i]? = some e) (hc : NormalPath e.cwd)
    (d : Dict Str Str) (hd : d ≠ []) (b : Option Bool) (n : Nat) (hn : (w.call i none (some d) b).2 = .ok n) :
    (w.call i none (some d) b).1.programEnviron n = some d := by
  have := (C31_copy w h i e he hc (some d) (by simpa using hd) b n hn).2.1
  unfold view at this
  unfold World.programEnviron
  cases hx : (w.call i none (some d) b).1.envs[n]? with
  | none => rw [hx] at this; cases this
  | some f =>
    rw [hx] at this
    simp only [Option.map_some, Option.some.injEq, Prod.mk.injEq, Option.getD_some] at this
    simp [this.2]

/-- C32: setting and deleting variables of an environment has exactly the effect on the programs' variables (when at
least one variable is left). -/
theorem C32_changes_partial (w : World) (h : Apart w) (i : Nat) (d : Dict Str Str) (hd : w.programEnviron i = some d) (k v : Str) :
    (step w (.setVar i k v)).programEnviron i = some (Dict.set d k v) ∧
    (Dict.erase d k ≠ [] → (step w (.delVar i k)).programEnviron i = some (Dict.erase d k)) := by
  unfold World.programEnviron at hd ⊢
  cases he : w.envs[i]? with
  | none => rw [he] at hd; cases hd
  | some e =>
    rw [he] at hd
    simp only [Option.map_some, Option.some.injEq] at hd
    cases hx : e.exports with
    | none =>
      rw [exportsOf_none hx] at hd
      subst hd
      simp only [step, World.setVar, World.delVar, he, hx, Option.map_some, Option.some.injEq]
      exact ⟨exportsOf_none hx, fun _ => exportsOf_none hx⟩
    | some r =>
      obtain ⟨d', h1, h2⟩ := h.nonempty e (List.mem_of_getElem? he) r hx
      rw [exportsOf_eq hx h1 h2] at hd
      subst hd
      have hl : r < w.dicts.length := by
        rcases Nat.lt_or_ge r w.dicts.length with hl | hl
        · exact hl
        · rw [List.getElem?_eq_none hl] at h1; cases h1
      have hset : ∀ x, (w.dicts.set r x)[r]? = some x := fun x => by rw [List.getElem?_set]; simp [hl]
      cases d' with
      | nil => exact absurd rfl h2
      | cons p d' =>
        simp only [step, World.setVar, World.delVar, he, hx, h1, Option.map_some, Option.some.injEq]
        exact ⟨exportsOf_eq hx (hset _) (set_ne_nil _ _ _), fun hne => exportsOf_eq hx (hset _) hne⟩

/-- a private environment with one variable -/
example : ∃ w n, (session anyDisk false).call 0 none (some [(c!"LANG", c!"C")]) none = (w, .ok n) ∧ w.programEnviron n = some [(c!"LANG", c!"C")] := ⟨_, _, rfl, rfl⟩

/-- C32 is false for `exports={}`: programs get all variables of the shell process, whatever these are. -/
theorem C32_refuted (w : World) (i : Nat) (b : Option Bool) (n : Nat) (hn : (w.call i none (some []) b).2 = .ok n) :
    (w.call i none (some []) b).1.programEnviron n = some w.environ := by
  obtain ⟨f1, f2, _, f4⟩ := call_frame w i none (some []) b
  obtain ⟨g1, e', g2, g3, g4⟩ := f4 n hn
  have : (w.call i none (some []) b).1.exps[n]? = some (some w.dicts.length) := by
    rw [g4, g1]
    have : w.exps.length = w.envs.length := List.length_map ..
    rw [← this]
    simp
  unfold World.exps at this
  rw [List.getElem?_map] at this
  unfold World.programEnviron
  cases hx : (w.call i none (some []) b).1.envs[n]? with
  | none => rw [hx] at this; cases this
  | some f =>
    rw [hx] at this
    simp only [Option.map_some, Option.some.injEq] at this
    simp only [Option.map_some, Option.some.injEq]
    unfold World.exportsOf
    rw [this]
    simp only [g3, Option.getD_some, List.getElem?_append_right (Nat.le_refl _), Nat.sub_self, List.getElem?_cons_zero, f1]

example : ∃ w, (session anyDisk false).call 0 none (some []) none = (w, .ok 1) ∧ w.programEnviron 1 = some [(c!"HOME", c!"/root"), (c!"PATH", c!"/bin")] := ⟨_, rfl, rfl⟩

/-! ## C35 -/

/-- C35: with an empty cache, `dir(env)` lists exactly the builtins and the entries of the directories in the exported
`PATH` (each relative one taken in the environment's directory), provided these exist. -/
theorem C35_lists_the_path_partial (w : World) (hsort : ∀ l, (w.sort l).Perm l) (i : Nat) (e : EnvObj) (path : Str) (he : w.envs[i]? = some e)
    (hc : e.dirCache = none) (hp : Dict.get? (w.exportsOf e) c!"PATH" = some path)
    (hl : ∀ p ∈ splitColon path, w.disk.listdir (abspath w.procCwd (if !isAbs p then join e.cwd p else p)) ≠ none) :
    ∃ l, (w.dir i).2 = .ok l ∧ ((w.dir i).1.envs[i]?.map (·.dirCache)) = some (some l) ∧
      ∀ x, x ∈ l ↔ x ∈ w.builtins ∨ ∃ p ∈ splitColon path, ∃ names, w.disk.listdir (abspath w.procCwd (if !isAbs p then join e.cwd p else p)) = some names ∧ x ∈ names := by
  have key : ∀ ps : List Str, (∀ p ∈ ps, w.disk.listdir (abspath w.procCwd (if !isAbs p then join e.cwd p else p)) ≠ none) →
      (listDirs w.disk e.cwd w.procCwd ps).2 = true ∧ ∀ x, x ∈ (listDirs w.disk e.cwd w.procCwd ps).1 ↔
        ∃ p ∈ ps, ∃ names, w.disk.listdir (abspath w.procCwd (if !isAbs p then join e.cwd p else p)) = some names ∧ x ∈ names := by
    intro ps
    induction ps with
    | nil => intro _; exact ⟨rfl, by simp [listDirs]⟩
    | cons p ps ih =>
      intro h
      obtain ⟨i1, i2⟩ := ih (fun q hq => h q (by simp [hq]))
      simp only [listDirs]
      cases hn : w.disk.listdir (abspath w.procCwd (if !isAbs p then join e.cwd p else p)) with
      | none => exact absurd hn (h p (by simp))
      | some names =>
        refine ⟨i1, ?_⟩
        intro x
        simp only [List.mem_append, i2, List.mem_cons]
        constructor
        · rintro (hx | ⟨q, hq, names', h1, h2⟩)
          · exact ⟨p, .inl rfl, names, hn, hx⟩
          · exact ⟨q, .inr hq, names', h1, h2⟩
        · rintro ⟨q, rfl | hq, names', h1, h2⟩
          · rw [hn] at h1
            injection h1 with h1
            subst h1
            exact .inl h2
          · exact .inr ⟨q, hq, names', h1, h2⟩
  obtain ⟨k1, k2⟩ := key _ hl
  refine ⟨w.sort ((listDirs w.disk e.cwd w.procCwd (splitColon path)).1 ++ w.builtins), ?_, ?_, ?_⟩
  · unfold World.dir
    simp only [he, hc, hp, k1, ↓reduceIte]
  · unfold World.dir
    simp only [he, hc, hp, k1, ↓reduceIte]
    have hlt : i < w.envs.length := by
      rcases Nat.lt_or_ge i w.envs.length with hl | hl
      · exact hl
      · rw [List.getElem?_eq_none hl] at he; cases he
    rw [List.getElem?_set]
    simp [hlt]
  · intro x
    rw [(hsort _).mem_iff, List.mem_append, k2]
    exact Or.comm

/-- the cached list of an environment -/
def cached (w : World) (i : Nat) : Option (List Str) := (w.envs[i]?).bind (·.dirCache)

theorem cached_step (w : World) (i : Nat) (l : List Str) (h : cached w i = some l) (op : Op) (hop : ∀ j, op = .clear j → j ≠ i) : cached (step w op) i = some l := by
  unfold cached at h
  cases he : w.envs[i]? with
  | none => rw [he] at h; cases h
  | some e =>
    rw [he] at h
    have h : e.dirCache = some l := h
    have hlt : i < w.envs.length := by
      rcases Nat.lt_or_ge i w.envs.length with hl | hl
      · exact hl
      · rw [List.getElem?_eq_none hl] at he; cases he
    have same : ∀ w' : World, w'.envs[i]? = w.envs[i]? → cached w' i = some l := by
      intro w' h1
      unfold cached
      rw [h1, he]
      exact h
    have cdl : ∀ p j, cached (w.cd j p).1 i = some l := by
      intro p j
      by_cases hj : i = j
      · subst hj
        rcases cd_cases w i p with ⟨h1, _⟩ | ⟨e', he', _, hh⟩
        · exact same _ (by rw [h1])
        · rw [he] at he'
          injection he' with he'
          subst he'
          rcases hh with ⟨_, hc⟩ | ⟨_, _, _, hc⟩ | ⟨_, _, hc⟩ <;> rw [hc] <;> unfold cached <;> simp only [List.getElem?_set, hlt, ↓reduceIte, Option.bind_some] <;> exact h
      · exact same _ ((cd_frame w j p).2 i hj)
    cases op with
    | new c b => exact same _ ((construct_frame w c none b).2.2.1 i hlt)
    | call j c ex b => exact same _ ((call_frame w j c ex b).2.1 i hlt)
    | cd j p => exact cdl p j
    | cdBuiltin j ws => exact cdl _ j
    | setVar j k v =>
      refine same _ ?_
      simp only [step, World.setVar]
      split
      · rfl
      · split
        · rfl
        · split <;> rfl
    | delVar j k =>
      refine same _ ?_
      simp only [step, World.delVar]
      split
      · rfl
      · split
        · rfl
        · split <;> rfl
    | dir j =>
      by_cases hj : i = j
      · subst hj
        refine same _ ?_
        simp only [step, World.dir, he, h]
      · refine same _ ?_
        simp only [step, World.dir]
        have hs : ∀ f, (w.envs.set j f)[i]? = w.envs[i]? := fun f => List.getElem?_set_ne (fun e => hj e.symm)
        cases hjx : w.envs[j]? with
        | none => rfl
        | some f =>
          simp only
          split
          · rfl
          · split
            · exact hs _
            · split <;> exact hs _
    | clear j =>
      have hj := hop j rfl
      refine same _ ?_
      simp only [step, World.clearDirCache]
      cases hjx : w.envs[j]? with
      | none => rfl
      | some f => exact List.getElem?_set_ne hj
    | clearBuiltin j => exact same _ rfl
    | disk d => exact same _ rfl

/-- C35: once `dir(env)` has answered `l`, it keeps answering `l`, whatever happens to the file system, the directory and
the variables, and also if the `clear_dir_cache` builtin is run, until the cache is cleared by `env._clear_dir_cache()`. -/
theorem C35_cached (w : World) (i : Nat) (l : List Str) (h : cached w i = some l) (ops : List Op) (hops : ∀ op ∈ ops, ∀ j, op = .clear j → j ≠ i) :
    ((run w ops).dir i).2 = .ok l := by
  have : cached (run w ops) i = some l := by
    induction ops generalizing w with
    | nil => exact h
    | cons op ops ih => exact ih (step w op) (cached_step w i l h op (hops op (by simp))) (fun o ho => hops o (by simp [ho]))
  unfold cached at this
  unfold World.dir
  cases he : (run w ops).envs[i]? with
  | none => rw [he] at this; cases this
  | some e =>
    rw [he] at this
    have h2 : e.dirCache = some l := this
    simp only [h2]

/-- C35: after `env._clear_dir_cache()` the cache is empty, so that the next `dir(env)` looks at the directories again. -/
theorem C35_cleared (w : World) (i : Nat) : cached (step w (.clear i)) i = none := by
  simp only [step, World.clearDirCache, cached]
  cases he : w.envs[i]? with
  | none => simp [he]
  | some e =>
    simp only
    rw [List.getElem?_set]
    split
    · split <;> rfl
    · rw [he]; contradiction

example : ∃ e, (session anyDisk true).envs[0]? = some e ∧ e.dirCache = none ∧
    (∀ l, ((session anyDisk true).sort l).Perm l) ∧
    (∃ path, Dict.get? ((session anyDisk true).exportsOf e) c!"PATH" = some path ∧
      ∀ p ∈ splitColon path, (session anyDisk true).disk.listdir (abspath (session anyDisk true).procCwd (if !isAbs p then join e.cwd p else p)) ≠ none) ∧
    cached (run (session anyDisk true) [.dir 0]) 0 = some [c!"prog", c!"cd"] ∧
    ((run (run (session anyDisk true) [.dir 0]) [.cd 0 c!"/tmp", .setVar 0 c!"PATH" c!"/nowhere", .clearBuiltin 0]).dir 0).2 = .ok [c!"prog", c!"cd"] :=
  ⟨_, rfl, rfl, fun _ => List.Perm.refl _, ⟨_, rfl, fun _ _ => by simp [session, anyDisk]⟩, rfl,
    C35_cached _ 0 _ rfl _ (by simp)⟩

/-- C35 is false for the builtin: it does not clear anything. `x` is what `dir` answers before, and after a program has
been installed and `clear_dir_cache` has been run. -/
theorem C35_refuted : ∃ (d : Disk) (x : List Str), x = [c!"prog", c!"cd"] ∧ ((session anyDisk true).dir 0).2 = .ok x ∧
    d.listdir c!"/bin" = some [c!"prog", c!"new"] ∧
    ((run (session anyDisk true) [.dir 0, .disk d, .clearBuiltin 0]).dir 0).2 = .ok x ∧
    ((run (session anyDisk true) [.dir 0, .disk d, .clear 0]).dir 0).2 = .ok [c!"prog", c!"new", c!"cd"] :=
  ⟨{ anyDisk with listdir := fun _ => some [c!"prog", c!"new"] }, _, rfl, rfl, rfl, rfl, rfl⟩

/-- Why: `self.env._clear_dir_cache()` in the builtin only builds a longer command, for every name that the registry
knows; it is not run. -/
theorem C35_builtin_builds_a_command (registered : Str → Bool) (args : List Cmd.Elem) :
    Cmd.build registered { kind := .builtin c!"clear_dir_cache", args := args } [.attr c!"env", .attr c!"_clear_dir_cache", .call [] []] =
      .ok (some { kind := .builtin c!"clear_dir_cache", args := args ++ [.val (.str c!"env"), .val (.str c!"_clear_dir_cache")] }) := by
  simp [Cmd.build, Cmd.getAttr, Cmd.call, Cmd.isMember, Cmd.newCommand]

/-- C35: when a directory in `PATH` does not exist, the first `dir(env)` raises, and the second one answers what had been
collected so far, without the builtins. -/
theorem C35_refuted_missing_directory : ∃ d : Disk, d.listdir c!"/bin" = none ∧
    ((session d true).dir 0).2 = .error .fileNotFound ∧ ((run (session d true) [.dir 0]).dir 0).2 = .ok [] :=
  ⟨{ anyDisk with listdir := fun _ => none }, rfl, rfl, rfl⟩

end Pieshell.Envs
