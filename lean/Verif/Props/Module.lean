import Verif.Spec.Module
import Verif.Props.Scope
/-!
# Importing `.pysh` modules (C86)
-/
namespace Pieshell.Shell

/-- `τ` is `σ` with one more dict of exported variables `d`, one more environment that uses it and has no scope, and one more scope `s`, whose
environment this is. -/
structure Made (σ τ : Shell) (d : Dict Str V) (s : ScopeRec) : Prop where
  dicts : τ.dicts = σ.dicts ++ [d]
  envs : τ.envs = σ.envs ++ [{ exports := σ.dicts.length, scope := none }]
  scopes : τ.scopes = σ.scopes ++ [s]
  builtin : τ.isBuiltin = σ.isBuiltin
  ne : d ≠ []
  env : Dict.get? s.vars c!"env" = some (.env σ.envs.length)
  parent : s.parent = none
  environ : σ.dicts ≠ []
  uniq : Dict.Uniq s.vars

namespace Made
variable {σ τ : Shell} {d : Dict Str V} {s : ScopeRec} (h : Made σ τ d s)
include h

theorem get : τ.scopes[σ.scopes.length]? = some s := by rw [h.scopes]; simp
theorem vars : τ.vars σ.scopes.length = s.vars := by simp [Shell.vars, h.get]
theorem current : τ.current σ.scopes.length = some σ.envs.length := by simp only [Shell.current, h.vars, h.env]
theorem dict : τ.dict σ.dicts.length = d := by simp [Shell.dict, h.dicts]
theorem exportsRef : τ.exportsRef σ.envs.length = σ.dicts.length := by
  have : τ.rawRef σ.envs.length = σ.dicts.length := by simp [Shell.rawRef, h.envs]
  simp only [Shell.exportsRef, this, h.dict]
  rw [if_neg]
  cases hd : d with
  | nil => exact absurd hd h.ne
  | cons => simp
theorem exportsOf : τ.exportsOf σ.scopes.length = σ.dicts.length := by simp only [Shell.exportsOf, h.current, Option.getD_some, h.exportsRef]
theorem extends_ : τ.Extends σ := ⟨by rw [h.dicts]; exact List.prefix_append _ _, by rw [h.envs]; exact List.prefix_append _ _, by rw [h.scopes]; exact List.prefix_append _ _⟩
theorem environ_pos : 0 < σ.dicts.length := List.length_pos_iff.2 h.environ

theorem setDict (d' : Dict Str V) (hd : d' ≠ []) : Made σ { τ with dicts := τ.dicts.set σ.dicts.length d' } d' s :=
  ⟨by simp [h.dicts], h.envs, h.scopes, h.builtin, hd, h.env, h.parent, h.environ, h.uniq⟩

theorem setScope (v : Dict Str V) (hv : Dict.get? v c!"env" = some (.env σ.envs.length)) (hu : Dict.Uniq v) :
    Made σ { τ with scopes := τ.scopes.set σ.scopes.length { s with vars := v } } d { s with vars := v } :=
  ⟨h.dicts, h.envs, by simp [h.scopes], h.builtin, h.ne, hv, h.parent, h.environ, hu⟩

theorem exec (o : Op) (ho : o.Modest σ.scopes.length τ) : ∃ d s, Made σ (Shell.exec σ.scopes.length τ o).1 d s := by
  cases o with
  | assign n v =>
    have hn : storedName n ≠ c!"env" := by
      unfold storedName; split
      · decide
      · exact ho
    simp only [Shell.exec, Shell.setItem, if_neg hn, Shell.store, h.current, h.exportsRef, h.dict]
    split
    · unfold Shell.setDict
      split
      · exact ⟨_, _, h.setDict _ (set_ne_nil _ _ _)⟩
      · exact ⟨_, _, h⟩
    · simp only [Shell.setLocal, h.get]
      exact ⟨_, _, h.setScope _ (by rw [Dict.get?_set, if_neg hn]; exact h.env) (Dict.uniq_set _ h.uniq _ _)⟩
  | delete n =>
    simp only [Shell.exec, Shell.delLocal, h.get]
    split
    · exact ⟨_, _, h.setScope _ (by rw [Dict.get?_erase _ h.uniq, if_neg ho]; exact h.env) (Dict.uniq_erase _ h.uniq _)⟩
    · exact ⟨_, _, h⟩
  | «export» n v =>
    simp only [Shell.exec, Shell.setDict, h.exportsOf, h.dict]
    split
    · exact ⟨_, _, h.setDict _ (set_ne_nil _ _ _)⟩
    · exact ⟨_, _, h⟩
  | unexport n =>
    simp only [Op.Modest, h.exportsOf, h.dict] at ho
    simp only [Shell.exec, Shell.delDict, h.exportsOf, h.dict]
    split
    · exact ⟨_, _, h.setDict _ ho⟩
    · exact ⟨_, _, h⟩

end Made

theorem made_stmts {σ : Shell} (l : List Stmt) : ∀ {τ : Shell} {d : Dict Str V} {s : ScopeRec}, Made σ τ d s → Modest σ.scopes.length l τ →
    ∃ d s, Made σ (execStmts σ.scopes.length l τ).1 d s := by
  induction l with
  | nil => exact fun h _ => ⟨_, _, h⟩
  | cons x l ih =>
    intro τ d s h hm
    cases x with
    | raise => exact ⟨_, _, h⟩
    | exit => exact ⟨_, _, h⟩
    | op o =>
      obtain ⟨h1, h2⟩ := hm
      obtain ⟨d', s', h'⟩ := h.exec o h1
      simp only [execStmts]
      split
      · next hok => exact ih h' (h2 (by rw [hok]))
      · exact ⟨_, _, h'⟩

theorem made_fresh {w : Interp} (hw : w.Proper) : Made w.sh (w.fresh w.env) (w.sh.dict (w.sh.exportsRef w.env)) { vars := [(c!"env", .env w.sh.envs.length)], parent := none } := by
  obtain ⟨i, h1, h2, _⟩ := hw.env
  have : w.env = i := by simp [Interp.env, h1]
  rw [this]
  exact ⟨rfl, rfl, rfl, rfl, h2, by simp [Dict.get?], rfl, hw.environ, by simp [Dict.Uniq, Dict.keys]⟩

theorem interp_getItem_env {w : Interp} (hw : w.Proper) : w.sh.getItem w.main c!"env" = .ok (.env w.env) := by
  obtain ⟨i, h1, h2, _⟩ := hw.env
  have : w.env = i := by simp [Interp.env, h1]
  rw [this]
  simp only [Shell.current] at h1
  split at h1
  · next j hj => cases h1; simp only [Shell.getItem, hj]
  · cases h1

/-- what `import` does with a module that was not imported before -/
theorem load_eq {w : Interp} (hw : w.Proper) {name : Str} (hn : w.modules.get? name = none) (file : File) :
    w.import name file = ({ w with sh := (executeFile w.sh.scopes.length file (w.fresh w.env)).1, modules := w.modules.set name w.sh.scopes.length },
      (executeFile w.sh.scopes.length file (w.fresh w.env)).2.map fun _ => w.sh.scopes.length) := by
  simp only [Interp.import, Interp.load, hn, interp_getItem_env hw]
  split
  · next σ _ h => rw [h]; rfl
  · next σ e h => rw [h]; rfl

theorem made_file {w : Interp} (hw : w.Proper) (file : File) (hm : ∀ l, file = .stmts l → Modest w.sh.scopes.length l (w.fresh w.env)) :
    ∃ d s, Made w.sh (executeFile w.sh.scopes.length file (w.fresh w.env)).1 d s := by
  cases file with
  | unreadable => exact ⟨_, _, made_fresh hw⟩
  | invalid => exact ⟨_, _, made_fresh hw⟩
  | stmts l => exact made_stmts l (made_fresh hw) (hm l rfl)

/-- **C86.** Importing a module changes nothing that was there: no variable of the shell or of another module, no exported variable of any
environment or of the process, whatever the module does (as long as it leaves its `env` alone and keeps an exported variable). -/
theorem C86_isolated (w : Interp) (hw : w.Proper) (name : Str) (hn : w.modules.get? name = none) (file : File)
    (hm : ∀ l, file = .stmts l → Modest w.sh.scopes.length l (w.fresh w.env)) :
    (w.import name file).1.sh.Extends w.sh ∧
    (∀ k, k < w.sh.scopes.length → (w.import name file).1.sh.vars k = w.sh.vars k) ∧
    ∀ r, r < w.sh.dicts.length → (w.import name file).1.sh.dict r = w.sh.dict r := by
  obtain ⟨d, s, h⟩ := made_file hw file hm
  rw [load_eq hw hn]
  refine ⟨h.extends_, fun k hk => ?_, fun r hr => ?_⟩
  · simp only [Shell.vars, h.scopes]; rw [List.getElem?_append_left hk]
  · simp only [Shell.dict, h.dicts]; rw [List.getElem?_append_left hr]

theorem execStmts_ops (k : Nat) (ops : List Op) : ∀ σ, AllOrdinary k σ ops → execStmts k (ops.map .op) σ = (run k σ ops, .ok ()) := by
  induction ops with
  | nil => exact fun σ _ => rfl
  | cons o ops ih =>
    intro σ h
    obtain ⟨h1, h2⟩ := h
    simp only [List.map_cons, execStmts, h1.1]
    exact ih _ h2

/-- **C86.** The attributes of a module are its variables: after importing a module that consists of ordinary statements, `module.n` is
what was last assigned to `n`, or, if nothing was, what `n` means in a new scope. -/
theorem C86_attributes (w : Interp) (hw : w.Proper) (name : Str) (hn : w.modules.get? name = none) (ops : List Op)
    (ho : AllOrdinary w.sh.scopes.length (w.fresh w.env) ops) (own : Str → Option V) (n : Str) (h0 : own n = none) (h1 : n ≠ c!"_") (h2 : n ≠ c!"exports") :
    (w.import name (.stmts (ops.map .op))).2 = .ok w.sh.scopes.length ∧
    (∀ v, lastWrite n ops = some (some v) → (w.import name (.stmts (ops.map .op))).1.getAttr own w.sh.scopes.length n = .ok v) ∧
    (lastWrite n ops = none → (w.import name (.stmts (ops.map .op))).1.getAttr own w.sh.scopes.length n = (w.fresh w.env).getItem w.sh.scopes.length n) := by
  have hmade := made_fresh hw
  have hp : (w.fresh w.env).Proper w.sh.scopes.length := by
    refine ⟨by rw [hmade.current]; simp, by rw [hmade.dicts]; simp, ⟨?_, ?_⟩, ?_⟩
    · rw [hmade.vars]; simp [Dict.Uniq, Dict.keys]
    · intro d hd
      rw [hmade.dicts] at hd
      rcases List.mem_append.1 hd with hd | hd
      · exact hw.uniq d hd
      · simp only [List.mem_singleton] at hd
        subst hd
        exact dict_uniq hw.uniq _
    · rw [hmade.get]; simp
  have hu : (w.fresh w.env).Unambiguous w.sh.scopes.length := by
    rintro m ⟨⟨v, hv⟩, u, hu⟩
    rw [hmade.vars] at hv
    rw [hmade.exportsOf, hmade.dict] at hu
    obtain ⟨i, e1, -, e2⟩ := hw.env
    have : w.env = i := by simp [Interp.env, e1]
    rw [this] at hu
    simp only [Dict.get?] at hv
    split at hv
    · next e => rw [← e, e2] at hu; cases hu
    · cases hv
  have hh := C33_history_partial _ _ ops n hp hu ho h1 h2
  rw [load_eq hw hn]
  simp only [executeFile, execStmts_ops _ _ _ ho, Interp.getAttr, h0]
  exact ⟨rfl, hh.1, hh.2.2⟩

theorem import_again {w : Interp} {name : Str} {file : File} {k : Nat} (h : w.modules.get? name = some k) : w.import name file = (w, .ok k) := by
  simp only [Interp.import, h]

/-- **C86.** A module is executed once: another `import` gives the same module and does nothing. -/
theorem C86_once (w : Interp) (name : Str) (file file' : File) (k : Nat) (h : (w.import name file).2 = .ok k) :
    (w.import name file).1.import name file' = ((w.import name file).1, .ok k) := by
  have key : (w.import name file).1.modules.get? name = some k := by
    unfold Interp.import at h ⊢
    cases hm : w.modules.get? name with
    | some j => rw [hm] at h; cases h; exact hm
    | none =>
      rw [hm] at h
      simp only [Interp.load, hm] at h ⊢
      split at h
      · split at h
        · next h1 h2 => cases h; simp only [h2]; rw [Dict.get?_set, if_pos rfl]
        · cases h
      · cases h
  exact import_again key

/-- **C86 is false for modules that fail:** the import succeeds, with whatever has been defined so far, also for files that are not python. -/
theorem C86_refuted_failing (w : Interp) (hw : w.Proper) (name : Str) (hn : w.modules.get? name = none) (before after : List Stmt)
    (hb : Stmt.exit ∉ before) :
    (w.import name (.stmts (before ++ .raise :: after))).2 = .ok w.sh.scopes.length ∧
    (w.import name (.stmts (before ++ .raise :: after))).1 = (w.import name (.stmts before)).1 ∧
    (w.import name .invalid).2 = .ok w.sh.scopes.length := by
  have h1 : ∀ (l : List Stmt) (σ : Shell), Stmt.exit ∉ l → execStmts w.sh.scopes.length (l ++ .raise :: after) σ = execStmts w.sh.scopes.length l σ ∧
      (execStmts w.sh.scopes.length l σ).2 = .ok () := by
    intro l
    induction l with
    | nil => exact fun σ _ => ⟨rfl, rfl⟩
    | cons x l ih =>
      intro σ hx
      simp only [List.mem_cons, not_or] at hx
      cases x with
      | raise => exact ⟨rfl, rfl⟩
      | exit => exact absurd rfl hx.1
      | op o =>
        simp only [List.cons_append, execStmts]
        split
        · exact ih _ hx.2
        · exact ⟨rfl, rfl⟩
  obtain ⟨e1, e2⟩ := h1 before (w.fresh w.env) hb
  rw [load_eq hw hn, load_eq hw hn, load_eq hw hn]
  simp only [executeFile, e1, e2]
  exact ⟨rfl, trivial, rfl⟩

/-- **C86 is false for modules that cannot be read, or exit:** the import raises an exception, but importing the module once more succeeds. -/
theorem C86_refuted_second_import (w : Interp) (hw : w.Proper) (name : Str) (hn : w.modules.get? name = none) (file file' : File) (e : Exn)
    (h : (w.import name file).2 = .error e) :
    ((w.import name file).1.import name file').2 = .ok w.sh.scopes.length := by
  have hm : (w.import name file).1.modules.get? name = some w.sh.scopes.length := by
    rw [load_eq hw hn]; rw [Dict.get?_set, if_pos rfl]
  rw [import_again hm]

/-- **C86 is false in what concerns arguments of commands:** whatever a module does (leaving its `env` alone), its variables cannot be used as `%(name)s` in
the arguments of its commands: the name is looked up among the exported variables only. -/
theorem C86_refuted_arguments (w : Interp) (hw : w.Proper) (name : Str) (hn : w.modules.get? name = none) (file : File)
    (hm : ∀ l, file = .stmts l → Modest w.sh.scopes.length l (w.fresh w.env)) :
    (w.import name file).1.sh.current w.sh.scopes.length = some w.sh.envs.length ∧
    ∀ n, ¬ (w.import name file).1.sh.IsExported w.sh.scopes.length n → (w.import name file).1.sh.template w.sh.envs.length n = .error .keyError := by
  obtain ⟨d, s, h⟩ := made_file hw file hm
  rw [load_eq hw hn]
  refine ⟨h.current, fun n hne => ?_⟩
  have hs : ((executeFile w.sh.scopes.length file (w.fresh w.env)).1.envs[w.sh.envs.length]?).bind EnvRec.scope = none := by rw [h.envs]; simp
  simp only [Shell.template, hs]
  cases hg : Dict.get? ((executeFile w.sh.scopes.length file (w.fresh w.env)).1.dict ((executeFile w.sh.scopes.length file (w.fresh w.env)).1.exportsRef w.sh.envs.length)) n with
  | none => rfl
  | some v =>
    refine absurd ⟨v, ?_⟩ hne
    simp only [Shell.exportsOf, h.current, Option.getD_some]
    exact hg

/-- C86: a name that the module does not define is a command, not an error. -/
theorem C86_refuted_unknown (w : Interp) (hw : w.Proper) (name : Str) (hn : w.modules.get? name = none) (n : Str) (own : Str → Option V) (h0 : own n = none)
    (h1 : n ≠ c!"_") (h2 : n ≠ c!"exports") (h3 : Cmd.isEnvMember n = false) (h4 : w.sh.isBuiltin n = false) (h5 : n ≠ c!"env")
    (h6 : Dict.get? (w.sh.dict (w.sh.exportsRef w.env)) n = none) :
    (w.import name (.stmts [])).1.getAttr own w.sh.scopes.length n = .ok (.command w.sh.envs.length (some n)) := by
  have hmade := made_fresh hw
  rw [load_eq hw hn]
  simp only [Interp.getAttr, h0, executeFile, execStmts]
  rw [C34_resolution_partial _ _ _ n hmade.current h1 h2 h3, hmade.vars, hmade.exportsRef, hmade.dict, h6]
  have hpar : (w.fresh w.env).parentVars w.sh.scopes.length = none := by simp [Shell.parentVars, hmade.get]
  rw [hpar, hmade.builtin, h4]
  simp [Dict.get?, firstOf, Ne.symm h5]

/-- **C86.** Assigning an attribute of a module assigns its variable: reading the attribute gives the value, other attributes and other modules' variables are
unchanged — unless python keeps an attribute of that name in the module object itself (`__name__`, `__doc__`), which goes on hiding the variable. -/
theorem C86_assign (w : Interp) (k : Nat) (own : Str → Option V) (n : Str) (v : V) (hp : w.sh.Proper k) (hok : (w.setAttr k n v).2 = .ok ())
    (h1 : n ≠ c!"_") (h2 : n ≠ c!"exports") (hu : ¬ (w.sh.IsLocal k n ∧ w.sh.IsExported k n)) (he : n ≠ c!"env") :
    (own n = none → (w.setAttr k n v).1.getAttr own k n = .ok v) ∧
    (∀ u, own n = some u → (w.setAttr k n v).1.getAttr own k n = .ok u) ∧
    (∀ m, m ≠ n → m ≠ c!"exports" → (w.setAttr k n v).1.getAttr own k m = w.getAttr own k m) ∧
    (w.setAttr k n v).1.modules = w.modules := by
  refine ⟨fun h0 => ?_, fun u hu => by simp [Interp.getAttr, hu], fun m hm hx => ?_, rfl⟩
  · simp only [Interp.getAttr, h0]
    exact C33_read_after_assign_partial w.sh k n v hp hok h1 h2 hu he
  · simp only [Interp.getAttr]
    cases own m with
    | some u => rfl
    | none => exact (C33_assign_frame w.sh k n v hp hok h1 he).1 m hm hx

/-- **C86.** Loading a module that is already there (`importlib.reload`) executes the file again, in the same scope: `module.n` is then what the file last assigned to
`n`, and what it was if the file does not assign it. -/
theorem C86_reload (w : Interp) (name : Str) (k : Nat) (hn : w.modules.get? name = some k) (ops : List Op) (hp : w.sh.Proper k) (hu : w.sh.Unambiguous k)
    (ho : AllOrdinary k w.sh ops) (own : Str → Option V) (n : Str) (h0 : own n = none) (h1 : n ≠ c!"_") (h2 : n ≠ c!"exports") :
    (w.load name (.stmts (ops.map .op))).2 = .ok k ∧
    (∀ v, lastWrite n ops = some (some v) → (w.load name (.stmts (ops.map .op))).1.getAttr own k n = .ok v) ∧
    (lastWrite n ops = none → (w.load name (.stmts (ops.map .op))).1.getAttr own k n = w.getAttr own k n) ∧
    (w.load name (.stmts (ops.map .op))).1.modules = w.modules := by
  have hh := C33_history_partial k w.sh ops n hp hu ho h1 h2
  simp only [Interp.load, hn, executeFile, execStmts_ops _ _ _ ho, Interp.getAttr, h0]
  exact ⟨trivial, hh.1, hh.2.2, trivial⟩

/-! ### examples -/

def interp : Interp := { sh := demo, modules := [], main := 0 }

theorem interp_proper : interp.Proper :=
  ⟨⟨0, rfl, by decide, by decide⟩, by decide, demo_proper.uniq.2⟩

/-- `x = 1; y = 2; x = 3` -/
def modEx : List Op := [.assign c!"x" (.obj 1), .assign c!"y" (.obj 2), .assign c!"x" (.obj 3)]

theorem modEx_ordinary : AllOrdinary interp.sh.scopes.length (interp.fresh interp.env) modEx := by
  refine ⟨⟨rfl, by decide⟩, ⟨rfl, by decide⟩, ⟨rfl, by decide⟩, trivial⟩

example : (interp.import c!"m" (.stmts (modEx.map .op))).1.getAttr (fun _ => none) 1 c!"x" = .ok (.obj 3) ∧
    (interp.import c!"m" (.stmts (modEx.map .op))).1.sh.vars 0 = demo.vars 0 ∧
    (interp.import c!"m" (.stmts (modEx.map .op))).1.sh.template 2 c!"x" = .error .keyError ∧
    (interp.import c!"m" (.stmts (modEx.map .op ++ [.raise]))).2 = .ok 1 ∧
    (interp.import c!"m" .unreadable).2 = .error .other := ⟨rfl, rfl, rfl, rfl, rfl⟩

example : Modest interp.sh.scopes.length (modEx.map .op) (interp.fresh interp.env) := by
  exact ⟨(by decide : c!"x" ≠ c!"env"), fun _ => ⟨(by decide : c!"y" ≠ c!"env"), fun _ => ⟨(by decide : c!"x" ≠ c!"env"), fun _ => trivial⟩⟩⟩

/-- hypotheses of `C86_assign` and `C86_reload`: the shell's scope as a module -/
example : ((Interp.mk demo [(c!"m", 0)] 0).setAttr 0 c!"x" (.obj 7)).1.getAttr (fun _ => none) 0 c!"x" = .ok (.obj 7) :=
  (C86_assign _ 0 _ c!"x" (.obj 7) demo_proper rfl (by decide) (by decide) (demo_unambiguous _) (by decide)).1 rfl
example : ((Interp.mk demo [(c!"m", 0)] 0).load c!"m" (.stmts ([Op.assign c!"x" (.obj 7)].map .op))).1.getAttr (fun _ => none) 0 c!"x" = .ok (.obj 7) :=
  (C86_reload _ c!"m" 0 rfl [.assign c!"x" (.obj 7)] demo_proper demo_unambiguous ⟨⟨rfl, by decide⟩, trivial⟩ _ c!"x" rfl (by decide) (by decide)).2.1 _ rfl

example : (interp.import c!"m" (.stmts [])).1.getAttr (fun _ => none) 1 c!"ls" = .ok (.command 2 (some c!"ls")) := rfl

end Pieshell.Shell
