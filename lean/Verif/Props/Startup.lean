import Verif.Spec.Startup
import Verif.Lemmas.Scope
import Verif.Lemmas.Expand
import Verif.Props.Exec
import Verif.Props.Scope
/-!
# C73-C76: starting the shell
-/
namespace Pieshell.Shell
open Shell

/-! ## C73 -/

/-- the two states differ only in local variables of scope `k` other than `env`, and in scopes of environments -/
structure Alike (k : Nat) (σ τ : Shell) : Prop where
  dicts : τ.dicts = σ.dicts
  raw : ∀ i, τ.rawRef i = σ.rawRef i
  len : τ.envs.length = σ.envs.length
  bi : τ.isBuiltin = σ.isBuiltin
  par : τ.parentVars k = σ.parentVars k
  cur : τ.current k = σ.current k

theorem Alike.refl (k : Nat) (σ : Shell) : Alike k σ σ := ⟨rfl, fun _ => rfl, rfl, rfl, rfl, rfl⟩
theorem Alike.trans {k : Nat} {a b c : Shell} (h : Alike k a b) (g : Alike k b c) : Alike k a c :=
  ⟨g.dicts.trans h.dicts, fun i => (g.raw i).trans (h.raw i), g.len.trans h.len, g.bi.trans h.bi, g.par.trans h.par, g.cur.trans h.cur⟩

theorem Alike.ref {k : Nat} {a b : Shell} (h : Alike k a b) (i : Nat) : b.exportsRef i = a.exportsRef i := by
  unfold Shell.exportsRef Shell.dict; rw [h.raw, h.dicts]
theorem Alike.dict {k : Nat} {a b : Shell} (h : Alike k a b) (r : Nat) : b.dict r = a.dict r := by
  unfold Shell.dict; rw [h.dicts]
theorem Alike.exportsOf {k : Nat} {a b : Shell} (h : Alike k a b) : b.exportsOf k = a.exportsOf k := by
  unfold Shell.exportsOf; rw [h.cur, h.ref]

theorem Alike.getItem {k : Nat} {a b : Shell} (h : Alike k a b) (n : Str)
    (hv : Dict.get? (b.vars k) n = Dict.get? (a.vars k) n) : b.getItem k n = a.getItem k n := by
  unfold Shell.getItem
  simp only [hv, h.cur, h.ref, h.dict, h.par, h.bi]

theorem setLocal_alike {σ : Shell} {k : Nat} (hp : σ.Proper k) (n : Str) (v : V) (hn : n ≠ c!"env") :
    Alike k σ (σ.setLocal k n v) := by
  obtain ⟨s, hs⟩ := current_lt hp.env
  obtain ⟨a, b, c⟩ := setLocal_dicts σ k n v
  refine ⟨a, fun i => by unfold Shell.rawRef; rw [b], by rw [b], c, ?_, ?_⟩
  · exact parentVars_congr hp.parent (setLocal_parent σ k n v k) (fun m hm => by rw [vars_setLocal hs, if_neg hm])
  · exact current_of (by rw [vars_setLocal hs, if_pos rfl, Dict.get?_set, if_neg hn])

/-- assigning names that are not exported -/
theorem setAll_fresh (k : Nat) : ∀ (l : List (Str × V)) (σ : Shell), σ.Proper k →
    (∀ p ∈ l, p.1 ≠ c!"env" ∧ p.1 ≠ c!"_" ∧ ¬ σ.IsExported k p.1) →
    (setAll k l σ).2 = .ok () ∧ (setAll k l σ).1.Proper k ∧ Alike k σ (setAll k l σ).1 ∧
    (setAll k l σ).1.envs = σ.envs ∧
    (setAll k l σ).1.vars k = l.foldl (fun d p => Dict.set d p.1 p.2) (σ.vars k)
  | [], σ, hp, _ => ⟨rfl, hp, Alike.refl k σ, rfl, rfl⟩
  | (n, v) :: l, σ, hp, h => by
    obtain ⟨h1, h2, h3⟩ := h (n, v) List.mem_cons_self
    obtain ⟨i, hi⟩ := Option.ne_none_iff_exists'.1 hp.env
    have hm : Dict.mem (σ.dict (σ.exportsOf k)) n = false := by
      cases hb : Dict.mem (σ.dict (σ.exportsOf k)) n with
      | false => rfl
      | true => exact absurd ((mem_iff _ _).1 hb) h3
    have e : σ.setItem k n v = (σ.setLocal k n v, .ok ()) := by
      unfold Shell.setItem
      rw [storedName_of h2, if_neg h1, store_eq hi, hm]
      rfl
    have ha := setLocal_alike hp n v h1
    have hq := (view_setLocal hp n v h1).2
    have ih := setAll_fresh k l (σ.setLocal k n v) hq (fun p hp' => by
      obtain ⟨a, b, c⟩ := h p (List.mem_cons_of_mem _ hp')
      refine ⟨a, b, ?_⟩
      unfold Shell.IsExported
      rw [ha.exportsOf, ha.dict]
      exact c)
    obtain ⟨s, hs⟩ := current_lt hp.env
    unfold setAll
    simp only [e]
    refine ⟨ih.1, ih.2.1, ha.trans ih.2.2.1, ih.2.2.2.1.trans (setLocal_dicts σ k n v).2.1, ?_⟩
    rw [ih.2.2.2.2, vars_setLocal hs, if_pos rfl]
    rfl

theorem get?_foldl_set (l : List (Str × V)) (hn : (l.map (·.1)).Nodup) : ∀ (d : Dict Str V),
    (∀ p ∈ l, Dict.get? (l.foldl (fun d p => Dict.set d p.1 p.2) d) p.1 = some p.2) ∧
    (∀ n, n ∉ l.map (·.1) → Dict.get? (l.foldl (fun d p => Dict.set d p.1 p.2) d) n = Dict.get? d n) := by
  induction l with
  | nil => intro d; exact ⟨by simp, by simp⟩
  | cons q l ih =>
    simp only [List.map_cons, List.nodup_cons] at hn
    intro d
    obtain ⟨h1, h2⟩ := ih hn.2 (Dict.set d q.1 q.2)
    refine ⟨?_, ?_⟩
    · intro p hp
      rcases List.mem_cons.1 hp with rfl | hp
      · simp only [List.foldl_cons]
        rw [h2 _ hn.1, Dict.get?_set, if_pos rfl]
      · exact h1 p hp
    · intro n hm
      simp only [List.map_cons, List.mem_cons, not_or] at hm
      simp only [List.foldl_cons]
      rw [h2 n hm.2, Dict.get?_set, if_neg (fun e => hm.1 e.symm)]

/-- `env = env` -/
theorem setEnv_again {σ : Shell} {k i : Nat} (hp : σ.Proper k) (hi : σ.current k = some i) (hn : ¬ σ.IsExported k c!"env") :
    (σ.setItem k c!"env" (.env i)).2 = .ok () ∧ Alike k σ (σ.setItem k c!"env" (.env i)).1 ∧
    (∀ n, Dict.get? ((σ.setItem k c!"env" (.env i)).1.vars k) n = Dict.get? (σ.vars k) n) ∧
    (∀ e, σ.envs[i]? = some e → ((σ.setItem k c!"env" (.env i)).1.envs[i]?).bind EnvRec.scope = some k) := by
  have hg : Dict.get? (σ.vars k) c!"env" = some (.env i) := by
    unfold Shell.current at hi
    split at hi
    · rename_i j hj; cases hi; exact hj
    · cases hi
  let τ : Shell := { σ with envs := match σ.envs[i]? with
      | none => σ.envs
      | some e => σ.envs.set i { e with scope := some k } }
  have hraw : ∀ j, τ.rawRef j = σ.rawRef j := by
    intro j
    show Option.getD (Option.map EnvRec.exports ((match σ.envs[i]? with
      | none => σ.envs
      | some e => σ.envs.set i { e with scope := some k })[j]?)) 0 = _
    unfold Shell.rawRef
    cases he : σ.envs[i]? with
    | none => rfl
    | some e =>
      simp only [List.getElem?_set]
      by_cases hij : i = j
      · subst hij
        rw [if_pos rfl, if_pos (List.getElem?_eq_some_iff.1 he).1, he]; rfl
      · rw [if_neg hij]
  have hlen : τ.envs.length = σ.envs.length := by
    show List.length (match σ.envs[i]? with
      | none => σ.envs
      | some e => σ.envs.set i { e with scope := some k }) = _
    split <;> simp
  have hat : Alike k σ τ := ⟨rfl, hraw, hlen, rfl, rfl, rfl⟩
  have hm : Dict.mem (τ.dict (τ.exportsOf k)) c!"env" = false := by
    cases hb : Dict.mem (τ.dict (τ.exportsOf k)) c!"env" with
    | false => rfl
    | true =>
      rw [hat.exportsOf, hat.dict] at hb
      exact absurd ((mem_iff _ _).1 hb) hn
  have hcur : τ.current k = some i := hi
  have e : σ.setItem k c!"env" (.env i) = (τ.setLocal k c!"env" (.env i), .ok ()) := by
    show τ.store k c!"env" (.env i) = _
    rw [store_eq hcur, hm]
    rfl
  obtain ⟨s, hs⟩ := current_lt (σ := τ) (k := k) (by rw [hcur]; simp)
  have hv : ∀ n, Dict.get? ((τ.setLocal k c!"env" (.env i)).vars k) n = Dict.get? (σ.vars k) n := by
    intro n
    rw [vars_setLocal hs, if_pos rfl, Dict.get?_set]
    split
    · rename_i h; subst h; exact hg.symm
    · rfl
  obtain ⟨d1, d2, d3⟩ := setLocal_dicts τ k c!"env" (.env i)
  rw [e]
  refine ⟨rfl, hat.trans ⟨d1, fun j => by unfold Shell.rawRef; rw [d2], by rw [d2], d3, ?_, ?_⟩, hv, ?_⟩
  · exact parentVars_congr hp.parent (setLocal_parent τ k _ _ k) (fun m hm => by rw [vars_setLocal hs, if_neg hm])
  · exact current_of (hv _)
  · intro e he
    simp only [d2]
    show ((match σ.envs[i]? with
      | none => σ.envs
      | some e => σ.envs.set i { e with scope := some k })[i]?).bind EnvRec.scope = _
    simp only [he, List.getElem?_set]
    rw [if_pos trivial, if_pos (List.getElem?_eq_some_iff.1 he).1]; rfl

theorem getItem_env {σ : Shell} {k i : Nat} (hi : σ.current k = some i) : σ.getItem k c!"env" = .ok (.env i) := by
  unfold Shell.getItem
  unfold Shell.current at hi
  split at hi
  · rename_i j hj; cases hi; rw [hj]
  · cases hi

theorem defined_split : Spec.defined = argNames ++ startupNames := rfl

/-- C73, part: if none of the names the shell defines (nor `env`) is an exported variable, starting it defines them, changes
no other name and no exported variable, and the variables of the prompt can be used in arguments (`%(name)s`). -/
theorem C73_names_partial (σ : Shell) (k i : Nat) (hp : σ.Proper k) (hi : σ.current k = some i) (hl : i < σ.envs.length)
    (hn : ∀ p ∈ Spec.defined, ¬ σ.IsExported k p.1) (henv : ¬ σ.IsExported k c!"env") :
    (mainScope true k σ).2 = .ok () ∧
    (∀ p ∈ Spec.defined, (mainScope true k σ).1.getItem k p.1 = .ok p.2) ∧
    (∀ n, n ∉ Spec.defined.map (·.1) → (mainScope true k σ).1.getItem k n = σ.getItem k n) ∧
    (mainScope true k σ).1.dicts = σ.dicts ∧
    (∀ n, (mainScope true k σ).1.template i n = (mainScope true k σ).1.getItem k n) := by
  have hspecial : ∀ p ∈ Spec.defined, p.1 ≠ c!"env" ∧ p.1 ≠ c!"_" := by decide +kernel
  obtain ⟨a1, a2, a3, a4, a5⟩ := setAll_fresh k argNames σ hp (fun p h =>
    have h' : p ∈ Spec.defined := by rw [defined_split]; exact List.mem_append_left _ h
    ⟨(hspecial p h').1, (hspecial p h').2, hn p h'⟩)
  obtain ⟨b1, b2, b3, b4, b5⟩ := setAll_fresh k startupNames (setAll k argNames σ).1 a2 (fun p h => by
    have h' : p ∈ Spec.defined := by rw [defined_split]; exact List.mem_append_right _ h
    refine ⟨(hspecial p h').1, (hspecial p h').2, ?_⟩
    unfold Shell.IsExported
    rw [a3.exportsOf, a3.dict]
    exact hn p h')
  have ab := a3.trans b3
  have hi' := ab.cur.trans hi
  obtain ⟨c1, c2, c3, c4⟩ := setEnv_again b2 hi' (by
    unfold Shell.IsExported
    rw [ab.exportsOf, ab.dict]
    exact henv)
  have e : mainScope true k σ = (setAll k startupNames (setAll k argNames σ).1).1.setItem k c!"env" (.env i) := by
    unfold mainScope
    simp only [a1, if_true]
    unfold startupScope
    rw [getItem_env (a3.cur.trans hi)]
    simp only [b1]
  have hv : ∀ n, Dict.get? ((mainScope true k σ).1.vars k) n =
      Dict.get? (Spec.defined.foldl (fun d p => Dict.set d p.1 p.2) (σ.vars k)) n := by
    intro n
    rw [e, c3, b5, a5, defined_split, List.foldl_append]
  have hnd : (Spec.defined.map (·.1)).Nodup := by decide +kernel
  obtain ⟨g1, g2⟩ := get?_foldl_set Spec.defined hnd (σ.vars k)
  have al : Alike k σ (mainScope true k σ).1 := by rw [e]; exact ab.trans c2
  refine ⟨by rw [e]; exact c1, ?_, ?_, al.dicts, ?_⟩
  · intro p hp'
    unfold Shell.getItem
    rw [hv, g1 p hp']
  · intro n hn'
    exact al.getItem n (by rw [hv, g2 n hn'])
  · intro n
    have hs : ((mainScope true k σ).1.envs[i]?).bind EnvRec.scope = some k := by
      rw [e]
      obtain ⟨er, her⟩ : ∃ er, (setAll k startupNames (setAll k argNames σ).1).1.envs[i]? = some er :=
        ⟨_, List.getElem?_eq_getElem (by rw [b4, a4]; exact hl)⟩
      exact c4 er her
    unfold Shell.template
    rw [hs]

/-- no name is exported -/
theorem demo_names : (∀ p ∈ Spec.defined, ¬ demo.IsExported 0 p.1) ∧ ¬ demo.IsExported 0 c!"env" := by
  have : ∀ n, demo.IsExported 0 n → n = c!"HOME" := by
    rintro n ⟨v, hv⟩
    have h2 : Dict.get? [(c!"HOME", V.str c!"/home/a")] n = some v := hv
    simp only [Dict.get?] at h2
    split at h2
    · rename_i h; exact h.symm
    · cases h2
  refine ⟨fun p hp h => ?_, fun h => absurd (this _ h) (by decide)⟩
  exact absurd (this _ h) ((by decide +kernel : ∀ p ∈ Spec.defined, p.1 ≠ c!"HOME") p hp)

example : (mainScope true 0 demo).1.getItem 0 c!"R" = .ok (.obj 6) :=
  (C73_names_partial demo 0 0 demo_proper rfl (by decide) demo_names.1 demo_names.2).2.1 (c!"R", .obj 6) (by decide +kernel)
example : (mainScope true 0 demo).1.template 0 c!"x" = .ok (.obj 1) := rfl

/-- C73, with `--no-startup`: the shell only defines `args` and `kws`, and the environment keeps having no scope, so that
the variables of the prompt cannot be used in arguments. -/
theorem C73_no_startup_refuted (σ : Shell) (k i : Nat) (hp : σ.Proper k) (e : EnvRec) (hl : σ.envs[i]? = some e)
    (hsc : e.scope = none) (hn : ∀ p ∈ Spec.defined, ¬ σ.IsExported k p.1) (n : Str) (hx : Dict.get? (σ.dict (σ.exportsRef i)) n = none) :
    (mainScope false k σ).2 = .ok () ∧ ∀ v, ((mainScope false k σ).1.setItem k n v).2 = .ok () →
      n ≠ c!"env" → n ≠ c!"_" → σ.current k = some i → ((mainScope false k σ).1.setItem k n v).1.template i n = .error .keyError := by
  have hspecial : ∀ p ∈ Spec.defined, p.1 ≠ c!"env" ∧ p.1 ≠ c!"_" := by decide +kernel
  obtain ⟨a1, a2, a3, a4, a5⟩ := setAll_fresh k argNames σ hp (fun p h =>
    have h' : p ∈ Spec.defined := by rw [defined_split]; exact List.mem_append_left _ h
    ⟨(hspecial p h').1, (hspecial p h').2, hn p h'⟩)
  have em : mainScope false k σ = ((setAll k argNames σ).1, .ok ()) := by
    unfold mainScope
    simp only [a1, Bool.false_eq_true, if_false]
  rw [em]
  refine ⟨rfl, ?_⟩
  intro v _ h1 h2 hi
  have hi' := a3.cur.trans hi
  have hm : Dict.mem ((setAll k argNames σ).1.dict ((setAll k argNames σ).1.exportsOf k)) n = false := by
    rw [a3.exportsOf, a3.dict]
    unfold Shell.exportsOf
    rw [hi]
    simp only [Option.getD_some, Dict.mem, hx]
    rfl
  have e2 : (setAll k argNames σ).1.setItem k n v = ((setAll k argNames σ).1.setLocal k n v, .ok ()) := by
    unfold Shell.setItem
    rw [storedName_of h2, if_neg h1, store_eq hi', hm]
    rfl
  have ha := a3.trans (setLocal_alike a2 n v h1)
  simp only [e2]
  unfold Shell.template
  rw [(setLocal_dicts _ _ _ _).2.1, a4, hl]
  simp only [Option.bind_some, hsc]
  rw [ha.ref, ha.dict, hx]

/-- the shell as `pieshell` creates it: a copy of `os.environ`, no scope yet -/
def fresh : Shell :=
  { dicts := [[(c!"TMP", .str c!"/tmp")], [(c!"TMP", .str c!"/tmp")]], envs := [⟨0, none⟩, ⟨1, none⟩],
    scopes := [⟨[(c!"env", .env 1)], none⟩], isBuiltin := fun _ => false }

/-- C73 is false of the code: if a variable with one of these names is exported - `TMP`, say - it is overwritten with an
object that is not text, and reading it does not matter: no command can be executed any more, all end with status 255.
(If the exported variables are `os.environ` itself, the shell does not start.) -/
theorem C73_refuted : (mainScope true 0 fresh).2 = .ok () ∧
    Dict.get? ((mainScope true 0 fresh).1.dict 1) c!"TMP" = some (.obj 8) ∧
    (∀ (k : Exec.Kernel) (args : List Exec.Word) (cwd : Str), k.chdir cwd = none →
      Exec.child k { args := args, exports := Spec.exported ((mainScope true 0 fresh).1.dict 1), cwd := cwd } false none = .exits 255) ∧
    (mainScope true 0 { fresh with envs := [⟨0, none⟩, ⟨0, none⟩] }).2 = .error .typeError := by
  refine ⟨rfl, rfl, ?_, rfl⟩
  intro k args cwd hc
  exact Exec.C71_exports_refuted k _ hc c!"TMP" (by
    show (c!"TMP", Exec.Value.other) ∈ Spec.exported ((mainScope true 0 fresh).1.dict 1)
    decide +kernel)

end Pieshell.Shell

namespace Pieshell.Startup
open Pieshell.Path

/-! ## C74 -/

/-- C74, part: a configuration that exists is never changed by starting the shell, however often and however it ends, -/
theorem C74_kept_partial (default : Str) (d d' : Disk) (c : Str) (h : Spec.History default d d') (hc : d.conf = some c) :
    d'.conf = some c := by
  induction h with
  | refl => exact hc
  | step w _ hm ih =>
    unfold start at hm
    rw [ih] at hm
    simp only [List.mem_cons, List.not_mem_nil, or_false] at hm
    subst hm
    exact ih

/-- and it is what gets executed. -/
theorem C74_executed_partial (default : Str) (w : Weather) (d : Disk) (c : Str) (hc : d.conf = some c) (hw : w.read = none) :
    (start default w d).2 = .executed c := by
  simp [start, hc, executeConf, hw]

/-- C74, part: the first start, undisturbed, makes a configuration with the default text and executes it. -/
theorem C74_first_partial (default : Str) (d : Disk) (hc : d.conf = none) :
    final d (start default Spec.Weather.fine d).1 = { dir := true, conf := some default } ∧
    (start default Spec.Weather.fine d).2 = .executed default := by
  cases d with
  | mk dir conf =>
    subst hc
    cases dir <;> exact ⟨rfl, rfl⟩

/-- C74, part: what the shell leaves behind in any history is nothing or a beginning of the default text. -/
theorem C74_only_default_partial (default : Str) (d d' : Disk) (h : Spec.History default d d') (hc : d.conf = none) :
    d'.conf = none ∨ ∃ n, d'.conf = some (default.take n) := by
  induction h with
  | refl => exact .inl hc
  | @step d1 d2 w h1 hm ih =>
    rcases ih with ih | ⟨n, ih⟩
    · rcases List.mem_cons.1 hm with rfl | hm
      · exact .inl ih
      · unfold start at hm
        rw [ih] at hm
        have key : ∀ x ∈ (copyResource default w d1).1, x.conf = none ∨ ∃ n, x.conf = some (default.take n) := by
          intro x hx
          unfold copyResource at hx
          split at hx
          · simp at hx
          · simp only at hx
            split at hx
            · simp only [List.mem_singleton] at hx; subst hx; exact .inl ih
            · split at hx
              · simp only [List.mem_cons, List.not_mem_nil, or_false] at hx
                rcases hx with rfl | rfl | rfl
                · exact .inl ih
                · exact .inr ⟨0, by simp⟩
                · exact .inr ⟨_, rfl⟩
              · simp only [List.mem_cons, List.not_mem_nil, or_false] at hx
                rcases hx with rfl | rfl | rfl
                · exact .inl ih
                · exact .inr ⟨0, by simp⟩
                · exact .inr ⟨default.length, by simp⟩
        revert hm
        simp only
        split
        · exact key d2
        · exact key d2
        · exact key d2
    · exact .inr ⟨n, C74_kept_partial default d1 d2 _ (.step w (.refl _) hm) ih⟩

/-- C74 is false of the code: a first start that is interrupted after the file was created leaves an empty configuration,
and from then on, in every later history, the shell starts with an empty configuration instead of the default one. -/
theorem C74_refuted (default : Str) : ∃ d', Spec.History default ⟨false, none⟩ d' ∧
    ∀ d2 w, Spec.History default d' d2 → w.read = none → (start default w d2).2 = .executed [] := by
  refine ⟨⟨true, some []⟩, .step Spec.Weather.fine (.refl _) ?_, ?_⟩
  · show _ ∈ [_, _, _, _]
    simp
  · intro d2 w h hw
    exact C74_executed_partial default w d2 [] (C74_kept_partial default _ d2 [] h rfl) hw

/-- C74 is false of the code: if the file cannot be created for lack of permission, the shell cannot be started, although
the code means to execute the default configuration then. -/
theorem C74_permission_refuted (default : Str) (w : Weather) (d : Disk) (hc : d.conf = none)
    (hw : (d.dir = false ∧ w.makedirs = some .permission) ∨
      ((d.dir = true ∨ w.makedirs = none) ∧ w.create = some .permission)) :
    (start default w d).2 = .raised := by
  have : (copyResource default w d).2 = some .permission := by
    unfold copyResource
    rcases hw with ⟨h1, h2⟩ | ⟨h1 | h1, h2⟩
    · simp [h1, h2]
    · simp [h1, h2]
    · simp [h1, h2]
  unfold start
  rw [hc]
  simp only [this]
  rfl

example : (start c!"bashsource()" ⟨none, some .permission, none, none⟩ ⟨true, none⟩).2 = .raised := rfl
example : (start c!"bashsource()" Spec.Weather.fine ⟨true, some c!"x = 1"⟩).2 = .executed c!"x = 1" := rfl
/-- a full disk: the start fails, and the next one executes nothing -/
example : start c!"bashsource()" ⟨none, none, some (.other, 0), none⟩ ⟨false, none⟩ =
    ([⟨true, none⟩, ⟨true, some []⟩, ⟨true, some []⟩], .raised) := rfl

/-! ## C75 -/

theorem rstripSlash_noop {s : Str} (h : s.getLast? ≠ some '/') : rstripSlash s = s := by
  unfold rstripSlash
  have : s.reverse.dropWhile (· = '/') = s.reverse := by
    cases hr : s.reverse with
    | nil => rfl
    | cons c t =>
      have : s.getLast? = some c := by
        rw [← List.reverse_reverse s, hr]; simp
      rw [List.dropWhile_cons_of_neg]
      intro hc
      simp only [decide_eq_true_eq] at hc
      exact h (by rw [this, hc])
  rw [this, List.reverse_reverse]

/-- C75, part: the path in the prompt stands for the working directory: expanding it as the shell expands `~` gives the
directory, if the home directory has no slash at its end and the directory is not merely one whose name begins with that
of the home directory. -/
theorem C75_prompt_partial (homes : Homes) (home path : Str) (h : homes.own = some home) (hne : home ≠ [])
    (hs : home.getLast? ≠ some '/') (hp : path.head? = some '/')
    (hc : path = home ∨ (home ++ ['/']).isPrefixOf path ∨ ¬ home.isPrefixOf path) :
    expanduser homes (compressUser homes path) = path := by
  have he : expanduser homes c!"~" = home := by
    show (match homes.own with
      | none => c!"~"
      | some h => if rstripSlash h ++ [] = [] then c!"/" else rstripSlash h ++ []) = home
    rw [h]
    simp [rstripSlash_noop hs, hne]
  unfold compressUser
  simp only [he]
  by_cases hpre : home.isPrefixOf path = true
  · rw [if_pos hpre]
    obtain ⟨t, rfl⟩ := List.isPrefixOf_iff_prefix.1 hpre
    have ht : t = [] ∨ ∃ u, t = '/' :: u := by
      rcases hc with hc | hc | hc
      · left; simpa using hc
      · right
        obtain ⟨u, hu⟩ := List.isPrefixOf_iff_prefix.1 hc
        exact ⟨u, by simpa using hu.symm⟩
      · exact absurd hpre hc
    rw [List.drop_left]
    unfold expanduser
    rcases ht with rfl | ⟨u, rfl⟩
    · simp [h, rstripSlash_noop hs, hne]
    · simp [h, rstripSlash_noop hs]
  · rw [if_neg hpre]
    exact Expand.expanduser_plain (by rw [hp]; decide)

/-- C75 is false of the code: the directory of the user anna is shown to the user ann as `~a`, which stands for another
directory or none; and if the home directory is `/`, `/usr` is shown as `~usr`. -/
theorem C75_refuted : (∀ homes : Homes, homes.own = some c!"/home/ann" → compressUser homes c!"/home/anna" = c!"~a" ∧
      (homes.named c!"a" = none → expanduser homes c!"~a" ≠ c!"/home/anna")) ∧
    ∀ homes : Homes, homes.own = some c!"/" → compressUser homes c!"/usr" = c!"~usr" := by
  refine ⟨fun homes h => ⟨?_, fun h2 => ?_⟩, fun homes h => ?_⟩
  · have he : expanduser homes c!"~" = c!"/home/ann" := by
      show (match homes.own with
        | none => c!"~"
        | some h => if rstripSlash h ++ [] = [] then c!"/" else rstripSlash h ++ []) = c!"/home/ann"
      rw [h]; rfl
    unfold compressUser
    rw [he]; rfl
  · show (match homes.named c!"a" with
      | none => c!"~a"
      | some h => if rstripSlash h ++ [] = [] then c!"/" else rstripSlash h ++ []) ≠ _
    rw [h2]; decide
  · have he : expanduser homes c!"~" = c!"/" := by
      show (match homes.own with
        | none => c!"~"
        | some h => if rstripSlash h ++ [] = [] then c!"/" else rstripSlash h ++ []) = c!"/"
      rw [h]; rfl
    unfold compressUser
    rw [he]; rfl

example : compressUser ⟨some c!"/home/ann", fun _ => none⟩ c!"/home/ann/x" = c!"~/x" := by decide

/-! ## C76 -/

/-- C76, part: the script files are executed one after another in the order of the command line; one that fails does not
keep the later ones from being executed. -/
theorem C76_all_partial (script : Str → Script) (files : List Str)
    (h : ∀ f ∈ files, script f ≠ .missing ∧ ∀ n, script f ≠ .exits n) : runFiles script files = (files, 0) := by
  induction files with
  | nil => rfl
  | cons f fs ih =>
    have ihs := ih (fun g hg => h g (List.mem_cons_of_mem _ hg))
    obtain ⟨h1, h2⟩ := h f List.mem_cons_self
    unfold runFiles
    rw [ihs]
    split
    · rename_i e; exact absurd e h1
    · rename_i n e; exact absurd e (h2 n)
    · rfl

/-- C76, part: `sys.exit(n)` in a script ends the shell with that status; the later ones are not executed. A file that
cannot be read ends it with status 1. -/
theorem C76_stop_partial (script : Str → Script) (before : List Str) (f : Str) (after : List Str)
    (h : ∀ f ∈ before, script f ≠ .missing ∧ ∀ n, script f ≠ .exits n) :
    (∀ n, script f = .exits n → runFiles script (before ++ f :: after) = (before ++ [f], n)) ∧
    (script f = .missing → runFiles script (before ++ f :: after) = (before, 1)) := by
  induction before with
  | nil =>
    refine ⟨fun n hn => ?_, fun hm => ?_⟩
    · simp [runFiles, hn]
    · simp [runFiles, hm]
  | cons b bs ih =>
    obtain ⟨i1, i2⟩ := ih (fun g hg => h g (List.mem_cons_of_mem _ hg))
    obtain ⟨h1, h2⟩ := h b List.mem_cons_self
    refine ⟨fun n hn => ?_, fun hm => ?_⟩
    · simp only [List.cons_append]
      unfold runFiles
      rw [i1 n hn]
      split
      · rename_i e; exact absurd e h1
      · rename_i m e; exact absurd e (h2 m)
      · rfl
    · simp only [List.cons_append]
      unfold runFiles
      rw [i2 hm]
      split
      · rename_i e; exact absurd e h1
      · rename_i m e; exact absurd e (h2 m)
      · rfl

/-- C76, part: a script is executed (at least in part) unless it is missing, has a syntax error or is incomplete, and there is a message whenever
something went wrong, except if it is incomplete. -/
theorem C76_message_partial (s : Script) : (s.executed = false ↔ s = .missing ∨ s = .syntaxError ∨ s = .incomplete) ∧
    (s.reported = true ↔ s = .missing ∨ s = .syntaxError ∨ s = .raises) ∧
    (s.executed = false ∧ s.reported = false ↔ s = .incomplete) := by
  cases s <;> simp [Script.executed, Script.reported]

example : Script.executed (.exits 3) = true ∧ Script.reported .missing = true := by decide

/-- C76 is false of the code: the exit status does not say that a script failed - an exception and a syntax error give
status 0 - and a script whose last statement is not complete is not executed at all, without any message. -/
theorem C76_refuted (f : Str) : (∀ r, r = .raises ∨ r = .syntaxError → (runFiles (fun _ => r) [f]).2 = 0) ∧
    (runFiles (fun _ => .incomplete) [f]).2 = 0 ∧ Script.executed .incomplete = false ∧ Script.reported .incomplete = false := by
  refine ⟨?_, rfl, rfl, rfl⟩
  rintro r (rfl | rfl) <;> rfl

example : runFiles (fun f => if f = c!"a" then .raises else if f = c!"b" then .exits 3 else .finishes) [c!"c", c!"a", c!"b", c!"c"] =
    ([c!"c", c!"a", c!"b"], 3) := by decide

end Pieshell.Startup
