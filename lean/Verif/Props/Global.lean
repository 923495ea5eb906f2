import Verif.Props.Scope
/-! C92: assigning a global variable in a function. -/
namespace Pieshell.Shell
open Shell

/-- **C92**: `global n; n = v` in a function does exactly what `n = v` at the prompt does.  Missing: exported variables and the names
`env` and `_` (refuted below). -/
theorem C92_same_partial (σ : Shell) (k : Nat) (n : Str) (v : V) (hp : σ.Proper k) (h1 : n ≠ c!"_") (h2 : n ≠ c!"env") (hx : ¬ σ.IsExported k n) :
    σ.setItem k n v = (σ.storeGlobal k n v, .ok ()) := by
  obtain ⟨i, hi⟩ := Option.ne_none_iff_exists'.1 hp.env
  have hm : Dict.mem (σ.dict (σ.exportsRef i)) n = false := by
    cases h : Dict.mem (σ.dict (σ.exportsRef i)) n with
    | false => rfl
    | true =>
      refine absurd ?_ hx
      obtain ⟨u, hu⟩ := (mem_iff _ _).1 h
      exact ⟨u, by rw [Shell.exportsOf, hi]; exact hu⟩
  simp only [Shell.setItem, storedName_of h1, if_neg h2, Shell.store, hi, hm, Shell.storeGlobal]
  rfl

/-- **C92**: the value is read by every function and at the prompt, whatever the name, and no other variable changes. -/
theorem C92_read (σ : Shell) (k : Nat) (n : Str) (v : V) (hp : σ.Proper k) (h2 : n ≠ c!"env") :
    (σ.storeGlobal k n v).getItem k n = .ok v ∧
    (∀ m, m ≠ n → m ≠ c!"exports" → (σ.storeGlobal k n v).getItem k m = σ.getItem k m) ∧
    (∀ r, (σ.storeGlobal k n v).dict r = σ.dict r) := by
  obtain ⟨s, hs⟩ := current_lt hp.env
  have hv := vars_setLocal hs n v
  refine ⟨?_, fun m hm hx => ?_, fun r => ?_⟩
  · unfold Shell.getItem Shell.storeGlobal
    rw [hv k, if_pos rfl, Dict.get?_set, if_pos rfl]
  · obtain ⟨h, -⟩ := view_setLocal hp n v h2
    rw [Shell.storeGlobal, getItem_view _ _ _ hx, getItem_view _ _ _ hx, h]
    have e : (σ.view k).loc = σ.vars k := rfl
    simp only [View.read, Dict.get?_set, if_neg (Ne.symm hm), e]
  · simp only [Shell.dict, Shell.storeGlobal, (setLocal_dicts σ k n v).1]

/-- C92 is false for every exported variable: programs keep seeing the old value, while the shell reads the new one; and from then on the shell
reads that value whatever is assigned at the prompt. -/
theorem C92_refuted_exported (σ : Shell) (k : Nat) (n : Str) (v w : V) (hp : σ.Proper k) (h1 : n ≠ c!"_") (h2 : n ≠ c!"env")
    (hx : σ.IsExported k n) :
    (σ.storeGlobal k n v).dict ((σ.storeGlobal k n v).exportsOf k) = σ.dict (σ.exportsOf k) ∧
    (((σ.storeGlobal k n v).setItem k n w).1).getItem k n = .ok v := by
  obtain ⟨hview, hp'⟩ := view_setLocal hp n v h2
  have e1 : (σ.storeGlobal k n v).dict ((σ.storeGlobal k n v).exportsOf k) = σ.dict (σ.exportsOf k) := by
    show ((σ.setLocal k n v).view k).exp = (σ.view k).exp
    rw [hview]
  refine ⟨e1, ?_⟩
  obtain ⟨s, hs⟩ := current_lt hp.env
  have hv := vars_setLocal hs n v
  have hloc : Dict.get? ((σ.storeGlobal k n v).vars k) n = some v := by
    rw [Shell.storeGlobal, hv k, if_pos rfl, Dict.get?_set, if_pos rfl]
  obtain ⟨i, hi⟩ := Option.ne_none_iff_exists'.1 hp'.env
  have hi' : (σ.storeGlobal k n v).current k = some i := hi
  have hm : Dict.mem ((σ.storeGlobal k n v).dict ((σ.storeGlobal k n v).exportsRef i)) n = true := by
    obtain ⟨u, hu⟩ := hx
    refine (mem_iff _ _).2 ⟨u, ?_⟩
    rw [← e1, Shell.exportsOf, hi'] at hu
    exact hu
  have hst : (σ.storeGlobal k n v).setItem k n w = (σ.storeGlobal k n v).setDict ((σ.storeGlobal k n v).exportsRef i) n w := by
    simp only [Shell.setItem, storedName_of h1, if_neg h2, Shell.store, hi', hm, if_true]
  have hvars : (((σ.storeGlobal k n v).setItem k n w).1).vars k = (σ.storeGlobal k n v).vars k := by
    rw [hst, Shell.setDict]
    split <;> rfl
  unfold Shell.getItem
  rw [hvars, hloc]

example : demo.Proper 0 ∧ demo.IsExported 0 c!"HOME" ∧ ¬ demo.IsExported 0 c!"x" :=
  ⟨demo_proper, ⟨_, rfl⟩, fun ⟨_, h⟩ => by cases h⟩

/-- C92 is false for `env`: an environment assigned in a function does not know the shell's variables, so that they cannot be used in the
arguments of its commands (KeyError), as they can after the same assignment at the prompt. -/
theorem C92_refuted_env : ∃ σ : Shell, σ.Proper 0 ∧ σ.getItem 0 c!"x" = .ok (.obj 1) ∧
    (σ.storeGlobal 0 c!"env" (.env 1)).current 0 = some 1 ∧ (σ.storeGlobal 0 c!"env" (.env 1)).template 1 c!"x" = .error .keyError ∧
    (σ.setItem 0 c!"env" (.env 1)).1.current 0 = some 1 ∧ (σ.setItem 0 c!"env" (.env 1)).1.template 1 c!"x" = .ok (.obj 1) :=
  ⟨demo, demo_proper, rfl, rfl, rfl, rfl, rfl⟩

/-- C92 is false for functions made with `pyshfunction`: what they assign never reaches the module they come from (the assignment goes into the
function's own scope), for every variable and module. -/
theorem C92_refuted_pyshfunction (σ : Shell) (i g : Nat) (n : Str) (v : V) (hg : g < σ.scopes.length) :
    ((σ.pyshfunction i g).storeGlobal σ.scopes.length n v).vars g = σ.vars g ∧
    ((σ.pyshfunction i g).storeGlobal σ.scopes.length n v).getItem σ.scopes.length n = .ok v := by
  have hs : (σ.pyshfunction i g).scopes[σ.scopes.length]? = some ⟨[(c!"env", .env i)], some g⟩ := by simp [Shell.pyshfunction]
  have hv := vars_setLocal hs n v
  constructor
  · rw [Shell.storeGlobal, hv g, if_neg (by omega)]
    exact vars_append_old σ _ g hg
  · unfold Shell.getItem
    rw [Shell.storeGlobal, hv, if_pos rfl, Dict.get?_set, if_pos rfl]

end Pieshell.Shell
