import Verif.Spec.Scope
import Verif.Lemmas.Dict
/-! # Lemmas about the model of the shell's variables -/
namespace Pieshell.Shell
open Shell

theorem dict_set (σ : Shell) (r s : Nat) (d : Dict Str V) (hr : r < σ.dicts.length) :
    ({ σ with dicts := σ.dicts.set r d } : Shell).dict s = if s = r then d else σ.dict s := by
  simp only [Shell.dict, List.getElem?_set]
  by_cases h : s = r
  · subst h; simp [hr]
  · rw [if_neg (Ne.symm h), if_neg h]

theorem current_lt {σ : Shell} {k : Nat} (h : σ.current k ≠ none) : ∃ s, σ.scopes[k]? = some s := by
  cases hs : σ.scopes[k]? with
  | none => exact absurd (by simp [Shell.current, Shell.vars, hs, Dict.get?]) h
  | some s => exact ⟨s, rfl⟩

theorem vars_setLocal {σ : Shell} {k : Nat} {s : ScopeRec} (hs : σ.scopes[k]? = some s) (n : Str) (v : V) (m : Nat) :
    (σ.setLocal k n v).vars m = if m = k then Dict.set (σ.vars k) n v else σ.vars m := by
  have hk : k < σ.scopes.length := (List.getElem?_eq_some_iff.1 hs).1
  simp only [Shell.setLocal, hs, Shell.vars, List.getElem?_set]
  by_cases h : m = k
  · subst h; simp [hk]
  · rw [if_neg (Ne.symm h), if_neg h]

theorem setLocal_dicts (σ : Shell) (k : Nat) (n : Str) (v : V) :
    (σ.setLocal k n v).dicts = σ.dicts ∧ (σ.setLocal k n v).envs = σ.envs ∧ (σ.setLocal k n v).isBuiltin = σ.isBuiltin := by
  unfold Shell.setLocal; split <;> simp

theorem setLocal_parent (σ : Shell) (k : Nat) (n : Str) (v : V) (m : Nat) :
    ((σ.setLocal k n v).scopes[m]?).bind ScopeRec.parent = (σ.scopes[m]?).bind ScopeRec.parent := by
  unfold Shell.setLocal
  split
  · rfl
  · rename_i s hs
    simp only [List.getElem?_set]
    by_cases h : k = m
    · subst h
      have hk : k < σ.scopes.length := (List.getElem?_eq_some_iff.1 hs).1
      rw [if_pos rfl, if_pos hk, hs]; rfl
    · rw [if_neg h]

theorem exportsRef_congr {σ τ : Shell} (h1 : τ.envs = σ.envs) (h2 : τ.dicts = σ.dicts) (i : Nat) :
    τ.exportsRef i = σ.exportsRef i := by 
  unfold Shell.exportsRef Shell.rawRef Shell.dict; rw [h1, h2]

/-- What one can observe through scope `k`. -/
structure View where
  loc : Dict Str V
  exp : Dict Str V
  par : Dict Str V
  cur : Option Nat
  bi : Str → Bool

def Shell.view (σ : Shell) (k : Nat) : View :=
  ⟨σ.vars k, σ.dict (σ.exportsOf k), (σ.parentVars k).getD [], σ.current k, σ.isBuiltin⟩

def View.read (w : View) (name : Str) : Except Exn V :=
  match Dict.get? w.loc name with
  | some v => .ok v
  | none =>
    match w.cur with
    | none => .error .keyError
    | some i =>
      if name ≠ c!"_" then
        if name = c!"exports" then .error .other
        else match Dict.get? w.exp name with
          | some v => .ok v
          | none => match Dict.get? w.par name with
            | some v => .ok v
            | none => if w.bi name then .ok (.builtin name) else .ok (envGetattr i name)
      else .ok (envGetattr i name)

theorem getItem_view (σ : Shell) (k : Nat) (n : Str) (h : n ≠ c!"exports") : σ.getItem k n = (σ.view k).read n := by
  unfold Shell.getItem View.read Shell.view
  cases Dict.get? (σ.vars k) n with
  | some v => rfl
  | none =>
    simp only
    cases hc : σ.current k with
    | none => rfl
    | some i => simp only [h, Shell.exportsOf, hc, Option.getD_some, if_false]; rfl

theorem parentVars_congr {σ τ : Shell} {k : Nat} (hp : (σ.scopes[k]?).bind ScopeRec.parent ≠ some k)
    (h1 : (τ.scopes[k]?).bind ScopeRec.parent = (σ.scopes[k]?).bind ScopeRec.parent) (h2 : ∀ m, m ≠ k → τ.vars m = σ.vars m) :
    τ.parentVars k = σ.parentVars k := by
  simp only [Shell.parentVars, h1]
  cases h : (σ.scopes[k]?).bind ScopeRec.parent with
  | none => rfl
  | some p =>
    simp only [Option.map_some, Option.some.injEq]
    exact h2 p (fun e => hp (by rw [h, e]))

theorem current_of {σ τ : Shell} {k : Nat} (h : Dict.get? (τ.vars k) c!"env" = Dict.get? (σ.vars k) c!"env") :
    τ.current k = σ.current k := by simp only [Shell.current, h]

theorem view_setLocal {σ : Shell} {k : Nat} (hp : σ.Proper k) (n : Str) (v : V) (hn : n ≠ c!"env") :
    (σ.setLocal k n v).view k = { σ.view k with loc := Dict.set (σ.vars k) n v } ∧ (σ.setLocal k n v).Proper k := by
  obtain ⟨s, hs⟩ := current_lt hp.env
  have hv := vars_setLocal hs n v
  obtain ⟨hd, he, hb⟩ := setLocal_dicts σ k n v
  have hpar := parentVars_congr hp.parent (setLocal_parent σ k n v k) (fun m hm => by rw [hv m, if_neg hm])
  have hvk : (σ.setLocal k n v).vars k = Dict.set (σ.vars k) n v := by rw [hv k, if_pos rfl]
  have hc : (σ.setLocal k n v).current k = σ.current k := current_of (by rw [hvk, Dict.get?_set, if_neg hn])
  refine ⟨?_, ⟨by rw [hc]; exact hp.env, by rw [hd]; exact hp.environ, ⟨?_, by rw [hd]; exact hp.uniq.2⟩, ?_⟩⟩
  · simp only [Shell.view, hvk, hc, hb, hpar, View.mk.injEq, and_true, true_and]
    simp only [Shell.exportsOf, hc, exportsRef_congr he hd, Shell.dict, hd]
  · rw [hvk]; exact Dict.uniq_set _ hp.uniq.1 _ _
  · rw [setLocal_parent]; exact hp.parent

theorem exportsOf_lt {σ : Shell} {k : Nat} (h : σ.dicts ≠ []) : σ.exportsOf k < σ.dicts.length := by
  have h0 : 0 < σ.dicts.length := by cases hd : σ.dicts with | nil => exact absurd hd h | cons a l => simp
  simp only [Shell.exportsOf, Shell.exportsRef]
  split
  · exact h0
  · rename_i hne
    generalize σ.rawRef ((σ.current k).getD 0) = r at hne ⊢
    cases hr : σ.dicts[r]? with
    | none => exact absurd (by simp [Shell.dict, hr]) hne
    | some d => exact (List.getElem?_eq_some_iff.1 hr).1

theorem dict_uniq {σ : Shell} (h : ∀ d ∈ σ.dicts, Dict.Uniq d) (r : Nat) : Dict.Uniq (σ.dict r) := by
  simp only [Shell.dict]
  cases hr : σ.dicts[r]? with
  | none => exact Dict.uniq_nil
  | some d => exact h d (List.mem_of_getElem? hr)

/-- Changing the dict of exported variables. -/
theorem view_setExports {σ : Shell} {k : Nat} (hp : σ.Proper k) (d : Dict Str V) (hd : Dict.Uniq d) (hne : d ≠ [] ∨ σ.exportsOf k = 0) :
    ({ σ with dicts := σ.dicts.set (σ.exportsOf k) d } : Shell).view k = { σ.view k with exp := d } ∧
    ({ σ with dicts := σ.dicts.set (σ.exportsOf k) d } : Shell).Proper k := by
  have hlt := exportsOf_lt (k := k) hp.environ
  have hds := fun s => dict_set σ (σ.exportsOf k) s d hlt
  have href : ({ σ with dicts := σ.dicts.set (σ.exportsOf k) d } : Shell).exportsOf k = σ.exportsOf k := by
    show Shell.exportsRef _ ((σ.current k).getD 0) = _
    obtain ⟨r, hr⟩ : ∃ r, σ.rawRef ((σ.current k).getD 0) = r := ⟨_, rfl⟩
    have hr' : ({ σ with dicts := σ.dicts.set (σ.exportsOf k) d } : Shell).rawRef ((σ.current k).getD 0) = r := hr
    have hx : σ.exportsOf k = if (σ.dict r).isEmpty then 0 else r := by rw [← hr]; rfl
    have hgoal : (if (if r = σ.exportsOf k then d else σ.dict r).isEmpty then 0 else r) = σ.exportsOf k → 
        Shell.exportsRef { σ with dicts := σ.dicts.set (σ.exportsOf k) d } ((σ.current k).getD 0) = σ.exportsOf k := by
      intro h; rw [← hds r] at h; unfold Shell.exportsRef; rw [hr']; exact h
    apply hgoal
    rw [hx] at hne ⊢
    by_cases h : (σ.dict r).isEmpty = true
    · simp only [h, if_true] at hne ⊢
      by_cases h0 : r = 0
      · subst h0; simp
      · simp [if_neg h0, h]
    · simp only [if_neg h, if_true] at hne ⊢
      rcases hne with hne | hne
      · simp [hne]
      · subst hne; simp
  refine ⟨?_, ⟨hp.env, ?_, ⟨hp.uniq.1, ?_⟩, hp.parent⟩⟩
  · unfold Shell.view
    rw [href, hds, if_pos rfl]
    rfl
  · intro h
    have := congrArg List.length h
    simp only [List.length_set, List.length_nil] at this
    omega
  · intro e he
    rcases List.mem_or_eq_of_mem_set he with he | he
    · exact hp.uniq.2 e he
    · subst he; exact hd

theorem set_ne_nil (d : Dict Str V) (n : Str) (v : V) : Dict.set d n v ≠ [] := by
  cases d with
  | nil => simp [Dict.set]
  | cons p d => obtain ⟨a, b⟩ := p; simp only [Dict.set]; split <;> simp

theorem view_setDict {σ : Shell} {k : Nat} (hp : σ.Proper k) (n : Str) (v : V) (hok : (σ.setDict (σ.exportsOf k) n v).2 = .ok ()) :
    (σ.setDict (σ.exportsOf k) n v).1.view k = { σ.view k with exp := Dict.set (σ.view k).exp n v } ∧
    (σ.setDict (σ.exportsOf k) n v).1.Proper k := by
  unfold Shell.setDict at hok ⊢
  split at hok
  · rename_i hst
    simp only [hst, if_true]
    exact view_setExports hp _ (Dict.uniq_set _ (dict_uniq hp.uniq.2 _) _ _) (Or.inl (set_ne_nil _ _ _))
  · cases hok

theorem view_delDict {σ : Shell} {k : Nat} (hp : σ.Proper k) (n : Str) (hok : (σ.delDict (σ.exportsOf k) n).2 = .ok ())
    (hne : Dict.erase (σ.dict (σ.exportsOf k)) n ≠ [] ∨ σ.exportsOf k = 0) :
    (σ.delDict (σ.exportsOf k) n).1.view k = { σ.view k with exp := Dict.erase (σ.view k).exp n } ∧
    (σ.delDict (σ.exportsOf k) n).1.Proper k ∧ Dict.mem (σ.view k).exp n = true := by
  unfold Shell.delDict at hok ⊢
  split at hok
  · rename_i hst
    simp only [hst, if_true]
    obtain ⟨h1, h2⟩ := view_setExports hp _ (Dict.uniq_erase _ (dict_uniq hp.uniq.2 _) n) hne
    exact ⟨h1, h2, hst⟩
  · cases hok

theorem view_delLocal {σ : Shell} {k : Nat} (hp : σ.Proper k) (n : Str) (hn : n ≠ c!"env") (hok : (σ.delLocal k n).2 = .ok ()) :
    (σ.delLocal k n).1.view k = { σ.view k with loc := Dict.erase (σ.vars k) n } ∧ (σ.delLocal k n).1.Proper k ∧
    Dict.mem (σ.vars k) n = true := by
  obtain ⟨s, hs⟩ := current_lt hp.env
  have hk : k < σ.scopes.length := (List.getElem?_eq_some_iff.1 hs).1
  have hvs : σ.vars k = s.vars := by simp [Shell.vars, hs]
  unfold Shell.delLocal at hok ⊢
  split at hok
  · rename_i hm
    simp only [hm, if_true, hs]
    generalize hτ : ({ σ with scopes := σ.scopes.set k { s with vars := Dict.erase s.vars n } } : Shell) = τ
    have hv : ∀ m, τ.vars m = if m = k then Dict.erase (σ.vars k) n else σ.vars m := by
      intro m
      subst hτ
      simp only [Shell.vars, List.getElem?_set]
      by_cases h : m = k
      · subst h; rw [if_pos rfl, if_pos hk, if_pos rfl, hs]; rfl
      · rw [if_neg (Ne.symm h), if_neg h]
    have hpr : (τ.scopes[k]?).bind ScopeRec.parent = (σ.scopes[k]?).bind ScopeRec.parent := by
      subst hτ; show ((σ.scopes.set k _)[k]?).bind _ = _; rw [List.getElem?_set, if_pos rfl, if_pos hk, hs]; rfl
    have hvk : τ.vars k = Dict.erase (σ.vars k) n := by rw [hv k, if_pos rfl]
    have hc : τ.current k = σ.current k := current_of (by rw [hvk, Dict.get?_erase _ hp.uniq.1, if_neg hn])
    have hpar := parentVars_congr hp.parent hpr (fun m hm => by rw [hv m, if_neg hm])
    have hd : τ.dicts = σ.dicts := by subst hτ; rfl
    have he : τ.envs = σ.envs := by subst hτ; rfl
    have hb : τ.isBuiltin = σ.isBuiltin := by subst hτ; rfl
    refine ⟨?_, ⟨by rw [hc]; exact hp.env, by rw [hd]; exact hp.environ, ⟨?_, by rw [hd]; exact hp.uniq.2⟩, by rw [hpr]; exact hp.parent⟩, trivial⟩
    · simp only [Shell.view, hvk, hc, hb, hpar, View.mk.injEq, and_true, true_and]
      simp only [Shell.exportsOf, hc, exportsRef_congr he hd, Shell.dict, hd]
    · rw [hvk]; exact Dict.uniq_erase _ hp.uniq.1 _
  · cases hok

theorem store_eq {σ : Shell} {k i : Nat} (hc : σ.current k = some i) (n : Str) (v : V) :
    σ.store k n v = if Dict.mem (σ.dict (σ.exportsOf k)) n then σ.setDict (σ.exportsOf k) n v else (σ.setLocal k n v, .ok ()) := by
  simp only [Shell.store, hc, Shell.exportsOf, Option.getD_some]

theorem mem_iff (d : Dict Str V) (n : Str) : Dict.mem d n = true ↔ ∃ v, Dict.get? d n = some v := by
  simp only [Dict.mem]
  cases Dict.get? d n <;> simp

theorem storedName_of {n : Str} (h : n ≠ c!"_") : storedName n = n := if_neg h

/-- Assignment, seen through the view. -/
theorem view_assign {σ : Shell} {k : Nat} (hp : σ.Proper k) (n : Str) (v : V) (h1 : n ≠ c!"env") (h2 : n ≠ c!"_")
    (hok : (σ.setItem k n v).2 = .ok ()) :
    (σ.setItem k n v).1.Proper k ∧
    ((Dict.mem (σ.view k).exp n = true ∧ (σ.setItem k n v).1.view k = { σ.view k with exp := Dict.set (σ.view k).exp n v }) ∨
     (Dict.mem (σ.view k).exp n = false ∧ (σ.setItem k n v).1.view k = { σ.view k with loc := Dict.set (σ.view k).loc n v })) := by
  obtain ⟨i, hi⟩ := Option.ne_none_iff_exists'.1 hp.env
  simp only [Shell.setItem, storedName_of h2, if_neg h1, store_eq hi] at hok ⊢
  by_cases hm : Dict.mem (σ.dict (σ.exportsOf k)) n = true
  · simp only [hm, if_true] at hok ⊢
    obtain ⟨a, b⟩ := view_setDict hp n v hok
    exact ⟨b, Or.inl ⟨hm, a⟩⟩
  · have hm' : Dict.mem (σ.dict (σ.exportsOf k)) n = false := by simpa using hm
    simp only [hm', if_neg Bool.false_ne_true] at hok ⊢
    obtain ⟨a, b⟩ := view_setLocal hp n v h1
    exact ⟨b, Or.inr ⟨hm', a⟩⟩

/-- the values of variable `n` visible in a view -/
def View.Unamb (w : View) : Prop := ∀ n, ¬ (Dict.mem w.loc n = true ∧ Dict.mem w.exp n = true)

theorem unamb_iff (σ : Shell) (k : Nat) : σ.Unambiguous k ↔ (σ.view k).Unamb := by
  simp only [Shell.Unambiguous, View.Unamb, Shell.IsLocal, Shell.IsExported, mem_iff, Shell.view]

theorem mem_set (d : Dict Str V) (n m : Str) (v : V) : Dict.mem (Dict.set d n v) m = (decide (n = m) || Dict.mem d m) := by
  simp only [Dict.mem, Dict.get?_set]
  by_cases h : n = m <;> simp [h]

theorem mem_erase (d : Dict Str V) (hd : Dict.Uniq d) (n m : Str) : Dict.mem (Dict.erase d n) m = (decide (n ≠ m) && Dict.mem d m) := by
  simp only [Dict.mem, Dict.get?_erase _ hd]
  by_cases h : n = m <;> simp [h]

end Pieshell.Shell
