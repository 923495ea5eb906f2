import Verif.Model.PyCall
import Verif.Lemmas.Dict
/-!
# C115: functions made with `pyshfunction` can be called like the original
-/
namespace Pieshell.PyCall
variable {α : Type}

theorem addKws_pysh (f : Func α) : ∀ (kws vars extra : Dict Str α), addKws (pyshfunction f) kws vars extra = addKws f kws vars extra
  | [], _, _ => rfl
  | (k, v) :: kws, vars, extra => by
    simp only [addKws, addKws_pysh f kws]
    rfl

theorem fillPos_pysh (f : Func α) (n : Nat) : ∀ (ps : List Str) (i : Nat) (vars : Dict Str α), fillPos (pyshfunction f) n i ps vars = fillPos f n i ps vars
  | [], _, _ => rfl
  | p :: ps, i, vars => by
    simp only [fillPos, fillPos_pysh f n ps]
    rfl

/-- Parameters have different names (python refuses the definition otherwise). -/
def Func.WF (f : Func α) : Prop := (f.pos ++ f.kwonly).Nodup

theorem mem_set (d : Dict Str α) (k k' : Str) (v : α) : (d.set k v).mem k' = (decide (k' = k) || d.mem k') := by
  simp only [Dict.mem, Dict.get?_set]
  by_cases h : k' = k
  · simp [h]
  · rw [if_neg (fun hh => h hh.symm)]
    simp [h]

theorem addKws_error (f : Func α) : ∀ (kws vars extra : Dict Str α) (e : Exn), addKws f kws vars extra = .error e → e = .typeError
  | [], _, _, e, h => by simp [addKws] at h
  | (k, v) :: kws, vars, extra, e, h => by
    simp only [addKws] at h
    split at h
    · split at h
      · cases h; rfl
      · exact addKws_error f kws _ _ e h
    · split at h
      · exact addKws_error f kws _ _ e h
      · cases h; rfl

theorem fillPos_error (f : Func α) (n : Nat) : ∀ (ps : List Str) (i : Nat) (vars : Dict Str α) (e : Exn), fillPos f n i ps vars = .error e → e = .typeError
  | [], _, _, e, h => by simp [fillPos] at h
  | p :: ps, i, vars, e, h => by
    simp only [fillPos] at h
    split at h
    · exact fillPos_error f n ps _ _ e h
    · split at h
      · cases h; rfl
      · split at h
        · exact fillPos_error f n ps _ _ e h
        · cases h; rfl

theorem fillKw_error (f : Func α) : ∀ (ps : List Str) (vars : Dict Str α) (e : Exn), fillKw f ps vars = .error e → e = .typeError
  | [], _, e, h => by simp [fillKw] at h
  | p :: ps, vars, e, h => by
    simp only [fillKw] at h
    split at h
    · exact fillKw_error f ps _ e h
    · split at h
      · exact fillKw_error f ps _ e h
      · cases h; rfl

/-- A call that is refused is refused with a `TypeError`. -/
theorem bind_error (f : Func α) (c : Call α) (e : Exn) (h : bind f c = .error e) : e = .typeError := by
  simp only [bind] at h
  split at h
  · rename_i e' he
    cases h
    exact addKws_error f _ _ _ _ he
  · split at h
    · cases h; rfl
    · split at h
      · rename_i e' he
        cases h
        exact fillPos_error f _ _ _ _ _ he
      · split at h
        · rename_i e' he
          cases h
          exact fillKw_error f _ _ _ he
        · cases h

/-- Which parameters that can only be given by name are bound by the keyword arguments. -/
theorem addKws_mem (f : Func α) (p : Str) (hp : p ∈ f.kwonly) : ∀ (kws vars extra vars' extra' : Dict Str α),
    addKws f kws vars extra = .ok (vars', extra') → (vars'.mem p = true ↔ vars.mem p = true ∨ p ∈ kws.keys)
  | [], vars, extra, vars', extra', h => by
    simp only [addKws, Except.ok.injEq, Prod.mk.injEq] at h
    simp [h.1, Dict.keys]
  | (k, v) :: kws, vars, extra, vars', extra', h => by
    simp only [addKws] at h
    split at h
    · split at h
      · cases h
      · rw [addKws_mem f p hp kws _ _ _ _ h, mem_set]
        simp only [Bool.or_eq_true, decide_eq_true_eq, Dict.keys, List.map_cons, List.mem_cons]
        constructor
        · rintro ((h | h) | h)
          · exact .inr (.inl h)
          · exact .inl h
          · exact .inr (.inr h)
        · rintro (h | h | h)
          · exact .inl (.inr h)
          · exact .inl (.inl h)
          · exact .inr h
    · rename_i hk
      split at h
      · rw [addKws_mem f p hp kws _ _ _ _ h]
        simp only [Dict.keys, List.map_cons, List.mem_cons]
        constructor
        · rintro (h | h)
          · exact .inl h
          · exact .inr (.inr h)
        · rintro (h | h | h)
          · exact .inl h
          · subst h; exact absurd (.inr hp) hk
          · exact .inr h
      · cases h

/-- Filling in positional parameters binds no other. -/
theorem fillPos_mem (f : Func α) (n : Nat) (p : Str) : ∀ (ps : List Str) (i : Nat) (vars vars' : Dict Str α), p ∉ ps →
    fillPos f n i ps vars = .ok vars' → vars'.mem p = vars.mem p
  | [], _, vars, vars', _, h => by
    simp only [fillPos, Except.ok.injEq] at h
    rw [h]
  | q :: ps, i, vars, vars', hp, h => by
    have hq : p ≠ q := fun hh => hp (hh ▸ List.mem_cons_self ..)
    have hps : p ∉ ps := fun hh => hp (List.mem_cons_of_mem _ hh)
    simp only [fillPos] at h
    split at h
    · exact fillPos_mem f n p ps _ _ _ hps h
    · split at h
      · cases h
      · split at h
        · rw [fillPos_mem f n p ps _ _ _ hps h, mem_set]
          simp [hq]
        · cases h

/-- Filling in leaves what is bound as it is, and gives parameter `j` of those that are left its own default value: the last default value belongs to the last parameter. -/
theorem fillPos_get (f : Func α) (n : Nat) : ∀ (ps : List Str) (i : Nat) (vars vars' : Dict Str α), ps.Nodup → fillPos f n i ps vars = .ok vars' →
    (∀ p, vars.mem p = true → vars'.get? p = vars.get? p) ∧
    ∀ j p, ps[j]? = some p → vars.mem p = false → ∃ v, f.defaults[i + j + f.defaults.length - n]? = some v ∧ n ≤ i + j + f.defaults.length ∧ vars'.get? p = some v
  | [], _, vars, vars', _, h => by
    simp only [fillPos, Except.ok.injEq] at h
    subst h
    exact ⟨fun _ _ => rfl, fun j p h => by simp at h⟩
  | q :: ps, i, vars, vars', hn, h => by
    have hn' := List.nodup_cons.1 hn
    simp only [fillPos] at h
    split at h
    · next hq =>
      obtain ⟨h1, h2⟩ := fillPos_get f n ps _ _ _ hn'.2 h
      refine ⟨h1, fun j p hj hp => ?_⟩
      cases j with
      | zero => simp only [List.getElem?_cons_zero, Option.some.injEq] at hj; subst hj; rw [hq] at hp; cases hp
      | succ j =>
        rw [List.getElem?_cons_succ] at hj
        have := h2 j p hj hp
        rwa [show i + 1 + j = i + (j + 1) by omega] at this
    · next hq =>
      split at h
      · cases h
      · next hlt =>
        split at h
        · next v hv =>
          obtain ⟨h1, h2⟩ := fillPos_get f n ps _ _ _ hn'.2 h
          have hqm : (vars.set q v).mem q = true := by rw [mem_set]; simp
          refine ⟨fun p hp => ?_, fun j p hj hp => ?_⟩
          · have hpq : p ≠ q := fun e => by subst e; exact hq hp
            rw [h1 p (by rw [mem_set, hp]; simp), Dict.get?_set, if_neg (Ne.symm hpq)]
          · cases j with
            | zero =>
              simp only [List.getElem?_cons_zero, Option.some.injEq] at hj
              subst hj
              exact ⟨v, hv, by omega, by rw [h1 _ hqm, Dict.get?_set, if_pos rfl]⟩
            | succ j =>
              rw [List.getElem?_cons_succ] at hj
              have hpq : p ≠ q := fun e => by subst e; exact hn'.1 (List.mem_of_getElem? hj)
              have := h2 j p hj (by rw [mem_set, hp]; simp [hpq])
              rwa [show i + 1 + j = i + (j + 1) by omega] at this
        · cases h

/-- e.g. `def f(a, b = 1, c = 2)`, called as `f(0)` -/
example : (bind (⟨[c!"a", c!"b", c!"c"], 0, false, [], false, [1, 2], []⟩ : Func Nat) ⟨[0], []⟩) = .ok ⟨[(c!"a", 0), (c!"b", 1), (c!"c", 2)], [], []⟩ := by rfl

theorem fillKw_all (f : Func α) : ∀ (ps : List Str) (vars : Dict Str α), (∀ p ∈ ps, vars.mem p = true) → fillKw f ps vars = .ok vars
  | [], _, _ => rfl
  | p :: ps, vars, h => by
    simp only [fillKw, h p (List.mem_cons_self ..), if_true]
    exact fillKw_all f ps vars (fun q hq => h q (List.mem_cons_of_mem _ hq))

theorem fillKw_pysh_missing (f : Func α) : ∀ (ps : List Str) (vars : Dict Str α) (p : Str), p ∈ ps → vars.mem p = false →
    fillKw (pyshfunction f) ps vars = .error .typeError
  | q :: ps, vars, p, hp, hm => by
    simp only [fillKw]
    split
    · rename_i hq
      rcases List.mem_cons.1 hp with rfl | hp
      · rw [hm] at hq; cases hq
      · exact fillKw_pysh_missing f ps vars p hp hm
    · rfl

theorem zip_keys (p : Str) : ∀ (ps : List Str) (as : List α), p ∉ ps → Dict.mem (ps.zip as : Dict Str α) p = false
  | [], _, _ => rfl
  | _ :: _, [], _ => rfl
  | q :: ps, a :: as, h => by
    have hq : ¬ q = p := fun hh => h (hh ▸ List.mem_cons_self ..)
    have := zip_keys p ps as (fun hh => h (List.mem_cons_of_mem _ hh))
    simp only [Dict.mem] at this ⊢
    simp only [List.zip_cons_cons, Dict.get?, hq, if_false]
    exact this

/-- C115, exactly: the new function takes the calls of the old one that give all parameters that can only be given by name, with the same values of all parameters; it
refuses every other call. -/
theorem C115_exact (f : Func α) (hf : f.WF) (c : Call α) :
    ((∀ p ∈ f.kwonly, p ∈ c.kws.keys) → bind (pyshfunction f) c = bind f c) ∧
    (¬ (∀ p ∈ f.kwonly, p ∈ c.kws.keys) → bind (pyshfunction f) c = .error .typeError) := by
  have hdisj : ∀ p ∈ f.kwonly, p ∉ f.pos := fun p hp hp' => (List.nodup_append.1 hf).2.2 p hp' p hp rfl
  have hb : bind (pyshfunction f) c = (match addKws f c.kws (f.pos.zip c.args) [] with
      | .error e => .error e
      | .ok (vars, extra) =>
        if f.pos.length < c.args.length && !f.star then .error .typeError
        else match fillPos f f.pos.length 0 f.pos vars with
          | .error e => .error e
          | .ok vars => match fillKw (pyshfunction f) f.kwonly vars with
            | .error e => .error e
            | .ok vars => .ok ⟨vars, c.args.drop f.pos.length, extra⟩) := by
    simp only [bind, addKws_pysh, fillPos_pysh]
    rfl
  cases h1 : addKws f c.kws (f.pos.zip c.args) [] with
  | error e =>
    have he := addKws_error f _ _ _ _ h1
    subst he
    rw [hb]
    simp [bind, h1]
  | ok r =>
    obtain ⟨vars, extra⟩ := r
    by_cases h2 : (f.pos.length < c.args.length && !f.star) = true
    · rw [hb]
      simp only [bind, h1, if_pos h2]
      simp
    · cases h3 : fillPos f f.pos.length 0 f.pos vars with
      | error e =>
        have he := fillPos_error f _ _ _ _ _ h3
        subst he
        rw [hb]
        simp only [bind, h1, if_neg h2, h3]
        simp
      | ok vars' =>
        have hm : ∀ p ∈ f.kwonly, (vars'.mem p = true ↔ p ∈ c.kws.keys) := by
          intro p hp
          rw [fillPos_mem f _ p _ _ _ _ (hdisj p hp) h3, addKws_mem f p hp _ _ _ _ _ h1, zip_keys p _ _ (hdisj p hp)]
          simp
        rw [hb]
        simp only [bind, h1, if_neg h2, h3]
        constructor
        · intro h
          have hall : ∀ p ∈ f.kwonly, vars'.mem p = true := fun p hp => (hm p hp).2 (h p hp)
          rw [fillKw_all (pyshfunction f) _ _ hall, fillKw_all f _ _ hall]
        · intro h
          obtain ⟨p, hp⟩ := Classical.not_forall.1 h
          obtain ⟨hp, hk⟩ := Classical.not_imp.1 hp
          have : vars'.mem p = false := by
            cases hv : vars'.mem p with
            | false => rfl
            | true => exact absurd ((hm p hp).1 hv) hk
          rw [fillKw_pysh_missing f _ _ p hp this]

/-- C115, the part that holds: functions whose keyword-only parameters have no default values take the same calls, with the same values. -/
theorem C115_same_partial (f : Func α) (hk : f.kwdefaults = []) (c : Call α) : bind (pyshfunction f) c = bind f c := by
  obtain ⟨pos, po, st, ko, kw, ds, kd⟩ := f
  simp only at hk
  subst hk
  rfl

/-- `def f(a, b=2, *rest, c, d=4, **kw): ...` -/
def fEx : Func Nat := ⟨[c!"a", c!"b"], 0, true, [c!"c", c!"d"], true, [2], [(c!"d", 4)]⟩

example : fEx.WF := by unfold Func.WF fEx; decide
example : bind fEx ⟨[1], [(c!"c", 3)]⟩ = .ok ⟨[(c!"a", 1), (c!"c", 3), (c!"b", 2), (c!"d", 4)], [], []⟩ := by rfl
example : bind fEx ⟨[1, 5, 6, 7], [(c!"d", 8), (c!"c", 3), (c!"e", 9)]⟩ = .ok ⟨[(c!"a", 1), (c!"b", 5), (c!"d", 8), (c!"c", 3)], [6, 7], [(c!"e", 9)]⟩ := by rfl
example : bind fEx ⟨[1], [(c!"a", 3)]⟩ = .error .typeError := by rfl
example : bind fEx ⟨[1], []⟩ = .error .typeError := by rfl
/-- an instance of the first half of `C115_exact` … -/
example : bind (pyshfunction fEx) ⟨[1, 5, 6, 7], [(c!"d", 8), (c!"c", 3)]⟩ = .ok ⟨[(c!"a", 1), (c!"b", 5), (c!"d", 8), (c!"c", 3)], [6, 7], []⟩ := by rfl
/-- … and of the second. -/
example : bind (pyshfunction fEx) ⟨[1], [(c!"c", 3)]⟩ = .error .typeError := by rfl

/-- C115 fails: a call that leaves out a keyword-only parameter with a default value is refused by the new function (`types.FunctionType` has no argument for
`__kwdefaults__`, and `pyshfunction` does not set them). -/
theorem C115_refuted : ∃ (f : Func Nat) (c : Call Nat) (l : Locals Nat), f.WF ∧ bind f c = .ok l ∧ bind (pyshfunction f) c = .error .typeError :=
  ⟨fEx, ⟨[1], [(c!"c", 3)]⟩, _, by unfold Func.WF fEx; decide, rfl, rfl⟩

end Pieshell.PyCall
