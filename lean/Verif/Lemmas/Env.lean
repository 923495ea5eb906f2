import Verif.Lemmas.Expand
import Verif.Spec.Env
import Verif.Lemmas.Dict
/-! Helper lemmas about environments. -/
namespace Pieshell.Envs
open Pieshell.Path Pieshell.Expand

theorem expandPath_normal {cwd procCwd : Str} {homes : Homes} (h : isAbs procCwd = true) (p : Str) : NormalPath (expandPath cwd procCwd homes p) :=
  abspath_normal h

/-- the world is unchanged or the directory of one environment (and possibly the process's) changed -/
theorem cd_cases (w : World) (i : Nat) (p : Str) :
    ((w.cd i p).1 = w ∧ ∃ x, (w.cd i p).2 = .error x) ∨
    ∃ e, w.envs[i]? = some e ∧ w.disk.exists (expandPath e.cwd w.procCwd w.homes p) = true ∧
      ((e.interactive = false ∧ w.cd i p = ({ w with envs := w.envs.set i { e with cwd := expandPath e.cwd w.procCwd w.homes p } }, .ok ())) ∨
       (e.interactive = true ∧ ∃ n, w.disk.chdirErr (expandPath e.cwd w.procCwd w.homes p) = some n ∧
          w.cd i p = ({ w with envs := w.envs.set i { e with cwd := expandPath e.cwd w.procCwd w.homes p } }, .error (.osError n))) ∨
       (e.interactive = true ∧ w.disk.chdirErr (expandPath e.cwd w.procCwd w.homes p) = none ∧
          w.cd i p = ({ w with envs := w.envs.set i { e with cwd := expandPath e.cwd w.procCwd w.homes p },
                               procCwd := w.disk.real (expandPath e.cwd w.procCwd w.homes p) }, .ok ()))) := by
  unfold World.cd
  cases he : w.envs[i]? with
  | none => left; exact ⟨rfl, _, rfl⟩
  | some e =>
    simp only
    cases hx : w.disk.exists (expandPath e.cwd w.procCwd w.homes p) with
    | false => left; exact ⟨rfl, _, rfl⟩
    | true =>
      right
      refine ⟨e, rfl, by first | exact hx | rfl, ?_⟩
      cases hi : e.interactive with
      | false => left; exact ⟨rfl, rfl⟩
      | true =>
        right
        simp only [Bool.not_true, Bool.false_eq_true, ↓reduceIte]
        cases hc : w.disk.chdirErr (expandPath e.cwd w.procCwd w.homes p) with
        | none => right; exact ⟨trivial, rfl, rfl⟩
        | some n => left; exact ⟨trivial, n, rfl, rfl⟩

/-- the fields that directory changes do not touch -/
theorem cd_same (w : World) (i : Nat) (p : Str) :
    (w.cd i p).1.environ = w.environ ∧ (w.cd i p).1.dicts = w.dicts ∧ (w.cd i p).1.disk = w.disk ∧ (w.cd i p).1.envs.length = w.envs.length := by
  rcases cd_cases w i p with ⟨h, _⟩ | ⟨e, _, _, ⟨_, h⟩ | ⟨_, _, _, h⟩ | ⟨_, _, h⟩⟩ <;> rw [h] <;> simp

theorem cd_envs {P : EnvObj → Prop} {w : World} {i : Nat} {p : Str} (h : ∀ e ∈ w.envs, P e)
    (hc : ∀ e ∈ w.envs, P { e with cwd := expandPath e.cwd w.procCwd w.homes p }) : ∀ e ∈ (w.cd i p).1.envs, P e := by
  rcases cd_cases w i p with ⟨h', _⟩ | ⟨e, he, _, hh⟩
  · rw [h']; exact h
  · have : ∀ x ∈ w.envs.set i { e with cwd := expandPath e.cwd w.procCwd w.homes p }, P x := by
      intro x hx
      rcases List.mem_or_eq_of_mem_set hx with hx | rfl
      · exact h x hx
      · exact hc e (List.mem_of_getElem? he)
    rcases hh with ⟨_, h'⟩ | ⟨_, _, _, h'⟩ | ⟨_, _, h'⟩ <;> rw [h'] <;> exact this

theorem cd_procCwd {P : Str → Prop} {w : World} {i : Nat} {p : Str} (h : P w.procCwd) (hr : ∀ q, P (w.disk.real q)) : P (w.cd i p).1.procCwd := by
  rcases cd_cases w i p with ⟨h', _⟩ | ⟨e, _, _, ⟨_, h'⟩ | ⟨_, _, _, h'⟩ | ⟨_, _, h'⟩⟩ <;> rw [h']
  · exact h
  · exact h
  · exact h
  · exact hr _

/-! ### predicates on directories that hold throughout -/

/-- resolving `path` keeps the predicate -/
def Closed (P : Str → Prop) (path : Str) : Prop :=
  ∀ cwd procCwd homes, P cwd → P procCwd → P (expandPath cwd procCwd homes path)

structure Inv (P : Str → Prop) (w : World) : Prop where
  proc : P w.procCwd
  real : ∀ q, P (w.disk.real q)
  envs : ∀ e ∈ w.envs, P e.cwd

theorem inv_cd {P : Str → Prop} {w : World} (h : Inv P w) {i : Nat} {p : Str} (hc : Closed P p) : Inv P (w.cd i p).1 := by
  refine ⟨cd_procCwd h.proc h.real, ?_, ?_⟩
  · rw [(cd_same w i p).2.2.1]; exact h.real
  · exact cd_envs (P := fun e => P e.cwd) h.envs (fun e he => hc _ _ _ (h.envs e he) h.proc)

theorem inv_dropLast {P : Str → Prop} {n : Nat} {r : World × Except Exn Unit} (h : Inv P r.1) : Inv P (dropLast n r).1 := by
  unfold dropLast
  split
  · exact ⟨h.proc, h.real, fun e he => h.envs e (List.mem_of_mem_take he)⟩
  · exact h

theorem inv_construct {P : Str → Prop} {w : World} (h : Inv P w) (cwd : Option Str) (hc : ∀ c ∈ cwd.toList, Closed P c) (ex : Option Nat) (b : Bool) :
    Inv P (w.construct cwd ex b).1 := by
  unfold World.construct
  have h1 : Inv P { w with envs := w.envs ++ [{ cwd := w.procCwd, exports := ex, interactive := b, dirCache := none }] } := by
    refine ⟨h.proc, h.real, ?_⟩
    intro e he
    rcases List.mem_append.1 he with he | he
    · exact h.envs e he
    · simp at he; subst he; exact h.proc
  cases cwd with
  | none => exact h1
  | some c => exact inv_dropLast (inv_cd h1 (hc c (by simp)))

theorem inv_step {P : Str → Prop} (hself : ∀ c, P c → Closed P c) {w : World} (h : Inv P w) (op : Op)
    (hp : ∀ p ∈ op.paths, Closed P p) (hd : op.diskOk P) : Inv P (step w op) := by
  cases op with
  | new c b => exact inv_construct h c hp none b
  | call i c ex b =>
    simp only [step, World.call]
    cases he : w.envs[i]? with
    | none => exact h
    | some e =>
      have hr1 : Inv P (World.construct { w with dicts := w.dicts ++ [ex.getD (w.exportsOf e)] } (some e.cwd) (some w.dicts.length) (b.getD e.interactive)).1 := by
        refine inv_construct (w := { w with dicts := w.dicts ++ [ex.getD (w.exportsOf e)] }) ⟨h.proc, h.real, h.envs⟩ _ ?_ _ _
        intro c hc
        simp at hc
        subst hc
        exact hself _ (h.envs e (List.mem_of_getElem? he))
      show Inv P (thenCd c (World.construct { w with dicts := w.dicts ++ [ex.getD (w.exportsOf e)] } (some e.cwd) (some w.dicts.length) (b.getD e.interactive))).1
      generalize World.construct { w with dicts := w.dicts ++ [ex.getD (w.exportsOf e)] } (some e.cwd) (some w.dicts.length) (b.getD e.interactive) = r at hr1
      unfold thenCd
      cases h2 : r.2 with
      | error x => exact hr1
      | ok n =>
        cases c with
        | none => exact hr1
        | some c => exact inv_dropLast (inv_cd hr1 (hp c (by simp [Op.paths])))
  | cd i p => exact inv_cd h (hp p (by simp [Op.paths]))
  | cdBuiltin i ws => exact inv_cd h (hp _ (by simp [Op.paths]))
  | setVar i k v =>
    simp only [step, World.setVar]
    split
    · exact h
    · split
      · exact ⟨h.proc, h.real, h.envs⟩
      · split <;> exact ⟨h.proc, h.real, h.envs⟩
  | delVar i k =>
    simp only [step, World.delVar]
    split
    · exact h
    · split
      · exact ⟨h.proc, h.real, h.envs⟩
      · split <;> exact ⟨h.proc, h.real, h.envs⟩
  | dir i =>
    simp only [step, World.dir]
    have hset : ∀ e, w.envs[i]? = some e → ∀ l, Inv P { w with envs := w.envs.set i { e with dirCache := some l } } := by
      intro e he l
      refine ⟨h.proc, h.real, fun x hx => ?_⟩
      rcases List.mem_or_eq_of_mem_set hx with hx | rfl
      · exact h.envs x hx
      · exact h.envs e (List.mem_of_getElem? he)
    cases he : w.envs[i]? with
    | none => exact h
    | some e =>
      simp only
      split
      · exact h
      · split
        · exact hset e he _
        · split <;> exact hset e he _
  | clear i =>
    simp only [step, World.clearDirCache]
    cases he : w.envs[i]? with
    | none => exact h
    | some e =>
      refine ⟨h.proc, h.real, fun x hx => ?_⟩
      rcases List.mem_or_eq_of_mem_set hx with hx | rfl
      · exact h.envs x hx
      · exact h.envs e (List.mem_of_getElem? he)
  | clearBuiltin i => exact h
  | disk d => exact ⟨h.proc, hd, h.envs⟩

theorem inv_run {P : Str → Prop} (hself : ∀ c, P c → Closed P c) {w : World} (h : Inv P w) (ops : List Op)
    (hp : ∀ op ∈ ops, ∀ p ∈ op.paths, Closed P p) (hd : ∀ op ∈ ops, op.diskOk P) : Inv P (run w ops) := by
  induction ops generalizing w with
  | nil => exact h
  | cons op ops ih =>
    exact ih (inv_step hself h op (hp op (by simp)) (hd op (by simp))) (fun o ho => hp o (by simp [ho])) (fun o ho => hd o (by simp [ho]))

/-! ### the two kinds of normal paths -/

theorem closed_normal (p : Str) : Closed NormalPath p := fun _ _ _ _ h => expandPath_normal h.isAbs p

theorem strict_normal {p : Str} (h : StrictPath p) : NormalPath p := by
  obtain ⟨cs, h1, h2⟩ := h
  exact ⟨1, cs, .inl rfl, h1, h2⟩

theorem initialSlashes_one {p : Str} (ha : isAbs p = true) (h : ¬ TwoSlashes p) : initialSlashes p = 1 := by
  unfold initialSlashes
  split
  · rfl
  · next t hno =>
    exfalso
    apply h
    refine ⟨t, rfl, ?_⟩
    intro e
    cases t with
    | nil => cases e
    | cons c t =>
      simp at e
      subst e
      exact hno t rfl
  · rfl
  · next _ _ hno =>
    cases p with
    | nil => cases ha
    | cons c p =>
      simp [isAbs] at ha
      subst ha
      exact absurd rfl (hno p)

theorem normpath_strict {p : Str} (ha : isAbs p = true) (h : ¬ TwoSlashes p) : StrictPath (normpath p) := by
  have h1 := initialSlashes_one ha h
  have := normpath_abs ha
  rw [h1] at this
  exact ⟨_, normComps_normal _ (by omega) _ _ (splitSlash_noslash p) (by simp), this⟩

theorem strict_notTwo {p : Str} (h : StrictPath p) : ¬ TwoSlashes p := by
  obtain ⟨cs, hc, rfl⟩ := h
  rintro ⟨t, e, _⟩
  have := joinSlash_head (fun c x => (hc c x).1)
  have e' : joinSlash cs = '/' :: t := by
    simpa [pathOf, List.replicate] using e
  rw [e'] at this
  simp [isAbs] at this

theorem closed_strict {p : Str} (ht : p.head? ≠ some '~') (h2 : ¬ TwoSlashes p) : Closed StrictPath p := by
  intro cwd procCwd homes hc _
  have hcn := strict_normal hc
  unfold expandPath
  have hth : (p.head? == some '~') = false := by simpa using ht
  by_cases ha : isAbs p = true
  · have : (p.head? == some '/') = true := ha
    simp only [this, Bool.not_true, Bool.false_and, Bool.false_eq_true, ↓reduceIte]
    rw [expanduser_plain ht]
    unfold abspath
    rw [if_pos ha]
    exact normpath_strict ha h2
  · have ha : isAbs p = false := by simpa using ha
    have h1 : (p.head? == some '/') = false := ha
    simp only [h1, hth, Bool.not_false, Bool.and_true, ↓reduceIte]
    have hj := join_isAbs (b := p) hcn.isAbs
    rw [expanduser_plain (by intro e; unfold isAbs at hj; rw [e] at hj; simp at hj)]
    unfold abspath
    rw [if_pos hj]
    obtain ⟨cs, hcs, rfl⟩ := hc
    rw [normpath_join (.inl rfl) hcs ha]
    exact ⟨_, normComps_normal _ (by omega) _ _ (splitSlash_noslash p) (by simpa using hcs), rfl⟩

/-! ### independence -/

/-- the exports references of the environments -/
def World.exps (w : World) : List (Option Nat) := w.envs.map (·.exports)

theorem exps_set {l : List EnvObj} {i : Nat} {e f : EnvObj} (h : l[i]? = some e) (hf : f.exports = e.exports) :
    (l.set i f).map (·.exports) = l.map (·.exports) := by
  apply List.ext_getElem?
  intro j
  rw [List.getElem?_map, List.getElem?_map, List.getElem?_set]
  split
  · next hij =>
    subst hij
    split
    · rw [h]; simp [hf]
    · next hl => rw [List.getElem?_eq_none (by omega)]
  · rfl

theorem cd_frame (w : World) (i : Nat) (p : Str) : (w.cd i p).1.exps = w.exps ∧ ∀ j, j ≠ i → (w.cd i p).1.envs[j]? = w.envs[j]? := by
  rcases cd_cases w i p with ⟨h, _⟩ | ⟨e, he, _, hh⟩
  · rw [h]; exact ⟨rfl, fun _ _ => rfl⟩
  · have key : ∀ c : Str, (w.envs.set i { e with cwd := c }).map (·.exports) = w.envs.map (·.exports) ∧ ∀ j, j ≠ i → (w.envs.set i { e with cwd := c })[j]? = w.envs[j]? :=
      fun c => ⟨exps_set he rfl, fun j hj => List.getElem?_set_ne (fun e => hj e.symm)⟩
    rcases hh with ⟨_, h⟩ | ⟨_, _, _, h⟩ | ⟨_, _, h⟩ <;> rw [h] <;> exact key _

theorem dropLast_fst_ok {n : Nat} {r : World × Except Exn Unit} {m : Nat} (h : (dropLast n r).2 = .ok m) : (dropLast n r).1 = r.1 ∧ m = n := by
  unfold dropLast at h ⊢
  split at h
  · cases h
  · injection h with h
    exact ⟨rfl, h.symm⟩

theorem dropLast_frame (n : Nat) (r : World × Except Exn Unit) :
    (dropLast n r).1.dicts = r.1.dicts ∧ (dropLast n r).1.environ = r.1.environ ∧ (∀ j, j < n → (dropLast n r).1.envs[j]? = r.1.envs[j]?) ∧
    ((dropLast n r).1.exps = r.1.exps ∨ (dropLast n r).1.exps = r.1.exps.take n) := by
  unfold dropLast
  split
  · refine ⟨rfl, rfl, fun j hj => ?_, .inr ?_⟩
    · show (r.1.envs.take n)[j]? = _
      rw [List.getElem?_take, if_pos hj]
    · show List.map _ (List.take n r.1.envs) = _
      rw [List.map_take]
      rfl
  · exact ⟨rfl, rfl, fun _ _ => rfl, .inl rfl⟩

theorem construct_frame (w : World) (c : Option Str) (ex : Option Nat) (b : Bool) :
    (w.construct c ex b).1.dicts = w.dicts ∧ (w.construct c ex b).1.environ = w.environ ∧
    (∀ j, j < w.envs.length → (w.construct c ex b).1.envs[j]? = w.envs[j]?) ∧
    ((w.construct c ex b).1.exps = w.exps ∨ (w.construct c ex b).1.exps = w.exps ++ [ex]) ∧
    (∀ n, (w.construct c ex b).2 = .ok n → n = w.envs.length ∧ (w.construct c ex b).1.exps = w.exps ++ [ex]) := by
  have hlen : w.exps.length = w.envs.length := List.length_map ..
  have h1 : ∀ j, j < w.envs.length → (w.envs ++ [{ cwd := w.procCwd, exports := ex, interactive := b, dirCache := none }])[j]? = w.envs[j]? :=
    fun j hj => List.getElem?_append_left hj
  have h2 : (w.envs ++ [({ cwd := w.procCwd, exports := ex, interactive := b, dirCache := none } : EnvObj)]).map (·.exports) = w.exps ++ [ex] := by
    rw [List.map_append]; rfl
  unfold World.construct
  cases c with
  | none =>
    refine ⟨rfl, rfl, h1, .inr h2, ?_⟩
    intro n hn
    injection hn with hn
    exact ⟨hn.symm, h2⟩
  | some c =>
    simp only
    generalize hw : ({ w with envs := w.envs ++ [{ cwd := w.procCwd, exports := ex, interactive := b, dirCache := none }] } : World) = w1
    have g1 : w1.dicts = w.dicts := by rw [← hw]
    have g2 : w1.environ = w.environ := by rw [← hw]
    have g3 : ∀ j, j < w.envs.length → w1.envs[j]? = w.envs[j]? := by rw [← hw]; exact h1
    have g4 : w1.exps = w.exps ++ [ex] := by rw [← hw]; exact h2
    obtain ⟨f1, f2⟩ := cd_frame w1 w.envs.length c
    obtain ⟨c1, c2, _, _⟩ := cd_same w1 w.envs.length c
    obtain ⟨d1, d2, d3, d4⟩ := dropLast_frame w.envs.length (w1.cd w.envs.length c)
    refine ⟨by rw [d1, c2, g1], by rw [d2, c1, g2], ?_, ?_, ?_⟩
    · intro j hj
      rw [d3 j hj, f2 j (by omega), g3 j hj]
    · rcases d4 with d4 | d4
      · right; rw [d4, f1, g4]
      · left; rw [d4, f1, g4, ← hlen]; simp
    · intro n hn
      obtain ⟨e1, e2⟩ := dropLast_fst_ok hn
      exact ⟨e2, by rw [e1, f1, g4]⟩

theorem call_frame (w : World) (i : Nat) (c : Option Str) (ex : Option (Dict Str Str)) (b : Option Bool) :
    (w.call i c ex b).1.environ = w.environ ∧
    (∀ j, j < w.envs.length → (w.call i c ex b).1.envs[j]? = w.envs[j]?) ∧
    ((w.call i c ex b).1.dicts = w.dicts ∧ (w.call i c ex b).1.exps = w.exps ∨
      ∃ e, w.envs[i]? = some e ∧ (w.call i c ex b).1.dicts = w.dicts ++ [ex.getD (w.exportsOf e)] ∧
        ((w.call i c ex b).1.exps = w.exps ∨ (w.call i c ex b).1.exps = w.exps ++ [some w.dicts.length])) ∧
    (∀ n, (w.call i c ex b).2 = .ok n → n = w.envs.length ∧ ∃ e, w.envs[i]? = some e ∧ (w.call i c ex b).1.dicts = w.dicts ++ [ex.getD (w.exportsOf e)] ∧
        (w.call i c ex b).1.exps = w.exps ++ [some w.dicts.length]) := by
  have hlen : w.exps.length = w.envs.length := List.length_map ..
  unfold World.call
  cases he : w.envs[i]? with
  | none => exact ⟨rfl, fun _ _ => rfl, .inl ⟨rfl, rfl⟩, fun n hn => by cases hn⟩
  | some e =>
    simp only
    generalize hd : (ex.getD (w.exportsOf e)) = d
    generalize hb : (b.getD e.interactive) = b'
    obtain ⟨f1, f2, f3, f4, f5⟩ := construct_frame { w with dicts := w.dicts ++ [d] } (some e.cwd) (some w.dicts.length) b'
    generalize hr : World.construct { w with dicts := w.dicts ++ [d] } (some e.cwd) (some w.dicts.length) b' = r at f1 f2 f3 f4 f5 ⊢
    unfold thenCd
    have f4' : r.1.exps = w.exps ∨ r.1.exps = w.exps ++ [some w.dicts.length] := f4
    cases h2 : r.2 with
    | error x =>
      simp only
      exact ⟨f2, f3, .inr ⟨e, rfl, by rw [f1, ← hd], f4'⟩, fun n hn => by cases hn⟩
    | ok n =>
      obtain ⟨hn, f6⟩ := f5 n h2
      have hn : n = w.envs.length := hn
      have f6 : r.1.exps = w.exps ++ [some w.dicts.length] := f6
      cases c with
      | none =>
        refine ⟨f2, f3, .inr ⟨e, rfl, by rw [f1, ← hd], f4'⟩, ?_⟩
        intro m hm
        injection hm with hm
        exact ⟨by rw [← hm, hn], e, rfl, by rw [f1, ← hd], f6⟩
      | some c =>
        simp only
        obtain ⟨g1, g2⟩ := cd_frame r.1 n c
        obtain ⟨c1, c2, _, _⟩ := cd_same r.1 n c
        obtain ⟨d1, d2, d3, d4⟩ := dropLast_frame n (r.1.cd n c)
        refine ⟨by rw [d2, c1, f2], ?_, .inr ⟨e, rfl, by rw [d1, c2, f1, ← hd], ?_⟩, ?_⟩
        · intro j hj
          rw [d3 j (by omega), g2 j (by omega), f3 j hj]
        · rcases d4 with d4 | d4
          · right; rw [d4, g1, f6]
          · left; rw [d4, g1, f6, hn, ← hlen]; simp
        · intro m hm
          obtain ⟨e1, e2⟩ := dropLast_fst_ok hm
          exact ⟨by rw [e2, hn], e, rfl, by rw [e1, c2, f1, ← hd], by rw [e1, g1, f6]⟩

theorem apart_of {w w' : World} (h : Apart w) (he : w'.environ = w.environ) (hd : w'.dicts = w.dicts) (hx : w'.exps = w.exps) : Apart w' := by
  refine ⟨by rw [he]; exact h.environ, ?_, ?_⟩
  · intro e hm r hr
    have : some r ∈ w.exps := by
      rw [← hx]
      exact List.mem_map.2 ⟨e, hm, hr⟩
    obtain ⟨e', h1, h2⟩ := List.mem_map.1 this
    rw [hd]
    exact h.nonempty e' h1 r h2
  · have := h.distinct
    show w'.exps.Nodup
    rw [hx]
    exact this

theorem exportsOf_eq {w : World} {e : EnvObj} {r : Nat} {d : Dict Str Str} (h1 : e.exports = some r) (h2 : w.dicts[r]? = some d) (h3 : d ≠ []) : w.exportsOf e = d := by
  unfold World.exportsOf
  rw [h1]
  simp only [h2]

theorem exportsOf_none {w : World} {e : EnvObj} (h1 : e.exports = none) : w.exportsOf e = w.environ := by
  unfold World.exportsOf
  rw [h1]

theorem exportsOf_ne_nil {w : World} (h : Apart w) {e : EnvObj} (he : e ∈ w.envs) : w.exportsOf e ≠ [] := by
  cases hx : e.exports with
  | none => rw [exportsOf_none hx]; exact h.environ
  | some r =>
    obtain ⟨d, h1, h2⟩ := h.nonempty e he r hx
    rw [exportsOf_eq hx h1 h2]
    exact h2

theorem exportsOf_congr {w w' : World} {e e' : EnvObj} (he : w'.environ = w.environ) (hd : w'.dicts = w.dicts) (hx : e'.exports = e.exports) : w'.exportsOf e' = w.exportsOf e := by
  unfold World.exportsOf
  rw [hx, he, hd]

theorem exps_of_mem {w : World} {i : Nat} {e : EnvObj} (h : w.envs[i]? = some e) : w.exps[i]? = some e.exports := by
  unfold World.exps
  rw [List.getElem?_map, h]
  rfl

theorem exps_inj {w : World} (h : Apart w) {i j : Nat} {e f : EnvObj} (hi : w.envs[i]? = some e) (hj : w.envs[j]? = some f) (hij : i ≠ j) : e.exports ≠ f.exports := by
  intro he
  have h1 := exps_of_mem hi
  have h2 := exps_of_mem hj
  rw [← he, ← h1] at h2
  have hlt : i < w.exps.length := by
    rcases Nat.lt_or_ge i w.exps.length with hl | hl
    · exact hl
    · rw [List.getElem?_eq_none hl] at h1; cases h1
  exact hij ((List.getElem?_inj hlt h.distinct).1 h2.symm)

theorem set_ne_nil (d : Dict Str Str) (k v : Str) : Dict.set d k v ≠ [] := by
  cases d with
  | nil => simp [Dict.set]
  | cons p d =>
    simp only [Dict.set]
    split <;> simp

theorem closed_strict_self (c : Str) (h : StrictPath c) : Closed StrictPath c := by
  refine closed_strict ?_ (strict_notTwo h)
  obtain ⟨cs, _, rfl⟩ := h
  simp [pathOf, List.replicate]

end Pieshell.Envs
