import Verif.Lemmas.Scope
/-!
# C33, C34, C64-C66: the shell's variables
-/
namespace Pieshell.Shell
open Shell

/-- A shell with scope 0 and environments 0 and 1; environment 0 uses `os.environ` (`HOME`), environment 1 a dict of its
own (`LANG`). -/
def demo : Shell :=
  { dicts := [[(c!"HOME", .str c!"/home/a")], [(c!"LANG", .str c!"C")]],
    envs := [⟨0, some 0⟩, ⟨1, none⟩],
    scopes := [⟨[(c!"env", .env 0), (c!"x", .obj 1)], none⟩],
    isBuiltin := fun n => n == c!"len" }

theorem demo_proper : demo.Proper 0 :=
  ⟨(by intro h; cases h), (by intro h; cases h), ⟨(by simp [demo, Shell.vars, Dict.Uniq, Dict.keys]), (by
    intro d hd; simp only [demo, List.mem_cons, List.not_mem_nil, or_false] at hd
    rcases hd with rfl | rfl <;> simp [Dict.Uniq, Dict.keys])⟩, (by intro h; cases h)⟩

theorem demo_unambiguous : demo.Unambiguous 0 := by
  rintro n ⟨⟨v, hv⟩, w, hw⟩
  have h1 : Dict.get? [(c!"env", V.env 0), (c!"x", .obj 1)] n = some v := hv
  have h2 : Dict.get? [(c!"HOME", V.str c!"/home/a")] n = some w := hw
  simp only [Dict.get?] at h1 h2
  split at h2
  · rename_i h; subst h; simp at h1
  · cases h2

/-- **C33**, one assignment. After `name = v` succeeded, reading `name` gives `v`. Missing: names that are both a local
and an exported variable (see `C33_refuted`) and the special names `_` and `exports`. -/
theorem C33_read_after_assign_partial (σ : Shell) (k : Nat) (n : Str) (v : V) (hp : σ.Proper k) (hok : (σ.setItem k n v).2 = .ok ())
    (h1 : n ≠ c!"_") (h2 : n ≠ c!"exports") (hu : ¬ (σ.IsLocal k n ∧ σ.IsExported k n)) (he : n ≠ c!"env") :
    (σ.setItem k n v).1.getItem k n = .ok v := by
  obtain ⟨_, h⟩ := view_assign hp n v he h1 hok
  obtain ⟨i, hi⟩ := Option.ne_none_iff_exists'.1 hp.env
  rw [getItem_view _ _ _ h2]
  rcases h with ⟨hm, h⟩ | ⟨hm, h⟩ <;> rw [h]
  · have hl : Dict.get? (σ.view k).loc n = none := by
      cases hg : Dict.get? (σ.view k).loc n with
      | none => rfl
      | some u => exact absurd ⟨⟨u, hg⟩, (mem_iff _ _).1 hm⟩ hu
    have hc : (σ.view k).cur = some i := hi
    simp only [View.read, hl, hc, ne_eq, h1, not_false_eq_true, if_true, h2, if_false, Dict.get?_set]
  · simp only [View.read, Dict.get?_set, if_true]

example : (demo.setItem 0 c!"x" (.obj 7)).1.getItem 0 c!"x" = .ok (.obj 7) :=
  C33_read_after_assign_partial demo 0 c!"x" (.obj 7) demo_proper rfl (by decide) (by decide) (demo_unambiguous _) (by decide)
example : (demo.setItem 0 c!"HOME" (.str c!"/b")).1.getItem 0 c!"HOME" = .ok (.str c!"/b") :=
  C33_read_after_assign_partial demo 0 c!"HOME" (.str c!"/b") demo_proper rfl (by decide) (by decide) (demo_unambiguous _) (by decide)

/-- **C33**, frame and exports. Assigning to one name does not change any other, does not change which names are
exported, and the value reaches programs exactly if the name was exported. -/
theorem C33_assign_frame (σ : Shell) (k : Nat) (n : Str) (v : V) (hp : σ.Proper k) (hok : (σ.setItem k n v).2 = .ok ())
    (h1 : n ≠ c!"_") (he : n ≠ c!"env") :
    (∀ m, m ≠ n → m ≠ c!"exports" → (σ.setItem k n v).1.getItem k m = σ.getItem k m) ∧
    (∀ m, (σ.setItem k n v).1.IsExported k m ↔ σ.IsExported k m) ∧
    (σ.IsExported k n → Dict.get? ((σ.setItem k n v).1.dict ((σ.setItem k n v).1.exportsOf k)) n = some v) ∧
    (¬ σ.IsExported k n → (σ.setItem k n v).1.dict ((σ.setItem k n v).1.exportsOf k) = σ.dict (σ.exportsOf k)) := by
  obtain ⟨_, h⟩ := view_assign hp n v he h1 hok
  have hexp : ∀ τ : Shell, τ.dict (τ.exportsOf k) = (τ.view k).exp := fun _ => rfl
  simp only [Shell.IsExported, ← mem_iff, hexp]
  refine ⟨fun m hm hx => ?_, ?_⟩
  · rw [getItem_view _ _ _ hx, getItem_view _ _ _ hx]
    rcases h with ⟨_, h⟩ | ⟨_, h⟩ <;> rw [h] <;> simp only [View.read, Dict.get?_set, if_neg (Ne.symm hm)]
  · rcases h with ⟨hm, h⟩ | ⟨hm, h⟩ <;> rw [h]
    · refine ⟨fun m => ?_, fun _ => by simp [Dict.get?_set], fun hn => absurd hm hn⟩
      rw [mem_set]
      by_cases hnm : n = m
      · subst hnm; simp [hm]
      · simp [hnm]
    · exact ⟨fun m => Iff.rfl, fun hn => by simp [hm] at hn, fun _ => rfl⟩

example : (demo.setItem 0 c!"HOME" (.str c!"/b")).1.getItem 0 c!"x" = demo.getItem 0 c!"x" :=
  (C33_assign_frame demo 0 c!"HOME" (.str c!"/b") demo_proper rfl (by decide) (by decide)).1 _ (by decide) (by decide)

/-- one step of the history -/
theorem ordinary_step {σ : Shell} {k : Nat} {op : Op} (hp : σ.Proper k) (hu : σ.Unambiguous k) (ho : op.Ordinary k σ) :
    (exec k σ op).1.Proper k ∧ (exec k σ op).1.Unambiguous k ∧ (exec k σ op).1.current k = σ.current k ∧
    (∀ i n, (exec k σ op).1.beneath k i n = σ.beneath k i n) ∧
    ∀ n, n ≠ c!"_" → n ≠ c!"exports" →
      (∀ v, op.writes n = some (some v) → (exec k σ op).1.getItem k n = .ok v) ∧
      (op.writes n = some none → ∀ i, σ.current k = some i → (exec k σ op).1.getItem k n = .ok (σ.beneath k i n)) ∧
      (op.writes n = none → (exec k σ op).1.getItem k n = σ.getItem k n) := by
  obtain ⟨i, hi⟩ := Option.ne_none_iff_exists'.1 hp.env
  have hcur : (σ.view k).cur = some i := hi
  have hu' := (unamb_iff σ k).1 hu
  have hb : ∀ τ : Shell, (τ.view k).par = (σ.view k).par → (τ.view k).bi = (σ.view k).bi → ∀ i n, τ.beneath k i n = σ.beneath k i n := by
    intro τ h1 h2 i n
    simp only [Shell.view] at h1 h2
    simp only [Shell.beneath, h1, h2]
  have hbe : ∀ n, n ≠ c!"_" → n ≠ c!"exports" → ∀ w : View, w.par = (σ.view k).par → w.bi = (σ.view k).bi → w.cur = some i →
      Dict.get? w.loc n = none → Dict.get? w.exp n = none → w.read n = .ok (σ.beneath k i n) := by
    intro n h1 h2 w hp1 hp2 hc hl he
    simp only [View.read, hl, hc, ne_eq, h1, not_false_eq_true, if_true, h2, if_false, he, Shell.beneath]
    have e1 : w.par = (σ.parentVars k).getD [] := hp1
    have e2 : w.bi = σ.isBuiltin := hp2
    rw [e1, e2]
    cases Dict.get? ((σ.parentVars k).getD []) n with
    | some v => rfl
    | none => simp only [firstOf]; by_cases hbi : σ.isBuiltin n = true <;> simp [hbi, firstOf]
  obtain ⟨hok, ho⟩ := ho
  cases op with
  | assign m v =>
    obtain ⟨ho1, ho2, ho3⟩ := ho
    have hok' : (σ.setItem k m v).2 = .ok () := hok
    obtain ⟨hpr, h⟩ := view_assign hp m v ho2 ho1 hok'
    show (σ.setItem k m v).1.Proper k ∧ _
    refine ⟨hpr, (unamb_iff _ k).2 ?_, ?_, hb _ ?_ ?_, ?_⟩
    · rcases h with ⟨hm, h⟩ | ⟨hm, h⟩ <;> rw [show (exec k σ (.assign m v)).1 = (σ.setItem k m v).1 from rfl, h] <;>
        intro n ⟨ha, hb⟩ <;> simp only [mem_set, Bool.or_eq_true, decide_eq_true_eq] at ha hb
      · rcases hb with rfl | hb
        · exact hu' _ ⟨ha, hm⟩
        · exact hu' _ ⟨ha, hb⟩
      · rcases ha with rfl | ha
        · rw [hm] at hb; cases hb
        · exact hu' _ ⟨ha, hb⟩
    · show ((σ.setItem k m v).1.view k).cur = _
      rcases h with ⟨_, h⟩ | ⟨_, h⟩ <;> rw [h] <;> rfl
    · show ((σ.setItem k m v).1.view k).par = _
      rcases h with ⟨_, h⟩ | ⟨_, h⟩ <;> rw [h]
    · show ((σ.setItem k m v).1.view k).bi = _
      rcases h with ⟨_, h⟩ | ⟨_, h⟩ <;> rw [h]
    · intro n h1 h2
      refine ⟨fun u hw => ?_, fun hw => ?_, fun hw => ?_⟩
      · simp only [Op.writes] at hw
        split at hw
        · rename_i hmn; subst hmn
          cases hw
          exact C33_read_after_assign_partial σ k m v hp hok' ho1 ho3 (hu m) ho2
        · cases hw
      · simp only [Op.writes] at hw
        split at hw <;> cases hw
      · simp only [Op.writes] at hw
        split at hw
        · cases hw
        · rename_i hmn
          exact (C33_assign_frame σ k m v hp hok' ho1 ho2).1 n (Ne.symm hmn) h2
  | delete m =>
    have hok' : (σ.delLocal k m).2 = .ok () := hok
    obtain ⟨h, hpr, hm⟩ := view_delLocal hp m ho hok'
    show (σ.delLocal k m).1.Proper k ∧ (σ.delLocal k m).1.Unambiguous k ∧ (σ.delLocal k m).1.current k = _ ∧
      (∀ i n, (σ.delLocal k m).1.beneath k i n = _) ∧ _
    have hcu : (σ.delLocal k m).1.current k = σ.current k := by
      show ((σ.delLocal k m).1.view k).cur = _; rw [h]; rfl
    refine ⟨hpr, (unamb_iff _ k).2 ?_, hcu, hb _ (by rw [h]) (by rw [h]), fun n h1 h2 => ⟨fun u hw => ?_, fun hw j hj => ?_, fun hw => ?_⟩⟩
    · rw [h]
      rintro n ⟨ha, hb⟩
      simp only [mem_erase _ hp.uniq.1, Bool.and_eq_true] at ha
      exact hu' n ⟨ha.2, hb⟩
    · simp only [Op.writes] at hw; split at hw <;> cases hw
    · simp only [Op.writes] at hw
      split at hw
      · rename_i hmn; subst hmn
        rw [hi] at hj; cases hj
        show (σ.delLocal k m).1.getItem k m = _
        rw [getItem_view _ _ _ h2, h]
        refine hbe m h1 h2 _ rfl rfl hi ?_ ?_
        · simp only [Dict.get?_erase _ hp.uniq.1, if_true]
        · cases hg : Dict.get? (σ.view k).exp m with
          | none => rfl
          | some u => exact absurd ⟨hm, (mem_iff _ _).2 ⟨u, hg⟩⟩ (hu' m)
      · cases hw
    · simp only [Op.writes] at hw
      split at hw
      · cases hw
      · rename_i hmn
        show (σ.delLocal k m).1.getItem k n = _
        rw [getItem_view _ _ _ h2, getItem_view _ _ _ h2, h]
        simp only [View.read, Dict.get?_erase _ hp.uniq.1, if_neg hmn]
        rfl
  | «export» m v =>
    obtain ⟨ho1, ho2, ho3⟩ := ho
    have hok' : (σ.setDict (σ.exportsOf k) m v).2 = .ok () := hok
    obtain ⟨h, hpr⟩ := view_setDict hp m v hok'
    have hml : Dict.get? (σ.view k).loc m = none := by
      cases hg : Dict.get? (σ.view k).loc m with
      | none => rfl
      | some u => exact absurd ⟨u, hg⟩ ho3
    show (σ.setDict (σ.exportsOf k) m v).1.Proper k ∧ (σ.setDict (σ.exportsOf k) m v).1.Unambiguous k ∧
      (σ.setDict (σ.exportsOf k) m v).1.current k = _ ∧ (∀ i n, (σ.setDict (σ.exportsOf k) m v).1.beneath k i n = _) ∧ _
    have hcu : (σ.setDict (σ.exportsOf k) m v).1.current k = σ.current k := by
      show ((σ.setDict (σ.exportsOf k) m v).1.view k).cur = _; rw [h]; rfl
    refine ⟨hpr, (unamb_iff _ k).2 ?_, hcu, hb _ (by rw [h]) (by rw [h]), fun n h1 h2 => ⟨fun u hw => ?_, fun hw j hj => ?_, fun hw => ?_⟩⟩
    · rw [h]
      rintro n ⟨ha, hb⟩
      simp only [mem_set, Bool.or_eq_true, decide_eq_true_eq] at hb
      rcases hb with rfl | hb
      · obtain ⟨u, hu2⟩ := (mem_iff _ _).1 ha
        rw [show Dict.get? (σ.view k).loc m = some u from hu2] at hml; cases hml
      · exact hu' n ⟨ha, hb⟩
    · simp only [Op.writes] at hw
      split at hw
      · rename_i hmn; subst hmn
        cases hw
        show (σ.setDict (σ.exportsOf k) m v).1.getItem k m = _
        rw [getItem_view _ _ _ h2, h]
        simp only [View.read, hml, hcur, ne_eq, h1, not_false_eq_true, if_true, h2, if_false, Dict.get?_set]
      · cases hw
    · simp only [Op.writes] at hw; split at hw <;> cases hw
    · simp only [Op.writes] at hw
      split at hw
      · cases hw
      · rename_i hmn
        show (σ.setDict (σ.exportsOf k) m v).1.getItem k n = _
        rw [getItem_view _ _ _ h2, getItem_view _ _ _ h2, h]
        simp only [View.read, Dict.get?_set, if_neg hmn]
  | unexport m =>
    have hok' : (σ.delDict (σ.exportsOf k) m).2 = .ok () := hok
    obtain ⟨h, hpr, hm⟩ := view_delDict hp m hok' ho
    have huq : Dict.Uniq (σ.view k).exp := dict_uniq hp.uniq.2 _
    show (σ.delDict (σ.exportsOf k) m).1.Proper k ∧ (σ.delDict (σ.exportsOf k) m).1.Unambiguous k ∧
      (σ.delDict (σ.exportsOf k) m).1.current k = _ ∧ (∀ i n, (σ.delDict (σ.exportsOf k) m).1.beneath k i n = _) ∧ _
    have hcu : (σ.delDict (σ.exportsOf k) m).1.current k = σ.current k := by
      show ((σ.delDict (σ.exportsOf k) m).1.view k).cur = _; rw [h]; rfl
    refine ⟨hpr, (unamb_iff _ k).2 ?_, hcu, hb _ (by rw [h]) (by rw [h]), fun n h1 h2 => ⟨fun u hw => ?_, fun hw j hj => ?_, fun hw => ?_⟩⟩
    · rw [h]
      rintro n ⟨ha, hb⟩
      simp only [mem_erase _ huq, Bool.and_eq_true] at hb
      exact hu' n ⟨ha, hb.2⟩
    · simp only [Op.writes] at hw; split at hw <;> cases hw
    · simp only [Op.writes] at hw
      split at hw
      · rename_i hmn; subst hmn
        rw [hi] at hj; cases hj
        show (σ.delDict (σ.exportsOf k) m).1.getItem k m = _
        rw [getItem_view _ _ _ h2, h]
        refine hbe m h1 h2 _ rfl rfl hi ?_ ?_
        · cases hg : Dict.get? (σ.view k).loc m with
          | none => rfl
          | some u => exact absurd ⟨(mem_iff _ _).2 ⟨u, hg⟩, hm⟩ (hu' m)
        · simp only [Dict.get?_erase _ huq, if_true]
      · cases hw
    · simp only [Op.writes] at hw
      split at hw
      · cases hw
      · rename_i hmn
        show (σ.delDict (σ.exportsOf k) m).1.getItem k n = _
        rw [getItem_view _ _ _ h2, getItem_view _ _ _ h2, h]
        simp only [View.read, Dict.get?_erase _ huq, if_neg hmn]

/-- **C33**, histories. After any sequence of ordinary assignments, deletions, exports and unexports, reading a name
gives what was last written to it; a name whose last write was its removal means what it means outside of this scope;
a name not written means what it meant before. Missing: histories in which a local variable gets exported
(`C33_refuted`), the special names `_` and `exports`, and assignments to `env`. -/
theorem C33_history_partial (k : Nat) (σ : Shell) (ops : List Op) (n : Str) (hp : σ.Proper k) (hu : σ.Unambiguous k) (ho : AllOrdinary k σ ops)
    (h1 : n ≠ c!"_") (h2 : n ≠ c!"exports") :
    (∀ v, lastWrite n ops = some (some v) → (run k σ ops).getItem k n = .ok v) ∧
    (lastWrite n ops = some none → ∀ i, σ.current k = some i → (run k σ ops).getItem k n = .ok (σ.beneath k i n)) ∧
    (lastWrite n ops = none → (run k σ ops).getItem k n = σ.getItem k n) := by
  induction ops generalizing σ with
  | nil => exact ⟨(fun v h => by cases h), (fun h => by cases h), fun _ => rfl⟩
  | cons op ops ih =>
    obtain ⟨hop, hrest⟩ := ho
    obtain ⟨hp', hu', hc, hb, hw⟩ := ordinary_step hp hu hop
    obtain ⟨i1, i2, i3⟩ := ih _ hp' hu' hrest
    obtain ⟨w1, w2, w3⟩ := hw n h1 h2
    have hrun : run k σ (op :: ops) = run k (exec k σ op).1 ops := rfl
    rw [hrun]
    simp only [lastWrite]
    cases hl : lastWrite n ops with
    | some w =>
      rw [hl] at i1 i2
      refine ⟨fun v h => i1 v h, fun h i hi => ?_, (fun h => by cases h)⟩
      rw [i2 h i (by rw [hc, hi]), hb]
    | none =>
      rw [i3 hl]
      exact ⟨w1, w2, w3⟩

/-- a history with local and exported assignments and a deletion -/
def demoOps : List Op := [.assign c!"y" (.obj 2), .assign c!"HOME" (.str c!"/b"), .export c!"Z" (.str c!"z"), .delete c!"x", .assign c!"y" (.obj 3)]

example : (run 0 demo demoOps).getItem 0 c!"y" = .ok (.obj 3) ∧ (run 0 demo demoOps).getItem 0 c!"Z" = .ok (.str c!"z") := by
  have ho : AllOrdinary 0 demo demoOps := by
    refine ⟨⟨rfl, by decide⟩, ⟨rfl, by decide⟩, ⟨rfl, by decide, by decide, ?_⟩, ⟨rfl, by decide⟩, ⟨rfl, by decide⟩, trivial⟩
    rintro ⟨v, hv⟩
    cases hv
  exact ⟨(C33_history_partial 0 demo demoOps c!"y" demo_proper demo_unambiguous ho (by decide) (by decide)).1 _ rfl,
    (C33_history_partial 0 demo demoOps c!"Z" demo_proper demo_unambiguous ho (by decide) (by decide)).1 _ rfl⟩

/-- C33 is false: once a local variable has been exported, assignments go to the exported one, and reading gives the
old local value. -/
theorem C33_refuted : ∃ (σ : Shell) (ops : List Op), σ.Proper 0 ∧ σ.Unambiguous 0 ∧
    ops = [.export c!"x" (.str c!"a"), .assign c!"x" (.str c!"b")] ∧
    (∀ op ∈ ops, (exec 0 σ op).2 = .ok ()) ∧ (run 0 σ ops).getItem 0 c!"x" = .ok (.obj 1) ∧
    Dict.get? ((run 0 σ ops).dict 0) c!"x" = some (.str c!"b") :=
  ⟨demo, _, demo_proper, demo_unambiguous, rfl, by
    intro op hop; simp only [List.mem_cons, List.not_mem_nil, or_false] at hop; rcases hop with rfl | rfl <;> rfl, rfl, rfl⟩

/-- C33: what is assigned to `_` is read as `last_statement`; reading `_` gives an empty command. -/
theorem C33_underscore (σ : Shell) (k i : Nat) (v : V) (hp : σ.Proper k) (hi : σ.current k = some i) (hok : (σ.setItem k c!"_" v).2 = .ok ())
    (hl : Dict.get? (σ.vars k) c!"_" = none) (hu : ¬ (σ.IsLocal k c!"last_statement" ∧ σ.IsExported k c!"last_statement")) :
    (σ.setItem k c!"_" v).1.getItem k c!"last_statement" = .ok v ∧ (σ.setItem k c!"_" v).1.getItem k c!"_" = .ok (.command i none) := by
  have e : σ.setItem k c!"_" v = σ.setItem k c!"last_statement" v := rfl
  rw [e] at hok ⊢
  refine ⟨C33_read_after_assign_partial σ k _ v hp hok (by decide) (by decide) hu (by decide), ?_⟩
  rw [(C33_assign_frame σ k _ v hp hok (by decide) (by decide)).1 c!"_" (by decide) (by decide)]
  simp only [Shell.getItem, hl, hi, ne_eq, not_true_eq_false, if_false]
  rfl

example : (demo.setItem 0 c!"_" (.obj 5)).1.getItem 0 c!"last_statement" = .ok (.obj 5) :=
  (C33_underscore demo 0 0 (.obj 5) demo_proper rfl rfl rfl (demo_unambiguous _)).1

/-- **C34.** A name means the local variable, else the exported variable, else the variable of the enclosing scope, else
the python builtin, else the command of that name. Missing: the names `_` and `exports`, and names of attributes of the
environment object (see `C34_refuted`). -/
theorem C34_resolution_partial (σ : Shell) (k i : Nat) (n : Str) (hi : σ.current k = some i)
    (h1 : n ≠ c!"_") (h2 : n ≠ c!"exports") (h3 : Cmd.isEnvMember n = false) :
    σ.getItem k n = .ok (firstOf [Dict.get? (σ.vars k) n, Dict.get? (σ.dict (σ.exportsRef i)) n, Dict.get? ((σ.parentVars k).getD []) n,
      if σ.isBuiltin n then some (.builtin n) else none] (.command i (some n))) := by
  unfold Shell.getItem
  cases Dict.get? (σ.vars k) n with
  | some v => rfl
  | none =>
    simp only [hi, ne_eq, h1, not_false_eq_true, if_true, h2, if_false, firstOf]
    cases Dict.get? (σ.dict (σ.exportsRef i)) n with
    | some v => rfl
    | none =>
      simp only [firstOf]
      cases Dict.get? ((σ.parentVars k).getD []) n with
      | some v => rfl
      | none =>
        simp only [firstOf]
        by_cases hb : σ.isBuiltin n = true
        · simp only [hb, if_true]
          rfl
        · simp only [if_neg hb, envGetattr, if_neg h1, h3, if_neg Bool.false_ne_true]
          rfl

example : demo.getItem 0 c!"ls" = .ok (.command 0 (some c!"ls")) := C34_resolution_partial demo 0 0 c!"ls" rfl (by decide) (by decide) rfl
example : demo.getItem 0 c!"HOME" = .ok (.str c!"/home/a") := C34_resolution_partial demo 0 0 c!"HOME" rfl (by decide) (by decide) rfl

/-- C34 is false for `exports` (even if there is such an exported variable), for `_`, and for names of attributes of the
environment: they are no commands. -/
theorem C34_refuted : ∃ σ : Shell, σ.Proper 0 ∧ σ.current 0 = some 0 ∧
    Dict.get? (σ.dict (σ.exportsRef 0)) c!"exports" = some (.str c!"v") ∧ σ.getItem 0 c!"exports" = .ok (.exports 0) ∧
    Dict.get? (σ.dict (σ.exportsRef 0)) c!"_" = some (.str c!"/bin/python") ∧ σ.getItem 0 c!"_" = .ok (.command 0 none) ∧
    σ.getItem 0 c!"running_pipelines" = .ok (.attribute 0 c!"running_pipelines") :=
  ⟨{ demo with dicts := [[(c!"exports", .str c!"v"), (c!"_", .str c!"/bin/python")]] },
    ⟨(by intro h; cases h), (by intro h; cases h), ⟨(by simp [demo, Shell.vars, Dict.Uniq, Dict.keys]), (by
      intro d hd; simp only [List.mem_cons, List.not_mem_nil, or_false] at hd; subst hd; simp [Dict.Uniq, Dict.keys])⟩,
      (by intro h; cases h)⟩, rfl, rfl, rfl, rfl, rfl, rfl⟩

/-! ## C64: `temporary_env` -/

theorem adopt_env (σ : Shell) (k y : Nat) : ∃ τ, σ.adopt k (.env y) = some τ ∧ τ.dicts = σ.dicts ∧ τ.scopes = σ.scopes ∧
    (∀ (i : Nat) (e : EnvRec), τ.envs[i]? = some e → (e.scope = some k ∨ ∃ e0, σ.envs[i]? = some e0 ∧ e.scope = e0.scope)) ∧
    (∀ (i : Nat), (σ.envs[i]?).bind EnvRec.scope = some k → (τ.envs[i]?).bind EnvRec.scope = some k) ∧
    ∀ e, σ.envs[y]? = some e → (τ.envs[y]?).bind EnvRec.scope = some k := by
  refine ⟨_, rfl, rfl, rfl, ?_, ?_, ?_⟩
  · intro i e he
    cases hy : σ.envs[y]? with
    | none => simp only [hy] at he; exact Or.inr ⟨e, he, rfl⟩
    | some e0 =>
      simp only [hy, List.getElem?_set] at he
      split at he
      · split at he
        · cases he; exact Or.inl rfl
        · cases he
      · exact Or.inr ⟨e, he, rfl⟩
  · intro i he
    cases hy : σ.envs[y]? with
    | none => exact he
    | some e0 =>
      simp only [List.getElem?_set]
      split
      · rename_i hyi; subst hyi
        have : y < σ.envs.length := (List.getElem?_eq_some_iff.1 hy).1
        rw [if_pos this]; rfl
      · exact he
  · intro e he
    have : y < σ.envs.length := (List.getElem?_eq_some_iff.1 he).1
    simp only [he, List.getElem?_set]
    rw [if_pos trivial, if_pos this]; rfl

theorem dict_noEnv {σ : Shell} (h : ∀ d ∈ σ.dicts, Dict.get? d c!"env" = none) (r : Nat) : Dict.get? (σ.dict r) c!"env" = none := by
  simp only [Shell.dict]
  cases hr : σ.dicts[r]? with
  | none => rfl
  | some d => exact h d (List.mem_of_getElem? hr)

/-- assigning an environment to `env` in a shell with one scope -/
theorem oneScope_setEnv {σ : Shell} {k : Nat} (h : σ.OneScope k) (y : Nat) :
    (σ.setItem k c!"env" (.env y)).2 = .ok () ∧ (σ.setItem k c!"env" (.env y)).1.OneScope k ∧
    (σ.setItem k c!"env" (.env y)).1.current k = some y ∧
    (∀ i : Nat, (σ.envs[i]?).bind EnvRec.scope = some k → ((σ.setItem k c!"env" (.env y)).1.envs[i]?).bind EnvRec.scope = some k) ∧
    ∀ e, σ.envs[y]? = some e → ((σ.setItem k c!"env" (.env y)).1.envs[y]?).bind EnvRec.scope = some k := by
  obtain ⟨τ, ha, hd, hs, h1, h2, h3⟩ := adopt_env σ k y
  have hv : τ.vars k = σ.vars k := by simp only [Shell.vars, hs]
  have hc : τ.current k = σ.current k := current_of (by rw [hv])
  obtain ⟨i, hi⟩ := Option.ne_none_iff_exists'.1 h.current
  have hno : Dict.mem (τ.dict (τ.exportsOf k)) c!"env" = false := by
    simp only [Dict.mem, dict_noEnv (σ := τ) (by rw [hd]; exact h.noEnv)]; rfl
  have e : σ.setItem k c!"env" (.env y) = (τ.setLocal k c!"env" (.env y), .ok ()) := by
    unfold Shell.setItem
    rw [show storedName c!"env" = c!"env" from rfl, if_pos rfl, ha]
    show τ.store k c!"env" (.env y) = _
    rw [store_eq (hc.trans hi), hno]; rfl
  rw [e]
  obtain ⟨s, hsc⟩ := current_lt (σ := τ) (k := k) (by rw [hc]; exact h.current)
  obtain ⟨d1, d2, d3⟩ := setLocal_dicts τ k c!"env" (.env y)
  have hvk : (τ.setLocal k c!"env" (.env y)).vars k = Dict.set (τ.vars k) c!"env" (.env y) := by
    rw [vars_setLocal hsc, if_pos rfl]
  have hcu : (τ.setLocal k c!"env" (.env y)).current k = some y := by
    simp only [Shell.current, hvk, Dict.get?_set, if_true]
  refine ⟨rfl, ⟨?_, ?_, ?_, ?_⟩, hcu, ?_, ?_⟩
  · intro j f hf
    simp only [d2] at hf
    rcases h1 j f hf with hk | ⟨e0, he0, hk⟩
    · exact Or.inr hk
    · rw [hk]; exact h.scopes j e0 he0
  · simp only [d1, hd]; exact h.noEnv
  · rw [hvk, hv]; exact Dict.uniq_set _ h.uniq _ _
  · rw [hcu]; exact Option.some_ne_none _
  · intro j hj; simp only [d2]; exact h2 j hj
  · intro e0 he0; simp only [d2]; exact h3 e0 he0

/-- statements that do not concern `env` -/
theorem oneScope_exec {σ : Shell} {k : Nat} (h : σ.OneScope k) (op : Op) (hl : (Prog.op op).LeavesEnv) :
    (exec k σ op).1.OneScope k ∧ ∀ i : Nat, (σ.envs[i]?).bind EnvRec.scope = some k → ((exec k σ op).1.envs[i]?).bind EnvRec.scope = some k := by
  have hset : ∀ r n v, n ≠ c!"env" → (σ.setDict r n v).1.OneScope k ∧ (σ.setDict r n v).1.envs = σ.envs := by
    intro r n v hn
    unfold Shell.setDict
    split
    · refine ⟨⟨h.scopes, ?_, h.uniq, h.current⟩, rfl⟩
      intro d hd
      rcases List.mem_or_eq_of_mem_set hd with hd | hd
      · exact h.noEnv d hd
      · subst hd; rw [Dict.get?_set, if_neg hn]; exact dict_noEnv h.noEnv r
    · exact ⟨h, rfl⟩
  have hloc : ∀ n v, n ≠ c!"env" → (σ.setLocal k n v).OneScope k := by
    intro n v hn
    obtain ⟨s, hsc⟩ := current_lt h.current
    obtain ⟨d1, d2, d3⟩ := setLocal_dicts σ k n v
    have hvk : (σ.setLocal k n v).vars k = Dict.set (σ.vars k) n v := by rw [vars_setLocal hsc, if_pos rfl]
    refine ⟨by rw [d2]; exact h.scopes, by rw [d1]; exact h.noEnv, by rw [hvk]; exact Dict.uniq_set _ h.uniq _ _, ?_⟩
    rw [current_of (σ := σ) (by rw [hvk, Dict.get?_set, if_neg hn])]; exact h.current
  cases op with
  | assign n v =>
    show (σ.setItem k n v).1.OneScope k ∧ _
    by_cases hn : storedName n = c!"env"
    · have hn' : n = c!"env" := by
        unfold storedName at hn; split at hn
        · simp at hn
        · exact hn
      subst hn'
      cases v with
      | env y => exact ⟨(oneScope_setEnv h y).2.1, (oneScope_setEnv h y).2.2.2.1⟩
      | _ => exact ⟨h, fun _ hi => hi⟩
    · obtain ⟨i, hi⟩ := Option.ne_none_iff_exists'.1 h.current
      have e : σ.setItem k n v = σ.store k (storedName n) v := by unfold Shell.setItem; rw [if_neg hn]
      rw [show (exec k σ (.assign n v)) = σ.setItem k n v from rfl, e, store_eq hi]
      split
      · exact ⟨(hset _ _ v hn).1, fun j hj => by rw [(hset _ _ v hn).2]; exact hj⟩
      · exact ⟨hloc _ v hn, fun j hj => by rw [show (σ.setLocal k (storedName n) v, Except.ok ()).1 = σ.setLocal k (storedName n) v from rfl, (setLocal_dicts σ k _ v).2.1]; exact hj⟩
  | delete n =>
    have hn : n ≠ c!"env" := hl
    show (σ.delLocal k n).1.OneScope k ∧ ∀ i : Nat, _ → ((σ.delLocal k n).1.envs[i]?).bind _ = _
    obtain ⟨s, hsc⟩ := current_lt h.current
    have hk : k < σ.scopes.length := (List.getElem?_eq_some_iff.1 hsc).1
    have hvs : σ.vars k = s.vars := by simp [Shell.vars, hsc]
    unfold Shell.delLocal
    split
    · simp only [hsc]
      have hv : ({ σ with scopes := σ.scopes.set k { s with vars := Dict.erase s.vars n } } : Shell).vars k = Dict.erase (σ.vars k) n := by
        show (((σ.scopes.set k _)[k]?).map ScopeRec.vars).getD [] = _
        rw [List.getElem?_set, if_pos rfl, if_pos hk, hvs]; rfl
      refine ⟨⟨h.scopes, h.noEnv, by rw [hv]; exact Dict.uniq_erase _ h.uniq _, ?_⟩, fun i hi => hi⟩
      rw [current_of (σ := σ) (by rw [hv, Dict.get?_erase _ h.uniq, if_neg hn])]; exact h.current
    · exact ⟨h, fun i hi => hi⟩
  | «export» n v =>
    have hn : n ≠ c!"env" := hl
    exact ⟨(hset _ n v hn).1, fun i hi => by
      rw [show (exec k σ (.export n v)).1 = (σ.setDict (σ.exportsOf k) n v).1 from rfl, (hset _ n v hn).2]; exact hi⟩
  | unexport n =>
    show (σ.delDict (σ.exportsOf k) n).1.OneScope k ∧ ∀ i : Nat, _ → ((σ.delDict (σ.exportsOf k) n).1.envs[i]?).bind _ = _
    unfold Shell.delDict
    split
    · refine ⟨⟨h.scopes, ?_, h.uniq, h.current⟩, fun i hi => hi⟩
      intro d hd
      rcases List.mem_or_eq_of_mem_set hd with hd | hd
      · exact h.noEnv d hd
      · subst hd
        have := dict_noEnv h.noEnv (σ.exportsOf k)
        rw [Dict.get?_eq_none_iff] at this ⊢
        exact fun hm => this (Dict.mem_keys_erase _ _ _ hm)
    · exact ⟨h, fun i hi => hi⟩

theorem oneScope_rebind {σ : Shell} {k : Nat} (h : σ.OneScope k) (x y : Nat) :
    (σ.rebind x (.env y)).1.OneScope k ∧
    (∀ i : Nat, (σ.envs[i]?).bind EnvRec.scope = some k → ((σ.rebind x (.env y)).1.envs[i]?).bind EnvRec.scope = some k) ∧
    ((σ.envs[x]?).bind EnvRec.scope = some k → (σ.rebind x (.env y)).2 = .ok () ∧ (σ.rebind x (.env y)).1.current k = some y) := by
  unfold Shell.rebind
  cases hx : (σ.envs[x]?).bind EnvRec.scope with
  | none => exact ⟨h, fun _ hi => hi, (fun he => by cases he)⟩
  | some k' =>
    have hk : k' = k := by
      cases he : σ.envs[x]? with
      | none => rw [he] at hx; cases hx
      | some e =>
        rw [he] at hx
        rcases h.scopes x e he with h' | h'
        · rw [show e.scope = some k' from hx] at h'; cases h'
        · rw [show e.scope = some k' from hx] at h'; cases h'; rfl
    subst hk
    obtain ⟨a, b, c, d, _⟩ := oneScope_setEnv h y
    exact ⟨b, d, fun _ => ⟨a, c⟩⟩

theorem oneScope_with {k : Nat} {body : Shell → Shell × Except Exn Unit}
    (hb : ∀ σ : Shell, σ.OneScope k → (body σ).1.OneScope k ∧ ∀ i : Nat, (σ.envs[i]?).bind EnvRec.scope = some k → ((body σ).1.envs[i]?).bind EnvRec.scope = some k)
    (x y : Nat) {σ : Shell} (h : σ.OneScope k) :
    (withTemporary body x y σ).1.OneScope k ∧
    (∀ i : Nat, (σ.envs[i]?).bind EnvRec.scope = some k → ((withTemporary body x y σ).1.envs[i]?).bind EnvRec.scope = some k) ∧
    ((σ.envs[x]?).bind EnvRec.scope = some k → (withTemporary body x y σ).1.current k = some x ∧
      (withTemporary body x y σ).2 = (body (σ.rebind x (.env y)).1).2) := by
  obtain ⟨a1, a2, a3⟩ := oneScope_rebind h x y
  obtain ⟨b1, b2⟩ := hb _ a1
  obtain ⟨c1, c2, c3⟩ := oneScope_rebind b1 x x
  unfold withTemporary
  cases he : (σ.rebind x (.env y)).2 with
  | error e =>
    exact ⟨a1, a2, fun hx => by rw [(a3 hx).1] at he; cases he⟩
  | ok u =>
    simp only
    cases hf : ((body (σ.rebind x (.env y)).1).1.rebind x (.env x)).2 with
    | error e =>
      exact ⟨c1, fun i hi => c2 i (b2 i (a2 i hi)), fun hx => by rw [(c3 (b2 x (a2 x hx))).1] at hf; cases hf⟩
    | ok u => exact ⟨c1, fun i hi => c2 i (b2 i (a2 i hi)), fun hx => ⟨(c3 (b2 x (a2 x hx))).2, rfl⟩⟩

theorem oneScope_prog (k : Nat) (p : Prog) (hl : p.LeavesEnv) : ∀ σ : Shell, σ.OneScope k →
    (p.exec k σ).1.OneScope k ∧ ∀ i : Nat, (σ.envs[i]?).bind EnvRec.scope = some k → ((p.exec k σ).1.envs[i]?).bind EnvRec.scope = some k := by
  induction p with
  | op o => exact fun σ h => oneScope_exec h o hl
  | raise => exact fun σ h => ⟨h, fun _ hi => hi⟩
  | seq a b iha ihb =>
    intro σ h
    obtain ⟨a1, a2⟩ := iha hl.1 σ h
    obtain ⟨b1, b2⟩ := ihb hl.2 _ a1
    simp only [Prog.exec]
    split
    · exact ⟨a1, a2⟩
    · exact ⟨b1, fun i hi => b2 i (a2 i hi)⟩
  | temporary x y body ih =>
    intro σ h
    obtain ⟨a, b, _⟩ := oneScope_with (ih hl) x y h
    exact ⟨a, b⟩
  | temporaryHere y body ih =>
    intro σ h
    simp only [Prog.exec]
    split
    · exact ⟨h, fun _ hi => hi⟩
    · rename_i x _
      obtain ⟨a, b, _⟩ := oneScope_with (ih hl) x y h
      exact ⟨a, b⟩

/-- **C64.** In a shell, `with env.temporary_env(y): body` runs the body with `env` being `y`, and afterwards `env` is
what it was before, whatever the body does - it may contain further `with` statements, assign to `env`, or raise an
exception, which is passed on. Missing: a `with` on another environment object than the current one
(`C64_refuted`), bodies that delete or export a variable called `env`. -/
theorem C64_restored_partial (k : Nat) (σ : Shell) (y : Nat) (body : Prog) (x : Nat) (h : σ.OneScope k) (hl : body.LeavesEnv)
    (hx : σ.current k = some x) (hs : (σ.envs[x]?).bind EnvRec.scope = some k) :
    ((Prog.temporaryHere y body).exec k σ).1.current k = some x ∧
    ∃ τ : Shell, τ.current k = some y ∧ ((Prog.temporaryHere y body).exec k σ).2 = (body.exec k τ).2 := by
  obtain ⟨_, _, c⟩ := oneScope_with (oneScope_prog k body hl) x y h
  have e : (Prog.temporaryHere y body).exec k σ = withTemporary (body.exec k) x y σ := by simp only [Prog.exec, hx]
  rw [e]
  exact ⟨(c hs).1, _, ((oneScope_rebind h x y).2.2 hs).2, (c hs).2⟩

theorem demo_oneScope : demo.OneScope 0 where
  scopes := by
    intro i e he
    match i with
    | 0 => cases he; exact Or.inr rfl
    | 1 => cases he; exact Or.inl rfl
    | i + 2 => cases he
  noEnv := by
    intro d hd; simp only [demo, List.mem_cons, List.not_mem_nil, or_false] at hd
    rcases hd with rfl | rfl <;> rfl
  uniq := demo_proper.uniq.1
  current := demo_proper.env

/-- a body that assigns to `env`, nests, and raises -/
def demoBody : Prog := .seq (.op (.assign c!"env" (.env 0))) (.seq (.temporaryHere 1 (.op (.assign c!"q" (.obj 9)))) .raise)

example : ((Prog.temporaryHere 1 demoBody).exec 0 demo).1.current 0 = some 0 ∧ ((Prog.temporaryHere 1 demoBody).exec 0 demo).2 = .error .other :=
  ⟨(C64_restored_partial 0 demo 1 demoBody 0 demo_oneScope ⟨trivial, trivial, trivial⟩ rfl rfl).1, rfl⟩

/-- C64 is false for the `with` statement on another environment than the current one: it leaves that one behind. -/
theorem C64_refuted : ∃ (σ : Shell) (body : Prog), σ.OneScope 0 ∧ body.LeavesEnv ∧ σ.current 0 = some 1 ∧
    ((Prog.temporary 0 1 body).exec 0 σ).2 = .ok () ∧ ((Prog.temporary 0 1 body).exec 0 σ).1.current 0 = some 0 :=
  ⟨(demo.setItem 0 c!"env" (.env 1)).1, .op (.assign c!"q" (.obj 9)), (oneScope_setEnv demo_oneScope 1).2.1, trivial, rfl, rfl, rfl⟩

/-! ## C65: shell variables in arguments -/

/-- **C65.** Once an environment has been assigned to `env` in a shell, `%(name)s` in the arguments of its commands
means what `name` means at the prompt, after every further sequence of statements. Missing: environments made from it
and not assigned to `env` (`C65_refuted`). -/
theorem C65_same_meaning_partial (k : Nat) (σ : Shell) (y : Nat) (e : EnvRec) (p : Prog) (h : σ.OneScope k) (hy : σ.envs[y]? = some e) (hl : p.LeavesEnv)
    (n : Str) : (p.exec k (σ.setItem k c!"env" (.env y)).1).1.template y n = (p.exec k (σ.setItem k c!"env" (.env y)).1).1.getItem k n := by
  obtain ⟨_, h1, _, _, h2⟩ := oneScope_setEnv h y
  obtain ⟨_, h3⟩ := oneScope_prog k p hl _ h1
  unfold Shell.template
  rw [h3 y (h2 e hy)]

example : (Prog.exec 0 (.op (.assign c!"q" (.obj 9))) (demo.setItem 0 c!"env" (.env 1)).1).1.template 1 c!"q" = .ok (.obj 9) :=
  (C65_same_meaning_partial 0 demo 1 ⟨1, none⟩ (.op (.assign c!"q" (.obj 9))) demo_oneScope rfl trivial c!"q").trans rfl

/-- C65 is false for environments derived from the current one: `env["dir"].echo("%(x)s")` does not find the variable
`x` of the shell. -/
theorem C65_refuted : ∃ (σ : Shell) (i : Nat), σ.OneScope 0 ∧ σ.current 0 = some i ∧ σ.template i c!"x" = .ok (.obj 1) ∧
    (σ.copyEnv i).getItem 0 c!"x" = .ok (.obj 1) ∧ (σ.copyEnv i).template σ.envs.length c!"x" = .error .keyError :=
  ⟨demo, 0, demo_oneScope, rfl, rfl, rfl, rfl⟩

/-! ## C66: functions made with `pyshfunction` -/

theorem vars_append (σ : Shell) (s : ScopeRec) : ({ σ with scopes := σ.scopes ++ [s] } : Shell).vars σ.scopes.length = s.vars := by
  simp [Shell.vars]

theorem vars_append_old (σ : Shell) (s : ScopeRec) (m : Nat) (h : m < σ.scopes.length) :
    ({ σ with scopes := σ.scopes ++ [s] } : Shell).vars m = σ.vars m := by
  simp [Shell.vars, List.getElem?_append_left h]

/-- **C66.** In a function made with `env.pyshfunction(fn)`, a global variable of `fn`'s module keeps its meaning, and any
other name is looked up in the environment. Missing: global variables that have the name of an exported variable
(`C66_refuted`), or one of the names `env`, `exports` and `_`. -/
theorem C66_globals_partial (σ : Shell) (i g : Nat) (n : Str) (hg : g < σ.scopes.length)
    (h1 : n ≠ c!"_") (h2 : n ≠ c!"exports") (h3 : n ≠ c!"env") (he : Dict.get? (σ.dict (σ.exportsRef i)) n = none) :
    (∀ v, Dict.get? (σ.vars g) n = some v → (σ.pyshfunction i g).getItem σ.scopes.length n = .ok v) ∧
    (Dict.get? (σ.vars g) n = none → σ.isBuiltin n = false → Cmd.isEnvMember n = false →
      (σ.pyshfunction i g).getItem σ.scopes.length n = .ok (.command i (some n))) := by
  have hv : (σ.pyshfunction i g).vars σ.scopes.length = [(c!"env", .env i)] := vars_append σ _
  have hc : (σ.pyshfunction i g).current σ.scopes.length = some i := by simp only [Shell.current, hv, Dict.get?, if_true]
  have hpv : (σ.pyshfunction i g).parentVars σ.scopes.length = some (σ.vars g) := by
    unfold Shell.parentVars
    have : ((σ.pyshfunction i g).scopes[σ.scopes.length]?).bind ScopeRec.parent = some g := by simp [Shell.pyshfunction]
    rw [this, Option.map_some]
    exact congrArg some (vars_append_old σ _ g hg)
  have hx : Dict.get? ((σ.pyshfunction i g).dict ((σ.pyshfunction i g).exportsRef i)) n = none := he
  have hl : Dict.get? ((σ.pyshfunction i g).vars σ.scopes.length) n = none := by rw [hv]; simp [Dict.get?, Ne.symm h3]
  unfold Shell.getItem
  simp only [hl, hc, ne_eq, h1, not_false_eq_true, if_true, h2, if_false, hx, hpv, Option.getD_some]
  refine ⟨fun v hv => by simp [hv], fun hn hb hm => ?_⟩
  simp only [hn, show (σ.pyshfunction i g).isBuiltin n = false from hb, if_neg Bool.false_ne_true, envGetattr, if_neg h1, hm]

example : (demo.pyshfunction 1 0).getItem 1 c!"x" = .ok (.obj 1) :=
  (C66_globals_partial demo 1 0 c!"x" (by decide) (by decide) (by decide) (by decide) rfl).1 _ rfl

/-- C66 is false for a global variable with the name of an exported variable. -/
theorem C66_refuted : ∃ σ : Shell, Dict.get? (σ.vars 0) c!"LANG" = some (.obj 4) ∧
    (σ.pyshfunction 1 0).getItem 1 c!"LANG" = .ok (.str c!"C") :=
  ⟨{ demo with scopes := [⟨[(c!"LANG", .obj 4)], none⟩] }, rfl, rfl⟩

end Pieshell.Shell
