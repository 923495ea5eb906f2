import Verif.Model.Job
import Verif.Lemmas.Dict
/-! Running pipelines: what is running and failed depends on kinds and states of the items only. -/
namespace Pieshell.Job

def ks (it : Item) : Kind × State := (it.kind, it.state)

/-- Kinds and states of the items of all pipelines. -/
def skel (ps : List Pipe) : List (List (Kind × State)) := ps.map (fun P => P.items.map ks)

def kRunning (rp : Nat → Bool) (x : Kind × State) : Bool :=
  match x.1 with
  | .fg t => rp t
  | _ => decide (x.2 = .running)

def kFailed (fp : Nat → Bool) (x : Kind × State) : Bool :=
  match x.1, x.2 with
  | .fg t, _ => fp t
  | .proc, .exited c => decide (c ≠ 0)
  | .func, .raised => true
  | _, _ => false

def runningK : Nat → List (List (Kind × State)) → Nat → Bool
  | 0, _, _ => false
  | n + 1, sk, p => (sk[p]?.getD []).any (kRunning (runningK n sk))

def failedK : Nat → List (List (Kind × State)) → Nat → Bool
  | 0, _, _ => false
  | n + 1, sk, p => (sk[p]?.getD []).any (fun x => !kRunning (runningK n sk) x && kFailed (failedK n sk) x)

theorem itemRunning_ks (f : Nat → Bool) (it : Item) : itemRunning f it = kRunning f (ks it) := by
  obtain ⟨k, st, _, _, _, _, _⟩ := it
  cases k <;> rfl

theorem itemFailed_ks (f : Nat → Bool) (it : Item) : itemFailed f it = kFailed f (ks it) := by
  obtain ⟨k, st, _, _, _, _, _⟩ := it
  cases k <;> cases st <;> rfl

theorem kRunning_congr {f g : Nat → Bool} {x : Kind × State} (h : ∀ t, x.1 = .fg t → f t = g t) :
    kRunning f x = kRunning g x := by
  obtain ⟨k, st⟩ := x
  cases k <;> simp [kRunning]
  exact h _ rfl

theorem kFailed_congr {f g : Nat → Bool} {x : Kind × State} (h : ∀ t, x.1 = .fg t → f t = g t) :
    kFailed f x = kFailed g x := by
  obtain ⟨k, st⟩ := x
  cases k with
  | proc => cases st <;> rfl
  | func => cases st <;> rfl
  | fg t => exact h t rfl

theorem itemRunning_congr {f g : Nat → Bool} {it : Item} (h : ∀ t, it.kind = .fg t → f t = g t) :
    itemRunning f it = itemRunning g it := by
  rw [itemRunning_ks, itemRunning_ks]; exact kRunning_congr h

theorem itemFailed_congr {f g : Nat → Bool} {it : Item} (h : ∀ t, it.kind = .fg t → f t = g t) :
    itemFailed f it = itemFailed g it := by
  rw [itemFailed_ks, itemFailed_ks]; exact kFailed_congr h

theorem verdict_congr {f g f' g' : Nat → Bool} {it : Item} (h : ∀ t, it.kind = .fg t → f t = g t)
    (h' : ∀ t, it.kind = .fg t → f' t = g' t) :
    (!itemRunning f it && itemFailed f' it) = (!itemRunning g it && itemFailed g' it) := by
  rw [itemRunning_congr h, itemFailed_congr h']

theorem skel_get (ps : List Pipe) (p : Nat) : ((skel ps)[p]?).getD [] = (itemsOf ps p).map ks := by
  simp only [skel, itemsOf, List.getElem?_map]
  cases ps[p]? <;> simp

theorem runningN_eq (n : Nat) (ps : List Pipe) (p : Nat) : runningN n ps p = runningK n (skel ps) p := by
  induction n generalizing p with
  | zero => rfl
  | succ n ih =>
    have : runningN n ps = runningK n (skel ps) := funext (fun p => ih p)
    simp only [runningN, runningK, skel_get, List.any_map, this]
    congr 1

theorem failedN_eq (n : Nat) (ps : List Pipe) (p : Nat) : failedN n ps p = failedK n (skel ps) p := by
  induction n generalizing p with
  | zero => rfl
  | succ n ih =>
    have h1 : runningN n ps = runningK n (skel ps) := funext (fun p => runningN_eq n ps p)
    have h2 : failedN n ps = failedK n (skel ps) := funext (fun p => ih p)
    simp only [failedN, failedK, skel_get, List.any_map, h1, h2]
    congr 1

theorem length_skel (ps : List Pipe) : (skel ps).length = ps.length := by simp [skel]

theorem running_congr {ps ps' : List Pipe} (h : skel ps' = skel ps) : running ps' = running ps := by
  funext p
  have hl : ps'.length = ps.length := by rw [← length_skel, h, length_skel]
  simp only [running, runningN_eq, h, hl]

theorem isFailed_congr {ps ps' : List Pipe} (h : skel ps' = skel ps) : isFailed ps' = isFailed ps := by
  funext p
  have hl : ps'.length = ps.length := by rw [← length_skel, h, length_skel]
  simp only [isFailed, failedN_eq, h, hl]

theorem failedItems_congr {ps ps' : List Pipe} (h : skel ps' = skel ps) (p : Nat) :
    failedItems ps' p = failedItems ps p := by
  have hi : (itemsOf ps' p).map ks = (itemsOf ps p).map ks := by rw [← skel_get, h, skel_get]
  have hlen : (itemsOf ps' p).length = (itemsOf ps p).length := by
    have := congrArg List.length hi; simpa using this
  simp only [failedItems, hlen, running_congr h, isFailed_congr h]
  congr 1
  funext i
  have : ((itemsOf ps' p)[i]?).map ks = ((itemsOf ps p)[i]?).map ks := by
    rw [← List.getElem?_map, hi, List.getElem?_map]
  cases h1 : (itemsOf ps' p)[i]? <;> cases h2 : (itemsOf ps p)[i]? <;> rw [h1, h2] at this <;>
    simp at this ⊢
  rw [itemRunning_ks, itemRunning_ks, itemFailed_ks, itemFailed_ks, this]

/-- Wrapped pipelines are older than the pipeline of the `fg` item. -/
def Ranked (ps : List Pipe) : Prop := ∀ p it t, it ∈ itemsOf ps p → it.kind = .fg t → t < p

theorem itemsOf_nil_of_ge {ps : List Pipe} {p : Nat} (h : ps.length ≤ p) : itemsOf ps p = [] := by
  simp [itemsOf, h]

theorem any_congr {α : Type} {l : List α} {f g : α → Bool} (h : ∀ x ∈ l, f x = g x) : l.any f = l.any g := by
  induction l with
  | nil => rfl
  | cons a l ih => simp [h a (by simp), ih (fun x hx => h x (by simp [hx]))]

theorem runningN_stable {ps : List Pipe} (hr : Ranked ps) : ∀ (p n m : Nat), p < n → p < m →
    runningN n ps p = runningN m ps p := by
  intro p
  induction p using Nat.strongRecOn with
  | ind p ih =>
    intro n m hn hm
    cases n with
    | zero => omega
    | succ n =>
      cases m with
      | zero => omega
      | succ m =>
        simp only [runningN]
        refine any_congr (fun it hit => ?_)
        simp only [itemRunning]
        split
        · rename_i t ht
          have := hr p it t hit ht
          exact ih t this n m (by omega) (by omega)
        · rfl

theorem failedN_stable {ps : List Pipe} (hr : Ranked ps) : ∀ (p n m : Nat), p < n → p < m →
    failedN n ps p = failedN m ps p := by
  intro p
  induction p using Nat.strongRecOn with
  | ind p ih =>
    intro n m hn hm
    cases n with
    | zero => omega
    | succ n =>
      cases m with
      | zero => omega
      | succ m =>
        simp only [failedN]
        refine any_congr (fun it hit => ?_)
        refine verdict_congr (fun t ht => ?_) (fun t ht => ?_)
        · have := hr p it t hit ht
          exact runningN_stable hr t n m (by omega) (by omega)
        · have := hr p it t hit ht
          exact ih t this n m (by omega) (by omega)

/-- A pipeline is running if one of its items is. -/
theorem running_unfold {ps : List Pipe} (hr : Ranked ps) (p : Nat) :
    running ps p = (itemsOf ps p).any (itemRunning (running ps)) := by
  by_cases h : p < ps.length
  · obtain ⟨n, hn⟩ : ∃ n, ps.length = n + 1 := ⟨ps.length - 1, by omega⟩
    have e : running ps p = runningN (n + 1) ps p := by simp only [running, hn]
    rw [e]
    simp only [runningN]
    refine any_congr (fun it hit => ?_)
    simp only [itemRunning]
    split
    · rename_i t ht
      have := hr p it t hit ht
      simp only [running]
      exact runningN_stable hr t n ps.length (by omega) (by omega)
    · rfl
  · rw [itemsOf_nil_of_ge (by omega)]
    have : ∀ n, runningN n ps p = false := by
      intro n; cases n with
      | zero => rfl
      | succ n => simp [runningN, itemsOf_nil_of_ge (show ps.length ≤ p by omega)]
    simp [running, this]

theorem isFailed_unfold {ps : List Pipe} (hr : Ranked ps) (p : Nat) :
    isFailed ps p = (itemsOf ps p).any (fun it => !itemRunning (running ps) it && itemFailed (isFailed ps) it) := by
  by_cases h : p < ps.length
  · obtain ⟨n, hn⟩ : ∃ n, ps.length = n + 1 := ⟨ps.length - 1, by omega⟩
    have e : isFailed ps p = failedN (n + 1) ps p := by simp only [isFailed, hn]
    rw [e]
    simp only [failedN]
    refine any_congr (fun it hit => ?_)
    refine verdict_congr (fun t ht => ?_) (fun t ht => ?_)
    · have := hr p it t hit ht
      exact runningN_stable hr t n ps.length (by omega) (by omega)
    · have := hr p it t hit ht
      exact failedN_stable hr t n ps.length (by omega) (by omega)
  · rw [itemsOf_nil_of_ge (by omega)]
    have : ∀ n, failedN n ps p = false := by
      intro n; cases n with
      | zero => rfl
      | succ n => simp [failedN, itemsOf_nil_of_ge (show ps.length ≤ p by omega)]
    simp [isFailed, this]

/-! ### More pipelines -/

theorem itemsOf_append_left {ps qs : List Pipe} {p : Nat} (h : p < ps.length) : itemsOf (ps ++ qs) p = itemsOf ps p := by
  simp [itemsOf, List.getElem?_append_left h]

theorem itemsOf_append_new (ps : List Pipe) (P : Pipe) : itemsOf (ps ++ [P]) ps.length = P.items := by
  simp [itemsOf]

theorem runningN_append {ps : List Pipe} (hr : Ranked ps) (qs : List Pipe) : ∀ (p n : Nat), p < ps.length →
    runningN n (ps ++ qs) p = runningN n ps p := by
  intro p
  induction p using Nat.strongRecOn with
  | ind p ih =>
    intro n hp
    cases n with
    | zero => rfl
    | succ n =>
      simp only [runningN, itemsOf_append_left hp]
      refine any_congr (fun it hit => ?_)
      simp only [itemRunning]
      split
      · rename_i t ht
        have := hr p it t hit ht
        exact ih t this n (by omega)
      · rfl

theorem failedN_append {ps : List Pipe} (hr : Ranked ps) (qs : List Pipe) : ∀ (p n : Nat), p < ps.length →
    failedN n (ps ++ qs) p = failedN n ps p := by
  intro p
  induction p using Nat.strongRecOn with
  | ind p ih =>
    intro n hp
    cases n with
    | zero => rfl
    | succ n =>
      simp only [failedN, itemsOf_append_left hp]
      refine any_congr (fun it hit => ?_)
      refine verdict_congr (fun t ht => ?_) (fun t ht => ?_)
      · have := hr p it t hit ht
        exact runningN_append hr qs t n (by omega)
      · have := hr p it t hit ht
        exact ih t this n (by omega)

theorem running_append {ps : List Pipe} (hr : Ranked ps) (qs : List Pipe) (p : Nat) (h : p < ps.length) :
    running (ps ++ qs) p = running ps p := by
  simp only [running]
  rw [runningN_append hr qs p _ h]
  exact runningN_stable hr p _ _ (by simp; omega) h

theorem isFailed_append {ps : List Pipe} (hr : Ranked ps) (qs : List Pipe) (p : Nat) (h : p < ps.length) :
    isFailed (ps ++ qs) p = isFailed ps p := by
  simp only [isFailed]
  rw [failedN_append hr qs p _ h]
  exact failedN_stable hr p _ _ (by simp; omega) h

/-- The verdict on an item. -/
def bad (ps : List Pipe) (it : Item) : Bool := !itemRunning (running ps) it && itemFailed (isFailed ps) it

theorem failedItems_eq (ps : List Pipe) (p : Nat) :
    failedItems ps p = (List.range (itemsOf ps p).length).filter
      (fun i => (((itemsOf ps p)[i]?).map (bad ps)).getD false) := rfl

theorem filter_congr' {α : Type} {l : List α} {f g : α → Bool} (h : ∀ x ∈ l, f x = g x) : l.filter f = l.filter g := by
  induction l with
  | nil => rfl
  | cons a l ih => simp [List.filter_cons, h a (by simp), ih (fun x hx => h x (by simp [hx]))]

/-- `failed_processes` is determined by the items and the verdicts on them. -/
theorem failedItems_of {ps ps' : List Pipe} {p : Nat} (hi : itemsOf ps' p = itemsOf ps p)
    (hb : ∀ it ∈ itemsOf ps p, bad ps' it = bad ps it) : failedItems ps' p = failedItems ps p := by
  rw [failedItems_eq, failedItems_eq, hi]
  refine filter_congr' (fun i _ => ?_)
  cases h : (itemsOf ps p)[i]? with
  | none => rfl
  | some it => simp [hb it (List.mem_of_getElem? h)]

theorem failedItems_append {ps : List Pipe} (hr : Ranked ps) (qs : List Pipe) (p : Nat) (h : p < ps.length) :
    failedItems (ps ++ qs) p = failedItems ps p := by
  refine failedItems_of (itemsOf_append_left h) (fun it hit => ?_)
  refine verdict_congr (fun t ht => ?_) (fun t ht => ?_)
  · have := hr p it t hit ht
    exact running_append hr qs t (by omega)
  · have := hr p it t hit ht
    exact isFailed_append hr qs t (by omega)

/-! ### An item finishes -/

/-- `ps'` is `ps` with item `i` of pipeline `p` finished. -/
structure Finished (ps ps' : List Pipe) (p i : Nat) (o : State) : Prop where
  len : ps'.length = ps.length
  other : ∀ q, q ≠ p → (itemsOf ps' q).map ks = (itemsOf ps q).map ks
  here : (itemsOf ps' p).map ks = ((itemsOf ps p).map ks).modify i (fun x => (x.1, o))
  was : ∃ x, ((itemsOf ps p).map ks)[i]? = some x ∧ x.2 = .running ∧ okEnd x.1 o = true

theorem Ranked_ks {ps : List Pipe} : Ranked ps ↔ ∀ p x t, x ∈ (itemsOf ps p).map ks → x.1 = .fg t → t < p := by
  constructor
  · intro h p x t hx e
    simp only [List.mem_map] at hx
    obtain ⟨it, hit, rfl⟩ := hx
    exact h p it t hit e
  · intro h p it t hit e
    exact h p (ks it) t (List.mem_map.2 ⟨it, hit, rfl⟩) e

theorem Ranked.congr {ps ps' : List Pipe} (h : skel ps' = skel ps) (hr : Ranked ps) : Ranked ps' := by
  rw [Ranked_ks] at hr ⊢
  intro p x t hx
  rw [← skel_get, h, skel_get] at hx
  exact hr p x t hx

theorem mem_modify {α : Type} {l : List α} {i : Nat} {f : α → α} {x : α} (h : x ∈ l.modify i f) :
    x ∈ l ∨ ∃ y, l[i]? = some y ∧ x = f y := by
  rw [List.mem_iff_getElem?] at h
  obtain ⟨j, hj⟩ := h
  rw [List.getElem?_modify] at hj
  by_cases e : i = j
  · subst e
    simp at hj
    obtain ⟨y, h1, h2⟩ := hj
    exact Or.inr ⟨y, h1, h2.symm⟩
  · simp [e] at hj
    exact Or.inl (List.mem_of_getElem? hj)

theorem Finished.ranked {ps ps' : List Pipe} {p i : Nat} {o : State} (h : Finished ps ps' p i o) (hr : Ranked ps) :
    Ranked ps' := by
  rw [Ranked_ks] at hr ⊢
  intro q x t hx e
  by_cases hq : q = p
  · subst hq
    rw [h.here] at hx
    rcases mem_modify hx with h1 | ⟨y, h1, h2⟩
    · exact hr q x t h1 e
    · subst h2
      exact hr q y t (List.mem_of_getElem? h1) e
  · rw [h.other q hq] at hx
    exact hr q x t hx e

theorem running_unfold_ks {ps : List Pipe} (hr : Ranked ps) (p : Nat) :
    running ps p = ((itemsOf ps p).map ks).any (kRunning (running ps)) := by
  rw [running_unfold hr, List.any_map]
  exact any_congr (fun it _ => itemRunning_ks _ it)

/-- Nothing starts running again. -/
theorem Finished.mono {ps ps' : List Pipe} {p i : Nat} {o : State} (h : Finished ps ps' p i o) (hr : Ranked ps) :
    ∀ q, running ps' q = true → running ps q = true := by
  intro q
  induction q using Nat.strongRecOn with
  | ind q ih =>
    rw [running_unfold_ks hr, running_unfold_ks (h.ranked hr)]
    intro hq
    rw [List.any_eq_true] at hq ⊢
    obtain ⟨x, hx, hxr⟩ := hq
    have hr' := Ranked_ks.1 hr
    have lift : ∀ x ∈ (itemsOf ps q).map ks, kRunning (running ps') x = true → kRunning (running ps) x = true := by
      intro x hx hxr
      simp only [kRunning] at hxr ⊢
      split at hxr
      · rename_i t ht
        exact ih t (hr' q x t hx ht) hxr
      · exact hxr
    by_cases e : q = p
    · subst e
      rw [h.here] at hx
      rcases mem_modify hx with h1 | ⟨y, h1, h2⟩
      · exact ⟨x, h1, lift x h1 hxr⟩
      · obtain ⟨z, hz, hz1, hz2⟩ := h.was
        rw [h1] at hz
        cases hz
        refine ⟨y, List.mem_of_getElem? h1, ?_⟩
        simp only [kRunning]
        split
        · rename_i t ht; rw [ht] at hz2; cases o <;> simp [okEnd] at hz2
        · simpa using hz1
    · rw [h.other q e] at hx
      exact ⟨x, hx, lift x hx hxr⟩

/-- An item that was not running does not change its verdict. -/
theorem Finished.verdict {ps ps' : List Pipe} {p i : Nat} {o : State} (h : Finished ps ps' p i o) (hr : Ranked ps) :
    ∀ q, running ps q = false → running ps' q = false ∧ isFailed ps' q = isFailed ps q ∧
      (itemsOf ps' q).map ks = (itemsOf ps q).map ks := by
  intro q
  induction q using Nat.strongRecOn with
  | ind q ih =>
    intro hq
    have hne : q ≠ p := by
      intro e; subst e
      obtain ⟨z, hz, hz1, hz2⟩ := h.was
      rw [running_unfold_ks hr] at hq
      have := List.any_eq_false.1 hq z (List.mem_of_getElem? hz)
      simp only [kRunning] at this
      split at this
      · rename_i t ht; rw [ht] at hz2; cases o <;> simp [okEnd] at hz2
      · simp [hz1] at this
    have hnr : running ps' q = false := by
      cases e : running ps' q with
      | false => rfl
      | true => rw [h.mono hr q e] at hq; cases hq
    refine ⟨hnr, ?_, h.other q hne⟩
    rw [isFailed_unfold hr, isFailed_unfold (h.ranked hr)]
    have conv : ∀ qs : List Pipe, (itemsOf qs q).any (fun it => !itemRunning (running qs) it && itemFailed (isFailed qs) it)
        = ((itemsOf qs q).map ks).any (fun x => !kRunning (running qs) x && kFailed (isFailed qs) x) := by
      intro qs
      rw [List.any_map]
      refine any_congr (fun it _ => ?_)
      simp only [Function.comp, itemRunning_ks, itemFailed_ks]
    rw [conv, conv, h.other q hne]
    refine any_congr (fun x hx => ?_)
    have hq' := hq
    rw [running_unfold_ks hr] at hq'
    have hxr := List.any_eq_false.1 hq' x hx
    have hfg : ∀ t, x.1 = .fg t → running ps t = false := by
      intro t ht
      obtain ⟨k, st⟩ := x
      simp only at ht
      subst ht
      simpa [kRunning] using hxr
    have h1 : kRunning (running ps') x = kRunning (running ps) x := kRunning_congr (fun t ht => by
      rw [hfg t ht, (ih t (Ranked_ks.1 hr q x t hx ht) (hfg t ht)).1])
    have h2 : kFailed (isFailed ps') x = kFailed (isFailed ps) x := kFailed_congr (fun t ht =>
      (ih t (Ranked_ks.1 hr q x t hx ht) (hfg t ht)).2.1)
    rw [h1, h2]

end Pieshell.Job
