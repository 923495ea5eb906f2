import Verif.Spec.Registry
import Verif.Lemmas.Dict
import Verif.Lemmas.RedirTable
/-!
# The registry of signal handlers
-/
namespace Pieshell.Registry

theorem leStr_total : ∀ a b : Str, leStr a b = true ∨ leStr b a = true
  | [], _ => .inl rfl
  | _ :: _, [] => .inr rfl
  | a :: as, b :: bs => by
    simp only [leStr]
    by_cases h1 : a.toNat < b.toNat
    · simp [h1]
    · by_cases h2 : b.toNat < a.toNat
      · simp [h2, h1]
      · simp only [h1, h2, if_false]; exact leStr_total as bs

theorem leStr_antisymm : ∀ a b : Str, leStr a b = true → leStr b a = true → a = b
  | [], [], _, _ => rfl
  | [], _ :: _, _, h => by cases h
  | _ :: _, [], h, _ => by cases h
  | a :: as, b :: bs, h, h' => by
    simp only [leStr] at h h'
    by_cases h1 : a.toNat < b.toNat
    · rw [if_neg (by omega), if_pos h1] at h'; cases h'
    · by_cases h2 : b.toNat < a.toNat
      · rw [if_neg h1, if_pos h2] at h; cases h
      · rw [if_neg h1, if_neg h2] at h
        rw [if_neg h2, if_neg h1] at h'
        rw [leStr_antisymm as bs h h', Char.toNat_inj.1 (by omega : a.toNat = b.toNat)]

theorem leStr_trans : ∀ a b c : Str, leStr a b = true → leStr b c = true → leStr a c = true
  | [], _, _, _, _ => rfl
  | _ :: _, [], _, h, _ => by cases h
  | _ :: _, _ :: _, [], _, h => by cases h
  | a :: as, b :: bs, c :: cs, h, h' => by
    simp only [leStr] at h h' ⊢
    by_cases h1 : a.toNat < b.toNat
    · by_cases h2 : b.toNat < c.toNat
      · rw [if_pos (by omega)]
      · by_cases h3 : c.toNat < b.toNat
        · rw [if_neg h2, if_pos h3] at h'; cases h'
        · rw [if_pos (by omega)]
    · by_cases h2 : b.toNat < a.toNat
      · rw [if_neg h1, if_pos h2] at h; cases h
      · rw [if_neg h1, if_neg h2] at h
        by_cases h3 : b.toNat < c.toNat
        · rw [if_pos (by omega)]
        · by_cases h4 : c.toNat < b.toNat
          · rw [if_neg h3, if_pos h4] at h'; cases h'
          · rw [if_neg h3, if_neg h4] at h'
            rw [if_neg (by omega), if_neg (by omega)]
            exact leStr_trans as bs cs h h'

theorem mem_insertItem (x y : Str × Int) : ∀ l, y ∈ insertItem x l ↔ y = x ∨ y ∈ l
  | [] => by simp [insertItem]
  | z :: l => by
    simp only [insertItem]
    split
    · simp
    · simp only [List.mem_cons, mem_insertItem x y l]
      constructor
      · rintro (h | h | h) <;> simp [h]
      · rintro (h | h | h) <;> simp [h]

theorem mem_key (y : Str × Int) : ∀ f : Flt, y ∈ key f ↔ y ∈ f
  | [] => by simp [key]
  | x :: l => by simp only [key, mem_insertItem, mem_key y l, List.mem_cons]

/-- Sorted by name, each name once. -/
def Sorted : List (Str × Int) → Prop
  | [] => True
  | x :: l => (∀ y ∈ l, leStr x.1 y.1 = true ∧ x.1 ≠ y.1) ∧ Sorted l

theorem sorted_insert (x : Str × Int) : ∀ l, Sorted l → (∀ y ∈ l, x.1 ≠ y.1) → Sorted (insertItem x l)
  | [], _, _ => by simp [insertItem, Sorted]
  | z :: l, h, hx => by
    simp only [insertItem]
    split
    · next hle =>
      refine ⟨fun y hy => ⟨?_, hx y hy⟩, h⟩
      rcases List.mem_cons.1 hy with rfl | hy
      · exact hle
      · exact leStr_trans _ _ _ hle (h.1 y hy).1
    · next hle =>
      refine ⟨fun y hy => ?_, sorted_insert x l h.2 (fun y hy => hx y (List.mem_cons_of_mem _ hy))⟩
      rcases (mem_insertItem x y l).1 hy with rfl | hy
      · refine ⟨?_, fun he => hx z List.mem_cons_self he.symm⟩
        rcases leStr_total y.1 z.1 with h' | h'
        · exact absurd h' hle
        · exact h'
      · exact h.1 y hy

theorem uniq_cons {x : Str × Int} {l : Flt} (h : Dict.Uniq (x :: l)) : (∀ y ∈ l, x.1 ≠ y.1) ∧ Dict.Uniq l := by
  simp only [Dict.Uniq, Dict.keys, List.map_cons, List.nodup_cons, List.mem_map, not_exists, not_and] at h
  exact ⟨fun y hy he => h.1 y hy he.symm, h.2⟩

theorem sorted_key : ∀ f : Flt, f.Uniq → Sorted (key f)
  | [], _ => trivial
  | x :: l, h => by
    obtain ⟨h1, h2⟩ := uniq_cons h
    exact sorted_insert x _ (sorted_key l h2) (fun y hy => h1 y ((mem_key y l).1 hy))

theorem sorted_eq : ∀ l m, Sorted l → Sorted m → (∀ x, x ∈ l ↔ x ∈ m) → l = m
  | [], [], _, _, _ => rfl
  | [], y :: m, _, _, h => by have := (h y).2 List.mem_cons_self; cases this
  | x :: l, [], _, _, h => by have := (h x).1 List.mem_cons_self; cases this
  | x :: l, y :: m, hl, hm, h => by
    have hxy : x = y := by
      rcases List.mem_cons.1 ((h x).1 List.mem_cons_self) with e | hx
      · exact e
      · rcases List.mem_cons.1 ((h y).2 List.mem_cons_self) with e | hy
        · exact e.symm
        · exact absurd (leStr_antisymm _ _ (hl.1 y hy).1 (hm.1 x hx).1) (hl.1 y hy).2
    subst hxy
    congr 1
    refine sorted_eq l m hl.2 hm.2 fun z => ⟨fun hz => ?_, fun hz => ?_⟩
    · rcases List.mem_cons.1 ((h z).1 (List.mem_cons_of_mem _ hz)) with e | h'
      · exact absurd (congrArg Prod.fst e.symm) (hl.1 z hz).2
      · exact h'
    · rcases List.mem_cons.1 ((h z).2 (List.mem_cons_of_mem _ hz)) with e | h'
      · exact absurd (congrArg Prod.fst e.symm) (hm.1 z hz).2
      · exact h'

/-- Handlers are registered under the same key exactly if they ask for the same. -/
theorem key_eq {f g : Flt} (hf : f.Uniq) (hg : g.Uniq) : key f = key g ↔ Flt.Same f g := by
  constructor
  · intro h x; rw [← mem_key x f, ← mem_key x g, h]
  · intro h; exact sorted_eq _ _ (sorted_key f hf) (sorted_key g hg) fun x => by rw [mem_key, mem_key]; exact h x

theorem match_true {i : Info} : ∀ {f : Flt}, matchSignal i f = some true ↔ Fits i f
  | [] => by simp [matchSignal, Fits]
  | (k, v) :: l => by
    simp only [matchSignal, Fits, List.mem_cons, forall_eq_or_imp]
    cases h : i k with
    | none => simp
    | some x =>
      simp only [Option.some.injEq]
      by_cases hx : x = v
      · simp only [hx, ne_eq, not_true, if_false, true_and]; exact match_true
      · simp [hx]

theorem match_names {i : Info} : ∀ {f : Flt}, Names i f → matchSignal i f ≠ none
  | [], _ => by simp [matchSignal]
  | (k, v) :: l, h => by
    simp only [matchSignal]
    have h1 := h (k, v) List.mem_cons_self
    cases hk : i k with
    | none => rw [hk] at h1; cases h1
    | some x =>
      simp only
      split
      · simp
      · exact match_names (fun y hy => h y (List.mem_cons_of_mem _ hy))

/-- The entry of a handler. -/
def ent (p : Nat × Flt) : List (Str × Int) × Nat := (key p.2, p.1)

/-- The manager has exactly the handlers that have been made and not been destroyed. -/
structure Inv (s : St) (live : List (Nat × Flt)) : Prop where
  reg : s.reg = live.map ent
  flt : ∀ p ∈ live, s.flts[p.1]? = some p.2
  uniq : ∀ p ∈ live, p.2.Uniq
  keys : (live.map (fun p => key p.2)).Nodup
  ord : (live.map Prod.fst).Pairwise (· < ·)

theorem Inv.ids {s : St} {live : List (Nat × Flt)} (hi : Inv s live) : (live.map Prod.fst).Nodup := hi.ord.imp (fun h => by omega)

theorem set_new : ∀ (d : Dict (List (Str × Int)) Nat) (k : List (Str × Int)) (v : Nat), (∀ p ∈ d, p.1 ≠ k) → d.set k v = d ++ [(k, v)]
  | [], _, _, _ => rfl
  | (k', v') :: d, k, v, h => by
    simp only [Dict.set]
    rw [if_neg (h _ List.mem_cons_self), set_new d k v (fun p hp => h p (List.mem_cons_of_mem _ hp))]; rfl

theorem filter_self {l : List (Nat × Flt)} {h : Nat} (hn : h ∉ l.map Prod.fst) : l.filter (fun p => p.1 ≠ h) = l := by
  apply List.filter_eq_self.2
  intro p hp
  simp only [ne_eq, decide_not, Bool.not_eq_eq_eq_not, Bool.not_true, decide_eq_false_iff_not]
  intro e; exact hn (e ▸ List.mem_map_of_mem hp)

theorem erase_ent : ∀ (l : List (Nat × Flt)) (h : Nat) (f : Flt), (h, f) ∈ l → (l.map (fun p => key p.2)).Nodup → (l.map Prod.fst).Nodup →
    Dict.erase (l.map ent) (key f) = (l.filter (fun p => p.1 ≠ h)).map ent
  | p :: l, h, f, hm, hk, hi => by
    simp only [List.map_cons, List.nodup_cons] at hk hi
    rcases List.mem_cons.1 hm with e | hm
    · subst e
      simp only [List.map_cons, Dict.erase, ent, if_true]
      rw [List.filter_cons_of_neg (by simp), filter_self hi.1]
    · have hne : key p.2 ≠ key f := fun e => hk.1 (List.mem_map.2 ⟨(h, f), hm, e.symm⟩)
      have hni : p.1 ≠ h := fun e => hi.1 (List.mem_map.2 ⟨(h, f), hm, e.symm⟩)
      rw [List.filter_cons_of_pos (by simpa using hni)]
      simp only [List.map_cons, Dict.erase, ent, if_neg hne]
      rw [← ent, erase_ent l h f hm hk.2 hi.2]

theorem Inv.filter {s : St} {live : List (Nat × Flt)} (hi : Inv s live) (q : Nat × Flt → Bool) :
    (∀ p ∈ live.filter q, s.flts[p.1]? = some p.2) ∧ (∀ p ∈ live.filter q, p.2.Uniq) ∧
    ((live.filter q).map (fun p => key p.2)).Nodup ∧ ((live.filter q).map Prod.fst).Pairwise (· < ·) :=
  ⟨fun p hp => hi.flt p (List.mem_filter.1 hp).1, fun p hp => hi.uniq p (List.mem_filter.1 hp).1,
   hi.keys.sublist (List.filter_sublist.map _), hi.ord.sublist (List.filter_sublist.map _)⟩

theorem Inv.create {s : St} {live : List (Nat × Flt)} {f : Flt} (hi : Inv s live) (hu : f.Uniq) (hn : ∀ p ∈ live, ¬ Flt.Same f p.2) :
    Inv (s.create f) (live ++ [(s.flts.length, f)]) := by
  have hk : ∀ p ∈ live, key p.2 ≠ key f := fun p hp e => hn p hp ((key_eq hu (hi.uniq p hp)).1 e.symm)
  have hl : ∀ p ∈ live, p.1 < s.flts.length := fun p hp => by
    have := hi.flt p hp
    exact (List.getElem?_eq_some_iff.1 this).1
  refine ⟨?_, ?_, ?_, ?_, ?_⟩
  · simp only [St.create]
    rw [set_new _ _ _ (by rw [hi.reg]; intro p hp; obtain ⟨x, hx, rfl⟩ := List.mem_map.1 hp; exact hk x hx), hi.reg, List.map_append]
    rfl
  · intro p hp
    rcases List.mem_append.1 hp with h | h
    · simp only [St.create]; rw [List.getElem?_append_left (hl p h)]; exact hi.flt p h
    · rw [List.mem_singleton.1 h]; simp [St.create]
  · intro p hp
    rcases List.mem_append.1 hp with h | h
    · exact hi.uniq p h
    · rw [List.mem_singleton.1 h]; exact hu
  · rw [List.map_append, List.nodup_append]
    refine ⟨hi.keys, by simp, ?_⟩
    intro a ha b hb
    obtain ⟨x, hx, rfl⟩ := List.mem_map.1 ha
    simp only [List.map_cons, List.map_nil, List.mem_singleton] at hb
    subst hb; exact hk x hx
  · rw [List.map_append, List.pairwise_append]
    refine ⟨hi.ord, by simp, ?_⟩
    intro a ha b hb
    obtain ⟨x, hx, rfl⟩ := List.mem_map.1 ha
    simp only [List.map_cons, List.map_nil, List.mem_singleton] at hb
    subst hb; have := hl x hx; omega

theorem flt_of {s : St} {live : List (Nat × Flt)} {h : Nat} {f : Flt} (hi : Inv s live) (hm : (h, f) ∈ live) : s.flt h = f := by
  have := hi.flt _ hm
  simp only at this
  simp [St.flt, this]

theorem Inv.destroy {s : St} {live : List (Nat × Flt)} {h : Nat} {f : Flt} (hi : Inv s live) (hm : (h, f) ∈ live) :
    s.destroy h = ({ s with reg := (live.filter (fun p => p.1 ≠ h)).map ent }, false) ∧
    Inv { s with reg := (live.filter (fun p => p.1 ≠ h)).map ent } (live.filter (fun p => p.1 ≠ h)) := by
  obtain ⟨h1, h2, h3, h4⟩ := hi.filter (fun p => decide (p.1 ≠ h))
  refine ⟨?_, ⟨rfl, h1, h2, h3, h4⟩⟩
  have hmem : s.reg.mem (key f) = true := by
    have : key f ∈ Dict.keys s.reg := by
      rw [hi.reg]; simp only [Dict.keys, List.map_map]
      exact List.mem_map.2 ⟨(h, f), hm, rfl⟩
    obtain ⟨v, hv⟩ := (Dict.mem_keys_iff _ _).1 this
    simp [Dict.mem, hv]
  simp only [St.destroy, flt_of hi hm, hmem, if_true]
  rw [hi.reg, erase_ent live h f hm hi.keys hi.ids]

theorem Inv.give {s : St} {live : List (Nat × Flt)} (hi : Inv s live) (h : Nat) (i : Info) : Inv (s.give h i) live :=
  ⟨hi.reg, hi.flt, hi.uniq, hi.keys, hi.ord⟩

/-- A handler that is not there any more after an event. -/
def Quits (react : Nat → Info → Reaction) (i : Info) (p : Nat × Flt) : Prop := Fits i p.2 ∧ react p.1 i = .quit

open Classical in
theorem dispatch_good {react : Nat → Info → Reaction} {i : Info} (hr : ∀ h, react h i ≠ .raise) : ∀ (L : List (Nat × Flt)) (D : List (Nat × Flt)) (s : St),
    Inv s (D ++ L) → (∀ p ∈ L, Names i p.2) →
    ∃ s', dispatch react i (L.map ent) s = (s', false) ∧ Inv s' (D ++ L.filter (fun p => decide (¬ Quits react i p))) ∧ s'.flts = s.flts ∧
      (∀ h f, (h, f) ∈ L → s'.got h = s.got h ++ (if Fits i f then [i] else [])) ∧ ∀ h, h ∉ L.map Prod.fst → s'.got h = s.got h
  | [], D, s, hi, _ => ⟨s, rfl, by simpa using hi, rfl, by simp, by simp⟩
  | (h, f) :: L, D, s, hi, hn => by
    have hm : (h, f) ∈ D ++ (h, f) :: L := by simp
    have hflt := flt_of hi hm
    have hids := hi.ids
    simp only [List.map_append, List.map_cons, List.nodup_append, List.nodup_cons] at hids
    have hL : h ∉ L.map Prod.fst := hids.2.1.1
    have hD : h ∉ D.map Prod.fst := fun hx => hids.2.2 _ hx _ List.mem_cons_self rfl
    have hnL : ∀ p ∈ L, Names i p.2 := fun p hp => hn p (List.mem_cons_of_mem _ hp)
    simp only [List.map_cons, ent, dispatch, hflt]
    cases hmt : matchSignal i f with
    | none => exact absurd hmt (match_names (hn (h, f) List.mem_cons_self))
    | some b =>
      cases b with
      | false =>
        have hf : ¬ Fits i f := fun h' => by rw [match_true.2 h'] at hmt; simp at hmt
        have hq : ¬ Quits react i (h, f) := fun h' => hf h'.1
        obtain ⟨s', h1, h2, h3, h4, h5⟩ := dispatch_good hr L (D ++ [(h, f)]) s (by simpa using hi) hnL
        refine ⟨s', h1, ?_, h3, ?_, ?_⟩
        · rw [List.filter_cons_of_pos (by simpa using hq)]; simpa using h2
        · intro h' f' hm'
          rcases List.mem_cons.1 hm' with e | hm'
          · cases e; rw [if_neg hf, List.append_nil]; exact h5 _ hL
          · exact h4 h' f' hm'
        · intro h' hh'; exact h5 h' (fun hx => hh' (by simp only [List.map_cons, List.mem_cons]; exact .inr hx))
      | true =>
        have hf : Fits i f := match_true.1 hmt
        simp only
        cases hre : react h i with
        | raise => exact absurd hre (hr h)
        | keep =>
          have hq : ¬ Quits react i (h, f) := fun h' => by have := h'.2; simp only [hre] at this; cases this
          obtain ⟨s', h1, h2, h3, h4, h5⟩ := dispatch_good hr L (D ++ [(h, f)]) (s.give h i) (by simpa using hi.give h i) hnL
          refine ⟨s', h1, ?_, h3, ?_, ?_⟩
          · rw [List.filter_cons_of_pos (by simpa using hq)]; simpa using h2
          · intro h' f' hm'
            rcases List.mem_cons.1 hm' with e | hm'
            · cases e; rw [if_pos hf, h5 _ hL]; simp [St.give]
            · rw [h4 h' f' hm']
              have : h' ≠ h := fun e => hL (e ▸ List.mem_map_of_mem (f := Prod.fst) hm')
              simp [St.give, this]
          · intro h' hh'
            simp only [List.map_cons, List.mem_cons, not_or] at hh'
            rw [h5 h' hh'.2]; simp [St.give, hh'.1]
        | quit =>
          have hq : Quits react i (h, f) := ⟨hf, hre⟩
          obtain ⟨hd, hi'⟩ := (hi.give h i).destroy hm
          have he : (D ++ (h, f) :: L).filter (fun p => decide (p.1 ≠ h)) = D ++ L := by
            rw [List.filter_append, filter_self hD, List.filter_cons_of_neg (by simp), filter_self hL]
          rw [he] at hd hi'
          simp only [hd]
          obtain ⟨s', h1, h2, h3, h4, h5⟩ := dispatch_good hr L D _ hi' hnL
          refine ⟨s', h1, ?_, h3, ?_, ?_⟩
          · rw [List.filter_cons_of_neg (by simpa using hq)]; exact h2
          · intro h' f' hm'
            rcases List.mem_cons.1 hm' with e | hm'
            · cases e; rw [if_pos hf, h5 _ hL]; simp [St.give]
            · rw [h4 h' f' hm']
              have : h' ≠ h := fun e => hL (e ▸ List.mem_map_of_mem (f := Prod.fst) hm')
              simp [St.give, this]
          · intro h' hh'
            simp only [List.map_cons, List.mem_cons, not_or] at hh'
            rw [h5 h' hh'.2]; simp [St.give, hh'.1]

open Classical in
theorem batch_good {react : Nat → Info → Reaction} : ∀ (is : List Info) (live : List (Nat × Flt)) (s : St),
    Inv s live → (∀ i ∈ is, (∀ p ∈ live, Names i p.2) ∧ ∀ h, react h i ≠ .raise) →
    ∃ s', batch react is s = (s', false) ∧ Inv s' (stay react live is) ∧ s'.flts = s.flts ∧
      (∀ h f, (h, f) ∈ live → s'.got h = s.got h ++ (dueOf react h f is).1) ∧ ∀ h, h ∉ live.map Prod.fst → s'.got h = s.got h
  | [], live, s, hi, _ => ⟨s, rfl, by
      have : stay react live [] = live := List.filter_eq_self.2 (by simp [dueOf])
      rw [this]; exact hi, rfl, by simp [dueOf], by simp⟩
  | i :: is, live, s, hi, hn => by
    obtain ⟨s1, h1, h2, h3, h4, h5⟩ := dispatch_good (hn i List.mem_cons_self).2 live [] s (by simpa using hi) (hn i List.mem_cons_self).1
    simp only [List.nil_append] at h2
    have hsub : ∀ p, p ∈ live.filter (fun p => decide (¬ Quits react i p)) → p ∈ live := fun p hp => (List.mem_filter.1 hp).1
    obtain ⟨s', k1, k2, k3, k4, k5⟩ := batch_good is _ s1 h2 (fun j hj => ⟨fun p hp => (hn j (List.mem_cons_of_mem _ hj)).1 p (hsub p hp), (hn j (List.mem_cons_of_mem _ hj)).2⟩)
    refine ⟨s', ?_, ?_, k3.trans h3, ?_, ?_⟩
    · simp only [batch, hi.reg, h1]; exact k1
    · have : stay react live (i :: is) = stay react (live.filter (fun p => decide (¬ Quits react i p))) is := by
        simp only [stay, List.filter_filter]
        apply List.filter_congr
        intro p _
        simp only [dueOf, Quits]
        by_cases hf : Fits i p.2 <;> by_cases hq : react p.1 i = .quit <;> simp [hf, hq]
      rw [this]; exact k2
    · intro h f hm
      by_cases hq : Quits react i (h, f)
      · have hnot : h ∉ (live.filter (fun p => decide (¬ Quits react i p))).map Prod.fst := by
          intro hx
          obtain ⟨p, hp, he⟩ := List.mem_map.1 hx
          obtain ⟨hp1, hp2⟩ := List.mem_filter.1 hp
          have : p = (h, f) := by
            have e1 := hi.flt p hp1
            have e2 := hi.flt _ hm
            rw [he] at e1
            simp only at e2
            rw [e2] at e1
            cases p; simp only at he e1; simp only [Option.some.injEq] at e1; rw [he, e1]
          subst this; exact (of_decide_eq_true hp2) hq
        rw [k5 h hnot, h4 h f hm, if_pos hq.1]
        simp only [dueOf, if_pos hq.1, if_pos hq.2]
      · have hin : (h, f) ∈ live.filter (fun p => decide (¬ Quits react i p)) := List.mem_filter.2 ⟨hm, by simpa using hq⟩
        rw [k4 h f hin, h4 h f hm]
        simp only [dueOf]
        by_cases hf : Fits i f
        · have : react h i ≠ .quit := fun e => hq ⟨hf, e⟩
          simp [hf, this]
        · simp [hf]
    · intro h hh
      have : h ∉ (live.filter (fun p => decide (¬ Quits react i p))).map Prod.fst := fun hx => by
        obtain ⟨p, hp, he⟩ := List.mem_map.1 hx
        exact hh (he ▸ List.mem_map_of_mem (hsub p hp))
      rw [k5 h this, h5 h hh]

theorem Inv.lt {s : St} {live : List (Nat × Flt)} (hi : Inv s live) : s.flts.length ∉ live.map Prod.fst := by
  intro hx
  obtain ⟨p, hp, he⟩ := List.mem_map.1 hx
  have := (List.getElem?_eq_some_iff.1 (hi.flt p hp)).1
  omega

/-- A handler that is gone gets nothing. -/
theorem run_gone {react : Nat → Info → Reaction} {h : Nat} : ∀ (as : List Act) (live : List (Nat × Flt)) (s : St), Inv s live → Good react live s.flts.length as → h < s.flts.length →
    h ∉ live.map Prod.fst → (s.run react as).got h = s.got h
  | [], _, _, _, _, _, _ => rfl
  | .create f :: as, live, s, hi, hg, hl, hh => by
    have := run_gone (react := react) (h := h) as _ (s.create f) (hi.create hg.1 hg.2.1) (by simpa [St.create] using hg.2.2) (by simp [St.create]; omega)
      (by simp only [List.map_append, List.map_cons, List.map_nil, List.mem_append, List.mem_singleton, not_or]; exact ⟨hh, by omega⟩)
    simpa [St.run, St.step, St.create] using this
  | .destroy h' :: as, live, s, hi, hg, hl, hh => by
    obtain ⟨⟨f, hm⟩, hg⟩ := hg
    obtain ⟨hd, hi'⟩ := hi.destroy hm
    have hlt : h' < s.flts.length := (List.getElem?_eq_some_iff.1 (hi.flt _ hm)).1
    have := run_gone (react := react) (h := h) as _ _ hi' hg hl (fun hx => hh ((List.filter_sublist.map _).subset hx))
    simpa [St.run, St.step, hlt, hd] using this
  | .events is :: as, live, s, hi, hg, hl, hh => by
    obtain ⟨s', h1, h2, h3, _, h5⟩ := batch_good is live s hi hg.1
    have := run_gone (react := react) (h := h) as _ s' h2 (by rw [h3]; exact hg.2) (by rw [h3]; exact hl) (fun hx => hh ((List.filter_sublist.map _).subset hx))
    simp only [St.run, List.foldl_cons, St.step, h1]
    rw [← h5 h hh]; exact this

theorem run_due {react : Nat → Info → Reaction} {h : Nat} {f : Flt} : ∀ (as : List Act) (live : List (Nat × Flt)) (s : St), Inv s live → Good react live s.flts.length as →
    (h, f) ∈ live → (s.run react as).got h = s.got h ++ due react h f as
  | [], _, _, _, _, _ => by simp [St.run, due]
  | .create g :: as, live, s, hi, hg, hm => by
    have := run_due (react := react) as _ (s.create g) (hi.create hg.1 hg.2.1) (by simpa [St.create] using hg.2.2) (List.mem_append_left _ hm)
    simpa [St.run, St.step, St.create, due] using this
  | .destroy h' :: as, live, s, hi, hg, hm => by
    obtain ⟨⟨f', hm'⟩, hg⟩ := hg
    obtain ⟨hd, hi'⟩ := hi.destroy hm'
    have hlt : h' < s.flts.length := (List.getElem?_eq_some_iff.1 (hi.flt _ hm')).1
    have hlh : h < s.flts.length := (List.getElem?_eq_some_iff.1 (hi.flt _ hm)).1
    simp only [due]
    by_cases he : h' = h
    · subst he
      have := run_gone (react := react) (h := h') as _ _ hi' hg hlh (by simp [List.mem_map])
      simpa [St.run, St.step, hlt, hd] using this
    · have := run_due (react := react) as _ _ hi' hg (List.mem_filter.2 ⟨hm, by simpa using fun e => he e.symm⟩)
      rw [if_neg he]
      simpa [St.run, St.step, hlt, hd] using this
  | .events is :: as, live, s, hi, hg, hm => by
    obtain ⟨s', h1, h2, h3, h4, _⟩ := batch_good is live s hi hg.1
    have hlh : h < s.flts.length := (List.getElem?_eq_some_iff.1 (hi.flt _ hm)).1
    simp only [St.run, List.foldl_cons, St.step, h1, due]
    split
    · next hq =>
      rw [← h4 h f hm]
      refine run_gone (react := react) (h := h) as _ s' h2 (by rw [h3]; exact hg.2) (by rw [h3]; exact hlh) ?_
      intro hx
      obtain ⟨p, hp, he⟩ := List.mem_map.1 hx
      obtain ⟨hp1, hp2⟩ := List.mem_filter.1 hp
      have e1 := hi.flt p hp1
      have e2 := hi.flt _ hm
      rw [he] at e1
      simp only at e2
      rw [e2] at e1
      simp only [Option.some.injEq] at e1
      have := of_decide_eq_true hp2
      rw [he, ← e1, hq] at this; cases this
    · next hq =>
      rw [← List.append_assoc, ← h4 h f hm]
      exact run_due (react := react) as _ s' h2 (by rw [h3]; exact hg.2) (List.mem_filter.2 ⟨hm, by simpa using hq⟩)

/-- The state after a good beginning, and the rest of the history. -/
theorem run_pre {react : Nat → Info → Reaction} (rest : List Act) : ∀ (pre : List Act) (live : List (Nat × Flt)) (s : St), Inv s live → Good react live s.flts.length (pre ++ rest) →
    (∀ h, s.flts.length ≤ h → s.got h = []) →
    Inv (s.run react pre) (after react live s.flts.length pre) ∧ Good react (after react live s.flts.length pre) (s.run react pre).flts.length rest ∧ (s.run react pre).flts.length = s.flts.length + creates pre ∧
      ∀ h, (s.run react pre).flts.length ≤ h → (s.run react pre).got h = []
  | [], live, s, hi, hg, h0 => ⟨hi, hg, by simp [St.run, creates], h0⟩
  | .create f :: as, live, s, hi, hg, h0 => by
    obtain ⟨a, b, c, d⟩ := run_pre (react := react) rest as _ (s.create f) (hi.create hg.1 hg.2.1) (by simpa [St.create] using hg.2.2)
      (fun h hh => h0 h (by simp [St.create] at hh; omega))
    simp only [St.run, List.foldl_cons, St.step, creates, after] at a b c d ⊢
    have hl : (s.create f).flts.length = s.flts.length + 1 := by simp [St.create]
    rw [hl] at a b c
    exact ⟨a, b, by omega, d⟩
  | .destroy h' :: as, live, s, hi, hg, h0 => by
    obtain ⟨⟨f', hm'⟩, hg⟩ := hg
    obtain ⟨hd, hi'⟩ := hi.destroy hm'
    have hlt : h' < s.flts.length := (List.getElem?_eq_some_iff.1 (hi.flt _ hm')).1
    obtain ⟨a, b, c, d⟩ := run_pre (react := react) rest as _ _ hi' hg h0
    simp only [St.run, List.foldl_cons, St.step, creates, after, if_pos hlt, hd] at a b c d ⊢
    exact ⟨a, b, c, d⟩
  | .events is :: as, live, s, hi, hg, h0 => by
    obtain ⟨s', h1, h2, h3, h4, h5⟩ := batch_good is live s hi hg.1
    obtain ⟨a, b, c, d⟩ := run_pre (react := react) rest as _ s' h2 (by rw [h3]; exact hg.2) (fun h hh => by
      rw [h3] at hh
      rw [h5 h (fun hx => by
        obtain ⟨p, hp, he⟩ := List.mem_map.1 hx
        have := (List.getElem?_eq_some_iff.1 (hi.flt p hp)).1
        omega)]
      exact h0 h hh)
    simp only [St.run, List.foldl_cons, St.step, creates, after, h1] at a b c d ⊢
    rw [h3] at a b c
    exact ⟨a, b, c, d⟩

theorem match_none {i : Info} : ∀ {f : Flt}, matchSignal i f = none ↔ ∃ a k v b, f = a ++ (k, v) :: b ∧ Fits i a ∧ i k = none
  | [] => by simp [matchSignal]
  | (k, v) :: l => by
    simp only [matchSignal]
    cases h : i k with
    | none => simp only [true_iff]; exact ⟨[], k, v, l, rfl, by simp [Fits], h⟩
    | some x =>
      simp only
      by_cases hx : x = v
      · simp only [hx, ne_eq, not_true, if_false]
        rw [match_none]
        constructor
        · rintro ⟨a, k', v', b, rfl, ha, hk⟩
          refine ⟨(k, v) :: a, k', v', b, rfl, ?_, hk⟩
          intro y hy
          rcases List.mem_cons.1 hy with rfl | hy
          · rw [h, hx]
          · exact ha y hy
        · rintro ⟨a, k', v', b, he, ha, hk⟩
          cases a with
          | nil => simp only [List.nil_append, List.cons.injEq, Prod.mk.injEq] at he; rw [← he.1.1, h] at hk; cases hk
          | cons y a =>
            simp only [List.cons_append, List.cons.injEq] at he
            exact ⟨a, k', v', b, he.2, fun z hz => ha z (List.mem_cons_of_mem _ hz), hk⟩
      · simp only [ne_eq, hx, not_false_iff, if_true, reduceCtorEq, false_iff]
        rintro ⟨a, k', v', b, he, ha, hk⟩
        cases a with
        | nil => simp only [List.nil_append, List.cons.injEq, Prod.mk.injEq] at he; rw [← he.1.1, h] at hk; cases hk
        | cons y a =>
          simp only [List.cons_append, List.cons.injEq] at he
          have := ha y List.mem_cons_self
          rw [← he.1] at this
          simp only at this
          rw [h, Option.some.injEq] at this
          exact hx this

theorem destroy_flts (s : St) (h : Nat) : (s.destroy h).1.flts = s.flts := by unfold St.destroy; split <;> rfl
theorem destroy_got (s : St) (h : Nat) : (s.destroy h).1.got = s.got := by unfold St.destroy; split <;> rfl
theorem destroy_reg (s : St) (h : Nat) : ∀ p ∈ (s.destroy h).1.reg, p ∈ s.reg := by
  unfold St.destroy
  split
  · exact fun p hp => Dict.mem_erase hp
  · exact fun p hp => hp

/-- Whatever happens in it: the loop over the handlers gives events only to those that it goes over, and makes no entries. -/
theorem dispatch_frame (react : Nat → Info → Reaction) (i : Info) : ∀ (L : List (List (Str × Int) × Nat)) (s : St),
    (dispatch react i L s).1.flts = s.flts ∧ (∀ p ∈ (dispatch react i L s).1.reg, p ∈ s.reg) ∧ (s.reg.Uniq → (dispatch react i L s).1.reg.Uniq) ∧
    ∀ h, h ∉ L.map Prod.snd → (dispatch react i L s).1.got h = s.got h
  | [], s => ⟨rfl, fun _ h => h, fun h => h, fun _ _ => rfl⟩
  | (k, x) :: L, s => by
    have hg : ∀ h, h ∉ ((k, x) :: L).map Prod.snd → (s.give x i).got h = s.got h := fun h hh => by
      simp only [List.map_cons, List.mem_cons, not_or] at hh
      simp [St.give, hh.1]
    have hsub : ∀ h, h ∉ ((k, x) :: L).map Prod.snd → h ∉ L.map Prod.snd := fun h hh => by
      simp only [List.map_cons, List.mem_cons, not_or] at hh; exact hh.2
    simp only [dispatch]
    split
    · exact ⟨rfl, fun _ h => h, fun h => h, fun _ _ => rfl⟩
    · obtain ⟨a, b, c, d⟩ := dispatch_frame react i L s
      exact ⟨a, b, c, fun h hh => d h (hsub h hh)⟩
    · split
      · exact ⟨rfl, fun _ h => h, fun h => h, hg⟩
      · obtain ⟨a, b, c, d⟩ := dispatch_frame react i L (s.give x i)
        exact ⟨a, b, c, fun h hh => (d h (hsub h hh)).trans (hg h hh)⟩
      · have hu : ∀ t : St, t.reg.Uniq → (t.destroy x).1.reg.Uniq := fun t ht => by
          unfold St.destroy
          split
          · exact Dict.uniq_erase _ ht _
          · exact ht
        have e1 := destroy_flts (s.give x i) x
        have e2 := destroy_got (s.give x i) x
        have e3 := destroy_reg (s.give x i) x
        have e4 := hu (s.give x i)
        split
        · next t he =>
          rw [he] at e1 e2 e3 e4
          exact ⟨e1, e3, e4, fun h hh => by rw [e2]; exact hg h hh⟩
        · next t he =>
          rw [he] at e1 e2 e3 e4
          obtain ⟨a, b, c, d⟩ := dispatch_frame react i L t
          exact ⟨a.trans e1, fun p hp => e3 p (b p hp), fun h => c (e4 h), fun h hh => by rw [d h (hsub h hh), e2]; exact hg h hh⟩

theorem dispatch_append (react : Nat → Info → Reaction) (i : Info) : ∀ (L M : List (List (Str × Int) × Nat)) (s : St),
    dispatch react i (L ++ M) s = match dispatch react i L s with
      | (t, true) => (t, true)
      | (t, false) => dispatch react i M t
  | [], _, _ => rfl
  | (k, x) :: L, M, s => by
    simp only [List.cons_append, dispatch]
    cases hm : matchSignal i (s.flt x) with
    | none => rfl
    | some b =>
      cases b with
      | false => exact dispatch_append react i L M s
      | true =>
        simp only
        cases hre : react x i with
        | raise => rfl
        | keep => exact dispatch_append react i L M _
        | quit =>
          simp only
          cases he : (s.give x i).destroy x with
          | mk t b =>
            cases b with
            | true => rfl
            | false => exact dispatch_append react i L M _

/-- The entries: each key once, and each under the key of its filter. -/
structure RInv (s : St) : Prop where
  uniq : s.reg.Uniq
  ent : ∀ p ∈ s.reg, p.2 < s.flts.length ∧ p.1 = key (s.flt p.2)

theorem RInv.create {s : St} (hs : RInv s) (f : Flt) : RInv (s.create f) where
  uniq := Dict.uniq_set _ hs.uniq _ _
  ent := by
    intro p hp
    rcases Dict.mem_set hp with h | h
    · subst h; simp [St.create, St.flt]
    · obtain ⟨h1, h2⟩ := hs.ent p h
      refine ⟨by simp [St.create]; omega, ?_⟩
      rw [h2]; simp only [St.flt, St.create]; rw [List.getElem?_append_left h1]

theorem RInv.batch {react : Nat → Info → Reaction} : ∀ {is : List Info} {s : St}, RInv s → RInv (batch react is s).1
  | [], _, hs => hs
  | i :: is, s, hs => by
    obtain ⟨a, b, c, _⟩ := dispatch_frame react i s.reg s
    have h1 : RInv (dispatch react i s.reg s).1 := ⟨c hs.uniq, fun p hp => by
      obtain ⟨h1, h2⟩ := hs.ent p (b p hp)
      exact ⟨by rw [a]; exact h1, by rw [h2]; simp only [St.flt, a]⟩⟩
    simp only [Registry.batch]
    split
    · next he => rw [he] at h1; exact h1
    · next he => rw [he] at h1; exact RInv.batch h1

theorem RInv.step {react : Nat → Info → Reaction} {s : St} (hs : RInv s) (a : Act) : RInv (s.step react a) := by
  cases a with
  | create f => exact hs.create f
  | destroy h =>
    simp only [St.step]
    split
    · refine ⟨?_, fun p hp => ?_⟩
      · unfold St.destroy
        split
        · exact Dict.uniq_erase _ hs.uniq _
        · exact hs.uniq
      · obtain ⟨h1, h2⟩ := hs.ent p (destroy_reg s h p hp)
        exact ⟨by rw [destroy_flts]; exact h1, by rw [h2]; simp only [St.flt, destroy_flts]⟩
    · exact hs
  | events is => exact hs.batch

theorem RInv.run {react : Nat → Info → Reaction} : ∀ (as : List Act) {s : St}, RInv s → RInv (s.run react as)
  | [], _, hs => hs
  | a :: as, _, hs => RInv.run (react := react) as (hs.step a)

theorem RInv.init : RInv St.init := ⟨Dict.uniq_nil, by simp [St.init]⟩

/-- Handler `h` has been made, and has no entry. -/
def Out (s : St) (h : Nat) : Prop := h < s.flts.length ∧ ∀ p ∈ s.reg, p.2 ≠ h

theorem Out.batch {react : Nat → Info → Reaction} {h : Nat} : ∀ {is : List Info} {s : St}, Out s h → Out (batch react is s).1 h ∧ (Registry.batch react is s).1.got h = s.got h
  | [], _, hs => ⟨hs, rfl⟩
  | i :: is, s, hs => by
    obtain ⟨a, b, _, d⟩ := dispatch_frame react i s.reg s
    have h1 : Out (dispatch react i s.reg s).1 h := ⟨by rw [a]; exact hs.1, fun p hp => hs.2 p (b p hp)⟩
    have h2 : (dispatch react i s.reg s).1.got h = s.got h := d h (fun hx => by
      obtain ⟨p, hp, he⟩ := List.mem_map.1 hx
      exact hs.2 p hp he)
    simp only [Registry.batch]
    split
    · next he => rw [he] at h1 h2; exact ⟨h1, h2⟩
    · next he =>
      rw [he] at h1 h2
      obtain ⟨k1, k2⟩ := Out.batch (react := react) (is := is) h1
      exact ⟨k1, k2.trans h2⟩

theorem Out.step {react : Nat → Info → Reaction} {s : St} {h : Nat} (hs : Out s h) (a : Act) : Out (s.step react a) h ∧ (s.step react a).got h = s.got h := by
  cases a with
  | create f =>
    refine ⟨⟨by simp [St.step, St.create]; have := hs.1; omega, fun p hp => ?_⟩, rfl⟩
    rcases Dict.mem_set hp with e | e
    · subst e; have := hs.1; simp only; omega
    · exact hs.2 p e
  | destroy h' =>
    simp only [St.step]
    split
    · exact ⟨⟨by rw [destroy_flts]; exact hs.1, fun p hp => hs.2 p (destroy_reg s h' p hp)⟩, by rw [destroy_got]⟩
    · exact ⟨hs, rfl⟩
  | events is => exact hs.batch

theorem Out.run {react : Nat → Info → Reaction} {h : Nat} : ∀ (as : List Act) {s : St}, Out s h → Out (s.run react as) h ∧ (s.run react as).got h = s.got h
  | [], _, hs => ⟨hs, rfl⟩
  | a :: as, s, hs => by
    obtain ⟨h1, h2⟩ := hs.step (react := react) a
    obtain ⟨h3, h4⟩ := Out.run (react := react) as h1
    exact ⟨h3, h4.trans h2⟩

theorem RInv.same {s t : St} (hs : RInv s) (hu : t.reg.Uniq) (hf : t.flts = s.flts) (hr : ∀ p ∈ t.reg, p ∈ s.reg) : RInv t :=
  ⟨hu, fun p hp => by
    obtain ⟨h1, h2⟩ := hs.ent p (hr p hp)
    exact ⟨by rw [hf]; exact h1, by rw [h2]; simp only [St.flt, hf]⟩⟩

theorem destroy_uniq {s : St} (hs : s.reg.Uniq) (h : Nat) : (s.destroy h).1.reg.Uniq := by
  unfold St.destroy
  split
  · exact Dict.uniq_erase _ hs _
  · exact hs

theorem RInv.destroy {s : St} (hs : RInv s) (h : Nat) : RInv (s.destroy h).1 := hs.same (destroy_uniq hs.uniq h) (destroy_flts s h) (destroy_reg s h)

theorem destroy_out {s : St} (hs : RInv s) {h : Nat} (hl : h < s.flts.length) : Out (s.destroy h).1 h := by
  refine ⟨by rw [destroy_flts]; exact hl, fun p hp he => ?_⟩
  have hk := (hs.ent p (destroy_reg s h p hp)).2
  rw [he] at hk
  unfold St.destroy at hp
  split at hp
  · have h1 := Dict.get?_of_mem _ (Dict.uniq_erase _ hs.uniq (key (s.flt h))) (k := p.1) (v := p.2) hp
    rw [Dict.get?_erase _ hs.uniq, if_pos hk.symm] at h1
    cases h1
  · next hm =>
    have h1 := Dict.get?_of_mem _ hs.uniq (k := p.1) (v := p.2) hp
    rw [hk] at h1
    exact hm (by simp [Dict.mem, h1])

theorem values_nodup {s : St} (hs : RInv s) : (s.reg.map Prod.snd).Nodup := by
  have : ∀ L : List (List (Str × Int) × Nat), (L.map Prod.fst).Nodup → (∀ p ∈ L, p.1 = key (s.flt p.2)) → (L.map Prod.snd).Nodup := by
    intro L
    induction L with
    | nil => simp
    | cons p L ih =>
      intro hn he
      simp only [List.map_cons, List.nodup_cons] at hn ⊢
      refine ⟨fun hx => ?_, ih hn.2 (fun q hq => he q (List.mem_cons_of_mem _ hq))⟩
      obtain ⟨q, hq, e⟩ := List.mem_map.1 hx
      refine hn.1 (List.mem_map.2 ⟨q, hq, ?_⟩)
      rw [he q (List.mem_cons_of_mem _ hq), he p List.mem_cons_self, e]
  exact this s.reg hs.uniq (fun p hp => (hs.ent p hp).2)

theorem Out.dispatch {react : Nat → Info → Reaction} {i : Info} {s : St} {h : Nat} (ho : Out s h) (L : List (List (Str × Int) × Nat)) : Out (dispatch react i L s).1 h := by
  obtain ⟨a, b, _, _⟩ := dispatch_frame react i L s
  exact ⟨by rw [a]; exact ho.1, fun p hp => ho.2 p (b p hp)⟩

/-- What one event can do to one handler, whatever the others do. -/
theorem dispatch_one {react : Nat → Info → Reaction} {i : Info} {h : Nat} {f : Flt} : ∀ (L : List (List (Str × Int) × Nat)) (s : St), RInv s → s.flts[h]? = some f → (L.map Prod.snd).Nodup →
    (dispatch react i L s).1.got h = s.got h ∨
    (h ∈ L.map Prod.snd ∧ Fits i f ∧ (dispatch react i L s).1.got h = s.got h ++ [i] ∧ (react h i = .quit → Out (dispatch react i L s).1 h))
  | [], _, _, _, _ => .inl rfl
  | (k, x) :: L, s, hs, hf, hn => by
    simp only [List.map_cons, List.nodup_cons] at hn
    have hflt : s.flt h = f := by simp [St.flt, hf]
    have hl := (List.getElem?_eq_some_iff.1 hf).1
    by_cases hx : x = h
    · subst hx
      simp only [dispatch, hflt]
      cases hm : matchSignal i f with
      | none => exact .inl rfl
      | some b =>
        cases b with
        | false => exact .inl ((dispatch_frame react i L s).2.2.2 x hn.1)
        | true =>
          have hfit := match_true.1 hm
          have hg : (s.give x i).got x = s.got x ++ [i] := by simp [St.give]
          simp only
          cases hr : react x i with
          | raise => exact .inr ⟨by simp, hfit, hg, fun e => by cases e⟩
          | keep => exact .inr ⟨by simp, hfit, by rw [(dispatch_frame react i L _).2.2.2 x hn.1, hg], fun e => by cases e⟩
          | quit =>
            have hsg : RInv (s.give x i) := ⟨hs.uniq, hs.ent⟩
            have ho := destroy_out hsg (h := x) hl
            have hgd := destroy_got (s.give x i) x
            simp only
            cases hd : (s.give x i).destroy x with
            | mk t b =>
              rw [hd] at ho hgd
              cases b with
              | true => exact .inr ⟨by simp, hfit, by rw [hgd, hg], fun _ => ho⟩
              | false => exact .inr ⟨by simp, hfit, by rw [(dispatch_frame react i L _).2.2.2 x hn.1, hgd, hg], fun _ => ho.dispatch L⟩
    · have go : ∀ t : St, RInv t → t.flts = s.flts → t.got h = s.got h →
          (dispatch react i L t).1.got h = s.got h ∨
          (h ∈ ((k, x) :: L).map Prod.snd ∧ Fits i f ∧ (dispatch react i L t).1.got h = s.got h ++ [i] ∧ (react h i = .quit → Out (dispatch react i L t).1 h)) := by
        intro t ht hft hgt
        rcases dispatch_one (react := react) (i := i) L t ht (by rw [hft]; exact hf) hn.2 with h1 | ⟨h1, h2, h3, h4⟩
        · exact .inl (h1.trans hgt)
        · exact .inr ⟨by simp only [List.map_cons, List.mem_cons]; exact .inr h1, h2, by rw [h3, hgt], h4⟩
      have hgx : (s.give x i).got h = s.got h := by simp only [St.give]; rw [if_neg (fun e : h = x => hx e.symm)]
      have hsg : RInv (s.give x i) := ⟨hs.uniq, hs.ent⟩
      simp only [dispatch]
      cases hm : matchSignal i (s.flt x) with
      | none => exact .inl rfl
      | some b =>
        cases b with
        | false => exact go s hs rfl rfl
        | true =>
          simp only
          cases hr : react x i with
          | raise => exact .inl hgx
          | keep => exact go _ hsg rfl hgx
          | quit =>
            have e1 := destroy_flts (s.give x i) x
            have e2 := destroy_got (s.give x i) x
            have e3 := hsg.destroy x
            simp only
            cases hd : (s.give x i).destroy x with
            | mk t b =>
              rw [hd] at e1 e2 e3
              cases b with
              | true => exact .inl (by rw [e2]; exact hgx)
              | false => exact go t e3 e1 (by rw [e2]; exact hgx)

/-- Nothing comes after the event at which the handler has destroyed itself. -/
def Last (react : Nat → Info → Reaction) (s : St) (h : Nat) : Prop := ∀ a i b, s.got h = a ++ i :: b → react h i = .quit → b = [] ∧ Out s h

open Classical in
theorem batch_one {react : Nat → Info → Reaction} {h : Nat} {f : Flt} : ∀ (is : List Info) (s : St), RInv s → s.flts[h]? = some f → Last react s h →
    ∃ l, (batch react is s).1.got h = s.got h ++ l ∧ l.Sublist (is.filter (fun i => decide (Fits i f))) ∧ Last react (batch react is s).1 h ∧ (batch react is s).1.flts = s.flts
  | [], s, _, _, hl => ⟨[], by simp [batch], by simp, hl, rfl⟩
  | i :: is, s, hs, hf, hl => by
    obtain ⟨fr1, fr2, fr3, _⟩ := dispatch_frame react i s.reg s
    have hs1 : RInv (dispatch react i s.reg s).1 := hs.same (fr3 hs.uniq) fr1 fr2
    have hstep : ∃ l, (dispatch react i s.reg s).1.got h = s.got h ++ l ∧ l.Sublist ([i].filter (fun i => decide (Fits i f))) ∧ Last react (dispatch react i s.reg s).1 h := by
      rcases dispatch_one (react := react) (i := i) s.reg s hs hf (values_nodup hs) with h1 | ⟨h1, h2, h3, h4⟩
      · refine ⟨[], by simpa using h1, by simp, fun a j b he hq => ?_⟩
        rw [h1] at he
        obtain ⟨h5, h6⟩ := hl a j b he hq
        exact ⟨h5, h6.dispatch _⟩
      · refine ⟨[i], h3, by simp [h2], fun a j b he hq => ?_⟩
        have hin : ¬ Out s h := fun ho => by
          obtain ⟨p, hp, e⟩ := List.mem_map.1 h1
          exact ho.2 p hp e
        rw [h3] at he
        rcases List.eq_nil_or_concat b with rfl | ⟨b', z, rfl⟩
        · have he' := List.append_inj' he rfl
          simp only [List.cons.injEq, and_true] at he'
          exact ⟨rfl, h4 (by rw [he'.2]; exact hq)⟩
        · exfalso
          rw [List.concat_eq_append, show a ++ j :: (b' ++ [z]) = (a ++ j :: b') ++ [z] by simp] at he
          have he' := List.append_inj' he rfl
          exact hin (hl a j b' he'.1 hq).2
    obtain ⟨l1, a1, a2, a3⟩ := hstep
    have hsplit : (i :: is).filter (fun i => decide (Fits i f)) = [i].filter (fun i => decide (Fits i f)) ++ is.filter (fun i => decide (Fits i f)) := by
      rw [← List.filter_append]; rfl
    simp only [batch]
    cases hd : dispatch react i s.reg s with
    | mk t b =>
      rw [hd] at hs1 a1 a3 fr1
      cases b with
      | true => exact ⟨l1, a1, by rw [hsplit]; exact a2.trans (List.sublist_append_left _ _), a3, fr1⟩
      | false =>
        obtain ⟨l2, b1, b2, b3, b4⟩ := batch_one is t hs1 (by simp only at fr1; rw [fr1]; exact hf) a3
        exact ⟨l1 ++ l2, by rw [b1]; simp only at a1; rw [a1, List.append_assoc], by rw [hsplit]; exact a2.append b2, b3, b4.trans fr1⟩

theorem Out.last {react : Nat → Info → Reaction} {s t : St} {h : Nat} (hl : Last react s h) (hg : t.got h = s.got h) (ho : Out s h → Out t h) : Last react t h := fun a i b he hq => by
  rw [hg] at he
  exact ⟨(hl a i b he hq).1, ho (hl a i b he hq).2⟩

open Classical in
theorem run_one {react : Nat → Info → Reaction} {h : Nat} {f : Flt} : ∀ (as : List Act) (s : St), RInv s → s.flts[h]? = some f → Last react s h →
    ∃ l, (s.run react as).got h = s.got h ++ l ∧ l.Sublist (asked h f as) ∧ Last react (s.run react as) h
  | [], s, _, _, hl => ⟨[], by simp [St.run], by simp, hl⟩
  | .create g :: as, s, hs, hf, hl => by
    have hlt := (List.getElem?_eq_some_iff.1 hf).1
    exact run_one (react := react) as (s.create g) (hs.create g) (by simp only [St.create]; rw [List.getElem?_append_left hlt]; exact hf)
      (Out.last hl rfl (fun ho => (ho.step (react := react) (.create g)).1))
  | .destroy h' :: as, s, hs, hf, hl => by
    have hlt := (List.getElem?_eq_some_iff.1 hf).1
    have hg : (s.step react (.destroy h')).got h = s.got h := by
      simp only [St.step]; split
      · rw [destroy_got]
      · rfl
    have hfl : (s.step react (.destroy h')).flts = s.flts := by
      simp only [St.step]; split
      · rw [destroy_flts]
      · rfl
    have hl' : Last react (s.step react (.destroy h')) h := Out.last hl hg (fun ho => (ho.step (react := react) (.destroy h')).1)
    simp only [asked]
    split
    · next e =>
      subst e
      have ho : Out (s.step react (.destroy h')) h' := by simp only [St.step, if_pos hlt]; exact destroy_out hs hlt
      obtain ⟨o1, o2⟩ := ho.run (react := react) as
      have hrun : s.run react (.destroy h' :: as) = (s.step react (.destroy h')).run react as := rfl
      refine ⟨[], by rw [hrun, o2, hg, List.append_nil], by simp, ?_⟩
      rw [hrun]; exact Out.last hl' o2 (fun _ => o1)
    · obtain ⟨l, h1, h2, h3⟩ := run_one (react := react) as _ (hs.step (.destroy h')) (by rw [hfl]; exact hf) hl'
      exact ⟨l, by rw [← hg]; exact h1, h2, h3⟩
  | .events is :: as, s, hs, hf, hl => by
    obtain ⟨l1, a1, a2, a3, a4⟩ := batch_one (react := react) is s hs hf hl
    obtain ⟨l2, b1, b2, b3⟩ := run_one (react := react) as (batch react is s).1 hs.batch (by rw [a4]; exact hf) a3
    exact ⟨l1 ++ l2, by rw [← List.append_assoc, ← a1]; exact b1, a2.append b2, b3⟩

/-- Whatever has happened before, a handler that has not been made yet has got nothing. -/
theorem got_new {react : Nat → Info → Reaction} : ∀ (as : List Act) (s : St), RInv s → (∀ h, s.flts.length ≤ h → s.got h = []) →
    (s.run react as).flts.length = s.flts.length + creates as ∧ ∀ h, (s.run react as).flts.length ≤ h → (s.run react as).got h = []
  | [], s, _, h0 => ⟨by simp [St.run, creates], h0⟩
  | .create g :: as, s, hs, h0 => by
    obtain ⟨a, b⟩ := got_new (react := react) as (s.create g) (hs.create g) (fun h hh => h0 h (by simp [St.create] at hh; omega))
    refine ⟨?_, b⟩
    have : (s.create g).flts.length = s.flts.length + 1 := by simp [St.create]
    have e : s.run react (.create g :: as) = (s.create g).run react as := rfl
    rw [e, a, this]; simp only [creates]; omega
  | .destroy h' :: as, s, hs, h0 => by
    have hg : (s.step react (.destroy h')).got = s.got := by
      simp only [St.step]; split
      · rw [destroy_got]
      · rfl
    have hfl : (s.step react (.destroy h')).flts = s.flts := by
      simp only [St.step]; split
      · rw [destroy_flts]
      · rfl
    obtain ⟨a, b⟩ := got_new (react := react) as _ (hs.step (react := react) (.destroy h')) (fun h hh => by rw [hg]; exact h0 h (by rw [← hfl]; exact hh))
    exact ⟨by rw [← hfl]; exact a, b⟩
  | .events is :: as, s, hs, h0 => by
    have hb : ∀ (is : List Info) (t : St), RInv t → (batch react is t).1.flts = t.flts ∧ ∀ h, t.flts.length ≤ h → (batch react is t).1.got h = t.got h := by
      intro is
      induction is with
      | nil => exact fun t _ => ⟨rfl, fun _ _ => rfl⟩
      | cons i is ih =>
        intro t ht
        obtain ⟨c1, c2, c3, c4⟩ := dispatch_frame react i t.reg t
        have ht1 : RInv (dispatch react i t.reg t).1 := ht.same (c3 ht.uniq) c1 c2
        have c5 : ∀ h, t.flts.length ≤ h → (dispatch react i t.reg t).1.got h = t.got h := fun h hh => c4 h (fun hx => by
          obtain ⟨p, hp, e⟩ := List.mem_map.1 hx
          have := (ht.ent p hp).1
          omega)
        simp only [batch]
        cases hd : dispatch react i t.reg t with
        | mk u b =>
          rw [hd] at c1 c5 ht1
          cases b with
          | true => exact ⟨c1, c5⟩
          | false =>
            obtain ⟨d1, d2⟩ := ih u ht1
            simp only at c1 c5
            exact ⟨d1.trans c1, fun h hh => (d2 h (by rw [c1]; exact hh)).trans (c5 h hh)⟩
    obtain ⟨e1, e2⟩ := hb is s hs
    obtain ⟨a, b⟩ := got_new (react := react) as (batch react is s).1 hs.batch (fun h hh => by rw [e1] at hh; rw [e2 h hh]; exact h0 h hh)
    exact ⟨by rw [← e1]; exact a, b⟩

end Pieshell.Registry
