import Verif.Model.Redir
import Verif.Lemmas.Dict
/-! Helper lemmas about descriptor tables and redirections. -/
namespace Pieshell

namespace FdTable

@[simp] theorem get_set (t : FdTable) (n m : Nat) (e : Entry) :
    (t.set n e).get m = if m = n then some e else t.get m := rfl
@[simp] theorem get_clear (t : FdTable) (n m : Nat) :
    (t.clear n).get m = if m = n then none else t.get m := rfl

theorem bounded_set {t : FdTable} (h : t.Bounded) (n : Nat) (e : Entry) : (t.set n e).Bounded := by
  intro m hm
  have hm : max t.bound (n+1) ≤ m := hm
  have : m ≠ n := by omega
  simp [this]; exact h m (by omega)

theorem bounded_clear {t : FdTable} (h : t.Bounded) (n : Nat) : (t.clear n).Bounded := by
  intro m hm
  have hm : t.bound ≤ m := hm
  simp; intro _; exact h m hm

theorem lowestFree_free {t : FdTable} (h : t.Bounded) : t.get t.lowestFree = none := by
  unfold lowestFree
  cases hf : (List.range t.bound).find? (fun i => (t.get i).isNone) with
  | none => simpa using h t.bound (Nat.le_refl _)
  | some i => have := List.find?_some hf; simpa using this

theorem lowestFree_le_of_free {t : FdTable} (h : t.Bounded) {n : Nat} (hn : t.get n = none) :
    t.lowestFree ≤ n := by
  unfold lowestFree
  cases hf : (List.range t.bound).find? (fun i => (t.get i).isNone) with
  | none =>
    rw [List.find?_eq_none] at hf
    by_cases hlt : n < t.bound
    · have := hf n (by simpa using hlt); simp [hn] at this
    · simpa using hlt
  | some i =>
    simp only [Option.getD_some]
    by_cases hlt : n < t.bound
    · rw [List.find?_range_eq_some] at hf
      by_cases hin : i ≤ n
      · exact hin
      · have := hf.2.2 n (by omega); simp [hn] at this
    · have := List.mem_of_find?_eq_some hf
      simp at this; omega

theorem lowestFree_ne {t : FdTable} (h : t.Bounded) {n : Nat} {e : Entry} (hn : t.get n = some e) :
    t.lowestFree ≠ n := by
  intro he; rw [← he, lowestFree_free h] at hn; cases hn

theorem bounded_ofList (l : List (Nat × Entry)) : (ofList l).Bounded := by
  intro n hn
  replace hn : l.foldr (fun p b => max (p.1 + 1) b) 0 ≤ n := hn
  show Dict.get? l n = none
  induction l with
  | nil => rfl
  | cons p l ih =>
    obtain ⟨a, b⟩ := p
    rw [List.foldr_cons] at hn
    have h1 : a ≠ n := by
      intro h; subst h
      have := Nat.le_trans (Nat.le_max_left _ _) hn
      simp at this; omega
    simp only [Dict.get?, h1, ↓reduceIte]
    exact ih (Nat.le_trans (Nat.le_max_right _ _) hn)

end FdTable

/-! ### move loop -/

/-- The redirections after the move loop. -/
def moved (b : Nat) : List Redirect → List Redirect
  | [] => []
  | r :: l => (match r.source with | .fd _ => { r with source := .fd b } | _ => r) :: moved (b+1) l

theorem mem_srcFds {l : List Redirect} {n : Nat} : n ∈ srcFds l ↔ ∃ r ∈ l, r.source = .fd n := by
  unfold srcFds
  rw [List.mem_filterMap]
  constructor
  · rintro ⟨r, hr, h⟩; refine ⟨r, hr, ?_⟩; split at h <;> simp_all
  · rintro ⟨r, hr, h⟩; exact ⟨r, hr, by simp [h]⟩

theorem srcFds_cons_fd {r : Redirect} {n : Nat} (h : r.source = .fd n) (l : List Redirect) :
    srcFds (r :: l) = n :: srcFds l := by simp [srcFds, h]

theorem srcFds_cons_nofd {r : Redirect} (h : ∀ n, r.source ≠ .fd n) (l : List Redirect) :
    srcFds (r :: l) = srcFds l := by
  unfold srcFds; rw [List.filterMap_cons]
  cases hs : r.source <;> simp_all

/-- Supported sources after `make_pipes`: descriptor or path. -/
def Redirect.Plain (r : Redirect) : Prop := (∃ n, r.source = .fd n) ∨ (∃ p, r.source = .path p)

/-- Descriptor table after the move loop, in closed form. -/
def movedGet (l : List Redirect) (b : Nat) (t : FdTable) (n : Nat) : Option Entry :=
  if n < b then (if n ∈ srcFds l then none else t.get n)
  else match l[n - b]? with
    | some r => match r.source with
      | .fd s => (t.get s).map (fun e => { obj := e.obj, cloexec := false })
      | _ => t.get n
    | none => t.get n

theorem moveAll_ok (sys : Sys) (l : List Redirect) (b : Nat) (t : FdTable)
    (hb : t.Bounded)
    (hplain : ∀ r ∈ l, r.Plain)
    (hopen : ∀ s ∈ srcFds l, s < b ∧ ∃ e, t.get s = some e)
    (hnd : (srcFds l).Nodup)
    (hroom : b + l.length ≤ sys.maxfd) :
    ∃ t', moveAll sys l b t = (.ok (moved b l), t') ∧ t'.Bounded ∧ ∀ n, t'.get n = movedGet l b t n := by
  induction l generalizing b t with
  | nil =>
    refine ⟨t, rfl, hb, fun n => ?_⟩
    simp [movedGet, srcFds]
  | cons r l ih =>
    rcases hplain r (by simp) with ⟨s, hs⟩ | ⟨p, hp⟩
    · -- descriptor source
      rw [srcFds_cons_fd hs] at hopen hnd
      obtain ⟨hsb, e, he⟩ := hopen s (by simp)
      have hnd' := (List.nodup_cons.1 hnd)
      let t1 := (t.set b { obj := e.obj, cloexec := false }).clear s
      have hmove : r.move sys b t = (.ok { r with source := .fd b }, t1) := by
        simp only [Redirect.move, hs, osDup2, he]
        have h1 : ¬ sys.maxfd ≤ b := by simp at hroom; omega
        have h2 : s ≠ b := by omega
        simp [h1, h2, osClose, he, t1]
      have hb1 : t1.Bounded := FdTable.bounded_clear (FdTable.bounded_set hb _ _) _
      obtain ⟨t', hm, hb', hg⟩ := ih (b+1) t1 hb1 (fun r hr => hplain r (by simp [hr]))
        (by
          intro s2 hs2
          obtain ⟨h1, e2, he2⟩ := hopen s2 (by simp [hs2])
          refine ⟨by omega, e2, ?_⟩
          have : s2 ≠ s := by intro h; subst h; exact hnd'.1 hs2
          have : s2 ≠ b := by omega
          simp [t1, *])
        hnd'.2 (by simp at hroom; omega)
      refine ⟨t', ?_, hb', ?_⟩
      · simp only [moveAll, hmove, hm, moved, hs]
      · intro n
        rw [hg n]
        unfold movedGet
        rw [srcFds_cons_fd hs]
        have hbn : b ∉ srcFds l := by
          intro h; have := (hopen b (by simp [h])).1; omega
        rcases Nat.lt_trichotomy n b with h | h | h
        · have : n ≠ b := by omega
          have h2 : n < b + 1 := by omega
          by_cases hns : n = s
          · subst hns; simp [h, h2, t1]
          · simp [h, h2, t1, hns, this]
        · subst h
          have : n ≠ s := by omega
          simp [hbn, t1, this, hs, he]
        · have h1 : ¬ n < b := by omega
          have h2 : ¬ n < b + 1 := by omega
          have h3 : n - b = (n - (b+1)) + 1 := by omega
          simp only [h1, h2, ↓reduceIte]
          rw [h3, List.getElem?_cons_succ]
          have hns : n ≠ s := by omega
          have hnb : n ≠ b := by omega
          cases hq : l[n - (b+1)]? with
          | none => simp [t1, hns, hnb]
          | some r2 =>
            simp only
            split
            · rename_i s2 hs2
              have hmem : s2 ∈ srcFds l := mem_srcFds.2 ⟨r2, List.mem_of_getElem? hq, hs2⟩
              have h5 : s2 ≠ s := by intro h; subst h; exact hnd'.1 hmem
              have h6 : s2 ≠ b := by have := (hopen s2 (by simp [hmem])).1; omega
              simp [t1, h5, h6]
            · simp [t1, hns, hnb]
    · -- path source
      have hnofd : ∀ n, r.source ≠ .fd n := by intro n; rw [hp]; simp
      rw [srcFds_cons_nofd hnofd] at hopen hnd
      have hmove : r.move sys b t = (.ok r, t) := by simp [Redirect.move, hp]
      obtain ⟨t', hm, hb', hg⟩ := ih (b+1) t hb (fun r hr => hplain r (by simp [hr]))
        (by intro s2 hs2; obtain ⟨h1, e2, he2⟩ := hopen s2 hs2; exact ⟨by omega, e2, he2⟩)
        hnd (by simp at hroom; omega)
      refine ⟨t', ?_, hb', ?_⟩
      · simp only [moveAll, hmove, hm, moved, hp]
      · intro n
        rw [hg n]
        unfold movedGet
        rw [srcFds_cons_nofd hnofd]
        have hbn : b ∉ srcFds l := by
          intro h; have := (hopen b h).1; omega
        rcases Nat.lt_trichotomy n b with h | h | h
        · have h2 : n < b + 1 := by omega
          simp [h, h2]
        · subst h
          simp [hbn, hp]
        · have h1 : ¬ n < b := by omega
          have h2 : ¬ n < b + 1 := by omega
          have h3 : n - b = (n - (b+1)) + 1 := by omega
          simp only [h1, h2, ↓reduceIte]
          rw [h3, List.getElem?_cons_succ]

/-! ### perform loop -/

/-- What a (plain) redirection denotes in table `t`. -/
def denotes (cwd : Str) (t : FdTable) (r : Redirect) : Option Obj :=
  match r.source with
  | .fd s => (t.get s).map Entry.obj
  | .path p => some (.file cwd p r.flag r.mode)
  | _ => none

/-- `r.fd` is the lowest descriptor that is free when the redirections `bef` have been performed in table `t`. -/
def ClashAt (t : FdTable) (bef : List Redirect) (fd : Nat) : Prop :=
  (t.get fd = none ∧ fd ∉ bef.map Redirect.fd) ∧ ∀ m, m < fd → ¬ (t.get m = none ∧ m ∉ bef.map Redirect.fd)

theorem performAll_ok (sys : Sys) (cwd : Str) (b : Nat) (L : List Redirect) (t : FdTable)
    (hb : t.Bounded)
    (hplain : ∀ r ∈ L, r.Plain)
    (htgt : ∀ r ∈ L, r.fd < b ∧ r.fd < sys.maxfd)
    (htnd : (L.map Redirect.fd).Nodup)
    (hsrc : ∀ s ∈ srcFds L, b ≤ s ∧ ∃ e, t.get s = some e)
    (hsnd : (srcFds L).Nodup)
    (hpath : ∀ r ∈ L, ∀ p, r.source = .path p → sys.openErr cwd p r.flag = none)
    (hclash : ∀ bef r aft, L = bef ++ r :: aft → ∀ p, r.source = .path p → ¬ ClashAt t bef r.fd) :
    ∃ t', performAll sys cwd L t = (.ok (), t') ∧ t'.Bounded ∧
      (∀ r ∈ L, ∃ o, denotes cwd t r = some o ∧ t'.get r.fd = some { obj := o, cloexec := false }) ∧
      (∀ n, n ∉ L.map Redirect.fd → n ∉ srcFds L → t'.get n = t.get n) ∧
      (∀ n ∈ srcFds L, t'.get n = none) := by
  induction L generalizing t with
  | nil => exact ⟨t, rfl, hb, by simp, fun n _ _ => rfl, by simp [srcFds]⟩
  | cons r L ih =>
    have htnd' := List.nodup_cons.1 htnd
    have hr := htgt r (by simp)
    have hmax : ¬ sys.maxfd ≤ r.fd := by omega
    have htrans : ∀ t1 : FdTable, (∀ n, n < b → (t1.get n = none ↔ n ≠ r.fd ∧ t.get n = none)) →
        ∀ bef r2 aft, L = bef ++ r2 :: aft → ∀ p, r2.source = .path p → ¬ ClashAt t1 bef r2.fd := by
      intro t1 h1 bef r2 aft hL p hp hc
      have hlt : r2.fd < b := (htgt r2 (by rw [hL]; simp)).1
      refine hclash (r :: bef) r2 aft (by rw [hL]; rfl) p hp ⟨?_, fun m hm h => hc.2 m hm ?_⟩
      · obtain ⟨⟨a1, a2⟩, -⟩ := hc
        have := (h1 _ hlt).1 a1
        exact ⟨this.2, by simp only [List.map_cons, List.mem_cons, not_or]; exact ⟨this.1, a2⟩⟩
      · obtain ⟨a1, a2⟩ := h
        simp only [List.map_cons, List.mem_cons, not_or] at a2
        exact ⟨(h1 m (by omega)).2 ⟨a2.1, a1⟩, a2.2⟩
    rcases hplain r (by simp) with ⟨s, hs⟩ | ⟨p, hp⟩
    · rw [srcFds_cons_fd hs] at hsrc hsnd
      obtain ⟨hsb, e, he⟩ := hsrc s (by simp)
      have hsnd' := List.nodup_cons.1 hsnd
      have hsne : s ≠ r.fd := by omega
      let t1 := (t.set r.fd { obj := e.obj, cloexec := false }).clear s
      have hperf : r.perform sys cwd t = (.ok (), t1) := by
        simp [Redirect.perform, Redirect.open, hs, hsne, osDup2, he, hmax, osClose, t1]
      have hb1 : t1.Bounded := FdTable.bounded_clear (FdTable.bounded_set hb _ _) _
      obtain ⟨t', hp', hb', hd, hrest, hcl⟩ := ih t1 hb1 (fun r hr => hplain r (by simp [hr]))
        (fun r hr => htgt r (by simp [hr])) htnd'.2
        (by
          intro s2 hs2
          obtain ⟨h1, e2, he2⟩ := hsrc s2 (by simp [hs2])
          refine ⟨h1, e2, ?_⟩
          have : s2 ≠ s := by intro h; subst h; exact hsnd'.1 hs2
          have : s2 ≠ r.fd := by omega
          simp [t1, *])
        hsnd'.2
        (fun r2 hr2 => hpath r2 (by simp [hr2]))
        (htrans t1 (by
          intro n hn
          have h1 : n ≠ s := by omega
          by_cases h2 : n = r.fd
          · simp [t1, h1, h2, Ne.symm hsne]
          · simp [t1, h1, h2]))
      refine ⟨t', by simp [performAll, hperf, hp'], hb', ?_, ?_, ?_⟩
      · intro r2 hr2
        rcases List.mem_cons.1 hr2 with h | h
        · subst h
          refine ⟨e.obj, by simp [denotes, hs, he], ?_⟩
          rw [hrest r2.fd htnd'.1 (by intro h; have := (hsrc r2.fd (by simp [h])).1; omega)]
          simp [t1, Ne.symm hsne]
        · obtain ⟨o, ho, hg⟩ := hd r2 h
          refine ⟨o, ?_, hg⟩
          rw [← ho]
          unfold denotes
          split
          · rename_i s2 hs2
            have hmem : s2 ∈ srcFds L := mem_srcFds.2 ⟨r2, h, hs2⟩
            have h5 : s2 ≠ s := by intro h; subst h; exact hsnd'.1 hmem
            have h6 : s2 ≠ r.fd := by have := (hsrc s2 (by simp [hmem])).1; omega
            simp [t1, h5, h6]
          · rfl
          · rfl
      · intro n hn1 hn2
        rw [srcFds_cons_fd hs] at hn2
        simp only [List.map_cons, List.mem_cons, not_or] at hn1 hn2
        rw [hrest n hn1.2 hn2.2]
        simp [t1, hn1.1, hn2.1]
      · intro n hn
        rw [srcFds_cons_fd hs] at hn
        rcases List.mem_cons.1 hn with h | h
        · subst h
          rw [hrest n (by
              intro h; obtain ⟨r2, hr2, he2⟩ := List.mem_map.1 h
              have := (htgt r2 (by simp [hr2])).1; omega) hsnd'.1]
          simp [t1]
        · exact hcl n h
    · have hnofd : ∀ n, r.source ≠ .fd n := by intro n; rw [hp]; simp
      rw [srcFds_cons_nofd hnofd] at hsrc hsnd
      have hopenok := hpath r (by simp) p hp
      have hgfree := FdTable.lowestFree_free hb
      let g := t.lowestFree
      have hgne : g ≠ r.fd := by
        intro h
        refine hclash [] r L rfl p hp ⟨⟨by rw [← h]; exact hgfree, by simp⟩, fun m hm hc => ?_⟩
        have := FdTable.lowestFree_le_of_free hb hc.1
        omega
      let t1 := ((t.set g { obj := .file cwd p r.flag r.mode, cloexec := true }).set r.fd
        { obj := .file cwd p r.flag r.mode, cloexec := false }).clear g
      have hg' : t.lowestFree = g := rfl
      have hperf : r.perform sys cwd t = (.ok (), t1) := by
        simp [Redirect.perform, Redirect.open, hp, osOpen, hopenok, hg', hgne, osDup2, hmax, osClose, t1]
      have hb1 : t1.Bounded := FdTable.bounded_clear (FdTable.bounded_set (FdTable.bounded_set hb _ _) _ _) _
      have hget1 : ∀ n, n ≠ r.fd → t1.get n = t.get n := by
        intro n hn
        by_cases hng : n = g
        · subst hng; simp [t1]; exact hgfree.symm
        · simp [t1, hng, hn]
      obtain ⟨t', hp', hb', hd, hrest, hcl⟩ := ih t1 hb1 (fun r hr => hplain r (by simp [hr]))
        (fun r hr => htgt r (by simp [hr])) htnd'.2
        (by
          intro s2 hs2
          obtain ⟨h1, e2, he2⟩ := hsrc s2 hs2
          exact ⟨h1, e2, by rw [hget1 s2 (by omega)]; exact he2⟩)
        hsnd
        (fun r2 hr2 => hpath r2 (by simp [hr2]))
        (htrans t1 (by
          intro n hn
          by_cases h2 : n = r.fd
          · subst h2; simp [t1, Ne.symm hgne]
          · rw [hget1 n h2]; simp [h2]))
      refine ⟨t', by simp [performAll, hperf, hp'], hb', ?_, ?_, ?_⟩
      · intro r2 hr2
        rcases List.mem_cons.1 hr2 with h | h
        · subst h
          refine ⟨.file cwd p r2.flag r2.mode, by simp [denotes, hp], ?_⟩
          rw [hrest r2.fd htnd'.1 (by intro h; have := (hsrc r2.fd h).1; omega)]
          simp [t1, Ne.symm hgne]
        · obtain ⟨o, ho, hg⟩ := hd r2 h
          refine ⟨o, ?_, hg⟩
          rw [← ho]
          unfold denotes
          split
          · rename_i s2 hs2
            have hmem : s2 ∈ srcFds L := mem_srcFds.2 ⟨r2, h, hs2⟩
            rw [hget1 s2 (by have := (hsrc s2 hmem).1; omega)]
          · rfl
          · rfl
      · intro n hn1 hn2
        rw [srcFds_cons_nofd hnofd] at hn2
        simp only [List.map_cons, List.mem_cons, not_or] at hn1
        rw [hrest n hn1.2 hn2, hget1 n hn1.1]
      · intro n hn
        rw [srcFds_cons_nofd hnofd] at hn
        exact hcl n hn

/-! ### closing the rest -/

theorem closeOthers_get (keep : Nat → Bool) (l : List Nat) (t : FdTable) (n : Nat) :
    (closeOthers keep l t).get n = if n ∈ l ∧ keep n = false then none else t.get n := by
  induction l generalizing t with
  | nil => simp [closeOthers]
  | cons i l ih =>
    rw [closeOthers, ih]
    by_cases hk : keep i
    · by_cases hn : n = i
      · subst hn; simp [hk]
      · simp [hk, hn]
    · have hcl : (osClose i t).2.get n = if n = i then none else t.get n := by
        unfold osClose; split
        · by_cases hn : n = i
          · subst hn; simp [*]
          · simp [hn]
        · simp
      by_cases hn : n = i
      · subst hn; simp [hk, hcl]
      · simp [hk, hn, hcl]

theorem closeOthers_bounded (keep : Nat → Bool) (l : List Nat) (t : FdTable) (h : t.Bounded) :
    (closeOthers keep l t).Bounded := by
  induction l generalizing t with
  | nil => exact h
  | cons i l ih =>
    rw [closeOthers]; apply ih
    split
    · exact h
    · unfold osClose; split
      · exact h
      · exact FdTable.bounded_clear h _

/-! ### moved table -/

theorem moved_fd (b : Nat) (l : List Redirect) : (moved b l).map Redirect.fd = l.map Redirect.fd := by
  induction l generalizing b with
  | nil => rfl
  | cons r l ih => simp only [moved, List.map_cons, ih]; congr 1; split <;> rfl

theorem mem_moved {b : Nat} {l : List Redirect} {r' : Redirect} (h : r' ∈ moved b l) :
    ∃ (i : Nat) (r : Redirect), l[i]? = some r ∧ r' = (match r.source with | .fd _ => { r with source := .fd (b + i) } | _ => r) := by
  induction l generalizing b with
  | nil => simp [moved] at h
  | cons r l ih =>
    simp only [moved, List.mem_cons] at h
    rcases h with h | h
    · exact ⟨0, r, rfl, by simpa using h⟩
    · obtain ⟨i, r2, h1, h2⟩ := ih h
      refine ⟨i+1, r2, by simpa using h1, ?_⟩
      rw [h2]; split <;> simp; omega

theorem moved_getElem? (b : Nat) (l : List Redirect) (i : Nat) :
    (moved b l)[i]? = (l[i]?).map (fun r => match r.source with | .fd _ => { r with source := .fd (b + i) } | _ => r) := by
  induction l generalizing b i with
  | nil => simp [moved]
  | cons r l ih =>
    cases i with
    | zero => simp [moved]
    | succ i =>
      simp only [moved, List.getElem?_cons_succ, ih]
      have : b + 1 + i = b + (i + 1) := by omega
      simp [this]

theorem srcFds_moved_ge {b : Nat} {l : List Redirect} {s : Nat} (h : s ∈ srcFds (moved b l)) :
    b ≤ s ∧ ∃ (i : Nat) (r : Redirect) (n : Nat), s = b + i ∧ l[i]? = some r ∧ r.source = .fd n := by
  obtain ⟨r', hr', hs⟩ := mem_srcFds.1 h
  obtain ⟨i, r, h1, h2⟩ := mem_moved hr'
  cases hsrc : r.source with
  | fd n =>
    simp [hsrc] at h2; subst h2
    simp at hs; exact ⟨by omega, i, r, n, hs.symm, h1, hsrc⟩
  | none => simp [hsrc] at h2; subst h2; simp [hsrc] at hs
  | path p => simp [hsrc] at h2; subst h2; simp [hsrc] at hs
  | PIPE => simp [hsrc] at h2; subst h2; simp [hsrc] at hs
  | TMP => simp [hsrc] at h2; subst h2; simp [hsrc] at hs
  | STRING => simp [hsrc] at h2; subst h2; simp [hsrc] at hs
  | inst m => simp [hsrc] at h2; subst h2; simp [hsrc] at hs

theorem srcFds_moved_nodup (b : Nat) (l : List Redirect) : (srcFds (moved b l)).Nodup := by
  induction l generalizing b with
  | nil => simp [moved, srcFds]
  | cons r l ih =>
    simp only [moved]
    cases hs : r.source with
    | fd n =>
      simp only
      rw [srcFds_cons_fd (n := b) rfl]
      refine List.nodup_cons.2 ⟨?_, ih _⟩
      intro h; have := (srcFds_moved_ge h).1; omega
    | _ =>
      simp only
      rw [srcFds_cons_nofd (by simp [hs])]
      exact ih _

/-! ### tables as dictionaries -/

/-- Invariant of every table built by the code: unique keys, each redirection stored under its own
descriptor, no None sources. -/
def Redirects.WF (rs : Redirects) : Prop :=
  Dict.Uniq rs ∧ ∀ p ∈ rs, p.1 = p.2.fd ∧ p.2.source ≠ .none

theorem Redirects.WF.keys_eq {rs : Redirects} (h : rs.WF) :
    (Dict.values rs).map Redirect.fd = Dict.keys rs := by
  unfold Dict.values Dict.keys
  rw [List.map_map]
  apply List.map_congr_left
  intro p hp; exact ((h.2 p hp).1).symm

theorem Redirects.WF.nodup_fds {rs : Redirects} (h : rs.WF) : ((Dict.values rs).map Redirect.fd).Nodup := by
  rw [h.keys_eq]; exact h.1

theorem Redirects.WF.get?_of_value {rs : Redirects} (h : rs.WF) {r : Redirect} (hr : r ∈ Dict.values rs) :
    Dict.get? rs r.fd = some r := by
  obtain ⟨p, hp, rfl⟩ := List.mem_map.1 hr
  have := (h.2 p hp).1
  exact Dict.get?_of_mem rs h.1 (by rw [← this]; exact hp)

theorem Redirects.WF.value_of_get? {rs : Redirects} (h : rs.WF) {n : Nat} {r : Redirect}
    (hr : Dict.get? rs n = some r) : r ∈ Dict.values rs ∧ r.fd = n := by
  have := Dict.mem_of_get? rs hr
  exact ⟨List.mem_map.2 ⟨_, this, rfl⟩, ((h.2 _ this).1).symm⟩

theorem foldl_max_ge (l : List Nat) (a : Nat) : a ≤ l.foldl max a ∧ ∀ x ∈ l, x ≤ l.foldl max a := by
  induction l generalizing a with
  | nil => simp
  | cons y l ih =>
    have := ih (max a y)
    simp only [List.foldl_cons, List.mem_cons]
    refine ⟨by omega, ?_⟩
    rintro x (h | h)
    · subst h; omega
    · exact this.2 x h

theorem findFreeFd_gt (rs : Redirects) :
    (∀ r ∈ Dict.values rs, r.fd < rs.findFreeFd) ∧ (∀ s ∈ srcFds (Dict.values rs), s < rs.findFreeFd) ∧
    2 < rs.findFreeFd := by
  unfold Redirects.findFreeFd
  have h := (foldl_max_ge ((Dict.values rs).map Redirect.fd ++ srcFds (Dict.values rs) ++ [2]) 0).2
  refine ⟨?_, ?_, ?_⟩
  · intro r hr
    have := h r.fd (by simp only [List.mem_append]; left; left; exact List.mem_map_of_mem hr)
    omega
  · intro s hs
    have := h s (by simp only [List.mem_append]; left; right; exact hs)
    omega
  · have := h 2 (by simp); omega

theorem moved_split {b : Nat} {l bef aft : List Redirect} {r : Redirect} {p : Str} (h : moved b l = bef ++ r :: aft) (hp : r.source = .path p) :
    ∃ bef0 aft0, l = bef0 ++ r :: aft0 ∧ bef0.map Redirect.fd = bef.map Redirect.fd := by
  induction l generalizing b bef with
  | nil => simp [moved] at h
  | cons q l ih =>
    cases bef with
    | nil =>
      simp only [moved, List.nil_append, List.cons.injEq] at h
      obtain ⟨h1, -⟩ := h
      have : q = r := by
        split at h1
        · subst h1; simp at hp
        · exact h1
      exact ⟨[], l, by rw [this]; rfl, rfl⟩
    | cons q' bef =>
      simp only [moved, List.cons_append, List.cons.injEq] at h
      obtain ⟨bef0, aft0, e1, e2⟩ := ih h.2
      refine ⟨q :: bef0, aft0, by rw [e1]; rfl, ?_⟩
      simp only [List.map_cons, e2]
      rw [← h.1]; congr 1; split <;> rfl

theorem moved_split' {b : Nat} {l bef aft : List Redirect} {r : Redirect} {p : Str} (h : l = bef ++ r :: aft) (hp : r.source = .path p) :
    ∃ bef1 aft1, moved b l = bef1 ++ r :: aft1 ∧ bef1.map Redirect.fd = bef.map Redirect.fd := by
  subst h
  induction bef generalizing b with
  | nil => exact ⟨[], moved (b+1) aft, by simp [moved, hp], rfl⟩
  | cons q bef ih =>
    obtain ⟨b1, a1, e1, e2⟩ := ih (b := b + 1)
    refine ⟨_ :: b1, a1, by simp only [List.cons_append, moved, e1]; rfl, ?_⟩
    simp only [List.map_cons, e2]; congr 1; split <;> rfl

theorem clash_moved {l : List Redirect} {b : Nat} {t t1 : FdTable} (hg : ∀ n, t1.get n = movedGet l b t n) {bef bef0 : List Redirect} {fd : Nat} (hlt : fd < b)
    (he : bef0.map Redirect.fd = bef.map Redirect.fd) (hc : ClashAt t1 bef fd) :
    (t.get fd = none ∨ fd ∈ srcFds l) ∧ fd ∉ bef0.map Redirect.fd ∧ ∀ m, m < fd → ¬ ((t.get m = none ∨ m ∈ srcFds l) ∧ m ∉ bef0.map Redirect.fd) := by
  have h1 : ∀ n, n < b → (t1.get n = none ↔ (t.get n = none ∨ n ∈ srcFds l)) := by
    intro n hn
    rw [hg n, movedGet, if_pos hn]
    by_cases hs : n ∈ srcFds l <;> simp [hs]
  rw [he]
  refine ⟨(h1 fd hlt).1 hc.1.1, hc.1.2, fun m hm h => hc.2 m hm ⟨(h1 m (by omega)).2 h.1, h.2⟩⟩

theorem clash_moved' {l : List Redirect} {b : Nat} {t t1 : FdTable} (hg : ∀ n, t1.get n = movedGet l b t n) {bef bef0 : List Redirect} {fd : Nat} (hlt : fd < b)
    (he : bef0.map Redirect.fd = bef.map Redirect.fd)
    (hc : (t.get fd = none ∨ fd ∈ srcFds l) ∧ fd ∉ bef0.map Redirect.fd ∧ ∀ m, m < fd → ¬ ((t.get m = none ∨ m ∈ srcFds l) ∧ m ∉ bef0.map Redirect.fd)) :
    ClashAt t1 bef fd := by
  have h1 : ∀ n, n < b → (t1.get n = none ↔ (t.get n = none ∨ n ∈ srcFds l)) := by
    intro n hn
    rw [hg n, movedGet, if_pos hn]
    by_cases hs : n ∈ srcFds l <;> simp [hs]
  rw [he] at hc
  refine ⟨⟨(h1 fd hlt).2 hc.1, hc.2.1⟩, fun m hm h => hc.2.2 m hm ⟨(h1 m (by omega)).1 h.1, h.2⟩⟩

/-! ### the whole of `perform` -/

/-- Conditions under which every redirection of a table can be performed. -/
structure Performable (sys : Sys) (cwd : Str) (rs : Redirects) (t : FdTable) : Prop where
  bounded : t.Bounded
  wf : rs.WF
  plain : ∀ r ∈ Dict.values rs, r.Plain
  openSrc : ∀ s ∈ srcFds (Dict.values rs), ∃ e, t.get s = some e
  distinct : (srcFds (Dict.values rs)).Nodup
  canOpen : ∀ r ∈ Dict.values rs, ∀ p, r.source = .path p → sys.openErr cwd p r.flag = none
  noClash : ∀ bef r aft p, Dict.values rs = bef ++ r :: aft → r.source = .path p →
    ¬ ((t.get r.fd = none ∨ r.fd ∈ srcFds (Dict.values rs)) ∧ r.fd ∉ bef.map Redirect.fd ∧
      ∀ m, m < r.fd → ¬ ((t.get m = none ∨ m ∈ srcFds (Dict.values rs)) ∧ m ∉ bef.map Redirect.fd))
  room : rs.findFreeFd + rs.length ≤ sys.maxfd

theorem perform_ok {sys : Sys} {cwd : Str} {rs : Redirects} {t : FdTable} (h : Performable sys cwd rs t) :
    ∃ t', rs.performTry sys cwd t = (.ok (), t') ∧ t'.Bounded ∧
      (∀ r ∈ Dict.values rs, ∃ o, denotes cwd t r = some o ∧ t'.get r.fd = some { obj := o, cloexec := false }) ∧
      (∀ n, n ∉ Dict.keys rs → n < sys.maxfd → n ≠ sys.logfd → t'.get n = none) ∧
      (∀ n, n ∉ Dict.keys rs → t'.get n = none ∨ t'.get n = t.get n) ∧
      (sys.logfd ∉ Dict.keys rs → rs.findFreeFd + rs.length ≤ sys.logfd → t'.get sys.logfd = t.get sys.logfd) := by
  have hfree := findFreeFd_gt rs
  have hlen : (Dict.values rs).length = rs.length := by simp [Dict.values]
  obtain ⟨t1, hm, hb1, hg1⟩ := moveAll_ok sys (Dict.values rs) rs.findFreeFd t h.bounded h.plain
    (fun s hs => ⟨hfree.2.1 s hs, h.openSrc s hs⟩) h.distinct (by rw [hlen]; exact h.room)
  have hpl : ∀ r ∈ moved rs.findFreeFd (Dict.values rs), r.Plain := by
    intro r' hr'
    obtain ⟨i, r, h1, h2⟩ := mem_moved hr'
    rcases h.plain r (List.mem_of_getElem? h1) with ⟨n, hn⟩ | ⟨p, hp⟩
    · left; simp [hn] at h2; exact ⟨rs.findFreeFd + i, by rw [h2]⟩
    · right; simp [hp] at h2; exact ⟨p, by rw [h2, hp]⟩
  have htgt : ∀ r ∈ moved rs.findFreeFd (Dict.values rs), r.fd < rs.findFreeFd ∧ r.fd < sys.maxfd := by
    intro r hr
    have h1 : r.fd ∈ (moved rs.findFreeFd (Dict.values rs)).map Redirect.fd := List.mem_map_of_mem hr
    rw [moved_fd] at h1
    obtain ⟨r0, hr0, he⟩ := List.mem_map.1 h1
    have := hfree.1 r0 hr0
    have := h.room
    omega
  obtain ⟨t2, hp, hb2, hd2, hr2, hc2⟩ := performAll_ok sys cwd rs.findFreeFd _ t1 hb1 hpl htgt
    (by rw [moved_fd]; exact h.wf.nodup_fds)
    (by
      intro s hs
      obtain ⟨h1, i, r, n, he, hi, hn⟩ := srcFds_moved_ge hs
      refine ⟨h1, ?_⟩
      rw [hg1 s]
      have h3 : ¬ s < rs.findFreeFd := by omega
      have h4 : s - rs.findFreeFd = i := by omega
      obtain ⟨e, hee⟩ := h.openSrc n (mem_srcFds.2 ⟨r, List.mem_of_getElem? hi, hn⟩)
      exact ⟨{ obj := e.obj, cloexec := false }, by simp [movedGet, h3, h4, hi, hn, hee]⟩)
    (srcFds_moved_nodup _ _)
    (by
      intro r' hr' p hp
      obtain ⟨i, r, h1, h2⟩ := mem_moved hr'
      have hmem := List.mem_of_getElem? h1
      have hrp : r' = r := by
        rcases h.plain r hmem with ⟨n, hn⟩ | ⟨p', hp'⟩
        · simp [hn] at h2; subst h2; simp at hp
        · simpa [hp'] using h2
      subst hrp
      exact h.canOpen r' hmem p hp)
    (fun bef r' aft hL p hp hc => by
      obtain ⟨bef0, aft0, e1, e2⟩ := moved_split hL hp
      have hmem : r' ∈ Dict.values rs := by rw [e1]; simp
      have hlt := hfree.1 r' hmem
      exact h.noClash bef0 r' aft0 p e1 hp (clash_moved hg1 hlt e2 hc))
  refine ⟨closeOthers (keepFd sys rs) (List.range sys.maxfd) t2, ?_, closeOthers_bounded _ _ _ hb2, ?_, ?_, ?_, ?_⟩
  · simp [Redirects.performTry, Redirects.moveExistingFds, hm, hp]
  · intro r hr
    obtain ⟨i, hi⟩ := List.mem_iff_getElem?.1 hr
    have hi' := moved_getElem? rs.findFreeFd (Dict.values rs) i
    rw [hi] at hi'; simp only [Option.map_some] at hi'
    have hmem := List.mem_of_getElem? hi'
    obtain ⟨o, ho, hget⟩ := hd2 _ hmem
    have hkeep : keepFd sys rs r.fd = true := by
      simp [keepFd, Dict.mem, h.wf.get?_of_value hr]
    refine ⟨o, ?_, ?_⟩
    · rw [← ho]
      rcases h.plain r hr with ⟨n, hn⟩ | ⟨p, hp⟩
      · obtain ⟨e, he⟩ := h.openSrc n (mem_srcFds.2 ⟨r, hr, hn⟩)
        have hlt : ¬ rs.findFreeFd + i < rs.findFreeFd := by omega
        simp [denotes, hn, he, hg1, movedGet, hi, hlt]
      · simp [denotes, hp]
    · rw [closeOthers_get]
      have : (match r.source with | .fd _ => { r with source := .fd (rs.findFreeFd + i) } | _ => r).fd = r.fd := by
        split <;> rfl
      rw [this] at hget
      simp [hkeep, hget]
  · intro n hn hlt hlog
    rw [closeOthers_get]
    have hk : keepFd sys rs n = false := by
      simp [keepFd, Dict.mem, (Dict.get?_eq_none_iff rs n).2 hn, hlog]
    simp [hlt, hk]
  · intro n hn
    rw [closeOthers_get]
    split
    · exact .inl rfl
    by_cases hs : n ∈ srcFds (moved rs.findFreeFd (Dict.values rs))
    · exact .inl (hc2 n hs)
    rw [hr2 n (by rw [moved_fd, h.wf.keys_eq]; exact hn) hs, hg1]
    unfold movedGet
    split
    · split
      · exact .inl rfl
      · exact .inr rfl
    · rename_i hge
      split
      · rename_i r hr
        split
        · rename_i m hm
          exfalso; apply hs
          refine mem_srcFds.2 ⟨{ r with source := .fd n }, ?_, rfl⟩
          have := moved_getElem? rs.findFreeFd (Dict.values rs) (n - rs.findFreeFd)
          rw [hr] at this
          have h3 : rs.findFreeFd + (n - rs.findFreeFd) = n := by omega
          simp only [Option.map_some, hm, h3] at this
          exact List.mem_of_getElem? this
        · exact .inr rfl
      · exact .inr rfl
  · intro hn hge
    rw [closeOthers_get]
    have hk : keepFd sys rs sys.logfd = true := by simp [keepFd]
    have hs : sys.logfd ∉ srcFds (moved rs.findFreeFd (Dict.values rs)) := by
      intro hs
      obtain ⟨-, i, r, n, he, hi, -⟩ := srcFds_moved_ge hs
      have := (List.getElem?_eq_some_iff.1 hi).1
      omega
    rw [if_neg (by simp [hk]), hr2 _ (by rw [moved_fd, h.wf.keys_eq]; exact hn) hs, hg1]
    unfold movedGet
    have h1 : ¬ sys.logfd < rs.findFreeFd := by omega
    have h2 : (Dict.values rs)[sys.logfd - rs.findFreeFd]? = none := List.getElem?_eq_none (by omega)
    simp [h1, h2]

end Pieshell
