import Verif.Lemmas.Run
import Verif.Lemmas.RefRun
/-! Facts about chains and about left-over pipe ends, derived from the reference semantics. -/
namespace Pieshell

variable {sys : Sys} {cwd : Str}

/-! ### identities -/

mutual
theorem refRun_ids : (p : Pipeline) → (i : Obj) → (o e : Want) → (c : Ctr) → (refRun cwd p i o e c).items.map RItem.id = p.ids
  | .command id args, i, o, e, c => by
    simp only [refRun, List.map_append, Pipeline.ids]
    rw [refArgs_ids args]; rfl
  | .func id, i, o, e, c => rfl
  | .iter id, i, o, e, c => rfl
  | .pipe a b, i, o, e, c => by
    simp only [refRun, List.map_append, Pipeline.ids]; rw [refRun_ids a, refRun_ids b]
  | .group a b, i, o, e, c => by
    simp only [refRun, List.map_append, Pipeline.ids]; rw [refRun_ids a, refRun_ids b]
  | .redirect p crs, i, o, e, c => by simp only [refRun, Pipeline.ids]; exact refRun_ids p _ _ _ c
theorem refArgs_ids : (a : Args) → (i o e : Obj) → (c : Ctr) → (refArgs cwd a i o e c).items.map RItem.id = a.ids
  | .nil, i, o, e, c => rfl
  | .word ws rest, i, o, e, c => by simp only [refArgs, Args.ids]; exact refArgs_ids rest i o e c
  | .pipeArg pre p rest, i, o, e, c => by
    simp only [refArgs, List.map_append, Args.ids]; rw [refRun_ids p, refArgs_ids rest]
  | .funcArg pre id rest, i, o, e, c => by
    simp only [refArgs, List.map_cons, Args.ids]; rw [refArgs_ids rest]; rfl
end

theorem ItemOk.id {lf : Nat} {lg : Option Obj} {g : Nat → Option Entry} {x : Item} {y : RItem} (h : ItemOk lf lg g x y) :
    x.id = y.id := by
  cases x <;> cases y <;> simp only [ItemOk] at h <;> first | exact h.1 | exact h.elim

theorem ItemOk.ids {lf : Nat} {lg : Option Obj} {g : Nat → Option Entry} {xs : List Item} {ys : List RItem}
    (h : Pointwise (ItemOk lf lg g) xs ys) : xs.map Item.id = ys.map RItem.id := by
  induction h with
  | nil => rfl
  | cons h1 _ ih => simp [h1.id, ih]

theorem ItemOk.stdin {lf : Nat} {lg : Option Obj} {w : World} {x : Item} {y : RItem} (h : ItemOk lf lg w.fds.get x y) :
    x.stdin w = y.inp := by
  cases x <;> cases y <;> simp only [ItemOk] at h <;> first | exact h.2.1 | exact h.elim

theorem ItemOk.stdout {lf : Nat} {lg : Option Obj} {w : World} {x : Item} {y : RItem} (h : ItemOk lf lg w.fds.get x y) :
    x.stdout w = some y.out := by
  cases x <;> cases y <;> simp only [ItemOk] at h
  · exact h.2.2.1
  · exact h.2.2.2

theorem ItemOk.stderr {lf : Nat} {lg : Option Obj} {w : World} {x : Item} {y : RItem} (h : ItemOk lf lg w.fds.get x y) :
    x.stderr = y.err := by
  cases x <;> cases y <;> simp only [ItemOk] at h
  · exact h.2.2.2.1
  · rfl

theorem mem_devFds_obj {fds : Nat → Option Obj} {ws : List Word} {rws : List RWord} (h : Pointwise (WordOk fds) ws rws)
    {n : Nat} (hn : n ∈ devFds ws) : ∃ ob ∈ devObjs rws, fds n = some ob := by
  induction h with
  | nil => simp [devFds] at hn
  | @cons a b l l' h1 _ ih =>
    cases a <;> cases b <;> simp only [WordOk] at h1
    · obtain ⟨ob, h, h'⟩ := ih (by simpa [devFds] using hn)
      exact ⟨ob, by simpa [devObjs] using h, h'⟩
    · simp only [devFds, List.mem_cons] at hn
      rcases hn with rfl | hn
      · exact ⟨_, by simp [devObjs], h1.2.2⟩
      · obtain ⟨ob, h, h'⟩ := ih hn
        exact ⟨ob, by simp [devObjs, h], h'⟩

theorem ItemOk.holds {lf : Nat} {lg : Option Obj} {w : World} {x : Item} {y : RItem} (h : ItemOk lf lg w.fds.get x y)
    {ob : Obj} (hx : x.Holds w ob) : ob ∈ y.objs ∨ lg = some ob := by
  cases x with
  | proc id argv fds rs =>
    cases y with
    | proc id' ra i o e =>
      simp only [ItemOk] at h
      obtain ⟨n, hn⟩ := hx
      obtain ⟨-, h0, h1, h2, hw, -, -, h3⟩ := h
      by_cases n0 : n = 0
      · subst n0; rw [h0] at hn; cases hn; exact .inl (by simp [RItem.objs])
      by_cases n1 : n = 1
      · subst n1; rw [h1] at hn; cases hn; exact .inl (by simp [RItem.objs])
      by_cases n2 : n = 2
      · subst n2; rw [h2] at hn; cases hn; exact .inl (by simp [RItem.objs])
      by_cases nd : n ∈ devFds argv
      · obtain ⟨ob', h4, h5⟩ := mem_devFds_obj hw nd
        rw [h5] at hn; cases hn; exact .inl (by simp [RItem.objs, h4])
      · rw [h3 n n0 n1 n2 nd] at hn
        split at hn
        · exact .inr hn
        · cases hn
    | func => simp only [ItemOk] at h
  | func id inFd outFd rs =>
    cases y with
    | proc => simp only [ItemOk] at h
    | func id' i o =>
      simp only [ItemOk] at h
      obtain ⟨-, h1, h2, h3⟩ := h
      obtain ⟨n, hn | hn, hg⟩ := hx
      · subst hn
        simp only [Option.bind_some] at h1
        rw [h1] at hg; subst hg; exact .inl (by simp [RItem.objs])
      · subst hn; rw [h3] at hg; cases hg; exact .inl (by simp [RItem.objs])

theorem mem_heldFds {its : List Item} {n : Nat} (h : n ∈ heldFds its) :
    ∃ x ∈ its, ∀ (w : World) (en : Entry), w.fds.get n = some en → x.Holds w en.obj := by
  induction its with
  | nil => simp [heldFds] at h
  | cons x its ih =>
    cases x with
    | proc id argv fds rs =>
      obtain ⟨y, hy, h'⟩ := ih (by simpa [heldFds] using h)
      exact ⟨y, by simp [hy], h'⟩
    | func id inFd outFd rs =>
      simp only [heldFds, List.mem_append, List.mem_cons, Option.mem_toList] at h
      rcases h with h | rfl | h
      · exact ⟨.func id inFd outFd rs, by simp, fun w en he => ⟨n, .inl h, by simp [he]⟩⟩
      · exact ⟨.func id inFd n rs, by simp, fun w en he => ⟨n, .inr rfl, by simp [he]⟩⟩
      · obtain ⟨y, hy, h'⟩ := ih h
        exact ⟨y, by simp [hy], h'⟩

theorem mem_heldFds_flatten {segs : List (List Item)} {n : Nat} (h : n ∈ heldFds segs.flatten) :
    ∃ (j : Nat) (s : List Item), segs[j]? = some s ∧ n ∈ heldFds s := by
  induction segs with
  | nil => simp [heldFds] at h
  | cons s segs ih =>
    simp only [List.flatten_cons, heldFds_append, List.mem_append] at h
    rcases h with h | h
    · exact ⟨0, s, rfl, h⟩
    · obtain ⟨j, s', h1, h2⟩ := ih h
      exact ⟨j + 1, s', by simpa using h1, h2⟩

/-! ### left-over pipe ends -/

/-- `ob` is not the read end of a pipe that is still to be made. -/
def Old (c : Ctr) (ob : Obj) : Prop := ∀ n, c.p ≤ n → ob ≠ .pipeR n

theorem Old.mono {c d : Ctr} {ob : Obj} (h : Old c ob) (hcd : c.p ≤ d.p) : Old d ob := fun n hn => h n (by omega)

theorem Old.pipeR {c : Ctr} {n : Nat} (h : n < c.p) : Old c (.pipeR n) := by
  intro m hm he; cases he; omega
theorem Old.pipeW {c : Ctr} {n : Nat} : Old c (.pipeW n) := by intro m hm he; cases he
theorem Old.tmp {c : Ctr} {n : Nat} : Old c (.tmp n) := by intro m hm he; cases he
theorem Old.file {c : Ctr} {d p : Str} {f m : Nat} : Old c (.file d p f m) := by intro m hm he; cases he

/-- The wanted object is old. -/
def Want.Old (x : Want) (c : Ctr) : Prop := ∀ b, x = .obj b → Pieshell.Old c b

theorem Want.Old.pick {x : Want} {c : Ctr} (h : x.Old c) (hx : x ≠ .pipeIn) : Pieshell.Old c (x.pick c).1 := by
  cases x with
  | obj b => exact h b rfl
  | pipeOut => exact Old.pipeW
  | pipeIn => exact absurd rfl hx
  | tmp => exact Old.tmp

theorem Want.Old.mono {x : Want} {c d : Ctr} (h : x.Old c) (hcd : c.p ≤ d.p) : x.Old d := fun b hb => (h b hb).mono hcd

/-- read ends made between two counters -/
def Fresh (c c' : Ctr) (ob : Obj) : Prop := ∃ n, c.p ≤ n ∧ n < c'.p ∧ ob = .pipeR n

theorem Fresh.mono {c c' d d' : Ctr} {ob : Obj} (h : Fresh c c' ob) (h1 : d.p ≤ c.p) (h2 : c'.p ≤ d'.p) : Fresh d d' ob := by
  obtain ⟨n, a, b, e⟩ := h; exact ⟨n, by omega, by omega, e⟩

theorem Fresh.not_old {c c' : Ctr} {ob : Obj} (h : Fresh c c' ob) (ho : Old c ob) : False := by
  obtain ⟨n, a, b, e⟩ := h; exact ho n a e

theorem Fresh.not_made {c c' d d' : Ctr} {ob : Obj} (h : Fresh c c' ob) (hm : Made d d' ob) (hcd : c'.p ≤ d.p ∨ d'.p ≤ c.p) : False := by
  obtain ⟨n, a, b, rfl⟩ := h
  rcases hm with ⟨m, a', b', e⟩ | ⟨m, a', b', e⟩ | ⟨_, _, _, _, e⟩
  · rcases e with e | e
    · cases e; omega
    · cases e
  · cases e
  · cases e

theorem Fresh.made {c c' : Ctr} {ob : Obj} (h : Fresh c c' ob) : Made c c' ob := by
  obtain ⟨n, a, b, rfl⟩ := h; exact .inl ⟨n, a, b, .inl rfl⟩

theorem nodup_append' {α : Type} {a b : List α} (ha : a.Nodup) (hb : b.Nodup) (h : ∀ x ∈ a, x ∉ b) : (a ++ b).Nodup := by
  rw [List.nodup_append]
  exact ⟨ha, hb, fun x hx y hy e => h x hx (e ▸ hy)⟩

/-- Nobody uses the left-over ends. -/
structure Free (c : Ctr) (items : List RItem) (leaks : List Obj) (ctr : Ctr) : Prop where
  fresh : ∀ ob ∈ leaks, Fresh c ctr ob
  unused : ∀ ob ∈ leaks, ∀ x ∈ items, ob ∉ x.objs
  nodup : leaks.Nodup

theorem Old.orIn {c : Ctr} {i : Obj} (h : Old c i) (r : Option Redirect) : Old c (orIn cwd r i) := by
  rcases orIn_cases (cwd := cwd) r i with h' | ⟨p, f, m, h'⟩
  · rw [h']; exact h
  · rw [h']; exact Old.file

theorem Want.Old.orWant {c : Ctr} {x : Want} (h : x.Old c) (r : Option Redirect) : (orWant cwd r x).Old c := by
  intro b hb
  rcases orWant_obj hb with h' | ⟨p, f, m, rfl⟩
  · exact h b h'
  · exact Pieshell.Old.file

/-- Who is redirected for stdin does not see the stdin given. -/
theorem refRun_takes : (p : Pipeline) → p.Redirectable sys cwd → p.takes 0 = true → (i i' : Obj) → (o e : Want) → (c : Ctr) →
    refRun cwd p i o e c = refRun cwd p i' o e c
  | .redirect p crs, hp, h, i, i', o, e, c => by
    simp only [Pipeline.Redirectable] at hp
    simp only [Pipeline.takes, Bool.or_eq_true] at h
    simp only [refRun]
    rcases h with h | h
    · have : crs.overIn cwd i = crs.overIn cwd i' := by
        simp only [Dict.mem] at h
        cases hg : Dict.get? crs 0 with
        | none => rw [hg] at h; simp at h
        | some r =>
          have hv := hp.2.1.wf.value_of_get? hg
          obtain ⟨q, hq⟩ := (hp.2.2 r hv.1).zero hv.2
          simp [Redirects.overIn, hg, Pieshell.orIn, Pieshell.orWant, Redirect.want, hq]
      rw [this]
    · exact refRun_takes p hp.1 h _ _ _ _ _
  | .pipe _ _, _, h, _, _, _, _, _ => by simp [Pipeline.takes] at h
  | .command _ _, _, h, _, _, _, _, _ => by simp [Pipeline.takes] at h
  | .func _, _, h, _, _, _, _, _ => by simp [Pipeline.takes] at h
  | .iter _, _, h, _, _, _, _, _ => by simp [Pipeline.takes] at h
  | .group _ _, _, h, _, _, _, _, _ => by simp [Pipeline.takes] at h

mutual
theorem refRun_free : (p : Pipeline) → p.Redirectable sys cwd → (i : Obj) → (o e : Want) → (c : Ctr) → o.Out → e.Plain →
    Old c i → o.Old c → e.Old c →
    Free c (refRun cwd p i o e c).items (refRun cwd p i o e c).leaks (refRun cwd p i o e c).ctr ∧
    (p.outWant cwd o = .pipeOut → (∀ x ∈ (refRun cwd p i o e c).items, .pipeR (refRun cwd p i o e c).out ∉ x.objs) ∧
      .pipeR (refRun cwd p i o e c).out ∉ (refRun cwd p i o e c).leaks)
  | .command id args, hp, i, o, e, c, ho, he, hi, hob, heb => by
    simp only [Pipeline.Redirectable] at hp
    have h1 := pick_le o c
    have h2 := pick_le e (o.pick c).2
    have oi := hi.mono (d := (e.pick (o.pick c).2).2) (by omega)
    have oo := (hob.pick (by rintro rfl; exact ho)).mono (d := (e.pick (o.pick c).2).2) (by omega)
    have oe := ((heb.mono h1.1).pick (by rintro rfl; exact he)).mono (d := (e.pick (o.pick c).2).2) (by omega)
    obtain ⟨F, W⟩ := refArgs_free args hp i (o.pick c).1 (e.pick (o.pick c).2).1 (e.pick (o.pick c).2).2 oi oo oe
    obtain ⟨A, B, C⟩ := refArgs_objs args hp i (o.pick c).1 (e.pick (o.pick c).2).1 (e.pick (o.pick c).2).2
    simp only [refRun, Pipeline.outWant]
    refine ⟨⟨fun ob h => (F.fresh ob h).mono (by omega) (Nat.le_refl _), ?_, F.nodup⟩, ?_⟩
    · intro ob h x hx
      rcases List.mem_append.1 hx with hx | hx
      · exact F.unused ob h x hx
      · simp only [List.mem_singleton] at hx
        subst hx
        simp only [RItem.objs, List.mem_cons, not_or]
        refine ⟨?_, ?_, ?_, W ob h⟩
        · rintro rfl; exact (F.fresh _ h).not_old oi
        · rintro rfl; exact (F.fresh _ h).not_old oo
        · rintro rfl; exact (F.fresh _ h).not_old oe
    · rintro rfl
      have hnm : ∀ {c'}, ¬ Made (e.pick (Want.pipeOut.pick c).2).2 c' (.pipeR c.p) := by
        intro c' hm
        rcases hm with ⟨m, a', b', e | e⟩ | ⟨m, a', b', e⟩ | ⟨_, _, _, _, e⟩
        · cases e
          have : (Want.pipeOut.pick c).2.p = c.p + 1 := rfl
          omega
        · cases e
        · cases e
        · cases e
      have n1 : Obj.pipeR c.p ≠ i := fun h => hi c.p (Nat.le_refl _) h.symm
      have n2 : Obj.pipeR c.p ≠ (Want.pipeOut.pick c).1 := by simp [Want.pick]
      have n3 : Obj.pipeR c.p ≠ (e.pick (Want.pipeOut.pick c).2).1 := by
        cases e with
        | obj b => exact fun h => heb b rfl c.p (Nat.le_refl _) h.symm
        | tmp => simp [Want.pick]
        | pipeOut => exact he.elim
        | pipeIn => exact he.elim
      refine ⟨?_, fun h => hnm (F.fresh _ h).made⟩
      intro x hx hmem
      rcases List.mem_append.1 hx with hx | hx
      · rcases A x hx _ hmem with h | h | h | h
        · exact n1 h
        · exact n2 h
        · exact n3 h
        · exact hnm h
      · simp only [List.mem_singleton] at hx
        subst hx
        simp only [RItem.objs, List.mem_cons] at hmem
        rcases hmem with h | h | h | h
        · exact n1 h
        · exact n2 h
        · exact n3 h
        · exact hnm (B _ h)
  | .func id, hp, i, o, e, c, ho, he, hi, hob, heb => by
    simp only [refRun, Pipeline.outWant]
    refine ⟨⟨by simp, by simp, by simp⟩, ?_⟩
    rintro rfl
    refine ⟨?_, by simp⟩
    intro x hx
    simp only [List.mem_singleton] at hx
    subst hx
    simp only [RItem.objs, Option.toList, List.cons_append, List.nil_append, List.mem_cons, Want.pick, List.not_mem_nil, or_false]
    rintro (h | h)
    · exact hi c.p (Nat.le_refl _) h.symm
    · cases h
  | .iter id, hp, i, o, e, c, ho, he, hi, hob, heb => by
    simp only [refRun, Pipeline.outWant]
    refine ⟨⟨by simp, by simp, by simp⟩, ?_⟩
    rintro rfl
    refine ⟨?_, by simp⟩
    intro x hx
    simp only [List.mem_singleton] at hx
    subst hx
    simp [RItem.objs, Want.pick]
  | .pipe a b, hp, i, o, e, c, ho, he, hi, hob, heb => by
    simp only [Pipeline.Redirectable] at hp
    have ma := refRun_mono (cwd := cwd) a i .pipeOut e c
    have mo := refRun_out (cwd := cwd) a i .pipeOut e c
    have mo2 := mo.2 hp.2.2
    obtain ⟨Fa, Ua⟩ := refRun_free a hp.1 i .pipeOut e c trivial he hi (by intro b hb; cases hb) heb
    obtain ⟨Ua1, Ua2⟩ := Ua hp.2.2
    have mb := refRun_mono (cwd := cwd) b (.pipeR (refRun cwd a i .pipeOut e c).out) o e (refRun cwd a i .pipeOut e c).ctr
    have mob := refRun_out (cwd := cwd) b (.pipeR (refRun cwd a i .pipeOut e c).out) o e (refRun cwd a i .pipeOut e c).ctr
    obtain ⟨Fb, Ub⟩ := refRun_free b hp.2.1 (.pipeR (refRun cwd a i .pipeOut e c).out) o e (refRun cwd a i .pipeOut e c).ctr ho he
      (.pipeR mo2) (hob.mono ma.1) (heb.mono ma.1)
    have Oa := refRun_objs a hp.1 i .pipeOut e c
    have Ob := refRun_objs b hp.2.1 (.pipeR (refRun cwd a i .pipeOut e c).out) o e (refRun cwd a i .pipeOut e c).ctr
    have Ot : b.takes 0 = true → ∀ x ∈ (refRun cwd b (.pipeR (refRun cwd a i .pipeOut e c).out) o e (refRun cwd a i .pipeOut e c).ctr).items,
        .pipeR (refRun cwd a i .pipeOut e c).out ∉ x.objs := by
      intro ht x hx hmem
      have fr : Fresh c (refRun cwd a i .pipeOut e c).ctr (.pipeR (refRun cwd a i .pipeOut e c).out) := ⟨_, mo.1, mo2, rfl⟩
      rw [refRun_takes b hp.2.1 ht _ (.inherited 0)] at hx
      rcases (refRun_objs b hp.2.1 (.inherited 0) o e (refRun cwd a i .pipeOut e c).ctr).1 x hx _ hmem with h' | h' | h' | h'
      · cases h'
      · exact fr.not_old (hob _ h')
      · exact fr.not_old (heb _ h')
      · exact fr.not_made h' (.inl (Nat.le_refl _))
    simp only [refRun, Pipeline.outWant]
    generalize hra : refRun cwd a i .pipeOut e c = ra at *
    generalize hrb : refRun cwd b (.pipeR ra.out) o e ra.ctr = rb at *
    have hcl : ∀ ob ∈ (if b.takes 0 = true then [Obj.pipeR ra.out] else []), b.takes 0 = true ∧ ob = .pipeR ra.out := by
      intro ob h
      by_cases hp : b.takes 0 = true
      · rw [if_pos hp] at h; exact ⟨hp, by simpa using h⟩
      · rw [if_neg hp] at h; simp at h
    have fra : Fresh c ra.ctr (.pipeR ra.out) := ⟨_, mo.1, mo2, rfl⟩
    refine ⟨⟨?_, ?_, ?_⟩, ?_⟩
    · intro ob h
      simp only [List.mem_append] at h
      rcases h with (h | h) | h
      · exact (Fa.fresh ob h).mono (Nat.le_refl _) mb.1
      · exact (Fb.fresh ob h).mono ma.1 (Nat.le_refl _)
      · obtain ⟨-, rfl⟩ := hcl ob h
        exact fra.mono (Nat.le_refl _) mb.1
    · intro ob h x hx hmem
      simp only [List.mem_append] at h
      rcases h with (h | h) | h <;> rcases List.mem_append.1 hx with hx | hx
      · exact Fa.unused ob h x hx hmem
      · rcases Ob.1 x hx ob hmem with h' | h' | h' | h'
        · subst h'; exact Ua2 h
        · exact (Fa.fresh ob h).not_old (hob ob h')
        · exact (Fa.fresh ob h).not_old (heb ob h')
        · exact (Fa.fresh ob h).not_made h' (.inl (Nat.le_refl _))
      · rcases Oa.1 x hx ob hmem with h' | h' | h' | h'
        · subst h'; exact (Fb.fresh _ h).not_old (hi.mono ma.1)
        · cases h'
        · exact (Fb.fresh _ h).not_old ((heb ob h').mono ma.1)
        · exact (Fb.fresh _ h).not_made h' (.inr (Nat.le_refl _))
      · exact Fb.unused ob h x hx hmem
      · obtain ⟨-, rfl⟩ := hcl ob h
        exact Ua1 x hx hmem
      · obtain ⟨ht, rfl⟩ := hcl ob h
        exact Ot ht x hx hmem
    · refine nodup_append' (nodup_append' Fa.nodup Fb.nodup fun x h1 h2 =>
        (Fa.fresh x h1).not_made (Fb.fresh x h2).made (.inl (Nat.le_refl _))) (by split <;> simp) fun x h1 h2 => ?_
      obtain ⟨-, rfl⟩ := hcl x h2
      rcases List.mem_append.1 h1 with h | h
      · exact Ua2 h
      · exact fra.not_made (Fb.fresh _ h).made (.inl (Nat.le_refl _))
    · intro ho'
      obtain ⟨Ub1, Ub2⟩ := Ub ho'
      have fr : Fresh ra.ctr rb.ctr (.pipeR rb.out) := ⟨_, mob.1, mob.2 ho', rfl⟩
      refine ⟨?_, ?_⟩
      · intro x hx hmem
        rcases List.mem_append.1 hx with hx | hx
        · rcases Oa.1 x hx _ hmem with h' | h' | h' | h'
          · exact fr.not_old (h' ▸ hi.mono ma.1)
          · cases h'
          · exact fr.not_old ((heb _ h').mono ma.1)
          · exact fr.not_made h' (.inr (Nat.le_refl _))
        · exact Ub1 x hx hmem
      · intro h
        simp only [List.mem_append] at h
        rcases h with (h | h) | h
        · exact (Fa.fresh _ h).not_made fr.made (.inl (Nat.le_refl _))
        · exact Ub2 h
        · obtain ⟨_, h⟩ := hcl _ h
          have := mob.1
          have h : rb.out = ra.out := by injection h
          omega
  | .group a b, hp, i, o, e, c, ho, he, hi, hob, heb => by
    simp only [Pipeline.Redirectable] at hp
    have ma := refRun_mono (cwd := cwd) a i o e c
    have mo := refRun_out (cwd := cwd) a i o e c
    obtain ⟨Fa, Ua⟩ := refRun_free a hp.1 i o e c ho he hi hob heb
    have mb := refRun_mono (cwd := cwd) b i o e (refRun cwd a i o e c).ctr
    have mob := refRun_out (cwd := cwd) b i o e (refRun cwd a i o e c).ctr
    obtain ⟨Fb, Ub⟩ := refRun_free b hp.2 i o e (refRun cwd a i o e c).ctr ho he (hi.mono ma.1) (hob.mono ma.1) (heb.mono ma.1)
    have Oa := refRun_objs a hp.1 i o e c
    have Ob := refRun_objs b hp.2 i o e (refRun cwd a i o e c).ctr
    simp only [refRun, Pipeline.outWant]
    generalize hra : refRun cwd a i o e c = ra at *
    generalize hrb : refRun cwd b i o e ra.ctr = rb at *
    have hb : ∀ ob, Fresh c ra.ctr ob → ∀ x ∈ rb.items, ob ∉ x.objs := by
      intro ob hf x hx hmem
      rcases Ob.1 x hx ob hmem with h' | h' | h' | h'
      · subst h'; exact hf.not_old hi
      · exact hf.not_old (hob ob h')
      · exact hf.not_old (heb ob h')
      · exact hf.not_made h' (.inl (Nat.le_refl _))
    have ha : ∀ ob, Fresh ra.ctr rb.ctr ob → ∀ x ∈ ra.items, ob ∉ x.objs := by
      intro ob hf x hx hmem
      rcases Oa.1 x hx ob hmem with h' | h' | h' | h'
      · subst h'; exact hf.not_old (hi.mono ma.1)
      · exact hf.not_old ((hob ob h').mono ma.1)
      · exact hf.not_old ((heb ob h').mono ma.1)
      · exact hf.not_made h' (.inr (Nat.le_refl _))
    have hcl : ∀ ob ∈ (if a.outWant cwd o = .pipeOut then [Obj.pipeR ra.out] else []), a.outWant cwd o = .pipeOut ∧ ob = .pipeR ra.out := by
      intro ob h
      by_cases hp : a.outWant cwd o = .pipeOut
      · rw [if_pos hp] at h; exact ⟨hp, by simpa using h⟩
      · rw [if_neg hp] at h; simp at h
    have fra : a.outWant cwd o = .pipeOut → Fresh c ra.ctr (.pipeR ra.out) := fun h => ⟨_, mo.1, mo.2 h, rfl⟩
    refine ⟨⟨?_, ?_, ?_⟩, ?_⟩
    · intro ob h
      rcases List.mem_append.1 h with h | h
      · rcases List.mem_append.1 h with h | h
        · exact (Fa.fresh ob h).mono (Nat.le_refl _) mb.1
        · exact (Fb.fresh ob h).mono ma.1 (Nat.le_refl _)
      · obtain ⟨hp, rfl⟩ := hcl ob h
        exact (fra hp).mono (Nat.le_refl _) mb.1
    · intro ob h x hx hmem
      rcases List.mem_append.1 h with h | h
      · rcases List.mem_append.1 h with h | h <;> rcases List.mem_append.1 hx with hx | hx
        · exact Fa.unused ob h x hx hmem
        · exact hb ob (Fa.fresh ob h) x hx hmem
        · exact ha ob (Fb.fresh ob h) x hx hmem
        · exact Fb.unused ob h x hx hmem
      · obtain ⟨hp, rfl⟩ := hcl ob h
        rcases List.mem_append.1 hx with hx | hx
        · exact (Ua hp).1 x hx hmem
        · exact hb _ (fra hp) x hx hmem
    · refine nodup_append' (nodup_append' Fa.nodup Fb.nodup fun x h1 h2 =>
        (Fa.fresh x h1).not_made (Fb.fresh x h2).made (.inl (Nat.le_refl _))) (by split <;> simp) fun x h1 h2 => ?_
      obtain ⟨hp, rfl⟩ := hcl x h2
      rcases List.mem_append.1 h1 with h | h
      · exact (Ua hp).2 h
      · exact (fra hp).not_made (Fb.fresh _ h).made (.inl (Nat.le_refl _))
    · intro hp
      have fr : Fresh ra.ctr rb.ctr (.pipeR rb.out) := ⟨_, mob.1, mob.2 hp, rfl⟩
      refine ⟨?_, ?_⟩
      · intro x hx hmem
        rcases List.mem_append.1 hx with hx | hx
        · exact ha _ fr x hx hmem
        · exact (Ub hp).1 x hx hmem
      · intro h
        rcases List.mem_append.1 h with h | h
        · rcases List.mem_append.1 h with h | h
          · exact (Fa.fresh _ h).not_made fr.made (.inl (Nat.le_refl _))
          · exact (Ub hp).2 h
        · obtain ⟨hp', h⟩ := hcl _ h
          have := mo.2 hp'
          have := mob.1
          have h : rb.out = ra.out := by injection h
          omega
  | .redirect p crs, hp, i, o, e, c, ho, he, hi, hob, heb => by
    simp only [Pipeline.Redirectable] at hp
    simp only [refRun, Pipeline.outWant]
    refine refRun_free p hp.1 _ _ _ c (orWant_out ho) (orWant_plain he ?_) (hi.orIn _) (hob.orWant _) (heb.orWant _)
    intro q hq
    have hv := hp.2.1.wf.value_of_get? hq
    exact (hp.2.2 q hv.1).two hv.2
theorem refArgs_free : (a : Args) → a.Redirectable sys cwd → (i o e : Obj) → (c : Ctr) → Old c i → Old c o → Old c e →
    Free c (refArgs cwd a i o e c).items (refArgs cwd a i o e c).leaks (refArgs cwd a i o e c).ctr ∧
    ∀ ob ∈ (refArgs cwd a i o e c).leaks, ob ∉ devObjs (refArgs cwd a i o e c).words
  | .nil, hp, i, o, e, c, hi, hob, heb => by
    simp only [refArgs]; exact ⟨⟨by simp, by simp, by simp⟩, by simp⟩
  | .word ws rest, hp, i, o, e, c, hi, hob, heb => by
    obtain ⟨F, W⟩ := refArgs_free rest (by simpa only [Args.Redirectable] using hp) i o e c hi hob heb
    simp only [refArgs]
    exact ⟨F, by rw [devObjs_lits]; exact W⟩
  | .pipeArg pre p rest, hp, i, o, e, c, hi, hob, heb => by
    simp only [Args.Redirectable] at hp
    have ma := refRun_mono (cwd := cwd) p i .pipeOut (.obj e) c
    have mo := (refRun_out (cwd := cwd) p i .pipeOut (.obj e) c)
    have mo2 := mo.2 hp.2.1
    obtain ⟨Fa, Ua⟩ := refRun_free p hp.1 i .pipeOut (.obj e) c trivial trivial hi (by intro b hb; cases hb) (by intro b hb; cases hb; exact heb)
    obtain ⟨Ua1, Ua2⟩ := Ua hp.2.1
    have mb := refArgs_mono (cwd := cwd) rest i o e (refRun cwd p i .pipeOut (.obj e) c).ctr
    obtain ⟨Fb, Wb⟩ := refArgs_free rest hp.2.2 i o e (refRun cwd p i .pipeOut (.obj e) c).ctr (hi.mono ma.1) (hob.mono ma.1) (heb.mono ma.1)
    have Oa := refRun_objs p hp.1 i .pipeOut (.obj e) c
    obtain ⟨Ob, Ow, -⟩ := refArgs_objs rest hp.2.2 i o e (refRun cwd p i .pipeOut (.obj e) c).ctr
    simp only [refArgs]
    generalize hra : refRun cwd p i .pipeOut (.obj e) c = ra at *
    generalize hrb : refArgs cwd rest i o e ra.ctr = rb at *
    refine ⟨⟨?_, ?_, ?_⟩, ?_⟩
    · intro ob h
      rcases List.mem_append.1 h with h | h
      · exact (Fa.fresh ob h).mono (Nat.le_refl _) mb.1
      · exact (Fb.fresh ob h).mono ma.1 (Nat.le_refl _)
    · intro ob h x hx hmem
      rcases List.mem_append.1 h with h | h <;> rcases List.mem_append.1 hx with hx | hx
      · exact Fa.unused ob h x hx hmem
      · rcases Ob x hx ob hmem with h' | h' | h' | h'
        · subst h'; exact (Fa.fresh _ h).not_old hi
        · subst h'; exact (Fa.fresh _ h).not_old hob
        · subst h'; exact (Fa.fresh _ h).not_old heb
        · exact (Fa.fresh ob h).not_made h' (.inl (Nat.le_refl _))
      · rcases Oa.1 x hx ob hmem with h' | h' | h' | h'
        · subst h'; exact (Fb.fresh _ h).not_old (hi.mono ma.1)
        · cases h'
        · cases h'; exact (Fb.fresh _ h).not_old (heb.mono ma.1)
        · exact (Fb.fresh _ h).not_made h' (.inr (Nat.le_refl _))
      · exact Fb.unused ob h x hx hmem
    · refine nodup_append' Fa.nodup Fb.nodup fun x h1 h2 => (Fa.fresh x h1).not_made (Fb.fresh x h2).made (.inl (Nat.le_refl _))
    · intro ob h
      simp only [devObjs, List.mem_cons, not_or]
      rcases List.mem_append.1 h with h | h
      · refine ⟨?_, fun h2 => (Fa.fresh _ h).not_made (Ow _ h2) (.inl (Nat.le_refl _))⟩
        rintro rfl; exact Ua2 h
      · refine ⟨?_, Wb _ h⟩
        rintro rfl; exact (Fb.fresh _ h).not_old (.pipeR mo2)
  | .funcArg pre id rest, hp, i, o, e, c, hi, hob, heb => by
    have mb := refArgs_mono (cwd := cwd) rest i o e { c with p := c.p + 1 }
    obtain ⟨Fb, Wb⟩ := refArgs_free rest (by simpa only [Args.Redirectable] using hp) i o e { c with p := c.p + 1 } (hi.mono (Nat.le_succ _)) (hob.mono (Nat.le_succ _)) (heb.mono (Nat.le_succ _))
    simp only [refArgs]
    generalize hrb : refArgs cwd rest i o e { c with p := c.p + 1 } = rb at *
    refine ⟨⟨?_, ?_, ?_⟩, ?_⟩
    · intro ob h; exact (Fb.fresh ob h).mono (Nat.le_succ _) (Nat.le_refl _)
    · intro ob h x hx hmem
      rcases List.mem_cons.1 hx with rfl | hx
      · simp only [RItem.objs, Option.toList, List.cons_append, List.nil_append, List.mem_cons, List.not_mem_nil, or_false] at hmem
        rcases hmem with rfl | rfl
        · exact (Fb.fresh _ h).not_old (.pipeR (Nat.lt_succ_self _))
        · exact (Fb.fresh _ h).not_old (hob.mono (Nat.le_succ _))
      · exact Fb.unused ob h x hx hmem
    · exact Fb.nodup
    · intro ob h
      simp only [devObjs, List.mem_cons, not_or]
      refine ⟨?_, Wb _ h⟩
      rintro rfl
      exact (Fb.fresh _ h).not_old .pipeW
end

/-! ### chains -/

/-- The links of a chain that can be started. -/
structure LinksOk (sys : Sys) (cwd : Str) (ls : List Link) : Prop where
  leaf : ∀ l ∈ ls, l.leaf.leafId ≠ none
  shape : ∀ l ∈ ls, l.leaf.Redirectable sys cwd
  ok : ∀ l ∈ ls, LinkOk l
  outs : OutsOk cwd ls

/-- Where the output of the `k`th link of a chain goes. -/
def outAt (cwd : Str) (ls : List Link) (o : Want) (k : Nat) (l : Link) : Want :=
  if k + 1 = ls.length then orWant cwd l.out o else .pipeOut

theorem outAt_out {ls : List Link} {o : Want} (ho : o.Out) (k : Nat) (l : Link) : (outAt cwd ls o k l).Out := by
  unfold outAt
  split
  · exact orWant_out ho
  · trivial

/-- Numbers of the output pipes along a chain. -/
def chainPipe (cwd : Str) (ls : List Link) (i : Obj) (o e : Want) (c : Ctr) (k : Nat) : Nat :=
  (((refSegs cwd ls i o e c)[k]?).map RefOut.out).getD 0

/-- What is started for a link. -/
def linkRun (cwd : Str) (ls : List Link) (o e : Want) (k : Nat) (l : Link) (i' : Obj) (c' : Ctr) : RefOut :=
  refRun cwd l.leaf (orIn cwd l.inp i') (outAt cwd ls o k l) (orWant cwd l.err e) c'

/-- Everything about the `k`th item of a chain. -/
structure ChainAt (cwd : Str) (ls : List Link) (i : Obj) (o e : Want) (c : Ctr) (k : Nat) (l : Link) (i' : Obj) (c' : Ctr) : Prop where
  seg : (refSegs cwd ls i o e c)[k]? = some (linkRun cwd ls o e k l i' c')
  leaf : l.leaf.leafId ≠ none
  out : c'.p = chainPipe cwd ls i o e c k
  inp : i' = if k = 0 then i else .pipeR (chainPipe cwd ls i o e c (k - 1))
  start : k = 0 → c' = c
  next : k + 1 < ls.length →
    chainPipe cwd ls i o e c k < (linkRun cwd ls o e k l i' c').ctr.p ∧
    (linkRun cwd ls o e k l i' c').ctr.p = chainPipe cwd ls i o e c (k + 1)
  tbound : c.t ≤ c'.t

theorem segs_get {ls : List Link} (hl : LinksOk sys cwd ls) (i : Obj) (o e : Want) (c : Ctr) (k : Nat) (l : Link) (hk : ls[k]? = some l) :
    ∃ i' c', (refSegs cwd ls i o e c)[k]? = some (linkRun cwd ls o e k l i' c') ∧
      (k = 0 → i' = i ∧ c' = c) ∧
      (∀ j, k = j + 1 → ∃ r, (refSegs cwd ls i o e c)[j]? = some r ∧ i' = .pipeR r.out ∧ c' = r.ctr) := by
  obtain ⟨i', c', h1, h2, h3⟩ := refSegs_get (cwd := cwd) ls i o e c k l hk
  refine ⟨i', c', ?_, h2, h3⟩
  rw [h1]
  simp only [refLink, linkRun, outAt]
  have hlk : k < ls.length := by
    rcases Nat.lt_or_ge k ls.length with h | h
    · exact h
    · rw [List.getElem?_eq_none h] at hk; cases hk
  by_cases hlast : k + 1 = ls.length
  · rw [if_pos hlast, if_pos hlast]
  · rw [if_neg hlast, if_neg hlast, hl.outs.get hk (by omega)]

theorem link_out {ls : List Link} (hl : LinksOk sys cwd ls) {o : Want} (ho : o.Out) {e : Want} (he : e.Plain) {k : Nat} {l : Link}
    (hk : ls[k]? = some l) (i' : Obj) (c' : Ctr) : (linkRun cwd ls o e k l i' c').out = c'.p :=
  (refRun_leaf l.leaf (hl.leaf l (List.mem_of_getElem? hk)) _ _ _ c' (outAt_out ho k l)
    (orWant_plain he (hl.ok l (List.mem_of_getElem? hk)).err)).1

theorem chain_at {ls : List Link} (hl : LinksOk sys cwd ls) (i : Obj) {o : Want} (ho : o.Out) {e : Want} (he : e.Plain) (c : Ctr)
    (k : Nat) (l : Link) (hk : ls[k]? = some l) : ∃ i' c', ChainAt cwd ls i o e c k l i' c' := by
  have key : ∀ (k : Nat) (l : Link), ls[k]? = some l → ∀ i' c',
      (refSegs cwd ls i o e c)[k]? = some (linkRun cwd ls o e k l i' c') →
      c'.p = chainPipe cwd ls i o e c k := by
    intro k l hk i' c' h
    unfold chainPipe
    rw [h]; simp [link_out hl ho he hk]
  have grow : ∀ (k : Nat) (l : Link), ls[k]? = some l → k + 1 < ls.length → ∀ i' c',
      (linkRun cwd ls o e k l i' c').out < (linkRun cwd ls o e k l i' c').ctr.p := by
    intro k l hk hlt i' c'
    refine (refRun_out l.leaf _ _ _ c').2 ?_
    rw [outWant_leaf (hl.leaf l (List.mem_of_getElem? hk)), outAt, if_neg (by omega)]
  have next : ∀ (k : Nat) (l : Link), ls[k]? = some l → ∀ i' c',
      (refSegs cwd ls i o e c)[k]? = some (linkRun cwd ls o e k l i' c') → k + 1 < ls.length →
      chainPipe cwd ls i o e c k < (linkRun cwd ls o e k l i' c').ctr.p ∧
      (linkRun cwd ls o e k l i' c').ctr.p = chainPipe cwd ls i o e c (k + 1) := by
    intro k l hk i' c' h1 hlt
    obtain ⟨l', hl'⟩ : ∃ l', ls[k+1]? = some l' := ⟨ls[k+1], by simp [hlt]⟩
    obtain ⟨i2, c2, g1, g2, g3⟩ := segs_get hl i o e c (k + 1) l' hl'
    obtain ⟨r', r1', r2', r3'⟩ := g3 k rfl
    rw [h1] at r1'
    have r1' := (Option.some.inj r1').symm
    rw [← key _ l' hl' i2 c2 g1, r3', r1', ← key _ l hk i' c' h1]
    refine ⟨?_, rfl⟩
    have := grow k l hk hlt i' c'
    rw [link_out hl ho he hk] at this
    exact this
  induction k generalizing l with
  | zero =>
    obtain ⟨i', c', h1, h2, h3⟩ := segs_get hl i o e c 0 l hk
    exact ⟨i', c', h1, hl.leaf l (List.mem_of_getElem? hk), key 0 l hk i' c' h1, by simp [(h2 rfl).1], fun h => (h2 h).2,
      next 0 l hk i' c' h1, by rw [(h2 rfl).2]; exact Nat.le_refl _⟩
  | succ k ih =>
    obtain ⟨i', c', h1, h2, h3⟩ := segs_get hl i o e c (k + 1) l hk
    have hlk : k + 1 < ls.length := by
      rcases Nat.lt_or_ge (k + 1) ls.length with h | h
      · exact h
      · rw [List.getElem?_eq_none h] at hk; cases hk
    obtain ⟨r, r1, r2, r3⟩ := h3 k rfl
    obtain ⟨l0, hl0⟩ : ∃ l', ls[k]? = some l' := ⟨ls[k], by simp⟩
    obtain ⟨i0, c0, C0⟩ := ih l0 hl0
    have hr : r = linkRun cwd ls o e k l0 i0 c0 := by
      have := C0.seg; rw [r1] at this; exact Option.some.inj this
    have hm := refRun_mono (cwd := cwd) l0.leaf (orIn cwd l0.inp i0) (outAt cwd ls o k l0) (orWant cwd l0.err e) c0
    refine ⟨i', c', h1, hl.leaf l (List.mem_of_getElem? hk), key _ l hk i' c' h1, ?_, by simp, next _ l hk i' c' h1, ?_⟩
    · rw [if_neg (by omega), r2]
      congr 1
      unfold chainPipe
      rw [Nat.add_sub_cancel, r1]; rfl
    · rw [r3, hr]
      have := C0.tbound
      unfold linkRun
      omega

theorem chain_lt {ls : List Link} (hl : LinksOk sys cwd ls) (i : Obj) {o : Want} (ho : o.Out) {e : Want} (he : e.Plain) (c : Ctr)
    (j k : Nat) (hjk : j < k) (hk : k < ls.length) : chainPipe cwd ls i o e c j < chainPipe cwd ls i o e c k := by
  induction k with
  | zero => omega
  | succ k ih =>
    have step : chainPipe cwd ls i o e c k < chainPipe cwd ls i o e c (k + 1) := by
      obtain ⟨i', c', C⟩ := chain_at hl i ho he c k ls[k] (by simp)
      have := C.next hk
      omega
    rcases Nat.lt_or_ge j k with h | h
    · have := ih h (by omega); omega
    · have : j = k := by omega
      subst this; exact step

theorem chain_ge {ls : List Link} (hl : LinksOk sys cwd ls) (i : Obj) {o : Want} (ho : o.Out) {e : Want} (he : e.Plain) (c : Ctr)
    (k : Nat) (hk : k < ls.length) : c.p ≤ chainPipe cwd ls i o e c k := by
  have h0 : c.p ≤ chainPipe cwd ls i o e c 0 := by
    obtain ⟨i', c', C⟩ := chain_at hl i ho he c 0 ls[0] (by simp)
    rw [← C.out, C.start rfl]; exact Nat.le_refl _
  rcases Nat.eq_zero_or_pos k with h | h
  · rw [h]; exact h0
  · have := chain_lt hl i ho he c 0 k h hk; omega

theorem chain_inj {ls : List Link} (hl : LinksOk sys cwd ls) (i : Obj) {o : Want} (ho : o.Out) {e : Want} (he : e.Plain) (c : Ctr)
    (j k : Nat) (hj : j < ls.length) (hk : k < ls.length) (h : chainPipe cwd ls i o e c j = chainPipe cwd ls i o e c k) : j = k := by
  rcases Nat.lt_trichotomy j k with h' | h' | h'
  · have := chain_lt hl i ho he c j k h' hk; omega
  · exact h'
  · have := chain_lt hl i ho he c k j h' hj; omega

/-- Who has the ends of the pipes of a chain open. -/
theorem chain_holders {ls : List Link} (hl : LinksOk sys cwd ls) (i : Obj) {o : Want} (ho : o.Out) {e : Want} (he : e.Plain)
    (c : Ctr) {old : Obj → Prop} (hold : ∀ ob, old ob → ∀ n, c.p ≤ n → ob ≠ .pipeR n ∧ ob ≠ .pipeW n) (hi : old i)
    (hob : ∀ b, o = .obj b → old b) (heb : ∀ b, e = .obj b → old b) (hfile : ∀ d p f m, old (.file d p f m))
    (k : Nat) (hk : k < ls.length) (hko : ∀ l, ls[k]? = some l → outAt cwd ls o k l = .pipeOut)
    (j : Nat) (l : Link) (hlj : ls[j]? = some l) (r : RefOut) (hj : (refSegs cwd ls i o e c)[j]? = some r) :
    (∀ x ∈ r.items, (.pipeW (chainPipe cwd ls i o e c k) ∈ x.objs → j = k) ∧
      (.pipeR (chainPipe cwd ls i o e c k) ∈ x.objs → j = k + 1 ∧ l.inp = none)) ∧
    (∀ ob ∈ r.leaks, ob ≠ .pipeW (chainPipe cwd ls i o e c k) ∧ ob ≠ .pipeR (chainPipe cwd ls i o e c k)) := by
  have hjl : j < ls.length := by
    rcases Nat.lt_or_ge j ls.length with h | h
    · exact h
    · rw [List.getElem?_eq_none (by rw [refSegs_length]; exact h)] at hj; cases hj
  have hmem : l ∈ ls := List.mem_of_getElem? hlj
  obtain ⟨i', c', C⟩ := chain_at hl i ho he c j l hlj
  have hr : r = linkRun cwd ls o e j l i' c' := by
    have := C.seg; rw [hj] at this; exact Option.some.inj this
  have hcj : c.p ≤ c'.p := by rw [C.out]; exact chain_ge hl i ho he c j hjl
  have hck : c.p ≤ chainPipe cwd ls i o e c k := chain_ge hl i ho he c k (by omega)
  have hmade : ∀ ob, Made ((outAt cwd ls o j l).pick c').2 r.ctr ob →
      ob ≠ .pipeW (chainPipe cwd ls i o e c k) ∧ ob ≠ .pipeR (chainPipe cwd ls i o e c k) := by
    intro ob hm
    have hnum : ∀ n, ((outAt cwd ls o j l).pick c').2.p ≤ n → n < r.ctr.p →
        n ≠ chainPipe cwd ls i o e c k := by
      intro n h1 h2 he'
      have hp := (pick_le (outAt cwd ls o j l) c').1
      rcases Nat.lt_or_ge k j with hlt | hge
      · have := chain_lt hl i ho he c k j hlt hjl
        have := C.out
        omega
      · rcases Nat.lt_or_ge j k with hlt | hge2
        · have hne : ¬ (j + 1 = ls.length) := by omega
          have hx := (C.next (by omega)).2
          rw [← hr] at hx
          rw [outAt, if_neg hne] at h1
          have h1' : c'.p + 1 ≤ n := h1
          have hjk : chainPipe cwd ls i o e c (j + 1) ≤ chainPipe cwd ls i o e c k := by
            rcases Nat.lt_or_ge (j + 1) k with h | h
            · exact Nat.le_of_lt (chain_lt hl i ho he c (j + 1) k h (by omega))
            · have : j + 1 = k := by omega
              rw [this]; exact Nat.le_refl _
          omega
        · have : j = k := by omega
          subst this
          rw [hko l hlj] at h1
          have h1' : c'.p + 1 ≤ n := h1
          have := C.out
          omega
    rcases hm with ⟨n, h1, h2, h | h⟩ | ⟨n, h1, h2, h⟩ | ⟨_, _, _, _, h⟩
    · subst h; refine ⟨by simp, fun h => hnum n h1 h2 (by cases h; rfl)⟩
    · subst h; refine ⟨fun h => hnum n h1 h2 (by cases h; rfl), by simp⟩
    · subst h; exact ⟨by simp, by simp⟩
    · subst h; exact ⟨by simp, by simp⟩
  obtain ⟨A, B⟩ := refRun_leaf_objs (cwd := cwd) l.leaf C.leaf (hl.shape l hmem) (orIn cwd l.inp i') (outAt cwd ls o j l) (orWant cwd l.err e) c'
  have hr' : refRun cwd l.leaf (orIn cwd l.inp i') (outAt cwd ls o j l) (orWant cwd l.err e) c' = r := hr.symm
  rw [hr'] at A B
  refine ⟨?_, fun ob h => hmade ob (B ob h)⟩
  intro x hx
  have hpick : ∀ ob, ob = ((outAt cwd ls o j l).pick c').1 →
      ob ≠ .pipeR (chainPipe cwd ls i o e c k) ∧ (ob = .pipeW (chainPipe cwd ls i o e c k) → j = k) := by
    intro ob h
    have hpipe : ∀ {x : Want}, x = .pipeOut → ob = (x.pick c').1 →
        ob ≠ .pipeR (chainPipe cwd ls i o e c k) ∧ (ob = .pipeW (chainPipe cwd ls i o e c k) → j = k) := by
      rintro x rfl h
      simp only [Want.pick] at h
      subst h
      exact ⟨by simp, fun h => chain_inj hl i ho he c j k hjl (by omega) (by rw [← C.out]; injection h)⟩
    by_cases hlast : j + 1 = ls.length
    · rw [outAt, if_pos hlast] at h
      have hO : (orWant cwd l.out o).Out := orWant_out ho
      cases hw : orWant cwd l.out o with
      | obj b =>
        have hb : old b := by
          rcases orWant_obj hw with h' | ⟨p, f, m, rfl⟩
          · exact hob b h'
          · exact hfile _ _ _ _
        have := hold b hb _ hck
        rw [hw] at h
        simp only [Want.pick] at h
        subst h
        exact ⟨this.1, fun h => absurd h this.2⟩
      | pipeOut => rw [hw] at h; exact hpipe rfl h
      | pipeIn => rw [hw] at hO; exact hO.elim
      | tmp => rw [hw] at h; simp only [Want.pick] at h; subst h; exact ⟨by simp, by simp⟩
    · rw [outAt, if_neg hlast] at h
      exact hpipe rfl h
  have herr : ∀ b, orWant cwd l.err e = .obj b → old b := by
    intro b hb
    rcases orWant_obj hb with h' | ⟨p, f, m, rfl⟩
    · exact heb b h'
    · exact hfile _ _ _ _
  have hin : ∀ ob, ob = orIn cwd l.inp i' → old ob ∨ (0 < j ∧ l.inp = none ∧ ob = .pipeR (chainPipe cwd ls i o e c (j - 1))) := by
    intro ob h
    cases hli : l.inp with
    | none =>
      rw [hli] at h
      have h : ob = i' := h
      rw [C.inp] at h
      split at h
      · subst h; exact .inl hi
      · exact .inr ⟨by omega, rfl, h⟩
    | some q =>
      obtain ⟨p, hp⟩ := (hl.ok l hmem).inp q hli
      rw [hli] at h
      simp only [orIn, orWant, Redirect.want, hp] at h
      subst h; exact .inl (hfile _ _ _ _)
  constructor
  · intro h
    rcases A x hx _ h with h | h | h | h
    · rcases hin _ h with h | ⟨_, _, h⟩
      · exact absurd rfl (hold _ h _ hck).2
      · cases h
    · exact (hpick _ h).2 rfl
    · exact absurd rfl (hold _ (herr _ h) _ hck).2
    · exact absurd rfl (hmade _ h).1
  · intro h
    rcases A x hx _ h with h | h | h | h
    · rcases hin _ h with h | ⟨h0, h1, h⟩
      · exact absurd rfl (hold _ h _ hck).1
      · have := chain_inj hl i ho he c (j - 1) k (by omega) (by omega) (by injection h with h; exact h.symm)
        exact ⟨by omega, h1⟩
    · exact absurd rfl (hpick _ h).1
    · exact absurd rfl (hold _ (herr _ h) _ hck).1
    · exact absurd rfl (hmade _ h).2

/-- Objects that a table can name: open in the shell, or files. -/
def OldIn (t : FdTable) (ob : Obj) : Prop := (∃ n e, t.get n = some e ∧ e.obj = ob) ∨ ∃ d p f m, ob = .file d p f m

theorem OldIn.notPipe {w : World} (hm : w.PipesMade) {ob : Obj} (h : OldIn w.fds ob) (n : Nat) (hn : w.nextPipe ≤ n) :
    ob ≠ .pipeR n ∧ ob ≠ .pipeW n := by
  rcases h with ⟨m, en, h1, rfl⟩ | ⟨_, _, _, _, rfl⟩
  · exact hm m en n h1 hn
  · exact ⟨by simp, by simp⟩

theorem OldIn.old {w : World} (hm : w.PipesMade) {ob : Obj} (h : OldIn w.fds ob) : Old w.ctr ob :=
  fun n hn => (h.notPipe hm n hn).1

theorem OldIn.log {w : World} {n : Nat} {ob : Obj} (h : execTable w.fds n = some ob) : OldIn w.fds ob := by
  unfold execTable at h
  split at h
  · next en hen =>
    split at h
    · cases h
    · cases h; exact .inl ⟨_, en, hen, rfl⟩
  · cases h

theorem Slot.old {t : FdTable} {H : Nat} {r : Redirect} {b : Obj} (h : Slot sys cwd t H r (.obj b)) : OldIn t b := by
  rcases h with ⟨a, e, -, h1, h2, -⟩ | ⟨p, -, -, h⟩
  · exact .inl ⟨a, e, h1, h2⟩
  · exact .inr ⟨_, _, _, _, h⟩

theorem Std.old {rs : Redirects} {t : FdTable} {H : Nat} {i o e : Want} (h : Std sys cwd rs t H i o e) :
    (∀ b, i = .obj b → OldIn t b) ∧ (∀ b, o = .obj b → OldIn t b) ∧ (∀ b, e = .obj b → OldIn t b) := by
  obtain ⟨⟨r0, r1, r2, -, -, -, -, s0, s1, s2⟩, -⟩ := h
  exact ⟨fun b hb => (hb ▸ s0).old, fun b hb => (hb ▸ s1).old, fun b hb => (hb ▸ s2).old⟩

theorem chain_links {p : Pipeline} (hp : p.Redirectable sys cwd) (hc : p.Chain) : LinksOk sys cwd p.links :=
  ⟨hc, leaf_redirectable p hp, links_ok p hp, outs_ok p hp hc⟩

/-- Joint statement about a started chain: wiring and holders. -/
theorem chain_spec {w : World} {rs : Redirects} {p : Pipeline} {i : Obj} {o e : Want}
    (hs : Startable sys cwd w rs p i o e) (hc : p.Chain) :
    ∃ items rs' w' segs q, runP sys cwd p rs w = (.ok (items, rs'), w') ∧ items = segs.flatten ∧
      Wired cwd w w' p i o e segs q ∧
      (p.outWant cwd o = .pipeOut → ∃ r u, Dict.get? rs' 1 = some r ∧ r.pipe = .fd u ∧
        (w'.fds.get u).map Entry.obj = some (.pipeR (q (p.links.length - 1)))) ∧
      (w.PipesMade → ∀ k, k < p.links.length → (k + 1 = p.links.length → p.outWant cwd o = .pipeOut) →
        (∀ (j : Nat) (s : List Item) (x : Item), segs[j]? = some s → x ∈ s →
          (x.Holds w' (.pipeW (q k)) → j = k) ∧ (x.Holds w' (.pipeR (q k)) → j = k + 1 ∧ ∀ l, p.links[j]? = some l → l.inp = none)) ∧
        (∀ fd en, w'.fds.get fd = some en →
          (en.obj = .pipeW (q k) → ∃ s, segs[k]? = some s ∧ fd ∈ heldFds s) ∧
          (en.obj = .pipeR (q k) → (∃ s, segs[k + 1]? = some s ∧ fd ∈ heldFds s) ∨ (∃ l, p.links[k + 1]? = some l ∧ l.inp ≠ none) ∨
            k + 1 = p.links.length))) := by
  obtain ⟨⟨H, L, hr, hl, hstd⟩, ho, he, hsh, hlow, hpo⟩ := hs
  obtain ⟨items, rs', w', ul, lk, hrun, P⟩ := run_spec sys cwd p hsh hr hl hstd ho he hlow hpo
  obtain ⟨R1, R2, rl, R3, R4, R5⟩ := refRun_links p hsh i o e w.ctr
  have hlk := chain_links hsh hc
  have hitems := P.itemsOk
  rw [R1] at hitems
  obtain ⟨segs, hflat, hseg⟩ := hitems.split_flatMap
  have hlen : segs.length = p.links.length := by rw [hseg.length, refSegs_length]
  have hlen0 : 0 < p.links.length := List.length_pos_iff.2 (links_ne_nil p)
  have hqlast : (refRun cwd p i o e w.ctr).out = chainPipe cwd p.links i o e w.ctr (p.links.length - 1) := by
    rw [R4]
    unfold chainPipe
    rw [List.getLast?_eq_getElem?, refSegs_length] at R3
    rw [R3]; rfl
  refine ⟨items, rs', w', segs, chainPipe cwd p.links i o e w.ctr, hrun, hflat, ?_, ?_, ?_⟩
  · refine ⟨hlen, fun k hk => chain_ge hlk i ho he w.ctr k hk, fun j k hjk hk => chain_lt hlk i ho he w.ctr j k hjk hk, ?_, ?_⟩
    rotate_left
    · intro k l s hk hsk
      obtain ⟨i', c', C⟩ := chain_at hlk i ho he w.ctr k l hk
      obtain ⟨s', hs1, hs2⟩ := hseg.get C.seg
      rw [hsk] at hs1; cases hs1
      unfold linkRun at hs2
      constructor
      · intro id hid
        rw [hid] at hs2
        simp only [refRun] at hs2
        cases hs2 with
        | @cons a _ _ _ h h' =>
          cases h'
          cases a with
          | proc => exact h.elim
          | func id' inFd outFd rs =>
            obtain ⟨rfl, -, h2, -⟩ := h
            cases inFd with
            | none => simp at h2
            | some n => exact ⟨n, outFd, rs, rfl⟩
      · intro id hid
        rw [hid] at hs2
        simp only [refRun] at hs2
        cases hs2 with
        | @cons a _ _ _ h h' =>
          cases h'
          cases a with
          | proc => exact h.elim
          | func id' inFd outFd rs =>
            obtain ⟨rfl, -, h2, -⟩ := h
            obtain rfl := h2.2 rfl
            exact ⟨outFd, rs, rfl⟩
    intro k l hk
    obtain ⟨i', c', C⟩ := chain_at hlk i ho he w.ctr k l hk
    obtain ⟨s, hs1, hs2⟩ := hseg.get C.seg
    unfold linkRun at hs2
    obtain ⟨-, m, hm1, hm2, hm3, hm4, hm5⟩ := refRun_leaf (cwd := cwd) l.leaf C.leaf (orIn cwd l.inp i') (outAt cwd p.links o k l)
      (orWant cwd l.err e) c' (outAt_out ho k l) (orWant_plain he (hlk.ok l (List.mem_of_getElem? hk)).err)
    obtain ⟨m', hm', hmok⟩ := hs2.getLast hm1
    refine ⟨s, m', hs1, ?_, hm', ?_, ?_, ⟨m.out, hmok.stdout, ?_⟩, ?_⟩
    · rw [ItemOk.ids hs2, refRun_ids]
    · rw [hm2, hmok.id]
    · intro hreads
      rw [hmok.stdin, hm3 hreads, C.inp]
    · rw [← C.out]
      exact (hm4.mono C.tbound).meets
    · intro id args hcmd
      obtain ⟨ob, h1, h2⟩ := hm5 id args hcmd
      exact ⟨ob, by rw [hmok.stderr, h1], ((h2 _).mono C.tbound).meets⟩
  · intro hp
    obtain ⟨r, h1, h2⟩ := P.r1
    obtain ⟨u, h3, h4, h5⟩ := h2 hp
    refine ⟨r, u, h1, h4, ?_⟩
    rw [h5, hqlast]; rfl
  · intro hmade k hk hko
    obtain ⟨oi, oo, oe⟩ := hstd.old
    have HH := chain_holders hlk i ho he w.ctr (old := OldIn w.fds) (fun ob h n hn => h.notPipe hmade n hn) (oi i rfl) oo oe
      (fun d p f m => .inr ⟨d, p, f, m, rfl⟩) k hk (by
        intro l hl
        unfold outAt
        split
        · next hlast =>
          obtain ⟨l', g1, g2⟩ := last_link (cwd := cwd) p
          rw [List.getLast?_eq_getElem?, ← hlast, Nat.add_sub_cancel, hl] at g1
          cases g1
          rw [← outWant_leaf (hc l (List.mem_of_getElem? hl)) (orWant cwd l.out o), ← g2, hko hlast]
        · rfl)
    have hck : w.ctr.p ≤ chainPipe cwd p.links i o e w.ctr k := chain_ge hlk i ho he w.ctr k (by omega)
    have part1 : ∀ (j : Nat) (s : List Item) (x : Item), segs[j]? = some s → x ∈ s →
          (x.Holds w' (.pipeW (chainPipe cwd p.links i o e w.ctr k)) → j = k) ∧
          (x.Holds w' (.pipeR (chainPipe cwd p.links i o e w.ctr k)) → j = k + 1 ∧ ∀ l, p.links[j]? = some l → l.inp = none) := by
      intro j s x hj hx
      obtain ⟨r, hr1, hr2⟩ := hseg.get' hj
      obtain ⟨y, hy1, hy2⟩ := hr2.mem hx
      have hjl : j < p.links.length := by
        rcases Nat.lt_or_ge j p.links.length with h | h
        · exact h
        · rw [List.getElem?_eq_none (by rw [refSegs_length]; exact h)] at hr1; cases hr1
      have := (HH j p.links[j] (by simp) r hr1).1 y hy1
      constructor
      · intro h
        rcases hy2.holds h with h' | h'
        · exact this.1 h'
        · exact absurd rfl ((OldIn.log h').notPipe hmade _ hck).2
      · intro h
        rcases hy2.holds h with h' | h'
        · refine ⟨(this.2 h').1, fun l hl => ?_⟩
          rw [List.getElem?_eq_getElem hjl] at hl
          cases hl
          exact (this.2 h').2
        · exact absurd rfl ((OldIn.log h').notPipe hmade _ hck).1
    refine ⟨part1, ?_⟩
    intro fd en hfd
    have hnew : (en.obj = .pipeW (chainPipe cwd p.links i o e w.ctr k) ∨ en.obj = .pipeR (chainPipe cwd p.links i o e w.ctr k)) →
        fd ∈ heldFds items ∨ (en.obj = .pipeR (chainPipe cwd p.links i o e w.ctr k) ∧
          ((∃ l, p.links[k + 1]? = some l ∧ l.inp ≠ none) ∨ k + 1 = p.links.length)) := by
      intro hor
      have hfresh : w.fds.get fd = none := by
        rcases Option.eq_none_or_eq_some (w.fds.get fd) with h | ⟨en', h⟩
        · exact h
        · exfalso
          have heq : w'.fds.get fd = w.fds.get fd := by
            by_cases hcl : fd ∈ usedFds p rs
            · have := (P.delta.closed fd hcl).2; rw [this] at hfd; cases hfd
            · exact P.delta.kept fd (by simp [h]) hcl
          rw [heq] at hfd
          have := hmade fd en _ hfd hck
          rcases hor with h | h
          · exact this.2 h
          · exact this.1 h
      have hmem := P.delta.only fd (by simp [hfd]) hfresh
      rcases List.mem_append.1 hmem with hmem | hmem
      · rcases List.mem_append.1 hmem with hmem | hmem
        · exact .inl hmem
        · by_cases hp : p.outWant cwd o = .pipeOut
          · obtain ⟨r, h1, h2⟩ := P.r1
            obtain ⟨u, h3, h4, h5⟩ := h2 hp
            rw [h3] at hmem
            simp only [List.mem_singleton] at hmem
            subst hmem
            rw [h5] at hfd
            cases hfd
            rcases hor with h | h
            · cases h
            · refine .inr ⟨h, .inr ?_⟩
              rw [hqlast] at h
              injection h with h
              have := chain_inj hlk i ho he w.ctr (p.links.length - 1) k (by omega) hk h
              omega
          · exfalso
            rw [P.r1' hp] at hmem; simp at hmem
      · obtain ⟨ob, hob1, hob2⟩ := P.leaks.mem hmem
        rw [hob2] at hfd
        cases hfd
        rcases R2 ob hob1 with hob1 | ⟨k', r, l, g1, g2, g3, rfl⟩
        · exfalso
          obtain ⟨r, hr1, hr2⟩ := List.mem_flatMap.1 hob1
          obtain ⟨j, hj⟩ := List.mem_iff_getElem?.1 hr1
          have hjl : j < p.links.length := by
            rcases Nat.lt_or_ge j p.links.length with h | h
            · exact h
            · rw [List.getElem?_eq_none (by rw [refSegs_length]; exact h)] at hj; cases hj
          have := (HH j p.links[j] (by simp) r hj).2 ob hr2
          rcases hor with h | h
          · exact this.1 h
          · exact this.2 h
        · rcases hor with h | h
          · cases h
          · have hk' : k' + 1 < p.links.length := by
              rcases Nat.lt_or_ge (k' + 1) p.links.length with h | h
              · exact h
              · rw [List.getElem?_eq_none h] at g2; cases g2
            have : r.out = chainPipe cwd p.links i o e w.ctr k' := by unfold chainPipe; rw [g1]; rfl
            have : k' = k := by
              refine chain_inj hlk i ho he w.ctr k' k (by omega) (by omega) ?_
              rw [← this]; injection h
            subst this
            exact .inr ⟨h, .inl ⟨l, g2, g3⟩⟩
    constructor
    · intro h
      rcases hnew (.inl h) with hm | ⟨h', _⟩
      · rw [hflat] at hm
        obtain ⟨j, s, hj, hjs⟩ := mem_heldFds_flatten hm
        obtain ⟨x, hx, hh⟩ := mem_heldFds hjs
        have := (part1 j s x hj hx).1 (by have := hh w' en hfd; rw [h] at this; exact this)
        subst this
        exact ⟨s, hj, hjs⟩
      · rw [h] at h'; cases h'
    · intro h
      rcases hnew (.inr h) with hm | ⟨_, h'⟩
      · rw [hflat] at hm
        obtain ⟨j, s, hj, hjs⟩ := mem_heldFds_flatten hm
        obtain ⟨x, hx, hh⟩ := mem_heldFds hjs
        have := ((part1 j s x hj hx).2 (by have := hh w' en hfd; rw [h] at this; exact this)).1
        subst this
        exact .inl ⟨s, hj, hjs⟩
      · exact .inr h'

end Pieshell
