import Verif.Lemmas.RunBase
/-! Correctness of starting pipelines: `runP` refines `refRun`. -/
namespace Pieshell

variable {sys : Sys} {cwd : Str}

/-! ### small facts -/

theorem heldFds_append (a b : List Item) : heldFds (a ++ b) = heldFds a ++ heldFds b := by
  induction a with
  | nil => rfl
  | cons x a ih => cases x <;> simp [heldFds, ih]

theorem Pointwise.append {α β : Type} {R : α → β → Prop} {a b : List α} {a' b' : List β}
    (h1 : Pointwise R a a') (h2 : Pointwise R b b') : Pointwise R (a ++ b) (a' ++ b') := by
  induction h1 with
  | nil => exact h2
  | cons h _ ih => exact .cons h ih

theorem Pointwise.mono {α β : Type} {R S : α → β → Prop} {a : List α} {a' : List β}
    (h1 : Pointwise R a a') (h : ∀ x ∈ a, ∀ y, R x y → S x y) : Pointwise S a a' := by
  induction h1 with
  | nil => exact .nil
  | cons hx _ ih => exact .cons (h _ (by simp) _ hx) (ih (fun x hx => h x (by simp [hx])))

theorem items_mono {lf : Nat} {lg : Option Obj} {g g' : Nat → Option Entry} {xs : List Item} {ys : List RItem}
    (h : Pointwise (ItemOk lf lg g) xs ys) (hk : ∀ n ∈ heldFds xs, g' n = g n) : Pointwise (ItemOk lf lg g') xs ys := by
  induction h with
  | nil => exact .nil
  | @cons a b l l' hx _ ih =>
    refine .cons ?_ (ih (fun n hn => hk n (by cases a <;> simp [heldFds, hn])))
    cases a with
    | proc => cases b <;> exact hx
    | func id inFd outFd rs =>
      cases b with
      | proc => exact hx
      | func id' i o =>
        obtain ⟨h1, h2, h3, h4⟩ := hx
        refine ⟨h1, ?_, h3, ?_⟩
        · rw [← h2]
          cases inFd with
          | none => rfl
          | some n => simp only [Option.bind_some]; rw [hk n (by simp [heldFds])]
        · rw [hk outFd (by simp [heldFds])]; exact h4

theorem Room.next {sys : Sys} {w w' : World} {H H' L : Nat} {c n : List Nat} (h : Room sys w H L)
    (hd : Delta w w' H' L c n) (hH : H ≤ H') : Room sys w' H' L where
  bounded := hd.bounded
  top := fun x hx => by
    rcases Option.eq_none_or_eq_some (w'.fds.get x) with he | ⟨e, he⟩
    · exact he
    · have h1 := h.top x hx
      have h2 := hd.fresh x (hd.only x (by simp [he]) h1)
      have := h.lim; omega
  gap := hd.gap
  three := by have := h.three; omega
  log := h.log
  lim := h.lim

theorem Room.mono {sys : Sys} {w : World} {H H' L : Nat} (h : Room sys w H L) (hH : H ≤ H') : Room sys w H' L :=
  { h with gap := h.gap.mono hH, three := by have := h.three; omega }

/-- The log descriptor does not change. -/
theorem Delta.log {sys : Sys} {w w' : World} {H H' L : Nat} {c n : List Nat} (h : Room sys w H L)
    (hd : Delta w w' H' L c n) (hc : ∀ x ∈ c, x < L) : execTable w'.fds sys.logfd = execTable w.fds sys.logfd := by
  have hl := h.log
  have : w'.fds.get sys.logfd = w.fds.get sys.logfd := by
    by_cases h1 : w.fds.get sys.logfd = none
    · rw [h1]
      rcases Option.eq_none_or_eq_some (w'.fds.get sys.logfd) with he | ⟨e, he⟩
      · exact he
      · have h2 := hd.fresh _ (hd.only _ (by simp [he]) h1); omega
    · exact hd.kept _ h1 (fun hm => by have := hc _ hm; omega)
  unfold execTable; rw [this]

/-! ### changing a slot -/

theorem redirect_out {rs : Redirects} {t : FdTable} {H : Nat} {i o e : Want} (h : Std sys cwd rs t H i o e)
    (how : ownedFds (Dict.values rs) = []) :
    ∃ ta, rs.redirect (.name c!"stdout") .PIPE = .ok ta ∧ Std sys cwd ta t H i .pipeOut e ∧ (ownedFds (Dict.values ta) = [] ∧
      ∀ r ∈ Dict.values ta, r ∈ Dict.values rs ∨ r.source = .PIPE) := by
  obtain ⟨⟨r0, r1, r2, rfl, f0, f1, f2, s0, s1, s2⟩, hd⟩ := h
  refine ⟨[(0, r0), (1, _), (2, r2)], rfl, ⟨⟨r0, _, r2, rfl, f0, rfl, f2, s0, ⟨rfl, ?_⟩, s2⟩, ?_⟩, ?_, ?_⟩
  · decide
  · refine hd.sublist ?_
    simp only [Dict.values, List.map_cons, List.map_nil, srcFds, List.filterMap_cons, List.filterMap_nil]
    cases r0.source <;> cases r1.source <;> cases r2.source <;> simp
  · rw [List.eq_nil_iff_forall_not_mem] at how ⊢
    intro n hn
    obtain ⟨r, hr, h1, h2⟩ := mem_ownedFds.1 hn
    simp [Dict.values] at hr
    rcases hr with rfl | rfl | rfl
    · exact how n (mem_ownedFds.2 ⟨r, by simp [Dict.values], h1, h2⟩)
    · cases h1
    · exact how n (mem_ownedFds.2 ⟨r, by simp [Dict.values], h1, h2⟩)
  · intro r hr
    simp [Dict.values] at hr
    rcases hr with rfl | rfl | rfl
    · exact .inl (by simp [Dict.values])
    · exact .inr rfl
    · exact .inl (by simp [Dict.values])

theorem redirect_in {rs : Redirects} {t : FdTable} {H : Nat} {i o e : Want} (h : Std sys cwd rs t H i o e)
    (how : ownedFds (Dict.values rs) = []) :
    ∃ ta, rs.redirect (.name c!"stdin") .PIPE = .ok ta ∧ Std sys cwd ta t H .pipeIn o e ∧ (ownedFds (Dict.values ta) = [] ∧
      ∀ r ∈ Dict.values ta, r ∈ Dict.values rs ∨ r.source = .PIPE) := by
  obtain ⟨⟨r0, r1, r2, rfl, f0, f1, f2, s0, s1, s2⟩, hd⟩ := h
  refine ⟨[(0, _), (1, r1), (2, r2)], rfl, ⟨⟨_, r1, r2, rfl, rfl, f1, f2, ⟨rfl, ?_⟩, s1, s2⟩, ?_⟩, ?_, ?_⟩
  · decide
  · refine hd.sublist ?_
    simp only [Dict.values, List.map_cons, List.map_nil, srcFds, List.filterMap_cons, List.filterMap_nil]
    cases r0.source <;> cases r1.source <;> cases r2.source <;> simp
  · rw [List.eq_nil_iff_forall_not_mem] at how ⊢
    intro n hn
    obtain ⟨r, hr, h1, h2⟩ := mem_ownedFds.1 hn
    simp [Dict.values] at hr
    rcases hr with rfl | rfl | rfl
    · cases h1
    · exact how n (mem_ownedFds.2 ⟨r, by simp [Dict.values], h1, h2⟩)
    · exact how n (mem_ownedFds.2 ⟨r, by simp [Dict.values], h1, h2⟩)
  · intro r hr
    simp [Dict.values] at hr
    rcases hr with rfl | rfl | rfl
    · exact .inr rfl
    · exact .inl (by simp [Dict.values])
    · exact .inl (by simp [Dict.values])

theorem redirect_in_fd {rs : Redirects} {t : FdTable} {H u : Nat} {i o e : Want} {ent : Entry} (h : Std sys cwd rs t H i o e)
    (how : ownedFds (Dict.values rs) = []) (hu : t.get u = some ent) (huH : u < H) (hn : u ∉ srcFds (Dict.values rs)) :
    ∃ tb, rs.redirect (.name c!"stdin") (.fd u) = .ok tb ∧ Std sys cwd tb t H (.obj ent.obj) o e ∧
      (∀ (f : Nat → Bool) n, n ∈ ownedFds ((Dict.values tb).filter (fun r => f r.fd)) ↔ n = u ∧ f 0 = true) ∧
      ∀ r ∈ Dict.values tb, r ∈ Dict.values rs ∨ r.source = .fd u := by
  obtain ⟨⟨r0, r1, r2, rfl, f0, f1, f2, s0, s1, s2⟩, hd⟩ := h
  refine ⟨[(0, _), (1, r1), (2, r2)], rfl, ⟨⟨_, r1, r2, rfl, rfl, f1, f2, (.inl ⟨u, ent, rfl, hu, rfl, huH⟩), s1, s2⟩, ?_⟩, ?_, ?_⟩
  · simp only [Dict.values, List.map_cons, List.map_nil] at hd hn ⊢
    rw [srcFds_cons_fd rfl]
    have hsub : (srcFds [r1, r2]).Sublist (srcFds [r0, r1, r2]) := List.Sublist.filterMap _ (by simp)
    exact List.nodup_cons.2 ⟨fun hm => hn (hsub.subset hm), hd.sublist hsub⟩
  · intro f n
    rw [List.eq_nil_iff_forall_not_mem] at how
    constructor
    · intro hm
      obtain ⟨r, hr, h1, h2⟩ := mem_ownedFds.1 hm
      rw [List.mem_filter] at hr
      obtain ⟨hr, hf⟩ := hr
      simp [Dict.values] at hr
      rcases hr with rfl | rfl | rfl
      · injection h1 with h1; exact ⟨h1.symm, hf⟩
      · exact absurd (mem_ownedFds.2 ⟨r, by simp [Dict.values], h1, h2⟩) (how n)
      · exact absurd (mem_ownedFds.2 ⟨r, by simp [Dict.values], h1, h2⟩) (how n)
    · rintro ⟨rfl, hf⟩
      exact mem_ownedFds.2 ⟨_, List.mem_filter.2 ⟨by simp [Dict.values]; exact .inl rfl, hf⟩, rfl, rfl⟩
  · intro r hr
    simp [Dict.values] at hr
    rcases hr with rfl | rfl | rfl
    · exact .inr rfl
    · exact .inl (by simp [Dict.values])
    · exact .inl (by simp [Dict.values])

/-! ### files and low descriptors -/

/-- Either there are no redirections from or to files at all, or the standard descriptors of the shell are open and
straight. -/
def Fine (reg : Prop) (rs : Redirects) (t : FdTable) : Prop := (reg ∧ rs.NoFiles) ∨ rs.Low t

theorem Fine.imp {a b : Prop} {rs : Redirects} {t : FdTable} (h : Fine a rs t) (hab : a → b) : Fine b rs t :=
  h.imp_left (fun h => ⟨hab h.1, h.2⟩)

theorem Fine.change {a : Prop} {rs rs' : Redirects} {t t' : FdTable} (h : Fine a rs t) (hk : Keeps t t')
    (hv : ∀ r' ∈ Dict.values rs', (∃ r ∈ Dict.values rs, r.source = r'.source ∧ r.fd = r'.fd) ∨
      ((∀ p, r'.source ≠ .path p) ∧ ∀ n, r'.source = .fd n → t.get n = none)) : Fine a rs' t' := by
  rcases h with ⟨h1, h2⟩ | ⟨h1, h2⟩
  · refine .inl ⟨h1, fun r hr p hp => ?_⟩
    rcases hv r hr with ⟨q, hq, h3, h4⟩ | ⟨h3, _⟩
    · exact h2 q hq p (h3.trans hp)
    · exact h3 p hp
  · refine .inr ⟨fun n hn => by rw [hk n (h1 n hn)]; exact h1 n hn, fun r hr n hn hlt => ?_⟩
    rcases hv r hr with ⟨q, hq, h3, h4⟩ | ⟨_, h3⟩
    · rw [← h4]; exact h2 q hq n (h3.trans hn) hlt
    · exact absurd (h3 n hn) (h1 n hlt)

theorem Fine.keeps {a : Prop} {rs : Redirects} {t t' : FdTable} (h : Fine a rs t) (hk : Keeps t t') : Fine a rs t' :=
  h.change hk (fun r hr => .inl ⟨r, hr, rfl, rfl⟩)

theorem mem_values_borrow {rs : Redirects} {r : Redirect} (h : r ∈ Dict.values rs.borrow) : ∃ q ∈ Dict.values rs, q.borrow = r := by
  obtain ⟨p, hp, rfl⟩ := List.mem_map.1 h
  obtain ⟨q, hq, rfl⟩ := List.mem_map.1 hp
  exact ⟨q.2, List.mem_map.2 ⟨q, hq, rfl⟩, rfl⟩

theorem Fine.borrow {a : Prop} {rs : Redirects} {t : FdTable} (h : Fine a rs t) : Fine a rs.borrow t := by
  refine h.change (.refl _) (fun r hr => .inl ?_)
  obtain ⟨q, hq, rfl⟩ := mem_values_borrow hr
  exact ⟨q, hq, rfl, rfl⟩

/-- The source descriptors that are closed when `p` has been started with `rs`. -/
def usedFds (p : Pipeline) (rs : Redirects) : List Nat := ownedFds ((Dict.values rs).filter (fun r => !p.takes r.fd))

theorem usedFds_all {p : Pipeline} (h : ∀ n, p.takes n = false) (rs : Redirects) : usedFds p rs = ownedFds (Dict.values rs) := by
  unfold usedFds
  congr 1
  rw [List.filter_eq_self]
  intro r _; simp [h]

theorem mem_usedFds {p : Pipeline} {rs : Redirects} {n : Nat} :
    n ∈ usedFds p rs ↔ ∃ r ∈ Dict.values rs, p.takes r.fd = false ∧ r.source = .fd n ∧ r.borrowed = false := by
  unfold usedFds
  rw [mem_ownedFds]
  constructor
  · rintro ⟨r, hr, h1, h2⟩
    rw [List.mem_filter] at hr
    exact ⟨r, hr.1, by simpa using hr.2, h1, h2⟩
  · rintro ⟨r, hr, h0, h1, h2⟩
    exact ⟨r, List.mem_filter.2 ⟨hr, by simp [h0]⟩, h1, h2⟩

theorem usedFds_sub {p : Pipeline} {rs : Redirects} (h : ownedFds (Dict.values rs) = []) : usedFds p rs = [] := by
  rw [List.eq_nil_iff_forall_not_mem] at *
  intro n hn
  obtain ⟨r, hr, _, h1, h2⟩ := mem_usedFds.1 hn
  exact h n (mem_ownedFds.2 ⟨r, hr, h1, h2⟩)

theorem attr_of_get? {rs : Redirects} {r : Redirect} :
    (Dict.get? rs 0 = some r → rs.attr c!"stdin" = .ok r) ∧ (Dict.get? rs 1 = some r → rs.attr c!"stdout" = .ok r) := by
  constructor
  · intro h
    have : fdNames.get? c!"stdin" = some 0 := rfl
    simp [Redirects.attr, this, h]
  · intro h
    have : fdNames.get? c!"stdout" = some 1 := rfl
    simp [Redirects.attr, this, h]

/-! ### python functions -/

/-- Result of starting a python function. -/
structure FPost (sys : Sys) (w w' : World) (H L : Nat) (cl : List Nat) (i o e : Want) (id : Nat) (takes : Bool)
    (items : List Item) (rs' : Redirects) (ui uo : List Nat) : Prop where
  delta : Delta w w' (H + 16) L cl (heldFds items ++ ui ++ uo)
  ctr : w'.ctr = (e.pick (o.pick (i.pick w.ctr).2).2).2
  started : w'.started = w.started ++ items.map Item.id
  itemsOk : ∀ lg, Pointwise (ItemOk sys.logfd lg w'.fds.get) items
    [.func id (if takes then some (i.pick w.ctr).1 else none) (o.pick (i.pick w.ctr).2).1]
  wf : rs'.WF
  r0 : ∃ r, Dict.get? rs' 0 = some r ∧ UserEnd w'.fds i w.ctr r ui
  r1 : ∃ r, Dict.get? rs' 1 = some r ∧ UserEnd w'.fds o (i.pick w.ctr).2 r uo
  disj : ∀ n ∈ ui ++ uo, n ∉ heldFds items
  held : (heldFds items).Nodup

theorem Std.get0 {rs : Redirects} {t : FdTable} {H : Nat} {i o e : Want} (h : Std sys cwd rs t H i o e) :
    ∃ r, Dict.get? rs 0 = some r ∧ Slot sys cwd t H r i := by
  obtain ⟨⟨r0, r1, r2, rfl, f0, f1, f2, s0, s1, s2⟩, hd⟩ := h; exact ⟨r0, rfl, s0⟩

theorem Std.get1 {rs : Redirects} {t : FdTable} {H : Nat} {i o e : Want} (h : Std sys cwd rs t H i o e) :
    ∃ r, Dict.get? rs 1 = some r ∧ Slot sys cwd t H r o := by
  obtain ⟨⟨r0, r1, r2, rfl, f0, f1, f2, s0, s1, s2⟩, hd⟩ := h; exact ⟨r1, rfl, s1⟩

theorem owned_sub_src {rs : Redirects} {n : Nat} (h : n ∈ ownedFds (Dict.values rs)) : n ∈ srcFds (Dict.values rs) :=
  (ownedFds_sublist _).subset h

theorem RunM.poll_ok {sys : Sys} {w : World} {n : Nat} {en : Entry} (h : w.fds.get n = some en) (hp : sys.polls en.obj = true) : RunM.poll sys n w = (.ok (), w) := by
  simp [RunM.poll, h, hp]

theorem RunM.poll_inv {sys : Sys} {w w' : World} {n : Nat} {u : Unit} (h : RunM.poll sys n w = (.ok u, w')) : w' = w := by
  unfold RunM.poll at h
  split at h
  · cases h
  · split at h <;> cases h
    rfl

theorem runFunc_spec {sys : Sys} {cwd : Str} {w : World} {H L : Nat} {rs : Redirects} {i o e : Want} (id : Nat)
    (takes : Bool) (hr : Room sys w H L) (hl : H + 16 ≤ L) (hs : Std sys cwd rs w.fds H i o e) (he : e.Plain)
    (hq : RItem.polls sys (.func id (if takes then some (i.pick w.ctr).1 else none) (o.pick (i.pick w.ctr).2).1) = true) :
    ∃ items rs' w' ui uo, runFunc sys cwd id takes rs w = (.ok (items, rs'), w') ∧
      FPost sys w w' H L (ownedFds (Dict.values rs)) i o e id takes items rs' ui uo := by
  obtain ⟨m, w1, own, ui, uo, M⟩ := mat_spec hr.bounded hr.gap (by omega) hs he
  obtain ⟨q0, hq0, S0⟩ := M.std.get0
  obtain ⟨q1, hq1, S1⟩ := M.std.get1
  -- stdin
  obtain ⟨inFd, w2, hin, c2, st2, hobj2, dl, held2, hd2⟩ : ∃ (inFd : Option Nat) (w2 : World),
      (if takes then do
        let r ← RunM.lift (m.attr c!"stdin")
        let fd ← RunM.onFds (r.open sys cwd false)
        RunM.poll sys fd
        pure (some fd)
      else pure none : RunM (Option Nat)) w1 = (.ok inFd, w2) ∧ w2.ctr = w1.ctr ∧ w2.started = w1.started ∧
      ((inFd.bind w2.fds.get).map Entry.obj = (if takes then some (i.pick w.ctr).1 else none) ∧
        (inFd = none ↔ (if takes then some (i.pick w.ctr).1 else none) = none)) ∧
      Delta w1 w2 (H + 7) L [] inFd.toList ∧ True ∧ True := by
    cases takes with
    | false =>
      exact ⟨none, w1, rfl, rfl, rfl, by simp, (Delta.refl M.delta.bounded M.delta.gap).mono (by omega), trivial, trivial⟩
    | true =>
      obtain ⟨a, w2, h1, h2, h3, ⟨en, h4, h5⟩, h6⟩ := dup_delta (sys := sys) (cwd := cwd) M.delta.bounded M.delta.gap (by omega) S0
      refine ⟨some a, w2, ?_, h2, h3, ?_, h6, trivial, trivial⟩
      · simp only [↓reduceIte]
        rw [RunM.bind_ok (a := q0) (w' := w1) (by simp [RunM.lift, attr_of_get?.1 hq0]), RunM.bind_ok h1,
          RunM.bind_ok (RunM.poll_ok h4 (by rw [h5]; simp [RItem.polls] at hq; exact hq.1))]; rfl
      · simp [h4, h5]
  obtain ⟨b, w3, hout, c3, st3, ⟨en, hg3, ho3⟩, d3⟩ := dup_delta (sys := sys) (cwd := cwd) dl.bounded dl.gap (by omega)
    (S1.mono dl.keeps (by omega))
  have D := (M.delta.trans dl (c := []) (n := (own ++ ui ++ uo) ++ inFd.toList) (by simp) (by intro x; simp [or_assoc])).trans d3
    (c := []) (n := (own ++ ui ++ uo) ++ inFd.toList ++ [b]) (by simp) (by intro x; simp [or_assoc])
  let w4 : World := { w3 with started := w3.started ++ [id] }
  have D4 : Delta w w4 (H + 8) L [] ((own ++ ui ++ uo) ++ inFd.toList ++ [b]) := ⟨D.bounded, D.gap, D.kept, D.closed, D.fresh, D.only⟩
  have k14 : Keeps w1.fds w4.fds := dl.keeps.trans d3.keeps
  have hopen : ∀ s ∈ ownedFds (Dict.values m), w4.fds.get s ≠ none := by
    intro s hs
    have := (M.std.owned_open (owned_sub_src hs)).1
    rw [k14 s this]; exact this
  obtain ⟨w5, hcl, c5, st5, d5⟩ := close_delta (rs := m) D4.bounded D4.gap hopen M.std.distinct
  refine ⟨[.func id inFd b m], m, w5, ui, uo, ?_, ?_⟩
  · unfold runFunc
    rw [RunM.bind_ok M.eq, RunM.bind_ok hin, RunM.bind_ok (a := q1) (w' := w2) (by simp [RunM.lift, attr_of_get?.2 hq1]),
      RunM.bind_ok hout, RunM.bind_ok (RunM.poll_ok hg3 (by rw [ho3]; simp [RItem.polls] at hq; exact hq.2)), RunM.bind_ok (show RunM.start id w3 = (.ok (), w4) from rfl), RunM.bind_ok hcl]
    rfl
  · have fresh1 : ∀ n, n ∈ inFd.toList ∨ n = b → w1.fds.get n = none := by
      rintro n (h | h)
      · exact (dl.fresh n h).1
      · exact dl.keeps.fresh (d3.fresh n (by simp [h])).1
    have F := M.delta.fresh
    have hown : ∀ n, n ∈ ownedFds (Dict.values m) → w1.fds.get n ≠ none := fun n hn => (M.std.owned_open (owned_sub_src hn)).1
    have hrs : ∀ n, n ∈ ownedFds (Dict.values rs) → w.fds.get n ≠ none := fun n hn => (hs.owned_open (owned_sub_src hn)).1
    have hO := M.owned
    have hD := M.disj
    have key : ∀ n ∈ ui ++ uo, n ∉ ownedFds (Dict.values m) := by
      intro n hn hm
      rcases (hO n).1 hm with h | h
      · exact hrs n h (F n (by simp only [List.mem_append] at hn ⊢; grind)).1
      · exact hD n hn h
    have hn5 : ∀ n, n ∈ inFd.toList ∨ n = b → n ∉ ownedFds (Dict.values m) := by
      intro n hn hm
      exact hown n hm (fresh1 n hn)
    have hheld : ∀ n, n ∈ heldFds [Item.func id inFd b m] ↔ n ∈ inFd.toList ∨ n = b := by
      intro n; simp [heldFds]
    have hb5 : w5.fds.get b = w3.fds.get b := d5.kept b (by show w3.fds.get b ≠ none; simp [hg3]) (hn5 b (.inr rfl))
    have hend : ∀ u ∈ ui ++ uo, w5.fds.get u = w1.fds.get u := by
      intro u hu
      have h1 := (F u (by simp only [List.mem_append] at hu ⊢; grind)).2.1
      rw [d5.kept u (by rw [k14 u h1]; exact h1) (key u hu), k14 u h1]
    exact {
      delta := by
        refine (D4.trans d5 (c := ownedFds (Dict.values rs)) (n := heldFds [Item.func id inFd b m] ++ ui ++ uo) ?_ ?_).mono (by omega)
        · intro n
          have h1 := hO n; have h2 := hrs n; have h3 := F n; have h4 := fresh1 n
          have h5 := M.delta.keeps n
          have h6 := key n
          simp only [List.mem_append, List.mem_singleton] at *
          grind
        · intro n
          have h1 := hO n; have h2 := hn5 n; have h3 := key n
          simp only [List.mem_append, List.mem_singleton, hheld, List.not_mem_nil] at *
          grind
      ctr := by rw [c5]; show w3.ctr = _; rw [c3, c2, M.ctr]
      started := by
        rw [st5]; show w3.started ++ [id] = _; rw [st3, st2, M.started]; rfl
      itemsOk := by
        intro lg
        refine .cons ⟨rfl, ?_, hobj2.2, ?_⟩ .nil
        · rw [← hobj2.1]
          cases inFd with
          | none => rfl
          | some a =>
            simp only [Option.bind_some]
            have h2 := (dl.fresh a (by simp)).2.1
            rw [d5.kept a (by show w3.fds.get a ≠ none; rw [d3.keeps a h2]; exact h2) (hn5 a (by simp))]
            show (w3.fds.get a).map _ = _
            rw [d3.keeps a h2]
        · rw [hb5, hg3]; simp [ho3]
      wf := M.std.wf
      r0 := by
        obtain ⟨r, h1, h2⟩ := M.useri
        exact ⟨r, h1, h2.mono (fun u hu => hend u (by simp [hu]))⟩
      r1 := by
        obtain ⟨r, h1, h2⟩ := M.usero
        exact ⟨r, h1, h2.mono (fun u hu => hend u (by simp [hu]))⟩
      disj := by
        intro n hn hm
        rw [hheld] at hm
        have h1 := (F n (by simp only [List.mem_append] at hn ⊢; grind)).2.1
        exact h1 (fresh1 n hm)
      held := by
        have hb := (d3.fresh b (by simp)).1
        cases inFd with
        | none => simp [heldFds]
        | some a =>
          simp only [heldFds, Option.toList_some, List.singleton_append, List.nodup_cons, List.mem_singleton, List.not_mem_nil, not_false_eq_true, List.nodup_nil, and_true]
          rintro rfl
          exact (dl.fresh a (by simp)).2.1 hb }


/-! ### the main statement -/

/-- Result of starting a pipeline: it is what the reference semantics `ref` says; the descriptors in `cl` were
closed; the descriptors that stay open are those held by python functions, the user's end `ul` of the output
pipe, and leaked ones `lk`. -/
structure Post (sys : Sys) (w w' : World) (H' L : Nat) (cl : List Nat) (o : Want) (items : List Item)
    (rs' : Redirects) (ref : RefOut) (lg : Option Obj) (ul lk : List Nat) : Prop where
  delta : Delta w w' H' L cl (heldFds items ++ ul ++ lk)
  ctr : w'.ctr = ref.ctr
  started : w'.started = w.started ++ items.map Item.id
  itemsOk : Pointwise (ItemOk sys.logfd lg w'.fds.get) items ref.items
  wf : rs'.WF
  r0 : ∃ r, Dict.get? rs' 0 = some r
  r1 : ∃ r, Dict.get? rs' 1 = some r ∧
    (o = .pipeOut → ∃ u, ul = [u] ∧ r.pipe = .fd u ∧ w'.fds.get u = some { obj := .pipeR ref.out, cloexec := true })
  r1' : o ≠ .pipeOut → ul = []
  tmp1 : o = .tmp → ∃ r k y, Dict.get? rs' 1 = some r ∧ (r.pipe = .string k ∨ r.pipe = .tmp k) ∧ ref.items.getLast? = some y ∧ y.out = .tmp k
  leaks : Pointwise (fun n ob => w'.fds.get n = some { obj := ob, cloexec := true }) lk ref.leaks
  disj : ∀ n ∈ ul, n ∉ heldFds items ∧ n ∉ lk
  held : (heldFds items).Nodup

/-- An argument word names an entry of the table that refers to the expected object. -/
def ArgOk (sys : Sys) (cwd : Str) (rs : Redirects) (t : FdTable) (H : Nat) : Word → RWord → Prop
  | .lit s, .lit s' => s = s'
  | .devfd pre n, .dev pre' o => pre = pre' ∧ 2 < n ∧ ∃ r, Dict.get? rs n = some r ∧ Slot sys cwd t H r (.obj o)
  | _, _ => False

/-- Result of starting the pipelines in a command's arguments. -/
structure APost (sys : Sys) (cwd : Str) (w w' : World) (H' L : Nat) (rs : Redirects) (items : List Item) (argv : List Word)
    (rs2 : Redirects) (ritems : List RItem) (rargv : List RWord) (rleaks : List Obj) (rctr : Ctr) (lg : Option Obj)
    (ext lk : List Nat) : Prop where
  delta : Delta w w' H' L [] (heldFds items ++ ext ++ lk)
  ctr : w'.ctr = rctr
  started : w'.started = w.started ++ items.map Item.id
  itemsOk : Pointwise (ItemOk sys.logfd lg w'.fds.get) items ritems
  leaks : Pointwise (fun n ob => w'.fds.get n = some { obj := ob, cloexec := true }) lk rleaks
  disj : ∀ n ∈ ext, n ∉ heldFds items ∧ n ∉ lk
  held : (heldFds items).Nodup
  nodup : ext.Nodup
  wf : rs2.WF
  tab : ∃ xs : List Redirect, rs2 = rs ++ xs.map (fun r => (r.fd, r)) ∧ xs.map Redirect.fd = devFds argv ∧
    (∀ r ∈ xs, r.borrowed = false ∧ ∃ a, r.source = .fd a) ∧ srcFds xs = ext
  keys : ∀ k ∈ Dict.keys rs2, k < H'
  words : Pointwise (ArgOk sys cwd rs2 w'.fds H') argv rargv

theorem get?_append {α : Type} (a b : Dict Nat α) (n : Nat) :
    Dict.get? (a ++ b) n = match Dict.get? a n with | some v => some v | none => Dict.get? b n := by
  induction a with
  | nil => rfl
  | cons p a ih =>
    obtain ⟨k, v⟩ := p
    simp only [List.cons_append, Dict.get?]
    split
    · rfl
    · exact ih

/-- Adding an argument pipe to the table. -/
theorem add_arg {rs : Redirects} {flag u : Nat} (hwf : rs.WF) :
    ∃ r, rs.redirect (.num rs.findFreeFd) (.fd u) (some flag) = .ok (rs ++ [(rs.findFreeFd, r)]) ∧
      r.fd = rs.findFreeFd ∧ r.source = .fd u ∧ r.borrowed = false ∧ (rs ++ [(rs.findFreeFd, r)]).WF ∧
      rs.findFreeFd ∉ Dict.keys rs := by
  have hk : rs.findFreeFd ∉ Dict.keys rs := by
    intro h
    rw [← hwf.keys_eq] at h
    obtain ⟨r, hr, he⟩ := List.mem_map.1 h
    have := (findFreeFd_gt rs).1 r hr
    omega
  have hreg := registerAll_distinct rs [{ fd := rs.findFreeFd, source := .fd u, flag, mode := defaultMode, pipe := .none, borrowed := false }]
    (by simp) (by
      simp only [List.map_cons, List.map_nil]
      exact List.nodup_append.2 ⟨hwf.1, by simp, by simp; intro a ha e; subst e; exact hk ha⟩)
  refine ⟨{ fd := rs.findFreeFd, source := .fd u, flag, mode := defaultMode, pipe := .none, borrowed := false }, ?_, rfl, rfl, rfl, ?_, hk⟩
  · simp only [Redirects.registerAll] at hreg
    simp only [Redirects.redirect, mkRedirect]
    cases hx : rs.register { fd := rs.findFreeFd, source := .fd u, flag, mode := defaultMode, pipe := .none, borrowed := false } with
    | error e => rw [hx] at hreg; cases hreg
    | ok v => rw [hx] at hreg; simpa using hreg
  · exact registerAll_wf hwf hreg

theorem findFreeFd_le {rs : Redirects} {H : Nat} (hwf : rs.WF) (h3 : 3 ≤ H) (hk : ∀ k ∈ Dict.keys rs, k < H)
    (hs : ∀ s ∈ srcFds (Dict.values rs), s < H) : rs.findFreeFd ≤ H := by
  unfold Redirects.findFreeFd
  apply foldl_max_lt
  · omega
  · intro x hx
    simp only [List.mem_append, List.mem_singleton] at hx
    rcases hx with (hx | hx) | hx
    · rw [hwf.keys_eq] at hx; exact hk x hx
    · exact hs x hx
    · omega


theorem ownedFds_append (a b : List Redirect) : ownedFds (a ++ b) = ownedFds a ++ ownedFds b := by
  simp [ownedFds, List.filter_append, srcFds_append]

theorem owned_all {xs : List Redirect} (h : ∀ r ∈ xs, r.borrowed = false) : ownedFds xs = srcFds xs := by
  unfold ownedFds
  congr 1
  rw [List.filter_eq_self]
  intro r hr; simp [h r hr]

theorem pick_obj (b : Obj) (c : Ctr) : (Want.obj b).pick c = (b, c) := rfl

theorem UserEnd.nil {t : FdTable} {b : Obj} {c : Ctr} {r : Redirect} {ul : List Nat} (h : UserEnd t (.obj b) c r ul) :
    ul = [] := h

theorem UserEnd.out {t : FdTable} {o : Want} {c : Ctr} {r : Redirect} {ul : List Nat} (ho : o.Out)
    (h : UserEnd t o c r ul) :
    (o = .pipeOut → ∃ u, ul = [u] ∧ r.pipe = .fd u ∧ t.get u = some { obj := .pipeR c.p, cloexec := true }) ∧
    (o ≠ .pipeOut → ul = []) := by
  cases o with
  | obj b => exact ⟨fun h => (by cases h), fun _ => h⟩
  | pipeOut => exact ⟨fun _ => h, fun hn => absurd rfl hn⟩
  | pipeIn => exact ho.elim
  | tmp => exact ⟨fun h => (by cases h), fun _ => h.1⟩

theorem mem_values_append {rs : Redirects} {xs : List Redirect} :
    Dict.values (rs ++ xs.map (fun r => (r.fd, r))) = Dict.values rs ++ xs := by
  simp [Dict.values, Function.comp_def]

theorem leaks_mono {t t' : FdTable} {lk : List Nat} {obs : List Obj}
    (h : Pointwise (fun n ob => t.get n = some { obj := ob, cloexec := true }) lk obs) (hk : ∀ n ∈ lk, t'.get n = t.get n) :
    Pointwise (fun n ob => t'.get n = some { obj := ob, cloexec := true }) lk obs :=
  h.mono (fun n hn ob ho => by rw [hk n hn]; exact ho)

theorem merge_ok {a b : Redirects} (ha : a.WF) (hb : b.WF) : ∃ m, a.merge b = .ok m ∧ m.WF ∧
    ∀ n, Dict.get? m n = match Dict.get? b n with | some r => some r | none => Dict.get? a n := by
  obtain ⟨m, hm⟩ := registerAll_ok_of_no_none (rs := []) (l := Dict.values a ++ Dict.values b) (by
    intro r hr; rcases List.mem_append.1 hr with h | h
    · exact values_source_ne_none ha h
    · exact values_source_ne_none hb h)
  have hm' : a.merge b = .ok m := by simpa [Redirects.merge, Redirects.new, RArg.list] using hm
  refine ⟨m, hm', registerAll_wf wf_nil hm, fun n => ?_⟩
  have h1 := registerAll_get? wf_nil hm n
  rw [h1]
  unfold afterAll
  have hl : lastFor n (Dict.values a ++ Dict.values b) = match lastFor n (Dict.values b) with | some q => some q | none => lastFor n (Dict.values a) := by
    unfold lastFor; rw [List.reverse_append, List.find?_append]
    cases List.find? (fun r => r.fd == n) (Dict.values b).reverse <;> rfl
  rw [hl, lastFor_values ha, lastFor_values hb]
  rcases Option.eq_none_or_eq_some (Dict.get? b n) with h | ⟨r, h⟩
  · rcases Option.eq_none_or_eq_some (Dict.get? a n) with h' | ⟨r, h'⟩
    · simp [h, h', Dict.get?]
    · simp only [h, h']
      have := values_source_ne_none ha (ha.value_of_get? h').1
      simp [this]
  · simp only [h]
    have := values_source_ne_none hb (hb.value_of_get? h).1
    simp [this]

theorem register_ok {rs : Redirects} {r : Redirect} (h : rs.WF) (hr : r.source ≠ .none) :
    ∃ m, rs.register r = .ok m ∧ m.WF ∧ ∀ n, Dict.get? m n = if r.fd = n then some r else Dict.get? rs n := by
  have : rs.register r = .ok (Dict.set rs r.fd r) := by
    unfold Redirects.register
    cases hs : r.source <;> simp_all
  exact ⟨_, this, register_wf h this, fun n => by rw [register_get? h this]; simp [hr]⟩

theorem registerAll_append_ok {a b : List Redirect} : ∀ {rs m : Redirects}, rs.registerAll a = .ok m →
    rs.registerAll (a ++ b) = m.registerAll b := by
  induction a with
  | nil => intro rs m h; simp [Redirects.registerAll] at h; rw [← h]; rfl
  | cons r a ih =>
    intro rs m h
    simp only [Redirects.registerAll, List.cons_append] at h ⊢
    cases hr : rs.register r with
    | error e => rw [hr] at h; cases h
    | ok rs' => rw [hr] at h; exact ih h

theorem srcFds_unique {l : List Redirect} (h : (srcFds l).Nodup) {a b : Redirect} {s : Nat} (ha : a ∈ l) (hb : b ∈ l)
    (h1 : a.source = .fd s) (h2 : b.source = .fd s) : a = b := by
  induction l with
  | nil => cases ha
  | cons r l ih =>
    have hsub : (srcFds l).Nodup := h.sublist (List.Sublist.filterMap _ (by simp))
    rcases List.mem_cons.1 ha with rfl | ha'
    · rcases List.mem_cons.1 hb with rfl | hb'
      · rfl
      · rw [srcFds_cons_fd h1] at h
        exact absurd (mem_srcFds.2 ⟨b, hb', h2⟩) (List.nodup_cons.1 h).1
    · rcases List.mem_cons.1 hb with rfl | hb'
      · rw [srcFds_cons_fd h2] at h
        exact absurd (mem_srcFds.2 ⟨a, ha', h1⟩) (List.nodup_cons.1 h).1
      · exact ih hsub ha' hb'

theorem set_keys_eq {α : Type} {d : Dict Nat α} {k : Nat} {v : α} (h : k ∈ Dict.keys d) : Dict.keys (Dict.set d k v) = Dict.keys d := by
  induction d with
  | nil => simp [Dict.keys] at h
  | cons p d ih =>
    obtain ⟨k', v'⟩ := p
    simp only [Dict.set]
    split
    · rename_i hk; simp_all [Dict.keys]
    · rename_i hk
      have : k ∈ Dict.keys d := by
        simp [Dict.keys] at h ⊢
        rcases h with h | h
        · exact absurd h (by simpa [eq_comm] using hk)
        · exact h
      have := ih this
      simp_all [Dict.keys]

theorem registerAll_keys {l : List Redirect} : ∀ {rs m : Redirects}, Dict.keys rs = [0, 1, 2] →
    (∀ r ∈ l, r.fd < 3 ∧ r.source ≠ .none) → rs.registerAll l = .ok m → Dict.keys m = [0, 1, 2] := by
  induction l with
  | nil => intro rs m hk _ h; simp [Redirects.registerAll] at h; rw [← h]; exact hk
  | cons r l ih =>
    intro rs m hk hl h
    have hr := hl r (by simp)
    have hreg : rs.register r = .ok (Dict.set rs r.fd r) := by
      unfold Redirects.register
      cases hs : r.source <;> simp_all
    simp only [Redirects.registerAll, hreg] at h
    refine ih ?_ (fun q hq => hl q (by simp [hq])) h
    rw [set_keys_eq]
    · exact hk
    · rw [hk]; have := hr.1; simp; omega

theorem three_of_keys {d : Redirects} (h : Dict.keys d = [0, 1, 2]) : ∃ a b c, d = [(0, a), (1, b), (2, c)] := by
  match d, h with
  | [(_, a), (_, b), (_, c)], h => simp [Dict.keys] at h; obtain ⟨rfl, rfl, rfl⟩ := h; exact ⟨a, b, c, rfl⟩

theorem Redirect.Simple.lt {r : Redirect} (h : r.Simple sys cwd) : r.fd < 3 := by
  rcases h with ⟨p, _, _, h⟩ | ⟨_, _, h⟩ | ⟨_, _, h⟩ <;> omega

theorem Redirect.Simple.not_fd {r : Redirect} (h : r.Simple sys cwd) (a : Nat) : r.source ≠ .fd a := by
  rcases h with ⟨p, h, _⟩ | ⟨h, _⟩ | ⟨h | h, _⟩ <;> rw [h] <;> simp

theorem Redirect.Simple.slot {r : Redirect} (h : r.Simple sys cwd) (t : FdTable) (H : Nat) : Slot sys cwd t H r (r.want cwd) := by
  rcases h with ⟨p, h, h1, _⟩ | ⟨h, h1, _⟩ | ⟨h | h, h1, _⟩ <;> simp [Redirect.want, h, Slot, h1]

/-- The table of a redirected pipeline. -/
theorem merge_std {rs crs : Redirects} {t : FdTable} {H : Nat} {i : Obj} {o e : Want} (hs : Std sys cwd rs t H (.obj i) o e)
    (ho : o.Out) (he : e.Plain) (hb : crs.Built) (hc : ∀ r ∈ Dict.values crs, r.Simple sys cwd) :
    ∃ m, rs.merge crs = .ok m ∧ Std sys cwd m t H (.obj (crs.overIn cwd i)) (crs.over cwd 1 o) (crs.over cwd 2 e) ∧
      (crs.over cwd 1 o).Out ∧ (crs.over cwd 2 e).Plain ∧
      (∀ r ∈ Dict.values m, r ∈ Dict.values rs ∨ ∀ a, r.source ≠ .fd a) ∧
      ∀ (p : Pipeline) n, n ∈ usedFds p m ↔ n ∈ usedFds (.redirect p crs) rs := by
  have hwc := hb.wf
  have hwr := hs.wf
  obtain ⟨m, hm, hwm, hg⟩ := merge_ok hwr hwc
  have hkeys : Dict.keys m = [0, 1, 2] := by
    obtain ⟨⟨r0, r1, r2, rfl, f0, f1, f2, s0, s1, s2⟩, -⟩ := hs
    have hreg := registerAll_distinct [] [r0, r1, r2] (by
      intro r hr; simp at hr; rcases hr with rfl | rfl | rfl
      · exact s0.source_ne_none
      · exact s1.source_ne_none
      · exact s2.source_ne_none) (by simp [Dict.keys, f0, f1, f2])
    have hm' : Redirects.registerAll [] ([r0, r1, r2] ++ Dict.values crs) = .ok m := by
      simpa [Redirects.merge, Redirects.new, RArg.list, Dict.values] using hm
    rw [registerAll_append_ok hreg] at hm'
    exact registerAll_keys (rs := [(0, r0), (1, r1), (2, r2)]) rfl
      (fun r hr => ⟨(hc r hr).lt, values_source_ne_none hwc hr⟩) (by simpa [f0, f1, f2] using hm')
  obtain ⟨q0, q1, q2, rfl⟩ := three_of_keys hkeys
  have h0 := hg 0; have h1 := hg 1; have h2 := hg 2
  have g0 : Dict.get? [(0, q0), (1, q1), (2, q2)] 0 = some q0 := rfl
  have g1 : Dict.get? [(0, q0), (1, q1), (2, q2)] 1 = some q1 := rfl
  have g2 : Dict.get? [(0, q0), (1, q1), (2, q2)] 2 = some q2 := rfl
  rw [g0] at h0; rw [g1] at h1; rw [g2] at h2
  have vm : ∀ r ∈ Dict.values [(0, q0), (1, q1), (2, q2)], r ∈ Dict.values rs ∨ r ∈ Dict.values crs := by
    intro r hr
    have e := hwm.get?_of_value hr
    rw [hg] at e
    rcases Option.eq_none_or_eq_some (Dict.get? crs r.fd) with h | ⟨q, h⟩
    · rw [h] at e; exact .inl (hwr.value_of_get? e).1
    · rw [h] at e; injection e with e; subst e; exact .inr (hwc.value_of_get? h).1
  refine ⟨_, hm, ⟨⟨q0, q1, q2, rfl, ?_, ?_, ?_, ?_, ?_, ?_⟩, ?_⟩, ?_, ?_, ?_, ?_⟩
  · exact (hwm.value_of_get? g0).2
  · exact (hwm.value_of_get? g1).2
  · exact (hwm.value_of_get? g2).2
  · unfold Redirects.overIn orIn orWant
    rcases Option.eq_none_or_eq_some (Dict.get? crs 0) with h | ⟨q, h⟩
    · rw [h] at h0 ⊢
      obtain ⟨r, h3, h4⟩ := hs.get0
      rw [h3] at h0; injection h0 with h0; subst h0; exact h4
    · rw [h] at h0 ⊢
      injection h0 with h0; subst h0
      have hv := hwc.value_of_get? h
      have hsm := hc _ hv.1
      have := hsm.slot t H
      rcases hsm with ⟨p, h3, h4, _⟩ | ⟨_, _, h3⟩ | ⟨_, _, h3⟩
      · simp only [Redirect.want, h3] at this ⊢; exact this
      · omega
      · omega
  · unfold Redirects.over orWant
    rcases Option.eq_none_or_eq_some (Dict.get? crs 1) with h | ⟨q, h⟩
    · rw [h] at h1 ⊢
      obtain ⟨r, h3, h4⟩ := hs.get1
      rw [h3] at h1; injection h1 with h1; subst h1; exact h4
    · rw [h] at h1 ⊢
      injection h1 with h1; subst h1
      exact (hc _ (hwc.value_of_get? h).1).slot t H
  · unfold Redirects.over orWant
    rcases Option.eq_none_or_eq_some (Dict.get? crs 2) with h | ⟨q, h⟩
    · rw [h] at h2 ⊢
      obtain ⟨⟨r0, r1, r2, rfl, f0, f1, f2, s0, s1, s2⟩, -⟩ := hs
      have : Dict.get? [(0, r0), (1, r1), (2, r2)] 2 = some r2 := rfl
      rw [this] at h2; injection h2 with h2; subst h2; exact s2
    · rw [h] at h2 ⊢
      injection h2 with h2; subst h2
      exact (hc _ (hwc.value_of_get? h).1).slot t H
  · have hd := hs.distinct
    refine srcFds_nodup hwm.nodup_fds (fun r hr q hq s e1 e2 => ?_)
    rcases vm r hr with h3 | h3
    · rcases vm q hq with h4 | h4
      · rw [srcFds_unique hd h3 h4 e1 e2]
      · exact absurd e2 ((hc q h4).not_fd s)
    · exact absurd e1 ((hc r h3).not_fd s)
  · unfold Redirects.over orWant
    rcases Option.eq_none_or_eq_some (Dict.get? crs 1) with h | ⟨q, h⟩
    · rw [h]; exact ho
    · rw [h]
      rcases hc _ (hwc.value_of_get? h).1 with ⟨p, h3, _⟩ | ⟨h3, _⟩ | ⟨h3 | h3, _⟩ <;> simp [Redirect.want, h3, Want.Out]
  · unfold Redirects.over orWant
    rcases Option.eq_none_or_eq_some (Dict.get? crs 2) with h | ⟨q, h⟩
    · rw [h]; exact he
    · rw [h]
      have hv := hwc.value_of_get? h
      rcases hc _ hv.1 with ⟨p, h3, _⟩ | ⟨_, _, h3⟩ | ⟨h3 | h3, _⟩
      · simp [Redirect.want, h3, Want.Plain]
      · omega
      · simp [Redirect.want, h3, Want.Plain]
      · simp [Redirect.want, h3, Want.Plain]
  · intro r hr
    rcases vm r hr with h | h
    · exact .inl h
    · exact .inr (hc r h).not_fd
  · intro p n
    rw [mem_usedFds, mem_usedFds]
    constructor
    · rintro ⟨r, hr, h3, h4, h5⟩
      have hgm := hg r.fd
      rw [hwm.get?_of_value hr] at hgm
      rcases Option.eq_none_or_eq_some (Dict.get? crs r.fd) with h | ⟨q, h⟩
      · rw [h] at hgm
        refine ⟨r, (hwr.value_of_get? hgm.symm).1, ?_, h4, h5⟩
        simp [Pipeline.takes, h3, Dict.mem, h]
      · rw [h] at hgm; injection hgm with hgm; subst hgm
        exact absurd h4 ((hc r (hwc.value_of_get? h).1).not_fd n)
    · rintro ⟨r, hr, h3, h4, h5⟩
      simp only [Pipeline.takes, Bool.or_eq_false_iff] at h3
      have hn : Dict.get? crs r.fd = none := by
        cases h : Dict.get? crs r.fd with
        | none => rfl
        | some v => simp [Dict.mem, h] at h3
      have hgm := hg r.fd
      rw [hn, hwr.get?_of_value hr] at hgm
      exact ⟨r, (hwm.value_of_get? hgm).1, h3.2, h4, h5⟩

/-- What a process started with a fully materialised table sees. -/
theorem child_table {sys : Sys} {cwd : Str} {w : World} {H L : Nat} {rs2 : Redirects} (hr : Room sys w H L)
    (hwf : rs2.WF) (hk : ∀ k ∈ Dict.keys rs2, k < H)
    (hsrc : ∀ r ∈ Dict.values rs2, ∃ o, Slot sys cwd w.fds H r (.obj o)) (hd : (srcFds (Dict.values rs2)).Nodup)
    (hlen : H + rs2.length ≤ L) (htgt : ∀ r ∈ Dict.values rs2, ∀ p, r.source = .path p →
      w.fds.get r.fd ≠ none ∧ r.fd ∉ srcFds (Dict.values rs2)) :
    (∀ n r o, Dict.get? rs2 n = some r → Slot sys cwd w.fds H r (.obj o) → execTable (rs2.perform sys cwd w.fds) n = some o) ∧
    (∀ n, n ∉ Dict.keys rs2 → execTable (rs2.perform sys cwd w.fds) n =
      if n = sys.logfd then execTable w.fds sys.logfd else none) := by
  have hslt : ∀ s ∈ srcFds (Dict.values rs2), s < H ∧ w.fds.get s ≠ none := by
    intro s hs
    obtain ⟨r, hr', he⟩ := mem_srcFds.1 hs
    obtain ⟨o, ho⟩ := hsrc r hr'
    have := ho.fd_open he
    exact ⟨this.2, this.1⟩
  have hP : Performable sys cwd rs2 w.fds := {
    bounded := hr.bounded
    wf := hwf
    plain := fun r h => by
      obtain ⟨o, ⟨a, e, h1, _⟩ | ⟨p, h1, _⟩⟩ := hsrc r h
      · exact .inl ⟨a, h1⟩
      · exact .inr ⟨p, h1⟩
    openSrc := fun s hs => by
      rcases Option.eq_none_or_eq_some (w.fds.get s) with h | h
      · exact absurd h (hslt s hs).2
      · exact h
    distinct := hd
    canOpen := fun r h p hp => by
      obtain ⟨o, ⟨a, e, h1, _⟩ | ⟨p', h1, h2, _⟩⟩ := hsrc r h
      · rw [h1] at hp; cases hp
      · rw [h1] at hp; cases hp; exact h2
    noClash := fun bef r aft p hl h hc => by
      have := htgt r (by rw [hl]; simp) p h
      rcases hc.1 with hc | hc
      · exact this.1 hc
      · exact this.2 hc
    room := by
      have := findFreeFd_le hwf hr.three hk (fun s hs => (hslt s hs).1)
      have := hr.lim; omega }
  obtain ⟨t', h1, h2, h3, h4, h5, h6⟩ := perform_ok hP
  have ht : rs2.perform sys cwd w.fds = t' := by simp [Redirects.perform, h1]
  rw [ht]
  constructor
  · intro n r o hg hs
    have hv := hwf.value_of_get? hg
    obtain ⟨ob, hob, hgt⟩ := h3 r hv.1
    rw [← hv.2]
    rcases hs with ⟨a, e, ha, hae, heo, _⟩ | ⟨p, hp, _, ho⟩
    · simp [denotes, ha, hae] at hob
      simp [execTable, hgt, ← hob, heo]
    · simp [denotes, hp] at hob
      simp [execTable, hgt, ← hob, ho]
  · intro n hn
    by_cases hlog : n = sys.logfd
    · rw [if_pos hlog]; subst hlog
      have hff := findFreeFd_le hwf hr.three hk (fun s hs => (hslt s hs).1)
      have := h6 hn (by have := hr.log; omega)
      unfold execTable; rw [this]
    · rw [if_neg hlog]
      by_cases hm : n < sys.maxfd
      · simp [execTable, h4 n hn hm hlog]
      · rcases h5 n hn with h | h
        · simp [execTable, h]
        · simp [execTable, h, hr.top n (by omega)]

/-- What is to be proved about the arguments of a command. -/
abbrev ArgsSpec (sys : Sys) (cwd : Str) (args : Args) : Prop :=
  ∀ (w : World) (H L : Nat) (orig rs : Redirects) (i o e : Obj),
    Room sys w H L → H + rs.length + args.cost ≤ L → Std sys cwd orig w.fds H (.obj i) (.obj o) (.obj e) →
    ownedFds (Dict.values orig) = [] → rs.WF → (∀ k ∈ Dict.keys rs, k < H) → (∀ s ∈ srcFds (Dict.values rs), s < H) →
    Fine args.Regular orig w.fds → (refArgs cwd args i o e w.ctr).items.all (RItem.polls sys) = true →
    ∃ items argv rs2 w' H' ext lk, runArgs sys cwd args orig rs w = (.ok (items, argv, rs2), w') ∧ H ≤ H' ∧
      H' + rs2.length ≤ H + rs.length + args.cost ∧
      APost sys cwd w w' H' L rs items argv rs2 (refArgs cwd args i o e w.ctr).items (refArgs cwd args i o e w.ctr).words
        (refArgs cwd args i o e w.ctr).leaks (refArgs cwd args i o e w.ctr).ctr (execTable w.fds sys.logfd) ext lk

theorem func_post {sys : Sys} {w w' : World} {H L : Nat} {cl : List Nat} {i : Obj} {o e : Want} {id : Nat} {takes : Bool}
    {items : List Item} {rs' : Redirects} {ui uo : List Nat} (ho : o.Out) (lg : Option Obj)
    (F : FPost sys w w' H L cl (.obj i) o e id takes items rs' ui uo) (ref : RefOut)
    (h1 : ref.items = [.func id (if takes then some i else none) (o.pick w.ctr).1])
    (h2 : ref.out = w.ctr.p) (h3 : ref.leaks = []) (h4 : ref.ctr = (e.pick (o.pick w.ctr).2).2) :
    Post sys w w' (H + 16) L cl o items rs' ref lg uo [] := by
  obtain ⟨q0, hq0, hu0⟩ := F.r0
  have hui := hu0.nil
  subst hui
  obtain ⟨q1, hq1, hu1⟩ := F.r1
  exact {
    delta := F.delta.congr (by simp) (by intro n; simp)
    ctr := by rw [F.ctr, h4]; rfl
    started := F.started
    itemsOk := by rw [h1]; exact F.itemsOk lg
    wf := F.wf
    r0 := ⟨q0, hq0⟩
    r1 := ⟨q1, hq1, fun h => by rw [h2]; exact (hu1.out ho).1 h⟩
    r1' := (hu1.out ho).2
    tmp1 := by
      rintro rfl
      exact ⟨q1, _, _, hq1, hu1.2, by rw [h1]; rfl, rfl⟩
    leaks := by rw [h3]; exact .nil
    disj := fun n hn => ⟨F.disj n (by simp [hn]), by simp⟩
    held := F.held }

theorem arg_step (sys : Sys) (cwd : Str) (rest : Args) (IH : ArgsSpec sys cwd rest) (pre : Str) {w w1 : World}
    {H H1 L u flag : Nat} {orig rs : Redirects} {i o e ob : Obj} {xs : List Item} {lk1 : List Nat} {ri1 : List RItem}
    {rl1 : List Obj}
    (hr : Room sys w H L) (hH : H ≤ H1) (hl : H1 + rs.length + rest.cost + 2 ≤ L)
    (hs : Std sys cwd orig w.fds H (.obj i) (.obj o) (.obj e)) (how : ownedFds (Dict.values orig) = []) (hwf : rs.WF)
    (hk : ∀ k ∈ Dict.keys rs, k < H) (hsl : ∀ s ∈ srcFds (Dict.values rs), s < H) (hfine : Fine rest.Regular orig w.fds)
    (D1 : Delta w w1 H1 L [] (heldFds xs ++ [u] ++ lk1)) (st1 : w1.started = w.started ++ xs.map Item.id)
    (it1 : Pointwise (ItemOk sys.logfd (execTable w.fds sys.logfd) w1.fds.get) xs ri1)
    (hgu : w1.fds.get u = some { obj := ob, cloexec := true })
    (lks1 : Pointwise (fun n ob => w1.fds.get n = some { obj := ob, cloexec := true }) lk1 rl1)
    (dj1 : u ∉ heldFds xs ∧ u ∉ lk1) (nd1 : (heldFds xs).Nodup) (hq : (refArgs cwd rest i o e w1.ctr).items.all (RItem.polls sys) = true) :
    ∃ items argv rs2 w' H' ext lk,
      (do
        let rs1 ← RunM.lift (rs.redirect (.num rs.findFreeFd) (PipeEnd.fd u).toSource (some flag))
        let (items, argv, rs') ← runArgs sys cwd rest orig rs1
        pure (xs ++ items, Word.devfd pre rs.findFreeFd :: argv, rs') : RunM _) w1 = (.ok (items, argv, rs2), w') ∧
      H1 ≤ H' ∧ H' + rs2.length ≤ H1 + rs.length + rest.cost + 2 ∧
      APost sys cwd w w' H' L rs items argv rs2 (ri1 ++ (refArgs cwd rest i o e w1.ctr).items)
        (.dev pre ob :: (refArgs cwd rest i o e w1.ctr).words) (rl1 ++ (refArgs cwd rest i o e w1.ctr).leaks)
        (refArgs cwd rest i o e w1.ctr).ctr (execTable w.fds sys.logfd) ext lk := by
  obtain ⟨r, hred, hrfd, hrs, hrb, hwf1, hNk⟩ := add_arg (flag := flag) (u := u) hwf
  have hfree := findFreeFd_le hwf hr.three hk hsl
  have huH : u < H1 := D1.lt (by simp)
  have hr1 : Room sys w1 (H1 + 1) L := (hr.next D1 hH).mono (by omega)
  have hv1 : Dict.values (rs ++ [(rs.findFreeFd, r)]) = Dict.values rs ++ [r] := by simp [Dict.values]
  obtain ⟨items, argv, rs2, w2, H', ext, lk, hR, g1, g2, P⟩ := IH w1 (H1 + 1) L orig (rs ++ [(rs.findFreeFd, r)]) i o e hr1
    (by simp; omega) (hs.mono D1.keeps (by omega)) how hwf1
    (by
      intro k hk'
      simp only [Dict.keys, List.map_append, List.mem_append] at hk'
      rcases hk' with h | h
      · have := hk k h; omega
      · simp at h; omega)
    (by
      intro s hs'
      rw [hv1, srcFds_append, List.mem_append] at hs'
      rcases hs' with h | h
      · have := hsl s h; omega
      · rw [srcFds_cons_fd hrs] at h; simp [srcFds] at h; omega) (hfine.keeps D1.keeps) hq
  have lg1 : execTable w1.fds sys.logfd = execTable w.fds sys.logfd := D1.log hr (by simp)
  rw [lg1] at P
  have FA := D1.fresh
  have FB := P.delta.fresh
  have hk2 : ∀ n, n ∈ heldFds xs ++ [u] ++ lk1 → w2.fds.get n = w1.fds.get n :=
    fun n hn => P.delta.keeps n (FA n hn).2.1
  have hdis : ∀ n, n ∈ heldFds xs ++ [u] ++ lk1 → n ∉ heldFds items ++ ext ++ lk :=
    fun n hn hm => (FA n hn).2.1 (FB n hm).1
  obtain ⟨ys, hy1, hy2, hy3, hy4⟩ := P.tab
  have hgN : Dict.get? rs2 rs.findFreeFd = some r := by
    rw [hy1, get?_append, get?_append, (Dict.get?_eq_none_iff rs _).2 hNk]; simp [Dict.get?]
  refine ⟨xs ++ items, .devfd pre rs.findFreeFd :: argv, rs2, w2, H', u :: ext, lk1 ++ lk, ?_, by omega, ?_, ?_⟩
  · rw [RunM.bind_ok (show RunM.lift _ w1 = (.ok _, w1) by rw [RunM.lift, PipeEnd.toSource, hred]), RunM.bind_ok hR]; rfl
  · simp at g2; omega
  · exact {
      delta := by
        refine D1.trans P.delta (by simp) ?_
        intro n; rw [heldFds_append]; simp only [List.mem_append, List.mem_cons, List.not_mem_nil]; grind
      ctr := P.ctr
      started := by rw [P.started, st1]; simp
      itemsOk := Pointwise.append (items_mono it1 (fun n hn => hk2 n (by simp [hn]))) P.itemsOk
      leaks := Pointwise.append (leaks_mono lks1 (fun n hn => hk2 n (by simp [hn]))) P.leaks
      disj := by
        intro n hn
        rw [heldFds_append]
        rcases List.mem_cons.1 hn with rfl | hn
        · have := hdis n (by simp)
          simp only [List.mem_append] at this ⊢
          grind
        · have h1 := P.disj n hn
          have h2 := hdis n
          simp only [List.mem_append] at h2 ⊢
          grind
      held := by
        rw [heldFds_append]
        refine List.nodup_append.2 ⟨nd1, P.held, ?_⟩
        rintro a ha b hb rfl
        exact hdis a (by simp [ha]) (by simp [hb])
      nodup := by
        refine List.nodup_cons.2 ⟨fun hm => hdis u (by simp) (by simp [hm]), P.nodup⟩
      wf := P.wf
      tab := by
        refine ⟨r :: ys, ?_, ?_, ?_, ?_⟩
        · rw [hy1]; simp [hrfd]
        · simp [devFds, hrfd, hy2]
        · intro q hq
          rcases List.mem_cons.1 hq with rfl | hq
          · exact ⟨hrb, u, hrs⟩
          · exact hy3 q hq
        · rw [srcFds_cons_fd hrs, hy4]
      keys := P.keys
      words := by
        refine .cons ⟨rfl, (findFreeFd_gt rs).2.2, r, hgN, .inl ⟨u, { obj := ob, cloexec := true }, hrs, ?_, rfl, by omega⟩⟩ P.words
        rw [hk2 u (by simp), hgu] }

mutual
theorem run_spec (sys : Sys) (cwd : Str) : (p : Pipeline) → p.Redirectable sys cwd → ∀ {w : World} {H L : Nat} {rs : Redirects} {i : Obj} {o e : Want},
    Room sys w H L → H + p.cost ≤ L → Std sys cwd rs w.fds H (.obj i) o e → o.Out → e.Plain →
    Fine p.Regular rs w.fds → (refRun cwd p i o e w.ctr).items.all (RItem.polls sys) = true →
    ∃ items rs' w' ul lk, runP sys cwd p rs w = (.ok (items, rs'), w') ∧
      Post sys w w' (H + p.cost) L (usedFds p rs) (p.outWant cwd o) items rs' (refRun cwd p i o e w.ctr)
        (execTable w.fds sys.logfd) ul lk
  | .command id args, hp, w, H, L, rs, i, o, e, hr, hl, hs, ho, he, hf, hq => by
    have hc : (Pipeline.command id args).cost = args.cost + 16 := by simp [Pipeline.cost]
    rw [hc] at hl ⊢
    rw [usedFds_all (by simp [Pipeline.takes])]
    have hw : (Pipeline.command id args).outWant cwd o = o := by simp [Pipeline.outWant]
    rw [hw]
    obtain ⟨m, w1, own, ui, uo, M⟩ := mat_spec hr.bounded hr.gap (by omega) hs he
    have hui : ui = [] := by obtain ⟨r, _, h⟩ := M.useri; exact h.nil
    subst hui
    have Mctr : w1.ctr = (e.pick (o.pick w.ctr).2).2 := M.ctr
    have Mstd : Std sys cwd m w1.fds (H + 6) (.obj i) (.obj (o.pick w.ctr).1) (.obj (e.pick (o.pick w.ctr).2).1) := M.std
    have Musero : ∃ r, Dict.get? m 1 = some r ∧ UserEnd w1.fds o w.ctr r uo := M.usero
    have Mfine : Fine args.Regular m w1.fds := Or.imp (fun h => ⟨by simpa [Pipeline.Regular] using h.1, M.nofiles h.2⟩) M.low hf
    have hr1 := hr.next M.delta (by omega)
    have hmlen : m.length = 3 := by obtain ⟨q0, q1, q2, hq, _⟩ := Mstd.shape; simp [hq]
    have hmk : ∀ k ∈ Dict.keys m, k < H + 6 := by
      obtain ⟨q0, q1, q2, hq, _⟩ := Mstd.shape
      intro k hk; rw [hq] at hk; simp [Dict.keys] at hk; omega
    obtain ⟨its, argv, rs2, w2, H2, ext, lk, hA, hH2, hH2', A⟩ := args_spec sys cwd args hp w1 (H + 6) L m.borrow m _ _ _ hr1 (by rw [hmlen]; omega) Mstd.borrow
      (owned_borrow m) Mstd.wf hmk (fun s hs => (Mstd.owned_open hs).2) Mfine.borrow
      (by rw [Mctr]; simp only [refRun, List.all_append, Bool.and_eq_true] at hq; exact hq.1)
    obtain ⟨xs, hxs, hxk, hxf, hxe⟩ := A.tab
    have hv : Dict.values rs2 = Dict.values m ++ xs := by rw [hxs]; exact mem_values_append
    have hlen2 : rs2.length = 3 + xs.length := by rw [hxs]; simp [hmlen]
    have hr2 := hr1.next A.delta hH2
    -- sources of the final table
    have hextS : ∀ r ∈ xs, ∃ ob, Slot sys cwd w2.fds H2 r (.obj ob) := by
      intro r hx
      obtain ⟨_, a, ha⟩ := hxf r hx
      have hm : a ∈ ext := by rw [← hxe]; exact mem_srcFds.2 ⟨r, hx, ha⟩
      have h1 := A.delta.fresh a (by simp [hm])
      rcases Option.eq_none_or_eq_some (w2.fds.get a) with h | ⟨en, h⟩
      · exact absurd h h1.2.1
      · exact ⟨en.obj, .inl ⟨a, en, ha, h, rfl, A.delta.lt (n := a) (by simp [hm])⟩⟩
    have hS2 : Std sys cwd m w2.fds H2 _ _ _ := Mstd.mono A.delta.keeps (by omega)
    have hmS : ∀ r ∈ Dict.values m, ∃ ob, Slot sys cwd w2.fds H2 r (.obj ob) := by
      intro r hx
      obtain ⟨⟨q0, q1, q2, hq, _, _, _, s0, s1, s2⟩, _⟩ := hS2
      rw [hq] at hx; simp [Dict.values] at hx
      rcases hx with rfl | rfl | rfl
      · exact ⟨_, s0⟩
      · exact ⟨_, s1⟩
      · exact ⟨_, s2⟩
    have hmopen : ∀ s ∈ srcFds (Dict.values m), w1.fds.get s ≠ none := fun s hs => (Mstd.owned_open hs).1
    have hnd : (srcFds (Dict.values rs2)).Nodup := by
      rw [hv, srcFds_append, hxe]
      refine List.nodup_append.2 ⟨Mstd.distinct, A.nodup, ?_⟩
      intro a ha b hb hab
      subst hab
      exact hmopen a ha (A.delta.fresh a (by simp [hb])).1
    obtain ⟨T1, T2⟩ := child_table (cwd := cwd) hr2 A.wf A.keys (by
      intro r hx; rw [hv] at hx; rcases List.mem_append.1 hx with h | h
      · exact hmS r h
      · exact hextS r h) hnd (by omega) (by
      intro r hx p hp
      have hxm : r ∈ Dict.values m := by
        rw [hv] at hx; rcases List.mem_append.1 hx with h | h
        · exact h
        · obtain ⟨_, a, ha⟩ := hxf r h; rw [ha] at hp; cases hp
      rcases Mfine with ⟨_, h⟩ | ⟨h1, h2⟩
      · exact absurd hp (h r hxm p)
      · have hlt : r.fd < 3 := by
          obtain ⟨⟨q0, q1, q2, hq, f0, f1, f2, _⟩, _⟩ := Mstd
          rw [hq] at hxm; simp [Dict.values] at hxm
          rcases hxm with rfl | rfl | rfl <;> omega
        refine ⟨by rw [A.delta.keeps _ (h1 _ hlt)]; exact h1 _ hlt, fun hmem => ?_⟩
        rw [hv, srcFds_append, hxe, List.mem_append] at hmem
        rcases hmem with h | h
        · obtain ⟨q, hq, hqs⟩ := mem_srcFds.1 h
          have hfd := h2 q hq _ hqs hlt
          have e1 := Mstd.wf.get?_of_value hq
          have e2 := Mstd.wf.get?_of_value hxm
          rw [← hfd, e2] at e1
          injection e1 with e1
          rw [← e1, hp] at hqs; cases hqs
        · exact h1 _ hlt (A.delta.fresh _ (by simp [h])).1)
    have hlog : execTable w2.fds sys.logfd = execTable w.fds sys.logfd := by
      rw [A.delta.log hr1 (by simp), M.delta.log hr (by simp)]
    have hgm : ∀ n r, Dict.get? m n = some r → Dict.get? rs2 n = some r := by
      intro n r h; rw [hxs, get?_append, h]
    -- closing
    have hown2 : ∀ n, n ∈ ownedFds (Dict.values rs2) ↔ n ∈ ownedFds (Dict.values rs) ∨ n ∈ own ∨ n ∈ ext := by
      intro n
      rw [hv, ownedFds_append, List.mem_append, M.owned n, owned_all (fun r h => (hxf r h).1), hxe, or_assoc]
    have hrs : ∀ n, n ∈ ownedFds (Dict.values rs) → w.fds.get n ≠ none := fun n hn => (hs.owned_open (owned_sub_src hn)).1
    let w3 : World := { w2 with started := w2.started ++ [id] }
    have D : Delta w w3 H2 L [] (own ++ uo ++ (heldFds its ++ ext ++ lk)) := by
      have := M.delta.trans A.delta (c := []) (n := own ++ uo ++ (heldFds its ++ ext ++ lk)) (by simp) (by
        intro x; simp [or_assoc])
      exact ⟨this.bounded, this.gap, this.kept, this.closed, this.fresh, this.only⟩
    have hop3 : ∀ s ∈ ownedFds (Dict.values rs2), w3.fds.get s ≠ none := by
      intro s hs
      rcases (hown2 s).1 hs with h | h | h
      · rw [D.keeps s (hrs s h)]; exact hrs s h
      · exact (D.fresh s (by simp [h])).2.1
      · exact (D.fresh s (by simp [h])).2.1
    obtain ⟨w4, hcl, c4, st4, d4⟩ := close_delta (rs := rs2) D.bounded D.gap hop3 hnd
    have FA := A.delta.fresh
    have FM := M.delta.fresh
    have hnot : ∀ n, n ∈ heldFds its ∨ n ∈ lk ∨ n ∈ uo → n ∉ ownedFds (Dict.values rs2) := by
      intro n hn hm
      have h1 := (hown2 n).1 hm
      have h2 := FA n; have h3 := FM n; have h4 := M.disj n; have h5 := A.disj n
      have h6 := hrs n; have h7 := M.delta.keeps n
      simp only [List.mem_append, List.append_nil, List.nil_append] at *
      grind
    have hkeep4 : ∀ n, n ∈ heldFds its ∨ n ∈ lk ∨ n ∈ uo → w4.fds.get n = w2.fds.get n := by
      intro n hn
      have h1 : w3.fds.get n ≠ none := (D.fresh n (by simp only [List.mem_append]; grind)).2.1
      exact d4.kept n h1 (hnot n hn)
    have hitems : heldFds (its ++ [Item.proc id argv (execTable (rs2.perform sys cwd w2.fds)) rs2]) = heldFds its := by
      rw [heldFds_append]; simp [heldFds]
    refine ⟨its ++ [.proc id argv (execTable (rs2.perform sys cwd w2.fds)) rs2], rs2, w4, uo, lk, ?_, ?_⟩
    · unfold runP
      refine (RunM.bind_ok M.eq).trans ?_
      refine (RunM.bind_ok hA).trans ?_
      refine (RunM.bind_ok (show RunM.getFds w2 = (.ok w2.fds, w2) from rfl)).trans ?_
      refine (RunM.bind_ok (show RunM.start id w2 = (.ok (), w3) from rfl)).trans ?_
      refine (RunM.bind_ok hcl).trans ?_
      rfl
    · exact {
        delta := by
          rw [hitems]
          refine (D.trans d4 (c := ownedFds (Dict.values rs)) (n := heldFds its ++ uo ++ lk) ?_ ?_).mono (by omega)
          · intro n
            have h1 := hown2 n; have h2 := hrs n; have h3 := D.fresh n
            simp only [List.mem_append] at *
            grind
          · intro n
            have h1 := hown2 n; have h2 := hnot n
            simp only [List.mem_append, List.not_mem_nil] at *
            grind
        ctr := by
          rw [c4]; show w2.ctr = _; rw [A.ctr, Mctr]
          simp only [refRun]
        started := by rw [st4]; show w2.started ++ [id] = _; rw [A.started, M.started]; simp [Item.id]
        itemsOk := by
          simp only [refRun]
          refine Pointwise.append ?_ ?_
          · have := A.itemsOk
            rw [Mctr, M.delta.log hr (by simp)] at this
            exact items_mono this (fun n hn => hkeep4 n (.inl hn))
          · refine .cons ⟨rfl, ?_, ?_, ?_, ?_, ?_, ?_, ?_⟩ .nil
            · obtain ⟨r, h1, h2⟩ := hS2.get0; exact T1 0 r _ (hgm 0 r h1) h2
            · obtain ⟨r, h1, h2⟩ := hS2.get1; exact T1 1 r _ (hgm 1 r h1) h2
            · obtain ⟨⟨q0, q1, q2, hq, _, _, _, s0, s1, s2⟩, _⟩ := hS2
              exact T1 2 q2 _ (hgm 2 q2 (by rw [hq]; rfl)) s2
            · have := A.words
              rw [Mctr] at this
              refine this.mono ?_
              intro wd _ rwd hw
              cases wd with
              | lit s => cases rwd <;> exact hw
              | devfd pre n =>
                cases rwd with
                | lit s => exact hw
                | dev pre' ob =>
                  obtain ⟨h1, h2, r, h3, h4⟩ := hw
                  exact ⟨h1, h2, T1 n r ob h3 h4⟩
            · rw [← hxk]
              have := A.wf.nodup_fds
              rw [hv, List.map_append] at this
              exact (List.nodup_append.1 this).2.1
            · intro hmem
              have := A.keys sys.logfd (by rw [← A.wf.keys_eq, hv, List.map_append, hxk]; simp [hmem])
              have := hr.log
              omega
            · intro n h0 h1 h2 hdv
              rw [← hlog]
              apply T2
              rw [← A.wf.keys_eq, hv, List.map_append, hxk]
              obtain ⟨⟨q0, q1, q2, hq, f0, f1, f2, s0, s1, s2⟩, _⟩ := Mstd
              rw [hq]; simp [Dict.values, f0, f1, f2, h0, h1, h2, hdv]
        wf := A.wf
        r0 := by obtain ⟨r, h1, h2⟩ := M.useri; exact ⟨r, hgm _ _ h1⟩
        r1 := by
          obtain ⟨r, h1, h2⟩ := Musero
          refine ⟨r, hgm _ _ h1, fun h => ?_⟩
          obtain ⟨u, h3, h4, h5⟩ := (h2.out ho).1 h
          refine ⟨u, h3, h4, ?_⟩
          rw [hkeep4 u (by simp [h3]), A.delta.keeps u (by simp [h5]), h5]
          simp only [refRun]
        r1' := by
          obtain ⟨r, h1, h2⟩ := Musero
          exact (h2.out ho).2
        tmp1 := by
          rintro rfl
          obtain ⟨r, h1, h2⟩ := Musero
          exact ⟨r, _, _, hgm _ _ h1, h2.2, by simp only [refRun]; exact List.getLast?_concat, rfl⟩
        leaks := by
          have := A.leaks
          rw [Mctr] at this
          simp only [refRun]
          exact leaks_mono this (fun n hn => hkeep4 n (.inr (.inl hn)))
        disj := by
          rw [hitems]
          intro n hn
          have h1 := (FM n (by simp [hn])).2.1
          constructor
          · intro hm; exact h1 (FA n (by simp [hm])).1
          · intro hm; exact h1 (FA n (by simp [hm])).1
        held := by rw [hitems]; exact A.held }
  | .func id, hp, w, H, L, rs, i, o, e, hr, hl, hs, ho, he, hf, hq => by
    have hc : (Pipeline.func id).cost = 16 := by simp [Pipeline.cost]
    rw [hc] at hl ⊢
    rw [usedFds_all (by simp [Pipeline.takes])]
    have hw : (Pipeline.func id).outWant cwd o = o := by simp [Pipeline.outWant]
    rw [hw]
    obtain ⟨items, rs', w', ui, uo, hR, F⟩ := runFunc_spec (cwd := cwd) id true hr hl hs he (by simpa [refRun, Want.pick] using hq)
    exact ⟨items, rs', w', uo, [], by unfold runP; exact hR, func_post ho _ F _ (by simp [refRun]) (by simp [refRun]) (by simp [refRun]) (by simp [refRun])⟩
  | .iter id, hp, w, H, L, rs, i, o, e, hr, hl, hs, ho, he, hf, hq => by
    have hc : (Pipeline.iter id).cost = 16 := by simp [Pipeline.cost]
    rw [hc] at hl ⊢
    rw [usedFds_all (by simp [Pipeline.takes])]
    have hw : (Pipeline.iter id).outWant cwd o = o := by simp [Pipeline.outWant]
    rw [hw]
    obtain ⟨items, rs', w', ui, uo, hR, F⟩ := runFunc_spec (cwd := cwd) id false hr hl hs he (by simpa [refRun, Want.pick] using hq)
    exact ⟨items, rs', w', uo, [], by unfold runP; exact hR, func_post ho _ F _ (by simp [refRun]) (by simp [refRun]) (by simp [refRun]) (by simp [refRun])⟩
  | .pipe a b, hp, w, H, L, rs, i, o, e, hr, hl, hs, ho, he, hf, hq => by
    have hc : (Pipeline.pipe a b).cost = a.cost + b.cost := by simp [Pipeline.cost]
    rw [hc] at hl ⊢
    rw [usedFds_all (by simp [Pipeline.takes])]
    have hw : (Pipeline.pipe a b).outWant cwd o = b.outWant cwd o := by simp [Pipeline.outWant]
    rw [hw]
    have hreg : (Pipeline.pipe a b).Regular → a.Regular ∧ b.Regular := by simp [Pipeline.Regular]
    have hpa : a.Redirectable sys cwd ∧ b.Redirectable sys cwd ∧ a.outWant cwd .pipeOut = .pipeOut := by simpa [Pipeline.Redirectable] using hp
    obtain ⟨ta, hta, sta, ota, vta⟩ := redirect_out hs.borrow (owned_borrow rs)
    obtain ⟨hqa, hqb⟩ : _ ∧ _ := by simpa only [refRun, List.all_append, Bool.and_eq_true] using hq
    obtain ⟨xs, ra, w1, ul1, lk1, hA, A⟩ := run_spec sys cwd a hpa.1 hr (by omega) sta trivial he
      ((hf.borrow.change (.refl _) (fun r hr => by
        rcases vta r hr with h | h
        · exact .inl ⟨r, h, rfl, rfl⟩
        · exact .inr (by rw [h]; simp))).imp (fun h => (hreg h).1)) hqa
    rw [usedFds_sub ota] at A
    obtain ⟨so, hso, hso'⟩ := A.r1
    obtain ⟨u, rfl, hpu, hgu⟩ := hso' hpa.2.2
    have hr1 := hr.next A.delta (by omega)
    have hnu : u ∉ srcFds (Dict.values rs.borrow) := by
      intro hm
      exact (hs.borrow.owned_open hm).1 (A.delta.fresh u (by simp)).1
    obtain ⟨tb, htb, stb, otb', vtb⟩ := redirect_in_fd (hs.borrow.mono A.delta.keeps (by omega)) (owned_borrow rs) hgu
      (A.delta.lt (by simp)) hnu
    obtain ⟨ys, rb, w2, ul2, lk2, hB, B⟩ := run_spec sys cwd b hpa.2.1 hr1 (by omega) stb ho he
      ((hf.borrow.change A.delta.keeps (fun r hr => by
        rcases vtb r hr with h | h
        · exact .inl ⟨r, h, rfl, rfl⟩
        · refine .inr ⟨by rw [h]; simp, fun n hn => ?_⟩
          rw [h] at hn; injection hn with hn; subst hn
          exact (A.delta.fresh u (by simp)).1)).imp (fun h => (hreg h).2)) (by rw [A.ctr]; exact hqb)
    have otb : ∀ n, n ∈ usedFds b tb ↔ n = u ∧ b.takes 0 = false := by
      intro n
      have := otb' (fun k => !b.takes k) n
      simpa [usedFds] using this
    have hr2 := hr1.next B.delta (by omega)
    obtain ⟨m1, hm1, wm1, gm1⟩ := merge_ok A.wf B.wf
    obtain ⟨si, hsi⟩ := A.r0
    obtain ⟨m2, hm2, wm2, gm2⟩ := register_ok wm1 (values_source_ne_none A.wf (A.wf.value_of_get? hsi).1)
    obtain ⟨so2, hso2, hso2'⟩ := B.r1
    obtain ⟨m3, hm3, wm3, gm3⟩ := register_ok wm2 (values_source_ne_none B.wf (B.wf.value_of_get? hso2).1)
    have hsif : si.fd = 0 := (A.wf.value_of_get? hsi).2
    have hsof : so2.fd = 1 := (B.wf.value_of_get? hso2).2
    have hrs : ∀ n, n ∈ ownedFds (Dict.values rs) → w.fds.get n ≠ none := fun n hn => (hs.owned_open (owned_sub_src hn)).1
    obtain ⟨lu, hlu⟩ : ∃ lu, lu = if b.takes 0 then [u] else [] := ⟨_, rfl⟩
    have hmlu : ∀ n, n ∈ lu ↔ n = u ∧ b.takes 0 = true := by intro n; rw [hlu]; split <;> simp_all
    have D : Delta w w2 (H + a.cost + b.cost) L [] (heldFds xs ++ heldFds ys ++ ul2 ++ (lk1 ++ lk2 ++ lu)) := by
      refine A.delta.trans B.delta ?_ ?_
      · intro n; rw [otb]; simp; intro h; simp [h]
      · intro n
        have h1 := otb n; have h2 := A.disj n; have h3 := hmlu n
        simp only [List.mem_append, List.mem_singleton] at *
        grind
    obtain ⟨w3, hcl, c3, st3, d3⟩ := close_delta (rs := rs) D.bounded D.gap (fun s h => by rw [D.keeps s (hrs s h)]; exact hrs s h) hs.distinct
    have hnew : ∀ n, n ∈ heldFds xs ++ heldFds ys ++ ul2 ++ (lk1 ++ lk2 ++ lu) → n ∉ ownedFds (Dict.values rs) :=
      fun n hn hm => hrs n hm (D.fresh n hn).1
    have hk3 : ∀ n, n ∈ heldFds xs ++ heldFds ys ++ ul2 ++ (lk1 ++ lk2 ++ lu) → w3.fds.get n = w2.fds.get n :=
      fun n hn => d3.kept n (D.fresh n hn).2.1 (hnew n hn)
    have hk2 : ∀ n, n ∈ heldFds xs ∨ n ∈ lk1 ∨ n ∈ lu → w2.fds.get n = w1.fds.get n := by
      intro n hn
      refine B.delta.kept n (A.delta.fresh n (by have := hmlu n; simp; grind)).2.1 ?_
      rw [otb]; rintro ⟨rfl, hb⟩
      have := A.disj n (by simp)
      have := hmlu n
      grind
    have hl1 : execTable w1.fds sys.logfd = execTable w.fds sys.logfd := A.delta.log hr (by simp)
    refine ⟨xs ++ ys, m3, w3, ul2, lk1 ++ lk2 ++ lu, ?_, ?_⟩
    · unfold runP
      refine (RunM.bind_ok (show RunM.lift _ w = (.ok ta, w) by rw [RunM.lift, hta])).trans ?_
      refine (RunM.bind_ok hA).trans ?_
      refine (RunM.bind_ok (show RunM.lift _ w1 = (.ok so, w1) by rw [RunM.lift, attr_of_get?.2 hso])).trans ?_
      refine (RunM.bind_ok (show RunM.lift _ w1 = (.ok tb, w1) by rw [RunM.lift, hpu, PipeEnd.toSource, htb])).trans ?_
      refine (RunM.bind_ok hB).trans ?_
      refine (RunM.bind_ok (show RunM.lift _ w2 = (.ok m1, w2) by rw [RunM.lift, hm1])).trans ?_
      refine (RunM.bind_ok (show RunM.lift _ w2 = (.ok si, w2) by rw [RunM.lift, attr_of_get?.1 hsi])).trans ?_
      refine (RunM.bind_ok (show RunM.lift _ w2 = (.ok m2, w2) by rw [RunM.lift, hm2])).trans ?_
      refine (RunM.bind_ok (show RunM.lift _ w2 = (.ok so2, w2) by rw [RunM.lift, attr_of_get?.2 hso2])).trans ?_
      refine (RunM.bind_ok (show RunM.lift _ w2 = (.ok m3, w2) by rw [RunM.lift, hm3])).trans ?_
      refine (RunM.bind_ok hcl).trans ?_
      rfl
    · exact {
        delta := by
          rw [heldFds_append]
          have : H + (a.cost + b.cost) = H + a.cost + b.cost := by omega
          rw [this]
          refine D.trans d3 ?_ ?_
          · intro n; have := hnew n; have := hrs n; have := D.fresh n; grind
          · intro n; have := hnew n; simp only [List.not_mem_nil, or_false]; grind
        ctr := by rw [c3, B.ctr, A.ctr]; simp only [refRun]
        started := by rw [st3, B.started, A.started]; simp
        itemsOk := by
          simp only [refRun]
          refine Pointwise.append ?_ ?_
          · exact items_mono A.itemsOk (fun n hn => by rw [hk3 n (by simp [hn]), hk2 n (.inl hn)])
          · have := B.itemsOk
            rw [A.ctr, hl1] at this
            exact items_mono this (fun n hn => hk3 n (by simp [hn]))
        wf := wm3
        r0 := ⟨si, by rw [gm3, gm2]; simp [hsof, hsif]⟩
        r1 := by
          refine ⟨so2, by rw [gm3]; simp [hsof], fun h => ?_⟩
          obtain ⟨u2, h1, h2, h3⟩ := hso2' h
          refine ⟨u2, h1, h2, ?_⟩
          rw [hk3 u2 (by simp [h1]), h3, A.ctr]
          simp only [refRun]
        r1' := B.r1'
        tmp1 := fun h => by
          obtain ⟨r, k, y, h1, h2, h3, h4⟩ := B.tmp1 h
          have e := hso2.symm.trans h1
          cases e
          refine ⟨so2, k, y, by rw [gm3]; simp [hsof], h2, ?_, h4⟩
          rw [A.ctr] at h3
          simp only [refRun, List.getLast?_append, h3, Option.some_or]
        leaks := by
          simp only [refRun]
          refine Pointwise.append (Pointwise.append ?_ ?_) ?_
          · exact leaks_mono A.leaks (fun n hn => by rw [hk3 n (by simp [hn]), hk2 n (.inr (.inl hn))])
          · have := B.leaks
            rw [A.ctr] at this
            exact leaks_mono this (fun n hn => hk3 n (by simp [hn]))
          · rw [hlu]
            by_cases hb : b.takes 0 = true
            · simp only [hb, ↓reduceIte]
              have hm := (hmlu u).2 ⟨rfl, hb⟩
              exact .cons (by rw [hk3 u (by simp [hm]), hk2 u (.inr (.inr hm)), hgu]) .nil
            · simp only [hb, ↓reduceIte]; exact .nil
        disj := by
          intro n hn
          have h1 := B.disj n hn
          have h2 := (B.delta.fresh n (by simp [hn])).1
          rw [heldFds_append]
          have h3 : n ∉ heldFds xs := fun hm => (A.delta.fresh n (by simp [hm])).2.1 h2
          have h4 : n ∉ lk1 := fun hm => (A.delta.fresh n (by simp [hm])).2.1 h2
          have h5 : n ∉ lu := fun hm => by
            have := (hmlu n).1 hm
            exact (A.delta.fresh n (by simp [this.1])).2.1 h2
          simp [h1, h3, h4, h5]
        held := by
          rw [heldFds_append]
          refine List.nodup_append.2 ⟨A.held, B.held, ?_⟩
          rintro n ha _ hb rfl
          exact (A.delta.fresh n (by simp [ha])).2.1 (B.delta.fresh n (by simp [hb])).1 }
  | .group a b, hp, w, H, L, rs, i, o, e, hr, hl, hs, ho, he, hf, hq => by
    have hc : (Pipeline.group a b).cost = a.cost + b.cost := by simp [Pipeline.cost]
    rw [hc] at hl ⊢
    rw [usedFds_all (by simp [Pipeline.takes])]
    have hw : (Pipeline.group a b).outWant cwd o = b.outWant cwd o := by simp [Pipeline.outWant]
    rw [hw]
    have how := owned_borrow rs
    have hreg : (Pipeline.group a b).Regular → a.Regular ∧ b.Regular := by simp [Pipeline.Regular]
    have hpa : a.Redirectable sys cwd ∧ b.Redirectable sys cwd := by simpa [Pipeline.Redirectable] using hp
    obtain ⟨hqa, hqb⟩ : _ ∧ _ := by simpa only [refRun, List.all_append, Bool.and_eq_true] using hq
    obtain ⟨xs, ra, w1, ul1, lk1, hA, A⟩ := run_spec sys cwd a hpa.1 hr (by omega) hs.borrow ho he
      (hf.borrow.imp (fun h => (hreg h).1)) hqa
    rw [usedFds_sub how] at A
    have hr1 := hr.next A.delta (by omega)
    obtain ⟨ys, rb, w2, ul2, lk2, hB, B⟩ := run_spec sys cwd b hpa.2 hr1 (by omega) (hs.borrow.mono A.delta.keeps (by omega)) ho he
      ((hf.borrow.keeps A.delta.keeps).imp (fun h => (hreg h).2)) (by rw [A.ctr]; exact hqb)
    rw [usedFds_sub how] at B
    obtain ⟨m, hm, wm, gm⟩ := merge_ok A.wf B.wf
    obtain ⟨so2, hso2, hso2'⟩ := B.r1
    obtain ⟨so, hso, hso'⟩ := A.r1
    have hrs : ∀ n, n ∈ ownedFds (Dict.values rs) → w.fds.get n ≠ none := fun n hn => (hs.owned_open (owned_sub_src hn)).1
    have D : Delta w w2 (H + a.cost + b.cost) L [] (heldFds xs ++ heldFds ys ++ ul2 ++ (lk1 ++ lk2 ++ ul1)) := by
      refine A.delta.trans B.delta (by simp) ?_
      intro n; simp only [List.mem_append, List.not_mem_nil]; grind
    obtain ⟨w3, hcl, c3, st3, d3⟩ := close_delta (rs := rs) D.bounded D.gap (fun s h => by rw [D.keeps s (hrs s h)]; exact hrs s h) hs.distinct
    have hnew : ∀ n, n ∈ heldFds xs ++ heldFds ys ++ ul2 ++ (lk1 ++ lk2 ++ ul1) → n ∉ ownedFds (Dict.values rs) :=
      fun n hn hm => hrs n hm (D.fresh n hn).1
    have hk3 : ∀ n, n ∈ heldFds xs ++ heldFds ys ++ ul2 ++ (lk1 ++ lk2 ++ ul1) → w3.fds.get n = w2.fds.get n :=
      fun n hn => d3.kept n (D.fresh n hn).2.1 (hnew n hn)
    have hk2 : ∀ n, n ∈ heldFds xs ∨ n ∈ lk1 ∨ n ∈ ul1 → w2.fds.get n = w1.fds.get n := by
      intro n hn
      exact B.delta.keeps n (A.delta.fresh n (by simp; grind)).2.1
    have hl1 : execTable w1.fds sys.logfd = execTable w.fds sys.logfd := A.delta.log hr (by simp)
    refine ⟨xs ++ ys, m, w3, ul2, lk1 ++ lk2 ++ ul1, ?_, ?_⟩
    · unfold runP
      refine (RunM.bind_ok hA).trans ?_
      refine (RunM.bind_ok hB).trans ?_
      refine (RunM.bind_ok (show RunM.lift _ w2 = (.ok m, w2) by rw [RunM.lift, hm])).trans ?_
      refine (RunM.bind_ok hcl).trans ?_
      rfl
    · exact {
        delta := by
          rw [heldFds_append]
          have : H + (a.cost + b.cost) = H + a.cost + b.cost := by omega
          rw [this]
          refine D.trans d3 ?_ ?_
          · intro n; have := hnew n; have := hrs n; have := D.fresh n; grind
          · intro n; have := hnew n; simp only [List.not_mem_nil, or_false]; grind
        ctr := by rw [c3, B.ctr, A.ctr]; simp only [refRun]
        started := by rw [st3, B.started, A.started]; simp
        itemsOk := by
          simp only [refRun]
          refine Pointwise.append ?_ ?_
          · exact items_mono A.itemsOk (fun n hn => by rw [hk3 n (by simp [hn]), hk2 n (.inl hn)])
          · have := B.itemsOk
            rw [A.ctr, hl1] at this
            exact items_mono this (fun n hn => hk3 n (by simp [hn]))
        wf := wm
        r0 := by
          obtain ⟨q, hq⟩ := B.r0
          exact ⟨q, by rw [gm, hq]⟩
        r1 := by
          refine ⟨so2, by rw [gm, hso2], fun h => ?_⟩
          obtain ⟨u2, h1, h2, h3⟩ := hso2' h
          refine ⟨u2, h1, h2, ?_⟩
          rw [hk3 u2 (by simp [h1]), h3, A.ctr]
          simp only [refRun]
        r1' := B.r1'
        tmp1 := fun h => by
          obtain ⟨r, k, y, h1, h2, h3, h4⟩ := B.tmp1 h
          have e := hso2.symm.trans h1
          cases e
          refine ⟨so2, k, y, by rw [gm, hso2], h2, ?_, h4⟩
          rw [A.ctr] at h3
          simp only [refRun, List.getLast?_append, h3, Option.some_or]
        leaks := by
          simp only [refRun]
          refine Pointwise.append (Pointwise.append ?_ ?_) ?_
          · exact leaks_mono A.leaks (fun n hn => by rw [hk3 n (by simp [hn]), hk2 n (.inr (.inl hn))])
          · have := B.leaks
            rw [A.ctr] at this
            exact leaks_mono this (fun n hn => hk3 n (by simp [hn]))
          · by_cases h : a.outWant cwd o = .pipeOut
            · obtain ⟨u, h1, h2, h3⟩ := hso' h
              simp only [h, ↓reduceIte] at h3 ⊢
              subst h1
              exact .cons (by rw [hk3 u (by simp), hk2 u (by simp), h3]) .nil
            · rw [A.r1' h]; simp only [h, ↓reduceIte]; exact .nil
        disj := by
          intro n hn
          have h1 := B.disj n hn
          have h2 := (B.delta.fresh n (by simp [hn])).1
          rw [heldFds_append]
          have h3 : n ∉ heldFds xs := fun hm => (A.delta.fresh n (by simp [hm])).2.1 h2
          have h4 : n ∉ lk1 := fun hm => (A.delta.fresh n (by simp [hm])).2.1 h2
          have h5 : n ∉ ul1 := fun hm => (A.delta.fresh n (by simp [hm])).2.1 h2
          simp [h1, h3, h4, h5]
        held := by
          rw [heldFds_append]
          refine List.nodup_append.2 ⟨A.held, B.held, ?_⟩
          rintro n ha _ hb rfl
          exact (A.delta.fresh n (by simp [ha])).2.1 (B.delta.fresh n (by simp [hb])).1 }
  | .redirect p crs, hp, w, H, L, rs, i, o, e, hr, hl, hs, ho, he, hf, hq => by
    have hp' : p.Redirectable sys cwd ∧ crs.Built ∧ ∀ r ∈ Dict.values crs, r.Simple sys cwd := by
      simpa [Pipeline.Redirectable] using hp
    have hc : (Pipeline.redirect p crs).cost = p.cost := by simp [Pipeline.cost]
    rw [hc] at hl ⊢
    have hlow : rs.Low w.fds := hf.elim (fun h => by simp [Pipeline.Regular] at h) id
    obtain ⟨m, hm, sm, om, em, vm, um⟩ := merge_std hs ho he hp'.2.1 hp'.2.2
    obtain ⟨items, rs', w', ul, lk, hR, P⟩ := run_spec sys cwd p hp'.1 hr hl sm om em
      (.inr ⟨hlow.1, fun r hr a ha hlt => by
        rcases vm r hr with h | h
        · exact hlow.2 r h a ha hlt
        · exact absurd ha (h a)⟩) (by simpa only [refRun] using hq)
    refine ⟨items, rs', w', ul, lk, ?_, ?_⟩
    · unfold runP
      exact (RunM.bind_ok (show RunM.lift _ w = (.ok m, w) by rw [RunM.lift, hm])).trans hR
    · have e1 : refRun cwd (.redirect p crs) i o e w.ctr =
          refRun cwd p (crs.overIn cwd i) (crs.over cwd 1 o) (crs.over cwd 2 e) w.ctr := by simp only [refRun]
      have e2 : (Pipeline.redirect p crs).outWant cwd o = p.outWant cwd (crs.over cwd 1 o) := by simp only [Pipeline.outWant]
      rw [e1, e2]
      exact { P with delta := P.delta.congr (fun n => (um p n).symm) (fun _ => Iff.rfl) }

theorem args_spec (sys : Sys) (cwd : Str) : (args : Args) → args.Redirectable sys cwd → ArgsSpec sys cwd args
  | .nil, hp, w, H, L, orig, rs, i, o, e, hr, hl, hs, how, hwf, hk, hsl, hf, hq => by
    refine ⟨[], [], rs, w, H, [], [], rfl, Nat.le_refl _, by simp [Args.cost], ?_⟩
    exact { delta := (Delta.refl hr.bounded hr.gap), ctr := rfl, started := by simp, itemsOk := .nil, leaks := .nil,
            disj := by simp, held := by simp [heldFds], nodup := by simp, wf := hwf,
            tab := ⟨[], by simp, rfl, by simp, rfl⟩, keys := hk, words := .nil }
  | .word ws rest, hp, w, H, L, orig, rs, i, o, e, hr, hl, hs, how, hwf, hk, hsl, hf, hq => by
    have hc : (Args.word ws rest).cost = rest.cost := by simp [Args.cost]
    rw [hc] at hl ⊢
    obtain ⟨items, argv, rs2, w', H', ext, lk, hR, h1, h2, P⟩ := args_spec sys cwd rest (by simpa [Args.Redirectable] using hp) w H L orig rs i o e hr hl hs how hwf hk hsl
      (hf.imp (by simp [Args.Regular])) (by simpa only [refArgs] using hq)
    have hdv : devFds (ws.map Word.lit ++ argv) = devFds argv := by
      clear hR P hc hp hf hq
      induction ws with
      | nil => rfl
      | cons x ws ih => simpa [devFds] using ih
    refine ⟨items, ws.map .lit ++ argv, rs2, w', H', ext, lk, ?_, h1, h2, ?_⟩
    · unfold runArgs
      refine (RunM.bind_ok hR).trans ?_
      rfl
    · exact { delta := P.delta, ctr := P.ctr, started := P.started, itemsOk := P.itemsOk, leaks := P.leaks, disj := P.disj, held := P.held,
              nodup := P.nodup, wf := P.wf
              tab := by obtain ⟨xs, a1, a2, a3, a4⟩ := P.tab; exact ⟨xs, a1, by rw [hdv]; exact a2, a3, a4⟩
              keys := P.keys
              words := by
                simp only [refArgs]
                refine Pointwise.append ?_ P.words
                clear hR P hdv hc hp hf hq
                induction ws with
                | nil => exact .nil
                | cons x ws ih => exact .cons rfl ih }
  | .pipeArg pre p rest, hp, w, H, L, orig, rs, i, o, e, hr, hl, hs, how, hwf, hk, hsl, hf, hq => by
    have hc : (Args.pipeArg pre p rest).cost = p.cost + rest.cost + 2 := by simp [Args.cost]
    rw [hc] at hl ⊢
    have hreg : (Args.pipeArg pre p rest).Regular → p.Regular ∧ rest.Regular := by simp [Args.Regular]
    have hpa : p.Redirectable sys cwd ∧ p.outWant cwd .pipeOut = .pipeOut ∧ rest.Redirectable sys cwd := by simpa [Args.Redirectable] using hp
    obtain ⟨ta, hta, sta, ota, vta⟩ := redirect_out hs how
    obtain ⟨hqa, hqb⟩ : _ ∧ _ := by simpa only [refArgs, List.all_append, Bool.and_eq_true] using hq
    obtain ⟨xs, ra, w1, ul1, lk1, hA, A⟩ := run_spec sys cwd p hpa.1 hr (by omega) sta trivial trivial
      ((hf.change (.refl _) (fun r hr => by
        rcases vta r hr with h | h
        · exact .inl ⟨r, h, rfl, rfl⟩
        · exact .inr (by rw [h]; simp))).imp (fun h => (hreg h).1)) hqa
    rw [usedFds_sub ota] at A
    obtain ⟨so, hso, hso'⟩ := A.r1
    obtain ⟨u, rfl, hpu, hgu⟩ := hso' hpa.2.1
    obtain ⟨items, argv, rs2, w', H', ext, lk, hR, g1, g2, P⟩ := arg_step sys cwd rest (args_spec sys cwd rest hpa.2.2) pre (H1 := H + p.cost)
      (flag := O_RDONLY) hr (by omega) (by omega) hs how hwf hk hsl (hf.imp (fun h => (hreg h).2)) A.delta A.started A.itemsOk hgu A.leaks (A.disj u (by simp)) A.held (by rw [A.ctr]; exact hqb)
    refine ⟨items, argv, rs2, w', H', ext, lk, ?_, by omega, by omega, ?_⟩
    · unfold runArgs
      refine (RunM.bind_ok (show RunM.lift _ w = (.ok ta, w) by rw [RunM.lift, hta])).trans ?_
      refine (RunM.bind_ok hA).trans ?_
      refine (RunM.bind_ok (show RunM.lift _ w1 = (.ok so, w1) by rw [RunM.lift, attr_of_get?.2 hso])).trans ?_
      rw [hpu]
      exact hR
    · rw [A.ctr] at P
      simp only [refArgs]
      exact P
  | .funcArg pre id rest, hp, w, H, L, orig, rs, i, o, e, hr, hl, hs, how, hwf, hk, hsl, hf, hq => by
    have hc : (Args.funcArg pre id rest).cost = rest.cost + 18 := by simp [Args.cost]
    rw [hc] at hl ⊢
    obtain ⟨ta, hta, sta, ota, _⟩ := redirect_in hs how
    obtain ⟨xs, ra, w1, ui, uo, hA, A⟩ := runFunc_spec (cwd := cwd) id true hr (by omega) sta trivial
      (by simp only [refArgs, List.all_cons, Bool.and_eq_true] at hq; exact hq.1)
    rw [ota] at A
    obtain ⟨so, hso, u, rfl, hpu, hgu⟩ := A.r0
    obtain rfl : uo = [] := by obtain ⟨r, _, h⟩ := A.r1; exact h.nil
    obtain ⟨items, argv, rs2, w', H', ext, lk, hR, g1, g2, P⟩ := arg_step sys cwd rest (args_spec sys cwd rest (by simpa [Args.Redirectable] using hp)) pre (H1 := H + 16)
      (flag := O_WRONLY) hr (by omega) (by omega) hs how hwf hk hsl (hf.imp (by simp [Args.Regular])) A.delta A.started (A.itemsOk _) hgu   .nil ⟨A.disj u (by simp), by simp⟩ A.held
      (by rw [A.ctr]; simp only [refArgs, List.all_cons, Bool.and_eq_true] at hq; exact hq.2)
    refine ⟨items, argv, rs2, w', H', ext, lk, ?_, by omega, by omega, ?_⟩
    · unfold runArgs
      refine (RunM.bind_ok (show RunM.lift _ w = (.ok ta, w) by rw [RunM.lift, hta])).trans ?_
      refine (RunM.bind_ok hA).trans ?_
      refine (RunM.bind_ok (show RunM.lift _ w1 = (.ok so, w1) by rw [RunM.lift, attr_of_get?.1 hso])).trans ?_
      rw [hpu]
      exact hR
    · rw [A.ctr] at P
      simp only [refArgs]
      exact P
end

end Pieshell
