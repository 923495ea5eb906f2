import Verif.Lemmas.MakePipes
import Verif.Spec.Run
/-! Helper lemmas for starting pipelines: gaps, slots, materialising. -/
namespace Pieshell

theorem RunM.bind_ok {α β : Type} {x : RunM α} {f : α → RunM β} {w w' : World} {a : α}
    (h : x w = (.ok a, w')) : (x >>= f) w = f a w' := by
  show RunM.bind x f w = _
  simp [RunM.bind, h]

theorem RunM.bind_error {α β : Type} {x : RunM α} {f : α → RunM β} {w w' : World} {e : Exn}
    (h : x w = (.error e, w')) : (x >>= f) w = (.error e, w') := by
  show RunM.bind x f w = _
  simp [RunM.bind, h]

theorem RunM.pure_apply {α : Type} (a : α) (w : World) : (Pure.pure a : RunM α) w = (.ok a, w) := rfl

theorem Gap.mono {t : FdTable} {H H' L : Nat} (h : Gap t H L) (hH : H ≤ H') : Gap t H' L :=
  fun n h1 h2 => h n (by omega) h2

theorem Gap.lowest {t : FdTable} {H L : Nat} (h : Gap t H L) (hb : t.Bounded) (hl : H < L) : t.lowestFree ≤ H :=
  FdTable.lowestFree_le_of_free hb (h H (Nat.le_refl _) hl)

theorem Gap.set {t : FdTable} {H L n : Nat} {e : Entry} (h : Gap t H L) (hn : n ≤ H) : Gap (t.set n e) (H+1) L := by
  intro m h1 h2
  have : m ≠ n := by omega
  simp [this]; exact h m (by omega) h2

theorem Gap.of_sub {t t' : FdTable} {H L : Nat} (h : Gap t H L) (hs : ∀ n, t'.get n = none ∨ t'.get n = t.get n) :
    Gap t' H L := by
  intro n h1 h2
  rcases hs n with h' | h'
  · exact h'
  · rw [h']; exact h n h1 h2

theorem mem_ownedFds {l : List Redirect} {n : Nat} :
    n ∈ ownedFds l ↔ ∃ r ∈ l, r.source = .fd n ∧ r.borrowed = false := by
  unfold ownedFds
  rw [mem_srcFds]
  constructor
  · rintro ⟨r, hr, hs⟩; rw [List.mem_filter] at hr; exact ⟨r, hr.1, hs, by simpa using hr.2⟩
  · rintro ⟨r, hr, hs, hb⟩; exact ⟨r, List.mem_filter.2 ⟨hr, by simp [hb]⟩, hs⟩

theorem ownedFds_sublist (l : List Redirect) : (ownedFds l).Sublist (srcFds l) := by
  unfold ownedFds srcFds
  exact List.Sublist.filterMap _ List.filter_sublist

/-! ### slots -/

variable {sys : Sys} {cwd : Str}


/-- Everything open in `t` is still the same in `t'`. -/
def Keeps (t t' : FdTable) : Prop := ∀ n, t.get n ≠ none → t'.get n = t.get n

theorem Keeps.refl (t : FdTable) : Keeps t t := fun _ _ => rfl
theorem Keeps.trans {a b c : FdTable} (h1 : Keeps a b) (h2 : Keeps b c) : Keeps a c := by
  intro n hn; rw [h2 n (by rw [h1 n hn]; exact hn), h1 n hn]
theorem Keeps.fresh {t t' : FdTable} (h : Keeps t t') {n : Nat} (hn : t'.get n = none) : t.get n = none := by
  by_cases hc : t.get n = none
  · exact hc
  · rw [← h n hc]; exact hn
theorem Keeps.some {t t' : FdTable} (h : Keeps t t') {n : Nat} {e : Entry} (hn : t.get n = .some e) :
    t'.get n = .some e := by rw [h n (by simp [hn])]; exact hn

/-- `ul` is the user's end of the pipe made for `x` (kept in the `pipe` attribute), if one was made; for a temporary file, `pipe` has its number. -/
def UserEnd (t : FdTable) (x : Want) (c : Ctr) (r : Redirect) (ul : List Nat) : Prop :=
  match x with
    | .pipeOut => ∃ u, ul = [u] ∧ r.pipe = .fd u ∧ t.get u = some { obj := .pipeR c.p, cloexec := true }
    | .pipeIn => ∃ u, ul = [u] ∧ r.pipe = .fd u ∧ t.get u = some { obj := .pipeW c.p, cloexec := true }
    | .tmp => ul = [] ∧ (r.pipe = .string c.t ∨ r.pipe = .tmp c.t)
    | .obj _ => ul = []

/-- Result of materialising one redirection. -/
structure Mat1 (sys : Sys) (cwd : Str) (w w' : World) (H L : Nat) (r r' : Redirect) (x : Want) (own uend : List Nat) : Prop where
  eq : r.makePipe w = (.ok r', w')
  fd : r'.fd = r.fd
  slot : Slot sys cwd w'.fds (H + 2) r' (.obj (x.pick w.ctr).1)
  same : (own = [] ∧ r' = r) ∨ (∃ s, own = [s] ∧ r'.source = .fd s ∧ w.fds.get s = none ∧ r'.borrowed = false ∧ (∀ n, r.source ≠ .fd n) ∧ ∀ p, r.source ≠ .path p)
  ctr : w'.ctr = (x.pick w.ctr).2
  started : w'.started = w.started
  bounded : w'.fds.Bounded
  gap : Gap w'.fds (H + 2) L
  keeps : Keeps w.fds w'.fds
  fresh : ∀ n ∈ own ++ uend, w.fds.get n = none ∧ w'.fds.get n ≠ none ∧ n < L
  disj : ∀ n ∈ uend, n ∉ own
  only : ∀ n, w.fds.get n = none → w'.fds.get n ≠ none → n ∈ own ∨ n ∈ uend
  user : UserEnd w'.fds x w.ctr r' uend

theorem mat1 {w : World} {H L : Nat} {r : Redirect} {x : Want} (hb : w.fds.Bounded) (hg : Gap w.fds H L)
    (hl : H + 2 ≤ L) (hs : Slot sys cwd w.fds H r x) : ∃ r' w' own uend, Mat1 sys cwd w w' H L r r' x own uend := by
  have pipeCase : ∀ rfd wfd w', pipeCloexec w = ((rfd, wfd), w') → w'.started = w.started ∧
      rfd ≤ H ∧ wfd ≤ H + 1 ∧ w'.fds = (w.fds.set rfd { obj := .pipeR w.nextPipe, cloexec := true }).set wfd { obj := .pipeW w.nextPipe, cloexec := true } := by
    intro a b w' h
    simp only [pipeCloexec] at h
    have hla := hg.lowest hb (by omega)
    have hg1 : Gap (w.fds.set w.fds.lowestFree { obj := .pipeR w.nextPipe, cloexec := true }) (H+1) L := hg.set hla
    have hlb := hg1.lowest (FdTable.bounded_set hb _ _) (by omega)
    cases h
    exact ⟨rfl, hla, hlb, rfl⟩
  cases x with
  | obj o =>
    have hmp : r.makePipe w = (.ok r, w) := by
      rcases hs with ⟨a, e, h1, -⟩ | ⟨p, h1, -⟩ <;> simp [Redirect.makePipe, h1]
    refine ⟨r, w, [], [], ?_⟩
    exact { eq := hmp, fd := rfl, slot := by
              rcases hs with ⟨a, e, h1, h2, h3, h4⟩ | h
              · exact .inl ⟨a, e, h1, h2, h3, by omega⟩
              · exact .inr h
            same := .inl ⟨rfl, rfl⟩, ctr := rfl, started := rfl, bounded := hb, gap := hg.mono (by omega),
            keeps := .refl _, fresh := by simp, disj := by simp, only := fun n h1 h2 => absurd h1 h2, user := rfl }
  | pipeOut =>
    obtain ⟨h1, h2⟩ := hs
    obtain ⟨a, b, w', he, hext, hab, ha, hb', hga, hgb, hoth, hnp, hnt, -⟩ := pipeCloexec_spec w hb
    obtain ⟨hst, hla, hlb, hfds⟩ := pipeCase a b w' he
    have hw := (isWr_iff r.flag).2 h2
    refine ⟨{ fd := r.fd, source := .fd b, flag := r.flag, mode := r.mode, pipe := .fd a, borrowed := false }, w', [b], [a], ?_⟩
    exact { eq := by simp [Redirect.makePipe, h1, he, hw], fd := rfl,
            slot := .inl ⟨b, _, rfl, hgb, rfl, by omega⟩, same := .inr ⟨b, rfl, rfl, hb', rfl, by simp [h1], by simp [h1]⟩,
            ctr := by simp [World.ctr, Want.pick, hnp, hnt], started := hst, bounded := hext.bounded hb,
            gap := by rw [hfds]; exact (hg.set hla).set hlb,
            keeps := fun n hn => by
              rcases Option.eq_none_or_eq_some (w.fds.get n) with h | ⟨e, h⟩
              · exact absurd h hn
              · rw [h]; exact hext.keep n e h,
            fresh := by
              intro n hn; simp at hn
              rcases hn with rfl | rfl
              · exact ⟨hb', by simp [hgb], by omega⟩
              · exact ⟨ha, by simp [hga], by omega⟩
            disj := by simp [hab],
            only := fun n h1 h2 => by
              by_cases hna : n = a
              · exact .inr (by simp [hna])
              · by_cases hnb : n = b
                · exact .inl (by simp [hnb])
                · rw [hoth n hna hnb] at h2; exact absurd h1 h2,
            user := ⟨a, rfl, rfl, hga⟩ }
  | pipeIn =>
    obtain ⟨h1, h2⟩ := hs
    obtain ⟨a, b, w', he, hext, hab, ha, hb', hga, hgb, hoth, hnp, hnt, -⟩ := pipeCloexec_spec w hb
    obtain ⟨hst, hla, hlb, hfds⟩ := pipeCase a b w' he
    have hw : isWr r.flag = false := by
      cases hx : isWr r.flag with
      | false => rfl
      | true => exact absurd ((isWr_iff _).1 hx) h2
    refine ⟨{ fd := r.fd, source := .fd a, flag := r.flag, mode := r.mode, pipe := .fd b, borrowed := false }, w', [a], [b], ?_⟩
    exact { eq := by simp [Redirect.makePipe, h1, he, hw], fd := rfl,
            slot := .inl ⟨a, _, rfl, hga, rfl, by omega⟩, same := .inr ⟨a, rfl, rfl, ha, rfl, by simp [h1], by simp [h1]⟩,
            ctr := by simp [World.ctr, Want.pick, hnp, hnt], started := hst, bounded := hext.bounded hb,
            gap := by rw [hfds]; exact (hg.set hla).set hlb,
            keeps := fun n hn => by
              rcases Option.eq_none_or_eq_some (w.fds.get n) with h | ⟨e, h⟩
              · exact absurd h hn
              · rw [h]; exact hext.keep n e h,
            fresh := by
              intro n hn; simp at hn
              rcases hn with rfl | rfl
              · exact ⟨ha, by simp [hga], by omega⟩
              · exact ⟨hb', by simp [hgb], by omega⟩
            disj := by simp [Ne.symm hab],
            only := fun n h1 h2 => by
              by_cases hna : n = a
              · exact .inl (by simp [hna])
              · by_cases hnb : n = b
                · exact .inr (by simp [hnb])
                · rw [hoth n hna hnb] at h2; exact absurd h1 h2,
            user := ⟨b, rfl, rfl, hgb⟩ }
  | tmp =>
    obtain ⟨h1, h2⟩ := hs
    have hw := (isWr_iff r.flag).2 h2
    have hla := hg.lowest hb (by omega)
    have hf := FdTable.lowestFree_free hb
    have key : ∀ pe, (pe = .string w.nextTmp ∨ pe = .tmp w.nextTmp) → (r.makePipe w = (.ok { fd := r.fd, source := .fd w.fds.lowestFree, flag := r.flag, mode := r.mode, pipe := pe, borrowed := false },
        { w with fds := w.fds.set w.fds.lowestFree { obj := .tmp w.nextTmp, cloexec := true }, nextTmp := w.nextTmp + 1 })) →
        ∃ r' w' own uend, Mat1 sys cwd w w' H L r r' .tmp own uend := by
      intro pe hpe he
      refine ⟨{ fd := r.fd, source := .fd w.fds.lowestFree, flag := r.flag, mode := r.mode, pipe := pe, borrowed := false },
        { w with fds := w.fds.set w.fds.lowestFree { obj := .tmp w.nextTmp, cloexec := true }, nextTmp := w.nextTmp + 1 },
        [w.fds.lowestFree], [], ?_⟩
      exact { eq := he, fd := rfl, slot := .inl ⟨w.fds.lowestFree, { obj := .tmp w.nextTmp, cloexec := true }, rfl, by simp, rfl, by omega⟩,
              same := .inr ⟨_, rfl, rfl, hf, rfl, by rcases h1 with h1 | h1 <;> simp [h1], by rcases h1 with h1 | h1 <;> simp [h1]⟩, ctr := rfl, started := rfl, bounded := FdTable.bounded_set hb _ _,
              gap := (hg.set hla).mono (by omega),
              keeps := fun n hn => by
                have : n ≠ w.fds.lowestFree := by intro h; rw [h] at hn; exact hn hf
                simp [this],
              fresh := by intro n hn; simp at hn; subst hn; exact ⟨hf, by simp, by omega⟩,
              disj := by simp,
              only := fun n h1 h2 => by
                by_cases h : n = w.fds.lowestFree
                · exact .inl (by simp [h])
                · simp [h] at h2; exact absurd h1 h2,
              user := ⟨rfl, hpe⟩ }
    rcases h1 with h1 | h1
    · exact key (.string w.nextTmp) (.inl rfl) (by simp [Redirect.makePipe, h1, hw, mkstemp])
    · exact key (.tmp w.nextTmp) (.inr rfl) (by simp [Redirect.makePipe, h1, hw, mkstemp])

/-! ### three-slot tables -/

theorem Slot.mono {t t' : FdTable} {H H' : Nat} {r : Redirect} {x : Want} (h : Slot sys cwd t H r x) (hk : Keeps t t')
    (hH : H ≤ H') : Slot sys cwd t' H' r x := by
  cases x with
  | obj o =>
    rcases h with ⟨a, e, h1, h2, h3, h4⟩ | h
    · exact .inl ⟨a, e, h1, hk.some h2, h3, by omega⟩
    · exact .inr h
  | pipeOut => exact h
  | pipeIn => exact h
  | tmp => exact h

theorem Std.mono {rs : Redirects} {t t' : FdTable} {H H' : Nat} {i o e : Want} (h : Std sys cwd rs t H i o e)
    (hk : Keeps t t') (hH : H ≤ H') : Std sys cwd rs t' H' i o e := by
  obtain ⟨⟨r0, r1, r2, h1, h2, h3, h4, s0, s1, s2⟩, hd⟩ := h
  exact ⟨⟨r0, r1, r2, h1, h2, h3, h4, s0.mono hk hH, s1.mono hk hH, s2.mono hk hH⟩, hd⟩

theorem Slot.borrow {t : FdTable} {H : Nat} {r : Redirect} {x : Want} (h : Slot sys cwd t H r x) : Slot sys cwd t H r.borrow x := by
  cases x with
  | obj o => exact h
  | pipeOut => exact h
  | pipeIn => exact h
  | tmp => exact h

theorem Slot.source_ne_none {t : FdTable} {H : Nat} {r : Redirect} {x : Want} (h : Slot sys cwd t H r x) : r.source ≠ .none := by
  cases x with
  | obj o => rcases h with ⟨a, e, h1, _⟩ | ⟨p, h1, _⟩ <;> rw [h1] <;> simp
  | pipeOut => rw [h.1]; simp
  | pipeIn => rw [h.1]; simp
  | tmp => rcases h.1 with h | h <;> rw [h] <;> simp

/-- A source of a slot is open and below `H`. -/
theorem Slot.fd_open {t : FdTable} {H : Nat} {r : Redirect} {x : Want} (h : Slot sys cwd t H r x) {n : Nat}
    (hn : r.source = .fd n) : t.get n ≠ none ∧ n < H := by
  cases x with
  | obj o =>
    rcases h with ⟨a, e, h1, h2, h3, h4⟩ | ⟨p, h1, -⟩
    · rw [h1] at hn; cases hn; exact ⟨by simp [h2], h4⟩
    · rw [h1] at hn; cases hn
  | pipeOut => rw [h.1] at hn; cases hn
  | pipeIn => rw [h.1] at hn; cases hn
  | tmp => rcases h.1 with h | h <;> rw [h] at hn <;> cases hn

theorem Std.wf {rs : Redirects} {t : FdTable} {H : Nat} {i o e : Want} (h : Std sys cwd rs t H i o e) : rs.WF := by
  obtain ⟨⟨r0, r1, r2, rfl, h2, h3, h4, s0, s1, s2⟩, -⟩ := h
  refine ⟨by simp [Dict.Uniq, Dict.keys], ?_⟩
  intro p hp
  simp at hp
  rcases hp with rfl | rfl | rfl
  · exact ⟨h2.symm, s0.source_ne_none⟩
  · exact ⟨h3.symm, s1.source_ne_none⟩
  · exact ⟨h4.symm, s2.source_ne_none⟩

theorem Std.borrow {rs : Redirects} {t : FdTable} {H : Nat} {i o e : Want} (h : Std sys cwd rs t H i o e) :
    Std sys cwd rs.borrow t H i o e := by
  obtain ⟨⟨r0, r1, r2, rfl, h2, h3, h4, s0, s1, s2⟩, hd⟩ := h
  exact ⟨⟨r0.borrow, r1.borrow, r2.borrow, rfl, h2, h3, h4, s0.borrow, s1.borrow, s2.borrow⟩, hd⟩

theorem owned_borrow (rs : Redirects) : ownedFds (Dict.values rs.borrow) = [] := by
  unfold ownedFds
  have : (Dict.values rs.borrow).filter (fun r => !r.borrowed) = [] := by
    rw [List.filter_eq_nil_iff]
    intro r hr
    obtain ⟨p, hp, rfl⟩ := List.mem_map.1 hr
    obtain ⟨q, hq, rfl⟩ := List.mem_map.1 hp
    simp [Redirect.borrow]
  rw [this]; rfl

theorem Std.owned_open {rs : Redirects} {t : FdTable} {H : Nat} {i o e : Want} (h : Std sys cwd rs t H i o e) {n : Nat}
    (hn : n ∈ srcFds (Dict.values rs)) : t.get n ≠ none ∧ n < H := by
  obtain ⟨⟨r0, r1, r2, rfl, -, -, -, s0, s1, s2⟩, hd⟩ := h
  obtain ⟨r, hr, hs⟩ := mem_srcFds.1 hn
  simp [Dict.values] at hr
  rcases hr with rfl | rfl | rfl
  · exact s0.fd_open hs
  · exact s1.fd_open hs
  · exact s2.fd_open hs

/-! ### changes of the descriptor table -/

/-- From `w` to `w'` the descriptors `cl` were closed, the descriptors `new` were opened, and nothing else
changed. -/
structure Delta (w w' : World) (H' L : Nat) (cl new : List Nat) : Prop where
  bounded : w'.fds.Bounded
  gap : Gap w'.fds H' L
  kept : ∀ n, w.fds.get n ≠ none → n ∉ cl → w'.fds.get n = w.fds.get n
  closed : ∀ n ∈ cl, w.fds.get n ≠ none ∧ w'.fds.get n = none
  fresh : ∀ n ∈ new, w.fds.get n = none ∧ w'.fds.get n ≠ none ∧ n < L
  only : ∀ n, w'.fds.get n ≠ none → w.fds.get n = none → n ∈ new

theorem Delta.keeps {w w' : World} {H' L : Nat} {new : List Nat} (h : Delta w w' H' L [] new) : Keeps w.fds w'.fds :=
  fun n hn => h.kept n hn (by simp)

theorem Delta.lt {w w' : World} {H' L : Nat} {cl new : List Nat} (h : Delta w w' H' L cl new) {n : Nat} (hn : n ∈ new) :
    n < H' := by
  have h1 := h.fresh n hn
  by_cases hc : n < H'
  · exact hc
  · exact absurd (h.gap n (by omega) h1.2.2) h1.2.1

theorem Delta.trans {w w1 w2 : World} {H1 H2 L : Nat} {n1 c2 n2 c n : List Nat} (h1 : Delta w w1 H1 L [] n1)
    (h2 : Delta w1 w2 H2 L c2 n2) (hc : ∀ x, x ∈ c ↔ x ∈ c2 ∧ x ∉ n1)
    (hn : ∀ x, x ∈ n ↔ (x ∈ n1 ∧ x ∉ c2) ∨ x ∈ n2) : Delta w w2 H2 L c n where
  bounded := h2.bounded
  gap := h2.gap
  kept := by
    intro x hx hxc
    have hk := h1.keeps x hx
    rw [hc] at hxc
    have hx1 : x ∉ n1 := fun hm => hx (h1.fresh x hm).1
    rw [h2.kept x (by rw [hk]; exact hx) (fun hm => hxc ⟨hm, hx1⟩), hk]
  closed := by
    intro x hx
    have := (hc x).1 hx
    have h3 := h2.closed x this.1
    refine ⟨fun he => ?_, h3.2⟩
    exact this.2 (h1.only x h3.1 he)
  fresh := by
    intro x hx
    rcases (hn x).1 hx with ⟨ha, hb⟩ | hb
    · have h3 := h1.fresh x ha
      refine ⟨h3.1, ?_, h3.2.2⟩
      rw [h2.kept x h3.2.1 hb]; exact h3.2.1
    · have h3 := h2.fresh x hb
      exact ⟨h1.keeps.fresh h3.1, h3.2⟩
  only := by
    intro x hx hw
    rw [hn]
    by_cases h1x : w1.fds.get x = none
    · exact .inr (h2.only x hx h1x)
    · refine .inl ⟨h1.only x h1x hw, fun hm => hx (h2.closed x hm).2⟩

theorem Delta.congr {w w' : World} {H' L : Nat} {c n c' n' : List Nat} (h : Delta w w' H' L c n)
    (hc : ∀ x, x ∈ c' ↔ x ∈ c) (hn : ∀ x, x ∈ n' ↔ x ∈ n) : Delta w w' H' L c' n' where
  bounded := h.bounded
  gap := h.gap
  kept := fun x hx hm => h.kept x hx (by rw [← hc]; exact hm)
  closed := fun x hx => h.closed x ((hc x).1 hx)
  fresh := fun x hx => h.fresh x ((hn x).1 hx)
  only := fun x h1 h2 => (hn x).2 (h.only x h1 h2)

theorem Delta.refl {w : World} {H L : Nat} (hb : w.fds.Bounded) (hg : Gap w.fds H L) : Delta w w H L [] [] where
  bounded := hb
  gap := hg
  kept := fun _ _ _ => rfl
  closed := by simp
  fresh := (by simp)
  only := fun n h1 h2 => absurd h2 h1

theorem Delta.mono {w w' : World} {H H' L : Nat} {c n : List Nat} (h : Delta w w' H L c n) (hH : H ≤ H') :
    Delta w w' H' L c n :=
  { h with gap := h.gap.mono hH }

/-- Closing the descriptors a table owns. -/
theorem close_delta {rs : Redirects} {w : World} {H L : Nat} (hb : w.fds.Bounded) (hg : Gap w.fds H L)
    (hop : ∀ s ∈ ownedFds (Dict.values rs), w.fds.get s ≠ none) (hnd : (srcFds (Dict.values rs)).Nodup) :
    ∃ w', RunM.onFds rs.closeSourceFds w = (.ok (), w') ∧ w'.ctr = w.ctr ∧ w'.started = w.started ∧
      Delta w w' H L (ownedFds (Dict.values rs)) [] := by
  obtain ⟨t', h1, h2, h3⟩ := closeSources_ok (Dict.values rs) w.fds hop (hnd.sublist (ownedFds_sublist _))
  refine ⟨{ w with fds := t' }, by simp [RunM.onFds, Redirects.closeSourceFds, h1], rfl, rfl, ?_⟩
  exact { bounded := h3 hb
          gap := hg.of_sub (fun n => by rw [h2 n]; split <;> simp)
          kept := fun n _ hn => by show t'.get n = _; rw [h2 n]; simp [hn]
          closed := fun n hn => ⟨hop n hn, by show t'.get n = _; rw [h2 n]; simp [hn]⟩
          fresh := (by simp)
          only := fun n h h' => by
            exfalso; apply h; show t'.get n = _; rw [h2 n]; split
            · rfl
            · exact h' }

/-- Opening one descriptor for an object that a source refers to. -/
theorem dup_delta {r : Redirect} {w : World} {H L : Nat} {o : Obj} (hb : w.fds.Bounded)
    (hg : Gap w.fds H L) (hl : H < L) (hs : Slot sys cwd w.fds H r (.obj o)) :
    ∃ a w', RunM.onFds (r.open sys cwd false) w = (.ok a, w') ∧ w'.ctr = w.ctr ∧ w'.started = w.started ∧
      (∃ e, w'.fds.get a = some e ∧ e.obj = o) ∧ Delta w w' (H + 1) L [] [a] := by
  have hla := hg.lowest hb hl
  have hf := FdTable.lowestFree_free hb
  refine ⟨w.fds.lowestFree, { w with fds := w.fds.set w.fds.lowestFree { obj := o, cloexec := true } },
    ?_, rfl, rfl, ⟨{ obj := o, cloexec := true }, by simp, rfl⟩, ?_⟩
  · rcases hs with ⟨s, e, h1, h2, h3, h4⟩ | ⟨p, h1, h2, h3⟩
    · simp [RunM.onFds, Redirect.open, h1, osDup, h2, h3]
    · simp [RunM.onFds, Redirect.open, h1, osOpen, h2, h3]
  exact { bounded := FdTable.bounded_set hb _ _
          gap := hg.set hla
          kept := fun n hn _ => by
            have : n ≠ w.fds.lowestFree := by intro h; rw [h] at hn; exact hn hf
            simp [this]
          closed := by simp
          fresh := by intro n hn; simp at hn; subst hn; exact ⟨hf, by simp, by omega⟩
          only := fun n h1 h2 => by
            by_cases h : n = w.fds.lowestFree
            · simp [h]
            · simp [h] at h1; exact absurd h2 h1 }

theorem Mat1.delta {w w' : World} {H L : Nat} {r r' : Redirect} {x : Want} {own uend : List Nat}
    (h : Mat1 sys cwd w w' H L r r' x own uend) : Delta w w' (H + 2) L [] (own ++ uend) where
  bounded := h.bounded
  gap := h.gap
  kept := fun n hn _ => h.keeps n hn
  closed := by simp
  fresh := h.fresh
  only := fun n h1 h2 => by simpa using h.only n h2 h1

theorem UserEnd.mono {t t' : FdTable} {x : Want} {c : Ctr} {r : Redirect} {ul : List Nat} (h : UserEnd t x c r ul)
    (hk : ∀ u ∈ ul, t'.get u = t.get u) : UserEnd t' x c r ul := by
  unfold UserEnd at h ⊢
  split at h
  · obtain ⟨u, h1, h2, h3⟩ := h
    exact ⟨u, h1, h2, by rw [hk u (by simp [h1]), h3]⟩
  · obtain ⟨u, h1, h2, h3⟩ := h
    exact ⟨u, h1, h2, by rw [hk u (by simp [h1]), h3]⟩
  · exact h
  · exact h

theorem Mat1.owned {w w' : World} {H L : Nat} {r r' : Redirect} {x : Want} {own uend : List Nat}
    (h : Mat1 sys cwd w w' H L r r' x own uend) (n : Nat) :
    n ∈ ownedFds [r'] ↔ n ∈ ownedFds [r] ∨ n ∈ own := by
  rcases h.same with ⟨h1, h2⟩ | ⟨s, h1, h2, h3, h4, h5, h6⟩
  · rw [h1, h2]; simp
  · rw [mem_ownedFds, mem_ownedFds, h1]
    simp only [List.mem_singleton, exists_eq_left, h2, h4, and_true]
    constructor
    · intro h; injection h with h; exact .inr h.symm
    · rintro (h | h)
      · exact absurd h.1 (h5 n)
      · rw [h]

theorem ownedFds_cons (r : Redirect) (l : List Redirect) (n : Nat) :
    n ∈ ownedFds (r :: l) ↔ n ∈ ownedFds [r] ∨ n ∈ ownedFds l := by
  simp only [mem_ownedFds]
  simp

theorem Mat1.src {w w' : World} {H L : Nat} {r r' : Redirect} {x : Want} {own uend : List Nat}
    (h : Mat1 sys cwd w w' H L r r' x own uend) (n : Nat) (hn : r'.source = .fd n) :
    r.source = .fd n ∨ (w.fds.get n = none ∧ w'.fds.get n ≠ none) := by
  rcases h.same with ⟨h1, h2⟩ | ⟨s, h1, h2, h3, h4, h5, h6⟩
  · rw [h2] at hn; exact .inl hn
  · rw [h2] at hn; injection hn with hn; subst hn
    exact .inr ⟨h3, (h.fresh s (by simp [h1])).2.1⟩

theorem Mat1.path {w w' : World} {H L : Nat} {r r' : Redirect} {x : Want} {own uend : List Nat}
    (h : Mat1 sys cwd w w' H L r r' x own uend) (p : Str) (hn : r'.source = .path p) : r.source = .path p := by
  rcases h.same with ⟨h1, h2⟩ | ⟨s, h1, h2, h3, h4, h5, h6⟩
  · rw [h2] at hn; exact hn
  · rw [h2] at hn; cases hn

theorem srcFds3_nodup {a b c : Redirect} : (srcFds [a, b, c]).Nodup ↔
    (∀ n, a.source = .fd n → b.source = .fd n → False) ∧ (∀ n, a.source = .fd n → c.source = .fd n → False) ∧
    (∀ n, b.source = .fd n → c.source = .fd n → False) := by
  simp only [srcFds, List.filterMap_cons, List.filterMap_nil]
  cases a.source <;> cases b.source <;> cases c.source <;> simp <;> grind

/-- Result of materialising a three-slot table. -/
structure Mat (sys : Sys) (cwd : Str) (w w' : World) (H L : Nat) (rs m : Redirects) (i o e : Want) (own ui uo : List Nat) : Prop where
  eq : rs.makePipes w = (.ok m, w')
  std : Std sys cwd m w'.fds (H + 6) (.obj (i.pick w.ctr).1) (.obj (o.pick (i.pick w.ctr).2).1)
    (.obj (e.pick (o.pick (i.pick w.ctr).2).2).1)
  ctr : w'.ctr = (e.pick (o.pick (i.pick w.ctr).2).2).2
  started : w'.started = w.started
  delta : Delta w w' (H + 6) L [] (own ++ ui ++ uo)
  owned : ∀ n, n ∈ ownedFds (Dict.values m) ↔ n ∈ ownedFds (Dict.values rs) ∨ n ∈ own
  disj : ∀ n ∈ ui ++ uo, n ∉ own
  useri : ∃ r, Dict.get? m 0 = some r ∧ UserEnd w'.fds i w.ctr r ui
  usero : ∃ r, Dict.get? m 1 = some r ∧ UserEnd w'.fds o (i.pick w.ctr).2 r uo
  nofiles : rs.NoFiles → m.NoFiles
  low : rs.Low w.fds → m.Low w'.fds

theorem mat_spec {w : World} {H L : Nat} {rs : Redirects} {i o e : Want} (hb : w.fds.Bounded) (hg : Gap w.fds H L)
    (hl : H + 6 ≤ L) (hs : Std sys cwd rs w.fds H i o e) (he : e.Plain) : ∃ m w' own ui uo, Mat sys cwd w w' H L rs m i o e own ui uo := by
  obtain ⟨⟨r0, r1, r2, rfl, f0, f1, f2, s0, s1, s2⟩, hd⟩ := hs
  obtain ⟨q0, w1, o0, u0, m0⟩ := mat1 hb hg (by omega) s0
  obtain ⟨q1, w2, o1, u1, m1⟩ := mat1 m0.bounded m0.gap (by omega) (s1.mono m0.keeps (by omega))
  obtain ⟨q2, w3, o2, u2, m2⟩ := mat1 m1.bounded m1.gap (by omega) ((s2.mono m0.keeps (Nat.le_refl _)).mono m1.keeps (by omega))
  have hu2 : u2 = [] := by
    have := m2.user
    cases e with
    | obj _ => exact this
    | tmp => exact this.1
    | pipeOut => exact he.elim
    | pipeIn => exact he.elim
  subst hu2
  have c1 := m0.ctr
  have c2 := m1.ctr
  have c3 := m2.ctr
  rw [c1] at c2; rw [c2] at c3
  have d01 := m0.delta.trans m1.delta (c := []) (n := o0 ++ u0 ++ (o1 ++ u1)) (by simp) (by intro x; simp [or_assoc])
  have d := d01.trans m2.delta (c := []) (n := (o0 ++ o1 ++ o2) ++ u0 ++ u1) (by simp) (by
    intro x; simp only [List.mem_append, List.not_mem_nil]
    grind)
  have n0 := m0.slot.source_ne_none
  have n1 := m1.slot.source_ne_none
  have n2 := m2.slot.source_ne_none
  have hfd0 := m0.fd; have hfd1 := m1.fd; have hfd2 := m2.fd
  rw [f0] at hfd0; rw [f1] at hfd1; rw [f2] at hfd2
  have heq : Redirects.makePipes [(0, r0), (1, r1), (2, r2)] w = (.ok [(0, q0), (1, q1), (2, q2)], w3) := by
    have hreg := registerAll_distinct [] [q0, q1, q2] (by
      intro r hr; simp at hr; rcases hr with rfl | rfl | rfl <;> assumption) (by simp [Dict.keys, hfd0, hfd1, hfd2])
    simp only [Redirects.makePipes, Dict.values, List.map_cons, List.map_nil, makePipesList, m0.eq, m1.eq, m2.eq,
      Redirects.new, List.flatMap_cons, List.flatMap_nil, RArg.list, List.append_nil, List.nil_append, List.cons_append, hreg, hfd0, hfd1, hfd2]
  -- distinct sources
  have key : (srcFds [q0, q1, q2]).Nodup := by
    have hd' := srcFds3_nodup.1 hd
    have k0 := fun n => m0.src n; have k1 := fun n => m1.src n; have k2 := fun n => m2.src n
    have p0 := fun n (h : r0.source = .fd n) => (s0.fd_open h).1
    have p1 := fun n (h : r1.source = .fd n) => (s1.fd_open h).1
    have p2 := fun n (h : r2.source = .fd n) => (s2.fd_open h).1
    have K0 := m0.keeps; have K1 := m1.keeps
    rw [srcFds3_nodup]
    refine ⟨fun n h1 h2 => ?_, fun n h1 h2 => ?_, fun n h1 h2 => ?_⟩
    · have := hd'.1 n; have := k0 n h1; have := p0 n; have := k1 n h2; have := p1 n; have := K0 n
      grind
    · have := hd'.2.1 n; have := k0 n h1; have := p0 n; have := k2 n h2; have := p2 n; have := K0 n; have := K1 n
      grind
    · have := hd'.2.2 n; have := k1 n h1; have := p1 n; have := k2 n h2; have := p2 n; have := K0 n; have := K1 n
      grind
  refine ⟨[(0, q0), (1, q1), (2, q2)], w3, o0 ++ o1 ++ o2, u0, u1, ?_⟩
  exact { eq := heq
          std := by
            refine ⟨⟨q0, q1, q2, rfl, hfd0, hfd1, hfd2, ?_, ?_, ?_⟩, key⟩
            · exact (m0.slot.mono m1.keeps (Nat.le_refl _)).mono m2.keeps (by omega)
            · have := m1.slot.mono m2.keeps (H' := H + 6) (by omega)
              rw [c1] at this; exact this
            · have := m2.slot; rw [c2] at this; exact this
          ctr := c3
          started := by rw [m2.started, m1.started, m0.started]
          delta := d
          owned := by
            intro n
            have e0 := m0.owned n
            have e1 := m1.owned n
            have e2 := m2.owned n
            simp only [Dict.values, List.map_cons, List.map_nil]
            rw [ownedFds_cons q0, ownedFds_cons q1, ownedFds_cons r0, ownedFds_cons r1, e0, e1, e2]
            simp only [List.mem_append]
            grind
          disj := by
            intro n hn hm
            have F0 := m0.fresh n; have F1 := m1.fresh n; have F2 := m2.fresh n
            have D0 := m0.disj n; have D1 := m1.disj n; have D2 := m2.disj n
            have K1 := m1.keeps n; have K2 := m2.keeps n
            simp only [List.mem_append] at *
            grind
          useri := ⟨q0, rfl, m0.user.mono (fun u hu => by
            have F := (m0.fresh u (by simp [hu])).2.1
            rw [m2.keeps u (by rw [m1.keeps u F]; exact F), m1.keeps u F])⟩
          usero := ⟨q1, rfl, by
            have := m1.user.mono (t' := w3.fds) (fun u hu => m2.keeps u (m1.fresh u (by simp [hu])).2.1)
            rw [c1] at this; exact this⟩
          nofiles := by
            intro h r hr p hp
            simp [Dict.values] at hr
            rcases hr with rfl | rfl | rfl
            · exact h r0 (by simp [Dict.values]) p (m0.path p hp)
            · exact h r1 (by simp [Dict.values]) p (m1.path p hp)
            · exact h r2 (by simp [Dict.values]) p (m2.path p hp)
          low := by
            intro ⟨h1, h2⟩
            refine ⟨fun n hn => by rw [d.keeps n (h1 n hn)]; exact h1 n hn, ?_⟩
            intro r hr a ha hlt
            have hop := h1 a hlt
            have K0 := m0.keeps a hop
            have K1 := m1.keeps a (by rw [K0]; exact hop)
            simp [Dict.values] at hr
            rcases hr with rfl | rfl | rfl
            · rcases m0.src a ha with h | h
              · rw [m0.fd]; exact h2 r0 (by simp [Dict.values]) a h hlt
              · exact absurd h.1 hop
            · rcases m1.src a ha with h | h
              · rw [m1.fd]; exact h2 r1 (by simp [Dict.values]) a h hlt
              · exact absurd (K0 ▸ h.1) hop
            · rcases m2.src a ha with h | h
              · rw [m2.fd]; exact h2 r2 (by simp [Dict.values]) a h hlt
              · exact absurd (K0 ▸ K1 ▸ h.1) hop }

end Pieshell
