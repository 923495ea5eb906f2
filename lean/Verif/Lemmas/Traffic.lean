import Verif.Spec.Traffic
import Verif.Spec.FuncArg
import Verif.Lemmas.Subst
/-!
# Every execution is explained
-/
namespace Pieshell.FuncArg
open Flow (Bytes Net Proc upd close upd_same upd_ne close_ne close_same)
open Subst (slot handler)
variable {σ : Type} {prog : Prog σ} {net : Net} {init : Nat → σ} {src : Nat → Nat → Bytes}

/-- Functions have descriptors of their own (C142). -/
structure Own (net : Net) : Prop where
  out : ∀ k k' n, net.outFd k = some n → net.outFd k' = some n → k = k'
  io : ∀ k k' n, net.inFd k = some n → net.outFd k' ≠ some n

/-- Functions that are running have their output open. -/
def OutOpen (net : Net) (s : St σ) : Prop := ∀ k n st, s.proc k = .running st → net.outFd k = some n → s.shut n = false

theorem upd_running {f : Nat → Proc σ} {k k' : Nat} {p : Proc σ} {st : σ} (h : upd f k p k' = .running st) (hk : ∃ st0, f k = .running st0) :
    ∃ st0, f k' = .running st0 := by
  by_cases hkk : k' = k
  · subst hkk; exact hk
  · rw [upd_ne _ _ hkk] at h; exact ⟨st, h⟩

theorem outOpen_step (ho : Own net) {s t : St σ} (h : Step prog net s t) (hi : OutOpen net s) : OutOpen net t := by
  intro k n st hr hf
  cases h
  case exit k' st' c h1 h2 h3 =>
    simp only at hr ⊢
    by_cases hkk : k = k'
    · subst hkk; rw [upd_same] at hr; cases hr
    · rw [upd_ne _ _ hkk] at hr
      rw [close_ne]
      · exact hi k n st hr hf
      · intro h; exact hkk (ho.out k k' n hf h)
  case sigpipe k' j st' st'' x q h1 h2 h3 h4 h5 h6 =>
    simp only at hr ⊢
    by_cases hkk : k = k'
    · subst hkk; rw [upd_same] at hr; cases hr
    · rw [upd_ne _ _ hkk] at hr
      rw [close_ne]
      · exact hi k n st hr hf
      · intro h; exact hkk (ho.out k k' n hf h)
  case hup k' fd q h1 h2 h3 h4 h5 h6 h7 =>
    simp only at hr ⊢
    rw [close_ne]
    · exact hi k n st hr hf
    · intro h; cases h; exact ho.io k' k _ h2 hf
  case hupExt k' fd h1 h2 h3 h4 h5 h6 =>
    simp only at hr ⊢
    rw [close_ne]
    · exact hi k n st hr hf
    · intro h; cases h; exact ho.io k' k _ h2 hf
  case fetch => exact hi k n st hr hf
  case fetchExt => exact hi k n st hr hf
  case user => exact hi k n st hr hf
  all_goals
    obtain ⟨st0, h0⟩ := upd_running hr ⟨_, ‹_›⟩
    exact hi k n st0 h0 hf

theorem open_step {s t : St σ} (h : Step prog net s t) {ob : Obj} (hop : Open net t ob) : Open net s ob := by
  have hcl : ∀ (f : Nat → Bool) (x : Option Nat) (n : Nat), close f x n = false → f n = false := by
    intro f x n h; simp only [close, Bool.or_eq_false_iff] at h; exact h.1
  rcases hop with ⟨k, id, argv, fds, rs, n, st, f1, f2, f3⟩ | ⟨fd, en, f1, f2, f3⟩
  · left
    have : ∃ st0, s.proc k = .running st0 := by
      cases h
      case fetch => exact ⟨st, f2⟩
      case fetchExt => exact ⟨st, f2⟩
      case hup => exact ⟨st, f2⟩
      case hupExt => exact ⟨st, f2⟩
      case user => exact ⟨st, f2⟩
      all_goals exact upd_running f2 ⟨_, ‹_›⟩
    obtain ⟨st0, h0⟩ := this
    exact ⟨k, id, argv, fds, rs, n, st0, f1, h0, f3⟩
  · right
    refine ⟨fd, en, f1, f2, ?_⟩
    cases h
    case exit => exact hcl _ _ _ f3
    case sigpipe => exact hcl _ _ _ f3
    case hup => exact hcl _ _ _ f3
    case hupExt => exact hcl _ _ _ f3
    all_goals exact f3

/-- Who can write to a pipe has it open. -/
theorem write_open {s : St σ} (hi : OutOpen net s) {k j q : Nat} {st : σ} (hr : s.proc k = .running st) (hq : outSlot net k j = some q) : Open net s (.pipeW q) := by
  unfold outSlot at hq
  cases hit : net.items[k]? with
  | none => rw [hit] at hq; cases hq
  | some it =>
    rw [hit, Option.bind_some] at hq
    cases hob : outObj net.w it j with
    | none => rw [hob] at hq; cases hq
    | some ob =>
      rw [hob] at hq
      have hpq : ob = .pipeW q := by
        cases ob <;> simp only at hq
        all_goals first | cases hq; done | skip
        split at hq <;> cases hq
        rfl
      subst hpq
      cases it with
      | proc id argv fds rs =>
        left
        cases j with
        | zero => exact ⟨k, id, argv, fds, rs, 1, st, hit, hr, hob⟩
        | succ j =>
          simp only [outObj] at hob
          cases hd : (devFds argv)[j]? with
          | none => rw [hd] at hob; cases hob
          | some n => rw [hd] at hob; exact ⟨k, id, argv, fds, rs, n, st, hit, hr, hob⟩
      | func id inFd outFd rs =>
        right
        cases j with
        | succ j => cases hob
        | zero =>
          simp only [outObj, Item.stdout] at hob
          cases hg : net.w.fds.get outFd with
          | none => rw [hg] at hob; cases hob
          | some en =>
            rw [hg] at hob
            exact ⟨outFd, en, hg, Option.some.inj hob, hi k outFd st hr (by simp only [Net.outFd, hit])⟩

/-- An empty pipe that nobody can write to stays so. -/
theorem final_step {s t : St σ} (hi : OutOpen net s) (h : Step prog net s t) {q : Nat} (hf : s.buf q = [] ∧ ¬ Open net s (.pipeW q)) :
    t.buf q = [] ∧ ¬ Open net t (.pipeW q) := by
  refine ⟨?_, fun h' => hf.2 (open_step h h')⟩
  have shr : ∀ (q' : Nat) (rest : Bytes), (q = q' → rest = []) → upd s.buf q' rest q = [] := by
    intro q' rest hr
    by_cases hq : q = q'
    · subst hq; rw [upd_same]; exact hr rfl
    · rw [upd_ne _ _ hq]; exact hf.1
  cases h
  case read h6 => refine shr _ _ ?_; rintro rfl; rw [hf.1] at h6; cases h6
  case fetch h6 h7 h8 => refine shr _ _ ?_; rintro rfl; rw [hf.1] at h6; exact (List.append_eq_nil_iff.1 h6.symm).2
  case user h6 => refine shr _ _ ?_; rintro rfl; rw [hf.1] at h6; cases h6
  case write k j st st' b q' h1 h2 h3 h4 h5 h6 =>
    by_cases hq : q = q'
    · subst hq; exact absurd (write_open hi h2 h4) hf.2
    · simp only; rw [upd_ne _ _ hq]; exact hf.1
  all_goals exact hf.1

theorem src_step {s t : St σ} (h : Step prog net s t) {k j : Nat} (hf : s.src k j = []) : t.src k j = [] := by
  have shr : ∀ (k' j' : Nat) (rest : Bytes), (k = k' → j = j' → rest = []) → upd s.src k' (upd (s.src k') j' rest) k j = [] := by
    intro k' j' rest hr
    by_cases hk : k = k'
    · subst hk; rw [upd_same]
      by_cases hj : j = j'
      · subst hj; rw [upd_same]; exact hr rfl rfl
      · rw [upd_ne _ _ hj]; exact hf
    · rw [upd_ne _ _ hk]; exact hf
  cases h
  case readExt h6 => refine shr _ _ _ ?_; rintro rfl rfl; rw [hf] at h6; cases h6
  case fetchExt h6 h7 h8 => refine shr _ _ _ ?_; rintro rfl rfl; rw [hf] at h6; exact (List.append_eq_nil_iff.1 h6.symm).2
  all_goals exact hf

theorem heof_step {s t : St σ} (h : Step prog net s t) {k : Nat} (hf : s.heof k = true) : t.heof k = true ∧ (s.ahead k = [] → t.ahead k = []) := by
  cases h
  case hup k' fd q h1 h2 h3 h4 h5 h6 h7 =>
    refine ⟨?_, id⟩
    simp only [upd]; split
    · rfl
    · exact hf
  case hupExt k' fd h1 h2 h3 h4 h5 h6 =>
    refine ⟨?_, id⟩
    simp only [upd]; split
    · rfl
    · exact hf
  case fetch k' fd q c rest h1 h2 h3 h4 h5 h6 h7 h8 =>
    refine ⟨hf, fun ha => ?_⟩
    simp only
    rw [upd_ne]
    · exact ha
    · rintro rfl; rw [h3] at hf; cases hf
  case fetchExt k' fd c rest h1 h2 h3 h4 h5 h6 h7 h8 =>
    refine ⟨hf, fun ha => ?_⟩
    simp only
    rw [upd_ne]
    · exact ha
    · rintro rfl; rw [h3] at hf; cases hf
  case take k' j fd st f b rest h1 h2 h3 h4 h5 =>
    refine ⟨hf, fun ha => ?_⟩
    simp only
    rw [upd_ne]
    · exact ha
    · rintro rfl; rw [h5] at ha; cases ha
  all_goals exact ⟨hf, id⟩

/-! ### records -/

theorem bytesOf_append (a b : List (Tag × UInt8)) : bytesOf (a ++ b) = bytesOf a ++ bytesOf b := List.map_append
theorem part_append (t : Tag) (a b : List (Tag × UInt8)) : part t (a ++ b) = part t a ++ part t b := by
  simp only [part, List.filter_append, bytesOf_append]
/-- `c`, tagged. -/
def tagged (t : Tag) (c : Bytes) : List (Tag × UInt8) := c.map fun b => (t, b)
theorem bytesOf_tagged (t : Tag) (c : Bytes) : bytesOf (tagged t c) = c := by
  simp [bytesOf, tagged, List.map_map, Function.comp_def]
theorem part_tagged (t : Tag) (c : Bytes) : part t (tagged t c) = c := by
  induction c with
  | nil => rfl
  | cons b c ih => simp [part, tagged, bytesOf, List.filter_cons] at ih ⊢; exact ih
theorem part_tagged_ne {t t' : Tag} (h : t' ≠ t) (c : Bytes) : part t' (tagged t c) = [] := by
  induction c with
  | nil => rfl
  | cons b c ih => simp [part, tagged, bytesOf, List.filter_cons, Ne.symm h] at ih ⊢
theorem mem_tagged {t : Tag} {c : Bytes} {x : Tag × UInt8} (h : x ∈ tagged t c) : x.1 = t := by
  obtain ⟨b, -, rfl⟩ := List.mem_map.1 h; rfl

/-- An invariant: the state is explained, and what the handlers have found at the end is the end. -/
structure Known (prog : Prog σ) (net : Net) (init : Nat → σ) (src : Nat → Nat → Bytes) (s : St σ) (wr rd : Nat → List (Tag × UInt8))
    (reads : Nat → Nat → Bytes) (ends : Nat → Nat → Bool) : Prop where
  flow : ∀ q, bytesOf (rd q) ++ s.buf q = bytesOf (wr q)
  wrote : ∀ q k j, outSlot net k j = some q → part (some (k, j)) (wr q) = s.out k j
  writers : ∀ q x, x ∈ wr q → ∃ k j, x.1 = some (k, j) ∧ outSlot net k j = some q
  got : ∀ q k j, slot net k j = some q → part (some (k, j)) (rd q) = reads k j ++ inHand net s k j
  shell : ∀ q, net.user = some q → part none (rd q) = s.got
  readers : ∀ q x, x ∈ rd q → (∃ k j, x.1 = some (k, j) ∧ slot net k j = some q) ∨ (x.1 = none ∧ net.user = some q)
  elsewhere : ∀ k j, slot net k j = none → reads k j ++ inHand net s k j ++ s.src k j = src k j
  ended : ∀ k j, ends k j = true → (∀ fd, handler net k j = some fd → s.heof k = true ∧ s.ahead k = []) ∧
    (∀ q, slot net k j = some q → s.buf q = [] ∧ ¬ Open net s (.pipeW q)) ∧ (slot net k j = none → s.src k j = [])
  hended : ∀ k fd, net.inFd k = some fd → s.heof k = true → (∀ q, slot net k 0 = some q → s.buf q = [] ∧ ¬ Open net s (.pipeW q)) ∧
    (slot net k 0 = none → s.src k 0 = [])
  alone : ∀ k, Told prog (init k) (s.cut k) (reads k) (ends k) (s.out k) (s.proc k)
  outOpen : OutOpen net s

theorem Known.explained {s : St σ} {wr rd : Nat → List (Tag × UInt8)} {reads : Nat → Nat → Bytes} {ends : Nat → Nat → Bool}
    (h : Known prog net init src s wr rd reads ends) : Explained prog net init src s wr rd reads ends where
  flow := h.flow
  wrote := h.wrote
  writers := h.writers
  got := h.got
  shell := h.shell
  readers := h.readers
  elsewhere := h.elsewhere
  ended := by
    intro k j he
    obtain ⟨a, b, c⟩ := h.ended k j he
    refine ⟨?_, b, c⟩
    unfold inHand
    split
    · next hs => obtain ⟨fd, hfd⟩ := Option.isSome_iff_exists.1 hs; exact (a fd hfd).2
    · rfl
  alone := h.alone

theorem known_start : Known prog net init src (St.start init src) (fun _ => []) (fun _ => []) (fun _ _ => []) (fun _ _ => false) where
  flow := fun _ => rfl
  wrote := fun _ _ _ _ => rfl
  writers := by intro q x h; cases h
  got := by intro q k j _; simp [part, bytesOf, inHand, St.start]
  shell := fun _ _ => rfl
  readers := by intro q x h; cases h
  elsewhere := by intro k j _; simp [inHand, St.start]
  ended := by intro k j h; cases h
  hended := by intro k fd _ h; cases h
  alone := fun k => .start
  outOpen := fun _ _ _ _ _ => rfl

/-- What is at the end stays there. -/
theorem ended_step {s t : St σ} {wr rd : Nat → List (Tag × UInt8)} {reads : Nat → Nat → Bytes} {ends : Nat → Nat → Bool}
    (hi : Known prog net init src s wr rd reads ends) (h : Step prog net s t) (k j : Nat) (he : ends k j = true) :
    (∀ fd, handler net k j = some fd → t.heof k = true ∧ t.ahead k = []) ∧
    (∀ q, slot net k j = some q → t.buf q = [] ∧ ¬ Open net t (.pipeW q)) ∧ (slot net k j = none → t.src k j = []) := by
  obtain ⟨a, b, c⟩ := hi.ended k j he
  refine ⟨fun fd hfd => ?_, fun q hq => final_step hi.outOpen h (b q hq), fun hq => src_step h (c hq)⟩
  obtain ⟨a1, a2⟩ := a fd hfd
  obtain ⟨b1, b2⟩ := heof_step h a1
  exact ⟨b1, b2 a2⟩

theorem hended_step {s t : St σ} {wr rd : Nat → List (Tag × UInt8)} {reads : Nat → Nat → Bytes} {ends : Nat → Nat → Bool}
    (hi : Known prog net init src s wr rd reads ends) (h : Step prog net s t) (k fd : Nat) (hk : net.inFd k = some fd) (he : s.heof k = true) :
    (∀ q, slot net k 0 = some q → t.buf q = [] ∧ ¬ Open net t (.pipeW q)) ∧ (slot net k 0 = none → t.src k 0 = []) := by
  obtain ⟨b, c⟩ := hi.hended k fd hk he
  exact ⟨fun q hq => final_step hi.outOpen h (b q hq), fun hq => src_step h (c hq)⟩

theorem inHand_none {s : St σ} {k j : Nat} (h : handler net k j = none) : inHand net s k j = [] := by simp [inHand, h]
theorem inHand_some {s : St σ} {k j fd : Nat} (h : handler net k j = some fd) : inHand net s k j = s.ahead k := by simp [inHand, h]
theorem handler_zero {k j fd : Nat} (h : handler net k j = some fd) : j = 0 := by cases j with | zero => rfl | succ j => cases h

theorem known_step (ho : Own net) {s t : St σ} {wr rd : Nat → List (Tag × UInt8)} {reads : Nat → Nat → Bytes} {ends : Nat → Nat → Bool}
    (hi : Known prog net init src s wr rd reads ends) (h : Step prog net s t) :
    ∃ wr' rd' reads' ends', Known prog net init src t wr' rd' reads' ends' := by
  have hoo := outOpen_step ho h hi.outOpen
  have hen := ended_step hi h
  have hhe := hended_step hi h
  -- an item that reads a byte has not been told of the end
  cases h with
  | @read k j st f q b rest h1 h2 h3 h4 h5 h6 =>
    have hne : ends k j = false := by
      cases he : ends k j with
      | false => rfl
      | true => have := ((hi.ended k j he).2.1 q h5).1; rw [this] at h6; cases h6
    refine ⟨wr, upd rd q (rd q ++ tagged (some (k, j)) [b]), upd reads k (upd (reads k) j (reads k j ++ [b])), ends, ?_⟩
    exact {
      flow := by
        intro q'
        by_cases hq : q' = q
        · subst hq; simp only [upd_same, bytesOf_append, bytesOf_tagged]
          rw [← hi.flow q', h6]; simp
        · simp only [upd_ne _ _ hq]; exact hi.flow q'
      wrote := hi.wrote
      writers := hi.writers
      got := by
        intro q' k' j' hs
        by_cases hq : q' = q
        · subst hq
          rw [upd_same, part_append, hi.got q' k' j' hs]
          by_cases hkj : k' = k ∧ j' = j
          · obtain ⟨rfl, rfl⟩ := hkj
            simp only [upd_same, part_tagged]
            rw [inHand_none h4, inHand_none h4]; simp
          · rw [part_tagged_ne (by intro h; apply hkj; simpa using h), List.append_nil]
            congr 1
            by_cases hk : k' = k
            · subst hk; rw [upd_same, upd_ne]; intro h; exact hkj ⟨rfl, h⟩
            · rw [upd_ne _ _ hk]
        · rw [upd_ne _ _ hq, hi.got q' k' j' hs]
          congr 1
          by_cases hk : k' = k
          · subst hk; rw [upd_same, upd_ne]; rintro rfl; rw [hs] at h5; exact hq (Option.some.inj h5)
          · rw [upd_ne _ _ hk]
      shell := by
        intro q' hu
        by_cases hq : q' = q
        · subst hq; rw [upd_same, part_append, part_tagged_ne (by simp), List.append_nil]; exact hi.shell q' hu
        · rw [upd_ne _ _ hq]; exact hi.shell q' hu
      readers := by
        intro q' x hx
        by_cases hq : q' = q
        · subst hq
          rw [upd_same] at hx
          rcases List.mem_append.1 hx with hx | hx
          · exact hi.readers q' x hx
          · exact .inl ⟨k, j, mem_tagged hx, h5⟩
        · rw [upd_ne _ _ hq] at hx; exact hi.readers q' x hx
      elsewhere := by
        intro k' j' hs
        have : upd reads k (upd (reads k) j (reads k j ++ [b])) k' j' = reads k' j' := by
          by_cases hk : k' = k
          · subst hk; rw [upd_same, upd_ne]; rintro rfl; rw [hs] at h5; cases h5
          · rw [upd_ne _ _ hk]
        rw [this]; exact hi.elsewhere k' j' hs
      ended := hen
      hended := hhe
      alone := by
        intro k'
        by_cases hk : k' = k
        · subst hk
          have := hi.alone k'
          rw [h2] at this
          simp only [upd_same]
          exact .read b this h3 hne
        · simp only [upd_ne _ _ hk]; exact hi.alone k'
      outOpen := hoo }
  | @eof k j st f q h1 h2 h3 h4 h5 h6 h7 =>
    refine ⟨wr, rd, reads, upd ends k (upd (ends k) j true), ?_⟩
    exact { hi with
      flow := hi.flow
      ended := by
        intro k' j' he
        by_cases hkj : k' = k ∧ j' = j
        · obtain ⟨rfl, rfl⟩ := hkj
          refine ⟨fun fd hfd => (by rw [h4] at hfd; cases hfd), fun q' hq' => ?_, fun hq' => (by rw [h5] at hq'; cases hq')⟩
          rw [h5] at hq'; cases hq'
          exact final_step hi.outOpen (.eof h1 h2 h3 h4 h5 h6 h7) ⟨h6, h7⟩
        · apply hen
          by_cases hk : k' = k
          · subst hk; rw [upd_same, upd_ne] at he
            · exact he
            · intro h; exact hkj ⟨rfl, h⟩
          · rwa [upd_ne _ _ hk] at he
      hended := hhe
      alone := by
        intro k'
        by_cases hk : k' = k
        · subst hk
          have := hi.alone k'
          rw [h2] at this
          simp only [upd_same]
          exact .eof this h3
        · simp only [upd_ne _ _ hk]; exact hi.alone k'
      outOpen := hoo }
  | @readExt k j st f b rest h1 h2 h3 h4 h5 h6 =>
    have hne : ends k j = false := by
      cases he : ends k j with
      | false => rfl
      | true => have := (hi.ended k j he).2.2 h5; rw [this] at h6; cases h6
    refine ⟨wr, rd, upd reads k (upd (reads k) j (reads k j ++ [b])), ends, ?_⟩
    exact { hi with
      flow := hi.flow
      got := by
        intro q' k' j' hs
        rw [hi.got q' k' j' hs]
        congr 1
        by_cases hk : k' = k
        · subst hk; rw [upd_same, upd_ne]; rintro rfl; rw [hs] at h5; cases h5
        · rw [upd_ne _ _ hk]
      elsewhere := by
        intro k' j' hs
        by_cases hkj : k' = k ∧ j' = j
        · obtain ⟨rfl, rfl⟩ := hkj
          have := hi.elsewhere k' j' hs
          rw [inHand_none h4, h6] at this
          rw [inHand_none h4]
          simp only [upd_same]
          rw [← this]; simp
        · rw [← hi.elsewhere k' j' hs]
          by_cases hk : k' = k
          · subst hk
            have hj : j' ≠ j := fun h => hkj ⟨rfl, h⟩
            simp only [upd_same, upd_ne _ _ hj]; rfl
          · simp only [upd_ne _ _ hk]; rfl
      ended := hen
      hended := hhe
      alone := by
        intro k'
        by_cases hk : k' = k
        · subst hk
          have := hi.alone k'
          rw [h2] at this
          simp only [upd_same]
          exact .read b this h3 hne
        · simp only [upd_ne _ _ hk]; exact hi.alone k'
      outOpen := hoo }
  | @eofExt k j st f h1 h2 h3 h4 h5 h6 =>
    refine ⟨wr, rd, reads, upd ends k (upd (ends k) j true), ?_⟩
    exact { hi with
      flow := hi.flow
      ended := by
        intro k' j' he
        by_cases hkj : k' = k ∧ j' = j
        · obtain ⟨rfl, rfl⟩ := hkj
          exact ⟨fun fd hfd => (by rw [h4] at hfd; cases hfd), fun q' hq' => (by rw [h5] at hq'; cases hq'), fun _ => h6⟩
        · apply hen
          by_cases hk : k' = k
          · subst hk; rw [upd_same, upd_ne] at he
            · exact he
            · intro h; exact hkj ⟨rfl, h⟩
          · rwa [upd_ne _ _ hk] at he
      hended := hhe
      alone := by
        intro k'
        by_cases hk : k' = k
        · subst hk
          have := hi.alone k'
          rw [h2] at this
          simp only [upd_same]
          exact .eof this h3
        · simp only [upd_ne _ _ hk]; exact hi.alone k'
      outOpen := hoo }
  | @fetch k fd q c rest h1 h2 h3 h4 h5 h6 h7 h8 =>
    have hh : handler net k 0 = some fd := h2
    have hother : ∀ k' j', ¬ (k' = k ∧ j' = 0) → inHand net { s with ahead := upd s.ahead k (s.ahead k ++ c), buf := upd s.buf q rest } k' j' = inHand net s k' j' := by
      intro k' j' hn
      unfold inHand
      split
      · next hs =>
        obtain ⟨fd', hfd⟩ := Option.isSome_iff_exists.1 hs
        have := handler_zero hfd
        simp only; rw [upd_ne]; rintro rfl; exact hn ⟨rfl, this⟩
      · rfl
    refine ⟨wr, upd rd q (rd q ++ tagged (some (k, 0)) c), reads, ends, ?_⟩
    exact { hi with
      flow := by
        intro q'
        by_cases hq : q' = q
        · subst hq; simp only [upd_same, bytesOf_append, bytesOf_tagged]
          rw [← hi.flow q', h6]; simp
        · simp only [upd_ne _ _ hq]; exact hi.flow q'
      got := by
        intro q' k' j' hs
        by_cases hkj : k' = k ∧ j' = 0
        · obtain ⟨rfl, rfl⟩ := hkj
          rw [h5] at hs; cases hs
          rw [upd_same, part_append, hi.got q k' 0 h5, part_tagged, inHand_some hh, inHand_some hh]
          simp only [upd_same, List.append_assoc]
        · rw [hother k' j' hkj]
          by_cases hq : q' = q
          · subst hq
            rw [upd_same, part_append, hi.got q' k' j' hs, part_tagged_ne (by intro h; apply hkj; simpa using h), List.append_nil]
          · rw [upd_ne _ _ hq]; exact hi.got q' k' j' hs
      shell := by
        intro q' hu
        by_cases hq : q' = q
        · subst hq; rw [upd_same, part_append, part_tagged_ne (by simp), List.append_nil]; exact hi.shell q' hu
        · rw [upd_ne _ _ hq]; exact hi.shell q' hu
      readers := by
        intro q' x hx
        by_cases hq : q' = q
        · subst hq
          rw [upd_same] at hx
          rcases List.mem_append.1 hx with hx | hx
          · exact hi.readers q' x hx
          · exact .inl ⟨k, 0, mem_tagged hx, h5⟩
        · rw [upd_ne _ _ hq] at hx; exact hi.readers q' x hx
      elsewhere := by
        intro k' j' hs
        rw [hother k' j' (by rintro ⟨rfl, rfl⟩; rw [h5] at hs; cases hs)]
        exact hi.elsewhere k' j' hs
      ended := hen
      hended := hhe
      alone := hi.alone
      outOpen := hoo }
  | @hup k fd q h1 h2 h3 h4 h5 h6 h7 =>
    refine ⟨wr, rd, reads, ends, ?_⟩
    exact { hi with
      flow := hi.flow
      ended := hen
      hended := by
        intro k' fd' hk' he
        by_cases hk : k' = k
        · subst hk
          refine ⟨fun q' hq' => ?_, fun hq' => (by rw [h5] at hq'; cases hq')⟩
          rw [h5] at hq'; cases hq'
          exact final_step (prog := prog) hi.outOpen (.hup (fd := fd) h1 h2 h3 h4 h5 h6 h7) ⟨h6, h7⟩
        · simp only at he; rw [upd_ne _ _ hk] at he
          exact hhe k' fd' hk' he
      alone := hi.alone
      outOpen := hoo }
  | @fetchExt k fd c rest h1 h2 h3 h4 h5 h6 h7 h8 =>
    have hh : handler net k 0 = some fd := h2
    have hother : ∀ k' j', ¬ (k' = k ∧ j' = 0) → inHand net { s with ahead := upd s.ahead k (s.ahead k ++ c), src := upd s.src k (upd (s.src k) 0 rest) } k' j' = inHand net s k' j' := by
      intro k' j' hn
      unfold inHand
      split
      · next hs =>
        obtain ⟨fd', hfd⟩ := Option.isSome_iff_exists.1 hs
        have := handler_zero hfd
        simp only; rw [upd_ne]; rintro rfl; exact hn ⟨rfl, this⟩
      · rfl
    refine ⟨wr, rd, reads, ends, ?_⟩
    exact { hi with
      flow := hi.flow
      got := by
        intro q' k' j' hs
        rw [hother k' j' (by rintro ⟨rfl, rfl⟩; rw [h5] at hs; cases hs)]
        exact hi.got q' k' j' hs
      elsewhere := by
        intro k' j' hs
        by_cases hkj : k' = k ∧ j' = 0
        · obtain ⟨rfl, rfl⟩ := hkj
          have := hi.elsewhere k' 0 hs
          rw [inHand_some hh, h6] at this
          rw [inHand_some hh]
          simp only [upd_same]
          rw [← this]; simp
        · rw [hother k' j' hkj, ← hi.elsewhere k' j' hs]
          congr 1
          by_cases hk : k' = k
          · subst hk; simp only [upd_same]; rw [upd_ne]; intro h; exact hkj ⟨rfl, h⟩
          · simp only; rw [upd_ne _ _ hk]
      ended := hen
      hended := hhe
      alone := hi.alone
      outOpen := hoo }
  | @hupExt k fd h1 h2 h3 h4 h5 h6 =>
    refine ⟨wr, rd, reads, ends, ?_⟩
    exact { hi with
      flow := hi.flow
      ended := hen
      hended := by
        intro k' fd' hk' he
        by_cases hk : k' = k
        · subst hk
          exact ⟨fun q' hq' => (by rw [h5] at hq'; cases hq'), fun _ => h6⟩
        · simp only at he; rw [upd_ne _ _ hk] at he
          exact hhe k' fd' hk' he
      alone := hi.alone
      outOpen := hoo }
  | @take k j fd st f b rest h1 h2 h3 h4 h5 =>
    obtain rfl := handler_zero h4
    have hne : ends k 0 = false := by
      cases he : ends k 0 with
      | false => rfl
      | true => have := ((hi.ended k 0 he).1 fd h4).2; rw [this] at h5; cases h5
    have hbal : ∀ k' j', upd reads k (upd (reads k) 0 (reads k 0 ++ [b])) k' j' ++
        inHand net { s with proc := upd s.proc k (.running (f (some b))), ahead := upd s.ahead k rest } k' j' = reads k' j' ++ inHand net s k' j' := by
      intro k' j'
      by_cases hkj : k' = k ∧ j' = 0
      · obtain ⟨rfl, rfl⟩ := hkj
        rw [inHand_some h4, inHand_some h4]
        simp only [upd_same, h5]; simp
      · congr 1
        · by_cases hk : k' = k
          · subst hk; rw [upd_same, upd_ne]; intro h; exact hkj ⟨rfl, h⟩
          · rw [upd_ne _ _ hk]
        · unfold inHand
          split
          · next hs =>
            obtain ⟨fd', hfd⟩ := Option.isSome_iff_exists.1 hs
            have := handler_zero hfd
            simp only; rw [upd_ne]; rintro rfl; exact hkj ⟨rfl, this⟩
          · rfl
    refine ⟨wr, rd, upd reads k (upd (reads k) 0 (reads k 0 ++ [b])), ends, ?_⟩
    exact { hi with
      flow := hi.flow
      got := by intro q' k' j' hs; rw [hbal]; exact hi.got q' k' j' hs
      elsewhere := by intro k' j' hs; rw [hbal]; exact hi.elsewhere k' j' hs
      ended := hen
      hended := hhe
      alone := by
        intro k'
        by_cases hk : k' = k
        · subst hk
          have := hi.alone k'
          rw [h2] at this
          simp only [upd_same]
          exact .read b this h3 hne
        · simp only [upd_ne _ _ hk]; exact hi.alone k'
      outOpen := hoo }
  | @takeEof k j fd st f h1 h2 h3 h4 h5 h6 =>
    obtain rfl := handler_zero h4
    refine ⟨wr, rd, reads, upd ends k (upd (ends k) 0 true), ?_⟩
    exact { hi with
      flow := hi.flow
      ended := by
        intro k' j' he
        by_cases hkj : k' = k ∧ j' = 0
        · obtain ⟨rfl, rfl⟩ := hkj
          obtain ⟨a, b⟩ := hhe k' fd h4 h6
          exact ⟨fun _ _ => ⟨h6, h5⟩, a, b⟩
        · apply hen
          by_cases hk : k' = k
          · subst hk; rw [upd_same, upd_ne] at he
            · exact he
            · intro h; exact hkj ⟨rfl, h⟩
          · rwa [upd_ne _ _ hk] at he
      hended := hhe
      alone := by
        intro k'
        by_cases hk : k' = k
        · subst hk
          have := hi.alone k'
          rw [h2] at this
          simp only [upd_same]
          exact .eof this h3
        · simp only [upd_ne _ _ hk]; exact hi.alone k'
      outOpen := hoo }
  | @write k j st st' b q h1 h2 h3 h4 h5 h6 =>
    refine ⟨upd wr q (wr q ++ tagged (some (k, j)) [b]), rd, reads, ends, ?_⟩
    exact { hi with
      flow := by
        intro q'
        by_cases hq : q' = q
        · subst hq; simp only [upd_same, bytesOf_append, bytesOf_tagged]
          rw [← hi.flow q']; simp
        · simp only [upd_ne _ _ hq]; exact hi.flow q'
      wrote := by
        intro q' k' j' hs
        by_cases hkj : k' = k ∧ j' = j
        · obtain ⟨rfl, rfl⟩ := hkj
          rw [h4] at hs; cases hs
          simp only [upd_same]
          rw [part_append, hi.wrote q k' j' h4, part_tagged]
        · have e : upd s.out k (upd (s.out k) j (s.out k j ++ [b])) k' j' = s.out k' j' := by
            by_cases hk : k' = k
            · subst hk; rw [upd_same, upd_ne]; intro h; exact hkj ⟨rfl, h⟩
            · rw [upd_ne _ _ hk]
          simp only [e]
          by_cases hq : q' = q
          · subst hq; rw [upd_same, part_append, part_tagged_ne (by intro h; apply hkj; simpa using h), List.append_nil]; exact hi.wrote q' k' j' hs
          · rw [upd_ne _ _ hq]; exact hi.wrote q' k' j' hs
      writers := by
        intro q' x hx
        by_cases hq : q' = q
        · subst hq
          rw [upd_same] at hx
          rcases List.mem_append.1 hx with hx | hx
          · exact hi.writers q' x hx
          · exact ⟨k, j, mem_tagged hx, h4⟩
        · rw [upd_ne _ _ hq] at hx; exact hi.writers q' x hx
      ended := hen
      hended := hhe
      alone := by
        intro k'
        by_cases hk : k' = k
        · subst hk
          have := hi.alone k'
          rw [h2] at this
          simp only [upd_same]
          exact .write this h3
        · simp only [upd_ne _ _ hk]; exact hi.alone k'
      outOpen := hoo }
  | @sigpipe k j st st' b q h1 h2 h3 h4 h5 h6 =>
    refine ⟨wr, rd, reads, ends, ?_⟩
    exact { hi with
      flow := hi.flow
      ended := hen
      hended := hhe
      alone := by
        intro k'
        by_cases hk : k' = k
        · subst hk
          have := hi.alone k'
          rw [h2] at this
          simp only [upd_same]
          exact ⟨rfl, _, st, j, b, st', this, h3⟩
        · simp only [upd_ne _ _ hk]; exact hi.alone k'
      outOpen := hoo }
  | @epipe k j st st' st'' b q h1 h2 h3 h4 h5 h6 h7 =>
    refine ⟨wr, rd, reads, ends, ?_⟩
    exact { hi with
      flow := hi.flow
      ended := hen
      hended := hhe
      alone := by
        intro k'
        by_cases hk : k' = k
        · subst hk
          have := hi.alone k'
          rw [h2] at this
          simp only [upd_same]
          exact .fail this h3 h7
        · simp only [upd_ne _ _ hk]; exact hi.alone k'
      outOpen := hoo }
  | @writeExt k j st st' b h1 h2 h3 h4 =>
    refine ⟨wr, rd, reads, ends, ?_⟩
    exact { hi with
      flow := hi.flow
      wrote := by
        intro q' k' j' hs
        rw [hi.wrote q' k' j' hs]
        simp only
        by_cases hk : k' = k
        · subst hk; rw [upd_same, upd_ne]; rintro rfl; rw [hs] at h4; cases h4
        · rw [upd_ne _ _ hk]
      ended := hen
      hended := hhe
      alone := by
        intro k'
        by_cases hk : k' = k
        · subst hk
          have := hi.alone k'
          rw [h2] at this
          simp only [upd_same]
          exact .write this h3
        · simp only [upd_ne _ _ hk]; exact hi.alone k'
      outOpen := hoo }
  | @exit k st c h1 h2 h3 =>
    refine ⟨wr, rd, reads, ends, ?_⟩
    exact { hi with
      flow := hi.flow
      ended := hen
      hended := hhe
      alone := by
        intro k'
        by_cases hk : k' = k
        · subst hk
          have := hi.alone k'
          rw [h2] at this
          simp only [upd_same]
          exact ⟨st, this, h3⟩
        · simp only [upd_ne _ _ hk]; exact hi.alone k'
      outOpen := hoo }
  | @user q b rest h1 h2 =>
    refine ⟨wr, upd rd q (rd q ++ tagged none [b]), reads, ends, ?_⟩
    exact { hi with
      flow := by
        intro q'
        by_cases hq : q' = q
        · subst hq; simp only [upd_same, bytesOf_append, bytesOf_tagged]
          rw [← hi.flow q', h2]; simp
        · simp only [upd_ne _ _ hq]; exact hi.flow q'
      got := by
        intro q' k' j' hs
        by_cases hq : q' = q
        · subst hq; rw [upd_same, part_append, part_tagged_ne (by simp), List.append_nil]; exact hi.got q' k' j' hs
        · rw [upd_ne _ _ hq]; exact hi.got q' k' j' hs
      shell := by
        intro q' hu
        rw [h1] at hu; cases hu
        rw [upd_same, part_append, part_tagged]; simp only [hi.shell q h1]
      readers := by
        intro q' x hx
        by_cases hq : q' = q
        · subst hq
          rw [upd_same] at hx
          rcases List.mem_append.1 hx with hx | hx
          · exact hi.readers q' x hx
          · exact .inr ⟨mem_tagged hx, h1⟩
        · rw [upd_ne _ _ hq] at hx; exact hi.readers q' x hx
      ended := hen
      hended := hhe
      alone := hi.alone
      outOpen := hoo }

theorem known_steps (ho : Own net) {L : Nat} {s : St σ} (h : Steps prog net L (St.start init src) s) :
    ∃ wr rd reads ends, Known prog net init src s wr rd reads ends := by
  generalize hs0 : St.start init src = s0 at h
  induction h with
  | nil => subst hs0; exact ⟨_, _, _, _, known_start⟩
  | snoc _ h ih => obtain ⟨_, _, _, _, hi⟩ := ih hs0; exact known_step ho hi h

/-- What an item has done so far, it also does as the beginning of a longer run. -/
theorem Alone.runs {s : σ} {x : Bool} {r : Nat → Bytes} {e : Nat → Bool} {o : Nat → Bytes} {st : σ} (h : Alone prog s x r e o st) (hx : x = false)
    {more o' : Nat → Bytes} {c : Nat} (hr : Runs prog st more o' c) (he : ∀ j, e j = true → more j = []) : Runs prog s (fun j => r j ++ more j) (fun j => o j ++ o' j) c := by
  induction h generalizing more o' with
  | start => simpa using hr
  | @read x r e o st j f b h h1 h2 ih =>
    have h3 := ih hx (more := upd more j (b :: more j)) (o' := o') (.read (b := b) (rest := more j) h1 (upd_same ..) (by
        have : upd (upd more j (b :: more j)) j (more j) = more := by
          funext j'; by_cases hj : j' = j
          · subst hj; rw [upd_same]
          · rw [upd_ne _ _ hj, upd_ne _ _ hj]
        rw [this]; exact hr)) (by
      intro j' hj'
      have hj : j' ≠ j := by rintro rfl; rw [h2] at hj'; cases hj'
      rw [upd_ne _ _ hj]; exact he j' hj')
    have e1 : (fun j' => upd r j (r j ++ [b]) j' ++ more j') = fun j' => r j' ++ upd more j (b :: more j) j' := by
      funext j'; by_cases hj : j' = j
      · subst hj; rw [upd_same, upd_same]; simp
      · rw [upd_ne _ _ hj, upd_ne _ _ hj]
    rw [e1]; exact h3
  | @eof x r e o st j f h h1 ih =>
    have hm : more j = [] := he j (upd_same ..)
    refine ih hx (.eof h1 hm hr) ?_
    intro j' hj'
    apply he
    simp only [upd]; split
    · rfl
    · exact hj'
  | @write x r e o st st' j b h h1 ih =>
    have h3 := ih hx (.write h1 hr) he
    have e1 : (fun j' => upd o j (o j ++ [b]) j' ++ o' j') = fun j' => o j' ++ upd o' j (b :: o' j) j' := by
      funext j'; by_cases hj : j' = j
      · subst hj; rw [upd_same, upd_same]; simp
      · rw [upd_ne _ _ hj, upd_ne _ _ hj]
    rw [e1]; exact h3
  | fail => cases hx

end Pieshell.FuncArg
