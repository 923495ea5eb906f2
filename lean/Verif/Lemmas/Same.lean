import Verif.Spec.Same
import Verif.Lemmas.Jam2
import Verif.Props.Jam
/-!
# Executions of the same pipeline with different schedules
-/
namespace Pieshell.FuncArg
open Flow (Bytes Net Proc upd close started userPipe upd_same upd_ne)
open Subst (slot handler Foreign)
variable {σ : Type} {prog : Prog σ}

/-- What an item has read, been told of, written, and where it is. -/
structure Conf (σ : Type) where
  r : Nat → Bytes
  e : Nat → Bool
  o : Nat → Bytes
  st : σ

/-- The next one, if its inputs are `X`. -/
def Conf.next (prog : Prog σ) (X : Nat → Bytes) (a : Conf σ) : Option (Conf σ) :=
  match prog.next a.st with
  | .exit _ => none
  | .write j b st' => some ⟨a.r, a.e, upd a.o j (a.o j ++ [b]), st'⟩
  | .read j f =>
    match (X j)[(a.r j).length]? with
    | none => some ⟨a.r, upd a.e j true, a.o, f none⟩
    | some b => some ⟨upd a.r j (a.r j ++ [b]), a.e, a.o, f (some b)⟩

/-- After `n` operations. -/
inductive After (prog : Prog σ) (X : Nat → Bytes) (a : Conf σ) : Nat → Conf σ → Prop
  | zero : After prog X a 0 a
  | succ {n : Nat} {b c : Conf σ} : After prog X a n b → b.next prog X = some c → After prog X a (n + 1) c

theorem After.det {X : Nat → Bytes} {a b c : Conf σ} {n : Nat} (h : After prog X a n b) (h' : After prog X a n c) : b = c := by
  induction h generalizing c with
  | zero => cases h'; rfl
  | succ _ h1 ih =>
    cases h' with
    | succ h2 h3 => rw [ih h2, h3] at h1; cases h1; rfl

theorem conf_out {X : Nat → Bytes} {a b : Conf σ} (h : a.next prog X = some b) (j : Nat) : a.o j <+: b.o j := by
  unfold Conf.next at h
  split at h
  · cases h
  · next j' b' st' _ =>
    cases h
    simp only
    by_cases hj : j = j'
    · subst hj; rw [upd_same]; exact List.prefix_append _ _
    · rw [upd_ne _ _ hj]; exact List.prefix_rfl
  · split at h <;> cases h <;> exact List.prefix_rfl

theorem After.le {X : Nat → Bytes} {a b c : Conf σ} {n m : Nat} (h' : After prog X a m c) (h : After prog X a n b) (hn : n ≤ m) : ∀ j, b.o j <+: c.o j := by
  induction h' with
  | zero => cases (by omega : n = 0); cases h; intro j; exact List.prefix_rfl
  | @succ m c d h1 h2 ih =>
    by_cases he : n = m + 1
    · subst he; rw [h.det (.succ h1 h2)]; intro j; exact List.prefix_rfl
    · intro j; exact (ih (by omega) j).trans (conf_out h2 j)

theorem After.exit {X : Nat → Bytes} {a b c : Conf σ} {n m k : Nat} (h : After prog X a n b) (hx : prog.next b.st = .exit k) (h' : After prog X a m c) : m ≤ n := by
  induction h' with
  | zero => exact Nat.zero_le _
  | @succ m c d h1 h2 ih =>
    by_cases he : m = n
    · subst he
      rw [h1.det h] at h2
      simp only [Conf.next, hx] at h2
      cases h2
    · omega

theorem prefix_get {l m : Bytes} {b : UInt8} (h : l ++ [b] <+: m) : m[l.length]? = some b := by
  obtain ⟨t, rfl⟩ := h
  simp

theorem Alone.after {s : σ} {x : Bool} {r : Nat → Bytes} {e : Nat → Bool} {o : Nat → Bytes} {st : σ} (h : Alone prog s x r e o st) (hx : x = false) {X : Nat → Bytes}
    (hr : ∀ j, r j <+: X j) (he : ∀ j, e j = true → r j = X j) : ∃ n, After prog X ⟨fun _ => [], fun _ => false, fun _ => [], s⟩ n ⟨r, e, o, st⟩ := by
  induction h with
  | start => exact ⟨0, .zero⟩
  | @read x r e o st j f b h h1 h2 ih =>
    have hj := hr j
    rw [upd_same] at hj
    obtain ⟨n, hn⟩ := ih hx (fun j' => by
      by_cases e1 : j' = j
      · subst e1; exact (List.prefix_append _ _).trans hj
      · have := hr j'; rwa [upd_ne _ _ e1] at this) (fun j' he' => by
      by_cases e1 : j' = j
      · subst e1; rw [h2] at he'; cases he'
      · have := he j' he'; rwa [upd_ne _ _ e1] at this)
    refine ⟨n + 1, .succ hn ?_⟩
    simp only [Conf.next, h1, prefix_get hj]
  | @eof x r e o st j f h h1 ih =>
    have hj := he j (upd_same ..)
    obtain ⟨n, hn⟩ := ih hx hr (fun j' he' => he j' (by
      by_cases e1 : j' = j
      · subst e1; exact upd_same ..
      · rw [upd_ne _ _ e1]; exact he'))
    refine ⟨n + 1, .succ hn ?_⟩
    have : (X j)[(r j).length]? = none := by rw [hj]; simp
    simp only [Conf.next, h1, this]
  | @write x r e o st st' j b h h1 ih =>
    obtain ⟨n, hn⟩ := ih hx hr he
    refine ⟨n + 1, .succ hn ?_⟩
    simp only [Conf.next, h1]
  | fail => cases hx

/-- Reads are recorded only of inputs that may be read. -/
theorem Alone.silent {s : σ} {x : Bool} {r : Nat → Bytes} {e : Nat → Bool} {o : Nat → Bytes} {st : σ} (h : Alone prog s x r e o st) {j : Nat} (hj : ¬ MayRead prog s j) :
    r j = [] ∧ e j = false := by
  induction h with
  | start => exact ⟨rfl, rfl⟩
  | @read x r e o st j' f b h h1 h2 ih =>
    by_cases e1 : j = j'
    · subst e1; exact absurd ⟨x, r, e, o, st, f, h, h1⟩ hj
    · rw [upd_ne _ _ e1]; exact ih
  | @eof x r e o st j' f h h1 ih =>
    by_cases e1 : j = j'
    · subst e1; exact absurd ⟨x, r, e, o, st, f, h, h1⟩ hj
    · rw [upd_ne _ _ e1]; exact ih
  | write _ _ ih => exact ih
  | fail _ _ _ ih => exact ih

theorem Alone.mute {s : σ} {x : Bool} {r : Nat → Bytes} {e : Nat → Bool} {o : Nat → Bytes} {st : σ} (h : Alone prog s x r e o st) {j : Nat} (hj : ¬ MayWrite prog s j) : o j = [] := by
  induction h with
  | start => rfl
  | read _ _ _ _ ih => exact ih
  | eof _ _ ih => exact ih
  | @write x r e o st st' j' b h h1 ih =>
    by_cases e1 : j = j'
    · subst e1; exact absurd ⟨x, r, e, o, st, b, st', h, h1⟩ hj
    · rw [upd_ne _ _ e1]; exact ih
  | fail _ _ _ ih => exact ih

theorem Told.alone {s : σ} {x : Bool} {r : Nat → Bytes} {e : Nat → Bool} {o : Nat → Bytes} {p : Proc σ} (h : Told prog s x r e o p) : ∃ y st, Alone prog s y r e o st := by
  cases p with
  | running st => exact ⟨x, st, h⟩
  | exited c => obtain ⟨st, h, -⟩ := h; exact ⟨x, st, h⟩
  | killed => obtain ⟨-, y, st, -, -, -, h, -⟩ := h; exact ⟨y, st, h⟩

/-- An item that has not seen a write fail. -/
theorem Told.sound {s : σ} {r : Nat → Bytes} {e : Nat → Bool} {o : Nat → Bytes} {p : Proc σ} (h : Told prog s false r e o p) :
    ∃ st, Alone prog s false r e o st ∧ (∀ c, p = .exited c → prog.next st = .exit c) ∧ p ≠ .killed := by
  cases p with
  | running st => exact ⟨st, h, by simp, by simp⟩
  | exited c => obtain ⟨st, h, h'⟩ := h; exact ⟨st, h, by rintro _ ⟨⟩; exact h', by simp⟩
  | killed => obtain ⟨h, -⟩ := h; cases h

/-- What two executions have in common at one item. -/
structure Agree (s s' : St σ) (k : Nat) : Prop where
  one : (∀ j, s.out k j <+: s'.out k j) ∨ ∀ j, s'.out k j <+: s.out k j
  left : ∀ c, s.proc k = .exited c → ∀ j, s'.out k j <+: s.out k j
  right : ∀ c, s'.proc k = .exited c → ∀ j, s.out k j <+: s'.out k j
  code : ∀ c c', s.proc k = .exited c → s'.proc k = .exited c' → c = c'

theorem agree_of {init : Nat → σ} {s s' : St σ} {k : Nat} {r r' : Nat → Bytes} {e e' : Nat → Bool}
    (h : Told prog (init k) false r e (s.out k) (s.proc k)) (h' : Told prog (init k) false r' e' (s'.out k) (s'.proc k))
    {X : Nat → Bytes} (hr : ∀ j, r j <+: X j) (he : ∀ j, e j = true → r j = X j) (hr' : ∀ j, r' j <+: X j) (he' : ∀ j, e' j = true → r' j = X j) : Agree s s' k := by
  obtain ⟨st, ha, hx, -⟩ := h.sound
  obtain ⟨st', ha', hx', -⟩ := h'.sound
  obtain ⟨n, hn⟩ := ha.after rfl hr he
  obtain ⟨m, hm⟩ := ha'.after rfl hr' he'
  refine ⟨?_, fun c hc => ?_, fun c hc => ?_, fun c c' hc hc' => ?_⟩
  · by_cases hle : n ≤ m
    · exact .inl (hm.le hn hle)
    · exact .inr (hn.le hm (by omega))
  · exact hn.le hm (hn.exit (hx c hc) hm)
  · exact hm.le hn (hm.exit (hx' c hc) hn)
  · have h1 := hn.exit (hx c hc) hm
    have h2 := hm.exit (hx' c' hc') hn
    obtain rfl : n = m := by omega
    have := hn.det hm
    injection this with _ _ _ hst
    subst hst
    have := (hx c hc).symm.trans (hx' c' hc')
    cases this; rfl

theorem part_none {t : Tag} {l : List (Tag × UInt8)} (h : part t l = []) : ∀ x ∈ l, x.1 ≠ t := by
  intro x hx he
  unfold part bytesOf at h
  rw [List.map_eq_nil_iff, List.filter_eq_nil_iff] at h
  exact h x hx (by simp [he])

variable {net : Net} {init : Nat → σ} {src : Nat → Nat → Bytes} {s : St σ} {wr rd : Nat → List (Tag × UInt8)} {reads : Nat → Nat → Bytes} {ends : Nat → Nat → Bool}

/-- If only one item may write to a pipe, everything written to the pipe is from it. -/
theorem Known.only_writer (h : Known prog net init src s wr rd reads ends) (h1 : OneEach prog net init) {q k j : Nat} (hq : outSlot net k j = some q) (hm : MayWrite prog (init k) j) :
    bytesOf (wr q) = s.out k j := by
  rw [← h.wrote q k j hq, part_all]
  intro x hx
  obtain ⟨k1, j1, e1, e2⟩ := h.writers q x hx
  by_cases hm1 : MayWrite prog (init k1) j1
  · obtain ⟨rfl, rfl⟩ := h1.writer q k1 j1 k j e2 hm1 hq hm
    exact e1
  · obtain ⟨_, _, ha⟩ := (h.alone k1).alone
    have := h.wrote q k1 j1 e2
    rw [ha.mute hm1] at this
    exact absurd e1 (part_none this x hx)

theorem Known.no_writer (h : Known prog net init src s wr rd reads ends) {q : Nat} (hq : ∀ k j, outSlot net k j = some q → ¬ MayWrite prog (init k) j) : wr q = [] := by
  rw [List.eq_nil_iff_forall_not_mem]
  intro x hx
  obtain ⟨k1, j1, e1, e2⟩ := h.writers q x hx
  obtain ⟨_, _, ha⟩ := (h.alone k1).alone
  have := h.wrote q k1 j1 e2
  rw [ha.mute (hq k1 j1 e2)] at this
  exact absurd e1 (part_none this x hx)

theorem Known.not_taken (h : Known prog net init src s wr rd reads ends) {q k j : Nat} (hq : slot net k j = some q) (ht : ¬ Takes prog net init k j) : ∀ x ∈ rd q, x.1 ≠ some (k, j) := by
  refine part_none ?_
  obtain ⟨_, _, ha⟩ := (h.alone k).alone
  rw [h.got q k j hq, (ha.silent (fun hm => ht (.inl hm))).1]
  have : handler net k j = none := by
    cases hh : handler net k j with
    | none => rfl
    | some fd => exact absurd (.inr (by rw [hh]; rfl)) ht
  rw [inHand_none this]; rfl

theorem Known.only_reader (h : Known prog net init src s wr rd reads ends) (h1 : OneEach prog net init) {q k j : Nat} (hq : slot net k j = some q) (ht : Takes prog net init k j) :
    bytesOf (rd q) = reads k j ++ inHand net s k j := by
  rw [← h.got q k j hq, part_all]
  intro x hx
  rcases h.readers q x hx with ⟨k1, j1, e1, e2⟩ | ⟨-, e2⟩
  · by_cases ht1 : Takes prog net init k1 j1
    · obtain ⟨rfl, rfl⟩ := h1.reader q k1 j1 k j e2 ht1 hq ht
      exact e1
    · exact absurd e1 (h.not_taken e2 ht1 x hx)
  · exact absurd ht (h1.shell q k j e2 hq)

theorem Known.only_shell (h : Known prog net init src s wr rd reads ends) (h1 : OneEach prog net init) {q : Nat} (hu : net.user = some q) : bytesOf (rd q) = s.got := by
  rw [← h.shell q hu, part_all]
  intro x hx
  rcases h.readers q x hx with ⟨k1, j1, e1, e2⟩ | ⟨e1, -⟩
  · exact absurd e1 (h.not_taken e2 (h1.shell q k1 j1 hu e2) x hx)
  · exact e1

/-- The input of an item that takes it: a beginning of what has been written, and all of it, by somebody who has ended, if the end has been told. -/
theorem Known.input (h : Known prog net init src s wr rd reads ends) (h1 : OneEach prog net init) {q k j : Nat} (hq : slot net k j = some q) (ht : Takes prog net init k j) :
    reads k j <+: bytesOf (wr q) ∧ (ends k j = true → reads k j = bytesOf (wr q) ∧ ∀ k' j', outSlot net k' j' = some q → ∀ st, s.proc k' ≠ .running st) := by
  have hF := h.flow q
  rw [h.only_reader h1 hq ht] at hF
  refine ⟨⟨_, by rw [← hF, List.append_assoc]⟩, fun he => ?_⟩
  obtain ⟨a, b, -⟩ := h.ended k j he
  obtain ⟨b1, b2⟩ := b q hq
  have hin : inHand net s k j = [] := by
    cases hh : handler net k j with
    | none => exact inHand_none hh
    | some fd => rw [inHand_some hh, (a fd hh).2]
  rw [hin, b1] at hF
  refine ⟨by simpa using hF, fun k' j' hq' st hr => b2 (write_open h.outOpen hr hq')⟩

end Pieshell.FuncArg
