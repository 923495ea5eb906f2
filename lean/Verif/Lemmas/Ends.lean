import Verif.Spec.Ends
import Verif.Spec.Traffic
import Verif.Lemmas.Jam2
/-!
# How long an execution can be
-/
namespace Pieshell.FuncArg
open Flow (Bytes Net Proc upd close started userPipe upd_same upd_ne)
open Subst (slot handler)

/-- The sum of `f 0`, ..., `f (n - 1)`. -/
def tot : Nat → (Nat → Nat) → Nat
  | 0, _ => 0
  | n + 1, f => tot n f + f n

theorem tot_congr {f g : Nat → Nat} : ∀ n, (∀ k, k < n → f k = g k) → tot n f = tot n g
  | 0, _ => rfl
  | n + 1, h => by simp only [tot]; rw [tot_congr n (fun k hk => h k (by omega)), h n (by omega)]

theorem tot_le {f g : Nat → Nat} : ∀ n, (∀ k, k < n → f k ≤ g k) → tot n f ≤ tot n g
  | 0, _ => Nat.le_refl _
  | n + 1, h => by simp only [tot]; have := tot_le n (fun k hk => h k (by omega)); have := h n (by omega); omega

theorem tot_up {f g : Nat → Nat} {k d : Nat} : ∀ n, k < n → (∀ k', k' ≠ k → g k' = f k') → g k = f k + d → tot n g = tot n f + d
  | 0, h, _, _ => by omega
  | n + 1, h, h1, h2 => by
    simp only [tot]
    by_cases hk : k = n
    · subst hk; rw [tot_congr k (fun k' hk' => h1 k' (by omega)), h2]; omega
    · rw [tot_up n (by omega) h1 h2, h1 n (by omega)]; omega

/-- One of the outputs of item `k` goes to pipe `q`. -/
def WritesTo (net : Net) (k q : Nat) : Prop := ∃ j, outSlot net k j = some q

open Classical in
/-- What could have been written to a pipe at most. -/
noncomputable def poured (net : Net) (ops : Nat → Nat) (q : Nat) : Nat := tot net.items.length fun k => if WritesTo net k q then ops k else 0

theorem poured_mono {net : Net} {f g : Nat → Nat} (h : ∀ k, f k ≤ g k) (q : Nat) : poured net f q ≤ poured net g q := by
  refine tot_le _ fun k _ => ?_
  split
  · exact h k
  · exact Nat.le_refl _

theorem poured_up {net : Net} {f : Nat → Nat} {k j q : Nat} (hk : k < net.items.length) (hq : outSlot net k j = some q) : poured net (upd f k (f k + 1)) q = poured net f q + 1 := by
  refine tot_up _ hk (fun k' h => ?_) ?_
  · simp only [upd_ne _ _ h]
  · have : WritesTo net k q := ⟨j, hq⟩
    simp only [upd_same, if_pos this]

variable {σ : Type} {prog : Prog σ} {net : Net} {init : Nat → σ} {src : Nat → Nat → Bytes}

/-- What has been done so far. -/
structure Meter (prog : Prog σ) (net : Net) (init : Nat → σ) (src : Nat → Nat → Bytes) (L : Nat) (s : St σ) (ops fet : Nat → Nat) (cnt : Nat → Nat → Nat) (nr nw : Nat → Nat) (usr : Nat) : Prop where
  works : ∀ k st, s.proc k = .running st → Works prog (init k) (ops k) (cnt k) st
  worked : ∀ k, (∀ st, s.proc k ≠ .running st) → ∃ n st, ops k = n + 1 ∧ Works prog (init k) n (cnt k) st
  flow : ∀ q, nr q + (s.buf q).length = nw q
  inp : ∀ k j q, slot net k j = some q → cnt k j + (inHand net s k j).length ≤ nr q
  ext : ∀ k j, slot net k j = none → cnt k j + (inHand net s k j).length + (s.src k j).length ≤ (src k j).length
  pour : ∀ q, nw q ≤ poured net ops q
  fetch : ∀ k, fet k ≤ cnt k 0 + (inHand net s k 0).length
  user : (net.user = none → usr = 0) ∧ ∀ q, net.user = some q → usr ≤ nr q
  len : L = tot net.items.length (fun k => ops k + fet k + if s.heof k then 1 else 0) + usr

theorem meter_start : Meter prog net init src 0 (St.start init src) (fun _ => 0) (fun _ => 0) (fun _ _ => 0) (fun _ => 0) (fun _ => 0) 0 where
  works := by intro k st h; cases h; exact .start
  worked := by intro k h; exact absurd rfl (h _)
  flow := by intro q; rfl
  inp := by intro k j q _; simp [inHand, St.start]
  ext := by intro k j _; simp [inHand, St.start]
  pour := by intro q; exact Nat.zero_le _
  fetch := by intro k; exact Nat.zero_le _
  user := ⟨fun _ => rfl, fun _ _ => Nat.le_refl _⟩
  len := by
    have : ∀ n, tot n (fun _ => 0) = 0 := by intro n; induction n with | zero => rfl | succ n ih => simp only [tot, ih]
    simp only [St.start, Bool.false_eq_true, if_false, Nat.add_zero, this]

/-- An item does something other than taking a byte, or writing to a pipe. -/
theorem meter_op {L : Nat} {s t : St σ} {ops fet : Nat → Nat} {cnt : Nat → Nat → Nat} {nr nw : Nat → Nat} {usr : Nat} (h : Meter prog net init src L s ops fet cnt nr nw usr)
    {k : Nat} {st : σ} {p : Proc σ} (hk : k < net.items.length) (hr : s.proc k = .running st) (hp : t.proc = upd s.proc k p)
    (hw : ∀ st', p = .running st' → Works prog (init k) (ops k + 1) (cnt k) st')
    (hb : t.buf = s.buf) (hs : t.src = s.src) (ha : t.ahead = s.ahead) (hh : t.heof = s.heof) :
    Meter prog net init src (L + 1) t (upd ops k (ops k + 1)) fet cnt nr nw usr where
  works := by
    intro k' st' hr'
    rw [hp] at hr'
    by_cases he : k' = k
    · subst he; rw [upd_same] at hr' ⊢; exact hw st' hr'
    · rw [upd_ne _ _ he] at hr' ⊢; exact h.works k' st' hr'
  worked := by
    intro k' hr'
    rw [hp] at hr'
    by_cases he : k' = k
    · subst he; rw [upd_same]; exact ⟨_, st, rfl, h.works k' st hr⟩
    · rw [upd_ne _ _ he]; exact h.worked k' (fun st' => by have := hr' st'; rwa [upd_ne _ _ he] at this)
  flow := by rw [hb]; exact h.flow
  inp := by intro k' j q hq; simp only [inHand, ha]; exact h.inp k' j q hq
  ext := by intro k' j hq; simp only [inHand, ha, hs]; exact h.ext k' j hq
  pour := by
    intro q
    refine Nat.le_trans (h.pour q) (poured_mono (fun k' => ?_) q)
    by_cases he : k' = k
    · subst he; rw [upd_same]; omega
    · rw [upd_ne _ _ he]; exact Nat.le_refl _
  fetch := by intro k'; simp only [inHand, ha]; exact h.fetch k'
  user := h.user
  len := by
    rw [h.len, tot_up (f := fun k => ops k + fet k + if s.heof k then 1 else 0) (g := fun k' => upd ops k (ops k + 1) k' + fet k' + if t.heof k' then 1 else 0) (d := 1) _ hk]
    · omega
    · intro k' he; simp only [upd_ne _ _ he, hh]
    · simp only [upd_same, hh]; omega

/-- An item takes a byte. -/
theorem meter_take {L : Nat} {s t : St σ} {ops fet : Nat → Nat} {cnt : Nat → Nat → Nat} {nr nw : Nat → Nat} {usr : Nat} (h : Meter prog net init src L s ops fet cnt nr nw usr)
    {k j : Nat} {st : σ} {f : Option UInt8 → σ} {b : UInt8} (hk : k < net.items.length) (hr : s.proc k = .running st) (ho : prog.next st = .read j f)
    (hp : t.proc = upd s.proc k (.running (f (some b)))) (hh : t.heof = s.heof) {nr' : Nat → Nat} (hn : ∀ q, nr q ≤ nr' q) (hfl : ∀ q, nr' q + (t.buf q).length = nw q)
    (hin : ∀ k' j' q, slot net k' j' = some q → (k' = k ∧ j' = j → cnt k j + 1 + (inHand net t k j).length ≤ nr' q) ∧
      (¬ (k' = k ∧ j' = j) → (inHand net t k' j').length = (inHand net s k' j').length))
    (hex : ∀ k' j', slot net k' j' = none → (k' = k ∧ j' = j → cnt k j + 1 + (inHand net t k j).length + (t.src k j).length ≤ (src k j).length) ∧
      (¬ (k' = k ∧ j' = j) → (inHand net t k' j').length = (inHand net s k' j').length ∧ t.src k' j' = s.src k' j'))
    (hfe : ∀ k', fet k' ≤ upd cnt k (upd (cnt k) j (cnt k j + 1)) k' 0 + (inHand net t k' 0).length) :
    Meter prog net init src (L + 1) t (upd ops k (ops k + 1)) fet (upd cnt k (upd (cnt k) j (cnt k j + 1))) nr' nw usr := by
  have hc : ∀ k' j', ¬ (k' = k ∧ j' = j) → upd cnt k (upd (cnt k) j (cnt k j + 1)) k' j' = cnt k' j' := by
    intro k' j' hne
    by_cases he : k' = k
    · subst he; rw [upd_same, upd_ne]; exact fun h => hne ⟨rfl, h⟩
    · rw [upd_ne _ _ he]
  exact {
    works := by
      intro k' st' hr'
      rw [hp] at hr'
      by_cases he : k' = k
      · subst he; rw [upd_same] at hr' ⊢; rw [upd_same]; cases hr'; exact .byte b (h.works k' st hr) ho
      · rw [upd_ne _ _ he] at hr' ⊢; rw [upd_ne _ _ he]; exact h.works k' st' hr'
    worked := by
      intro k' hr'
      rw [hp] at hr'
      by_cases he : k' = k
      · subst he; exact absurd (upd_same ..) (hr' _)
      · rw [upd_ne _ _ he, upd_ne _ _ he]; exact h.worked k' (fun st' => by have := hr' st'; rwa [upd_ne _ _ he] at this)
    flow := hfl
    inp := by
      intro k' j' q hq
      by_cases he : k' = k ∧ j' = j
      · obtain ⟨rfl, rfl⟩ := he
        rw [upd_same, upd_same]; exact (hin _ _ q hq).1 ⟨rfl, rfl⟩
      · rw [hc _ _ he, (hin _ _ q hq).2 he]; exact Nat.le_trans (h.inp _ _ q hq) (hn q)
    ext := by
      intro k' j' hq
      by_cases he : k' = k ∧ j' = j
      · obtain ⟨rfl, rfl⟩ := he
        rw [upd_same, upd_same]; exact (hex _ _ hq).1 ⟨rfl, rfl⟩
      · rw [hc _ _ he, ((hex _ _ hq).2 he).1, ((hex _ _ hq).2 he).2]; exact h.ext _ _ hq
    pour := by
      intro q
      refine Nat.le_trans (h.pour q) (poured_mono (fun k' => ?_) q)
      by_cases he : k' = k
      · subst he; rw [upd_same]; omega
      · rw [upd_ne _ _ he]; exact Nat.le_refl _
    fetch := hfe
    user := ⟨h.user.1, fun q hq => Nat.le_trans (h.user.2 q hq) (hn q)⟩
    len := by
      rw [h.len, tot_up (f := fun k => ops k + fet k + if s.heof k then 1 else 0) (g := fun k' => upd ops k (ops k + 1) k' + fet k' + if t.heof k' then 1 else 0) (d := 1) _ hk]
      · omega
      · intro k' he; simp only [upd_ne _ _ he, hh]
      · simp only [upd_same, hh]; omega }

theorem upd_le {f : Nat → Nat} {k v : Nat} (h : f k ≤ v) (k' : Nat) : f k' ≤ upd f k v k' := by
  by_cases he : k' = k
  · subst he; rw [upd_same]; exact h
  · rw [upd_ne _ _ he]; exact Nat.le_refl _

theorem cnt_le {cnt : Nat → Nat → Nat} {k j v : Nat} (h : cnt k j ≤ v) (k' j' : Nat) : cnt k' j' ≤ upd cnt k (upd (cnt k) j v) k' j' := by
  by_cases he : k' = k
  · subst he; rw [upd_same]; exact upd_le h j'
  · rw [upd_ne _ _ he]; exact Nat.le_refl _

/-- The handler of a function reads. -/
theorem meter_fetch {L : Nat} {s t : St σ} {ops fet : Nat → Nat} {cnt : Nat → Nat → Nat} {nr nw : Nat → Nat} {usr : Nat} (h : Meter prog net init src L s ops fet cnt nr nw usr)
    {k fd : Nat} {c : Bytes} (hk : k < net.items.length) (hfd : net.inFd k = some fd) (hc : c ≠ []) (hp : t.proc = s.proc) (hh : t.heof = s.heof)
    (ha : t.ahead = upd s.ahead k (s.ahead k ++ c)) {nr' : Nat → Nat} (hn : ∀ q, nr q ≤ nr' q) (hfl : ∀ q, nr' q + (t.buf q).length = nw q)
    (hin : ∀ q, slot net k 0 = some q → nr q + c.length ≤ nr' q)
    (hex : ∀ k' j', slot net k' j' = none → (k' = k ∧ j' = 0 → (t.src k 0).length + c.length = (s.src k 0).length) ∧ (¬ (k' = k ∧ j' = 0) → t.src k' j' = s.src k' j')) :
    Meter prog net init src (L + 1) t ops (upd fet k (fet k + 1)) cnt nr' nw usr := by
  have hhd : handler net k 0 = some fd := hfd
  have hI : (inHand net t k 0).length = (inHand net s k 0).length + c.length := by
    rw [inHand_some hhd, inHand_some hhd, ha, upd_same, List.length_append]
  have hI' : ∀ k' j', ¬ (k' = k ∧ j' = 0) → inHand net t k' j' = inHand net s k' j' := by
    intro k' j' hne
    simp only [inHand]
    split
    · next hj =>
      obtain ⟨x, hx⟩ := Option.isSome_iff_exists.1 hj
      have := handler_zero hx
      rw [ha, upd_ne _ _ (fun he => hne ⟨he, this⟩)]
    · rfl
  have hc' : 0 < c.length := List.length_pos_iff.2 hc
  exact {
    works := by rw [hp]; exact h.works
    worked := by rw [hp]; exact h.worked
    flow := hfl
    inp := by
      intro k' j' q hq
      by_cases he : k' = k ∧ j' = 0
      · obtain ⟨rfl, rfl⟩ := he
        have := h.inp _ _ q hq; have := hin q hq; omega
      · rw [hI' _ _ he]; exact Nat.le_trans (h.inp _ _ q hq) (hn q)
    ext := by
      intro k' j' hq
      by_cases he : k' = k ∧ j' = 0
      · obtain ⟨rfl, rfl⟩ := he
        have := h.ext _ _ hq; have := (hex _ _ hq).1 ⟨rfl, rfl⟩; omega
      · rw [hI' _ _ he, (hex _ _ hq).2 he]; exact h.ext _ _ hq
    pour := h.pour
    fetch := by
      intro k'
      by_cases he : k' = k
      · subst he; rw [upd_same, hI]; have := h.fetch k'; omega
      · rw [upd_ne _ _ he, hI' _ _ (fun h => he h.1)]; exact h.fetch k'
    user := ⟨h.user.1, fun q hq => Nat.le_trans (h.user.2 q hq) (hn q)⟩
    len := by
      rw [h.len, tot_up (f := fun k => ops k + fet k + if s.heof k then 1 else 0) (g := fun k' => ops k' + upd fet k (fet k + 1) k' + if t.heof k' then 1 else 0) (d := 1) _ hk]
      · omega
      · intro k' he; simp only [upd_ne _ _ he, hh]
      · simp only [upd_same, hh]; omega }

/-- The handler of a function finds the end. -/
theorem meter_hup {L : Nat} {s t : St σ} {ops fet : Nat → Nat} {cnt : Nat → Nat → Nat} {nr nw : Nat → Nat} {usr : Nat} (h : Meter prog net init src L s ops fet cnt nr nw usr)
    {k : Nat} (hk : k < net.items.length) (hf : s.heof k = false) (hp : t.proc = s.proc) (hh : t.heof = upd s.heof k true) (ha : t.ahead = s.ahead) (hb : t.buf = s.buf) (hs : t.src = s.src) :
    Meter prog net init src (L + 1) t ops fet cnt nr nw usr where
  works := by rw [hp]; exact h.works
  worked := by rw [hp]; exact h.worked
  flow := by rw [hb]; exact h.flow
  inp := by intro k' j q hq; simp only [inHand, ha]; exact h.inp k' j q hq
  ext := by intro k' j hq; simp only [inHand, ha, hs]; exact h.ext k' j hq
  pour := h.pour
  fetch := by intro k'; simp only [inHand, ha]; exact h.fetch k'
  user := h.user
  len := by
    rw [h.len, tot_up (f := fun k => ops k + fet k + if s.heof k then 1 else 0) (g := fun k' => ops k' + fet k' + if t.heof k' then 1 else 0) (d := 1) _ hk]
    · omega
    · intro k' he; simp only [upd_ne _ _ he, hh]
    · simp only [hh, upd_same, hf, if_true, Bool.false_eq_true, if_false]

theorem meter_step {L : Nat} {s t : St σ} {ops fet : Nat → Nat} {cnt : Nat → Nat → Nat} {nr nw : Nat → Nat} {usr : Nat} (h : Meter prog net init src L s ops fet cnt nr nw usr)
    (hst : Step prog net s t) : ∃ ops fet cnt nr nw usr, Meter prog net init src (L + 1) t ops fet cnt nr nw usr := by
  cases hst with
  | @read k j st f q b rest hk hr ho hh hq hb =>
    refine ⟨upd ops k (ops k + 1), fet, upd cnt k (upd (cnt k) j (cnt k j + 1)), upd nr q (nr q + 1), nw, usr, ?_⟩
    refine meter_take (t := { s with proc := upd s.proc k (.running (f (some b))), buf := upd s.buf q rest }) (nr' := upd nr q (nr q + 1)) h (b := b) hk hr ho rfl rfl (upd_le (by omega)) (fun q' => ?_) (fun k' j' q' hq' => ⟨?_, fun _ => rfl⟩) (fun k' j' hq' => ⟨?_, fun _ => ⟨rfl, rfl⟩⟩) (fun k' => ?_)
    · have := h.flow q'
      by_cases he : q' = q
      · subst he; simp only [upd_same]; rw [hb, List.length_cons] at this; omega
      · simp only [upd_ne _ _ he]; exact this
    · rintro ⟨rfl, rfl⟩
      rw [hq] at hq'; cases hq'
      have := h.inp _ _ q hq
      rw [inHand_none hh] at this ⊢; rw [upd_same]; simp only [List.length_nil] at this ⊢; omega
    · rintro ⟨rfl, rfl⟩; rw [hq] at hq'; cases hq'
    · exact Nat.le_trans (h.fetch k') (Nat.add_le_add_right (cnt_le (by omega) _ _) _)
  | @eof k j st f q hk hr ho hh hq hb hno =>
    refine ⟨upd ops k (ops k + 1), fet, cnt, nr, nw, usr, ?_⟩
    exact meter_op h hk hr rfl (by rintro _ ⟨⟩; exact .eof (h.works k st hr) ho) rfl rfl rfl rfl
  | @readExt k j st f b rest hk hr ho hh hq hb =>
    refine ⟨upd ops k (ops k + 1), fet, upd cnt k (upd (cnt k) j (cnt k j + 1)), nr, nw, usr, ?_⟩
    refine meter_take (t := { s with proc := upd s.proc k (.running (f (some b))), src := upd s.src k (upd (s.src k) j rest) }) (nr' := nr) h (b := b) hk hr ho rfl rfl (fun _ => Nat.le_refl _) h.flow (fun k' j' q' hq' => ⟨?_, fun _ => rfl⟩) (fun k' j' hq' => ⟨?_, fun hne => ⟨rfl, ?_⟩⟩) (fun k' => ?_)
    · rintro ⟨rfl, rfl⟩; rw [hq] at hq'; cases hq'
    · rintro ⟨rfl, rfl⟩
      have := h.ext _ _ hq
      rw [inHand_none hh] at this ⊢; simp only [upd_same]; rw [hb] at this; simp only [List.length_cons, List.length_nil] at this ⊢; omega
    · simp only
      by_cases he : k' = k
      · subst he; rw [upd_same, upd_ne _ _ (fun h => hne ⟨rfl, h⟩)]
      · rw [upd_ne _ _ he]
    · exact Nat.le_trans (h.fetch k') (Nat.add_le_add_right (cnt_le (by omega) _ _) _)
  | @eofExt k j st f hk hr ho hh hq hb =>
    refine ⟨upd ops k (ops k + 1), fet, cnt, nr, nw, usr, ?_⟩
    exact meter_op h hk hr rfl (by rintro _ ⟨⟩; exact .eof (h.works k st hr) ho) rfl rfl rfl rfl
  | @fetch k fd q c rest hk hfd he hnl hq hb hc hle =>
    refine ⟨ops, upd fet k (fet k + 1), cnt, upd nr q (nr q + c.length), nw, usr, ?_⟩
    refine meter_fetch (t := { s with ahead := upd s.ahead k (s.ahead k ++ c), buf := upd s.buf q rest }) (nr' := upd nr q (nr q + c.length)) h hk hfd hc rfl rfl rfl (upd_le (by omega)) (fun q' => ?_) (fun q' hq' => ?_) (fun k' j' hq' => ⟨?_, fun _ => rfl⟩)
    · have := h.flow q'
      by_cases he : q' = q
      · subst he; simp only [upd_same]; rw [hb, List.length_append] at this; omega
      · simp only [upd_ne _ _ he]; exact this
    · rw [hq] at hq'; cases hq'; rw [upd_same]; exact Nat.le_refl _
    · rintro ⟨rfl, rfl⟩; rw [hq] at hq'; cases hq'
  | @hup k fd q hk hfd he hnl hq hb hno =>
    refine ⟨ops, fet, cnt, nr, nw, usr, ?_⟩
    exact meter_hup h hk he rfl rfl rfl rfl rfl
  | @fetchExt k fd c rest hk hfd he hnl hq hb hc hle =>
    refine ⟨ops, upd fet k (fet k + 1), cnt, nr, nw, usr, ?_⟩
    refine meter_fetch (t := { s with ahead := upd s.ahead k (s.ahead k ++ c), src := upd s.src k (upd (s.src k) 0 rest) }) (nr' := nr) h hk hfd hc rfl rfl rfl (fun _ => Nat.le_refl _) h.flow (fun q' hq' => ?_) (fun k' j' hq' => ⟨?_, fun hne => ?_⟩)
    · rw [hq] at hq'; cases hq'
    · rintro ⟨rfl, rfl⟩
      simp only [upd_same]; rw [hb, List.length_append]; omega
    · simp only
      by_cases he : k' = k
      · subst he; rw [upd_same, upd_ne _ _ (fun h => hne ⟨rfl, h⟩)]
      · rw [upd_ne _ _ he]
  | @hupExt k fd hk hfd he hnl hq hb =>
    refine ⟨ops, fet, cnt, nr, nw, usr, ?_⟩
    exact meter_hup h hk he rfl rfl rfl rfl rfl
  | @take k j fd st f b rest hk hr ho hh ha =>
    obtain rfl := handler_zero hh
    have hI' : ∀ k' j', ¬ (k' = k ∧ j' = 0) → (inHand net { s with proc := upd s.proc k (.running (f (some b))), ahead := upd s.ahead k rest } k' j').length = (inHand net s k' j').length := by
      intro k' j' hne
      simp only [inHand]
      split
      · next hj =>
        obtain ⟨x, hx⟩ := Option.isSome_iff_exists.1 hj
        have := handler_zero hx
        rw [upd_ne _ _ (fun he => hne ⟨he, this⟩)]
      · rfl
    have hI : (inHand net { s with proc := upd s.proc k (.running (f (some b))), ahead := upd s.ahead k rest } k 0).length + 1 = (inHand net s k 0).length := by
      rw [inHand_some hh, inHand_some hh, ha]; simp only [upd_same, List.length_cons]
    refine ⟨upd ops k (ops k + 1), fet, upd cnt k (upd (cnt k) 0 (cnt k 0 + 1)), nr, nw, usr, ?_⟩
    refine meter_take (t := { s with proc := upd s.proc k (.running (f (some b))), ahead := upd s.ahead k rest }) (nr' := nr) h (b := b) hk hr ho rfl rfl (fun _ => Nat.le_refl _) h.flow (fun k' j' q' hq' => ⟨?_, hI' k' j'⟩) (fun k' j' hq' => ⟨?_, fun hne => ⟨hI' k' j' hne, rfl⟩⟩) (fun k' => ?_)
    · rintro ⟨rfl, rfl⟩
      have := h.inp _ _ q' hq'; omega
    · rintro ⟨rfl, rfl⟩
      have := h.ext _ _ hq'; simp only; omega
    · by_cases he : k' = k
      · subst he; rw [upd_same, upd_same]; have := h.fetch k'; omega
      · rw [upd_ne _ _ he, hI' _ _ (fun h => he h.1)]; exact h.fetch k'
  | @takeEof k j fd st f hk hr ho hh ha he =>
    refine ⟨upd ops k (ops k + 1), fet, cnt, nr, nw, usr, ?_⟩
    exact meter_op h hk hr rfl (by rintro _ ⟨⟩; exact .eof (h.works k st hr) ho) rfl rfl rfl rfl
  | @write k j st st' b q hk hr ho hq hc hop =>
    have h' := meter_op (t := { s with proc := upd s.proc k (.running st') }) h hk hr rfl (by rintro _ ⟨⟩; exact .write (h.works k st hr) ho) rfl rfl rfl rfl
    refine ⟨_, _, _, nr, upd nw q (nw q + 1), _, { h' with flow := ?_, pour := ?_ }⟩
    · intro q'
      have := h.flow q'
      by_cases he : q' = q
      · subst he; simp only [upd_same, List.length_append, List.length_cons, List.length_nil]; omega
      · simp only [upd_ne _ _ he]; exact this
    · intro q'
      by_cases he : q' = q
      · subst he; rw [upd_same, poured_up hk hq]; have := h.pour q'; omega
      · rw [upd_ne _ _ he]; exact h'.pour q'
  | @sigpipe k j st st' b q hk hr ho hq hno hx =>
    refine ⟨upd ops k (ops k + 1), fet, cnt, nr, nw, usr, ?_⟩
    exact meter_op h hk hr rfl (by rintro _ ⟨⟩) rfl rfl rfl rfl
  | @epipe k j st st' st'' b q hk hr ho hq hno hx he =>
    refine ⟨upd ops k (ops k + 1), fet, cnt, nr, nw, usr, ?_⟩
    exact meter_op h hk hr rfl (by rintro _ ⟨⟩; exact .fail (h.works k st hr) ho he) rfl rfl rfl rfl
  | @writeExt k j st st' b hk hr ho hq =>
    refine ⟨upd ops k (ops k + 1), fet, cnt, nr, nw, usr, ?_⟩
    exact meter_op h hk hr rfl (by rintro _ ⟨⟩; exact .write (h.works k st hr) ho) rfl rfl rfl rfl
  | @exit k st c hk hr ho =>
    refine ⟨upd ops k (ops k + 1), fet, cnt, nr, nw, usr, ?_⟩
    exact meter_op h hk hr rfl (by rintro _ ⟨⟩) rfl rfl rfl rfl
  | @user q b rest hu hb =>
    refine ⟨ops, fet, cnt, upd nr q (nr q + 1), nw, usr + 1, ?_⟩
    have hle : ∀ q', nr q' ≤ upd nr q (nr q + 1) q' := upd_le (by omega)
    exact {
      works := h.works
      worked := h.worked
      flow := by
        intro q'
        have := h.flow q'
        by_cases he : q' = q
        · subst he; simp only [upd_same]; rw [hb, List.length_cons] at this; omega
        · simp only [upd_ne _ _ he]; exact this
      inp := fun k j q' hq => Nat.le_trans (h.inp k j q' hq) (hle q')
      ext := h.ext
      pour := h.pour
      fetch := h.fetch
      user := by
        refine ⟨fun h => ?_, fun q' hq => ?_⟩
        · rw [hu] at h; cases h
        · rw [hu] at hq; cases hq; rw [upd_same]; have := h.user.2 q hu; omega
      len := by rw [h.len]; simp only; omega }

theorem meter_steps {L : Nat} {s : St σ} (h : Steps prog net L (St.start init src) s) : ∃ ops fet cnt nr nw usr, Meter prog net init src L s ops fet cnt nr nw usr := by
  generalize hs0 : St.start init src = s0 at h
  induction h with
  | nil => subst hs0; exact ⟨_, _, _, _, _, _, meter_start⟩
  | snoc _ h ih => obtain ⟨_, _, _, _, _, _, hm⟩ := ih hs0; exact meter_step hm h

/-- Items do only so much if those that write what they read do. -/
theorem ops_bounded (hT : ∀ k, k < net.items.length → Terminates prog (init k)) (k : Nat) (hk : k < net.items.length)
    (hw : ∀ q j k', slot net k j = some q → k' < net.items.length → WritesTo net k' q → ∃ M, ∀ L s ops fet cnt nr nw usr, Meter prog net init src L s ops fet cnt nr nw usr → ops k' ≤ M) :
    ∃ M, ∀ L s ops fet cnt nr nw usr, Meter prog net init src L s ops fet cnt nr nw usr → ops k ≤ M := by
  have : ∀ k', ∃ M, k' < net.items.length → (∃ q j, slot net k j = some q ∧ WritesTo net k' q) → ∀ L s ops fet cnt nr nw usr, Meter prog net init src L s ops fet cnt nr nw usr → ops k' ≤ M := by
    intro k'
    by_cases h : k' < net.items.length ∧ ∃ q j, slot net k j = some q ∧ WritesTo net k' q
    · obtain ⟨h0, q, j, h1, h2⟩ := h
      obtain ⟨M, hM⟩ := hw q j k' h1 h0 h2
      exact ⟨M, fun _ _ => hM⟩
    · exact ⟨0, fun h0 h' => absurd ⟨h0, h'⟩ h⟩
  obtain ⟨M, hM⟩ := Classical.axiomOfChoice this
  obtain ⟨N, hN⟩ := hT k hk (fun j => match slot net k j with | none => (src k j).length | some q => poured net M q)
  refine ⟨N + 1, ?_⟩
  intro L s ops fet cnt nr nw usr h
  have hlim : ∀ j, cnt k j ≤ (match slot net k j with | none => (src k j).length | some q => poured net M q) := by
    intro j
    split
    · next hq => have := h.ext k j hq; omega
    · next q hq =>
      have h1 := h.inp k j q hq
      have h2 := h.flow q
      have h3 := h.pour q
      have h4 : poured net ops q ≤ poured net M q := by
        refine tot_le _ fun k' hk' => ?_
        split
        · next hw' => exact hM k' hk' ⟨q, j, hq, hw'⟩ L s ops fet cnt nr nw usr h
        · exact Nat.le_refl _
      omega
  by_cases hr : ∃ st, s.proc k = .running st
  · obtain ⟨st, hr⟩ := hr
    have := hN _ _ _ (h.works k st hr) hlim; omega
  · obtain ⟨n, st, h1, h2⟩ := h.worked k (fun st h => hr ⟨st, h⟩)
    have := hN _ _ _ h2 hlim; omega

/-- Executions have only so many steps if items do only so much. -/
theorem steps_bounded (hb : ∀ k, k < net.items.length → ∃ M, ∀ L s ops fet cnt nr nw usr, Meter prog net init src L s ops fet cnt nr nw usr → ops k ≤ M) :
    ∃ N, ∀ L s, Steps prog net L (St.start init src) s → L ≤ N := by
  have : ∀ k, ∃ M, k < net.items.length → ∀ L s ops fet cnt nr nw usr, Meter prog net init src L s ops fet cnt nr nw usr → ops k ≤ M := by
    intro k
    by_cases h : k < net.items.length
    · obtain ⟨M, hM⟩ := hb k h; exact ⟨M, fun _ => hM⟩
    · exact ⟨0, fun h' => absurd h' h⟩
  obtain ⟨M, hM⟩ := Classical.axiomOfChoice this
  refine ⟨tot net.items.length (fun k => M k + ((src k 0).length + tot net.items.length M) + 1) + tot net.items.length M, ?_⟩
  intro L s hst
  obtain ⟨ops, fet, cnt, nr, nw, usr, h⟩ := meter_steps hst
  have hp : ∀ q, nr q ≤ tot net.items.length M := by
    intro q
    have h2 := h.flow q
    have h3 := h.pour q
    have h4 : poured net ops q ≤ tot net.items.length M := by
      refine tot_le _ fun k' hk' => ?_
      split
      · exact hM k' hk' L s ops fet cnt nr nw usr h
      · exact Nat.zero_le _
    omega
  rw [h.len]
  refine Nat.add_le_add (tot_le _ fun k hk => ?_) ?_
  · have h1 := hM k hk L s ops fet cnt nr nw usr h
    have h2 := h.fetch k
    have h3 : cnt k 0 + (inHand net s k 0).length ≤ (src k 0).length + tot net.items.length M := by
      cases hq : slot net k 0 with
      | none => have := h.ext k 0 hq; omega
      | some q => have := h.inp k 0 q hq; have := hp q; omega
    have h4 : (if s.heof k = true then 1 else 0) ≤ 1 := by split <;> omega
    omega
  · cases hu : net.user with
    | none => rw [h.user.1 hu]; exact Nat.zero_le _
    | some q => exact Nat.le_trans (h.user.2 q hu) (hp q)

end Pieshell.FuncArg
