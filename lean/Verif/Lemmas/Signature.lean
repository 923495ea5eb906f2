import Verif.Model.Signature
import Verif.Spec.Signature
import Verif.Lemmas.Dict
/-! Lemmas for C89. -/
namespace Pieshell.Sgn
open Pieshell.Cmd (isLetter)

/-- White space is neither a letter nor one of `-`, `=`, `[`. -/
def WsOk (ws : Char → Bool) : Prop := ∀ c, ws c = true → c ≠ '-' ∧ c ≠ '=' ∧ c ≠ '[' ∧ ¬ Letter c

theorem isLetter_iff (c : Char) : isLetter c = true ↔ Letter c := by
  simp only [isLetter, Letter, Bool.or_eq_true, Bool.and_eq_true, decide_eq_true_eq, Char.le_def, UInt32.le_iff_toNat_le]
  show (65 ≤ c.toNat ∧ c.toNat ≤ 90) ∨ (97 ≤ c.toNat ∧ c.toNat ≤ 122) ↔ (97 ≤ c.toNat ∧ c.toNat ≤ 122) ∨ (65 ≤ c.toNat ∧ c.toNat ≤ 90)
  omega

theorem isNameChar_iff (c : Char) : isNameChar c = true ↔ c = '-' ∨ Letter c := by
  simp [isNameChar, isLetter_iff]

/-- An option in a word. -/
def Opt (w n v : Str) : Prop := ∃ rest, Prints w n rest ∧ ValueText rest v

def NonWs (ws : Char → Bool) (w : Str) : Prop := ∀ x ∈ w, ws x = false
def Bnd (ws : Char → Bool) (r : Str) : Prop := r = [] ∨ ∃ x r', r = x :: r' ∧ ws x = true

def H (ws : Char → Bool) (t n v : Str) : Prop := ∃ w r, t = w ++ r ∧ NonWs ws w ∧ Bnd ws r ∧ Opt w n v
def P (ws : Char → Bool) (s n v : Str) : Prop := ∃ w, WordIn ws s w ∧ Opt w n v

theorem takeWhile_stop {α : Type} {p : α → Bool} {a r : List α} (ha : ∀ x ∈ a, p x = true) (hr : ∀ x, r.head? = some x → p x = false) :
    (a ++ r).takeWhile p = a ∧ (a ++ r).dropWhile p = r := by
  induction a with
  | nil =>
    cases r with
    | nil => simp
    | cons x r => simp [hr x rfl]
  | cons x a ih =>
    have h1 := ha x (by simp)
    obtain ⟨h2, h3⟩ := ih (fun y hy => ha y (by simp [hy]))
    simp [h1, h2, h3]

theorem all_takeWhile {α : Type} (p : α → Bool) (l : List α) : ∀ x ∈ l.takeWhile p, p x = true := by
  induction l with
  | nil => simp
  | cons a l ih =>
    intro x hx
    simp only [List.takeWhile_cons] at hx
    split at hx
    · rcases List.mem_cons.1 hx with rfl | hx
      · assumption
      · exact ih x hx
    · cases hx

theorem head_dropWhile {α : Type} (p : α → Bool) (l : List α) : ∀ x, (l.dropWhile p).head? = some x → p x = false := by
  induction l with
  | nil => simp
  | cons a l ih =>
    intro x hx
    simp only [List.dropWhile_cons] at hx
    split at hx
    · exact ih x hx
    · rename_i h
      simp only [List.head?_cons, Option.some.injEq] at hx
      subst hx
      simpa using h

variable {ws : Char → Bool}

theorem opt_head {w n v : Str} (h : Opt w n v) : ∃ w', w = '-' :: w' := by
  obtain ⟨rest, ⟨rfl, -⟩, -⟩ := h
  exact ⟨_, rfl⟩

theorem H_ws (hws : WsOk ws) {x : Char} {t n v : Str} (hx : ws x = true) : ¬ H ws (x :: t) n v := by
  rintro ⟨w, r, h1, -, -, h2⟩
  obtain ⟨w', rfl⟩ := opt_head h2
  simp only [List.cons_append, List.cons.injEq] at h1
  exact (hws x hx).1 h1.1

theorem bnd_head (r : Str) (hr : Bnd ws r) : ∀ x, r.head? = some x → ws x = true := by
  rcases hr with rfl | ⟨x, r', rfl, h⟩
  · intro x h; cases h
  · intro y hy
    simp only [List.head?_cons, Option.some.injEq] at hy
    subst hy; exact h

theorem H_iff (hws : WsOk ws) (t n v : Str) : H ws t n v ↔ ∃ r, matchName t = some (n, r) ∧ (matchValue ws r).1 = v := by
  have nn : ∀ x, ws x = true → isNameChar x = false := by
    intro x hx
    obtain ⟨h1, -, -, h2⟩ := hws x hx
    cases e : isNameChar x with
    | false => rfl
    | true => rcases (isNameChar_iff x).1 e with h | h
              · exact absurd h h1
              · exact absurd h h2
  constructor
  · rintro ⟨w, r, rfl, hw, hr, rest, ⟨rfl, ⟨c, d, t', rfl, hc, hd⟩, hrest⟩, hv⟩
    have hrw : ∀ x ∈ rest, (!ws x) = true := fun x hx => by simp [hw x (by simp [hx])]
    have hstop : ∀ x, (rest ++ r).head? = some x → isNameChar x = false := by
      intro x hx
      cases rest with
      | nil => exact nn x (bnd_head r hr x (by simpa using hx))
      | cons y rest =>
        simp only [List.cons_append, List.head?_cons, Option.some.injEq] at hx
        subst hx
        obtain ⟨h1, h2⟩ := hrest y rfl
        cases e : isNameChar y with
        | false => rfl
        | true => rcases (isNameChar_iff y).1 e with h | h
                  · exact absurd h h1
                  · exact absurd h h2
    have hname : ∀ x ∈ d :: t', isNameChar x = true := fun x hx => (isNameChar_iff x).2 (hd x hx)
    obtain ⟨k1, k2⟩ := takeWhile_stop hname hstop
    refine ⟨rest ++ r, ?_, ?_⟩
    · have e : c!"--" ++ c :: d :: t' ++ rest ++ r = '-' :: '-' :: c :: (d :: t' ++ (rest ++ r)) := by simp
      rw [e]
      simp only [matchName]
      rw [if_pos]
      · rw [k1, k2]
      · have h0 := (isLetter_iff c).2 hc
        have h1 := hname d (by simp)
        simp [h0, h1]
    · have hb : ∀ x, r.head? = some x → (!ws x) = false := fun x hx => by simp [bnd_head r hr x hx]
      rcases hv with ⟨hv, hveq⟩ | ⟨h1, h2, rfl⟩
      · rw [hveq]; clear hveq
        rcases hv with hv | hv
        · cases rest with
          | nil => cases hv
          | cons y rest =>
            simp only [List.head?_cons, Option.some.injEq] at hv
            subst hv
            have := (takeWhile_stop (fun x hx => hrw x (by simp [hx])) hb : (rest ++ r).takeWhile (fun c => !ws c) = rest ∧ _).1
            simp [matchValue, this]
        · match rest, hv with
          | y :: z :: rest, hv =>
            simp only [List.take_succ_cons, List.take_zero, List.cons.injEq, and_true] at hv
            obtain ⟨rfl, rfl⟩ := hv
            have := (takeWhile_stop (fun x hx => hrw x (by simp [hx])) hb : (rest ++ r).takeWhile (fun c => !ws c) = rest ∧ _).1
            simp [matchValue, this]
      · match rest, h1, h2 with
        | [], _, _ =>
          rcases hr with rfl | ⟨x, r', rfl, hx⟩
          · rfl
          · obtain ⟨-, e2, e3, -⟩ := hws x hx
            simp only [List.nil_append]
            unfold matchValue
            split
            · rename_i h; cases h; exact absurd rfl e3
            · rename_i h; cases h; exact absurd rfl e2
            · rfl
        | [y], h1, _ =>
          simp only [List.cons_append, List.nil_append]
          unfold matchValue
          split
          · rename_i h
            cases h
            exact absurd rfl (hws '=' (bnd_head _ hr '=' rfl)).2.1
          · rename_i h; cases h; exact absurd rfl h1
          · rfl
        | y :: z :: rest, h1, h2 =>
          simp only [List.cons_append]
          unfold matchValue
          split
          · rename_i h; cases h; exact absurd rfl h2
          · rename_i h; cases h; exact absurd rfl h1
          · rfl
  · rintro ⟨r, h1, h2⟩
    unfold matchName at h1
    split at h1
    · rename_i c s
      split at h1
      · rename_i hc
        simp only [Option.some.injEq, Prod.mk.injEq] at h1
        obtain ⟨rfl, rfl⟩ := h1
        simp only [Bool.and_eq_true] at hc
        obtain ⟨hc1, hc2⟩ := hc
        generalize hr : s.dropWhile isNameChar = r at h2
        have hs : s = s.takeWhile isNameChar ++ r := by rw [← hr, List.takeWhile_append_dropWhile]
        have hrs : r = r.takeWhile (fun c => !ws c) ++ r.dropWhile (fun c => !ws c) := (List.takeWhile_append_dropWhile).symm
        have hletter : ∀ x, Letter x → ws x = false := by
          intro x hx
          cases e : ws x with
          | false => rfl
          | true => exact absurd hx (hws x e).2.2.2
        have hdash : ws '-' = false := by
          cases e : ws '-' with
          | false => rfl
          | true => exact absurd rfl (hws _ e).1
        have heq : ws '=' = false := by
          cases e : ws '=' with
          | false => rfl
          | true => exact absurd rfl (hws _ e).2.1
        have hbr : ws '[' = false := by
          cases e : ws '[' with
          | false => rfl
          | true => exact absurd rfl (hws _ e).2.2.1
        have hnm : ∀ x ∈ s.takeWhile isNameChar, ws x = false := by
          intro x hx
          rcases (isNameChar_iff x).1 (all_takeWhile _ _ x hx) with rfl | h
          · exact hdash
          · exact hletter x h
        refine ⟨'-' :: '-' :: c :: (s.takeWhile isNameChar ++ r.takeWhile (fun c => !ws c)), r.dropWhile (fun c => !ws c), ?_, ?_, ?_,
          r.takeWhile (fun c => !ws c), ⟨by simp, ?_, ?_⟩, ?_⟩
        · simp only [List.cons_append, List.append_assoc, List.cons.injEq, true_and]
          rw [← hrs]; exact hs
        · intro x hx
          simp only [List.mem_cons, List.mem_append] at hx
          rcases hx with rfl | rfl | rfl | hx | hx
          · exact hdash
          · exact hdash
          · exact hletter _ ((isLetter_iff _).1 hc1)
          · exact hnm x hx
          · simpa using all_takeWhile _ _ x hx
        · cases e : r.dropWhile (fun c => !ws c) with
          | nil => exact .inl rfl
          | cons x r' =>
            refine .inr ⟨x, r', rfl, ?_⟩
            have := head_dropWhile (fun c => !ws c) r x (by rw [e]; rfl)
            simpa using this
        · cases s with
          | nil => simp at hc2
          | cons d s =>
            simp only [List.head?_cons, Option.map_some, Option.getD_some] at hc2
            refine ⟨c, d, s.takeWhile isNameChar, by simp [hc2], (isLetter_iff c).1 hc1, ?_⟩
            intro x hx
            rcases List.mem_cons.1 hx with rfl | hx
            · exact (isNameChar_iff _).1 hc2
            · exact (isNameChar_iff _).1 (all_takeWhile _ _ x hx)
        · intro x hx
          have hx' : r.head? = some x := by
            cases r with
            | nil => cases hx
            | cons y r =>
              simp only [List.takeWhile_cons] at hx
              split at hx
              · exact hx
              · cases hx
          have := head_dropWhile isNameChar s x (by rw [hr]; exact hx')
          constructor
          · rintro rfl; simp [isNameChar] at this
          · intro hl; rw [(isNameChar_iff x).2 (.inr hl)] at this; cases this
        · subst h2
          unfold matchValue
          split
          · left
            simp [heq, hbr]
          · left
            simp [heq]
          · rename_i n1 n2
            right
            refine ⟨?_, ?_, rfl⟩
            · intro e
              cases r with
              | nil => cases e
              | cons y r =>
                simp only [List.takeWhile_cons] at e
                split at e
                · simp only [List.head?_cons, Option.some.injEq] at e
                  subst e; exact n2 r rfl
                · cases e
            · intro e
              match r, n1, n2 with
              | [], _, _ => cases e
              | [y], _, _ =>
                simp only [List.takeWhile_cons, List.takeWhile_nil] at e
                split at e <;> simp at e
              | y :: z :: r, n1, _ =>
                simp only [List.takeWhile_cons] at e
                split at e
                · split at e
                  · simp only [List.take_succ_cons, List.take_zero, List.cons.injEq, and_true] at e
                    obtain ⟨rfl, rfl⟩ := e
                    exact n1 r rfl
                  · simp at e
                · simp at e
      · cases h1
    · cases h1

theorem P_nil (n v : Str) : ¬ P ws [] n v := by
  rintro ⟨w, ⟨a, c, r, h, -⟩, -⟩
  simp at h

theorem P_nonws {x : Char} (hx : ws x = false) (t n v : Str) : P ws (x :: t) n v ↔ P ws t n v := by
  constructor
  · rintro ⟨w, ⟨a, c, r, h, hc, hw⟩, ho⟩
    cases a with
    | nil =>
      simp only [List.nil_append, List.cons.injEq] at h
      rw [h.1, hc] at hx; cases hx
    | cons y a =>
      simp only [List.cons_append, List.cons.injEq] at h
      exact ⟨w, ⟨a, c, r, h.2, hc, hw⟩, ho⟩
  · rintro ⟨w, ⟨a, c, r, h, hc, hw⟩, ho⟩
    exact ⟨w, ⟨x :: a, c, r, by rw [h]; rfl, hc, hw⟩, ho⟩

theorem P_ws {x : Char} (hx : ws x = true) (t n v : Str) : P ws (x :: t) n v ↔ H ws t n v ∨ P ws t n v := by
  constructor
  · rintro ⟨w, ⟨a, c, r, h, hc, h0, hw, hr⟩, ho⟩
    cases a with
    | nil =>
      simp only [List.nil_append, List.cons.injEq] at h
      exact .inl ⟨w, r, h.2, hw, hr, ho⟩
    | cons y a =>
      simp only [List.cons_append, List.cons.injEq] at h
      exact .inr ⟨w, ⟨a, c, r, h.2, hc, h0, hw, hr⟩, ho⟩
  · rintro (⟨w, r, h, hw, hr, ho⟩ | ⟨w, ⟨a, c, r, h, hc, hw⟩, ho⟩)
    · obtain ⟨w', rfl⟩ := opt_head ho
      exact ⟨_, ⟨[], x, r, by rw [h]; rfl, hx, by simp, hw, hr⟩, ho⟩
    · exact ⟨w, ⟨x :: a, c, r, by rw [h]; rfl, hc, hw⟩, ho⟩

theorem P_skip {u : Str} (hu : NonWs ws u) (t n v : Str) : P ws (u ++ t) n v ↔ P ws t n v := by
  induction u with
  | nil => rfl
  | cons x u ih =>
    rw [List.cons_append, P_nonws (hu x (by simp))]
    exact ih (fun y hy => hu y (by simp [hy]))

theorem P_run (hws : WsOk ws) {sp : Str} (hsp : ∀ x ∈ sp, ws x = true) {x : Char} (hx : ws x = true) (rest n v : Str) :
    P ws (x :: (sp ++ rest)) n v ↔ H ws rest n v ∨ P ws rest n v := by
  induction sp generalizing x with
  | nil => exact P_ws hx rest n v
  | cons y sp ih =>
    rw [List.cons_append, P_ws hx, ih (fun z hz => hsp z (by simp [hz])) (hsp y (by simp))]
    have := H_ws (ws := ws) hws (x := y) (t := sp ++ rest) (n := n) (v := v) (hsp y (by simp))
    constructor
    · rintro (h | h)
      · exact absurd h this
      · exact h
    · exact .inr

/-- What a match consumes contains no white space. -/
theorem matched (hws : WsOk ws) {s n r : Str} (h : matchName s = some (n, r)) :
    ∃ u, s = u ++ (matchValue ws r).2 ∧ NonWs ws u := by
  have hletter : ∀ x, isNameChar x = true → ws x = false := by
    intro x hx
    cases e : ws x with
    | false => rfl
    | true =>
      obtain ⟨h1, -, -, h2⟩ := hws x e
      rcases (isNameChar_iff x).1 hx with h | h
      · exact absurd h h1
      · exact absurd h h2
  unfold matchName at h
  split at h
  · rename_i c s
    split at h
    · rename_i hc
      simp only [Bool.and_eq_true] at hc
      simp only [Option.some.injEq, Prod.mk.injEq] at h
      obtain ⟨rfl, rfl⟩ := h
      have hs : s = s.takeWhile isNameChar ++ s.dropWhile isNameChar := (List.takeWhile_append_dropWhile).symm
      generalize s.dropWhile isNameChar = r at hs
      have h1 : ∃ u, r = u ++ (matchValue ws r).2 ∧ NonWs ws u := by
        unfold matchValue
        split
        · rename_i t
          refine ⟨'[' :: '=' :: t.takeWhile (fun c => !ws c), by simp, ?_⟩
          intro x hx
          rcases List.mem_cons.1 hx with rfl | hx
          · cases e : ws '[' with
            | false => rfl
            | true => exact absurd rfl (hws _ e).2.2.1
          · rcases List.mem_cons.1 hx with rfl | hx
            · cases e : ws '=' with
              | false => rfl
              | true => exact absurd rfl (hws _ e).2.1
            · simpa using all_takeWhile _ _ x hx
        · rename_i t
          refine ⟨'=' :: t.takeWhile (fun c => !ws c), by simp, ?_⟩
          intro x hx
          rcases List.mem_cons.1 hx with rfl | hx
          · cases e : ws '=' with
            | false => rfl
            | true => exact absurd rfl (hws _ e).2.1
          · simpa using all_takeWhile _ _ x hx
        · exact ⟨[], rfl, by intro x hx; cases hx⟩
      obtain ⟨u, hu, hn⟩ := h1
      refine ⟨'-' :: '-' :: c :: (s.takeWhile isNameChar ++ u), ?_, ?_⟩
      · simp only [List.cons_append, List.append_assoc, List.cons.injEq, true_and]
        rw [← hu]; exact hs
      · intro x hx
        simp only [List.mem_cons, List.mem_append] at hx
        rcases hx with rfl | rfl | rfl | hx | hx
        · exact hletter _ rfl
        · exact hletter _ rfl
        · exact hletter _ ((isNameChar_iff _).2 (.inr ((isLetter_iff _).1 hc.1)))
        · exact hletter x (all_takeWhile _ _ x hx)
        · exact hn x hx
    · cases h
  · cases h

theorem mem_findallN (hws : WsOk ws) (f : Nat) (s : Str) (hf : s.length ≤ f) (n v : Str) :
    (n, v) ∈ findallN ws f s ↔ P ws s n v := by
  induction f generalizing s with
  | zero =>
    cases s with
    | nil => simp [findallN, P_nil]
    | cons c t => simp at hf
  | succ f ih =>
    cases s with
    | nil => simp [findallN, P_nil]
    | cons c t =>
      simp only [List.length_cons, Nat.add_le_add_iff_right] at hf
      simp only [findallN]
      cases hc : ws c with
      | false =>
        simp only [matchAt, hc, Bool.false_eq_true, if_false]
        rw [ih t hf, P_nonws hc]
      | true =>
        have ht : t = t.takeWhile ws ++ t.dropWhile ws := (List.takeWhile_append_dropWhile).symm
        have hP : P ws (c :: t) n v ↔ H ws (t.dropWhile ws) n v ∨ P ws (t.dropWhile ws) n v := by
          have := P_run hws (all_takeWhile ws t) hc (t.dropWhile ws) n v
          rwa [← ht] at this
        cases hm : matchName (t.dropWhile ws) with
        | none =>
          simp only [matchAt, hc, if_true, hm]
          rw [ih t hf, P_ws hc]
          constructor
          · exact .inr
          · rintro (h | h)
            · exfalso
              cases t with
              | nil =>
                obtain ⟨r, h1, -⟩ := (H_iff hws [] n v).1 h
                simp [matchName] at h1
              | cons y t =>
                cases hy : ws y with
                | true => exact H_ws hws hy h
                | false =>
                  obtain ⟨r, h1, -⟩ := (H_iff hws _ n v).1 h
                  simp only [List.dropWhile_cons, hy, Bool.false_eq_true, if_false] at hm
                  rw [hm] at h1; cases h1
            · exact h
        | some x =>
          obtain ⟨n0, r⟩ := x
          simp only [matchAt, hc, if_true, hm, List.mem_cons]
          obtain ⟨u, hu, hn⟩ := matched hws hm
          have hlen : (matchValue ws r).2.length ≤ f := by
            have h1 := congrArg List.length hu
            have h2 := congrArg List.length ht
            simp only [List.length_append] at h1 h2
            omega
          rw [ih _ hlen, hP, H_iff hws, hm]
          have hskip : P ws (t.dropWhile ws) n v ↔ P ws (matchValue ws r).2 n v := by
            have := P_skip hn (matchValue ws r).2 n v
            rwa [← hu] at this
          rw [hskip]
          constructor
          · rintro (h | h)
            · cases h; exact .inl ⟨r, rfl, rfl⟩
            · exact .inr h
          · rintro (⟨r', h1, h2⟩ | h)
            · cases h1; exact .inl (by rw [h2])
            · exact .inr h

theorem mem_findall (hws : WsOk ws) (s n v : Str) : (n, v) ∈ findall ws s ↔ P ws s n v := mem_findallN hws _ s (Nat.le_refl _) n v

end Pieshell.Sgn
