import Verif.Lemmas.Writer2
/-! Lemmas for `C40_at_most_one`. -/
namespace Pieshell.Io.Writer

theorem afterClose_append_open {t : List Ev} (h : Ev.close ∉ t) (u : List Ev) : afterClose (t ++ u) = afterClose u := by
  induction t with
  | nil => rfl
  | cons e t ih =>
    simp only [List.mem_cons, not_or] at h
    cases e <;> first | exact absurd rfl h.1 | exact ih h.2

theorem afterClose_append_closed {t : List Ev} (h : Ev.close ∈ t) (u : List Ev) : afterClose (t ++ u) = afterClose t ++ u := by
  induction t with
  | nil => cases h
  | cons e t ih =>
    cases e
    case close => rfl
    all_goals exact ih (by simpa using h)

/-- requests and writes after the closing -/
def reqs (t : List Ev) : Nat := (afterClose t).count .request
def late (t : List Ev) : Nat := (attempted (afterClose t)).length

theorem reqs_closed {t : List Ev} (h : Ev.close ∈ t) (u : List Ev) : reqs (t ++ u) = reqs t + u.count .request := by
  rw [reqs, afterClose_append_closed h, List.count_append, reqs]

theorem late_closed {t : List Ev} (h : Ev.close ∈ t) (u : List Ev) : late (t ++ u) = late t + (attempted u).length := by
  rw [late, afterClose_append_closed h, attempted_append, List.length_append, late]

/-- the shape of the queue -/
structure Shape (s : St) : Prop where
  noE : H.E ∉ s.nxt
  last : H.E ∉ s.cur ∨ ∃ l, s.cur = l ++ [.E] ∧ H.E ∉ l ∧ H.T ∉ s.nxt
  one : s.cur.count .T + s.nxt.count .T ≤ 1

/-- what has happened since the descriptor was closed, and what may still happen -/
structure Late (s : St) : Prop where
  req : s.destroyed = true → reqs s.trace + (s.cur.count .T + s.nxt.count .T) ≤ 1
  wr : s.destroyed = true → late s.trace + (if s.susp = .no then 0 else 1) ≤ reqs s.trace
  close : s.destroyed = true ↔ Ev.close ∈ s.trace
  once : Ev.close ∉ afterClose s.trace

/-- What the end of `send_output` does: it logs some events without requests, and may close the descriptor. -/
structure Completes (s s' : St) : Prop where
  susp : s'.susp = .no
  nxt : s'.nxt = s.nxt
  closed : s.destroyed = true → s'.destroyed = true ∧ s'.cur = s.cur ∧ ∃ u, s'.trace = s.trace ++ u ∧ u.count .request = 0 ∧ (attempted u).length ≤ 1 ∧ Ev.close ∉ u
  opened : s.destroyed = false → (s'.destroyed = false ∧ s'.cur = s.cur ∧ ∃ u, s'.trace = s.trace ++ u ∧ Ev.close ∉ u) ∨
    (s'.destroyed = true ∧ s'.cur = s.cur.filter (· ≠ .E) ∧ ∃ u, s'.trace = s.trace ++ u ++ [.close] ∧ Ev.close ∉ u)

theorem destroy_when_closed {s : St} (h : s.destroyed = true) (d : Done) : (destroy s d).destroyed = true ∧ (destroy s d).cur = s.cur ∧ (destroy s d).trace = s.trace ∧
    (destroy s d).nxt = s.nxt ∧ (destroy s d).susp = s.susp := by
  unfold destroy; dsimp only; split <;> simp [h]

theorem destroy_when_open {s : St} (h : s.destroyed = false) (d : Done) : (destroy s d).destroyed = true ∧ (destroy s d).cur = s.cur.filter (· ≠ .E) ∧
    (destroy s d).trace = s.trace ++ [.close] ∧ (destroy s d).nxt = s.nxt ∧ (destroy s d).susp = s.susp := by
  unfold destroy; dsimp only; split <;> simp [h]

theorem complete_completes (s : St) : Completes s (complete s) := by
  unfold complete
  dsimp only
  split
  · constructor
    · exact (destroy_queue _ _).2.2
    · exact (destroy_queue _ _).2.1
    · intro h
      obtain ⟨h1, h2, h3, _⟩ := destroy_when_closed (s := St.log { s with susp := .no } (.response none)) h .ok
      exact ⟨h1, h2, [.response none], by rw [h3]; rfl, rfl, by simp [attempted], by simp⟩
    · intro h
      right
      obtain ⟨h1, h2, h3, _⟩ := destroy_when_open (s := St.log { s with susp := .no } (.response none)) h .ok
      exact ⟨h1, h2, [.response none], by rw [h3]; rfl, by simp⟩
  · constructor
    · exact (destroy_queue _ _).2.2
    · exact (destroy_queue _ _).2.1
    · intro h
      obtain ⟨h1, h2, h3, _⟩ := destroy_when_closed (s := St.log { s with susp := .no, items := [] } (.response (some .fail))) h .exc
      exact ⟨h1, h2, [.response (some .fail)], by rw [h3]; rfl, rfl, by simp [attempted], by simp⟩
    · intro h
      right
      obtain ⟨h1, h2, h3, _⟩ := destroy_when_open (s := St.log { s with susp := .no, items := [] } (.response (some .fail))) h .exc
      exact ⟨h1, h2, [.response (some .fail)], by rw [h3]; rfl, by simp⟩
  · constructor
    · rfl
    · rfl
    · intro h; exact ⟨h, rfl, [.response (some .skip)], rfl, rfl, by simp [attempted], by simp⟩
    · intro h; exact .inl ⟨h, rfl, [.response (some .skip)], rfl, by simp⟩
  · rename_i b rest _
    generalize hs2 : St.log { s with susp := .no, items := rest, lock := false } (.response (some (.item b))) = s2
    have e1 : s2.cur = s.cur := by rw [← hs2]; rfl
    have e2 : s2.nxt = s.nxt := by rw [← hs2]; rfl
    have e3 : s2.susp = .no := by rw [← hs2]; rfl
    have e4 : s2.trace = s.trace ++ [.response (some (.item b))] := by rw [← hs2]; rfl
    have e5 : s2.destroyed = s.destroyed := by rw [← hs2]; rfl
    generalize b ++ s.suffix = bb
    constructor
    · rw [(write_queue _ _).2.2, e3]
    · rw [(write_queue _ _).2.1, e2]
    · intro h
      have hd : s2.destroyed = true := by rw [e5, h]
      unfold write
      rw [if_pos hd]
      obtain ⟨h1, h2, h3, _⟩ := destroy_when_closed (s := s2.log (.badWrite bb)) hd .exc
      refine ⟨h1, by rw [h2]; exact e1, [.response (some (.item b)), .badWrite bb], ?_, by simp, by simp [attempted], by simp⟩
      rw [h3]; simp [St.log, e4]
    · intro h
      have hd : s2.destroyed = false := by rw [e5, h]
      unfold write
      rw [if_neg (by simp [hd])]
      split
      · right
        obtain ⟨h1, h2, h3, _⟩ := destroy_when_open (s := s2.log (.epipe bb)) hd .exc
        refine ⟨h1, by rw [h2]; simp [St.log, e1], [.response (some (.item b)), .epipe bb], ?_, by simp⟩
        rw [h3]; simp [St.log, e4]
      · left
        refine ⟨hd, e1, [.response (some (.item b)), .write bb], ?_, by simp⟩
        simp [e4]

theorem count_filter_T (l : List H) : (l.filter (· ≠ .E)).count .T = l.count .T := by
  rw [List.count_filter]; simp

theorem completes_shape {s s' : St} (h : Completes s s') (hs : Shape s) : Shape s' := by
  cases hd : s.destroyed with
  | true =>
    obtain ⟨_, hc, _⟩ := h.closed hd
    exact ⟨by rw [h.nxt]; exact hs.noE, by rw [h.nxt, hc]; exact hs.last, by rw [h.nxt, hc]; exact hs.one⟩
  | false =>
    rcases h.opened hd with ⟨_, hc, _⟩ | ⟨_, hc, _⟩
    · exact ⟨by rw [h.nxt]; exact hs.noE, by rw [h.nxt, hc]; exact hs.last, by rw [h.nxt, hc]; exact hs.one⟩
    · refine ⟨by rw [h.nxt]; exact hs.noE, .inl ?_, by rw [h.nxt, hc, count_filter_T]; exact hs.one⟩
      rw [hc]; simp

/-- `sus`: the task was suspended before, so that its request is an earlier one -/
theorem completes_late {s s' : St} (h : Completes s s') (hs : Shape s) (hl : Late s) (sus : s.susp ≠ .no) : Late s' := by
  cases hd : s.destroyed with
  | true =>
    obtain ⟨h1, hc, u, h2, h3, h4, h5⟩ := h.closed hd
    have hcl := hl.close.1 hd
    refine ⟨fun _ => ?_, fun _ => ?_, ⟨fun _ => by rw [h2]; simp [hcl], fun _ => h1⟩, by
      rw [h2, afterClose_append_closed hcl, List.mem_append]; rintro (e | e); exact hl.once e; exact h5 e⟩
    · rw [h2, reqs_closed hcl, h3, hc, h.nxt]; exact hl.req hd
    · rw [h2, reqs_closed hcl, late_closed hcl, h3, h.susp]
      have := hl.wr hd
      rw [if_neg sus] at this
      simp; omega
  | false =>
    have hno : Ev.close ∉ s.trace := fun hm => by have := hl.close.2 hm; rw [hd] at this; cases this
    rcases h.opened hd with ⟨h1, hc, u, h2, h3⟩ | ⟨h1, hc, u, h2, h3⟩
    · refine ⟨fun e => ?_, fun e => ?_, ⟨fun e => ?_, fun e => ?_⟩, by
        have : afterClose u = [] := by
          have := afterClose_append_open h3 []
          simpa [afterClose] using this
        rw [h2, afterClose_append_open hno, this]; simp⟩
      · rw [h1] at e; cases e
      · rw [h1] at e; cases e
      · rw [h1] at e; cases e
      · rw [h2, List.mem_append] at e; rcases e with e | e
        · exact absurd e hno
        · exact absurd e h3
    · have hno2 : Ev.close ∉ s.trace ++ u := by rw [List.mem_append]; rintro (e | e); exact hno e; exact h3 e
      have e0 : afterClose s'.trace = [] := by rw [h2, afterClose_append_open hno2]; rfl
      refine ⟨fun _ => ?_, fun _ => ?_, ⟨fun _ => by rw [h2]; simp, fun _ => h1⟩, by rw [e0]; simp⟩
      · rw [reqs, e0, hc, h.nxt, count_filter_T]; simpa using hs.one
      · rw [late, reqs, e0, h.susp]; simp [attempted]

theorem shape_late_init (suffix : Bytes) (ps : List Prod) (cap fill : Nat) : Shape (init suffix ps cap fill) ∧ Late (init suffix ps cap fill) := by
  constructor <;> constructor <;> simp [init, afterClose]

/-- taking a handle that is not `E` from the queue -/
theorem shape_pop {s : St} (hs : Shape s) {h : H} {hs' : List H} (hc : s.cur = h :: hs') (hE : h ≠ .E) : Shape { s with cur := hs' } := by
  refine ⟨hs.noE, ?_, ?_⟩
  · rcases hs.last with h1 | ⟨l, h1, h2, h3⟩
    · left; rw [hc] at h1; exact fun hm => h1 (List.mem_cons_of_mem _ hm)
    · right
      rw [hc] at h1
      cases l with
      | nil => simp at h1; exact absurd h1.1 hE
      | cons x l => simp at h1; exact ⟨l, h1.2, fun hm => h2 (List.mem_cons_of_mem _ hm), h3⟩
  · have := hs.one
    rw [hc, List.count_cons] at this
    show hs'.count .T + s.nxt.count .T ≤ 1
    omega

theorem step_late {ps : List Prod} {s : St} (hi : Inv ps s) (q : Q s) (hs : Shape s) (hl : Late s) (a : Act) : Shape (step s a) ∧ Late (step s a) := by
  cases a with
  | poll =>
    unfold step
    dsimp only
    split
    · rename_i hc
      have hT : s.nxt.count .T ≤ 1 := by have := hs.one; rw [hc] at this; simpa using this
      have cnt : (s.nxt ++ (if s.ready then [H.E] else [])).count .T = s.nxt.count .T := by
        rw [List.count_append]; split <;> simp
      refine ⟨⟨by simp, ?_, ?_⟩, ⟨?_, hl.wr, hl.close, hl.once⟩⟩
      · by_cases hr : s.ready = true
        · exact .inr ⟨s.nxt, by simp [hr], hs.noE, by simp⟩
        · left; simp [hr, hs.noE]
      · show (s.nxt ++ _).count .T + 0 ≤ 1
        rw [cnt]; exact hT
      · intro hd
        have := hl.req hd
        rw [hc] at this
        show reqs s.trace + ((s.nxt ++ _).count .T + 0) ≤ 1
        rw [cnt]; simpa using this
    · exact ⟨hs, hl⟩
  | run sus =>
    unfold step
    dsimp only
    split
    · exact ⟨hs, hl⟩
    · rename_i h hs' hc
      cases h with
      | E =>
        unfold runHandle
        dsimp only
        have hEc : H.E ∈ s.cur := by rw [hc]; simp
        have hnil : hs' = [] ∧ H.T ∉ s.nxt := by
          rcases hs.last with h1 | ⟨l, h1, h2, h3⟩
          · exact absurd hEc h1
          · rw [hc] at h1
            cases l with
            | nil => simp at h1; exact ⟨h1, h3⟩
            | cons x l => simp at h1; exact absurd (by simp [h1.1]) h2
        have hnd : s.destroyed = false := by
          cases hd : s.destroyed with
          | false => rfl
          | true => exact absurd hEc (hi.queue (hi.closed.1 hd))
        obtain ⟨rfl, hT⟩ := hnil
        have hT0 : s.nxt.count .T = 0 := List.count_eq_zero.2 hT
        refine ⟨⟨by simp [hs.noE], .inl (by simp), by simp [List.count_append, hT0]⟩, ⟨?_, ?_, hl.close, hl.once⟩⟩
        · intro hd; rw [show s.destroyed = true from hd] at hnd; cases hnd
        · intro hd; rw [show s.destroyed = true from hd] at hnd; cases hnd
      | T =>
        have hcT : s.cur.count .T = hs'.count .T + 1 := by rw [hc]; simp
        unfold runHandle
        dsimp only
        have hs1 := shape_pop hs hc (by simp)
        have hT0 : hs'.count .T + s.nxt.count .T = 0 := by have := hs.one; omega
        unfold sendOutput
        split
        · refine ⟨hs1, ⟨?_, hl.wr, hl.close, hl.once⟩⟩
          intro hd
          have := hl.req hd
          show reqs s.trace + (hs'.count .T + s.nxt.count .T) ≤ 1
          omega
        · rename_i hlock
          have hsusp : s.susp = .no := by
            cases h : s.susp with
            | no => rfl
            | _ => exact absurd (hi.lockSusp (by simp [h])) hlock
          -- the state after the request
          generalize hg : (St.log { s with cur := hs', lock := true } .request) = g
          have g1 : g.cur = hs' := by rw [← hg]; rfl
          have g2 : g.nxt = s.nxt := by rw [← hg]; rfl
          have g3 : g.destroyed = s.destroyed := by rw [← hg]; rfl
          have g4 : g.trace = s.trace ++ [.request] := by rw [← hg]; rfl
          have sg : Shape g := ⟨by rw [g2]; exact hs1.noE, by rw [g1, g2]; exact hs1.last, by rw [g1, g2]; exact hs1.one⟩
          -- as if suspended: one request is outstanding
          have lg : ∀ g' : St, g'.cur = g.cur → g'.nxt = g.nxt → g'.destroyed = g.destroyed → g'.trace = g.trace → g'.susp ≠ .no → Late g' := by
            intro g' a1 a2 a3 a4 a5
            refine ⟨?_, ?_, ?_, ?_⟩
            · intro hd
              rw [a3, g3] at hd
              have := hl.req hd
              rw [a1, a2, a4, g1, g2, g4, reqs_closed (hl.close.1 hd)]
              simp
              omega
            · intro hd
              rw [a3, g3] at hd
              have := hl.wr hd
              rw [hsusp] at this
              rw [a4, g4, reqs_closed (hl.close.1 hd), late_closed (hl.close.1 hd), if_neg a5]
              simp [attempted] at this ⊢
              omega
            · rw [a3, g3, a4, g4, hl.close]; simp
            · rw [a4, g4]
              by_cases hcl : Ev.close ∈ s.trace
              · rw [afterClose_append_closed hcl]; simpa using hl.once
              · rw [afterClose_append_open hcl]; simp [afterClose]
          split
          · exact ⟨⟨sg.noE, sg.last, sg.one⟩, lg _ rfl rfl rfl rfl (by simp)⟩
          · have hcomp := complete_completes g
            have hcomp' : Completes { g with susp := .yes } (complete g) := ⟨hcomp.susp, hcomp.nxt, hcomp.closed, hcomp.opened⟩
            exact ⟨completes_shape hcomp sg, completes_late hcomp' ⟨sg.noE, sg.last, sg.one⟩ (lg { g with susp := .yes } rfl rfl rfl rfl (by simp)) (by simp)⟩
      | W =>
        have hcW : s.cur.count .T = hs'.count .T := by rw [hc]; simp
        have hq : s.susp = .queued := by
          have := q.w
          rw [hc] at this
          by_cases h : s.susp = .queued
          · exact h
          · rw [if_neg h] at this; simp at this
        unfold runHandle
        dsimp only
        have hs1 := shape_pop hs hc (by simp)
        have hl1 : ∀ x : Susp, x ≠ .no → Late { s with cur := hs', susp := x } := by
          intro x hx
          refine ⟨?_, ?_, hl.close, hl.once⟩
          · intro hd
            have := hl.req hd
            show reqs s.trace + (hs'.count .T + s.nxt.count .T) ≤ 1
            omega
          · intro hd
            have := hl.wr hd
            rw [hq] at this
            simpa [hx] using this
        split
        · exact ⟨⟨hs1.noE, hs1.last, hs1.one⟩, hl1 .yes (by simp)⟩
        · have hcomp := complete_completes { s with cur := hs' }
          have hlq := hl1 .queued (by simp)
          have e : ({ s with cur := hs', susp := .queued } : St) = { s with cur := hs' } := by
            cases s; simp at hq ⊢; exact hq.symm
          rw [e] at hlq
          exact ⟨completes_shape hcomp hs1, completes_late hcomp hs1 hlq (by show s.susp ≠ .no; simp [hq])⟩
  | wake =>
    unfold step
    dsimp only
    split
    · rename_i hy
      refine ⟨⟨by simp [hs.noE], ?_, by simpa [List.count_append] using hs.one⟩, ⟨?_, ?_, hl.close, hl.once⟩⟩
      · rcases hs.last with h | ⟨l, h1, h2, h3⟩
        · exact .inl h
        · exact .inr ⟨l, h1, h2, by simp [h3]⟩
      · intro hd; simpa [List.count_append] using hl.req hd
      · intro hd; have := hl.wr hd; rw [hy] at this; simpa using this
    · exact ⟨hs, hl⟩
  | drain n => exact ⟨⟨hs.noE, hs.last, hs.one⟩, ⟨hl.req, hl.wr, hl.close, hl.once⟩⟩
  | readerGone => exact ⟨⟨hs.noE, hs.last, hs.one⟩, ⟨hl.req, hl.wr, hl.close, hl.once⟩⟩

theorem run_late {ps : List Prod} (as : List Act) : ∀ {s : St}, Inv ps s → Q s → Shape s → Late s → Late (run s as) := by
  induction as with
  | nil => intro s _ _ _ hl; exact hl
  | cons a as ih =>
    intro s hi q hs hl
    obtain ⟨h1, h2⟩ := inv_q_step hi q a
    obtain ⟨h3, h4⟩ := step_late hi q hs hl a
    exact ih h1 h2 h3 h4

end Pieshell.Io.Writer
