import Verif.Lemmas.Writer

/-! Lemmas for C40 and C42. -/
namespace Pieshell.Io.Writer

/-! ### constants -/

theorem destroy_suffix (s : St) (d : Done) : (destroy s d).suffix = s.suffix := by
  unfold destroy; dsimp only; split <;> split <;> rfl

theorem write_suffix (s : St) (b : Bytes) : (write s b).suffix = s.suffix := by
  unfold write
  split
  · exact destroy_suffix _ _
  · split
    · exact destroy_suffix _ _
    · rfl

theorem complete_suffix (s : St) : (complete s).suffix = s.suffix := by
  unfold complete
  dsimp only
  split
  · exact destroy_suffix _ _
  · exact destroy_suffix _ _
  · rfl
  · exact write_suffix _ _

theorem step_suffix (s : St) (a : Act) : (step s a).suffix = s.suffix := by
  cases a <;> unfold step <;> dsimp only
  · split <;> rfl
  · split
    · rfl
    · rename_i h hs _
      cases h <;> unfold runHandle <;> dsimp only
      · unfold sendOutput
        split
        · rfl
        · split
          · rfl
          · exact complete_suffix _
      · split
        · rfl
        · exact complete_suffix _
  · split <;> rfl

theorem run_suffix (as : List Act) : ∀ s : St, (run s as).suffix = s.suffix := by
  induction as with
  | nil => intro s; rfl
  | cons a as ih => intro s; exact (ih (step s a)).trans (step_suffix s a)

theorem destroy_readerGone (s : St) (d : Done) : (destroy s d).readerGone = s.readerGone := by
  unfold destroy; dsimp only; split <;> split <;> rfl

theorem write_readerGone (s : St) (b : Bytes) : (write s b).readerGone = s.readerGone := by
  unfold write
  split
  · exact destroy_readerGone _ _
  · split
    · exact destroy_readerGone _ _
    · rfl

theorem complete_readerGone (s : St) : (complete s).readerGone = s.readerGone := by
  unfold complete
  dsimp only
  split
  · exact destroy_readerGone _ _
  · exact destroy_readerGone _ _
  · rfl
  · exact write_readerGone _ _

theorem step_readerGone (s : St) (a : Act) (ha : a ≠ .readerGone) : (step s a).readerGone = s.readerGone := by
  cases a <;> unfold step <;> dsimp only
  · split <;> rfl
  · split
    · rfl
    · rename_i h hs _
      cases h <;> unfold runHandle <;> dsimp only
      · unfold sendOutput
        split
        · rfl
        · split
          · rfl
          · exact complete_readerGone _
      · split
        · rfl
        · exact complete_readerGone _
  · split <;> rfl
  · exact absurd rfl ha

/-! ### quietness -/

/-- `t'` extends `t` by events, of which at most the last closes the descriptor. -/
def Ext (t t' : List Ev) : Prop := ∃ l, Ev.close ∉ l ∧ (t' = t ++ l ∨ t' = t ++ l ++ [.close])

theorem ext_refl (t : List Ev) : Ext t t := ⟨[], by simp, Or.inl (by simp)⟩

theorem ext_cons {t t' : List Ev} {e : Ev} (he : e ≠ .close) (h : Ext (t ++ [e]) t') : Ext t t' := by
  obtain ⟨l, h1, h2⟩ := h
  refine ⟨e :: l, ?_, ?_⟩
  · simp only [List.mem_cons, not_or]; exact ⟨fun x => he x.symm, h1⟩
  · simpa using h2

theorem ext_quiet {t t' : List Ev} (h : Ext t t') (hn : Ev.close ∉ t) : quietAfterClose t' = true := by
  obtain ⟨l, h1, h2⟩ := h
  have hno : Ev.close ∉ t ++ l := by simp [hn, h1]
  have : ∀ u : List Ev, Ev.close ∉ u → quietAfterClose u = true := by
    intro u hu
    rcases List.eq_nil_or_concat u with e | ⟨v, x, e⟩
    · subst e; rfl
    · subst e
      rw [List.concat_eq_append] at hu ⊢
      apply quiet_append_before
      intro h; apply hu; simp [h]
  rcases h2 with e | e
  · rw [e]; exact this _ hno
  · rw [e]; exact quiet_append_before hno _

theorem destroy_ext (s : St) (d : Done) : Ext s.trace (destroy s d).trace := by
  unfold destroy
  dsimp only
  split <;> split
  · exact ext_refl _
  · exact ⟨[], by simp, Or.inr (by simp)⟩
  · exact ext_refl _
  · exact ⟨[], by simp, Or.inr (by simp)⟩

theorem write_ext (s : St) (b : Bytes) : Ext s.trace (write s b).trace := by
  unfold write
  split
  · exact ext_cons (by simp) (destroy_ext (s.log (.badWrite b)) .exc)
  · split
    · exact ext_cons (by simp) (destroy_ext (s.log (.epipe b)) .exc)
    · exact ⟨[.write b], by simp, Or.inl rfl⟩

theorem complete_ext (s : St) : Ext s.trace (complete s).trace := by
  unfold complete
  dsimp only
  split
  · exact ext_cons (by simp) (destroy_ext (St.log { s with susp := .no } (.response none)) .ok)
  · exact ext_cons (by simp) (destroy_ext (St.log { s with susp := .no, items := [] } (.response (some .fail))) .exc)
  · exact ⟨[.response (some .skip)], by simp, Or.inl rfl⟩
  · rename_i b rest _
    exact ext_cons (by simp)
      (write_ext (St.log { s with susp := .no, items := rest, lock := false } (.response (some (.item b)))) _)

theorem step_ext (s : St) (a : Act) : Ext s.trace (step s a).trace := by
  cases a <;> unfold step <;> dsimp only
  · split <;> exact ext_refl _
  · split
    · exact ext_refl _
    · rename_i h hs _
      cases h <;> unfold runHandle <;> dsimp only
      · exact ext_refl _
      · unfold sendOutput
        split
        · exact ext_refl _
        · split
          · exact ⟨[.request], by simp, Or.inl rfl⟩
          · exact ext_cons (e := .request) (by simp) (complete_ext (St.log { s with cur := hs, lock := true } .request))
      · split
        · exact ext_refl _
        · exact complete_ext { s with cur := hs }
  · split <;> exact ext_refl _
  · exact ext_refl _
  · exact ext_refl _

/-- A destroyed writer with the lock held and no task suspended does nothing any more. -/
theorem step_dead {s : St} (q : Q s) (hl : s.lock = true) (hs : s.susp = .no) (a : Act) :
    (step s a).trace = s.trace := by
  cases a <;> unfold step <;> dsimp only
  · split <;> rfl
  · split
    · rfl
    · rename_i h hs' hc
      cases h <;> unfold runHandle <;> dsimp only
      · unfold sendOutput
        dsimp only
        rw [hl]; rfl
      · exfalso
        have := q.w
        rw [hc, hs] at this
        simp at this
  · split <;> rfl

theorem quiet_reader {ps : List Prod} (as : List Act) : ∀ {s : St}, Inv ps s → Q s → s.readerGone = false →
    quietAfterClose s.trace = true → Act.readerGone ∉ as → quietAfterClose (run s as).trace = true := by
  induction as with
  | nil => intro s _ _ _ h _; exact h
  | cons a as ih =>
    intro s h q hr hq hn
    simp only [List.mem_cons, not_or] at hn
    obtain ⟨h1, q1⟩ := inv_q_step h q a
    refine ih h1 q1 ((step_readerGone s a (fun e => hn.1 e.symm)).trans hr) ?_ hn.2
    cases hd : s.destroyed with
    | false =>
      apply ext_quiet (step_ext s a)
      intro e
      have := h.closed.2 e
      rw [hd] at this; cases this
    | true =>
      rcases h.dead hd with e | e
      · rw [hr] at e; cases e
      · rw [step_dead q e.1 e.2]; exact hq

/-- Without suspension there is at most one task, and none after the descriptor is closed. -/
structure NS (s : St) : Prop where
  susp : s.susp = .no
  cur : s.cur = [] ∨ s.cur = [.T] ∨ s.cur = [.E] ∨ s.cur = [.T, .E]
  nxt : s.nxt = [] ∨ (s.nxt = [.T] ∧ s.cur = [])
  dead : s.destroyed = true → s.cur = [] ∧ s.nxt = []
  quiet : quietAfterClose s.trace = true
  closed : s.destroyed = true ↔ Ev.close ∈ s.trace

theorem destroy_destroyed (s : St) (d : Done) : (destroy s d).destroyed = true := by
  unfold destroy
  dsimp only
  split <;> split <;> first | assumption | rfl

theorem destroy_cur (s : St) (d : Done) (h : s.destroyed = false) : (destroy s d).cur = s.cur.filter (· ≠ .E) := by
  unfold destroy
  dsimp only
  split
  · dsimp only; rw [h]; rfl
  · rw [h]; rfl

theorem destroy_closed (s : St) (d : Done) (h : s.destroyed = true ↔ Ev.close ∈ s.trace) :
    Ev.close ∈ (destroy s d).trace := by
  unfold destroy
  dsimp only
  split <;> split
  · rename_i h2; exact h.1 h2
  · simp
  · rename_i h2; exact h.1 h2
  · simp

/-- The outcome of answering a request when the descriptor is open: still open, or closed with the callback
handles removed. -/
theorem complete_cases (s : St) (hd : s.destroyed = false) (hc : Ev.close ∉ s.trace) :
    ((complete s).destroyed = false ∧ (complete s).cur = s.cur ∧ Ev.close ∉ (complete s).trace) ∨
    ((complete s).destroyed = true ∧ (complete s).cur = s.cur.filter (· ≠ .E) ∧ Ev.close ∈ (complete s).trace) := by
  have hcl : ∀ (t : St), t.destroyed = false → Ev.close ∉ t.trace → (t.destroyed = true ↔ Ev.close ∈ t.trace) := by
    intro t h1 h2; rw [h1]; simp [h2]
  unfold complete
  dsimp only
  split
  · right
    refine ⟨destroy_destroyed _ _, ?_, ?_⟩
    · exact destroy_cur (St.log { s with susp := .no } _) _ hd
    · apply destroy_closed
      refine hcl _ ?_ ?_
      · exact hd
      show Ev.close ∉ s.trace ++ [_]
      simp [hc]
  · right
    refine ⟨destroy_destroyed _ _, ?_, ?_⟩
    · exact destroy_cur (St.log { s with susp := .no, items := [] } _) _ hd
    · apply destroy_closed
      refine hcl _ ?_ ?_
      · exact hd
      show Ev.close ∉ s.trace ++ [_]
      simp [hc]
  · left
    refine ⟨hd, rfl, ?_⟩
    show Ev.close ∉ s.trace ++ [_]
    simp [hc]
  · rename_i b rest _
    unfold write
    rw [if_neg (by show ¬ (s.destroyed = true); rw [hd]; simp)]
    split
    · right
      refine ⟨destroy_destroyed _ _, ?_, ?_⟩
      · exact destroy_cur (St.log (St.log { s with susp := .no, items := rest, lock := false } _) _) _ hd
      · apply destroy_closed
        refine hcl _ ?_ ?_
        · exact hd
        show Ev.close ∉ (s.trace ++ [_]) ++ [_]
        simp [hc]
    · left
      refine ⟨hd, rfl, ?_⟩
      show Ev.close ∉ (s.trace ++ [_]) ++ [_]
      simp [hc]

theorem ns_step {s : St} (h : NS s) (a : Act) (ha : a ≠ .run true) : NS (step s a) := by
  have hq : quietAfterClose (step s a).trace = true ∨ s.destroyed = true := by
    cases hd : s.destroyed with
    | false =>
      left
      apply ext_quiet (step_ext s a)
      intro e
      have := h.closed.2 e
      rw [hd] at this; cases this
    | true => exact Or.inr rfl
  cases a with
  | poll =>
    unfold step
    dsimp only
    split
    · rename_i hc
      refine ⟨h.susp, ?_, Or.inl rfl, ?_, h.quiet, h.closed⟩
      · show s.nxt ++ (if s.ready then [H.E] else []) = [] ∨ _
        rcases h.nxt with e | ⟨e, _⟩ <;> rw [e] <;> split <;> simp
      · intro hd
        have hd' : s.destroyed = true := hd
        refine ⟨?_, rfl⟩
        show s.nxt ++ (if s.ready then [H.E] else []) = []
        rw [(h.dead hd').2]
        unfold St.ready; rw [hd']; rfl
    · exact h
  | wake =>
    unfold step
    rw [h.susp]
    exact h
  | drain n => exact ⟨h.susp, h.cur, h.nxt, h.dead, h.quiet, h.closed⟩
  | readerGone => exact ⟨h.susp, h.cur, h.nxt, h.dead, h.quiet, h.closed⟩
  | run sus =>
    have hsus : sus = false := by cases sus; rfl; exact absurd rfl ha
    subst hsus
    cases hc : s.cur with
    | nil => unfold step; rw [hc]; exact h
    | cons x hs =>
      have hnd : s.destroyed = false := by
        cases hd : s.destroyed
        · rfl
        · have := (h.dead hd).1; rw [hc] at this; cases this
      have hncl : Ev.close ∉ s.trace := fun e => by have := h.closed.2 e; rw [hnd] at this; cases this
      have hnx : s.nxt = [] := by
        rcases h.nxt with e | e
        · exact e
        · rw [hc] at e; cases e.2
      rcases hq with hq | hq
      · unfold step at hq ⊢
        rw [hc] at hq ⊢
        dsimp only at hq ⊢
        have hcur := h.cur
        rw [hc] at hcur
        cases x with
        | W => simp at hcur
        | E =>
          have : hs = [] := by simpa using hcur
          subst this
          exact ⟨h.susp, Or.inl rfl, Or.inr ⟨(by show s.nxt ++ [H.T] = [H.T]; rw [hnx]; rfl), rfl⟩,
            (fun hd => by rw [show s.destroyed = true from hd] at hnd; cases hnd), h.quiet, h.closed⟩
        | T =>
          have hhs : hs = [] ∨ hs = [.E] := by simpa using hcur
          unfold runHandle sendOutput at hq ⊢
          dsimp only at hq ⊢
          cases hl : s.lock with
          | true =>
            rw [hl] at hq
            refine ⟨h.susp, ?_, Or.inl hnx, (fun hd => by rw [show s.destroyed = true from hd] at hnd; cases hnd),
              h.quiet, h.closed⟩
            show hs = [] ∨ hs = [.T] ∨ hs = [.E] ∨ hs = [.T, .E]
            rcases hhs with e | e <;> subst e <;> simp
          | false =>
            rw [hl] at hq
            simp only [Bool.false_eq_true, if_false] at hq ⊢
            obtain ⟨c1, c2, c3⟩ := complete_queue (St.log { s with cur := hs, lock := true } .request)
            have hc4 := complete_cases (St.log { s with cur := hs, lock := true } .request) hnd
              (by show Ev.close ∉ s.trace ++ [_]; simp [hncl])
            have hn2 : (complete (St.log { s with cur := hs, lock := true } .request)).nxt = [] := c2.trans hnx
            rcases hc4 with ⟨d1, d2, d3⟩ | ⟨d1, d2, d3⟩
            · refine ⟨c3, ?_, Or.inl hn2, ?_, hq, ?_⟩
              · rw [d2]
                show hs = [] ∨ hs = [.T] ∨ hs = [.E] ∨ hs = [.T, .E]
                rcases hhs with e | e <;> subst e <;> simp
              · intro hd; rw [d1] at hd; cases hd
              · rw [d1]; simp [d3]
            · have hcu : (complete (St.log { s with cur := hs, lock := true } .request)).cur = [] := by
                rw [d2]
                show hs.filter _ = []
                rcases hhs with e | e <;> subst e <;> rfl
              exact ⟨c3, Or.inl hcu, Or.inl hn2, fun _ => ⟨hcu, hn2⟩, hq, by rw [d1]; simp [d3]⟩
      · rw [hnd] at hq; cases hq

theorem ns_run (as : List Act) : ∀ {s : St}, NS s → Act.run true ∉ as → NS (run s as) := by
  induction as with
  | nil => intro s h _; exact h
  | cons a as ih =>
    intro s h hn
    simp only [List.mem_cons, not_or] at hn
    exact ih (ns_step h a (fun e => hn.1 e.symm)) hn.2

/-! ### blocking -/

/-- How many items may be written before the next poll. -/
def pot (s : St) : Nat :=
  (if s.susp = .no then 0 else 1) + s.cur.count .T + s.cur.count .E + s.nxt.count .T

structure NB (k m : Nat) (s : St) : Prop where
  len : ∀ b, Prod.item b ∈ s.items → b.length + s.suffix.length ≤ m
  small : k * m ≤ PIPE_BUF
  tcur : s.cur.count .T ≤ 1
  te : s.cur.count .E + s.nxt.count .T ≤ 1
  nxtE : H.E ∉ s.nxt
  free : s.fill + m * pot s ≤ s.cap ∨ s.destroyed = true ∨ s.readerGone = true
  nb : s.blocked = false

/-- What `destroy` leaves alone. -/
theorem destroy_same (s : St) (d : Done) : (destroy s d).items = s.items ∧ (destroy s d).nxt = s.nxt ∧
    (destroy s d).blocked = s.blocked ∧ (destroy s d).cur.count .T = s.cur.count .T ∧
    (destroy s d).cur.count .E ≤ s.cur.count .E := by
  unfold destroy
  dsimp only
  split <;> split <;> simp only [true_and, Nat.le_refl, and_self] <;>
    (constructor
     · rw [List.count_filter]; simp
     · exact List.Sublist.count_le _ (List.filter_sublist))

theorem nb_destroy {k m : Nat} {s : St} {d : Done}
    (len : ∀ b, Prod.item b ∈ s.items → b.length + s.suffix.length ≤ m)
    (small : k * m ≤ PIPE_BUF) (tcur : s.cur.count .T ≤ 1) (te : s.cur.count .E + s.nxt.count .T ≤ 1)
    (nxtE : H.E ∉ s.nxt) (nb : s.blocked = false) : NB k m (destroy s d) := by
  obtain ⟨h1, h2, h3, h4, h5⟩ := destroy_same s d
  refine ⟨?_, small, ?_, ?_, ?_, Or.inr (Or.inl (destroy_destroyed s d)), ?_⟩
  · rw [h1, destroy_suffix]; exact len
  · rw [h4]; exact tcur
  · rw [h2]; omega
  · rw [h2]; exact nxtE
  · rw [h3]; exact nb

/-- Answering a request: one potential write is used up. -/
theorem nb_complete {k m : Nat} {s : St}
    (len : ∀ b, Prod.item b ∈ s.items → b.length + s.suffix.length ≤ m)
    (small : k * m ≤ PIPE_BUF) (tcur : s.cur.count .T ≤ 1) (te : s.cur.count .E + s.nxt.count .T ≤ 1)
    (nxtE : H.E ∉ s.nxt) (nb : s.blocked = false)
    (free : s.fill + m * (s.cur.count .T + s.cur.count .E + s.nxt.count .T + 1) ≤ s.cap ∨ s.destroyed = true ∨
      s.readerGone = true) : NB k m (complete s) := by
  unfold complete
  dsimp only
  split
  · exact nb_destroy len small tcur te nxtE nb
  · exact nb_destroy (fun b h => by cases h) small tcur te nxtE nb
  · rename_i rest hi
    refine ⟨?_, small, tcur, te, nxtE, ?_, nb⟩
    · intro b hb; exact len b (by rw [hi]; exact List.mem_cons_of_mem _ hb)
    · rcases free with f | f
      · left
        show s.fill + m * pot _ ≤ s.cap
        have : pot ({ s with susp := .no, items := rest, lock := false }.log (.response (some .skip))) =
          s.cur.count .T + s.cur.count .E + s.nxt.count .T := by
            unfold pot St.log; simp
        rw [this]
        rw [Nat.mul_add] at f
        omega
      · exact Or.inr f
  · rename_i b rest hi
    have hlen := len b (by rw [hi]; simp)
    have hl2 : ∀ c, Prod.item c ∈ rest → c.length + s.suffix.length ≤ m := by
      intro c hc; exact len c (by rw [hi]; exact List.mem_cons_of_mem _ hc)
    unfold write
    split
    · exact nb_destroy hl2 small tcur te nxtE nb
    · rename_i hd
      have hd' : ¬ s.destroyed = true := hd
      split
      · exact nb_destroy hl2 small tcur te nxtE nb
      · rename_i hr
        have hr' : ¬ s.readerGone = true := hr
        have f : s.fill + m * (s.cur.count .T + s.cur.count .E + s.nxt.count .T + 1) ≤ s.cap := by
          rcases free with f | f | f
          · exact f
          · exact absurd f hd'
          · exact absurd f hr'
        rw [Nat.mul_add] at f
        refine ⟨hl2, small, tcur, te, nxtE, Or.inl ?_, ?_⟩
        · show s.fill + (b ++ s.suffix).length + m * ((if Susp.no = Susp.no then 0 else 1) + s.cur.count .T +
            s.cur.count .E + s.nxt.count .T) ≤ s.cap
          rw [List.length_append]
          simp only [if_true, Nat.zero_add]
          omega
        · show (s.blocked || decide (s.cap < s.fill + (b ++ s.suffix).length)) = false
          rw [nb, List.length_append]
          simp only [Bool.false_or, decide_eq_false_iff_not, Nat.not_lt]
          omega

theorem nb_step {k m : Nat} {s : St} (h : NB k m s) (hcap : s.lock = false → s.susp = .no) (a : Act)
    (hk : (if s.susp = .no then 0 else 1) + 2 ≤ k) (hW : ∀ hs, s.cur = .W :: hs → s.susp ≠ .no) : NB k m (step s a) := by
  cases a with
  | poll =>
    unfold step
    dsimp only
    split
    · rename_i hc
      have htn : s.nxt.count .T ≤ 1 := by have := h.te; omega
      have hen : s.nxt.count .E = 0 := List.count_eq_zero.2 h.nxtE
      have hc1 : (s.nxt ++ (if s.ready then [H.E] else [])).count .T = s.nxt.count .T := by
        rw [List.count_append]; split <;> simp
      have hc2 : (s.nxt ++ (if s.ready then [H.E] else [])).count .E = if s.ready then 1 else 0 := by
        rw [List.count_append, hen]; split <;> simp
      refine ⟨h.len, h.small, ?_, ?_, (by show H.E ∉ []; simp), ?_, h.nb⟩
      · show (s.nxt ++ (if s.ready then [H.E] else [])).count .T ≤ 1
        rw [hc1]; exact htn
      · show (s.nxt ++ (if s.ready then [H.E] else [])).count .E + List.count H.T [] ≤ 1
        rw [hc2]; split <;> simp
      · show s.fill + m * ((if s.susp = .no then 0 else 1) + (s.nxt ++ (if s.ready then [H.E] else [])).count .T +
          (s.nxt ++ (if s.ready then [H.E] else [])).count .E + List.count H.T []) ≤ s.cap ∨ _
        rw [hc1, hc2]
        simp only [List.count_nil, Nat.add_zero]
        cases hr : s.ready with
        | false =>
          rcases h.free with f | f
          · left
            unfold pot at f
            rw [hc] at f
            simpa using f
          · exact Or.inr f
        | true =>
          unfold St.ready at hr
          simp only [Bool.and_eq_true, Bool.not_eq_true', Bool.or_eq_true, decide_eq_true_eq] at hr
          rcases hr.2 with f | f
          · left
            have h3 : m * ((if s.susp = .no then 0 else 1) + s.nxt.count .T + 1) ≤ m * k := by
              apply Nat.mul_le_mul_left
              omega
            have := h.small
            rw [Nat.mul_comm] at this
            simp only [if_true]
            omega
          · exact Or.inr (Or.inr f)
    · exact h
  | wake =>
    unfold step
    dsimp only
    split
    · rename_i hsu
      refine ⟨h.len, h.small, h.tcur, ?_, ?_, ?_, h.nb⟩
      · show s.cur.count .E + (s.nxt ++ [H.W]).count .T ≤ 1
        rw [List.count_append]; simpa using h.te
      · show H.E ∉ s.nxt ++ [H.W]
        have := h.nxtE; simp [this]
      · rcases h.free with f | f
        · left
          show s.fill + m * (1 + s.cur.count .T + s.cur.count .E + (s.nxt ++ [H.W]).count .T) ≤ s.cap
          unfold pot at f
          rw [hsu] at f
          rw [List.count_append]
          simpa using f
        · exact Or.inr f
    · exact h
  | drain n =>
    refine ⟨h.len, h.small, h.tcur, h.te, h.nxtE, ?_, h.nb⟩
    rcases h.free with f | f
    · left
      show s.fill - n + m * pot s ≤ s.cap
      omega
    · exact Or.inr f
  | readerGone => exact ⟨h.len, h.small, h.tcur, h.te, h.nxtE, Or.inr (Or.inr rfl), h.nb⟩
  | run sus =>
    unfold step
    dsimp only
    split
    · exact h
    · rename_i x hs hc
      have ht := h.tcur
      have hte := h.te
      have hf := h.free
      unfold pot at hf
      rw [hc] at ht hte hf
      cases x with
      | E =>
        simp only [List.count_cons] at ht hte hf
        simp at ht hte hf
        unfold runHandle
        dsimp only
        refine ⟨h.len, h.small, ht, ?_, ?_, ?_, h.nb⟩
        · show hs.count .E + (s.nxt ++ [H.T]).count .T ≤ 1
          rw [List.count_append]; simp; omega
        · show H.E ∉ s.nxt ++ [H.T]
          have := h.nxtE; simp [this]
        · rcases hf with f | f
          · left
            show s.fill + m * ((if s.susp = .no then 0 else 1) + hs.count .T + hs.count .E + (s.nxt ++ [H.T]).count .T) ≤ s.cap
            rw [List.count_append]
            refine Nat.le_trans (Nat.add_le_add_left (Nat.mul_le_mul_left m ?_) _) f
            simp; omega
          · exact Or.inr f
      | T =>
        simp only [List.count_cons] at ht hte hf
        simp at ht hte hf
        have hz : hs.count .T = 0 := ht
        unfold runHandle sendOutput
        dsimp only
        cases hl : s.lock with
        | true =>
          simp only [if_true]
          refine ⟨h.len, h.small, (by show hs.count .T ≤ 1; omega), hte, h.nxtE, ?_, h.nb⟩
          rcases hf with f | f
          · left
            show s.fill + m * ((if s.susp = .no then 0 else 1) + hs.count .T + hs.count .E + s.nxt.count .T) ≤ s.cap
            refine Nat.le_trans (Nat.add_le_add_left (Nat.mul_le_mul_left m ?_) _) f
            omega
          · exact Or.inr f
        | false =>
          have hsn := hcap hl
          rw [hsn] at hf
          simp only [Bool.false_eq_true, if_false]
          split
          · refine ⟨h.len, h.small, (by show hs.count .T ≤ 1; omega), hte, h.nxtE, ?_, h.nb⟩
            rcases hf with f | f
            · left
              show s.fill + m * (1 + hs.count .T + hs.count .E + s.nxt.count .T) ≤ s.cap
              refine Nat.le_trans (Nat.add_le_add_left (Nat.mul_le_mul_left m ?_) _) f
              simp; omega
            · exact Or.inr f
          · apply nb_complete
            · exact h.len
            · exact h.small
            · show hs.count .T ≤ 1; omega
            · exact hte
            · exact h.nxtE
            · exact h.nb
            · rcases hf with f | f
              · left
                show s.fill + m * (hs.count .T + hs.count .E + s.nxt.count .T + 1) ≤ s.cap
                refine Nat.le_trans (Nat.add_le_add_left (Nat.mul_le_mul_left m ?_) _) f
                simp; omega
              · exact Or.inr f
      | W =>
        simp only [List.count_cons] at ht hte hf
        simp at ht hte hf
        have hsn := hW hs hc
        rw [if_neg hsn] at hf
        unfold runHandle
        dsimp only
        split
        · refine ⟨h.len, h.small, ht, hte, h.nxtE, ?_, h.nb⟩
          rcases hf with f | f
          · left
            show s.fill + m * (1 + hs.count .T + hs.count .E + s.nxt.count .T) ≤ s.cap
            exact f
          · exact Or.inr f
        · apply nb_complete
          · exact h.len
          · exact h.small
          · exact ht
          · exact hte
          · exact h.nxtE
          · exact h.nb
          · rcases hf with f | f
            · left
              show s.fill + m * (hs.count .T + hs.count .E + s.nxt.count .T + 1) ≤ s.cap
              refine Nat.le_trans (Nat.add_le_add_left (Nat.mul_le_mul_left m ?_) _) f
              omega
            · exact Or.inr f

theorem susp_no_complete (s : St) : (complete s).susp = .no := by
  have hd : ∀ (t : St) (d : Done), (destroy t d).susp = t.susp := by
    intro t d; unfold destroy; dsimp only; split <;> split <;> rfl
  unfold complete
  dsimp only
  split
  · rw [hd]; rfl
  · rw [hd]; rfl
  · rfl
  · unfold write
    split
    · rw [hd]; rfl
    · split
      · rw [hd]; rfl
      · rfl

theorem susp_no_step {s : St} (h : s.susp = .no) (a : Act) (ha : a ≠ .run true) : (step s a).susp = .no := by
  cases a with
  | poll => unfold step; dsimp only; split <;> exact h
  | wake => unfold step; dsimp only; rw [h]; exact h
  | drain n => exact h
  | readerGone => exact h
  | run sus =>
    have : sus = false := by cases sus <;> simp_all
    subst this
    unfold step
    dsimp only
    split
    · exact h
    · next x hs hc =>
      cases x with
      | E => exact h
      | T =>
        unfold runHandle sendOutput
        dsimp only
        split
        · exact h
        · exact susp_no_complete _
      | W => exact susp_no_complete _

theorem nb_run {k m : Nat} {ps : List Prod} (as : List Act) :
    ∀ {s : St}, Inv ps s → Q s → NB k m s → (3 ≤ k ∨ 2 ≤ k ∧ s.susp = .no ∧ Act.run true ∉ as) → NB k m (run s as) := by
  induction as with
  | nil => intro s _ _ h _; exact h
  | cons a as ih =>
    intro s hi q h hk
    obtain ⟨h1, q1⟩ := inv_q_step hi q a
    refine ih h1 q1 (nb_step h ?_ a ?_ ?_) ?_
    · intro e
      apply Classical.byContradiction
      intro e2
      have := hi.lockSusp e2
      rw [e] at this; cases this
    · rcases hk with hk | ⟨hk, hs, -⟩
      · split <;> omega
      · rw [if_pos hs]; omega
    · intro hs hc e
      have := q.w
      rw [hc, e] at this
      simp at this
    · rcases hk with hk | ⟨hk, hs, hn⟩
      · exact .inl hk
      · simp only [List.mem_cons, not_or] at hn
        exact .inr ⟨hk, susp_no_step hs a (Ne.symm hn.1), hn.2⟩

end Pieshell.Io.Writer
