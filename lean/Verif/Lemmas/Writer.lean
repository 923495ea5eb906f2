import Verif.Spec.Writer

namespace Pieshell.Io.Writer

theorem pend_none (t : List Ev) : pend none t = none := by
  induction t with
  | nil => rfl
  | cons e t ih => cases e <;> simp [pend, ih]

theorem pend_append (o : Option Bool) (t u : List Ev) : pend o (t ++ u) = pend (pend o t) u := by
  induction t generalizing o with
  | nil => rfl
  | cons e t ih =>
    cases e <;> cases o <;> (try rename_i b; cases b) <;> simp [pend, ih, pend_none]

theorem answers_append (t u : List Ev) : answers (t ++ u) = answers t ++ answers u := by
  induction t with
  | nil => rfl
  | cons e t ih =>
    cases e with
    | response p => cases p <;> simp [answers, ih]
    | _ => simp [answers, ih]

theorem attempted_append (t u : List Ev) : attempted (t ++ u) = attempted t ++ attempted u := by
  induction t with
  | nil => rfl
  | cons e t ih => cases e <;> simp [attempted, ih]

theorem succeeded_append (t u : List Ev) : succeeded (t ++ u) = succeeded t ++ succeeded u := by
  induction t with
  | nil => rfl
  | cons e t ih => cases e <;> simp [succeeded, ih]

theorem values_append (t u : List Prod) : values (t ++ u) = values t ++ values u := by
  induction t with
  | nil => rfl
  | cons e t ih => cases e <;> simp [values, ih]

theorem upToFail_id {ps : List Prod} (h : Prod.fail ∉ ps) : upToFail ps = ps := by
  induction ps with
  | nil => rfl
  | cons p ps ih =>
    simp only [List.mem_cons, not_or] at h
    cases p with
    | fail => exact absurd rfl h.1
    | _ => simp [upToFail, ih h.2]

theorem fail_mem_upToFail {ps : List Prod} : Prod.fail ∈ upToFail ps ↔ Prod.fail ∈ ps := by
  induction ps with
  | nil => simp [upToFail]
  | cons p ps ih => cases p <;> simp [upToFail, ih]

theorem quiet_append_passive {t : List Ev} (h : quietAfterClose t = true) {e : Ev} (he : e.active = false) :
    quietAfterClose (t ++ [e]) = true := by
  induction t with
  | nil => cases e <;> first | rfl | cases he
  | cons a t ih =>
    cases a <;> simp_all [quietAfterClose]

theorem quiet_append_before {t : List Ev} (hn : Ev.close ∉ t) (e : Ev) : quietAfterClose (t ++ [e]) = true := by
  induction t with
  | nil => cases e <;> rfl
  | cons a t ih =>
    simp only [List.mem_cons, not_or] at hn
    cases a with
    | close => exact absurd rfl hn.1
    | _ => simp [quietAfterClose, ih hn.2]

@[simp] theorem log_items (s : St) (e : Ev) : (s.log e).items = s.items := rfl
@[simp] theorem log_suffix (s : St) (e : Ev) : (s.log e).suffix = s.suffix := rfl

/-- The invariant of the writer, for the production `ps`. -/
structure Inv (ps : List Prod) (s : St) : Prop where
  pend : pend (some false) s.trace = some (decide (s.susp ≠ .no))
  ans : answers s.trace ++ upToFail s.items = upToFail ps
  att : attempted s.trace = (values (answers s.trace)).map (· ++ s.suffix)
  wr : s.written = (succeeded s.trace).flatten
  lockSusp : s.susp ≠ .no → s.lock = true
  lockLive : s.lock = true → s.destroyed = false → s.susp ≠ .no
  good : s.done ≠ .exc → attempted s.trace = succeeded s.trace
  ok : s.done = .ok → s.lock = true ∧ s.susp = .no ∧ s.items = []
  failed : Prod.fail ∈ answers s.trace → s.done = .exc
  live : s.done = .running ↔ s.destroyed = false
  dead : s.destroyed = true → s.readerGone = true ∨ (s.lock = true ∧ s.susp = .no)
  noReader : s.readerGone = false → attempted s.trace = succeeded s.trace
  closed : s.destroyed = true ↔ Ev.close ∈ s.trace
  queue : Ev.close ∈ s.trace → H.E ∉ s.cur
  rest : s.destroyed = true → s.readerGone = true ∨ s.items = []

theorem inv_init (suffix : Bytes) (ps : List Prod) (cap fill : Nat) : Inv ps (init suffix ps cap fill) := by
  constructor <;> simp [init, Writer.pend, answers, attempted, succeeded, values]

/-- `destroy` keeps the invariant; everything but `live`, `closed`, `queue`, `dead` and `ok` is assumed of the state
before. -/
theorem inv_destroy_exc {ps : List Prod} {s : St}
    (pend : Writer.pend (some false) s.trace = some (decide (s.susp ≠ .no)))
    (ans : answers s.trace ++ upToFail s.items = upToFail ps)
    (att : attempted s.trace = (values (answers s.trace)).map (· ++ s.suffix))
    (wr : s.written = (succeeded s.trace).flatten)
    (lockSusp : s.susp ≠ .no → s.lock = true)
    (notok : s.done ≠ .ok)
    (live : s.done = .running ↔ s.destroyed = false)
    (dead : s.readerGone = true ∨ (s.lock = true ∧ s.susp = .no))
    (noReader : s.readerGone = false → attempted s.trace = succeeded s.trace)
    (closed : s.destroyed = true ↔ Ev.close ∈ s.trace)
    (queue : Ev.close ∈ s.trace → H.E ∉ s.cur)
    (rest : s.readerGone = true ∨ s.items = []) : Inv ps (destroy s .exc) := by
  unfold destroy
  by_cases hd : s.done = .running
  · have hde := live.1 hd
    simp only [hd, if_true, hde]
    constructor
    · show Writer.pend (some false) (s.trace ++ [.close]) = _
      rw [pend_append, pend]; rfl
    · show answers (s.trace ++ [.close]) ++ _ = _
      rw [answers_append]; simpa [answers] using ans
    · show attempted (s.trace ++ [.close]) = (values (answers (s.trace ++ [.close]))).map _
      rw [answers_append, attempted_append]; simpa [answers, attempted] using att
    · show s.written = (succeeded (s.trace ++ [.close])).flatten
      rw [succeeded_append]; simpa [succeeded] using wr
    · exact lockSusp
    · intro _ h; cases h
    · intro h; exact absurd rfl h
    · intro h; cases h
    · intro _; rfl
    · constructor <;> intro h <;> cases h
    · intro _; exact dead
    · intro h
      show attempted (s.trace ++ [.close]) = succeeded (s.trace ++ [.close])
      rw [attempted_append, succeeded_append, noReader h]; rfl
    · constructor
      · intro _; show Ev.close ∈ s.trace ++ [.close]; simp
      · intro _; rfl
    · intro _; show H.E ∉ s.cur.filter (· ≠ .E); simp
    · intro _; exact rest
  · have hde : s.destroyed = true := by
      cases h : s.destroyed
      · exact absurd (live.2 h) hd
      · rfl
    have hexc : s.done = .exc := by
      cases h : s.done
      · exact absurd h hd
      · exact absurd h notok
      · rfl
    simp only [hd, if_false, hde, if_true]
    exact ⟨pend, ans, att, wr, lockSusp, (fun _ h => by rw [hde] at h; cases h), fun h => absurd hexc h,
      (fun h => absurd h notok), fun _ => hexc, live, fun _ => dead, noReader, closed, queue,
      fun _ => rest⟩

theorem inv_write {ps : List Prod} {s : St} (b : Bytes)
    (pend : Writer.pend (some false) s.trace = some false) (susp : s.susp = .no) (lock : s.lock = false)
    (ans : answers s.trace ++ upToFail s.items = upToFail ps)
    (att : attempted s.trace ++ [b ++ s.suffix] = (values (answers s.trace)).map (· ++ s.suffix))
    (wr : s.written = (succeeded s.trace).flatten)
    (good : s.done ≠ .exc → attempted s.trace = succeeded s.trace)
    (notok : s.done ≠ .ok)
    (failed : Prod.fail ∈ answers s.trace → s.done = .exc)
    (live : s.done = .running ↔ s.destroyed = false)
    (dead : s.destroyed = true → s.readerGone = true)
    (noReader : s.readerGone = false → attempted s.trace = succeeded s.trace)
    (closed : s.destroyed = true ↔ Ev.close ∈ s.trace)
    (queue : Ev.close ∈ s.trace → H.E ∉ s.cur) : Inv ps (write s (b ++ s.suffix)) := by
  unfold write
  split
  · rename_i hd
    apply inv_destroy_exc (s := s.log (.badWrite (b ++ s.suffix)))
    · show Writer.pend (some false) (s.trace ++ [_]) = some (decide (s.susp ≠ .no))
      rw [pend_append, pend, susp]; rfl
    · show answers (s.trace ++ [_]) ++ _ = _
      rw [answers_append]; simpa [answers] using ans
    · show attempted (s.trace ++ [_]) = (values (answers (s.trace ++ [_]))).map _
      rw [answers_append, attempted_append]; simpa [answers, attempted] using att
    · show s.written = (succeeded (s.trace ++ [_])).flatten
      rw [succeeded_append]; simpa [succeeded] using wr
    · intro h; exact absurd susp h
    · exact notok
    · exact live
    · exact Or.inl (dead hd)
    · intro h; have := dead hd; rw [show s.readerGone = false from h] at this; cases this
    · show s.destroyed = true ↔ Ev.close ∈ s.trace ++ [_]
      simp [closed]
    · intro h; apply queue
      have : Ev.close ∈ s.trace ++ [Ev.badWrite (b ++ s.suffix)] := h
      simpa using this
    · exact Or.inl (dead hd)
  · rename_i hd
    have hd' : s.destroyed = false := by simpa using hd
    split
    · rename_i hr
      apply inv_destroy_exc (s := s.log (.epipe (b ++ s.suffix)))
      · show Writer.pend (some false) (s.trace ++ [_]) = some (decide (s.susp ≠ .no))
        rw [pend_append, pend, susp]; rfl
      · show answers (s.trace ++ [_]) ++ _ = _
        rw [answers_append]; simpa [answers] using ans
      · show attempted (s.trace ++ [_]) = (values (answers (s.trace ++ [_]))).map _
        rw [answers_append, attempted_append]; simpa [answers, attempted] using att
      · show s.written = (succeeded (s.trace ++ [_])).flatten
        rw [succeeded_append]; simpa [succeeded] using wr
      · intro h; exact absurd susp h
      · exact notok
      · exact live
      · exact Or.inl hr
      · intro h; rw [show s.readerGone = false from h] at hr; cases hr
      · show s.destroyed = true ↔ Ev.close ∈ s.trace ++ [_]
        simp [closed]
      · intro h; apply queue
        have : Ev.close ∈ s.trace ++ [Ev.epipe (b ++ s.suffix)] := h
        simpa using this
      · exact Or.inl hr
    · rename_i hr
      constructor
      · show Writer.pend (some false) (s.trace ++ [_]) = some (decide (s.susp ≠ .no))
        rw [pend_append, pend, susp]; rfl
      · show answers (s.trace ++ [_]) ++ _ = _
        rw [answers_append]; simpa [answers] using ans
      · show attempted (s.trace ++ [_]) = (values (answers (s.trace ++ [_]))).map _
        rw [answers_append, attempted_append]; simpa [answers, attempted] using att
      · show s.written ++ _ = (succeeded (s.trace ++ [_])).flatten
        rw [succeeded_append, wr]; simp [succeeded]
      · intro h; exact absurd susp h
      · intro h; rw [show s.lock = true from h] at lock; cases lock
      · intro h
        show attempted (s.trace ++ [_]) = succeeded (s.trace ++ [_])
        rw [attempted_append, succeeded_append, good h]; rfl
      · intro h; exact absurd h notok
      · intro h
        apply failed
        have : Prod.fail ∈ answers (s.trace ++ [Ev.write (b ++ s.suffix)]) := h
        rw [answers_append] at this
        simpa [answers] using this
      · exact live
      · intro h; exact Or.inl (dead h)
      · intro h
        show attempted (s.trace ++ [_]) = succeeded (s.trace ++ [_])
        rw [attempted_append, succeeded_append, noReader h]; rfl
      · show s.destroyed = true ↔ Ev.close ∈ s.trace ++ [_]
        simp [closed]
      · intro h; apply queue
        have : Ev.close ∈ s.trace ++ [Ev.write (b ++ s.suffix)] := h
        simpa using this
      · intro h; exact Or.inl (dead h)

/-- `complete`, in a state with an outstanding request. -/
theorem inv_complete {ps : List Prod} {s : St}
    (pend : Writer.pend (some false) s.trace = some true) (lock : s.lock = true)
    (ans : answers s.trace ++ upToFail s.items = upToFail ps)
    (att : attempted s.trace = (values (answers s.trace)).map (· ++ s.suffix))
    (wr : s.written = (succeeded s.trace).flatten)
    (good : s.done ≠ .exc → attempted s.trace = succeeded s.trace)
    (notok : s.done ≠ .ok)
    (failed : Prod.fail ∈ answers s.trace → s.done = .exc)
    (live : s.done = .running ↔ s.destroyed = false)
    (dead : s.destroyed = true → s.readerGone = true)
    (noReader : s.readerGone = false → attempted s.trace = succeeded s.trace)
    (closed : s.destroyed = true ↔ Ev.close ∈ s.trace)
    (queue : Ev.close ∈ s.trace → H.E ∉ s.cur) : Inv ps (complete s) := by
  have hcl : ∀ (p : Option Prod), s.destroyed = true ↔ Ev.close ∈ s.trace ++ [Ev.response p] := by
    intro p; simp [closed]
  have hqu : ∀ (p : Option Prod), Ev.close ∈ s.trace ++ [Ev.response p] → H.E ∉ s.cur := by
    intro p h; apply queue; simpa using h
  have hpe : ∀ (p : Option Prod), Writer.pend (some false) (s.trace ++ [Ev.response p]) = some false := by
    intro p; rw [pend_append, pend]; rfl
  have hsu : ∀ (p : Option Prod), succeeded (s.trace ++ [Ev.response p]) = succeeded s.trace := by
    intro p; rw [succeeded_append]; simp [succeeded]
  have hat : ∀ (p : Option Prod), attempted (s.trace ++ [Ev.response p]) = attempted s.trace := by
    intro p; rw [attempted_append]; simp [attempted]
  have han : ∀ (p : Prod), answers (s.trace ++ [Ev.response (some p)]) = answers s.trace ++ [p] := by
    intro p; rw [answers_append]; simp [answers]
  have han0 : answers (s.trace ++ [Ev.response none]) = answers s.trace := by
    rw [answers_append]; simp [answers]
  unfold complete
  dsimp only
  split
  · -- StopAsyncIteration
    rename_i hi
    by_cases hd : s.done = .running
    · have hde := live.1 hd
      unfold destroy St.log
      dsimp only
      rw [hd, hde]
      simp only [if_true, Bool.false_eq_true, if_false]
      constructor
      · show Writer.pend (some false) ((s.trace ++ [.response none]) ++ [.close]) = _
        rw [pend_append, hpe]; rfl
      · show answers ((s.trace ++ [.response none]) ++ [.close]) ++ _ = _
        rw [answers_append, han0]; simpa [answers] using ans
      · show attempted ((s.trace ++ [.response none]) ++ [.close]) =
          (values (answers ((s.trace ++ [.response none]) ++ [.close]))).map _
        rw [answers_append, attempted_append, han0, hat]; simpa [answers, attempted] using att
      · show s.written = (succeeded ((s.trace ++ [.response none]) ++ [.close])).flatten
        rw [succeeded_append, hsu]; simpa [succeeded] using wr
      · intro h; exact lock
      · intro _ h; cases h
      · intro h
        show attempted ((s.trace ++ [.response none]) ++ [.close]) = succeeded ((s.trace ++ [.response none]) ++ [.close])
        rw [attempted_append, succeeded_append, hat, hsu, good (by rw [hd]; simp)]; rfl
      · intro _; exact ⟨lock, rfl, hi⟩
      · intro h
        have h2 : Prod.fail ∈ answers ((s.trace ++ [.response none]) ++ [.close]) := h
        rw [answers_append, han0] at h2
        have := failed (by simpa [answers] using h2)
        rw [hd] at this; cases this
      · constructor <;> intro h <;> cases h
      · intro _; exact Or.inr ⟨lock, rfl⟩
      · intro h
        show attempted ((s.trace ++ [.response none]) ++ [.close]) = succeeded ((s.trace ++ [.response none]) ++ [.close])
        rw [attempted_append, succeeded_append, hat, hsu, noReader h]; rfl
      · constructor
        · intro _; show Ev.close ∈ (s.trace ++ _) ++ [.close]; simp
        · intro _; rfl
      · intro _; show H.E ∉ s.cur.filter (· ≠ .E); simp
      · intro _; exact Or.inr hi
    · have hde : s.destroyed = true := by
        cases h : s.destroyed
        · exact absurd (live.2 h) hd
        · rfl
      have hexc : s.done = .exc := by
        cases h : s.done
        · exact absurd h hd
        · exact absurd h notok
        · rfl
      unfold destroy St.log
      dsimp only
      simp only [hd, if_false, hde, if_true]
      constructor
      · show Writer.pend (some false) (s.trace ++ [.response none]) = _
        rw [hpe]; rfl
      · show answers (s.trace ++ [.response none]) ++ _ = _
        rw [han0]; exact ans
      · show attempted (s.trace ++ [.response none]) = (values (answers (s.trace ++ [.response none]))).map _
        rw [han0, hat]; exact att
      · show s.written = (succeeded (s.trace ++ [.response none])).flatten
        rw [hsu]; exact wr
      · intro _; exact lock
      · intro _ h; cases h
      · intro h; exact absurd hexc h
      · intro h; exact absurd h notok
      · intro _; exact hexc
      · show s.done = .running ↔ true = false
        rw [hexc]; constructor <;> intro h <;> cases h
      · intro _; exact Or.inr ⟨lock, rfl⟩
      · intro h; have := dead hde; rw [show s.readerGone = false from h] at this; cases this
      · constructor
        · intro _; exact (hcl none).1 hde
        · intro _; rfl
      · exact hqu none
      · intro _; exact Or.inr hi
  · -- exception
    rename_i rest hi
    rw [hi] at ans
    refine inv_destroy_exc (s := St.log { s with susp := .no, items := [] } (.response (some .fail)))
      ?_ ?_ ?_ ?_ ?_ ?_ ?_ ?_ ?_ ?_ ?_ ?_
    · show Writer.pend (some false) (s.trace ++ [_]) = _
      rw [hpe]; rfl
    · show answers (s.trace ++ [_]) ++ upToFail [] = _
      rw [han, ← ans]; simp [upToFail]
    · show attempted (s.trace ++ [_]) = (values (answers (s.trace ++ [_]))).map _
      rw [han, hat, values_append]; simpa [values] using att
    · show s.written = (succeeded (s.trace ++ [_])).flatten
      rw [hsu]; exact wr
    · intro _; exact lock
    · exact notok
    · exact live
    · exact Or.inr ⟨lock, rfl⟩
    · intro h
      show attempted (s.trace ++ [_]) = succeeded (s.trace ++ [_])
      rw [hat, hsu]; exact noReader h
    · exact hcl _
    · exact hqu _
    · exact Or.inr rfl
  · -- None
    rename_i rest hi
    rw [hi] at ans
    constructor
    · show Writer.pend (some false) (s.trace ++ [_]) = _
      rw [hpe]; rfl
    · show answers (s.trace ++ [_]) ++ upToFail rest = _
      rw [han, ← ans]; simp [upToFail]
    · show attempted (s.trace ++ [_]) = (values (answers (s.trace ++ [_]))).map _
      rw [han, hat, values_append]; simpa [values] using att
    · show s.written = (succeeded (s.trace ++ [_])).flatten
      rw [hsu]; exact wr
    · intro h; exact absurd rfl h
    · intro h; cases h
    · intro h
      show attempted (s.trace ++ [_]) = succeeded (s.trace ++ [_])
      rw [hat, hsu]; exact good h
    · intro h; exact absurd h notok
    · intro h
      have h2 : Prod.fail ∈ answers (s.trace ++ [_]) := h
      rw [han] at h2
      exact failed (by simpa using h2)
    · exact live
    · intro h; exact Or.inl (dead h)
    · intro h
      show attempted (s.trace ++ [_]) = succeeded (s.trace ++ [_])
      rw [hat, hsu]; exact noReader h
    · exact hcl _
    · exact hqu _
    · intro h; exact Or.inl (dead h)
  · -- a value
    rename_i b rest hi
    rw [hi] at ans
    have key := inv_write (ps := ps)
      (s := { s with susp := .no, items := rest, lock := false }.log (.response (some (.item b)))) b
    apply key
    · exact hpe _
    · rfl
    · rfl
    · show answers (s.trace ++ [_]) ++ upToFail rest = _
      rw [han, ← ans]; simp [upToFail]
    · show attempted (s.trace ++ [_]) ++ [b ++ s.suffix] = (values (answers (s.trace ++ [_]))).map _
      rw [han, hat, values_append]; simp [values, att]
    · show s.written = (succeeded (s.trace ++ [_])).flatten
      rw [hsu]; exact wr
    · intro h
      show attempted (s.trace ++ [_]) = succeeded (s.trace ++ [_])
      rw [hat, hsu]; exact good h
    · exact notok
    · intro h
      have h2 : Prod.fail ∈ answers (s.trace ++ [_]) := h
      rw [han] at h2
      exact failed (by simpa using h2)
    · exact live
    · exact dead
    · intro h
      show attempted (s.trace ++ [_]) = succeeded (s.trace ++ [_])
      rw [hat, hsu]; exact noReader h
    · exact hcl _
    · exact hqu _

theorem inv_cur {ps : List Prod} {s : St} (h : Inv ps s) {x : H} {hs : List H} (hc : s.cur = x :: hs) :
    Inv ps { s with cur := hs } := by
  refine ⟨h.pend, h.ans, h.att, h.wr, h.lockSusp, h.lockLive, h.good, h.ok, h.failed, h.live, h.dead, h.noReader,
    h.closed, ?_, h.rest⟩
  intro e hm
  have := h.queue e
  rw [hc] at this
  exact this (List.mem_cons_of_mem _ hm)

/-- Wake-up handles are in the queue only while the task is suspended with a wake-up scheduled. -/
structure Q (s : St) : Prop where
  w : (s.cur ++ s.nxt).count .W = if s.susp = .queued then 1 else 0
  nxtE : H.E ∉ s.nxt

theorem count_filter_E (l : List H) : (l.filter (· ≠ .E)).count .W = l.count .W := by
  rw [List.count_filter]; simp

theorem destroy_queue (s : St) (d : Done) :
    ((destroy s d).cur ++ (destroy s d).nxt).count .W = (s.cur ++ s.nxt).count .W ∧ (destroy s d).nxt = s.nxt ∧
    (destroy s d).susp = s.susp := by
  unfold destroy
  dsimp only
  split <;> split <;> simp only [and_self, List.count_append, count_filter_E]

theorem write_queue (s : St) (b : Bytes) :
    ((write s b).cur ++ (write s b).nxt).count .W = (s.cur ++ s.nxt).count .W ∧ (write s b).nxt = s.nxt ∧
    (write s b).susp = s.susp := by
  unfold write
  split
  · exact destroy_queue (s.log _) _
  · split
    · exact destroy_queue (s.log _) _
    · exact ⟨rfl, rfl, rfl⟩

theorem complete_queue (s : St) :
    ((complete s).cur ++ (complete s).nxt).count .W = (s.cur ++ s.nxt).count .W ∧ (complete s).nxt = s.nxt ∧
    (complete s).susp = .no := by
  unfold complete
  dsimp only
  split
  · exact destroy_queue (St.log { s with susp := .no } _) _
  · exact destroy_queue (St.log { s with susp := .no, items := [] } _) _
  · exact ⟨rfl, rfl, rfl⟩
  · rename_i b rest _
    exact write_queue (St.log { s with susp := .no, items := rest, lock := false } _) _

theorem q_init (suffix : Bytes) (ps : List Prod) (cap fill : Nat) : Q (init suffix ps cap fill) := by
  constructor <;> simp [init]

theorem inv_q_step {ps : List Prod} {s : St} (h : Inv ps s) (q : Q s) (a : Act) :
    Inv ps (step s a) ∧ Q (step s a) := by
  cases a with
  | poll =>
    unfold step
    dsimp only
    split
    · rename_i hc
      constructor
      · refine ⟨h.pend, h.ans, h.att, h.wr, h.lockSusp, h.lockLive, h.good, h.ok, h.failed, h.live, h.dead, h.noReader,
          h.closed, ?_, h.rest⟩
        intro e hm
        have hd := h.closed.2 e
        have hm' : H.E ∈ s.nxt ++ (if s.ready then [H.E] else []) := hm
        have : s.ready = false := by unfold St.ready; rw [hd]; rfl
        rw [this] at hm'
        simp at hm'
        exact q.nxtE hm'
      · constructor
        · have := q.w
          rw [hc] at this
          show ((s.nxt ++ (if s.ready then [H.E] else [])) ++ [] : List H).count .W = _
          rw [List.append_nil, List.count_append]
          rw [List.nil_append] at this
          rw [this]
          split <;> split <;> simp
        · show H.E ∉ []
          simp
    · exact ⟨h, q⟩
  | run sus =>
    unfold step
    dsimp only
    split
    · exact ⟨h, q⟩
    · rename_i x hs hc
      have h1 := inv_cur h hc
      have hw := q.w
      rw [hc] at hw
      cases x with
      | E =>
        unfold runHandle
        dsimp only
        refine ⟨⟨h1.pend, h1.ans, h1.att, h1.wr, h1.lockSusp, h1.lockLive, h1.good, h1.ok, h1.failed, h1.live, h1.dead,
          h1.noReader, h1.closed, h1.queue, h1.rest⟩, ?_, ?_⟩
        · show (hs ++ (s.nxt ++ [H.T])).count .W = _
          simp only [List.count_append, List.count_cons, List.cons_append] at hw ⊢
          simpa using hw
        · show H.E ∉ s.nxt ++ [H.T]
          have := q.nxtE
          simp [this]
      | T =>
        have hw' : (hs ++ s.nxt).count .W = if s.susp = .queued then 1 else 0 := by
          simpa [List.count_append, List.count_cons] using hw
        unfold runHandle sendOutput
        dsimp only
        split
        · exact ⟨h1, hw', q.nxtE⟩
        · rename_i hl
          have hl' : s.lock = false := by simpa using hl
          have hsu : s.susp = .no := by
            apply Classical.byContradiction
            intro e; exact hl (h.lockSusp e)
          have hp : Writer.pend (some false) (s.trace ++ [Ev.request]) = some true := by
            rw [pend_append, h.pend, hsu]; rfl
          have hdead : s.destroyed = true → s.readerGone = true := by
            intro e
            rcases h.dead e with e | e
            · exact e
            · exact absurd e.1 hl
          have hnok : s.done ≠ .ok := fun e => hl (h.ok e).1
          have f1 : answers (s.trace ++ [Ev.request]) = answers s.trace := by rw [answers_append]; simp [answers]
          have f2 : attempted (s.trace ++ [Ev.request]) = attempted s.trace := by rw [attempted_append]; simp [attempted]
          have f3 : succeeded (s.trace ++ [Ev.request]) = succeeded s.trace := by rw [succeeded_append]; simp [succeeded]
          have f4 : Ev.close ∈ s.trace ++ [Ev.request] ↔ Ev.close ∈ s.trace := by simp
          split
          · refine ⟨⟨hp, ?_, ?_, ?_, fun _ => rfl, ?_, ?_, fun e => absurd e hnok, ?_, h.live, fun e => Or.inl (hdead e),
              ?_, ?_, ?_, h.rest⟩, ?_, q.nxtE⟩
            · show answers (s.trace ++ [Ev.request]) ++ _ = _; rw [f1]; exact h.ans
            · show attempted (s.trace ++ [Ev.request]) = (values (answers (s.trace ++ [Ev.request]))).map _
              rw [f1, f2]; exact h.att
            · show s.written = (succeeded (s.trace ++ [Ev.request])).flatten
              rw [f3]; exact h.wr
            · intro _ _ e; cases e
            · intro e
              show attempted (s.trace ++ [Ev.request]) = succeeded (s.trace ++ [Ev.request])
              rw [f2, f3]; exact h.good e
            · intro e
              have e' : Prod.fail ∈ answers (s.trace ++ [Ev.request]) := e
              rw [f1] at e'; exact h.failed e'
            · intro e
              show attempted (s.trace ++ [Ev.request]) = succeeded (s.trace ++ [Ev.request])
              rw [f2, f3]; exact h.noReader e
            · show s.destroyed = true ↔ Ev.close ∈ s.trace ++ [Ev.request]
              rw [f4]; exact h.closed
            · intro e
              exact h1.queue (f4.1 e)
            · show (hs ++ s.nxt).count .W = _
              rw [hw', hsu]; simp
          · constructor
            · refine inv_complete (s := St.log { s with cur := hs, lock := true } .request) hp rfl ?_ ?_ ?_ ?_ hnok ?_
                h.live hdead ?_ ?_ ?_
              · show answers (s.trace ++ [Ev.request]) ++ _ = _; rw [f1]; exact h.ans
              · show attempted (s.trace ++ [Ev.request]) = (values (answers (s.trace ++ [Ev.request]))).map _
                rw [f1, f2]; exact h.att
              · show s.written = (succeeded (s.trace ++ [Ev.request])).flatten
                rw [f3]; exact h.wr
              · intro e
                show attempted (s.trace ++ [Ev.request]) = succeeded (s.trace ++ [Ev.request])
                rw [f2, f3]; exact h.good e
              · intro e
                have e' : Prod.fail ∈ answers (s.trace ++ [Ev.request]) := e
                rw [f1] at e'; exact h.failed e'
              · intro e
                show attempted (s.trace ++ [Ev.request]) = succeeded (s.trace ++ [Ev.request])
                rw [f2, f3]; exact h.noReader e
              · show s.destroyed = true ↔ Ev.close ∈ s.trace ++ [Ev.request]
                rw [f4]; exact h.closed
              · intro e
                exact h1.queue (f4.1 e)
            · obtain ⟨c1, c2, c3⟩ := complete_queue (St.log { s with cur := hs, lock := true } .request)
              constructor
              · rw [c1, c3]
                show (hs ++ s.nxt).count .W = _
                rw [hw', hsu]
              · rw [c2]; exact q.nxtE
      | W =>
        have hcount : (hs ++ s.nxt).count .W + 1 = if s.susp = .queued then 1 else 0 := by
          simp only [List.cons_append, List.count_cons_self] at hw
          exact hw
        have hsu : s.susp = .queued := by
          apply Classical.byContradiction
          intro e; rw [if_neg e] at hcount; omega
        have hz : (hs ++ s.nxt).count .W = 0 := by rw [if_pos hsu] at hcount; omega
        have hne : s.susp ≠ .no := by rw [hsu]; simp
        have hlk := h.lockSusp hne
        unfold runHandle
        dsimp only
        split
        · refine ⟨⟨?_, h.ans, h.att, h.wr, fun _ => hlk, fun _ _ e => (by cases e), h.good, ?_, h.failed, h.live, ?_,
            h.noReader, h.closed, h1.queue, h.rest⟩, ?_, q.nxtE⟩
          · show Writer.pend (some false) s.trace = _
            rw [h.pend, hsu]; rfl
          · intro e; exact absurd (h.ok e).2.1 hne
          · intro e
            rcases h.dead e with e | e
            · exact Or.inl e
            · exact absurd e.2 hne
          · show (hs ++ s.nxt).count .W = _
            rw [hz]; simp
        · constructor
          · refine inv_complete (s := { s with cur := hs }) ?_ hlk h.ans h.att h.wr h.good
              (fun e => absurd (h.ok e).2.1 hne) h.failed h.live ?_ h.noReader h.closed h1.queue
            · show Writer.pend (some false) s.trace = _
              rw [h.pend, hsu]; rfl
            · intro e
              rcases h.dead e with e | e
              · exact e
              · exact absurd e.2 hne
          · obtain ⟨c1, c2, c3⟩ := complete_queue { s with cur := hs }
            constructor
            · rw [c1, c3]
              show (hs ++ s.nxt).count .W = _
              rw [hz]; simp
            · rw [c2]; exact q.nxtE
  | wake =>
    unfold step
    dsimp only
    split
    · rename_i hsu
      have hne : s.susp ≠ .no := by rw [hsu]; simp
      refine ⟨⟨?_, h.ans, h.att, h.wr, fun _ => h.lockSusp hne, fun _ _ e => (by cases e), h.good, ?_, h.failed, h.live, ?_,
            h.noReader, h.closed, h.queue, h.rest⟩, ?_, ?_⟩
      · show Writer.pend (some false) s.trace = _
        rw [h.pend, hsu]; rfl
      · intro e; exact absurd (h.ok e).2.1 hne
      · intro e
        rcases h.dead e with e | e
        · exact Or.inl e
        · exact absurd e.2 hne
      · show (s.cur ++ (s.nxt ++ [H.W])).count .W = _
        have := q.w
        rw [hsu] at this
        rw [← List.append_assoc, List.count_append, this]; simp
      · show H.E ∉ s.nxt ++ [H.W]
        have := q.nxtE
        simp [this]
    · exact ⟨h, q⟩
  | drain n =>
    exact ⟨⟨h.pend, h.ans, h.att, h.wr, h.lockSusp, h.lockLive, h.good, h.ok, h.failed, h.live, h.dead, h.noReader,
      h.closed, h.queue, h.rest⟩, q.w, q.nxtE⟩
  | readerGone =>
    exact ⟨⟨h.pend, h.ans, h.att, h.wr, h.lockSusp, h.lockLive, h.good, h.ok, h.failed, h.live, fun _ => Or.inl rfl,
      (fun e => by cases e), h.closed, h.queue, fun _ => Or.inl rfl⟩, q.w, q.nxtE⟩

theorem inv_q_run {ps : List Prod} (as : List Act) : ∀ {s : St}, Inv ps s → Q s → Inv ps (run s as) ∧ Q (run s as) := by
  induction as with
  | nil => intro s h q; exact ⟨h, q⟩
  | cons a as ih =>
    intro s h q
    obtain ⟨h1, q1⟩ := inv_q_step h q a
    exact ih h1 q1

end Pieshell.Io.Writer
