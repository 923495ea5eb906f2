import Verif.Spec.Signal
import Verif.Lemmas.Dict
/-! Invariants of the signal managers. -/
namespace Pieshell.Sig
open Dict

theorem decode_of_valid (ch : Change) (hv : ch.valid = true) (hc : ch ≠ .continued) : decode ch.status = expected ch := by
  cases ch with
  | exited c =>
    simp [Change.valid] at hv
    have h1 : c * 256 % 128 = 0 := by omega
    have h2 : c * 256 / 256 % 256 = c := by omega
    simp only [Change.status, decode, WIFEXITED, WEXITSTATUS, h1, h2, expected, CLD_EXITED, beq_self_eq_true, if_true]
  | killed sig core =>
    simp [Change.valid] at hv
    cases core
    · have h1 : sig % 128 = sig := by omega
      have h2 : (sig / 128 % 2 == 1) = false := by simp; omega
      have h3 : (sig == 0) = false := by simp; omega
      have h4 : (sig == 65535) = false := by simp; omega
      have h5 : (sig % 256 == 127) = false := by simp; omega
      have h6 : decide (1 ≤ sig) = true := by simp; omega
      have h7 : decide (sig ≤ 126) = true := by simp; omega
      simp only [Change.status, decode, WIFEXITED, WCOREDUMP, WIFCONTINUED, WIFSTOPPED, WIFSIGNALED, WTERMSIG, h1, h2,
        h3, h4, h5, h6, h7, expected, CLD_KILLED, if_false, if_true, Bool.false_eq_true, Nat.add_zero, Bool.and_self]
    · have h1 : (sig + 128) % 128 = sig := by omega
      have h2 : (sig + 128) / 128 % 2 = 1 := by omega
      have h3 : (sig == 0) = false := by simp; omega
      simp only [Change.status, decode, WIFEXITED, WCOREDUMP, WTERMSIG, h1, h2,
        h3, expected, CLD_DUMPED, if_false, if_true, Bool.false_eq_true, beq_self_eq_true]
  | stopped sig =>
    simp [Change.valid] at hv
    have h1 : ((sig * 256 + 127) % 128 == 0) = false := by simp; omega
    have h2 : ((sig * 256 + 127) / 128 % 2 == 1) = false := by simp; omega
    have h3 : (sig * 256 + 127 == 65535) = false := by simp; omega
    have h4 : ((sig * 256 + 127) % 256 == 127) = true := by simp
    have h5 : (sig * 256 + 127) / 256 % 256 = sig := by omega
    simp only [Change.status, decode, WIFEXITED, WCOREDUMP, WIFCONTINUED, WIFSTOPPED, WSTOPSIG, h1, h2, h3, h4, h5,
      expected, CLD_STOPPED, if_false, if_true, Bool.false_eq_true]
  | continued => exact absurd rfl hc

theorem decode_exited (ch : Change) (hv : ch.valid = true) : (decode ch.status).1 = CLD_EXITED ↔ ∃ c, ch = .exited c := by
  by_cases hc : ch = .continued
  · subst hc
    simp [Change.status, decode, WIFEXITED, WCOREDUMP, CLD_EXITED, CLD_DUMPED]
  · rw [decode_of_valid ch hv hc]
    cases ch with
    | exited c => simp [expected, CLD_EXITED]
    | killed sig core => cases core <;> simp [expected, CLD_EXITED]
    | stopped sig => simp [expected, CLD_EXITED]
    | continued => exact absurd rfl hc

/-! ### Dispatch -/

/-- Registered handlers have the filters of their constructors. -/
def WF (hs : Dict Filter HId) : Prop :=
  ∀ f h, (f, h) ∈ hs → (f = stopFilter ∧ h = .stop) ∨ ∃ p, f = procFilter p ∧ h = .proc p

theorem procFilter_inj {p q : Nat} : procFilter p = procFilter q ↔ p = q := by simp [procFilter]
theorem stop_ne_proc {p : Nat} : stopFilter ≠ procFilter p := by simp [stopFilter, procFilter]

theorem match_chld_stop (p : Nat) (ch : Change) : matchSignal (chldInfo p ch) stopFilter = false := by
  simp [matchSignal, stopFilter, chldInfo, SigInfo.get, SIGCHLD, SIGTSTP]

theorem match_chld_proc (p q : Nat) (ch : Change) : matchSignal (chldInfo p ch) (procFilter q) = (p == q) := by
  simp [matchSignal, procFilter, chldInfo, SigInfo.get]

theorem match_tstp_stop (q : Nat) : matchSignal (tstpInfo q) stopFilter = true := by
  simp [matchSignal, stopFilter, tstpInfo, SigInfo.get]

theorem match_tstp_proc (p q : Nat) : matchSignal (tstpInfo p) (procFilter q) = (p == q) := by
  simp [matchSignal, procFilter, tstpInfo, SigInfo.get]

theorem foldl_none (i : SigInfo) (l : Dict Filter HId) (h : ∀ kv ∈ l, matchSignal i kv.1 = false) (s : St) :
    l.foldl (fun s kv => if matchSignal i kv.1 then handleEvent s kv.2 i else s) s = s := by
  induction l generalizing s with
  | nil => rfl
  | cons kv l ih =>
    simp only [List.foldl_cons]
    rw [h kv (by simp)]
    exact ih (fun kv hkv => h kv (by simp [hkv])) s

theorem foldl_chld (p : Nat) (ch : Change) (l : Dict Filter HId) (hw : WF l) (hu : Uniq l) (s : St) :
    l.foldl (fun s kv => if matchSignal (chldInfo p ch) kv.1 then handleEvent s kv.2 (chldInfo p ch) else s) s =
      if l.get? (procFilter p) = some (.proc p) then handleEvent s (.proc p) (chldInfo p ch) else s := by
  induction l generalizing s with
  | nil => simp [get?]
  | cons kv l ih =>
    obtain ⟨f, h⟩ := kv
    have hw' : WF l := fun f h hm => hw f h (by simp [hm])
    have hu' : Uniq l := by simp [Uniq, keys] at hu ⊢; exact hu.2
    simp only [List.foldl_cons]
    rcases hw f h (by simp) with ⟨rfl, rfl⟩ | ⟨q, rfl, rfl⟩
    · rw [match_chld_stop]
      simp only [Bool.false_eq_true, if_false]
      rw [ih hw' hu']
      simp [get?, stop_ne_proc]
    · rw [match_chld_proc]
      by_cases e : p = q
      · subst e
        simp only [beq_self_eq_true, if_true]
        rw [foldl_none]
        · simp [get?]
        · intro kv hkv
          obtain ⟨f, h⟩ := kv
          rcases hw' f h hkv with ⟨rfl, rfl⟩ | ⟨r, rfl, rfl⟩
          · exact match_chld_stop _ _
          · rw [match_chld_proc]
            have hn : procFilter p ∉ keys l := by simp [Uniq, keys] at hu ⊢; exact hu.1
            have : p ≠ r := by
              intro e; subst e
              exact hn (by simp [keys]; exact ⟨_, hkv⟩)
            simpa using this
      · have : (p == q) = false := by simpa using e
        simp only [this, Bool.false_eq_true, if_false]
        rw [ih hw' hu']
        have : procFilter q ≠ procFilter p := by rw [Ne, procFilter_inj]; exact fun h => e h.symm
        simp [get?, this]

theorem dispatch_chld (s : St) (hw : WF s.handlers) (hu : Uniq s.handlers) (p : Nat) (ch : Change) :
    dispatch s (chldInfo p ch) =
      if s.handlers.get? (procFilter p) = some (.proc p) then handleEvent s (.proc p) (chldInfo p ch) else s :=
  foldl_chld p ch _ hw hu s

/-- What a stop signal may change: the last event of a registered process handler, and deliveries of stop signals. -/
structure TstpRel (s t : St) : Prop where
  mgr : t.mgr = s.mgr
  kids : t.kids = s.kids
  sigchld : t.sigchld = s.sigchld
  tstp : t.tstp = s.tstp
  inbox : t.inbox = s.inbox
  phase : t.phase = s.phase
  handlers : t.handlers = s.handlers
  changes : t.changes = s.changes
  deliv : ∃ d, t.deliv = s.deliv ++ d ∧ ∀ x ∈ d, x.2.signo = SIGTSTP
  procs : ∀ p, (t.procs.get? p).map ProcSt.done = (s.procs.get? p).map ProcSt.done
  procsDone : ∀ p ps, s.procs.get? p = some ps → ps.done = true → t.procs.get? p = some ps

theorem TstpRel.refl (s : St) : TstpRel s s :=
  ⟨rfl, rfl, rfl, rfl, rfl, rfl, rfl, rfl, ⟨[], by simp, by simp⟩, fun _ => rfl, fun _ _ h _ => h⟩

theorem TstpRel.trans {s t u : St} (h1 : TstpRel s t) (h2 : TstpRel t u) : TstpRel s u := by
  obtain ⟨d1, e1, f1⟩ := h1.deliv
  obtain ⟨d2, e2, f2⟩ := h2.deliv
  refine ⟨h2.mgr.trans h1.mgr, h2.kids.trans h1.kids, h2.sigchld.trans h1.sigchld, h2.tstp.trans h1.tstp,
    h2.inbox.trans h1.inbox, h2.phase.trans h1.phase, h2.handlers.trans h1.handlers, h2.changes.trans h1.changes,
    ⟨d1 ++ d2, by rw [e2, e1]; simp, ?_⟩, fun p => (h2.procs p).trans (h1.procs p),
    fun p ps h hd => h2.procsDone p ps (h1.procsDone p ps h hd) hd⟩
  intro x hx
  rcases List.mem_append.1 hx with h | h
  · exact f1 x h
  · exact f2 x h

theorem handleEvent_tstp (s : St) (q : Nat) (h : HId)
    (hreg : ∀ p, h = .proc p → ∃ ps, s.procs.get? p = some ps ∧ ps.done = false) :
    TstpRel s (handleEvent s h (tstpInfo q)) := by
  cases h with
  | stop =>
    exact ⟨rfl, rfl, rfl, rfl, rfl, rfl, rfl, rfl, ⟨_, rfl, by simp [tstpInfo]⟩, fun _ => rfl, fun _ _ h _ => h⟩
  | proc p =>
    obtain ⟨ps, h1, h2⟩ := hreg p rfl
    have : handleEvent s (.proc p) (tstpInfo q) =
        { s with deliv := s.deliv ++ [(.proc p, tstpInfo q)], procs := s.procs.set p ⟨some (tstpInfo q), false⟩ } := by
      simp [handleEvent, tstpInfo, CLD_EXITED, h1, h2]
    rw [this]
    refine ⟨rfl, rfl, rfl, rfl, rfl, rfl, rfl, rfl, ⟨_, rfl, by simp [tstpInfo]⟩, ?_, ?_⟩
    · intro p'
      simp only [get?_set]
      split
      · rename_i e; subst e; simp [h1, h2]
      · rfl
    · intro p' ps' h hd
      simp only [get?_set]
      split
      · rename_i e; subst e; rw [h1] at h; cases h; rw [h2] at hd; cases hd
      · exact h

theorem foldl_tstp (q : Nat) (l : Dict Filter HId) (s : St)
    (hreg : ∀ f p, (f, HId.proc p) ∈ l → ∃ ps, s.procs.get? p = some ps ∧ ps.done = false) :
    TstpRel s (l.foldl (fun s kv => if matchSignal (tstpInfo q) kv.1 then handleEvent s kv.2 (tstpInfo q) else s) s) := by
  induction l generalizing s with
  | nil => exact TstpRel.refl s
  | cons kv l ih =>
    obtain ⟨f, h⟩ := kv
    simp only [List.foldl_cons]
    have h1 : TstpRel s (if matchSignal (tstpInfo q) f then handleEvent s h (tstpInfo q) else s) := by
      split
      · exact handleEvent_tstp s q h (fun p e => hreg f p (by simp [e]))
      · exact TstpRel.refl s
    refine h1.trans (ih _ ?_)
    intro f' p hm
    obtain ⟨ps, h2, h3⟩ := hreg f' p (by simp [hm])
    have := h1.procs p
    rw [h2] at this
    cases e : (if matchSignal (tstpInfo q) f then handleEvent s h (tstpInfo q) else s).procs.get? p with
    | none => rw [e] at this; cases this
    | some ps' => rw [e] at this; simp at this; exact ⟨ps', rfl, by rw [this, h3]⟩

/-! ### The invariant of a single child -/

def pend (k : Option Kid) : List Change := ((k.bind Kid.pending).map (fun c => [c])).getD []

/-- Invariant of child `p`: `h` its registered handler, `ps` its handler's state, `k` the kernel's view, `ch` its
changes, `rc` the child events its handler received. -/
structure PI (p : Nat) (h : Option HId) (ps : Option ProcSt) (k : Option Kid) (ch : List Change) (rc : List SigInfo) :
    Prop where
  reg : h = some (.proc p) ↔ ps.map ProcSt.done = some false
  known : k = none → ps = none ∧ ch = [] ∧ rc = []
  sub : (rc ++ (pend k).map (chldInfo p)).Sublist (ch.map (chldInfo p))
  pl : ∀ c, k.bind Kid.pending = some c → ch.getLast? = some c
  last : ps ≠ none → pend k = [] → rc.getLast? = (ch.getLast?).map (chldInfo p)
  unreg : ps = none → rc = []
  alive : k.map Kid.ended = some false → ∀ c ∈ ch, c.final = false
  ended : k.map Kid.ended = some true → ∃ l c, ch = l ++ [c] ∧ c.final = true ∧ ∀ x ∈ l, x.final = false
  valid : ∀ c ∈ ch, c.valid = true
  done : ∀ q, ps = some q → q.done = true →
    pend k = [] ∧ ∃ c, ch.getLast? = some (.exited c) ∧ q.last = some (chldInfo p (.exited c))
  notdone : ∀ q, ps = some q → q.done = false → ∀ i ∈ rc, i.code ≠ CLD_EXITED

structure Inv (s : St) : Prop where
  wf : WF s.handlers
  uniq : Uniq s.handlers
  kuniq : Uniq s.kids
  stop : s.handlers.get? stopFilter = some .stop
  pi : ∀ p, PI p (s.handlers.get? (procFilter p)) (s.procs.get? p) (s.kids.get? p) (changesOf s p) (receivedBy s p)
  wake : (∃ p, (s.kids.get? p).bind Kid.pending ≠ none) → s.sigchld = true ∨ s.phase = .waiting ∨ s.inbox ≠ []

theorem inv_init (m : Mgr) : Inv (init m) := by
  refine ⟨?_, by simp [init, Uniq, keys], by simp [init, Uniq, keys], by simp [init, get?], ?_, by simp [init, get?]⟩
  · intro f h hm
    simp [init] at hm
    exact Or.inl hm
  · intro p
    constructor <;> simp [init, get?, stop_ne_proc, changesOf, receivedBy, pend]

theorem wf_set {hs : Dict Filter HId} (hw : WF hs) (p : Nat) : WF (hs.set (procFilter p) (.proc p)) := by
  intro f h hm
  induction hs with
  | nil => simp [Dict.set] at hm; exact Or.inr ⟨p, hm⟩
  | cons kv hs ih =>
    obtain ⟨f', h'⟩ := kv
    simp only [Dict.set] at hm
    split at hm
    · rcases List.mem_cons.1 hm with h1 | h1
      · cases h1; exact Or.inr ⟨p, rfl, rfl⟩
      · exact hw f h (by simp [h1])
    · rcases List.mem_cons.1 hm with h1 | h1
      · cases h1; exact hw _ _ (by simp)
      · exact ih (fun f h hm => hw f h (by simp [hm])) h1

theorem mem_erase_of {κ α : Type} [DecidableEq κ] {d : Dict κ α} {k : κ} {x : κ × α} (h : x ∈ Dict.erase d k) : x ∈ d := by
  induction d with
  | nil => simp [Dict.erase] at h
  | cons kv d ih =>
    obtain ⟨a, b⟩ := kv
    simp only [Dict.erase] at h
    split at h
    · simp [h]
    · rcases List.mem_cons.1 h with h1 | h1
      · simp [h1]
      · exact List.mem_cons_of_mem _ (ih h1)

theorem wf_erase {hs : Dict Filter HId} (hw : WF hs) (f : Filter) : WF (hs.erase f) :=
  fun f' h hm => hw f' h (mem_erase_of hm)

theorem nothing_iff (s : St) (hu : Uniq s.kids) :
    s.nothing = true ↔ ∀ p, (s.kids.get? p).bind Kid.pending = none := by
  simp only [St.nothing, List.all_eq_true]
  constructor
  · intro h p
    cases hg : s.kids.get? p with
    | none => rfl
    | some k => simpa using h _ (mem_of_get? _ hg)
  · intro h kv hm
    have := h kv.1
    rw [get?_of_mem _ hu (v := kv.2) hm] at this
    simpa using this

/-- Steps that change none of the children's components and keep the wake-up condition. -/
theorem inv_frame {s t : St} (hi : Inv s) (hh : t.handlers = s.handlers) (hp : t.procs = s.procs) (hk : t.kids = s.kids)
    (hc : t.changes = s.changes) (hd : t.deliv = s.deliv)
    (hw : (∃ p, (s.kids.get? p).bind Kid.pending ≠ none) → t.sigchld = true ∨ t.phase = .waiting ∨ t.inbox ≠ []) : Inv t := by
  refine ⟨hh ▸ hi.wf, hh ▸ hi.uniq, hk ▸ hi.kuniq, by rw [hh]; exact hi.stop, ?_, by rw [hk]; exact hw⟩
  intro p
  have := hi.pi p
  simpa [changesOf, receivedBy, hh, hp, hk, hc, hd] using this

end Pieshell.Sig
