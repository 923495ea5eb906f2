import Verif.Lemmas.Flow
/-!
# Executions of a chain of programs are coherent families of runs
-/
namespace Pieshell.Flow
variable {σ : Type} {next : Prog σ}

/-- `N` items connected one after the other by the pipes `q 0`, `q 1`, ..., whose ends nobody else has open: programs have them
open while they run, functions as long as the shell's descriptor is not shut. -/
structure IsChain (net : Net) (N : Nat) (q : Nat → Nat) : Prop where
  len : net.items.length = N
  inj : ∀ j k, j < N → k < N → q j = q k → j = k
  inp0 : net.inPipe 0 = none
  inp : ∀ k, k + 1 < N → net.inPipe (k + 1) = some (q k)
  out : ∀ k, k + 1 < N → net.outPipe k = some (q k)
  last : ∀ k, k + 1 = N → net.outPipe k = net.user
  user : ∀ u, net.user = some u → ∃ k, k + 1 = N ∧ u = q k
  openW : ∀ k, k + 1 < N →
    (net.outFd k = none ∧ ∀ {σ : Type} (s : St σ), net.Open s (.pipeW (q k)) ↔ ∃ st, s.proc k = .running st) ∨
    (∃ n, net.outFd k = some n ∧ (∀ j, net.outFd j = some n → j = k) ∧ (∀ j, net.inFd j ≠ some n) ∧
      ∀ {σ : Type} (s : St σ), net.Open s (.pipeW (q k)) ↔ s.shut n = false)
  openR : ∀ k, k + 1 < N →
    (net.inFd (k + 1) = none ∧ net.outFd (k + 1) = none ∧ ∀ {σ : Type} (s : St σ), net.Open s (.pipeR (q k)) ↔ ∃ st, s.proc (k + 1) = .running st) ∨
    (∃ n, net.inFd (k + 1) = some n ∧ (∀ j, net.inFd j = some n → j = k + 1) ∧ (∀ j, net.outFd j ≠ some n) ∧
      ∀ {σ : Type} (s : St σ), net.Open s (.pipeR (q k)) ↔ s.shut n = false)
  openU : ∀ u, net.user = some u → ∃ n, (∀ j, net.inFd j ≠ some n ∧ net.outFd j ≠ some n) ∧
    ∀ {σ : Type} (s : St σ), s.shut n = false → net.Open s (.pipeR u)
  cap : ∀ k, 0 < net.cap k

def sumTo : Nat → (Nat → Nat) → Nat
  | 0, _ => 0
  | n + 1, f => sumTo n f + f n

theorem sumTo_congr {f g : Nat → Nat} (n : Nat) (h : ∀ k, k < n → f k = g k) : sumTo n f = sumTo n g := by
  induction n with
  | zero => rfl
  | succ n ih => simp only [sumTo]; rw [ih fun k hk => h k (by omega), h n (by omega)]

theorem sumTo_le {f g : Nat → Nat} (n : Nat) (h : ∀ k, k < n → f k ≤ g k) : sumTo n f ≤ sumTo n g := by
  induction n with
  | zero => exact Nat.le_refl _
  | succ n ih => simp only [sumTo]; have := ih fun k hk => h k (by omega); have := h n (by omega); omega

theorem sumTo_lt {f g : Nat → Nat} (n k : Nat) (hk : k < n) (h : ∀ j, j < n → j ≠ k → f j ≤ g j) (hb : f k + 1 ≤ g k) :
    sumTo n f + 1 ≤ sumTo n g := by
  induction n with
  | zero => omega
  | succ n ih =>
    simp only [sumTo]
    by_cases hn : k = n
    · subst hn
      have := sumTo_le k (f := f) (g := g) fun j hj => h j (by omega) (by omega)
      omega
    · have := ih (by omega) fun j hj => h j (by omega)
      have := h n (by omega) (by omega)
      omega

/-- 1 for an item that has ended. -/
def Proc.ended : Proc σ → Nat
  | .running _ => 0
  | _ => 1

/-- What counts for the number of steps: steps of the item, its end, what it or its handler has read. -/
def work (F : Fam σ) (s : St σ) (k : Nat) : Nat :=
  F.cnt k + (s.proc k).ended + (F.rd k).length + (s.ahead k).length + (s.heof k).toNat + F.aft k

/-- What is true of the states of the items and of their outputs. -/
structure Procs (net : Net) (N : Nat) (s : St σ) (F : Fam σ) : Prop where
  run : ∀ k st, k < N → s.proc k = .running st → F.fin k = none ∧ (s.cut k = false → F.cur k = st)
  exited : ∀ k c, k < N → s.proc k = .exited c → s.cut k = false → F.fin k = some c
  killed : ∀ k, k < N → s.proc k = .killed → s.cut k = true
  cut : ∀ k, k < N → s.cut k = true → F.fin k = none ∧ k + 1 < N ∧ net.inFd (k + 1) = none ∧ ∀ st, s.proc (k + 1) ≠ .running st
  fd : ∀ k st, k < N → s.cut k = true → s.proc k = .running st → net.outFd k = none
  out : ∀ k, k < N → s.out k = F.wr k
  shutW : ∀ k n, k + 1 < N → net.outFd k = some n → (s.shut n = false ↔ ∃ st, s.proc k = .running st)

/-- What is true of the pipes and of the handlers. -/
structure Pipes (net : Net) (N : Nat) (q : Nat → Nat) (inp : Bytes) (s : St σ) (F : Fam σ) : Prop where
  mid : ∀ k, k + 1 < N → F.rd (k + 1) ++ F.ext (k + 1) ++ s.ahead (k + 1) ++ s.buf (q k) = F.wr k
  src : F.rd 0 ++ F.ext 0 ++ s.ahead 0 ++ s.src 0 = inp
  got : ∀ k, k + 1 = N → net.user = some (q k) → s.got ++ s.buf (q k) = F.wr k
  prog : ∀ k, net.inFd k = none → s.ahead k = []
  heof : ∀ k, k + 1 < N → s.heof (k + 1) = true → (∃ c, F.fin k = some c) ∧ s.buf (q k) = []
  heof0 : s.heof 0 = true → s.src 0 = []
  shutR : ∀ k n, k + 1 < N → net.inFd (k + 1) = some n → s.shut n = true → s.heof (k + 1) = true
  shutU : ∀ n, (∀ j, net.inFd j ≠ some n ∧ net.outFd j ≠ some n) → s.shut n = false
  ext : ∀ k, s.cut k = false → F.ext k = []

/-- How many steps items make after a failed write. -/
structure After (next : Prog σ) (s : St σ) (F : Fam σ) : Prop where
  zero : ∀ k, s.cut k = false → F.aft k = 0
  le : ∀ n, GivesUp next n → ∀ k, F.aft k ≤ n + 1 ∧ ∀ st, s.proc k = .running st → s.cut k = true → ∃ m, F.aft k + m ≤ n + 1 ∧ StopsIn next m st

structure Inv (next : Prog σ) (init : Nat → σ) (net : Net) (N : Nat) (q : Nat → Nat) (inp : Bytes) (L : Nat) (s : St σ) (F : Fam σ) : Prop
    extends Procs net N s F, Pipes net N q inp s F where
  coh : Coh next init N inp F
  steps : L ≤ sumTo N (work F s) + s.got.length
  after : After next s F

theorem inv_start (init : Nat → σ) (net : Net) (N : Nat) (q : Nat → Nat) (src : Nat → Bytes) :
    ∃ F, Inv next init net N q (src 0) 0 (St.start init src) F := by
  refine ⟨⟨fun _ => 0, fun _ => [], fun _ => false, fun _ => [], init, fun _ => none, fun _ => [], fun _ => 0⟩,
    ⟨⟨?_, ?_, ?_, ?_, ?_, ?_, ?_⟩, ⟨?_, ?_, ?_, ?_, ?_, ?_, ?_, ?_, ?_⟩, ⟨?_, ?_, ?_, ?_, ?_, ?_⟩, ?_, ⟨?_, ?_⟩⟩⟩ <;> simp [St.start]
  intro k _; exact .nil

/-- The family with the run of program `k` replaced. -/
def Fam.set (F : Fam σ) (k cnt : Nat) (rd : Bytes) (eof : Bool) (wr : Bytes) (cur : σ) (fin : Option Nat) : Fam σ :=
  ⟨upd F.cnt k cnt, upd F.rd k rd, upd F.eof k eof, upd F.wr k wr, upd F.cur k cur, upd F.fin k fin, F.ext, F.aft⟩

theorem upd_same {α : Type} (f : Nat → α) (k : Nat) (v : α) : upd f k v k = v := by simp [upd]
theorem upd_ne {α : Type} (f : Nat → α) {k j : Nat} (v : α) (h : j ≠ k) : upd f k v j = f j := by simp [upd, h]

theorem Coh.set {init : Nat → σ} {N : Nat} {inp : Bytes} {F : Fam σ} (h : Coh next init N inp F) {k cnt : Nat} {rd : Bytes} {eof : Bool}
    {wr : Bytes} {cur : σ} {fin : Option Nat} (ht : Trace next (init k) cnt rd eof wr cur)
    (hf : ∀ c, fin = some c → next cur = .exit c)
    (h0 : k = 0 → rd <+: inp ∧ (eof = true → rd = inp))
    (h1 : ∀ j, k = j + 1 → k < N → rd <+: F.wr j ∧ (eof = true → rd = F.wr j ∧ ∃ c, F.fin j = some c))
    (h2 : k + 1 < N → F.rd (k + 1) <+: wr ∧ (F.eof (k + 1) = true → F.rd (k + 1) = wr ∧ ∃ c, fin = some c)) :
    Coh next init N inp (F.set k cnt rd eof wr cur fin) := by
  refine ⟨fun j hj => ?_, fun j c hj => ?_, ?_, ?_, fun j hj => ?_, fun j hj => ?_⟩
  · by_cases e : j = k
    · subst e; simp only [Fam.set, upd_same]; exact ht
    · simp only [Fam.set, upd_ne _ _ e]; exact h.trace j hj
  · by_cases e : j = k
    · subst e; simp only [Fam.set, upd_same]; exact hf c
    · simp only [Fam.set, upd_ne _ _ e]; exact h.fin j c hj
  · by_cases e : 0 = k
    · subst e; simp only [Fam.set, upd_same]; exact (h0 rfl).1
    · simp only [Fam.set, upd_ne _ _ e]; exact h.first
  · by_cases e : 0 = k
    · subst e; simp only [Fam.set, upd_same]; exact (h0 rfl).2
    · simp only [Fam.set, upd_ne _ _ e]; exact h.firstEof
  · by_cases e : j = k
    · subst e
      simp only [Fam.set, upd_same, upd_ne _ _ (show j + 1 ≠ j by omega)]; exact (h2 hj).1
    · by_cases e' : j + 1 = k
      · subst e'
        simp only [Fam.set, upd_same, upd_ne _ _ e]; exact (h1 j rfl hj).1
      · simp only [Fam.set, upd_ne _ _ e, upd_ne _ _ e']; exact h.rest j hj
  · by_cases e : j = k
    · subst e
      simp only [Fam.set, upd_same, upd_ne _ _ (show j + 1 ≠ j by omega)]; exact (h2 hj).2
    · by_cases e' : j + 1 = k
      · subst e'
        simp only [Fam.set, upd_same, upd_ne _ _ e]; exact (h1 j rfl hj).2
      · simp only [Fam.set, upd_ne _ _ e, upd_ne _ _ e']; exact h.restEof j hj

theorem close_ne {shut : Nat → Bool} {fd : Option Nat} {n : Nat} (h : fd ≠ some n) : close shut fd n = shut n := by
  simp [close, h]

theorem close_same {shut : Nat → Bool} {n : Nat} : close shut (some n) n = true := by simp [close]

section
variable {init : Nat → σ} {net : Net} {N : Nat} {q : Nat → Nat} {inp : Bytes} {L : Nat} {s : St σ} {F : Fam σ}

theorem sepW (hn : IsChain net N q) {k n : Nat} (hk : k + 1 < N) (h : net.outFd k = some n) :
    (∀ j, net.outFd j = some n → j = k) ∧ ∀ j, net.inFd j ≠ some n := by
  rcases hn.openW k hk with ⟨h', _⟩ | ⟨m, h1, h2, h3, _⟩
  · rw [h'] at h; cases h
  · rw [h1] at h; cases h; exact ⟨h2, h3⟩

theorem sepR (hn : IsChain net N q) {k n : Nat} (hk : k + 1 < N) (h : net.inFd (k + 1) = some n) :
    (∀ j, net.inFd j = some n → j = k + 1) ∧ ∀ j, net.outFd j ≠ some n := by
  rcases hn.openR k hk with ⟨h', _⟩ | ⟨m, h1, h2, h3, _⟩
  · rw [h'] at h; cases h
  · rw [h1] at h; cases h; exact ⟨h2, h3⟩

theorem openW_iff (hn : IsChain net N q) (hi : Inv next init net N q inp L s F) {k : Nat} (hk : k + 1 < N) :
    net.Open s (.pipeW (q k)) ↔ ∃ st, s.proc k = .running st := by
  rcases hn.openW k hk with ⟨_, h⟩ | ⟨n, h1, _, _, h⟩
  · exact h s
  · rw [h s]; exact hi.shutW k n hk h1

/-- The read end of a function's pipe is open as long as the item before it has not ended by itself. -/
theorem openR_func (hn : IsChain net N q) (hi : Inv next init net N q inp L s F) {k n : Nat} (hk : k + 1 < N)
    (h1 : net.inFd (k + 1) = some n) (hf : F.fin k = none) : net.Open s (.pipeR (q k)) := by
  rcases hn.openR k hk with ⟨h', _⟩ | ⟨m, h2, _, _, g⟩
  · rw [h'] at h1; cases h1
  · rw [h2] at h1; cases h1
    rw [g s]
    cases hsn : s.shut n with
    | false => rfl
    | true =>
      obtain ⟨⟨c, hc⟩, _⟩ := hi.heof k hk (hi.shutR k n hk h2 hsn)
      rw [hf] at hc; cases hc

theorem openR_prog (hn : IsChain net N q) {k : Nat} (hk : k + 1 < N) (h : net.inFd (k + 1) = none) :
    net.Open s (.pipeR (q k)) ↔ ∃ st, s.proc (k + 1) = .running st := by
  rcases hn.openR k hk with ⟨_, _, g⟩ | ⟨m, h2, _, _, g⟩
  · exact g s
  · rw [h2] at h; cases h

/-- The read end is open while the reader runs. -/
theorem openR_running (hn : IsChain net N q) (hi : Inv next init net N q inp L s F) {k : Nat} (hk : k + 1 < N) {st st' : σ}
    (h : s.proc k = .running st) (h' : s.proc (k + 1) = .running st') : net.Open s (.pipeR (q k)) := by
  cases h1 : net.inFd (k + 1) with
  | none => exact (openR_prog hn hk h1).2 ⟨st', h'⟩
  | some n => exact openR_func hn hi hk h1 (hi.run k st (by omega) h).1

theorem openU_open (hn : IsChain net N q) (hi : Inv next init net N q inp L s F) {u : Nat} (hu : net.user = some u) :
    net.Open s (.pipeR u) := by
  obtain ⟨n, h1, h2⟩ := hn.openU u hu
  exact h2 s (hi.shutU n h1)

/-! Steps in which an item goes on. -/

theorem procs_on (hi : Inv next init net N q inp L s F) {k : Nat} {st : σ} (hp : s.proc k = .running st) (hc : s.cut k = false)
    (cnt : Nat) (rd : Bytes) (eof : Bool) {wr : Bytes} {cur : σ} {t : St σ} (h1 : t.proc = upd s.proc k (.running cur))
    (h2 : t.out = upd s.out k wr) (h3 : ∀ n, (∃ i, net.outFd i = some n ∧ i + 1 < N) → t.shut n = s.shut n) (h4 : t.cut = s.cut) :
    Procs net N t (F.set k cnt rd eof wr cur none) := by
  refine ⟨?_, ?_, ?_, ?_, ?_, ?_, ?_⟩
  · intro i st' hin
    rw [h1, h4]
    by_cases e : i = k
    · subst e; simp only [Fam.set, upd_same, Proc.running.injEq]; exact fun h => ⟨trivial, fun _ => h⟩
    · simp only [Fam.set, upd_ne _ _ e]; exact hi.run i st' hin
  · intro i c hin
    rw [h1, h4]
    by_cases e : i = k
    · subst e; simp [upd_same]
    · simp only [Fam.set, upd_ne _ _ e]; exact hi.exited i c hin
  · intro i hin
    rw [h1, h4]
    by_cases e : i = k
    · subst e; simp [upd_same]
    · simp only [upd_ne _ _ e]; exact hi.killed i hin
  · intro i hin
    rw [h1, h4]
    by_cases e : i = k
    · subst e; rw [hc]; simp
    · simp only [Fam.set, upd_ne _ _ e]
      intro hki
      obtain ⟨h0, h1, h1', h2⟩ := hi.cut i hin hki
      refine ⟨h0, h1, h1', ?_⟩
      by_cases e' : i + 1 = k
      · rw [e'] at h2; exact absurd hp (h2 _)
      · simp only [upd_ne _ _ e']; exact h2
  · intro i st' hin
    rw [h1, h4]
    by_cases e : i = k
    · subst e; rw [hc]; simp
    · simp only [upd_ne _ _ e]; exact hi.fd i st' hin
  · intro i hin
    rw [h2]
    by_cases e : i = k
    · subst e; simp only [Fam.set, upd_same]
    · simp only [Fam.set, upd_ne _ _ e]; exact hi.out i hin
  · intro i n hin h
    rw [h1, h3 n ⟨i, h, hin⟩, hi.shutW i n hin h]
    by_cases e : i = k
    · subst e; simp [upd_same, hp]
    · simp only [upd_ne _ _ e]

/-- The item that goes on has not failed to write. -/
theorem after_on (hi : Inv next init net N q inp L s F) {k : Nat} (hc : s.cut k = false)
    (cnt : Nat) (rd : Bytes) (eof : Bool) (wr : Bytes) (cur : σ) (fin : Option Nat) {x : Proc σ} {t : St σ} (h1 : t.proc = upd s.proc k x) (h4 : t.cut = s.cut) :
    After next t (F.set k cnt rd eof wr cur fin) := by
  refine ⟨by rw [h4]; exact hi.after.zero, fun n hn i => ⟨(hi.after.le n hn i).1, fun st => ?_⟩⟩
  rw [h1, h4]
  by_cases e : i = k
  · subst e; rw [hc]; simp
  · simp only [upd_ne _ _ e]; exact (hi.after.le n hn i).2 st

/-- The runs, with more read and done by item `k` after a failed write. -/
def Fam.more (F : Fam σ) (k : Nat) (r : Bytes) : Fam σ := { F with ext := upd F.ext k (F.ext k ++ r), aft := upd F.aft k (F.aft k + 1) }

theorem Coh.more {init : Nat → σ} {N : Nat} {inp : Bytes} {F : Fam σ} (h : Coh next init N inp F) (k : Nat) (r : Bytes) : Coh next init N inp (F.more k r) :=
  ⟨h.trace, h.fin, h.first, h.firstEof, h.rest, h.restEof⟩

/-- An item whose write has failed goes on. -/
theorem procs_more (hi : Inv next init net N q inp L s F) {k : Nat} {st cur : σ} (hp : s.proc k = .running st) (hc : s.cut k = true)
    (r : Bytes) {t : St σ} (h1 : t.proc = upd s.proc k (.running cur)) (h2 : t.out = s.out) (h3 : t.shut = s.shut) (h4 : t.cut = s.cut) :
    Procs net N t (F.more k r) := by
  refine ⟨?_, ?_, ?_, ?_, ?_, ?_, ?_⟩
  · intro i st' hin
    rw [h1, h4]
    by_cases e : i = k
    · subst e; rw [hc]; exact fun _ => ⟨(hi.run i st hin hp).1, by simp⟩
    · simp only [upd_ne _ _ e]; exact hi.run i st' hin
  · intro i c hin
    rw [h1, h4]
    by_cases e : i = k
    · subst e; simp [upd_same]
    · simp only [upd_ne _ _ e]; exact hi.exited i c hin
  · intro i hin
    rw [h1, h4]
    by_cases e : i = k
    · subst e; simp [upd_same]
    · simp only [upd_ne _ _ e]; exact hi.killed i hin
  · intro i hin hki
    rw [h4] at hki
    obtain ⟨g0, g1, g1', g2⟩ := hi.cut i hin hki
    refine ⟨g0, g1, g1', ?_⟩
    rw [h1]
    by_cases e' : i + 1 = k
    · rw [e'] at g2; exact absurd hp (g2 _)
    · simp only [upd_ne _ _ e']; exact g2
  · intro i st' hin
    rw [h1, h4]
    by_cases e : i = k
    · subst e; exact fun _ _ => hi.fd i st hin hc hp
    · simp only [upd_ne _ _ e]; exact hi.fd i st' hin
  · intro i hin; rw [h2]; exact hi.out i hin
  · intro i n hin h
    rw [h1, h3, hi.shutW i n hin h]
    by_cases e : i = k
    · subst e; simp [upd_same, hp]
    · simp only [upd_ne _ _ e]

theorem after_more (hi : Inv next init net N q inp L s F) {k : Nat} {st cur : σ} (hp : s.proc k = .running st) (hc : s.cut k = true)
    (hst : ∀ m, StopsIn next m st → ∃ m', m = m' + 1 ∧ StopsIn next m' cur)
    (r : Bytes) {t : St σ} (h1 : t.proc = upd s.proc k (.running cur)) (h4 : t.cut = s.cut) :
    After next t (F.more k r) := by
  refine ⟨fun i => ?_, fun n hn i => ?_⟩
  · rw [h4]
    by_cases e : i = k
    · subst e; rw [hc]; simp
    · simp only [Fam.more, upd_ne _ _ e]; exact hi.after.zero i
  · rw [h1, h4]
    by_cases e : i = k
    · subst e
      obtain ⟨m, g1, g2⟩ := (hi.after.le n hn i).2 st hp hc
      obtain ⟨m', rfl, g3⟩ := hst m g2
      simp only [Fam.more, upd_same, Proc.running.injEq]
      refine ⟨by omega, ?_⟩
      rintro st' rfl _
      exact ⟨m', by omega, g3⟩
    · simp only [Fam.more, upd_ne _ _ e]; exact hi.after.le n hn i

theorem stops_read {st : σ} {f : Option UInt8 → σ} (ho : next st = .read f) (x : Option UInt8) :
    ∀ m, StopsIn next m st → ∃ m', m = m' + 1 ∧ StopsIn next m' (f x) := by
  intro m h
  cases m with
  | zero => obtain ⟨c, h⟩ := h; rw [ho] at h; cases h
  | succ m =>
    rcases h with ⟨c, h⟩ | ⟨f', h, h'⟩ | ⟨b, s', h, -⟩
    · rw [ho] at h; cases h
    · rw [ho] at h; cases h; exact ⟨m, rfl, h' x⟩
    · rw [ho] at h; cases h

theorem stops_write {st st' st'' : σ} {b : UInt8} (ho : next st = .write b st') (he : next.epipe st = some st'') :
    ∀ m, StopsIn next m st → ∃ m', m = m' + 1 ∧ StopsIn next m' st'' := by
  intro m h
  cases m with
  | zero => obtain ⟨c, h⟩ := h; rw [ho] at h; cases h
  | succ m =>
    rcases h with ⟨c, h⟩ | ⟨f', h, h'⟩ | ⟨b', s', h, h'⟩
    · rw [ho] at h; cases h
    · rw [ho] at h; cases h
    · exact ⟨m, rfl, h' _ he⟩

theorem upd_self {α : Type} {f : Nat → α} {k : Nat} {v : α} (h : f k = v) : f = upd f k v := by
  funext i; by_cases e : i = k <;> simp [upd, e, ← h]

/-- Item `k` goes on without reading. -/
theorem wr_rd (k cnt : Nat) (e : Bool) (wr : Bytes) (cur : σ) (fin : Option Nat) : (F.set k cnt (F.rd k) e wr cur fin).rd = F.rd :=
  (upd_self rfl).symm

/-- The step of item `k` counts. -/
theorem work_lt (hi : Inv next init net N q inp L s F) {k : Nat} (hk : k < N) {G : Fam σ} {t : St σ}
    (h : ∀ j, j < N → j ≠ k → work G t j = work F s j) (hb : work F s k + 1 ≤ work G t k) (hg : t.got = s.got) :
    L + 1 ≤ sumTo N (work G t) + t.got.length := by
  have := sumTo_lt N k hk (f := work F s) (g := work G t) (fun j hj e => Nat.le_of_eq (h j hj e).symm) hb
  have := hi.steps
  rw [hg]; omega

/-- Nothing was written to, or taken from, an exhausted pipe. -/
theorem heof_on (hi : Inv next init net N q inp L s F) {k : Nat} (hf : F.fin k = none) (cnt : Nat) (rd : Bytes) (eof : Bool) (wr : Bytes) (cur : σ)
    {buf : Nat → Bytes} (hb : ∀ i c, i + 1 < N → F.fin i = some c → s.buf (q i) = [] → buf (q i) = []) :
    ∀ i, i + 1 < N → s.heof (i + 1) = true → (∃ c, (F.set k cnt rd eof wr cur none).fin i = some c) ∧ buf (q i) = [] := by
  intro i hin h
  obtain ⟨⟨c, hc⟩, h2⟩ := hi.heof i hin h
  have e : i ≠ k := by rintro rfl; rw [hf] at hc; cases hc
  refine ⟨⟨c, ?_⟩, hb i c hin hc h2⟩
  simp only [Fam.set, upd_ne _ _ e]; exact hc

/-- An item whose write fails, or has failed, goes on without reading. -/
theorem pipes_more (hi : Inv next init net N q inp L s F) (k : Nat) {t : St σ} (h1 : t.ahead = s.ahead) (h2 : t.buf = s.buf) (h3 : t.src = s.src)
    (h4 : t.got = s.got) (h5 : t.heof = s.heof) (h6 : t.shut = s.shut) (h7 : ∀ i, t.cut i = false → s.cut i = false) :
    Pipes net N q inp t (F.more k []) := by
  have he : (F.more k []).ext = F.ext := by simp only [Fam.more, List.append_nil]; exact (upd_self rfl).symm
  refine ⟨?_, ?_, ?_, ?_, ?_, ?_, ?_, ?_, ?_⟩
  · rw [he, h1, h2]; exact hi.mid
  · rw [he, h1, h3]; exact hi.src
  · rw [h4, h2]; exact hi.got
  · rw [h1]; exact hi.prog
  · rw [h5, h2]; exact hi.heof
  · rw [h5, h3]; exact hi.heof0
  · rw [h5, h6]; exact hi.shutR
  · rw [h6]; exact hi.shutU
  · intro i h; rw [he]; exact hi.ext i (h7 i h)

theorem more_work (hi : Inv next init net N q inp L s F) {k : Nat} (hk : k < N) {st cur : σ} (hp : s.proc k = .running st) (r : Bytes) {t : St σ}
    (h0 : t.proc = upd s.proc k (.running cur)) (h1 : t.ahead = s.ahead) (h4 : t.got = s.got) (h5 : t.heof = s.heof) :
    L + 1 ≤ sumTo N (work (F.more k r) t) + t.got.length := by
  refine work_lt hi hk (fun i _ e => ?_) ?_ h4
  · simp only [work, Fam.more, h0, h1, h5, upd_ne _ _ e]
  · simp only [work, Fam.more, h0, h1, h5, upd_same, hp, Proc.ended]; omega

/-- Functions do not go on after a failed write. -/
theorem func_uncut (hi : Inv next init net N q inp L s F) {k fd : Nat} {st : σ} (hk : k < N) (hp : s.proc k = .running st) (hfd : net.inFd k = some fd) :
    s.cut k = false := by
  cases hc : s.cut k with
  | false => rfl
  | true =>
    have := hi.fd k st hk hc hp
    unfold Net.outFd at this
    unfold Net.inFd at hfd
    cases h : net.items[k]? with
    | none => rw [h] at hfd; cases hfd
    | some it => rw [h] at hfd this; cases it <;> simp_all

/-- An item that has written has not failed to write before. -/
theorem write_uncut (hn : IsChain net N q) (hi : Inv next init net N q inp L s F) {k : Nat} (hk : k < N)
    (h : net.outPipe k = none ∨ ∃ p, net.outPipe k = some p ∧ net.Open s (.pipeR p)) : s.cut k = false := by
  cases hc : s.cut k with
  | false => rfl
  | true =>
    obtain ⟨-, h1, h2, h3⟩ := hi.cut k hk hc
    rw [hn.out k h1] at h
    rcases h with h | ⟨p, h, h'⟩
    · cases h
    · cases h
      obtain ⟨st, h'⟩ := (openR_prog hn h1 h2).1 h'
      exact absurd h' (h3 st)

/-- A failed write: the next item has ended, and is a program. -/
theorem broken (hn : IsChain net N q) (hi : Inv next init net N q inp L s F) {k p : Nat} {st : σ} (hk : k < N) (hp : s.proc k = .running st)
    (hop : net.outPipe k = some p) (hw : ¬ net.Open s (.pipeR p)) :
    k + 1 < N ∧ net.inFd (k + 1) = none ∧ ∀ st', s.proc (k + 1) ≠ .running st' := by
  have hk1 : k + 1 < N := by
    rcases Nat.lt_or_ge (k + 1) N with h | h
    · exact h
    · have h' := hn.last k (by omega)
      rw [hop] at h'
      exact absurd (openU_open hn hi h'.symm) hw
  rw [hn.out k hk1] at hop
  cases hop
  refine ⟨hk1, ?_, fun st' h => hw (openR_running hn hi hk1 hp h)⟩
  cases h : net.inFd (k + 1) with
  | none => rfl
  | some n => exact absurd (openR_func hn hi hk1 h (hi.run k st hk hp).1) hw

end

theorem inv_step {init : Nat → σ} {net : Net} {N : Nat} {q : Nat → Nat} {inp : Bytes} {L : Nat} {s t : St σ} {F : Fam σ}
    (hn : IsChain net N q) (hi : Inv next init net N q inp L s F) (hs : Step next net s t) :
    ∃ F', Inv next init net N q inp (L + 1) t F' := by
  have hlen := hn.len
  have hseen : ∀ k, k + 1 < N → F.fin k = none → F.eof (k + 1) = true → False := by
    intro k h hf hE
    obtain ⟨_, c, hc⟩ := hi.coh.restEof _ h hE
    rw [hf] at hc; cases hc
  cases hs with
  | @read k st f p b rest hk hp ho hfd hip hb =>
    rw [hlen] at hk
    obtain ⟨hf, hc⟩ := hi.run k st hk hp
    obtain ⟨j, rfl⟩ : ∃ j, k = j + 1 := by
      cases k with
      | zero => rw [hn.inp0] at hip; cases hip
      | succ j => exact ⟨j, rfl⟩
    have hq : p = q j := by rw [hn.inp j hk] at hip; cases hip; rfl
    subst hq
    cases hcut : s.cut (j + 1) with
    | true =>
      refine ⟨F.more (j + 1) [b], ⟨procs_more hi hp hcut [b] rfl rfl rfl rfl, ⟨?_, ?_, ?_, hi.prog, ?_, hi.heof0, hi.shutR, hi.shutU, ?_⟩, hi.coh.more _ _,
        more_work hi hk hp [b] rfl rfl rfl rfl, after_more hi hp hcut (stops_read ho _) [b] rfl rfl⟩⟩
      · intro i hin
        by_cases e : i = j
        · subst e
          simp only [Fam.more, upd_same]
          rw [← hi.mid i hin, hb, hi.prog _ hfd]; simp
        · have : q i ≠ q j := fun h => e (hn.inj i j (by omega) (by omega) h)
          simp only [Fam.more, upd_ne _ _ this, upd_ne _ _ (show i + 1 ≠ j + 1 by omega)]
          exact hi.mid _ hin
      · simp only [Fam.more, upd_ne _ _ (show 0 ≠ j + 1 by omega)]; exact hi.src
      · intro i hin hu
        have : q i ≠ q j := fun h => by have := hn.inj i j (by omega) (by omega) h; omega
        simp only [upd_ne _ _ this]; exact hi.got _ hin hu
      · intro i hin h
        obtain ⟨h1, h2⟩ := hi.heof i hin h
        refine ⟨h1, ?_⟩
        by_cases e : i = j
        · subst e; rw [hb] at h2; cases h2
        · have : q i ≠ q j := fun h => e (hn.inj i j (by omega) (by omega) h)
          simp only [upd_ne _ _ this]; exact h2
      · intro i h
        have e : i ≠ j + 1 := by rintro rfl; rw [hcut] at h; cases h
        simp only [Fam.more, upd_ne _ _ e]; exact hi.ext i h
    | false =>
      replace hc := hc hcut
      have hm := hi.mid j hk
      rw [hi.ext _ hcut, List.append_nil, hi.prog _ hfd, List.append_nil] at hm
      have he : F.eof (j + 1) = false := by
        cases hE : F.eof (j + 1) with
        | false => rfl
        | true =>
          have := (hi.coh.restEof j hk hE).1
          rw [this, hb] at hm; simp at hm
      have htr := hi.coh.trace (j + 1) hk
      rw [he, hc] at htr
      refine ⟨F.set (j + 1) (F.cnt (j + 1) + 1) (F.rd (j + 1) ++ [b]) false (F.wr (j + 1)) (f (some b)) none,
        ⟨procs_on hi hp hcut _ _ _ rfl (upd_self (hi.out _ hk)) (fun _ _ => rfl) rfl, ⟨?_, ?_, ?_, hi.prog, ?_, hi.heof0, hi.shutR, hi.shutU, hi.ext⟩,
          hi.coh.set (htr.read ho) (by simp) (by omega) ?_ ?_, ?_, after_on hi hcut _ _ _ _ _ _ rfl rfl⟩⟩
      · intro i hin
        by_cases e : i = j
        · subst e
          simp only [Fam.set, upd_same, upd_ne _ _ (show i ≠ i + 1 by omega)]
          rw [← hm, hb, hi.prog _ hfd, hi.ext _ hcut]; simp
        · have : q i ≠ q j := fun h => e (hn.inj i j (by omega) (by omega) h)
          simp only [Fam.set, upd_ne _ _ this, upd_ne _ _ (show i + 1 ≠ j + 1 by omega)]
          by_cases e' : i = j + 1
          · subst e'; simp only [upd_same]; exact hi.mid _ hin
          · simp only [upd_ne _ _ e']; exact hi.mid _ hin
      · simp only [Fam.set, upd_ne _ _ (show 0 ≠ j + 1 by omega)]; exact hi.src
      · intro i hin hu
        have : q i ≠ q j := fun h => by have := hn.inj i j (by omega) (by omega) h; omega
        simp only [upd_ne _ _ this]
        by_cases e : i = j + 1
        · subst e; simp only [Fam.set, upd_same]; exact hi.got _ hin hu
        · simp only [Fam.set, upd_ne _ _ e]; exact hi.got _ hin hu
      · refine heof_on hi hf _ _ _ _ _ fun i c hin _ h => ?_
        by_cases e : i = j
        · subst e; rw [hb] at h; cases h
        · have : q i ≠ q j := fun h => e (hn.inj i j (by omega) (by omega) h)
          simp only [upd_ne _ _ this]; exact h
      · intro i hij _
        obtain rfl : j = i := by omega
        exact ⟨⟨rest, by rw [← hm, hb]; simp⟩, by simp⟩
      · exact fun h => ⟨hi.coh.rest _ h, fun hE => (hseen _ h hf hE).elim⟩
      · refine work_lt hi hk (fun i _ e => ?_) ?_ rfl
        · simp only [work, Fam.set, upd_ne _ _ e]
        · simp only [work, Fam.set, upd_same, hp, Proc.ended, List.length_append]; omega
  | @eof k st f p hk hp ho hfd hip hb hw =>
    rw [hlen] at hk
    obtain ⟨hf, hc⟩ := hi.run k st hk hp
    obtain ⟨j, rfl⟩ : ∃ j, k = j + 1 := by
      cases k with
      | zero => rw [hn.inp0] at hip; cases hip
      | succ j => exact ⟨j, rfl⟩
    have hq : p = q j := by rw [hn.inp j hk] at hip; cases hip; rfl
    subst hq
    cases hcut : s.cut (j + 1) with
    | true =>
      exact ⟨F.more _ [], ⟨procs_more hi hp hcut [] rfl rfl rfl rfl, pipes_more hi _ rfl rfl rfl rfl rfl rfl fun _ h => h, hi.coh.more _ _,
        more_work hi hk hp [] rfl rfl rfl rfl, after_more hi hp hcut (stops_read ho _) [] rfl rfl⟩⟩
    | false =>
      replace hc := hc hcut
      have hm := hi.mid j hk
      rw [hb, List.append_nil, hi.prog _ hfd, List.append_nil, hi.ext _ hcut, List.append_nil] at hm
      rw [openW_iff hn hi hk] at hw
      have hfin : ∃ c, F.fin j = some c := by
        cases hpj : s.proc j with
        | running st' => exact absurd ⟨st', hpj⟩ hw
        | exited c =>
          cases hcj : s.cut j with
          | false => exact ⟨c, hi.exited j c (by omega) hpj hcj⟩
          | true => exact absurd hp ((hi.cut j (by omega) hcj).2.2.2 st)
        | killed => exact absurd hp ((hi.cut j (by omega) (hi.killed j (by omega) hpj)).2.2.2 st)
      have htr := hi.coh.trace (j + 1) hk
      rw [hc] at htr
      have hwr : (F.set (j + 1) (F.cnt (j + 1) + 1) (F.rd (j + 1)) true (F.wr (j + 1)) (f none) none).wr = F.wr := (upd_self rfl).symm
      refine ⟨F.set (j + 1) (F.cnt (j + 1) + 1) (F.rd (j + 1)) true (F.wr (j + 1)) (f none) none,
        ⟨procs_on hi hp hcut _ _ _ rfl (upd_self (hi.out _ hk)) (fun _ _ => rfl) rfl, ⟨?_, ?_, ?_, hi.prog, ?_, hi.heof0, hi.shutR, hi.shutU, hi.ext⟩,
          hi.coh.set (htr.eof ho) (by simp) (by omega) ?_ ?_, ?_, after_on hi hcut _ _ _ _ _ _ rfl rfl⟩⟩
      · rw [wr_rd, hwr]; exact hi.mid
      · rw [wr_rd]; exact hi.src
      · rw [hwr]; exact hi.got
      · exact heof_on hi hf _ _ _ _ _ fun i c hin _ h => h
      · intro i hij _
        obtain rfl : j = i := by omega
        exact ⟨hi.coh.rest j hk, fun _ => ⟨hm, hfin⟩⟩
      · exact fun h => ⟨hi.coh.rest _ h, fun hE => (hseen _ h hf hE).elim⟩
      · refine work_lt hi hk (fun i _ e => ?_) ?_ rfl
        · simp only [work, Fam.set, upd_ne _ _ e]
        · simp only [work, Fam.set, upd_same, hp, Proc.ended]; omega
  | @readExt k st f b rest hk hp ho hfd hip hb =>
    rw [hlen] at hk
    obtain ⟨hf, hc⟩ := hi.run k st hk hp
    obtain rfl : k = 0 := by
      cases k with
      | zero => rfl
      | succ j => rw [hn.inp j hk] at hip; cases hip
    cases hcut : s.cut 0 with
    | true =>
      refine ⟨F.more 0 [b], ⟨procs_more hi hp hcut [b] rfl rfl rfl rfl, ⟨?_, ?_, hi.got, hi.prog, hi.heof, ?_, hi.shutR, hi.shutU, ?_⟩, hi.coh.more _ _,
        more_work hi hk hp [b] rfl rfl rfl rfl, after_more hi hp hcut (stops_read ho _) [b] rfl rfl⟩⟩
      · intro i hin
        simp only [Fam.more, upd_ne _ _ (show i + 1 ≠ 0 by omega)]; exact hi.mid i hin
      · simp only [Fam.more, upd_same]; rw [← hi.src, hb, hi.prog _ hfd]; simp
      · intro h; rw [hi.heof0 h] at hb; cases hb
      · intro i h
        have e : i ≠ 0 := by rintro rfl; rw [hcut] at h; cases h
        simp only [Fam.more, upd_ne _ _ e]; exact hi.ext i h
    | false =>
      replace hc := hc hcut
      have hm := hi.src
      rw [hi.ext _ hcut, List.append_nil, hi.prog _ hfd, List.append_nil] at hm
      have he : F.eof 0 = false := by
        cases hE : F.eof 0 with
        | false => rfl
        | true =>
          have := hi.coh.firstEof hE
          rw [this, hb] at hm; simp at hm
      have htr := hi.coh.trace 0 hk
      rw [he, hc] at htr
      have hwr : (F.set 0 (F.cnt 0 + 1) (F.rd 0 ++ [b]) false (F.wr 0) (f (some b)) none).wr = F.wr := (upd_self rfl).symm
      refine ⟨F.set 0 (F.cnt 0 + 1) (F.rd 0 ++ [b]) false (F.wr 0) (f (some b)) none,
        ⟨procs_on hi hp hcut _ _ _ rfl (upd_self (hi.out _ hk)) (fun _ _ => rfl) rfl, ⟨?_, ?_, ?_, hi.prog, ?_, ?_, hi.shutR, hi.shutU, hi.ext⟩,
          hi.coh.set (htr.read ho) (by simp) ?_ (by omega) ?_, ?_, after_on hi hcut _ _ _ _ _ _ rfl rfl⟩⟩
      · intro i hin
        rw [hwr]
        simp only [Fam.set, upd_ne _ _ (show i + 1 ≠ 0 by omega)]; exact hi.mid i hin
      · simp only [Fam.set, upd_same]; rw [← hm, hb, hi.prog _ hfd, hi.ext _ hcut]; simp
      · rw [hwr]; exact hi.got
      · exact heof_on hi hf _ _ _ _ _ fun i c hin _ h => h
      · intro h; rw [hi.heof0 h] at hb; cases hb
      · exact fun _ => ⟨⟨rest, by rw [← hm, hb]; simp⟩, by simp⟩
      · exact fun h => ⟨hi.coh.rest _ h, fun hE => (hseen _ h hf hE).elim⟩
      · refine work_lt hi hk (fun i _ e => ?_) ?_ rfl
        · simp only [work, Fam.set, upd_ne _ _ e]
        · simp only [work, Fam.set, upd_same, hp, Proc.ended, List.length_append]; omega
  | @eofExt k st f hk hp ho hfd hip hb =>
    rw [hlen] at hk
    obtain ⟨hf, hc⟩ := hi.run k st hk hp
    obtain rfl : k = 0 := by
      cases k with
      | zero => rfl
      | succ j => rw [hn.inp j hk] at hip; cases hip
    cases hcut : s.cut 0 with
    | true =>
      exact ⟨F.more _ [], ⟨procs_more hi hp hcut [] rfl rfl rfl rfl, pipes_more hi _ rfl rfl rfl rfl rfl rfl fun _ h => h, hi.coh.more _ _,
        more_work hi hk hp [] rfl rfl rfl rfl, after_more hi hp hcut (stops_read ho _) [] rfl rfl⟩⟩
    | false =>
      replace hc := hc hcut
      have hm := hi.src
      rw [hb, List.append_nil, hi.prog _ hfd, List.append_nil, hi.ext _ hcut, List.append_nil] at hm
      have htr := hi.coh.trace 0 hk
      rw [hc] at htr
      have hwr : (F.set 0 (F.cnt 0 + 1) (F.rd 0) true (F.wr 0) (f none) none).wr = F.wr := (upd_self rfl).symm
      refine ⟨F.set 0 (F.cnt 0 + 1) (F.rd 0) true (F.wr 0) (f none) none,
        ⟨procs_on hi hp hcut _ _ _ rfl (upd_self (hi.out _ hk)) (fun _ _ => rfl) rfl, ⟨?_, ?_, ?_, hi.prog, ?_, hi.heof0, hi.shutR, hi.shutU, hi.ext⟩,
          hi.coh.set (htr.eof ho) (by simp) ?_ (by omega) ?_, ?_, after_on hi hcut _ _ _ _ _ _ rfl rfl⟩⟩
      · rw [wr_rd, hwr]; exact hi.mid
      · rw [wr_rd]; exact hi.src
      · rw [hwr]; exact hi.got
      · exact heof_on hi hf _ _ _ _ _ fun i c hin _ h => h
      · exact fun _ => ⟨hi.coh.first, fun _ => hm⟩
      · exact fun h => ⟨hi.coh.rest _ h, fun hE => (hseen _ h hf hE).elim⟩
      · refine work_lt hi hk (fun i _ e => ?_) ?_ rfl
        · simp only [work, Fam.set, upd_ne _ _ e]
        · simp only [work, Fam.set, upd_same, hp, Proc.ended]; omega
  | @fetch k fd p c rest hk hfd hh _ hip hb hc _ =>
    rw [hlen] at hk
    obtain ⟨j, rfl⟩ : ∃ j, k = j + 1 := by
      cases k with
      | zero => rw [hn.inp0] at hip; cases hip
      | succ j => exact ⟨j, rfl⟩
    have hq : p = q j := by rw [hn.inp j hk] at hip; cases hip; rfl
    subst hq
    refine ⟨F, ⟨⟨hi.run, hi.exited, hi.killed, hi.cut, hi.fd, hi.out, hi.shutW⟩, ⟨?_, ?_, ?_, ?_, ?_, hi.heof0, hi.shutR, hi.shutU, hi.ext⟩, hi.coh, ?_, ⟨hi.after.zero, hi.after.le⟩⟩⟩
    · intro i hin
      by_cases e : i = j
      · subst e
        simp only [upd_same]
        rw [← hi.mid i hin, hb]; simp
      · have : q i ≠ q j := fun h => e (hn.inj i j (by omega) (by omega) h)
        simp only [upd_ne _ _ this, upd_ne _ _ (show i + 1 ≠ j + 1 by omega)]; exact hi.mid _ hin
    · simp only [upd_ne _ _ (show 0 ≠ j + 1 by omega)]; exact hi.src
    · intro i hin hu
      have : q i ≠ q j := fun h => by have := hn.inj i j (by omega) (by omega) h; omega
      simp only [upd_ne _ _ this]; exact hi.got _ hin hu
    · intro i h
      have : i ≠ j + 1 := by rintro rfl; rw [hfd] at h; cases h
      simp only [upd_ne _ _ this]; exact hi.prog i h
    · intro i hin h
      by_cases e : i = j
      · subst e; rw [hh] at h; cases h
      · have : q i ≠ q j := fun h => e (hn.inj i j (by omega) (by omega) h)
        simp only [upd_ne _ _ this]; exact hi.heof i hin h
    · refine work_lt hi hk (fun i _ e => ?_) ?_ rfl
      · simp only [work, upd_ne _ _ e]
      · have := List.length_pos_iff.2 hc
        simp only [work, upd_same, List.length_append]; omega
  | @hup k fd p hk hfd hh _ hip hb hw =>
    rw [hlen] at hk
    obtain ⟨j, rfl⟩ : ∃ j, k = j + 1 := by
      cases k with
      | zero => rw [hn.inp0] at hip; cases hip
      | succ j => exact ⟨j, rfl⟩
    have hq : p = q j := by rw [hn.inp j hk] at hip; cases hip; rfl
    subst hq
    rw [openW_iff hn hi hk] at hw
    have hfin : ∃ c, F.fin j = some c := by
      cases hpj : s.proc j with
      | running st' => exact absurd ⟨st', hpj⟩ hw
      | exited c =>
        cases hcj : s.cut j with
        | false => exact ⟨c, hi.exited j c (by omega) hpj hcj⟩
        | true => have := (hi.cut j (by omega) hcj).2.2.1; rw [hfd] at this; cases this
      | killed => have := (hi.cut j (by omega) (hi.killed j (by omega) hpj)).2.2.1; rw [hfd] at this; cases this
    refine ⟨F, ⟨⟨hi.run, hi.exited, hi.killed, hi.cut, hi.fd, hi.out, ?_⟩, ⟨hi.mid, hi.src, hi.got, hi.prog, ?_, ?_, ?_, ?_, hi.ext⟩, hi.coh, ?_, ⟨hi.after.zero, hi.after.le⟩⟩⟩
    · intro i n hin h
      have : (some fd) ≠ some n := by rw [← hfd]; exact (sepW hn hin h).2 _
      simp only [close_ne this]; exact hi.shutW i n hin h
    · intro i hin h
      by_cases e : i = j
      · subst e; exact ⟨hfin, hb⟩
      · simp only [upd_ne _ _ (show i + 1 ≠ j + 1 by omega)] at h; exact hi.heof i hin h
    · simp only [upd_ne _ _ (show 0 ≠ j + 1 by omega)]; exact hi.heof0
    · intro i n hin h hs
      by_cases e : i = j
      · subst e; simp only [upd_same]
      · have : (some fd) ≠ some n := by
          rw [← hfd]; intro h'; have := (sepR hn hin h).1 _ h'; omega
        simp only [close_ne this] at hs
        simp only [upd_ne _ _ (show i + 1 ≠ j + 1 by omega)]; exact hi.shutR i n hin h hs
    · intro n h
      have : (some fd) ≠ some n := by rw [← hfd]; exact (h _).1
      simp only [close_ne this]; exact hi.shutU n h
    · refine work_lt hi hk (fun i _ e => ?_) ?_ rfl
      · simp only [work, upd_ne _ _ e]
      · simp only [work, upd_same, hh, Bool.toNat]; simp; omega
  | @fetchExt k fd c rest hk hfd hh _ hip hb hc _ =>
    rw [hlen] at hk
    obtain rfl : k = 0 := by
      cases k with
      | zero => rfl
      | succ j => rw [hn.inp j hk] at hip; cases hip
    refine ⟨F, ⟨⟨hi.run, hi.exited, hi.killed, hi.cut, hi.fd, hi.out, hi.shutW⟩, ⟨?_, ?_, hi.got, ?_, hi.heof, ?_, hi.shutR, hi.shutU, hi.ext⟩, hi.coh, ?_, ⟨hi.after.zero, hi.after.le⟩⟩⟩
    · intro i hin
      simp only [upd_ne _ _ (show i + 1 ≠ 0 by omega)]; exact hi.mid _ hin
    · simp only [upd_same]; rw [← hi.src, hb]; simp
    · intro i h
      have : i ≠ 0 := by rintro rfl; rw [hfd] at h; cases h
      simp only [upd_ne _ _ this]; exact hi.prog i h
    · intro h; rw [hh] at h; cases h
    · refine work_lt hi hk (fun i _ e => ?_) ?_ rfl
      · simp only [work, upd_ne _ _ e]
      · have := List.length_pos_iff.2 hc
        simp only [work, upd_same, List.length_append]; omega
  | @hupExt k fd hk hfd hh _ hip hb =>
    rw [hlen] at hk
    obtain rfl : k = 0 := by
      cases k with
      | zero => rfl
      | succ j => rw [hn.inp j hk] at hip; cases hip
    refine ⟨F, ⟨⟨hi.run, hi.exited, hi.killed, hi.cut, hi.fd, hi.out, ?_⟩, ⟨hi.mid, hi.src, hi.got, hi.prog, ?_, fun _ => hb, ?_, ?_, hi.ext⟩, hi.coh, ?_, ⟨hi.after.zero, hi.after.le⟩⟩⟩
    · intro i n hin h
      have : (some fd) ≠ some n := by rw [← hfd]; exact (sepW hn hin h).2 _
      simp only [close_ne this]; exact hi.shutW i n hin h
    · intro i hin
      simp only [upd_ne _ _ (show i + 1 ≠ 0 by omega)]; exact hi.heof i hin
    · intro i n hin h hs
      have : (some fd) ≠ some n := by
        rw [← hfd]; intro h'; have := (sepR hn hin h).1 _ h'; omega
      simp only [close_ne this] at hs
      simp only [upd_ne _ _ (show i + 1 ≠ 0 by omega)]; exact hi.shutR i n hin h hs
    · intro n h
      have : (some fd) ≠ some n := by rw [← hfd]; exact (h _).1
      simp only [close_ne this]; exact hi.shutU n h
    · refine work_lt hi hk (fun i _ e => ?_) ?_ rfl
      · simp only [work, upd_ne _ _ e]
      · simp only [work, upd_same, hh, Bool.toNat]; simp; omega
  | @take k fd st f b rest hk hp ho hfd hb =>
    rw [hlen] at hk
    obtain ⟨hf, hc⟩ := hi.run k st hk hp
    have hcut := func_uncut hi hk hp hfd
    replace hc := hc hcut
    have hx := hi.ext k hcut
    have he : F.eof k = false := by
      cases hE : F.eof k with
      | false => rfl
      | true =>
        cases k with
        | zero => have h1 := hi.src; rw [hi.coh.firstEof hE, hb] at h1; simp at h1
        | succ j => have h1 := hi.mid j hk; rw [(hi.coh.restEof j hk hE).1, hb] at h1; simp at h1
    have htr := hi.coh.trace k hk
    rw [he, hc] at htr
    have hwr : (F.set k (F.cnt k + 1) (F.rd k ++ [b]) false (F.wr k) (f (some b)) none).wr = F.wr := (upd_self rfl).symm
    refine ⟨F.set k (F.cnt k + 1) (F.rd k ++ [b]) false (F.wr k) (f (some b)) none,
      ⟨procs_on hi hp hcut _ _ _ rfl (upd_self (hi.out _ hk)) (fun _ _ => rfl) rfl, ⟨?_, ?_, ?_, ?_, ?_, hi.heof0, hi.shutR, hi.shutU, hi.ext⟩,
        hi.coh.set (htr.read ho) (by simp) ?_ ?_ ?_, ?_, after_on hi hcut _ _ _ _ _ _ rfl rfl⟩⟩
    · intro i hin
      rw [hwr]
      by_cases e : i + 1 = k
      · subst e
        simp only [Fam.set, upd_same]
        rw [← hi.mid i hin, hb, hx]; simp
      · simp only [Fam.set, upd_ne _ _ e]; exact hi.mid _ hin
    · by_cases e : 0 = k
      · subst e
        simp only [Fam.set, upd_same]
        rw [← hi.src, hb, hx]; simp
      · simp only [Fam.set, upd_ne _ _ e]; exact hi.src
    · rw [hwr]; exact hi.got
    · intro i h
      have : i ≠ k := by rintro rfl; rw [hfd] at h; cases h
      simp only [upd_ne _ _ this]; exact hi.prog i h
    · exact heof_on hi hf _ _ _ _ _ fun i c hin _ h => h
    · rintro rfl; exact ⟨⟨rest ++ s.src 0, by rw [← hi.src, hb, hx]; simp⟩, by simp⟩
    · rintro j rfl h; exact ⟨⟨rest ++ s.buf (q j), by rw [← hi.mid j h, hb, hx]; simp⟩, by simp⟩
    · exact fun h => ⟨hi.coh.rest _ h, fun hE => (hseen _ h hf hE).elim⟩
    · refine work_lt hi hk (fun i _ e => ?_) ?_ rfl
      · simp only [work, Fam.set, upd_ne _ _ e]
      · simp only [work, Fam.set, upd_same, hp, Proc.ended, List.length_append, hb, List.length_cons, List.length_nil]; omega
  | @takeEof k fd st f hk hp ho hfd hb hh =>
    rw [hlen] at hk
    obtain ⟨hf, hc⟩ := hi.run k st hk hp
    have hcut := func_uncut hi hk hp hfd
    replace hc := hc hcut
    have hx := hi.ext k hcut
    have htr := hi.coh.trace k hk
    rw [hc] at htr
    have hwr : (F.set k (F.cnt k + 1) (F.rd k) true (F.wr k) (f none) none).wr = F.wr := (upd_self rfl).symm
    refine ⟨F.set k (F.cnt k + 1) (F.rd k) true (F.wr k) (f none) none,
      ⟨procs_on hi hp hcut _ _ _ rfl (upd_self (hi.out _ hk)) (fun _ _ => rfl) rfl, ⟨?_, ?_, ?_, hi.prog, ?_, hi.heof0, hi.shutR, hi.shutU, hi.ext⟩,
        hi.coh.set (htr.eof ho) (by simp) ?_ ?_ ?_, ?_, after_on hi hcut _ _ _ _ _ _ rfl rfl⟩⟩
    · rw [wr_rd, hwr]; exact hi.mid
    · rw [wr_rd]; exact hi.src
    · rw [hwr]; exact hi.got
    · exact heof_on hi hf _ _ _ _ _ fun i c hin _ h => h
    · rintro rfl
      have h1 := hi.src
      rw [hb, hi.heof0 hh, hx, List.append_nil, List.append_nil, List.append_nil] at h1
      exact ⟨hi.coh.first, fun _ => h1⟩
    · rintro j rfl h
      obtain ⟨h2, h3⟩ := hi.heof j h hh
      have h1 := hi.mid j h
      rw [hb, h3, hx, List.append_nil, List.append_nil, List.append_nil] at h1
      exact ⟨hi.coh.rest j h, fun _ => ⟨h1, h2⟩⟩
    · exact fun h => ⟨hi.coh.rest _ h, fun hE => (hseen _ h hf hE).elim⟩
    · refine work_lt hi hk (fun i _ e => ?_) ?_ rfl
      · simp only [work, Fam.set, upd_ne _ _ e]
      · simp only [work, Fam.set, upd_same, hp, Proc.ended]; omega
  | @write k st st' b p hk hp ho hop hcap hw =>
    rw [hlen] at hk
    obtain ⟨hf, hc⟩ := hi.run k st hk hp
    have hcut := write_uncut hn hi hk (.inr ⟨_, hop, hw⟩)
    replace hc := hc hcut
    have hq : p = q k ∧ (k + 1 = N → net.user = some (q k)) := by
      by_cases e : k + 1 = N
      · have h' := hn.last k e
        rw [hop] at h'
        obtain ⟨k', h1, h2⟩ := hn.user p h'.symm
        obtain rfl : k' = k := by omega
        subst h2
        exact ⟨rfl, fun _ => h'.symm⟩
      · rw [hn.out k (by omega)] at hop; cases hop; exact ⟨rfl, fun h => absurd h e⟩
    obtain ⟨rfl, hlast⟩ := hq
    have htr := hi.coh.trace k hk
    rw [hc] at htr
    refine ⟨F.set k (F.cnt k + 1) (F.rd k) (F.eof k) (F.wr k ++ [b]) st' none,
      ⟨procs_on hi hp hcut _ _ _ rfl (by rw [← hi.out k hk]) (fun _ _ => rfl) rfl, ⟨?_, ?_, ?_, hi.prog, ?_, hi.heof0, hi.shutR, hi.shutU, hi.ext⟩,
        hi.coh.set (htr.write ho) (by simp) ?_ ?_ ?_, ?_, after_on hi hcut _ _ _ _ _ _ rfl rfl⟩⟩
    · intro i hin
      rw [wr_rd]
      by_cases e : i = k
      · subst e
        simp only [Fam.set, upd_same]
        rw [← List.append_assoc, hi.mid i hin]
      · have : q i ≠ q k := fun h => e (hn.inj i k (by omega) (by omega) h)
        simp only [Fam.set, upd_ne _ _ this, upd_ne _ _ e]; exact hi.mid _ hin
    · rw [wr_rd]; exact hi.src
    · intro i hin hu
      by_cases e : i = k
      · subst e; simp only [Fam.set, upd_same]; rw [← List.append_assoc, hi.got _ hin hu]
      · have : q i ≠ q k := fun h => e (hn.inj i k (by omega) (by omega) h)
        simp only [Fam.set, upd_ne _ _ e, upd_ne _ _ this]; exact hi.got _ hin hu
    · refine heof_on hi hf _ _ _ _ _ fun i c hin hic h => ?_
      have e : i ≠ k := by rintro rfl; rw [hf] at hic; cases hic
      have : q i ≠ q k := fun h => e (hn.inj i k (by omega) (by omega) h)
      simp only [upd_ne _ _ this]; exact h
    · rintro rfl; exact ⟨hi.coh.first, hi.coh.firstEof⟩
    · rintro j rfl h; exact ⟨hi.coh.rest j h, hi.coh.restEof j h⟩
    · exact fun h => ⟨(hi.coh.rest _ h).trans (prefix_concat _ _), fun hE => (hseen _ h hf hE).elim⟩
    · refine work_lt hi hk (fun i _ e => ?_) ?_ rfl
      · simp only [work, Fam.set, upd_ne _ _ e]
      · simp only [work, Fam.set, upd_same, hp, Proc.ended]; omega
  | @sigpipe k st st' b p hk hp ho hop hw _ =>
    rw [hlen] at hk
    obtain ⟨hf, -⟩ := hi.run k st hk hp
    obtain ⟨hk1, hnf, hend⟩ := broken hn hi hk hp hop hw
    refine ⟨F, ⟨⟨?_, ?_, ?_, ?_, ?_, hi.out, ?_⟩, ⟨hi.mid, hi.src, hi.got, hi.prog, hi.heof, hi.heof0, ?_, ?_, ?_⟩, hi.coh, ?_, ⟨?_, ?_⟩⟩⟩
    · intro i st2 hin
      by_cases e : i = k
      · subst e; simp [upd_same]
      · simp only [upd_ne _ _ e]; exact hi.run i st2 hin
    · intro i c hin
      by_cases e : i = k
      · subst e; simp [upd_same]
      · simp only [upd_ne _ _ e]; exact hi.exited i c hin
    · intro i hin
      by_cases e : i = k
      · subst e; simp [upd_same]
      · simp only [upd_ne _ _ e]; exact hi.killed i hin
    · intro i hin
      by_cases e : i = k
      · subst e
        simp only [upd_ne _ _ (show i + 1 ≠ i by omega)]
        exact fun _ => ⟨hf, hk1, hnf, hend⟩
      · simp only [upd_ne _ _ e]
        intro hki
        obtain ⟨h0, h1, h1', h2⟩ := hi.cut i hin hki
        refine ⟨h0, h1, h1', ?_⟩
        by_cases e' : i + 1 = k
        · rw [e'] at h2; exact absurd hp (h2 _)
        · simp only [upd_ne _ _ e']; exact h2
    · intro i st2 hin
      by_cases e : i = k
      · subst e; simp [upd_same]
      · simp only [upd_ne _ _ e]; exact hi.fd i st2 hin
    · intro i n hin h
      by_cases e : i = k
      · subst e; simp [upd_same, h, close_same]
      · simp only [close_ne (fun h' => e ((sepW hn hin h).1 k h').symm), upd_ne _ _ e]; exact hi.shutW i n hin h
    · intro i n hin h hs
      simp only [close_ne ((sepR hn hin h).2 k)] at hs
      exact hi.shutR i n hin h hs
    · intro n h
      simp only [close_ne (h k).2]; exact hi.shutU n h
    · intro i h
      by_cases e : i = k
      · subst e; simp [upd_same] at h
      · simp only [upd_ne _ _ e] at h; exact hi.ext i h
    · refine work_lt hi hk (fun i _ e => ?_) ?_ rfl
      · simp only [work, upd_ne _ _ e]
      · simp only [work, upd_same, hp, Proc.ended]; omega
    · intro i h
      by_cases e : i = k
      · subst e; simp [upd_same] at h
      · simp only [upd_ne _ _ e] at h; exact hi.after.zero i h
    · intro n hgn i
      refine ⟨(hi.after.le n hgn i).1, fun st2 => ?_⟩
      by_cases e : i = k
      · subst e; simp [upd_same]
      · simp only [upd_ne _ _ e]; exact (hi.after.le n hgn i).2 st2
  | @epipe k st st' st'' b p hk hp ho hop hw hfd hep =>
    rw [hlen] at hk
    obtain ⟨hf, -⟩ := hi.run k st hk hp
    obtain ⟨hk1, hnf, hend⟩ := broken hn hi hk hp hop hw
    refine ⟨F.more k [], ⟨⟨?_, ?_, ?_, ?_, ?_, hi.out, ?_⟩, pipes_more hi k rfl rfl rfl rfl rfl rfl ?_, hi.coh.more _ _, more_work hi hk hp [] rfl rfl rfl rfl,
      ⟨?_, ?_⟩⟩⟩
    · intro i st2 hin
      by_cases e : i = k
      · subst e; simp only [upd_same]; exact fun _ => ⟨hf, by simp⟩
      · simp only [upd_ne _ _ e]; exact hi.run i st2 hin
    · intro i c hin
      by_cases e : i = k
      · subst e; simp [upd_same]
      · simp only [upd_ne _ _ e]; exact hi.exited i c hin
    · intro i hin
      by_cases e : i = k
      · subst e; simp [upd_same]
      · simp only [upd_ne _ _ e]; exact hi.killed i hin
    · intro i hin
      by_cases e : i = k
      · subst e
        simp only [upd_ne _ _ (show i + 1 ≠ i by omega)]
        exact fun _ => ⟨hf, hk1, hnf, hend⟩
      · simp only [upd_ne _ _ e]
        intro hki
        obtain ⟨h0, h1, h1', h2⟩ := hi.cut i hin hki
        refine ⟨h0, h1, h1', ?_⟩
        by_cases e' : i + 1 = k
        · rw [e'] at h2; exact absurd hp (h2 _)
        · simp only [upd_ne _ _ e']; exact h2
    · intro i st2 hin
      by_cases e : i = k
      · subst e; exact fun _ _ => hfd
      · simp only [upd_ne _ _ e]; exact hi.fd i st2 hin
    · intro i n hin h
      have e : i ≠ k := by rintro rfl; rw [hfd] at h; cases h
      simp only [upd_ne _ _ e]; exact hi.shutW i n hin h
    · intro i h
      by_cases e : i = k
      · subst e; simp [upd_same] at h
      · simp only [upd_ne _ _ e] at h; exact h
    · intro i h
      by_cases e : i = k
      · subst e; simp [upd_same] at h
      · simp only [upd_ne _ _ e] at h; simp only [Fam.more, upd_ne _ _ e]; exact hi.after.zero i h
    · intro n hgn i
      by_cases e : i = k
      · subst e
        simp only [Fam.more, upd_same, Proc.running.injEq]
        cases hcut : s.cut i with
        | false =>
          rw [hi.after.zero i hcut]
          refine ⟨by omega, ?_⟩
          rintro st2 rfl _
          exact ⟨n, by omega, hgn _ _ _ _ ho hep⟩
        | true =>
          obtain ⟨m, g1, g2⟩ := (hi.after.le n hgn i).2 st hp hcut
          obtain ⟨m', rfl, g3⟩ := stops_write ho hep m g2
          refine ⟨by omega, ?_⟩
          rintro st2 rfl _
          exact ⟨m', by omega, g3⟩
      · simp only [Fam.more, upd_ne _ _ e]; exact hi.after.le n hgn i
  | @writeExt k st st' b hk hp ho hop =>
    rw [hlen] at hk
    obtain ⟨hf, hc⟩ := hi.run k st hk hp
    have hcut := write_uncut hn hi hk (.inl hop)
    replace hc := hc hcut
    have hk1 : k + 1 = N := by
      rcases Nat.lt_or_ge (k + 1) N with h | h
      · rw [hn.out k h] at hop; cases hop
      · omega
    have hnu : net.user = none := by rw [← hn.last k hk1, hop]
    have htr := hi.coh.trace k hk
    rw [hc] at htr
    refine ⟨F.set k (F.cnt k + 1) (F.rd k) (F.eof k) (F.wr k ++ [b]) st' none,
      ⟨procs_on hi hp hcut _ _ _ rfl (by rw [← hi.out k hk]) (fun _ _ => rfl) rfl, ⟨?_, ?_, ?_, hi.prog, ?_, hi.heof0, hi.shutR, hi.shutU, hi.ext⟩,
        hi.coh.set (htr.write ho) (by simp) ?_ ?_ (by omega), ?_, after_on hi hcut _ _ _ _ _ _ rfl rfl⟩⟩
    · intro i hin
      rw [wr_rd]
      simp only [Fam.set, upd_ne _ _ (show i ≠ k by omega)]; exact hi.mid _ hin
    · rw [wr_rd]; exact hi.src
    · intro i hin hu
      rw [hnu] at hu; cases hu
    · exact heof_on hi hf _ _ _ _ _ fun i c hin _ h => h
    · rintro rfl; exact ⟨hi.coh.first, hi.coh.firstEof⟩
    · rintro j rfl h; exact ⟨hi.coh.rest j h, hi.coh.restEof j h⟩
    · refine work_lt hi hk (fun i _ e => ?_) ?_ rfl
      · simp only [work, Fam.set, upd_ne _ _ e]
      · simp only [work, Fam.set, upd_same, hp, Proc.ended]; omega
  | @exit k st c hk hp ho =>
    rw [hlen] at hk
    obtain ⟨hf, hc⟩ := hi.run k st hk hp
    cases hcut : s.cut k with
    | true =>
      refine ⟨F, ⟨⟨?_, ?_, ?_, ?_, ?_, hi.out, ?_⟩, ⟨hi.mid, hi.src, hi.got, hi.prog, hi.heof, hi.heof0, ?_, ?_, hi.ext⟩, hi.coh, ?_, ⟨hi.after.zero, ?_⟩⟩⟩
      · intro i st2 hin
        by_cases e : i = k
        · subst e; simp [upd_same]
        · simp only [upd_ne _ _ e]; exact hi.run i st2 hin
      · intro i c hin
        by_cases e : i = k
        · subst e; rw [hcut]; simp
        · simp only [upd_ne _ _ e]; exact hi.exited i c hin
      · intro i hin
        by_cases e : i = k
        · subst e; simp [upd_same]
        · simp only [upd_ne _ _ e]; exact hi.killed i hin
      · intro i hin hki
        obtain ⟨h0, h1, h1', h2⟩ := hi.cut i hin hki
        refine ⟨h0, h1, h1', ?_⟩
        by_cases e' : i + 1 = k
        · rw [e'] at h2; exact absurd hp (h2 _)
        · simp only [upd_ne _ _ e']; exact h2
      · intro i st2 hin
        by_cases e : i = k
        · subst e; simp [upd_same]
        · simp only [upd_ne _ _ e]; exact hi.fd i st2 hin
      · intro i n hin h
        by_cases e : i = k
        · subst e; simp [upd_same, h, close_same]
        · simp only [close_ne (fun h' => e ((sepW hn hin h).1 k h').symm), upd_ne _ _ e]; exact hi.shutW i n hin h
      · intro i n hin h hs
        simp only [close_ne ((sepR hn hin h).2 k)] at hs
        exact hi.shutR i n hin h hs
      · intro n h
        simp only [close_ne (h k).2]; exact hi.shutU n h
      · refine work_lt hi hk (fun i _ e => ?_) ?_ rfl
        · simp only [work, upd_ne _ _ e]
        · simp only [work, upd_same, hp, Proc.ended]; omega
      · intro n hgn i
        refine ⟨(hi.after.le n hgn i).1, fun st2 => ?_⟩
        by_cases e : i = k
        · subst e; simp [upd_same]
        · simp only [upd_ne _ _ e]; exact (hi.after.le n hgn i).2 st2
    | false =>
      replace hc := hc hcut
      have htr := hi.coh.trace k hk
      have hwr : (F.set k (F.cnt k) (F.rd k) (F.eof k) (F.wr k) (F.cur k) (some c)).wr = F.wr := (upd_self rfl).symm
      refine ⟨F.set k (F.cnt k) (F.rd k) (F.eof k) (F.wr k) (F.cur k) (some c),
        ⟨⟨?_, ?_, ?_, ?_, ?_, ?_, ?_⟩, ⟨?_, ?_, ?_, hi.prog, ?_, hi.heof0, ?_, ?_, hi.ext⟩, hi.coh.set htr ?_ ?_ ?_ ?_, ?_,
          after_on hi hcut _ _ _ _ _ _ rfl rfl⟩⟩
      · intro i st2 hin
        by_cases e : i = k
        · subst e; simp [upd_same]
        · simp only [Fam.set, upd_ne _ _ e]; exact hi.run i st2 hin
      · intro i d hin
        by_cases e : i = k
        · subst e; simp only [Fam.set, upd_same, Proc.exited.injEq]; exact fun h _ => by rw [h]
        · simp only [Fam.set, upd_ne _ _ e]; exact hi.exited i d hin
      · intro i hin
        by_cases e : i = k
        · subst e; simp [upd_same]
        · simp only [upd_ne _ _ e]; exact hi.killed i hin
      · intro i hin
        by_cases e : i = k
        · subst e; rw [hcut]; simp
        · simp only [Fam.set, upd_ne _ _ e]
          intro hki
          obtain ⟨h0, h1, h1', h2⟩ := hi.cut i hin hki
          refine ⟨h0, h1, h1', ?_⟩
          by_cases e' : i + 1 = k
          · rw [e'] at h2; exact absurd hp (h2 _)
          · simp only [upd_ne _ _ e']; exact h2
      · intro i st2 hin
        by_cases e : i = k
        · subst e; simp [upd_same]
        · simp only [upd_ne _ _ e]; exact hi.fd i st2 hin
      · rw [hwr]; exact hi.out
      · intro i n hin h
        by_cases e : i = k
        · subst e; simp [upd_same, h, close_same]
        · simp only [close_ne (fun h' => e ((sepW hn hin h).1 k h').symm), upd_ne _ _ e]; exact hi.shutW i n hin h
      · rw [wr_rd, hwr]; exact hi.mid
      · rw [wr_rd]; exact hi.src
      · rw [hwr]; exact hi.got
      · intro i hin h
        obtain ⟨⟨d, hd⟩, h2⟩ := hi.heof i hin h
        have e : i ≠ k := by rintro rfl; rw [hf] at hd; cases hd
        exact ⟨⟨d, by simp only [Fam.set, upd_ne _ _ e]; exact hd⟩, h2⟩
      · intro i n hin h hs
        simp only [close_ne ((sepR hn hin h).2 k)] at hs
        exact hi.shutR i n hin h hs
      · intro n h
        simp only [close_ne (h k).2]; exact hi.shutU n h
      · intro d hd; cases hd; rw [hc, ho]
      · rintro rfl; exact ⟨hi.coh.first, hi.coh.firstEof⟩
      · rintro j rfl h; exact ⟨hi.coh.rest j h, hi.coh.restEof j h⟩
      · exact fun h => ⟨hi.coh.rest _ h, fun h' => ⟨(hi.coh.restEof _ h h').1, c, rfl⟩⟩
      · refine work_lt hi hk (fun i _ e => ?_) ?_ rfl
        · simp only [work, Fam.set, upd_ne _ _ e]
        · simp only [work, Fam.set, upd_same, hp, Proc.ended]; omega
  | @user p b rest hu hb =>
    obtain ⟨k, hk, rfl⟩ := hn.user p hu
    refine ⟨F, ⟨⟨hi.run, hi.exited, hi.killed, hi.cut, hi.fd, hi.out, hi.shutW⟩, ⟨?_, hi.src, ?_, hi.prog, ?_, hi.heof0, hi.shutR, hi.shutU, hi.ext⟩, hi.coh, ?_, ⟨hi.after.zero, hi.after.le⟩⟩⟩
    · intro i hin
      have : q i ≠ q k := fun h => by have := hn.inj i k (by omega) (by omega) h; omega
      simp only [upd_ne _ _ this]; exact hi.mid i hin
    · intro i hin _
      obtain rfl : i = k := by omega
      simp only [upd_same]
      rw [← hi.got i hin hu, hb]; simp
    · intro i hin h
      have : q i ≠ q k := fun h => by have := hn.inj i k (by omega) (by omega) h; omega
      simp only [upd_ne _ _ this]; exact hi.heof i hin h
    · have := hi.steps
      simp only [List.length_append, List.length_singleton]
      have e : (work F { s with buf := upd s.buf (q k) rest, got := s.got ++ [b] }) = work F s := rfl
      rw [e]; omega

theorem inv_steps {init : Nat → σ} {net : Net} {N : Nat} {q : Nat → Nat} {src : Nat → Bytes} {L : Nat} {s : St σ}
    (hn : IsChain net N q) (hs : Steps next net L (St.start init src) s) : ∃ F, Inv next init net N q (src 0) L s F := by
  generalize hx : St.start init src = s0 at hs
  induction hs with
  | nil => subst hx; exact inv_start init net N q src
  | snoc _ h2 ih =>
    obtain ⟨F, hF⟩ := ih hx
    exact inv_step hn hF h2

end Pieshell.Flow
